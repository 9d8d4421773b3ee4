import Verif.Proofs.Source
import Verif.Spec.Listing
/- Lemmas about load_source_file and save_source_file. -/
namespace LB

theorem u32_mod (n : Nat) : u32 n = n % 2 ^ 32 := rfl

theorem ofDigitChars_mod (ds : List Char) (a b : Nat) (h : a % 2 ^ 32 = b % 2 ^ 32) :
    Nat.ofDigitChars 10 ds a % 2 ^ 32 = Nat.ofDigitChars 10 ds b % 2 ^ 32 := by
  induction ds generalizing a b with
  | nil => simpa using h
  | cons c cs ih =>
    rw [Nat.ofDigitChars_cons, Nat.ofDigitChars_cons]
    apply ih; omega

theorem digitsLoop_spec (s : CStr) (v : Nat) (hv : v < 2 ^ 32) :
    digitsLoop s v = (Nat.ofDigitChars 10 (s.takeWhile isdigit) v % 2 ^ 32, s.dropWhile isdigit) := by
  induction s generalizing v with
  | nil => simp [digitsLoop, Nat.mod_eq_of_lt hv]
  | cons c cs ih =>
    simp only [digitsLoop]
    split
    · next h =>
      rw [ih (u32 (v * 10 + digitVal c)) (Nat.mod_lt _ (by decide))]
      simp only [List.takeWhile_cons, h, if_true, List.dropWhile_cons, Nat.ofDigitChars_cons]
      congr 1
      apply ofDigitChars_mod
      simp only [u32, digitVal, show '0'.toNat = 48 from rfl]; omega
    · next h =>
      simp [h, Nat.mod_eq_of_lt hv]

theorem takeWhile_append_digits (ds t : List Char) (hd : ∀ c ∈ ds, isdigit c = true)
    (ht : ∀ c, t.head? = some c → isdigit c = false) :
    (ds ++ t).takeWhile isdigit = ds ∧ (ds ++ t).dropWhile isdigit = t := by
  induction ds with
  | nil =>
    cases t with
    | nil => simp
    | cons c cs => simp [ht c rfl]
  | cons c cs ih =>
    have h := ih (fun x hx => hd x (by simp [hx]))
    simp [hd c (by simp), h.1, h.2]

theorem digitsLoop_digits (ds t : List Char) (hd : ∀ c ∈ ds, isdigit c = true)
    (ht : ∀ c, t.head? = some c → isdigit c = false) :
    digitsLoop (ds ++ t) 0 = (Spec.decimal ds % 2 ^ 32, t) := by
  rw [digitsLoop_spec _ _ (by decide), (takeWhile_append_digits ds t hd ht).1,
    (takeWhile_append_digits ds t hd ht).2]
  rfl

theorem dropWhile_head (s : CStr) (c : Char) (h : (s.dropWhile isdigit).head? = some c) :
    isdigit c = false := by
  induction s with
  | nil => simp at h
  | cons x xs ih =>
    by_cases hx : isdigit x
    · simp [hx] at h; exact ih h
    · simp [hx] at h; subst h; simpa using hx

theorem takeWhile_all (s : CStr) : ∀ c ∈ s.takeWhile isdigit, isdigit c = true := by
  induction s with
  | nil => simp
  | cons x xs ih =>
    by_cases hx : isdigit x
    · simp [hx]; exact ih
    · simp [hx]

/-- The separator-and-text alternatives of a program line. -/
def SepOk (sep t : List Char) : Prop :=
  sep = [' '] ∨ (sep = [] ∧ ∀ c, t.head? = some c → ¬ Spec.IsDigit c ∧ c ≠ ' ')

theorem parseLineNumber_ok (l : CStr) (n : Nat) (t : CStr) :
    parseLineNumber l = .ok (n, t) ↔
      ∃ ds sep, l = ds ++ sep ++ t ∧ ds ≠ [] ∧ (∀ c ∈ ds, Spec.IsDigit c) ∧
        n = Spec.decimal ds % 2 ^ 32 ∧ SepOk sep t := by
  constructor
  · intro h
    unfold parseLineNumber at h
    rw [digitsLoop_spec l 0 (by decide)] at h
    simp only at h
    have hsplit := List.takeWhile_append_dropWhile (p := isdigit) (l := l)
    split at h
    · simp at h
    · next hlen =>
      have hne : l.takeWhile isdigit ≠ [] := by
        intro e
        rw [e] at hsplit; simp only [List.nil_append] at hsplit
        rw [hsplit] at hlen; exact hlen rfl
      have hdig : ∀ c ∈ l.takeWhile isdigit, Spec.IsDigit c :=
        fun c hc => (isdigit_iff c).mp (takeWhile_all l c hc)
      split at h
      · next t' ht' =>
        simp only [Outcome.ok.injEq, Prod.mk.injEq] at h
        obtain ⟨h1, h2⟩ := h
        subst h2
        refine ⟨l.takeWhile isdigit, [' '], ?_, hne, hdig, h1.symm, Or.inl rfl⟩
        rw [List.append_assoc, List.singleton_append, ← ht', hsplit]
      · next hns =>
        simp only [Outcome.ok.injEq, Prod.mk.injEq] at h
        obtain ⟨h1, h2⟩ := h
        refine ⟨l.takeWhile isdigit, [], ?_, hne, hdig, h1.symm, Or.inr ⟨rfl, ?_⟩⟩
        · rw [List.append_nil, ← h2, hsplit]
        · intro c hc
          rw [← h2] at hc
          refine ⟨?_, ?_⟩
          · rw [← isdigit_iff, dropWhile_head l c hc]; simp
          · intro e; subst e
            cases hd : l.dropWhile isdigit with
            | nil => rw [hd] at hc; simp at hc
            | cons x xs =>
              rw [hd] at hc; simp only [List.head?_cons, Option.some.injEq] at hc
              subst hc; exact hns xs hd
  · rintro ⟨ds, sep, hl, hne, hdig, hn, hsep⟩
    have hd : ∀ c ∈ ds, isdigit c = true := fun c hc => (isdigit_iff c).mpr (hdig c hc)
    have ht : ∀ c, (sep ++ t).head? = some c → isdigit c = false := by
      intro c hc
      rcases hsep with rfl | ⟨rfl, h⟩
      · simp at hc; subst hc; decide
      · have := (h c hc).1
        rw [← isdigit_iff] at this; simpa using this
    unfold parseLineNumber
    rw [hl, List.append_assoc, digitsLoop_digits ds (sep ++ t) hd ht]
    have hlen : ¬ (sep ++ t).length = (ds ++ (sep ++ t)).length := by
      have : ds.length ≠ 0 := by simpa using hne
      simp only [List.length_append]; omega
    simp only [hlen, if_false]
    rcases hsep with rfl | ⟨rfl, h⟩
    · simp [hn]
    · simp only [List.nil_append]
      split
      · next t' => exact absurd rfl ((h ' ' (by simp)).2)
      · simp [hn]

theorem fgetsGo_line (k : Nat) (p rest : CStr) (hp : '\n' ∉ p) (hk : p.length < k) :
    fgetsGo k (p ++ '\n' :: rest) = (p ++ ['\n'], rest) := by
  induction p generalizing k with
  | nil =>
    cases k with
    | zero => omega
    | succ k => simp [fgetsGo]
  | cons c cs ih =>
    cases k with
    | zero => omega
    | succ k =>
      simp only [List.mem_cons, not_or] at hp
      simp only [List.cons_append, fgetsGo, Ne.symm hp.1, if_false]
      rw [ih k hp.2 (by simpa using hk)]

theorem fgetsGo_spec (k : Nat) (s : CStr) :
    (∃ p r, fgetsGo k s = (p ++ ['\n'], r) ∧ s = p ++ '\n' :: r ∧ '\n' ∉ p ∧ p.length < k) ∨
    (∃ p r, fgetsGo k s = (p, r) ∧ s = p ++ r ∧ '\n' ∉ p) := by
  induction k generalizing s with
  | zero => right; exact ⟨[], s, rfl, rfl, by simp⟩
  | succ k ih =>
    cases s with
    | nil => right; exact ⟨[], [], rfl, rfl, by simp⟩
    | cons c cs =>
      by_cases hc : c = '\n'
      · left; exact ⟨[], cs, by simp [fgetsGo, hc], by simp [hc], by simp, by simp⟩
      · rcases ih cs with ⟨p, r, h1, h2, h3, h4⟩ | ⟨p, r, h1, h2, h3⟩
        · left
          refine ⟨c :: p, r, ?_, by simp [h2], by simp [h3, Ne.symm hc], by simp [h4]⟩
          simp only [fgetsGo, hc, if_false, h1, List.cons_append]
        · right
          refine ⟨c :: p, r, ?_, by simp [h2], by simp [h3, Ne.symm hc]⟩
          simp only [fgetsGo, hc, if_false, h1]

theorem cstr_eq_of_no_nul (s : CStr) (h : '\x00' ∉ s) : cstr s = s := by
  unfold cstr
  induction s with
  | nil => rfl
  | cons c cs ih =>
    simp only [List.mem_cons, not_or] at h
    simp only [List.takeWhile_cons, ne_eq, Ne.symm h.1, not_false_eq_true, decide_true, if_true]
    rw [ih h.2]

theorem cstr_nul_prefix (p q : CStr) (h : '\x00' ∈ p) : cstr (p ++ q) = cstr p := by
  unfold cstr
  induction p with
  | nil => simp at h
  | cons c cs ih =>
    simp only [List.mem_cons] at h
    by_cases hc : c = '\x00'
    · simp [hc]
    · have : '\x00' ∈ cs := by
        rcases h with h | h
        · exact absurd h.symm hc
        · exact h
      simp only [List.cons_append, List.takeWhile_cons]; rw [ih this]

theorem cstr_mem (s : CStr) (c : Char) (h : c ∈ cstr s) : c ∈ s :=
  (List.takeWhile_sublist _).mem h

theorem parseLineNumber_cases (l : CStr) :
    (∃ n t, parseLineNumber l = .ok (n, t)) ∨ (∃ m, parseLineNumber l = .halt (.exit m)) := by
  unfold parseLineNumber
  split
  next num s h =>
  split
  · exact Or.inr ⟨_, rfl⟩
  · split
    · exact Or.inl ⟨_, _, rfl⟩
    · exact Or.inl ⟨_, _, rfl⟩

theorem appendLine_cases (ls : List SrcLine) (n : Nat) (t : CStr) :
    (appendLine ls n t = .ok (ls ++ [⟨n, t⟩]) ∧ n ≠ 0 ∧ lastNum ls < n) ∨
    ((∃ m, appendLine ls n t = .halt (.exit m)) ∧ ¬ (n ≠ 0 ∧ lastNum ls < n)) := by
  unfold appendLine
  split
  · exact Or.inr ⟨⟨_, rfl⟩, by simp [*]⟩
  · split
    · exact Or.inr ⟨⟨_, rfl⟩, by omega⟩
    · exact Or.inl ⟨rfl, by omega, by omega⟩

/-- One buffer of `load_source_file`, for a complete line. -/
theorem loadBuf_line (ls : List SrcLine) (p : CStr) (hz : '\x00' ∉ p) :
    loadBuf ls (p ++ ['\n']) =
      if p = [] then .halt (.exit "source line is empty")
      else match parseLineNumber p with
        | .halt h => .halt h
        | .ok (n, t) => appendLine ls n t := by
  unfold loadBuf
  rw [cstr_eq_of_no_nul _ (by simp [hz])]
  simp only [List.getLast?_concat, ne_eq, not_true_eq_false, if_false, List.dropLast_concat,
    List.length_eq_zero_iff]
  split
  · rfl
  · cases parseLineNumber p <;> rfl

theorem loadBuf_bad (ls : List SrcLine) (buf : CStr)
    (h : ∀ p, cstr buf ≠ p ++ ['\n']) : ∃ m, loadBuf ls buf = .halt (.exit m) := by
  unfold loadBuf
  cases hg : (cstr buf).getLast? with
  | none => exact ⟨"source line is empty", by simp [hg]⟩
  | some c =>
    by_cases hc : c = '\n'
    · subst hc
      exfalso
      have hne : cstr buf ≠ [] := by intro e; rw [e] at hg; simp at hg
      obtain ⟨q, hq⟩ := List.getLast?_eq_some_iff.mp hg
      exact h q hq
    · exact ⟨"source line is too long", by simp [hg, hc]⟩

theorem no_nl_cstr (p : CStr) (hp : '\n' ∉ p) (q : CStr) : cstr p ≠ q ++ ['\n'] := by
  intro h
  apply hp; apply cstr_mem; rw [h]; simp

/-- `load_source_file` reads exactly the well-formed ascending listings. -/
theorem loadLoop_ok (fuel : Nat) (ls : List SrcLine) (c : CStr) (hf : c.length < fuel) (ls' : List SrcLine) :
    loadLoop fuel ls c = .ok ls' ↔
      ∃ tail : List SrcLine, ls' = ls ++ tail ∧ Spec.Listing c (tail.map SrcLine.pair) ∧
        (lastNum ls :: nums tail).Pairwise (· < ·) ∧ ∀ l ∈ tail, l.num ≠ 0 := by
  induction fuel generalizing ls c with
  | zero => omega
  | succ fuel ih =>
    cases c with
    | nil =>
      simp only [loadLoop, fgets, Outcome.ok.injEq]
      constructor
      · rintro rfl; exact ⟨[], by simp, Spec.Listing.nil, by simp [nums], by simp⟩
      · rintro ⟨tail, rfl, hl, -, -⟩
        cases tail with
        | nil => simp
        | cons x xs =>
          exfalso
          generalize hc : ([] : CStr) = c0 at hl
          cases hl with
          | cons h1 h2 => simp at hc
    | cons ch cs =>
      simp only [loadLoop, fgets]
      rcases fgetsGo_spec 255 (ch :: cs) with ⟨p, r, h1, h2, h3, h4⟩ | ⟨p, r, h1, h2, h3⟩
      · simp only [show (256 - 1 : Nat) = 255 from rfl, h1]
        by_cases hz : '\x00' ∈ p
        · -- a NUL in the line: refused
          obtain ⟨m, hm⟩ := loadBuf_bad ls (p ++ ['\n']) (by
            rw [cstr_nul_prefix _ _ hz]; exact no_nl_cstr p h3)
          simp only [hm, reduceCtorEq, false_iff, not_exists, not_and]
          intro tail _ hl
          exfalso
          rw [h2] at hl
          generalize hc : p ++ '\n' :: r = c0 at hl
          generalize tail.map SrcLine.pair = tp at hl
          cases hl with
          | nil => simp at hc
          | @cons l n t c ps hw hl' =>
            obtain ⟨ds, sep, _, _, _, _, _, hnl, hnul, _⟩ := hw
            have : p = l := by
              have e1 : (p ++ '\n' :: r).takeWhile (fun c => decide (c ≠ '\n')) = p := by
                rw [List.takeWhile_append_of_pos (by intro a ha; simp; rintro rfl; exact h3 ha)]; simp
              have e2 : (l ++ '\n' :: c).takeWhile (fun c => decide (c ≠ '\n')) = l := by
                rw [List.takeWhile_append_of_pos (by intro a ha; simp; rintro rfl; exact hnl ha)]; simp
              rw [← e1, hc, e2]
            subst this; exact hnul hz
        · rw [loadBuf_line ls p hz]
          have hlen : r.length < fuel := by
            have : (ch :: cs).length = p.length + 1 + r.length := by rw [h2]; simp; omega
            omega
          constructor
          · intro h
            split at h
            · next hh => simp at h
            · next ls1 hls1 =>
              rw [ih ls1 r hlen] at h
              obtain ⟨tail, rfl, hl, hpw, h0⟩ := h
              split at hls1
              · simp at hls1
              · next hpne =>
                rcases parseLineNumber_cases p with ⟨n, t, hp⟩ | ⟨m, hp⟩
                · simp only [hp] at hls1
                  rcases appendLine_cases ls n t with ⟨ha, hn0, hlast⟩ | ⟨⟨m, ha⟩, -⟩
                  · rw [ha] at hls1
                    simp only [Outcome.ok.injEq] at hls1
                    subst hls1
                    refine ⟨⟨n, t⟩ :: tail, by simp, ?_, ?_, ?_⟩
                    · rw [h2]
                      refine Spec.Listing.cons ?_ hl
                      obtain ⟨ds, sep, a1, a2, a3, a4, a5⟩ := (parseLineNumber_ok p n t).mp hp
                      exact ⟨ds, sep, a1, a2, a3, a4, a5, h3, hz, by omega⟩
                    · have e : lastNum (ls ++ [⟨n, t⟩]) = n := by simp [lastNum]
                      rw [e] at hpw
                      simp only [nums, List.map_cons] at hpw ⊢
                      refine List.pairwise_cons.mpr ⟨?_, hpw⟩
                      intro a ha
                      rcases List.mem_cons.mp ha with rfl | ha
                      · exact hlast
                      · have := (List.pairwise_cons.mp hpw).1 a ha; omega
                    · intro l hl'
                      rcases List.mem_cons.mp hl' with rfl | hl'
                      · exact hn0
                      · exact h0 l hl'
                  · rw [ha] at hls1; simp at hls1
                · simp [hp] at hls1
          · rintro ⟨tail, rfl, hl, hpw, h0⟩
            rw [h2] at hl
            generalize hc : p ++ '\n' :: r = c0 at hl
            generalize htp : tail.map SrcLine.pair = tp at hl
            cases hl with
            | nil => simp at hc
            | @cons l n t c ps hw hl' =>
              cases tail with
              | nil => simp at htp
              | cons x xs =>
                have hw' := hw
                obtain ⟨ds, sep, hl1, hne, hdig, hn, hsep, hnl, hnul, hlen'⟩ := hw
                have epl : p = l := by
                  have e1 : (p ++ '\n' :: r).takeWhile (fun c => decide (c ≠ '\n')) = p := by
                    rw [List.takeWhile_append_of_pos (by intro a ha; simp; rintro rfl; exact h3 ha)]; simp
                  have e2 : (l ++ '\n' :: c).takeWhile (fun c => decide (c ≠ '\n')) = l := by
                    rw [List.takeWhile_append_of_pos (by intro a ha; simp; rintro rfl; exact hnl ha)]; simp
                  rw [← e1, hc, e2]
                subst epl
                have erc : r = c := by
                  have := List.append_cancel_left hc
                  simpa using this
                subst erc
                have hpne : p ≠ [] := by
                  intro e; rw [e] at hl1
                  have := congrArg List.length hl1
                  simp at this; exact hne (List.length_eq_zero_iff.mp (by omega))
                have hp : parseLineNumber p = .ok (n, t) :=
                  (parseLineNumber_ok p n t).mpr ⟨ds, sep, hl1, hne, hdig, hn, hsep⟩
                simp only [List.map_cons, List.cons.injEq, SrcLine.pair, Prod.mk.injEq] at htp
                obtain ⟨⟨hx1, hx2⟩, htp⟩ := htp
                rw [if_neg hpne]; simp only [hp]
                simp only [nums, List.map_cons] at hpw
                have hxlt := (List.pairwise_cons.mp hpw).1 x.num (by simp)
                rcases appendLine_cases ls n t with ⟨ha, hn0, hlast⟩ | ⟨-, hno⟩
                · simp only [ha]
                  rw [ih _ r hlen]
                  refine ⟨xs, ?_, ?_, ?_, ?_⟩
                  · have : x = ⟨n, t⟩ := by cases x; simp_all
                    simp [this]
                  · rw [← htp] at hl'; exact hl'
                  · have e : lastNum (ls ++ [⟨n, t⟩]) = n := by simp [lastNum]
                    rw [e, ← hx1]
                    exact (List.pairwise_cons.mp hpw).2
                  · intro y hy; exact h0 y (by simp [hy])
                · exfalso; apply hno
                  refine ⟨?_, by omega⟩
                  have := h0 x (by simp); omega
      · -- no newline found: too long or no newline at the end
        simp only [show (256 - 1 : Nat) = 255 from rfl, h1]
        obtain ⟨m, hm⟩ := loadBuf_bad ls p (no_nl_cstr p h3)
        simp only [hm, reduceCtorEq, false_iff, not_exists, not_and]
        intro tail _ hl
        exfalso
        generalize hc : ch :: cs = c0 at hl
        generalize tail.map SrcLine.pair = tp at hl
        cases hl with
        | nil => simp at hc
        | @cons l n t c ps hw hl' =>
          obtain ⟨ds, sep, _, _, _, _, _, hnl, hnul, hlen'⟩ := hw
          rw [hc, fgetsGo_line 255 l c hnl (by omega)] at h1
          simp only [Prod.mk.injEq] at h1
          rw [← h1.1] at h3; simp at h3

theorem loadLoop_cases (fuel : Nat) (ls : List SrcLine) (c : CStr) (hf : c.length < fuel) :
    (∃ ls', loadLoop fuel ls c = .ok ls') ∨ (∃ m, loadLoop fuel ls c = .halt (.exit m)) := by
  induction fuel generalizing ls c with
  | zero => omega
  | succ fuel ih =>
    cases c with
    | nil => exact Or.inl ⟨ls, rfl⟩
    | cons ch cs =>
      simp only [loadLoop, fgets, show (256 - 1 : Nat) = 255 from rfl]
      rcases fgetsGo_spec 255 (ch :: cs) with ⟨p, r, h1, h2, h3, h4⟩ | ⟨p, r, h1, h2, h3⟩
      · simp only [h1]
        have hlen : r.length < fuel := by
          have : (ch :: cs).length = p.length + 1 + r.length := by rw [h2]; simp; omega
          omega
        by_cases hz : '\x00' ∈ p
        · obtain ⟨m, hm⟩ := loadBuf_bad ls (p ++ ['\n']) (by
            rw [cstr_nul_prefix _ _ hz]; exact no_nl_cstr p h3)
          exact Or.inr ⟨m, by simp [hm]⟩
        · rw [loadBuf_line ls p hz]
          by_cases hpe : p = []
          · exact Or.inr ⟨"source line is empty", by simp [hpe]⟩
          · rw [if_neg hpe]
            rcases parseLineNumber_cases p with ⟨n, t, hp⟩ | ⟨m, hp⟩
            · simp only [hp]
              rcases appendLine_cases ls n t with ⟨ha, -⟩ | ⟨⟨m, ha⟩, -⟩
              · simp only [ha]; exact ih _ _ hlen
              · exact Or.inr ⟨m, by simp [ha]⟩
            · exact Or.inr ⟨m, by simp [hp]⟩
      · simp only [h1]
        obtain ⟨m, hm⟩ := loadBuf_bad ls p (no_nl_cstr p h3)
        exact Or.inr ⟨m, by simp [hm]⟩

theorem saveLine_wf (l : SrcLine) (hn : l.num < 2 ^ 32) (ht : '\n' ∉ l.text) (hz : '\x00' ∉ l.text)
    (hlen : (saveLine l).length ≤ 255) :
    Spec.WellFormedLine (fmtU l.num ++ ' ' :: l.text) l.num l.text := by
  refine ⟨fmtU l.num, [' '], by simp, fmtU_ne_nil _,
    fun c hc => (isdigit_iff c).mp (fmtU_digits _ c hc), ?_, Or.inl rfl, ?_, ?_, ?_⟩
  · rw [decimal_fmtU, Nat.mod_eq_of_lt hn]
  · simp only [List.mem_append, List.mem_cons, not_or]
    exact ⟨fun h => absurd (fmtU_digits _ _ h) (by decide), by decide, ht⟩
  · simp only [List.mem_append, List.mem_cons, not_or]
    exact ⟨fun h => absurd (fmtU_digits _ _ h) (by decide), by decide, hz⟩
  · simp only [saveLine, List.length_append, List.length_cons, List.length_nil] at hlen ⊢
    omega

theorem save_listing (ls : List SrcLine)
    (h : ∀ l ∈ ls, l.num < 2 ^ 32 ∧ '\n' ∉ l.text ∧ '\x00' ∉ l.text ∧ (saveLine l).length ≤ 255) :
    Spec.Listing (ls.map saveLine).flatten (ls.map SrcLine.pair) := by
  induction ls with
  | nil => exact Spec.Listing.nil
  | cons l rest ih =>
    obtain ⟨h1, h2, h3, h4⟩ := h l (by simp)
    have := Spec.Listing.cons (saveLine_wf l h1 h2 h3 h4) (ih (fun x hx => h x (by simp [hx])))
    simpa [saveLine, SrcLine.pair] using this

end LB
