import Verif.Spec.Typing
import Verif.Proofs.Load
/- Lemmas about Monitor/interactive.c. -/
namespace LB
open LB.Spec _root_.Spec

theorem isSpTab_iff (c : Char) : V.isSpTab c = true ↔ c = ' ' ∨ c = '\t' := by simp [V.isSpTab]

theorem skipSpace_blanks {pre : List Char} (h : Blanks pre) (t : CStr) : skipSpace (pre ++ t) = skipSpace t := by
  unfold skipSpace
  induction pre with
  | nil => rfl
  | cons c cs ih =>
    have hc : V.isSpTab c = true := (isSpTab_iff c).2 (h c (by simp))
    simp only [List.cons_append, List.dropWhile_cons, hc, if_true]
    exact ih (fun x hx => h x (by simp [hx]))

theorem skipSpace_stays {c : Char} {t : CStr} (h : V.isSpTab c = false) : skipSpace (c :: t) = c :: t := by
  simp [skipSpace, h]

theorem digit_not_blank {c : Char} (h : isdigit c = true) : V.isSpTab c = false := by
  simp only [isdigit, decide_eq_true_eq] at h
  cases hb : V.isSpTab c with
  | false => rfl
  | true =>
    rcases (isSpTab_iff c).1 hb with rfl | rfl <;> exact absurd h (by decide)

theorem readNumGo_eq (s : CStr) (v : Nat) : readNumGo v s = digitsLoop s v := by
  induction s generalizing v with
  | nil => rfl
  | cons c cs ih =>
    simp only [readNumGo, digitsLoop]
    split
    · rw [ih, Nat.mul_comm]
    · rfl

theorem readNumGo_digits (ds t : List Char) (hd : ∀ c ∈ ds, isdigit c = true)
    (ht : ∀ c, t.head? = some c → isdigit c = false) :
    readNumGo 0 (ds ++ t) = (decimal ds % 2 ^ 32, t) := by
  rw [readNumGo_eq, digitsLoop_digits ds t hd ht]

/-- One separating space removed. -/
def afterSpace : CStr → CStr
  | ' ' :: q => q
  | p => p

theorem afterSpace_eq (t : CStr) : (match t with | ' ' :: q => q | _ => t) = afterSpace t := by
  unfold afterSpace
  split <;> rfl

theorem interpret_number (ctx : Ctx) (s : LB.Session) {pre ds t : List Char} (hp : Blanks pre) (hn : ds ≠ [])
    (hd : ∀ c ∈ ds, IsDigit c) (ht : ∀ c, t.head? = some c → ¬ IsDigit c) :
    interpret ctx s (pre ++ ds ++ t) =
      if atEol t then .ok { s with vm := vmDeleteSourceLine s.vm (decimal ds % 2 ^ 32) }
      else match vmEnterSourceLine s.vm (decimal ds % 2 ^ 32) (afterSpace t) with
        | .halt h => .halt h
        | .ok vm => .ok { s with vm := vm } := by
  have hd' : ∀ c ∈ ds, isdigit c = true := fun c hc => (isdigit_iff c).2 (hd c hc)
  have ht' : ∀ c, t.head? = some c → isdigit c = false := fun c hc => by
    have := ht c hc
    rw [← isdigit_iff] at this
    simpa using this
  cases ds with
  | nil => exact absurd rfl hn
  | cons c cs =>
    have hc := hd' c (by simp)
    unfold interpret
    rw [List.append_assoc, skipSpace_blanks hp, List.cons_append, skipSpace_stays (digit_not_blank hc)]
    simp only [hc, if_true]
    unfold programLine readNum
    simp only [hc, if_true]
    have := readNumGo_digits (c :: cs) t hd' ht'
    rw [List.cons_append] at this
    rw [this]
    by_cases ha : atEol t
    · simp [ha]
    · simp only [ha]
      rw [← afterSpace_eq]
      rfl

theorem lines_pairs {vm : VM} {src : Source} (h : vm.stored.source = some src) : lines vm = src.pairs := by
  unfold lines; rw [h]; rfl

theorem delete_lines (vm : VM) (p : Prog) (num : Nat) (hs : Shows (lines vm) p) :
    Shows (lines (vmDeleteSourceLine vm num)) (applyEdit p (.erase num)) := by
  unfold vmDeleteSourceLine
  cases hsrc : vm.stored.source with
  | none =>
    simp only
    have h0 : lines vm = [] := by unfold lines; rw [hsrc]
    rw [h0] at hs ⊢
    refine ⟨hs.1, fun n t => ?_⟩
    have := hs.2 n t
    simp only [List.not_mem_nil, false_iff] at this ⊢
    simp only [applyEdit]
    split
    · simp
    · exact this
  | some src =>
    rw [lines_pairs hsrc] at hs
    simp only
    cases hf : findSourceLinenum src num with
    | none =>
      simp only
      rw [lines_pairs hsrc]
      have hnone := (find_shows src p num hs).mp hf
      refine ⟨hs.1, fun n t => ?_⟩
      rw [hs.2 n t]
      simp only [applyEdit]
      by_cases hn : n = num
      · subst hn; simp [hnone]
      · simp [hn]
    | some i => exact delete_shows src p num i hs hf

theorem enter_lines (vm : VM) (p : Prog) (num : Nat) (text : CStr) (hs : Shows (lines vm) p)
    (h0 : num = 0 → lines vm ≠ []) :
    ∃ vm', vmEnterSourceLine vm num text = .ok vm' ∧ Shows (lines vm') (applyEdit p (.enter num text)) := by
  have hsrc : lines vm = (vm.stored.source.getD (newSource none)).pairs := by
    unfold lines
    cases vm.stored.source <;> rfl
  rw [hsrc] at hs
  obtain ⟨src', he, -, hs'⟩ := enter_shows _ p num text hs (fun h => by
    have := h0 h
    rw [hsrc] at this
    intro hl
    exact this (by simp [Source.pairs, hl]))
  refine ⟨_, by unfold vmEnterSourceLine; rw [he], ?_⟩
  rw [lines_pairs (src := src') rfl]
  exact hs'

theorem interpret_new (ctx : Ctx) (s : LB.Session) :
    interpret ctx s "NEW".toList = .ok { s with vm := vmClearNames (vmNewProgram s.vm) } := rfl

theorem lines_new (vm : VM) : lines (vmClearNames (vmNewProgram vm)) = [] := by
  simp only [vmClearNames, vmNewProgram, storedProgramChanged, lines]
  cases vm.stored.source <;> rfl

theorem isalpha_iff (c : Char) : isalpha c = true ↔ IsLetter c := by
  simp only [isalpha, isupper, islower, Bool.or_eq_true, decide_eq_true_eq, IsLetter, Char.le_def]
  rfl

theorem takeWhile_letters {w rest : List Char} (hw : ∀ c ∈ w, IsLetter c)
    (hr : ∀ c, rest.head? = some c → ¬ IsLetter c) : (w ++ rest).takeWhile isalpha = w := by
  induction w with
  | nil =>
    cases rest with
    | nil => rfl
    | cons c cs =>
      have := hr c rfl
      rw [← isalpha_iff] at this
      simp [this]
  | cons c cs ih =>
    have := (isalpha_iff c).2 (hw c (by simp))
    simp only [List.cons_append, List.takeWhile_cons, this, if_true]
    rw [ih (fun x hx => hw x (by simp [hx]))]

theorem sameIgnoringCase_length {a b : List Char} (h : SameIgnoringCase a b) : a.length = b.length := by
  have := congrArg List.length h
  simpa using this

theorem findCommand_test (p w rest : List Char) :
    (p.length == w.length && strncasecmp p (w ++ rest) w.length == 0) = true ↔ SameIgnoringCase p w := by
  simp only [Bool.and_eq_true, beq_iff_eq, strncasecmp_eq_zero_iff]
  rw [List.take_left]
  constructor
  · rintro ⟨h1, h2⟩
    rw [← h1, List.take_length] at h2
    exact h2
  · intro h
    have := sameIgnoringCase_length h
    refine ⟨this, ?_⟩
    rw [← this, List.take_length]
    exact h

theorem findCommand_none {w rest : List Char} (h : ∀ n k, (n, k) ∈ commandNames → ¬ SameIgnoringCase n.toList w) :
    findCommand (w ++ rest) w.length = none := by
  unfold findCommand
  rw [Option.map_eq_none_iff, List.find?_eq_none]
  intro p hp
  rw [findCommand_test]
  have : commands = commandNames.map (fun x => (x.1.toList, x.2)) := by decide
  rw [this] at hp
  obtain ⟨x, hx, rfl⟩ := List.mem_map.1 hp
  exact h x.1 x.2 hx

theorem findCommand_some {w rest : List Char} {n : String} {k : Cmd} (hk : (n, k) ∈ commandNames)
    (h : SameIgnoringCase n.toList w) : findCommand (w ++ rest) w.length = some k := by
  have hu : ∀ p ∈ commands, ∀ x ∈ commandNames, p.1.map Char.toUpper = x.1.toList.map Char.toUpper → p.2 = x.2 := by
    decide
  have hc : commands = commandNames.map (fun x => (x.1.toList, x.2)) := by decide
  unfold findCommand
  cases hf : commands.find? (fun p => p.1.length == w.length && strncasecmp p.1 (w ++ rest) w.length == 0) with
  | none =>
    rw [List.find?_eq_none] at hf
    have hm : (n.toList, k) ∈ commands := by rw [hc]; exact List.mem_map.2 ⟨_, hk, rfl⟩
    have := hf _ hm
    rw [findCommand_test] at this
    exact absurd h this
  | some p =>
    have h1 := List.find?_some hf
    simp only [findCommand_test] at h1
    have h2 := List.mem_of_find?_eq_some hf
    simp only [Option.map_some]
    congr 1
    exact hu p h2 _ hk (h1.trans h.symm)

theorem letter_facts {c : Char} (h : IsLetter c) : V.isSpTab c = false ∧ isdigit c = false ∧ c ≠ '*' ∧ c ≠ '\n' := by
  rw [← isalpha_iff] at h
  simp only [isalpha, isupper, islower, Bool.or_eq_true, decide_eq_true_eq] at h
  refine ⟨?_, ?_, ?_, ?_⟩
  · cases hb : V.isSpTab c with
    | false => rfl
    | true => rcases (isSpTab_iff c).1 hb with rfl | rfl <;> exact absurd h (by decide)
  · simp only [isdigit, decide_eq_false_iff_not]; omega
  · rintro rfl; exact absurd h (by decide)
  · rintro rfl; exact absurd h (by decide)

theorem interpret_immediate (ctx : Ctx) (s : LB.Session) {pre t : List Char} {c : Char} (hp : Blanks pre)
    (h1 : V.isSpTab c = false) (h2 : isdigit c = false) (h3 : c ≠ '*') (h4 : c ≠ '\n') :
    interpret ctx s (pre ++ c :: t) = immediateLine ctx s (c :: t) := by
  unfold interpret
  rw [skipSpace_blanks hp, skipSpace_stays h1]
  simp [h2, h3, h4]

theorem interpret_command (ctx : Ctx) (s : LB.Session) {pre w rest : List Char} {n : String} {k : Cmd} (hp : Blanks pre)
    (hw : ∀ c ∈ w, IsLetter c) (hr : ∀ c, rest.head? = some c → ¬ IsLetter c) (hk : (n, k) ∈ commandNames)
    (h : SameIgnoringCase n.toList w) : interpret ctx s (pre ++ w ++ rest) = command ctx s k rest := by
  have hl := sameIgnoringCase_length h
  have hne : w ≠ [] := by
    rintro rfl
    have : ∀ x ∈ commandNames, x.1.toList.length ≠ 0 := by decide
    exact this _ hk (by simpa using hl)
  cases w with
  | nil => exact absurd rfl hne
  | cons c cs =>
    obtain ⟨h1, h2, h3, h4⟩ := letter_facts (hw c (by simp))
    rw [List.append_assoc, List.cons_append, interpret_immediate ctx s hp h1 h2 h3 h4]
    unfold immediateLine
    have ht := takeWhile_letters hw hr
    rw [List.cons_append] at ht
    simp only [ht]
    have hf := findCommand_some (rest := rest) hk h
    rw [List.cons_append] at hf
    simp only [List.isEmpty_cons, Bool.false_eq_true, if_false, hf]
    congr 1
    have := List.drop_left (l₁ := c :: cs) (l₂ := rest)
    rwa [List.cons_append] at this

theorem Session.ifEol_quit {s s' : LB.Session} {l : CStr} {k : Outcome LB.Session} (hq : s.quit = false)
    (hk : ∀ s', k = .ok s' → s'.quit = false) (h : s.ifEol l k = .ok s') : s'.quit = false := by
  unfold LB.Session.ifEol at h
  split at h
  · exact hk _ h
  · cases h; exact hq

theorem Session.withVm_quit {s s' : LB.Session} {r : Outcome (Option RunEnd × VM)} (hq : s.quit = false)
    (h : s.withVm r = .ok s') : s'.quit = false := by
  unfold LB.Session.withVm at h
  split at h <;> cases h
  exact hq

/-- Commands other than BYE leave the session open. -/
theorem command_quit {ctx : Ctx} {s s' : LB.Session} {k : Cmd} {l : CStr} (hk : k ≠ .bye) (hq : s.quit = false)
    (h : command ctx s k l = .ok s') : s'.quit = false := by
  cases k with
  | bye => exact absurd rfl hk
  | compile =>
    simp only [command] at h
    split at h <;> cases h
    exact hq
  | cont =>
    simp only [command] at h
    split at h <;> cases h <;> exact hq
  | help => cases h; exact hq
  | new => exact Session.ifEol_quit hq (by intro s' h; cases h; exact hq) h
  | list => exact Session.ifEol_quit hq (by intro s' h; cases h; exact hq) h
  | load =>
    simp only [command, loadCommand] at h
    split at h
    · split at h
      · split at h <;> cases h
        exact hq
      · cases h; exact hq
    · cases h; exact hq
  | save =>
    simp only [command, saveCommand] at h
    cases h
    split
    · split
      · split
        · exact hq
        · split <;> exact hq
      · exact hq
    · exact hq
  | renum =>
    refine Session.ifEol_quit hq ?_ h
    intro s' h
    split at h <;> cases h
    exact hq
  | run => exact Session.withVm_quit hq h

theorem checkEol_split {l : CStr} (h : checkEol l = true) :
    ∃ sp t, l = sp ++ t ∧ Blanks sp ∧ (t = [] ∨ t.head? = some '\n') := by
  refine ⟨l.takeWhile V.isSpTab, l.dropWhile V.isSpTab, (List.takeWhile_append_dropWhile ..).symm, ?_, ?_⟩
  · intro c hc
    have := List.all_takeWhile (l := l) (p := V.isSpTab)
    rw [List.all_eq_true] at this
    simpa [V.isSpTab] using this c hc
  · unfold checkEol skipSpace atEol at h
    split at h
    · rename_i he; exact .inl he
    · rename_i c t he
      rw [he]
      exact .inr (by simpa using h)

/-- Only BYE ends a session. -/
theorem interpret_quit {ctx : Ctx} {s s' : LB.Session} {line : List Char} (hq : s.quit = false)
    (h : interpret ctx s line = .ok s') (hq' : s'.quit = true) :
    ∃ pre w sp t, line = pre ++ w ++ (sp ++ t) ∧ Blanks pre ∧ SameIgnoringCase "BYE".toList w ∧ Blanks sp ∧
      (t = [] ∨ t.head? = some '\n') ∧ s' = { s with quit := true } := by
  have hne : s'.quit ≠ false := by rw [hq']; decide
  unfold interpret at h
  split at h
  · cases h; exact absurd hq hne
  · rename_i c p hp
    split at h
    · unfold programLine at h
      split at h
      · cases h
      · split at h
        · cases h; exact absurd hq hne
        · simp only at h
          split at h <;> cases h
          exact absurd hq hne
    · split at h
      · cases h; exact absurd hq hne
      · split at h
        · cases h; exact absurd hq hne
        · rw [← hp] at h
          unfold immediateLine at h
          simp only at h
          split at h
          · rename_i k hk
            by_cases hkb : k = .bye
            · subst hkb
              have hline : line = line.takeWhile V.isSpTab ++ skipSpace line :=
                (List.takeWhile_append_dropWhile ..).symm
              have hpre : Blanks (line.takeWhile V.isSpTab) := by
                intro c hc
                have := List.all_takeWhile (l := line) (p := V.isSpTab)
                rw [List.all_eq_true] at this
                simpa [V.isSpTab] using this c hc
              generalize skipSpace line = l at *
              have hl : l = l.takeWhile isalpha ++ l.drop (l.takeWhile isalpha).length := by
                conv => lhs; rw [← List.take_append_drop (l.takeWhile isalpha).length l]
                congr 1
                exact (List.prefix_iff_eq_take.1 (List.takeWhile_prefix _)).symm
              generalize l.takeWhile isalpha = w at *
              have hk' : findCommand (w ++ l.drop w.length) w.length = some .bye := by
                rw [← hl]
                split at hk
                · cases hk
                · exact hk
              have hsame : SameIgnoringCase "BYE".toList w := by
                refine Classical.byContradiction fun hno => ?_
                by_cases hall : ∀ n k, (n, k) ∈ commandNames → ¬ SameIgnoringCase n.toList w
                · rw [findCommand_none hall] at hk'; cases hk'
                · simp only [Classical.not_forall, Classical.not_not] at hall
                  obtain ⟨n, k, hm, hs⟩ := hall
                  rw [findCommand_some hm hs] at hk'
                  cases hk'
                  have : ∀ x ∈ commandNames, x.2 = Cmd.bye → x.1 = "BYE" := by decide
                  have hn : n = "BYE" := this _ hm rfl
                  subst hn
                  exact hno hs
              simp only [command, LB.Session.ifEol] at h
              split at h
              · rename_i he
                cases h
                obtain ⟨sp, t, h1, h2, h3⟩ := checkEol_split he
                refine ⟨_, w, sp, t, ?_, hpre, hsame, h2, h3, rfl⟩
                rw [← h1, List.append_assoc, ← hl]
                exact hline
              · cases h; exact absurd hq hne
            · exact absurd (command_quit hkb hq h) hne
          · exact absurd (Session.withVm_quit hq h) hne

theorem interpret_statement (ctx : Ctx) (s : LB.Session) {pre w rest : List Char} (hp : Blanks pre)
    (hw : ∀ c ∈ w, IsLetter c) (hr : ∀ c, rest.head? = some c → ¬ IsLetter c)
    (hk : ∀ n k, (n, k) ∈ commandNames → ¬ SameIgnoringCase n.toList w)
    (hs : w = [] → ∃ c, rest.head? = some c ∧ c ≠ ' ' ∧ c ≠ '\t' ∧ c ≠ '*' ∧ c ≠ '\n' ∧ ¬ IsDigit c) :
    interpret ctx s (pre ++ w ++ rest) =
      s.withVm (runImmediate ctx.env ctx.brk ctx.fuel s.vm (w ++ rest)) := by
  have hf := findCommand_none (rest := rest) hk
  have ht := takeWhile_letters hw hr
  have main : immediateLine ctx s (w ++ rest) =
      s.withVm (runImmediate ctx.env ctx.brk ctx.fuel s.vm (w ++ rest)) := by
    unfold immediateLine
    simp only [ht, hf, ite_self]
  cases w with
  | nil =>
    obtain ⟨c, hc, h1, h2, h3, h4, h5⟩ := hs rfl
    cases rest with
    | nil => simp at hc
    | cons d ds =>
      simp only [List.head?_cons, Option.some.injEq] at hc
      subst hc
      rw [List.append_assoc, ← main]
      refine interpret_immediate ctx s hp ?_ ?_ h3 h4
      · cases hb : V.isSpTab d with
        | false => rfl
        | true => rcases (isSpTab_iff d).1 hb with h | h <;> contradiction
      · rw [← isdigit_iff] at h5
        simpa using h5
  | cons c cs =>
    obtain ⟨h1, h2, h3, h4⟩ := letter_facts (hw c (by simp))
    rw [List.append_assoc, ← main]
    exact interpret_immediate ctx s hp h1 h2 h3 h4

theorem listLoop_eq (a b : Nat) (ls : List SrcLine) (k count : Nat) (stdin : CStr)
    (hs : (nums ls).Pairwise (· < ·)) :
    listLoop (fun _ => false) a b false ls k count stdin =
      (listing ((ls.map SrcLine.pair).filter (fun l => decide (a ≤ l.1 ∧ l.1 ≤ b))), stdin) := by
  induction ls generalizing k count with
  | nil => rfl
  | cons l ls ih =>
    have hs' : (nums ls).Pairwise (· < ·) := (List.pairwise_cons.1 hs).2
    have hlt : ∀ m ∈ ls, l.num < m.num := fun m hm =>
      (List.pairwise_cons.1 hs).1 m.num (List.mem_map.2 ⟨m, hm, rfl⟩)
    simp only [listLoop, Bool.false_eq_true, if_false, Bool.false_and]
    by_cases h1 : l.num > b
    · rw [if_pos h1]
      have : ((l :: ls).map SrcLine.pair).filter (fun l => decide (a ≤ l.1 ∧ l.1 ≤ b)) = [] := by
        rw [List.filter_eq_nil_iff]
        intro p hp
        obtain ⟨m, hm, rfl⟩ := List.mem_map.1 hp
        rw [decide_eq_true_eq]
        intro h
        have hb : m.num ≤ b := h.2
        rcases List.mem_cons.1 hm with rfl | hm
        · omega
        · have := hlt m hm; omega
      rw [this]; rfl
    · rw [if_neg h1]
      by_cases h2 : l.num ≥ a
      · rw [if_pos h2, ih _ _ hs']
        have : decide (a ≤ (SrcLine.pair l).1 ∧ (SrcLine.pair l).1 ≤ b) = true := by
          exact decide_eq_true ⟨h2, Nat.le_of_not_lt h1⟩
        rw [List.map_cons, List.filter_cons, if_pos this]
        simp [listing, SrcLine.pair, fmtU, numeral]
      · rw [if_neg h2, ih _ _ hs']
        have : ¬ decide (a ≤ (SrcLine.pair l).1 ∧ (SrcLine.pair l).1 ≤ b) = true := by
          rw [decide_eq_true_eq]
          exact fun h => h2 h.1
        rw [List.map_cons, List.filter_cons, if_neg this]

theorem numeral_ne_nil (n : Nat) : numeral n ≠ [] := by
  unfold numeral
  intro h
  have := Nat.length_toDigits_pos (b := 10) (n := n)
  rw [h] at this
  simp at this

theorem numeral_cons (n : Nat) : ∃ c cs, numeral n = c :: cs ∧ isdigit c = true := by
  cases h : numeral n with
  | nil => exact absurd h (numeral_ne_nil n)
  | cons c cs => exact ⟨c, cs, rfl, fmtU_digits n c (by show c ∈ numeral n; rw [h]; simp)⟩

theorem optNum_optional (o : Option Nat) (t : CStr) (d : Nat) (h : ∀ n, o = some n → n < 2 ^ 32)
    (ht : ∀ c, t.head? = some c → isdigit c = false) :
    optNum (maybe o ++ t) d = (o.getD d, t) := by
  cases o with
  | none =>
    simp only [maybe, List.nil_append, optNum, Option.getD_none]
    have : startsDigit t = false := by
      cases t with
      | nil => rfl
      | cons c cs => exact ht c rfl
    simp [this]
  | some n =>
    have hd := readNumGo_digits (numeral n) t (fmtU_digits n) ht
    have hdn : decimal (numeral n) = n := decimal_fmtU n
    rw [hdn, Nat.mod_eq_of_lt (h n rfl)] at hd
    simp only [maybe, optNum, hd]
    obtain ⟨c, cs, hc, hdig⟩ := numeral_cons n
    simp [hc, startsDigit, hdig]

theorem startsDigit_optional (o : Option Nat) (t : CStr) (ht : ∀ c, t.head? = some c → isdigit c = false) :
    startsDigit (maybe o ++ t) = o.isSome := by
  cases o with
  | none =>
    cases t with
    | nil => rfl
    | cons c cs => exact ht c rfl
  | some n =>
    obtain ⟨c, cs, hc, hdig⟩ := numeral_cons n
    simp [maybe, hc, startsDigit, hdig]

theorem skipSpace_optional (o : Option Nat) (c : Char) (t : CStr) (hc : V.isSpTab c = false) :
    skipSpace (maybe o ++ c :: t) = maybe o ++ c :: t := by
  cases o with
  | none => exact skipSpace_stays hc
  | some n =>
    obtain ⟨d, ds, hd, hdig⟩ := numeral_cons n
    rw [maybe, hd, List.cons_append]
    exact skipSpace_stays (digit_not_blank hdig)

theorem skipSpace_optional_end (o : Option Nat) : skipSpace (maybe o) = maybe o := by
  cases o with
  | none => rfl
  | some n =>
    obtain ⟨d, ds, hd, hdig⟩ := numeral_cons n
    rw [maybe, hd]
    exact skipSpace_stays (digit_not_blank hdig)

theorem getListNumbers_range (sp : List Char) (a b : Option Nat) (hsp : Blanks sp)
    (ha : ∀ n, a = some n → n < 2 ^ 32) (hb : ∀ n, b = some n → n < 2 ^ 32) :
    getListNumbers (sp ++ maybe a ++ '-' :: maybe b) = (a.getD 0, b.getD (2 ^ 32 - 1), []) := by
  unfold getListNumbers
  have hdash : ∀ c, ('-' :: maybe b : List Char).head? = some c → isdigit c = false := by
    intro c hc; simp only [List.head?_cons, Option.some.injEq] at hc; subst hc; decide
  have h2 := optNum_optional b [] (2 ^ 32 - 1) hb (by simp)
  rw [List.append_nil] at h2
  rw [List.append_assoc, skipSpace_blanks hsp, skipSpace_optional a '-' _ (by decide)]
  simp only [startsDigit_optional a _ hdash, optNum_optional a _ 0 ha hdash]
  cases a with
  | none =>
    show (0, optNum (skipSpace (maybe b)) (2 ^ 32 - 1)) = _
    rw [skipSpace_optional_end, h2]
    rfl
  | some n => simp [skipSpace_stays (c := '-') (t := maybe b) (by decide), skipSpace_optional_end, h2]

theorem getListNumbers_from (sp sp' : List Char) (a : Option Nat) (hsp : Blanks sp) (hsp' : Blanks sp')
    (ha : ∀ n, a = some n → n < 2 ^ 32) :
    ∃ r, getListNumbers (sp ++ maybe a ++ sp') = (a.getD 0, 2 ^ 32 - 1, r) ∧ Blanks r := by
  unfold getListNumbers
  have hnd : ∀ c, sp'.head? = some c → isdigit c = false := by
    intro c hc
    have := hsp' c (List.mem_of_head? hc)
    rcases this with rfl | rfl <;> decide
  have hs0 : skipSpace sp' = [] := by
    have := skipSpace_blanks hsp' []
    rwa [List.append_nil] at this
  have hs1 : skipSpace (maybe a ++ sp') = if a.isSome then maybe a ++ sp' else [] := by
    cases a with
    | none => simpa [maybe] using hs0
    | some n =>
      obtain ⟨d, ds, hd, hdig⟩ := numeral_cons n
      rw [maybe, hd, List.cons_append]
      exact skipSpace_stays (digit_not_blank hdig)
  rw [List.append_assoc, skipSpace_blanks hsp, hs1]
  cases a with
  | none => exact ⟨[], by simp [startsDigit], by intro c hc; simp at hc⟩
  | some n =>
    refine ⟨[], ?_, by intro c hc; simp at hc⟩
    simp [startsDigit_optional (some n) _ hnd, optNum_optional (some n) _ 0 ha hnd, hs0]

theorem awaitNewline_eq (s : CStr) : awaitNewline s = afterLine s := by
  induction s with
  | nil => rfl
  | cons c s ih =>
    unfold awaitNewline at ih ⊢
    by_cases h : c = '\n'
    · simp [afterLine, h]
    · simp only [afterLine, if_neg h, ← ih]
      rw [List.dropWhile_cons, if_pos (by simp [h])]

/-- The listing in pages, from any point of the program on. -/
theorem listLoop_paged (a b : Nat) (last : Option Nat) (ls : List SrcLine) (k count : Nat) (stdin : CStr)
    (hs : (nums ls).Pairwise (· < ·)) (hl : ls ≠ [] → (nums ls).getLast? = last) :
    listLoop (fun _ => false) a b true ls k count stdin =
      (pagedListing last (((ls.map SrcLine.pair).filter (fun l => decide (a ≤ l.1 ∧ l.1 ≤ b))).zipIdx count),
       afterLines ((((ls.map SrcLine.pair).filter (fun l => decide (a ≤ l.1 ∧ l.1 ≤ b))).zipIdx count).filter
         (turnsPage last)).length stdin) := by
  induction ls generalizing k count stdin with
  | nil => rfl
  | cons l ls ih =>
    have hs' : (nums ls).Pairwise (· < ·) := (List.pairwise_cons.1 hs).2
    have hlt : ∀ m ∈ ls, l.num < m.num := fun m hm =>
      (List.pairwise_cons.1 hs).1 m.num (List.mem_map.2 ⟨m, hm, rfl⟩)
    have hl1 := hl (by simp)
    have hl' : ls ≠ [] → (nums ls).getLast? = last := by
      intro h
      rw [← hl1]
      cases ls with
      | nil => exact absurd rfl h
      | cons m ms => rfl
    have hlast : (some l.num != last) = !ls.isEmpty := by
      rw [← hl1]
      cases ls with
      | nil => simp [nums]
      | cons m ms =>
        have hmem : ∀ x, (nums (m :: ms)).getLast? = some x → l.num < x := by
          intro x hx
          obtain ⟨y, hy, rfl⟩ := List.mem_map.1 (List.mem_of_getLast? hx)
          exact hlt y hy
        have e : (nums (l :: m :: ms)).getLast? = (nums (m :: ms)).getLast? := rfl
        rw [e]
        cases hg : (nums (m :: ms)).getLast? with
        | none => simp
        | some x =>
          have := hmem x hg
          have hne : l.num ≠ x := by omega
          simp [hne]
    simp only [listLoop, Bool.false_eq_true, if_false, Bool.true_and]
    by_cases h1 : l.num > b
    · rw [if_pos h1]
      have : ((l :: ls).map SrcLine.pair).filter (fun l => decide (a ≤ l.1 ∧ l.1 ≤ b)) = [] := by
        rw [List.filter_eq_nil_iff]
        intro p hp
        obtain ⟨m, hm, rfl⟩ := List.mem_map.1 hp
        rw [decide_eq_true_eq]
        intro h
        have hb : m.num ≤ b := h.2
        rcases List.mem_cons.1 hm with rfl | hm
        · omega
        · have := hlt m hm; omega
      rw [this]; rfl
    · rw [if_neg h1]
      by_cases h2 : l.num ≥ a
      · have : decide (a ≤ (SrcLine.pair l).1 ∧ (SrcLine.pair l).1 ≤ b) = true := by
          exact decide_eq_true ⟨h2, Nat.le_of_not_lt h1⟩
        rw [if_pos h2, List.map_cons, List.filter_cons, if_pos this, List.zipIdx_cons]
        have ht : turnsPage last (SrcLine.pair l, count) =
            (decide ((count + 1) % pageSize = pageSize - 1) && !ls.isEmpty) := by
          rw [← hlast]
          show (count % 24 == 22 && some l.num != last) = _
          congr 1
          rw [Bool.eq_iff_iff, beq_iff_eq, decide_eq_true_iff]
          show _ ↔ (count + 1) % 24 = 23
          omega
        rw [← ht, List.filter_cons, pagedListing, List.map_cons, List.flatten_cons]
        cases htp : turnsPage last (SrcLine.pair l, count) with
        | true =>
          simp only [if_true, ih _ _ _ hs' hl', List.length_cons, afterLines, awaitNewline_eq]
          simp [SrcLine.pair, fmtU, numeral, pagedListing]
        | false =>
          simp only [Bool.false_eq_true, if_false, ih _ _ _ hs' hl']
          simp [SrcLine.pair, fmtU, numeral, pagedListing]
      · have : decide (a ≤ (SrcLine.pair l).1 ∧ (SrcLine.pair l).1 ≤ b) = false := by
          refine decide_eq_false ?_
          rintro ⟨h, -⟩
          exact h2 h
        rw [if_neg h2, ih _ _ _ hs' hl', List.map_cons, List.filter_cons, if_neg (by rw [this]; simp)]

theorem listProgram_paged (vm : VM) (a b : Nat) (h : Ascending ((lines vm).map (·.1))) :
    listProgram (fun _ => false) vm a b true =
      { vm with world := { vm.world with
        out := vm.world.out ++ pagedListing ((lines vm).getLast?.map (·.1))
          ((lines vm).filter (fun l => decide (a ≤ l.1 ∧ l.1 ≤ b))).zipIdx,
        stdin := afterLines (((lines vm).filter (fun l => decide (a ≤ l.1 ∧ l.1 ≤ b))).zipIdx.filter
          (turnsPage ((lines vm).getLast?.map (·.1)))).length vm.world.stdin } } := by
  unfold listProgram
  cases hs : vm.stored.source with
  | none =>
    have : lines vm = [] := by unfold lines; rw [hs]
    rw [this]
    simp [pagedListing, afterLines]
  | some src =>
    rw [lines_pairs hs, ascending_nums] at h
    rw [lines_pairs hs]
    have hl : src.lines ≠ [] → (nums src.lines).getLast? = (src.lines.map SrcLine.pair).getLast?.map (·.1) := by
      intro _
      rw [nums, List.getLast?_map, List.getLast?_map, Option.map_map]
      rfl
    simp only [listLoop_paged a b _ src.lines 0 0 vm.world.stdin h hl]
    rfl

theorem getListNumbers_page (sp sp' : List Char) (a : Option Nat) (p : Char) (t : List Char) (hsp : Blanks sp)
    (hsp' : Blanks sp') (ha : ∀ n, a = some n → n < 2 ^ 32) (hp : p = 'p' ∨ p = 'P') :
    ∃ r, getListNumbers (sp ++ maybe a ++ (sp' ++ p :: t)) = (a.getD 0, 2 ^ 32 - 1, r) ∧ getPageFlag r = (true, t) := by
  have hps : V.isSpTab p = false := by rcases hp with rfl | rfl <;> rfl
  have hpd : isdigit p = false := by rcases hp with rfl | rfl <;> rfl
  have hpm : p ≠ '-' := by rcases hp with rfl | rfl <;> decide
  have hpt : getPageFlag (p :: t) = (true, t) := by
    have hlow : tolower p = 'p' := by rcases hp with rfl | rfl <;> rfl
    unfold getPageFlag
    rw [skipSpace_stays hps]
    simp [hlow]
  have hs0 : skipSpace (sp' ++ p :: t) = p :: t := by
    rw [skipSpace_blanks hsp', skipSpace_stays hps]
  have hnd : ∀ c, (sp' ++ p :: t).head? = some c → isdigit c = false := by
    intro c hc
    cases sp' with
    | nil => cases hc; exact hpd
    | cons d ds =>
      cases hc
      rcases hsp' c (by simp) with rfl | rfl <;> decide
  unfold getListNumbers
  rw [List.append_assoc, skipSpace_blanks hsp]
  cases a with
  | none =>
    refine ⟨p :: t, ?_, hpt⟩
    rw [show maybe none ++ (sp' ++ p :: t) = sp' ++ p :: t from rfl, hs0]
    simp [startsDigit, hpd, hpm]
  | some n =>
    have hs1 : skipSpace (maybe (some n) ++ (sp' ++ p :: t)) = maybe (some n) ++ (sp' ++ p :: t) := by
      obtain ⟨d, ds, hd, hdig⟩ := numeral_cons n
      rw [maybe, hd, List.cons_append]
      exact skipSpace_stays (digit_not_blank hdig)
    refine ⟨p :: t, ?_, hpt⟩
    rw [hs1]
    simp [startsDigit_optional (some n) _ hnd, optNum_optional (some n) _ 0 ha hnd, hs0, hpm]

/-- A program whose lines are in ascending order is listed line by line. -/
theorem listProgram_eq (vm : VM) (a b : Nat) (h : Ascending ((lines vm).map (·.1))) :
    listProgram (fun _ => false) vm a b false =
      putOut vm (listing ((lines vm).filter (fun l => decide (a ≤ l.1 ∧ l.1 ≤ b)))) := by
  unfold listProgram
  cases hs : vm.stored.source with
  | none =>
    have : lines vm = [] := by unfold lines; rw [hs]
    rw [this]
    simp [listing, putOut]
  | some src =>
    rw [lines_pairs hs, ascending_nums] at h
    rw [lines_pairs hs]
    simp only [listLoop_eq a b src.lines 0 0 vm.world.stdin h]
    rfl

theorem awaitNewline_length (s : CStr) : (awaitNewline s).length ≤ s.length := by
  unfold awaitNewline
  have := (List.dropWhile_sublist (fun c => c != '\n') (l := s)).length_le
  rw [List.length_drop]
  omega

theorem awaitNewline_spec (s : CStr) :
    (awaitNewline s = [] ∧ '\n' ∉ s) ∨ (∃ p, s = p ++ '\n' :: awaitNewline s ∧ '\n' ∉ p) := by
  unfold awaitNewline
  induction s with
  | nil => left; simp
  | cons c cs ih =>
    by_cases hc : c = '\n'
    · right; exact ⟨[], by simp [hc], by simp⟩
    · have e : (c :: cs).dropWhile (fun c => c != '\n') = cs.dropWhile (fun c => c != '\n') := by simp [hc]
      rw [e]
      rcases ih with ⟨h1, h2⟩ | ⟨p, h1, h2⟩
      · exact Or.inl ⟨h1, by simp [h2, Ne.symm hc]⟩
      · exact Or.inr ⟨c :: p, by rw [List.cons_append, ← h1], by simp [h2, Ne.symm hc]⟩

theorem fgetsGo_short (k : Nat) (p r : CStr) (hp : '\n' ∉ p) (hk : p.length = k) :
    fgetsGo k (p ++ r) = (p, r) := by
  induction p generalizing k with
  | nil => subst hk; simp [fgetsGo]
  | cons c cs ih =>
    simp only [List.mem_cons, not_or] at hp
    subst hk
    simp only [List.length_cons, List.cons_append, fgetsGo, Ne.symm hp.1, if_false]
    rw [ih _ hp.2 rfl]

theorem fgets_consumes {k : Nat} {s buf rest : CStr} (hk : 2 ≤ k) (h : fgets k s = some (buf, rest)) :
    s = buf ++ rest ∧ rest.length < s.length := by
  cases s with
  | nil => simp [fgets] at h
  | cons c cs =>
    have h' : fgetsGo (k - 1) (c :: cs) = (buf, rest) := by simpa [fgets] using h
    have hne : buf ≠ [] := by
      obtain ⟨j, hj⟩ : ∃ j, k - 1 = j + 1 := ⟨k - 2, by omega⟩
      rw [hj] at h'
      simp only [fgetsGo] at h'
      split at h' <;> (have := congrArg Prod.fst h'; simp only at this; rw [← this]; simp)
    have : c :: cs = buf ++ rest := by
      rcases fgetsGo_spec (k - 1) (c :: cs) with ⟨p, r, h1, h2, -⟩ | ⟨p, r, h1, h2, -⟩
      · rw [h1] at h'
        cases h'
        simp [h2]
      · rw [h1] at h'
        cases h'
        exact h2
    refine ⟨this, ?_⟩
    rw [this, List.length_append]
    have := List.length_pos_iff.2 hne
    omega

/-- The number of turns allowed makes no difference once it exceeds the length of the input. -/
theorem getLine_fuel (n m : Nat) (s : CStr) (hn : s.length < n) (hm : s.length < m) : getLine n s = getLine m s := by
  induction n generalizing m s with
  | zero => omega
  | succ n ih =>
    cases m with
    | zero => omega
    | succ m =>
      simp only [getLine]
      cases hf : fgets cmdSize s with
      | none => rfl
      | some br =>
        obtain ⟨buf, rest⟩ := br
        have hl := (fgets_consumes (by decide) hf).2
        simp only
        cases hg : (cstr buf).getLast? with
        | none => simp only [ih m rest (by omega) (by omega)]
        | some c =>
          simp only
          have := awaitNewline_length rest
          rw [ih m (awaitNewline rest) (by omega) (by omega)]

theorem getLine_line (n : Nat) (l rest : CStr) (h1 : '\n' ∉ l) (h2 : '\x00' ∉ l) (h3 : l.length ≤ 126) :
    getLine (n + 1) (l ++ '\n' :: rest) = ("> ".toList, some l, rest) := by
  have hf : fgets cmdSize (l ++ '\n' :: rest) = some (l ++ ['\n'], rest) := by
    unfold fgets
    split
    · next h => simp at h
    · rw [fgetsGo_line _ _ _ h1 (by simp only [cmdSize]; omega)]
  have hc : cstr (l ++ ['\n']) = l ++ ['\n'] := cstr_eq_of_no_nul _ (by simp [h2])
  simp only [getLine, hf, hc]
  simp

theorem getLine_long (n : Nat) (l rest : CStr) (h1 : '\n' ∉ l) (h2 : '\x00' ∉ l) (h3 : 127 ≤ l.length) :
    getLine (n + 1) (l ++ '\n' :: rest) =
      ("> Command line too long\n".toList ++ (getLine n rest).1, (getLine n rest).2) := by
  have hsplit : l ++ '\n' :: rest = l.take 127 ++ (l.drop 127 ++ '\n' :: rest) := by
    rw [← List.append_assoc, List.take_append_drop]
  have hnt : '\n' ∉ l.take 127 := fun h => h1 (List.mem_of_mem_take h)
  have hzt : '\x00' ∉ l.take 127 := fun h => h2 (List.mem_of_mem_take h)
  have hf : fgets cmdSize (l ++ '\n' :: rest) = some (l.take 127, l.drop 127 ++ '\n' :: rest) := by
    unfold fgets
    split
    · next h => simp at h
    · rw [hsplit, fgetsGo_short _ _ _ hnt (by simp only [cmdSize, List.length_take]; omega)]
  have hc : cstr (l.take 127) = l.take 127 := cstr_eq_of_no_nul _ hzt
  have ha : awaitNewline (l.drop 127 ++ '\n' :: rest) = rest := by
    unfold awaitNewline
    have : (l.drop 127 ++ '\n' :: rest).dropWhile (fun c => c != '\n') = '\n' :: rest := by
      rw [List.dropWhile_append_of_pos]
      · simp
      · intro a ha
        have : a ≠ '\n' := fun h => h1 (h ▸ List.mem_of_mem_drop ha)
        simp [this]
    rw [this]; rfl
  simp only [getLine, hf, hc]
  cases hg : (l.take 127).getLast? with
  | none =>
    rw [List.getLast?_eq_none_iff] at hg
    have := congrArg List.length hg
    rw [List.length_take, List.length_nil] at this
    omega
  | some c =>
    have hcn : c ≠ '\n' := fun h => hnt (h ▸ List.mem_of_getLast? hg)
    simp only [hcn, if_false, ha]

/-- Whatever is read as a line is a whole line of the input. -/
theorem getLine_whole (n : Nat) (s o l r : CStr) (hz : '\x00' ∉ s) (h : getLine n s = (o, some l, r)) :
    ∃ p, s = p ++ l ++ '\n' :: r ∧ (p = [] ∨ p.getLast? = some '\n') ∧ '\n' ∉ l := by
  induction n generalizing s o with
  | zero => simp [getLine] at h
  | succ n ih =>
    simp only [getLine] at h
    cases hf : fgets cmdSize s with
    | none => rw [hf] at h; simp at h
    | some br =>
      obtain ⟨buf, rest⟩ := br
      rw [hf] at h
      obtain ⟨hs, -⟩ := fgets_consumes (by decide) hf
      have hzb : '\x00' ∉ buf := fun hm => hz (by rw [hs]; simp [hm])
      simp only [cstr_eq_of_no_nul _ hzb] at h
      have hform : (∃ p, buf = p ++ ['\n'] ∧ '\n' ∉ p) ∨ '\n' ∉ buf := by
        have h' : fgetsGo (cmdSize - 1) s = (buf, rest) := by
          cases s with
          | nil => simp [fgets] at hf
          | cons c cs => simpa [fgets] using hf
        rcases fgetsGo_spec (cmdSize - 1) s with ⟨p, q, h1, -, h3, -⟩ | ⟨p, q, h1, -, h3⟩
        · rw [h1] at h'; cases h'; exact Or.inl ⟨p, rfl, h3⟩
        · rw [h1] at h'; cases h'; exact Or.inr h3
      rcases hform with ⟨p, rfl, hp⟩ | hb
      · simp only [List.getLast?_append, List.getLast?_singleton, Option.some_or, if_true, Prod.mk.injEq,
          Option.some.injEq, List.dropLast_concat] at h
        obtain ⟨-, rfl, rfl⟩ := h
        exact ⟨[], by simpa using hs, Or.inl rfl, hp⟩
      · cases hg : buf.getLast? with
        | none =>
          rw [List.getLast?_eq_none_iff] at hg
          subst hg
          have := (fgets_consumes (by decide) hf).2
          rw [hs] at this
          simp at this
        | some c =>
          have hcn : c ≠ '\n' := fun e => hb (e ▸ List.mem_of_getLast? hg)
          rw [hg] at h
          simp only [hcn, if_false] at h
          have h' : getLine n (awaitNewline rest) = ((getLine n (awaitNewline rest)).1, some l, r) := by
            have e1 := congrArg (fun x => x.2.1) h
            have e2 := congrArg (fun x => x.2.2) h
            simp only at e1 e2
            exact Prod.ext rfl (Prod.ext e1 e2)
          rcases awaitNewline_spec rest with ⟨ha, -⟩ | ⟨p, hp, -⟩
          · exfalso
            rw [ha] at h'
            cases n with
            | zero => simp [getLine] at h'
            | succ n => simp [getLine, fgets] at h'
          · have hza : '\x00' ∉ awaitNewline rest := fun hm => hz (by rw [hs, hp]; simp [hm])
            obtain ⟨q, h1, h2, h3⟩ := ih _ _ hza h'
            refine ⟨buf ++ p ++ '\n' :: q, ?_, ?_, h3⟩
            · rw [hs]
              conv => lhs; rw [hp, h1]
              simp
            · right
              rcases h2 with rfl | h2
              · simp
              · rw [List.getLast?_append]
                cases q with
                | nil => simp at h2
                | cons d ds => simp [List.getLast?_cons_cons, h2]

end LB
