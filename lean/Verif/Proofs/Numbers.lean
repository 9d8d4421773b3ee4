import Verif.Spec.Numbers
import Verif.Proofs.Arith
import Verif.Proofs.Basics
import Verif.Model.VM
/- Lemmas about the conversion of text into numbers. -/
namespace LB
open LB.Spec

/-- What can follow a number in a text that is accepted. -/
def Stops (u : CStr) : Prop := ∀ c r, u = c :: r → c = ' ' ∨ c = '\t' ∨ c = ',' ∨ c = '\n'

theorem span_all {p : Char → Bool} {ds t : CStr} (h : ∀ c ∈ ds, p c = true) (ht : ∀ c r, t = c :: r → p c = false) :
    (ds ++ t).takeWhile p = ds ∧ (ds ++ t).dropWhile p = t := by
  induction ds with
  | nil =>
    cases t with
    | nil => simp
    | cons c r => simp [ht c r rfl]
  | cons d ds ih =>
    have := ih (fun c hc => h c (List.mem_cons_of_mem _ hc))
    simp [h d (by simp), this.1, this.2]

theorem mem_takeWhile {p : Char → Bool} {s : CStr} {c : Char} (h : c ∈ s.takeWhile p) : p c = true := by
  induction s with
  | nil => simp at h
  | cons d s ih =>
    rw [List.takeWhile_cons] at h
    split at h
    · rcases List.mem_cons.1 h with rfl | h
      · assumption
      · exact ih h
    · simp at h

theorem stop_head {p : Char → Bool} {s : CStr} {c : Char} {r : CStr} (h : s.dropWhile p = c :: r) : p c = false := by
  induction s with
  | nil => simp at h
  | cons d s ih =>
    rw [List.dropWhile_cons] at h
    split at h
    · exact ih h
    · rename_i hd; cases h; simpa using hd

theorem isxdigit_iff (c : Char) : isxdigit c = true ↔ IsHexDigit c := by
  simp only [isxdigit, IsHexDigit, Bool.or_eq_true, isdigit_iff, decide_eq_true_eq, Char.le_def, UInt32.le_iff_toNat_le]
  exact Iff.rfl

theorem dropWord_iff (w s r : CStr) : dropWord w s = some r ↔
    ∃ w', s = w' ++ r ∧ w'.length = w.length ∧ _root_.Spec.SameIgnoringCase w' w := by
  unfold dropWord
  constructor
  · intro h
    split at h
    · rename_i hz
      rw [strncasecmp_eq_zero_iff] at hz
      cases h
      rw [List.take_length] at hz
      have hl : (s.take w.length).length = w.length := by
        have := congrArg List.length hz
        simpa using this.symm
      exact ⟨s.take w.length, (List.take_append_drop ..).symm, hl, hz.symm⟩
    · cases h
  · rintro ⟨w', rfl, hl, hs⟩
    rw [if_pos, ← hl]
    · simp
    · rw [strncasecmp_eq_zero_iff, ← hl, List.take_left, hl, List.take_length]; exact hs.symm

theorem dropWord_none (w s : CStr) : dropWord w s = none ↔ ¬ _root_.Spec.SameIgnoringCase (s.take w.length) w := by
  have hz := strncasecmp_eq_zero_iff w s w.length
  rw [List.take_length] at hz
  unfold dropWord
  constructor
  · intro h h'
    rw [if_pos (hz.2 h'.symm)] at h; cases h
  · intro h
    rw [if_neg (fun h' => h (hz.1 h').symm)]

theorem toUpper_marker {c m : Char} (hm : m = 'e' ∧ M = 'E' ∨ m = 'p' ∧ M = 'P' ∨ m = 'x' ∧ M = 'X') :
    tolower c = m ↔ c.toUpper = M := by
  have h1 : tolower m = m := by rcases hm with ⟨rfl, -⟩ | ⟨rfl, -⟩ | ⟨rfl, -⟩ <;> decide
  have h2 : m.toUpper = M := by rcases hm with ⟨rfl, rfl⟩ | ⟨rfl, rfl⟩ | ⟨rfl, rfl⟩ <;> decide
  have := tolower_eq_iff c m
  rw [h1, h2] at this
  exact this

theorem isdigit_false {c : Char} (h : ¬ _root_.Spec.IsDigit c) : isdigit c = false := by
  cases hd : isdigit c with
  | true => exact absurd ((isdigit_iff c).1 hd) h
  | false => rfl

theorem xdigitVal_digit {c : Char} (h : isdigit c = true) : xdigitVal c = c.toNat - '0'.toNat := by
  simp only [xdigitVal, h, if_true]; rfl

theorem digitsVal_ten {ds : CStr} (h : ∀ c ∈ ds, isdigit c = true) : digitsVal 10 ds = _root_.Spec.decimal ds := by
  have : ∀ a, ds.foldl (fun acc c => 10 * acc + xdigitVal c) a = Nat.ofDigitChars 10 ds a := by
    induction ds with
    | nil => intro a; rfl
    | cons d ds ih =>
      intro a
      rw [List.foldl_cons, ih (fun c hc => h c (List.mem_cons_of_mem _ hc)), xdigitVal_digit (h d (by simp))]
      rfl
  exact this 0

theorem hexDigit_eq {c : Char} (h : isxdigit c = true) : xdigitVal c = hexDigit c := by
  have h' := (isxdigit_iff c).1 h
  have hl := tolower_toNat c
  simp only [IsHexDigit, _root_.Spec.IsDigit, Char.le_def, UInt32.le_iff_toNat_le] at h'
  simp only [show '9'.val.toNat = 57 from rfl, show 'F'.val.toNat = 70 from rfl, show '0'.val.toNat = 48 from rfl,
    show 'A'.val.toNat = 65 from rfl, show 'a'.val.toNat = 97 from rfl, show 'f'.val.toNat = 102 from rfl,
    show c.val.toNat = c.toNat from rfl] at h'
  have e1 : (c ≤ '9') ↔ c.toNat ≤ 57 := by rw [Char.le_def, UInt32.le_iff_toNat_le]; exact Iff.rfl
  have e2 : (c ≤ 'F') ↔ c.toNat ≤ 70 := by rw [Char.le_def, UInt32.le_iff_toNat_le]; exact Iff.rfl
  have e3 : (isdigit c = true) ↔ 48 ≤ c.toNat ∧ c.toNat ≤ 57 := by simp [isdigit]
  unfold xdigitVal hexDigit
  by_cases h1 : c.toNat ≤ 57
  · rw [if_pos (e3.2 (by omega)), if_pos (e1.2 h1)]
  · rw [if_neg (by rw [e3]; omega), if_neg (by rw [e1]; omega), hl]
    by_cases h2 : c.toNat ≤ 70
    · rw [if_pos (e2.2 h2), if_pos (by omega)]; omega
    · rw [if_neg (c := 65 ≤ _ ∧ _) (by omega), if_neg (by rw [e2]; omega)]

theorem digitsVal_sixteen {ds : CStr} (h : ∀ c ∈ ds, isxdigit c = true) : digitsVal 16 ds = hexadecimal ds := by
  have : ∀ a, ds.foldl (fun acc c => 16 * acc + xdigitVal c) a = a * 16 ^ ds.length + hexadecimal ds := by
    induction ds with
    | nil => intro a; simp [hexadecimal]
    | cons d ds ih =>
      intro a
      rw [List.foldl_cons, ih (fun c hc => h c (List.mem_cons_of_mem _ hc)), hexDigit_eq (h d (by simp))]
      simp only [hexadecimal, List.length_cons, Nat.pow_succ]
      grind
  have := this 0
  simpa [digitsVal] using this

theorem power_ten (e : Int) : power 10 e = Dbl.pow10 e := by
  unfold power Dbl.pow10
  split
  · rename_i h
    rw [show (-e).toNat = 0 by omega]
    simp only [Rat.pow_zero, Rat.div_def, show (1:Rat)⁻¹ = 1 by decide +kernel, Rat.mul_one]
    rfl
  · rename_i h
    rw [show e.toNat = 0 by omega]
    simp only [Rat.pow_zero]
    rfl

theorem scanMantissa_complete {isd : Char → Bool} {P : Char → Prop} (hP : ∀ c, isd c = true ↔ P c) (hdot : isd '.' = false)
    {m ip fp u : CStr} (h : Mantissa P m ip fp) (hu : ∀ c r, u = c :: r → isd c = false ∧ c ≠ '.') :
    scanMantissa isd (m ++ u) = (ip, fp, u) := by
  obtain ⟨hall, -, hm⟩ := h
  have hi : ∀ c ∈ ip, isd c = true := fun c hc => (hP c).2 (hall c (List.mem_append_left _ hc))
  have hf : ∀ c ∈ fp, isd c = true := fun c hc => (hP c).2 (hall c (List.mem_append_right _ hc))
  unfold scanMantissa
  rcases hm with ⟨rfl, rfl⟩ | rfl
  · obtain ⟨h1, h2⟩ := span_all hi (fun c r e => (hu c r e).1)
    rw [h1, h2]
    cases u with
    | nil => rfl
    | cons c r =>
      have := (hu c r rfl).2
      simp only
      split
      · rename_i heq; cases heq; exact absurd rfl this
      · rfl
  · have hd : ∀ c r, '.' :: (fp ++ u) = c :: r → isd c = false := by rintro c r e; cases e; exact hdot
    obtain ⟨h1, h2⟩ := span_all hi hd
    obtain ⟨h3, h4⟩ := span_all hf (fun c r e => (hu c r e).1)
    rw [List.append_assoc, List.cons_append, h1, h2]
    simp only [h3, h4]

theorem scanMantissa_sound {isd : Char → Bool} {P : Char → Prop} (hP : ∀ c, isd c = true ↔ P c)
    {s ip fp r : CStr} (h : scanMantissa isd s = (ip, fp, r)) (hne : (ip.isEmpty && fp.isEmpty) = false) :
    ∃ m, s = m ++ r ∧ Mantissa P m ip fp := by
  have hne' : ip ++ fp ≠ [] := by cases ip <;> cases fp <;> simp_all
  unfold scanMantissa at h
  simp only at h
  split at h
  · rename_i r' heq
    cases h
    refine ⟨s.takeWhile isd ++ '.' :: r'.takeWhile isd, ?_, ?_, hne', .inr rfl⟩
    · rw [List.append_assoc, List.cons_append, List.takeWhile_append_dropWhile, ← heq, List.takeWhile_append_dropWhile]
    · intro c hc
      rcases List.mem_append.1 hc with hc | hc
      · exact (hP c).1 (mem_takeWhile hc)
      · exact (hP c).1 (mem_takeWhile hc)
  · cases h
    refine ⟨s.takeWhile isd, (List.takeWhile_append_dropWhile ..).symm, ?_, hne', .inl ⟨rfl, rfl⟩⟩
    intro c hc
    rcases List.mem_append.1 hc with hc | hc
    · exact (hP c).1 (mem_takeWhile hc)
    · simp at hc

theorem stops_not {u : CStr} (hu : Stops u) (p : Char → Bool) (h : p ' ' = false ∧ p '\t' = false ∧ p ',' = false ∧ p '\n' = false) :
    ∀ c r, u = c :: r → p c = false := by
  intro c r e
  rcases hu c r e with rfl | rfl | rfl | rfl
  · exact h.1
  · exact h.2.1
  · exact h.2.2.1
  · exact h.2.2.2

theorem scanExponent_complete {mk M : Char} (hm : mk = 'e' ∧ M = 'E' ∨ mk = 'p' ∧ M = 'P') {t u : CStr} {e : Int}
    (h : Exponent M t e) (hu : Stops u) : scanExponent mk (t ++ u) = (e, u) := by
  have hM : ∀ c : Char, tolower c = mk ↔ c.toUpper = M := fun c =>
    toUpper_marker (by rcases hm with h | h <;> simp [h])
  have hdig := stops_not hu isdigit (by decide)
  rcases h with ⟨rfl, rfl⟩ | ⟨c, ds, hc, hne, hds, h⟩
  · cases u with
    | nil => rfl
    | cons c r =>
      have : ¬ tolower c = mk := by
        have := stops_not hu (fun c => tolower c == mk) (by rcases hm with ⟨rfl, -⟩ | ⟨rfl, -⟩ <;> decide) c r rfl
        simpa using this
      simp [scanExponent, this]
  · have hds' : ∀ c ∈ ds, isdigit c = true := fun c h => (isdigit_iff c).2 (hds c h)
    obtain ⟨h1, h2⟩ := span_all hds' hdig
    have hv := digitsVal_ten hds'
    have hne' : ds.isEmpty = false := by cases ds <;> simp_all
    have hc' := (hM c).2 hc
    rcases h with ⟨rfl, rfl⟩ | ⟨rfl, rfl⟩ | ⟨rfl, rfl⟩
    · have key : scanExponent mk (c :: (ds ++ u)) =
          (if ((ds ++ u).takeWhile isdigit).isEmpty then (0, c :: (ds ++ u)) else
            ((digitsVal 10 ((ds ++ u).takeWhile isdigit) : Int), (ds ++ u).dropWhile isdigit)) := by
        cases ds with
        | nil => exact absurd rfl hne
        | cons d ds =>
          have hd := hds' d (by simp)
          have n1 : d ≠ '-' := by rintro rfl; revert hd; decide
          have n2 : d ≠ '+' := by rintro rfl; revert hd; decide
          simp only [scanExponent, hc', if_true, List.cons_append]
          split
          · rename_i heq; cases heq; exact absurd rfl n1
          · rename_i heq; cases heq; exact absurd rfl n2
          · simp
      rw [List.cons_append, key, h1, h2, hne', hv]; rfl
    · simp only [List.cons_append, scanExponent, hc', if_true, h1, h2, hne', hv]; rfl
    · simp only [List.cons_append, scanExponent, hc', if_true, h1, h2, hne', hv]; rfl

theorem scanExponent_sound {mk M : Char} (hm : mk = 'e' ∧ M = 'E' ∨ mk = 'p' ∧ M = 'P') {s r : CStr} {e : Int}
    (h : scanExponent mk s = (e, r)) : ∃ t, s = t ++ r ∧ Exponent M t e := by
  have hM : ∀ c : Char, tolower c = mk ↔ c.toUpper = M := fun c =>
    toUpper_marker (by rcases hm with h | h <;> simp [h])
  cases s with
  | nil => cases h; exact ⟨[], rfl, .inl ⟨rfl, rfl⟩⟩
  | cons c rest =>
    by_cases hc : tolower c = mk
    · have fin : ∀ (body : CStr) (pre : CStr), rest = pre ++ body → ∀ v : Int,
          ((v = _root_.Spec.decimal (body.takeWhile isdigit) ∧ (pre = [] ∨ pre = ['+'])) ∨
            (v = -_root_.Spec.decimal (body.takeWhile isdigit) ∧ pre = ['-'])) →
          (if (body.takeWhile isdigit).isEmpty then ((0 : Int), c :: rest) else (v, body.dropWhile isdigit)) = (e, r) →
          ∃ t, c :: rest = t ++ r ∧ Exponent M t e := by
        intro body pre hpre v hv heq
        split at heq
        · cases heq; exact ⟨[], rfl, .inl ⟨rfl, rfl⟩⟩
        · rename_i hne
          cases heq
          have hds : ∀ d ∈ body.takeWhile isdigit, _root_.Spec.IsDigit d := fun d hd => (isdigit_iff d).1 (mem_takeWhile hd)
          have hne' : body.takeWhile isdigit ≠ [] := by simpa using hne
          refine ⟨c :: (pre ++ body.takeWhile isdigit), ?_, .inr ⟨c, body.takeWhile isdigit, (hM c).1 hc, hne', hds, ?_⟩⟩
          · rw [List.cons_append, List.append_assoc, List.takeWhile_append_dropWhile, hpre]
          · rcases hv with ⟨rfl, rfl | rfl⟩ | ⟨rfl, rfl⟩
            · exact .inl ⟨rfl, rfl⟩
            · exact .inr (.inl ⟨rfl, rfl⟩)
            · exact .inr (.inr ⟨rfl, rfl⟩)
      have dv : ∀ body : CStr, digitsVal 10 (body.takeWhile isdigit) = _root_.Spec.decimal (body.takeWhile isdigit) :=
        fun body => digitsVal_ten (fun c hc => mem_takeWhile hc)
      simp only [scanExponent, hc, if_true] at h
      split at h
      · rename_i body
        exact fin body ['-'] rfl _ (.inr ⟨rfl, rfl⟩) (by simpa [dv] using h)
      · rename_i body
        exact fin body ['+'] rfl _ (.inl ⟨rfl, .inr rfl⟩) (by simpa [dv] using h)
      · exact fin rest [] rfl _ (.inl ⟨rfl, .inl rfl⟩) (by simpa [dv] using h)
    · simp only [scanExponent, hc, if_false] at h
      cases h; exact ⟨[], rfl, .inl ⟨rfl, rfl⟩⟩

theorem scanMantissa_proj {isd : Char → Bool} {P : Char → Prop} (hP : ∀ c, isd c = true ↔ P c) (s : CStr)
    (hne : ¬ ((scanMantissa isd s).1.isEmpty && (scanMantissa isd s).2.1.isEmpty) = true) :
    ∃ m, s = m ++ (scanMantissa isd s).2.2 ∧ Mantissa P m (scanMantissa isd s).1 (scanMantissa isd s).2.1 := by
  cases h : scanMantissa isd s with
  | mk ip q =>
    obtain ⟨fp, r⟩ := q
    rw [h] at hne
    exact scanMantissa_sound hP h (by simpa using hne)

theorem scanExponent_proj {mk M : Char} (hm : mk = 'e' ∧ M = 'E' ∨ mk = 'p' ∧ M = 'P') (s : CStr) :
    ∃ t, s = t ++ (scanExponent mk s).2 ∧ Exponent M t (scanExponent mk s).1 := by
  cases h : scanExponent mk s with
  | mk e r => exact scanExponent_sound hm h

theorem dropWord_head {w0 c : Char} {w s : CStr} (h : c.toUpper ≠ w0.toUpper) : dropWord (w0 :: w) (c :: s) = none := by
  rw [dropWord_none]
  intro h'
  simp only [_root_.Spec.SameIgnoringCase, List.length_cons, List.take_succ_cons, List.map_cons, List.cons.injEq] at h'
  exact h h'.1

theorem same_upper {a b c : CStr} (h : b.map Char.toUpper = c.map Char.toUpper) :
    _root_.Spec.SameIgnoringCase a b ↔ _root_.Spec.SameIgnoringCase a c := by
  unfold _root_.Spec.SameIgnoringCase; rw [h]

theorem dropWord_append {w w' u : CStr} (h : _root_.Spec.SameIgnoringCase w' w) : dropWord w (w' ++ u) = some u := by
  rw [dropWord_iff]
  have := congrArg List.length h
  exact ⟨w', rfl, by simpa using this, h⟩

theorem scanUnsigned_sound {s r : CStr} {x : Dbl} (h : scanUnsigned s = some (x, r)) : ∃ n, s = n ++ r ∧ Unsigned n x := by
  unfold scanUnsigned at h
  split at h
  · rename_i r' hw
    cases h
    obtain ⟨w, rfl, -, hs⟩ := (dropWord_iff ..).1 hw
    exact ⟨w, rfl, .inf (.inr ((same_upper (by decide)).1 hs))⟩
  split at h
  · rename_i r' hw
    cases h
    obtain ⟨w, rfl, -, hs⟩ := (dropWord_iff ..).1 hw
    exact ⟨w, rfl, .inf (.inl ((same_upper (by decide)).1 hs))⟩
  split at h
  · rename_i r' hw
    obtain ⟨w, rfl, -, hs⟩ := (dropWord_iff ..).1 hw
    have hs' := (same_upper (c := "NAN".toList) (by decide)).1 hs
    split at h
    · rename_i r'' heq
      cases h
      refine ⟨w ++ '(' :: r'.takeWhile (fun c => isalnum c || c == '_') ++ [')'], ?_, .nanTag hs' ?_⟩
      · simp only [List.append_assoc, List.cons_append, List.nil_append]
        rw [← heq, List.takeWhile_append_dropWhile]
      · intro c hc; have := mem_takeWhile hc; simpa using this
    · cases h; exact ⟨w, rfl, .nan hs'⟩
  · rename_i r' _ hw
    obtain ⟨w, rfl, -, hs⟩ := (dropWord_iff ..).1 hw
    have hs' := (same_upper (c := "NAN".toList) (by decide)).1 hs
    cases h; exact ⟨w, rfl, .nan hs'⟩
  have dec : (if ((scanMantissa isdigit s).1.isEmpty && (scanMantissa isdigit s).2.1.isEmpty) = true then none
      else some (Dbl.rnd ((digitsVal 10 ((scanMantissa isdigit s).1 ++ (scanMantissa isdigit s).2.1) : Nat) *
        Dbl.pow10 ((scanExponent 'e' (scanMantissa isdigit s).2.2).1 - (scanMantissa isdigit s).2.1.length)),
        (scanExponent 'e' (scanMantissa isdigit s).2.2).2)) = some (x, r) → ∃ n, s = n ++ r ∧ Unsigned n x := by
    intro h
    split at h
    · cases h
    · rename_i hne
      cases h
      obtain ⟨m, hm, hm'⟩ := scanMantissa_proj isdigit_iff s hne
      obtain ⟨t, ht, ht'⟩ := scanExponent_proj (mk := 'e') (M := 'E') (.inl ⟨rfl, rfl⟩) (scanMantissa isdigit s).2.2
      refine ⟨m ++ t, ?_, ?_⟩
      · rw [List.append_assoc, ← ht, ← hm]
      · rw [digitsVal_ten (fun c hc => (isdigit_iff c).2 (hm'.1 c hc)), ← power_ten]
        exact .decimal hm' ht' (Dbl.rnd_rounded _)
  simp only at h
  split at h
  · rename_i hx hw
    split at h
    · exact dec h
    · rename_i hne
      cases h
      obtain ⟨w, rfl, hl, hs⟩ := (dropWord_iff ..).1 hw
      obtain ⟨m, hm, hm'⟩ := scanMantissa_proj isxdigit_iff hx hne
      obtain ⟨t, ht, ht'⟩ := scanExponent_proj (mk := 'p') (M := 'P') (.inr ⟨rfl, rfl⟩) (scanMantissa isxdigit hx).2.2
      match w, hl, hs with
      | [a, b], _, hs =>
        simp only [_root_.Spec.SameIgnoringCase, List.map_cons, List.map_nil, String.toList] at hs
        have hs' : [a.toUpper, b.toUpper] = ['0', 'X'] := hs
        simp only [List.cons.injEq, and_true] at hs'
        have ha : a = '0' := by
          have h0 := (tolower_eq_iff a '0').2 (by rw [hs'.1]; decide)
          have := tolower_toNat a
          rw [h0] at this
          have h1 : (tolower '0').toNat = 48 := by decide
          rw [h1] at this
          apply Char.toNat_inj.mp
          split at this
          · omega
          · exact this.symm
        subst ha
        refine ⟨'0' :: b :: m ++ t, ?_, ?_⟩
        · simp only [List.cons_append, List.nil_append, List.append_assoc, List.cons.injEq, true_and]
          rw [← ht, ← hm]
        · rw [digitsVal_sixteen (fun c hc => (isxdigit_iff c).2 (hm'.1 c hc)), ← power_two]
          exact .hex hs'.2 hm' ht' (Dbl.rnd_rounded _)
  · exact dec h

theorem not_word {w0 c : Char} {w s : CStr} (hc : isdigit c = true ∨ c = '.') (hw : w0 = 'i' ∨ w0 = 'n') :
    dropWord (w0 :: w) (c :: s) = none := by
  apply dropWord_head
  intro h
  have h1 := (tolower_eq_iff c w0).2 h
  have h2 : tolower c = c := by
    apply Char.toNat_inj.mp
    rw [tolower_toNat, if_neg]
    rcases hc with hc | rfl
    · simp [isdigit] at hc; omega
    · decide
  have h3 : tolower w0 = w0 := by rcases hw with rfl | rfl <;> decide
  rw [h2, h3] at h1
  subst h1
  rcases hc with hc | rfl
  · rcases hw with rfl | rfl <;> revert hc <;> decide
  · rcases hw with h | h <;> revert h <;> decide

theorem not_hex {n u : CStr} (hne : n ≠ []) (hn : ∀ c ∈ n, c.toUpper ≠ 'X') (hu : Stops u) : dropWord "0x".toList (n ++ u) = none := by
  rw [dropWord_none]
  intro h
  have key : ∀ a b r, n ++ u = a :: b :: r → b.toUpper ≠ 'X' := by
    intro a b r e
    match n, hne, hn, e with
    | [a'], _, _, e =>
      simp only [List.cons_append, List.nil_append, List.cons.injEq] at e
      rcases hu b r e.2 with rfl | rfl | rfl | rfl <;> decide
    | a' :: b' :: n', _, hn, e =>
      simp only [List.cons_append, List.cons.injEq] at e
      exact e.2.1 ▸ hn b' (by simp)
  match hnu : n ++ u with
  | [] => simp_all
  | [a] => rw [hnu] at h; simp [_root_.Spec.SameIgnoringCase] at h
  | a :: b :: r =>
    rw [hnu] at h
    have h' : [a.toUpper, b.toUpper] = ['0', 'X'] := h
    simp only [List.cons.injEq, and_true] at h'
    exact key a b r hnu h'.2

theorem digit_upper {c : Char} (h : isdigit c = true) : c.toUpper ≠ 'X' := by
  intro h'
  have h1 := (tolower_eq_iff c 'X').2 (by rw [h']; decide)
  have h2 : tolower c = c := by
    apply Char.toNat_inj.mp
    rw [tolower_toNat, if_neg]
    simp [isdigit] at h; omega
  rw [h2] at h1
  subst h1
  revert h; decide

theorem exponent_chars {t : CStr} {e : Int} (h : Exponent 'E' t e) : ∀ c ∈ t, c.toUpper ≠ 'X' := by
  rcases h with ⟨rfl, -⟩ | ⟨c, ds, hc, -, hds, h⟩
  · simp
  · have h1 : ∀ d ∈ ds, d.toUpper ≠ 'X' := fun d hd => digit_upper ((isdigit_iff d).2 (hds d hd))
    have h2 : c.toUpper ≠ 'X' := by rw [hc]; decide
    rcases h with ⟨rfl, -⟩ | ⟨rfl, -⟩ | ⟨rfl, -⟩ <;> simp only [List.mem_cons] <;> rintro d hd
    · rcases hd with rfl | hd
      · exact h2
      · exact h1 d hd
    · rcases hd with rfl | rfl | hd
      · exact h2
      · decide
      · exact h1 d hd
    · rcases hd with rfl | rfl | hd
      · exact h2
      · decide
      · exact h1 d hd

theorem mantissa_chars {m ip fp : CStr} (h : Mantissa _root_.Spec.IsDigit m ip fp) :
    m ≠ [] ∧ ∀ c ∈ m, isdigit c = true ∨ c = '.' := by
  obtain ⟨hall, hne, rfl, rfl⟩ | ⟨hall, hne, rfl⟩ : ((∀ c ∈ ip ++ fp, _root_.Spec.IsDigit c) ∧ ip ++ fp ≠ [] ∧ m = ip ∧ fp = []) ∨
      ((∀ c ∈ ip ++ fp, _root_.Spec.IsDigit c) ∧ ip ++ fp ≠ [] ∧ m = ip ++ '.' :: fp) := by
    obtain ⟨a, b, c | c⟩ := h
    · exact .inl ⟨a, b, c⟩
    · exact .inr ⟨a, b, c⟩
  · exact ⟨by simpa using hne, fun c hc => .inl ((isdigit_iff c).2 (hall c (by simpa using hc)))⟩
  · refine ⟨by simp, fun c hc => ?_⟩
    simp only [List.mem_append, List.mem_cons] at hc
    rcases hc with hc | rfl | hc
    · exact .inl ((isdigit_iff c).2 (hall c (by simp [hc])))
    · exact .inr rfl
    · exact .inl ((isdigit_iff c).2 (hall c (by simp [hc])))

theorem not_empty_pair {ip fp : CStr} (h : ip ++ fp ≠ []) : (ip.isEmpty && fp.isEmpty) = false := by
  cases ip <;> cases fp <;> simp_all

theorem exponent_head {isd : Char → Bool} {M : Char} {t u : CStr} {e : Int} (h : Exponent M t e) (hu : Stops u)
    (hs : isd ' ' = false ∧ isd '\t' = false ∧ isd ',' = false ∧ isd '\n' = false)
    (hM : ∀ c : Char, c.toUpper = M → isd c = false ∧ c ≠ '.') :
    ∀ c r, t ++ u = c :: r → isd c = false ∧ c ≠ '.' := by
  intro c r e
  rcases h with ⟨rfl, -⟩ | ⟨c', ds, hc, -, hds, h⟩
  · refine ⟨stops_not hu isd hs c r e, ?_⟩
    rcases hu c r e with rfl | rfl | rfl | rfl <;> decide
  · rcases h with ⟨rfl, -⟩ | ⟨rfl, -⟩ | ⟨rfl, -⟩ <;> (cases e; exact hM _ hc)

theorem three {w v : CStr} (h : _root_.Spec.SameIgnoringCase w v) (hv : v.length = 3) : ∃ a b c, w = [a, b, c] := by
  have := congrArg List.length h
  simp only [List.length_map, hv] at this
  match w, this with
  | [a, b, c], _ => exact ⟨a, b, c, rfl⟩

theorem scanUnsigned_complete {n u : CStr} {x : Dbl} (h : Unsigned n x) (hu : Stops u) : scanUnsigned (n ++ u) = some (x, u) := by
  unfold scanUnsigned
  cases h with
  | @decimal m ip fp t e _ hm ht hrnd =>
    obtain rfl := Dbl.rounded_iff.1 hrnd
    obtain ⟨hne, hch⟩ := mantissa_chars hm
    obtain ⟨c, r, hcr⟩ : ∃ c r, m ++ t ++ u = c :: r := by
      cases m with
      | nil => exact absurd rfl hne
      | cons c r => exact ⟨c, _, rfl⟩
    have hc : isdigit c = true ∨ c = '.' := by
      cases m with
      | nil => exact absurd rfl hne
      | cons c' r' => cases hcr; exact hch _ (by simp)
    have w1 : dropWord "infinity".toList (m ++ t ++ u) = none := by rw [hcr]; exact not_word hc (.inl rfl)
    have w2 : dropWord "inf".toList (m ++ t ++ u) = none := by rw [hcr]; exact not_word hc (.inl rfl)
    have w3 : dropWord "nan".toList (m ++ t ++ u) = none := by rw [hcr]; exact not_word hc (.inr rfl)
    have w4 : dropWord "0x".toList (m ++ t ++ u) = none := by
      apply not_hex _ _ hu
      · simp [hne]
      · intro c hc
        rcases List.mem_append.1 hc with hc | hc
        · rcases hch c hc with h | rfl
          · exact digit_upper h
          · decide
        · exact exponent_chars ht c hc
    have hE : ∀ c : Char, c.toUpper = 'E' → isdigit c = false ∧ c ≠ '.' := by
      intro c h
      have h1 : tolower c = 'e' := (toUpper_marker (.inl ⟨rfl, rfl⟩)).2 h
      have h2 := tolower_toNat c
      rw [h1] at h2
      have h3 : 'e'.toNat = 101 := rfl
      constructor
      · simp only [isdigit, decide_eq_false_iff_not]
        split at h2 <;> omega
      · rintro rfl; revert h1; decide
    have hs := scanMantissa_complete isdigit_iff (by decide) hm (u := t ++ u)
      (exponent_head ht hu (by decide) hE)
    have he := scanExponent_complete (.inl ⟨rfl, rfl⟩) ht hu
    rw [← List.append_assoc] at hs
    simp only [w1, w2, w3, w4, hs, not_empty_pair hm.2.1, he, digitsVal_ten (fun c hc => (isdigit_iff c).2 (hm.1 c hc)), power_ten]
    rfl
  | @hex X m ip fp t e _ hX hm ht hrnd =>
    obtain rfl := Dbl.rounded_iff.1 hrnd
    have hcr : '0' :: X :: m ++ t ++ u = '0' :: (X :: m ++ t ++ u) := rfl
    have w1 : dropWord "infinity".toList ('0' :: X :: m ++ t ++ u) = none := by rw [hcr]; exact not_word (.inl rfl) (.inl rfl)
    have w2 : dropWord "inf".toList ('0' :: X :: m ++ t ++ u) = none := by rw [hcr]; exact not_word (.inl rfl) (.inl rfl)
    have w3 : dropWord "nan".toList ('0' :: X :: m ++ t ++ u) = none := by rw [hcr]; exact not_word (.inl rfl) (.inr rfl)
    have w4 : dropWord "0x".toList ('0' :: X :: m ++ t ++ u) = some (m ++ t ++ u) := by
      rw [show '0' :: X :: m ++ t ++ u = ['0', X] ++ (m ++ t ++ u) by simp]
      apply dropWord_append
      unfold _root_.Spec.SameIgnoringCase
      simp only [List.map_cons, hX, List.map_nil]
      decide
    have hE : ∀ c : Char, c.toUpper = 'P' → isxdigit c = false ∧ c ≠ '.' := by
      intro c h
      have h1 : tolower c = 'p' := (toUpper_marker (.inr (.inl ⟨rfl, rfl⟩))).2 h
      have h2 := tolower_toNat c
      rw [h1] at h2
      have h3 : 'p'.toNat = 112 := rfl
      constructor
      · simp only [isxdigit, isdigit, Bool.or_eq_false_iff, decide_eq_false_iff_not]
        split at h2 <;> omega
      · rintro rfl; revert h1; decide
    have hs := scanMantissa_complete isxdigit_iff (by decide) hm (u := t ++ u)
      (exponent_head ht hu (by decide) hE)
    have he := scanExponent_complete (.inr ⟨rfl, rfl⟩) ht hu
    rw [← List.append_assoc] at hs
    simp only [w1, w2, w3, w4, hs, not_empty_pair hm.2.1, he, digitsVal_sixteen (fun c hc => (isxdigit_iff c).2 (hm.1 c hc)), power_two]
    rfl
  | inf hw =>
    rcases hw with hw | hw
    · have w1 : dropWord "infinity".toList (n ++ u) = none := by
        rw [dropWord_none]
        intro h
        obtain ⟨a, b, c, rfl⟩ := three hw rfl
        · cases u with
          | nil => exact absurd (congrArg List.length h) (by simp)
          | cons d r =>
            have := List.cons.inj (List.cons.inj (List.cons.inj (List.cons.inj h).2).2).2
            rcases hu d r rfl with rfl | rfl | rfl | rfl <;> exact absurd this.1 (by decide)
      rw [w1, dropWord_append ((same_upper (by decide)).1 hw)]
    · rw [dropWord_append ((same_upper (by decide)).1 hw)]
  | nan hw =>
    obtain ⟨a, b, c, rfl⟩ := three hw rfl
    · have ha : a.toUpper = 'N' := (List.cons.inj hw).1
      have w1 : dropWord "infinity".toList ([a, b, c] ++ u) = none := dropWord_head (by rw [ha]; decide)
      have w2 : dropWord "inf".toList ([a, b, c] ++ u) = none := dropWord_head (by rw [ha]; decide)
      have w3 : dropWord "nan".toList ([a, b, c] ++ u) = some u := dropWord_append ((same_upper (by decide)).1 hw)
      rw [w1, w2, w3]
      cases u with
      | nil => rfl
      | cons d r => rcases hu d r rfl with rfl | rfl | rfl | rfl <;> rfl
  | @nanTag w cs hw hcs =>
    obtain ⟨a, b, c, rfl⟩ := three hw rfl
    · have ha : a.toUpper = 'N' := (List.cons.inj hw).1
      have w1 : dropWord "infinity".toList ([a, b, c] ++ '(' :: cs ++ [')'] ++ u) = none := dropWord_head (by rw [ha]; decide)
      have w2 : dropWord "inf".toList ([a, b, c] ++ '(' :: cs ++ [')'] ++ u) = none := dropWord_head (by rw [ha]; decide)
      have w3 : dropWord "nan".toList ([a, b, c] ++ '(' :: cs ++ [')'] ++ u) = some ('(' :: (cs ++ ')' :: u)) := by
        rw [List.append_assoc, List.append_assoc, dropWord_append ((same_upper (by decide)).1 hw)]; rfl
      have := (span_all (p := fun c => isalnum c || c == '_') (ds := cs) (t := ')' :: u)
        (fun c hc => by simpa using hcs c hc) (by rintro c r e; cases e; decide)).2
      rw [w1, w2, w3]
      simp only [this]

theorem numberText_head {n : CStr} {x : Dbl} (h : NumberText n x) :
    ∃ c r, n = c :: r ∧ (isdigit c || c == '.' || c == '-' || c == '+') = true := by
  cases h with
  | plain _ h =>
    obtain ⟨c, cs, rfl, h | rfl⟩ := h
    · exact ⟨c, cs, rfl, by simp [(isdigit_iff c).2 h]⟩
    · exact ⟨_, cs, rfl, by decide⟩
  | plus => exact ⟨_, _, rfl, by decide⟩
  | minus => exact ⟨_, _, rfl, by decide⟩

theorem start_chars {c : Char} (h : (isdigit c || c == '.' || c == '-' || c == '+') = true) :
    isspace c = false ∧ V.isSpTab c = false := by
  simp only [Bool.or_eq_true, beq_iff_eq] at h
  rcases h with ((h | rfl) | rfl) | rfl
  · simp only [isdigit, decide_eq_true_eq] at h
    constructor
    · simp only [isspace, decide_eq_false_iff_not]; omega
    · simp only [V.isSpTab, Bool.or_eq_false_iff, beq_eq_false_iff_ne]
      constructor <;> rintro rfl <;> revert h <;> decide
  · decide
  · decide
  · decide

theorem strtod_plain {c : Char} {s : CStr} (h : isspace c = false) (h1 : c ≠ '-') (h2 : c ≠ '+') :
    strtod (c :: s) = match scanUnsigned (c :: s) with | none => (.fin 0, c :: s) | some (x, r) => (x, r) := by
  unfold strtod
  simp only [List.dropWhile_cons, h, Bool.false_eq_true, if_false]
  split
  · rename_i heq
    split at heq
    · rename_i q; cases q; exact absurd rfl h1
    · rename_i q; cases q; exact absurd rfl h2
    · rw [heq]
  · rename_i heq
    split at heq
    · rename_i q; cases q; exact absurd rfl h1
    · rename_i q; cases q; exact absurd rfl h2
    · rw [heq]
      simp

theorem strtod_minus (s : CStr) :
    strtod ('-' :: s) = match scanUnsigned s with | none => (.fin 0, '-' :: s) | some (x, r) => (x.neg, r) := by
  unfold strtod
  simp only [List.dropWhile_cons, show isspace '-' = false by decide, Bool.false_eq_true, if_false, if_true]
  cases scanUnsigned s <;> rfl

theorem strtod_plus (s : CStr) :
    strtod ('+' :: s) = match scanUnsigned s with | none => (.fin 0, '+' :: s) | some (x, r) => (x, r) := by
  unfold strtod
  simp only [List.dropWhile_cons, show isspace '+' = false by decide, Bool.false_eq_true, if_false]
  cases scanUnsigned s <;> rfl

theorem strtod_complete {n u : CStr} {x : Dbl} (h : NumberText n x) (hu : Stops u) : strtod (n ++ u) = (x, u) := by
  cases h with
  | plain h hs =>
    have := scanUnsigned_complete h hu
    obtain ⟨d, ds, rfl, hd⟩ := hs
    have hd' : (isdigit d || d == '.' || d == '-' || d == '+') = true := by
      rcases hd with hd | rfl
      · simp [(isdigit_iff d).2 hd]
      · decide
    have n1 : d ≠ '-' := by rintro rfl; exact absurd hd (by decide)
    have n2 : d ≠ '+' := by rintro rfl; exact absurd hd (by decide)
    rw [List.cons_append] at this ⊢
    rw [strtod_plain (start_chars hd').1 n1 n2, this]
  | plus h => rw [List.cons_append, strtod_plus, scanUnsigned_complete h hu]
  | minus h ho => rw [List.cons_append, strtod_minus, scanUnsigned_complete h hu, Dbl.opposite_eq ho]

theorem unsigned_ne_nil {n : CStr} {x : Dbl} (h : Unsigned n x) : n ≠ [] := by
  cases h with
  | decimal hm _ => have := (mantissa_chars hm).1; simp [this]
  | hex => simp
  | inf h => rintro rfl; rcases h with h | h <;> exact absurd (congrArg List.length h) (by decide)
  | nan h => rintro rfl; exact absurd (congrArg List.length h) (by decide)
  | nanTag h => simp

theorem strtod_sound {c : Char} {s r : CStr} {x : Dbl} (hc : (isdigit c || c == '.' || c == '-' || c == '+') = true)
    (h : strtod (c :: s) = (x, r)) : r = c :: s ∨ ∃ n, c :: s = n ++ r ∧ NumberText n x := by
  by_cases h1 : c = '-'
  · subst h1
    rw [strtod_minus] at h
    split at h
    · cases h; exact .inl rfl
    · rename_i y r' hs
      obtain ⟨n, rfl, hu⟩ := scanUnsigned_sound hs
      cases h
      exact .inr ⟨'-' :: n, rfl, .minus hu (Dbl.neg_opposite _)⟩
  by_cases h2 : c = '+'
  · subst h2
    rw [strtod_plus] at h
    split at h
    · cases h; exact .inl rfl
    · rename_i y r' hs
      obtain ⟨n, rfl, hu⟩ := scanUnsigned_sound hs
      cases h
      exact .inr ⟨'+' :: n, rfl, .plus hu⟩
  rw [strtod_plain (start_chars hc).1 h1 h2] at h
  split at h
  · cases h; exact .inl rfl
  · rename_i y r' hs
    obtain ⟨n, hn, hu⟩ := scanUnsigned_sound hs
    cases h
    have hcd : isdigit c = true ∨ c = '.' := by simpa [h1, h2] using hc
    refine .inr ⟨n, hn, ?_⟩
    cases n with
    | nil => exact absurd rfl (unsigned_ne_nil hu)
    | cons d ds =>
      have : d = c := by simpa using (congrArg List.head? hn).symm
      subst this
      exact .plain hu ⟨d, ds, rfl, hcd.imp_left (isdigit_iff d).1⟩

theorem blank_iff (b : CStr) : Blank b ↔ ∀ c ∈ b, V.isSpTab c = true := by
  simp [Blank, V.isSpTab]

/-- A text is converted as a whole, up to `t`, exactly if the part before `t` is a number between blanks. -/
theorem convert_iff (s t : CStr) (x : Dbl) (ht : ∀ c r, t = c :: r → c = ',' ∨ c = '\n') :
    V.convert s = some (x, t) ↔ ∃ p, s = p ++ t ∧ Numeric p x := by
  constructor
  · intro h
    unfold V.convert at h
    split at h
    · cases h
    · rename_i c r hcr
      split at h
      · rename_i hc
        cases hst : strtod (c :: r) with
        | mk y rest =>
          rw [hst] at h
          simp only [Option.some.injEq, Prod.mk.injEq] at h
          obtain ⟨rfl, hrest⟩ := h
          rcases strtod_sound hc hst with rfl | ⟨n, hn, hnum⟩
          · simp only [List.dropWhile_cons, (start_chars hc).2, Bool.false_eq_true, if_false] at hrest
            rcases ht c r hrest.symm with rfl | rfl <;> exact absurd hc (by decide)
          · refine ⟨s.takeWhile V.isSpTab ++ n ++ rest.takeWhile V.isSpTab, ?_, _, n, _, rfl, ?_, ?_, hnum⟩
            · rw [List.append_assoc, ← hrest, List.takeWhile_append_dropWhile, List.append_assoc, ← hn, ← hcr,
                List.takeWhile_append_dropWhile]
            · rw [blank_iff]; exact fun c hc => mem_takeWhile hc
            · rw [blank_iff]; exact fun c hc => mem_takeWhile hc
      · cases h
  · rintro ⟨p, rfl, b, n, b', rfl, hb, hb', hn⟩
    obtain ⟨c, r, rfl, hc⟩ := numberText_head hn
    have h1 := (span_all (p := V.isSpTab) ((blank_iff b).1 hb) (t := c :: r ++ (b' ++ t))
      (by rintro d q e; cases e; exact (start_chars hc).2)).2
    have h2 := (span_all (p := V.isSpTab) ((blank_iff b').1 hb') (t := t)
      (by rintro d q e; rcases ht d q e with rfl | rfl <;> decide)).2
    have hstop : Stops (b' ++ t) := by
      intro d q e
      cases b' with
      | nil => rcases ht d q e with rfl | rfl <;> simp
      | cons a b' => cases e; rcases hb' d (by simp) with rfl | rfl <;> simp
    have h3 := strtod_complete hn hstop
    unfold V.convert
    rw [List.append_assoc, List.append_assoc, h1]
    simp only [List.cons_append] at h3 ⊢
    rw [if_pos hc, h3, h2]

theorem convert_whole (s : CStr) (x : Dbl) : V.convert s = some (x, []) ↔ Numeric s x := by
  rw [convert_iff s [] x (by simp)]
  simp

theorem upToComma_eq (s : CStr) : s = upToComma s ++ s.dropWhile (fun c => c != '\n' && c != ',') :=
  (List.takeWhile_append_dropWhile ..).symm

theorem after_upToComma {s : CStr} {c : Char} {r : CStr} (h : s.dropWhile (fun c => c != '\n' && c != ',') = c :: r) :
    c = ',' ∨ c = '\n' := by
  have := stop_head h
  simp only [Bool.and_eq_false_iff, bne_eq_false_iff_eq] at this
  exact this.symm

theorem numeric_chars {p : CStr} {x : Dbl} (h : Numeric p x) : ∀ c ∈ p, (c != '\n' && c != ',') = true := by
  obtain ⟨b, n, b', rfl, hb, hb', hn⟩ := h
  have hblank : ∀ q, Blank q → ∀ c ∈ q, (c != '\n' && c != ',') = true := by
    intro q hq c hc
    rcases hq c hc with rfl | rfl <;> decide
  have hdig : ∀ c, IsHexDigit c → (c != '\n' && c != ',') = true := by
    intro c hc
    simp only [Bool.and_eq_true, bne_iff_ne]
    constructor <;> rintro rfl <;> revert hc <;> unfold IsHexDigit <;> decide
  have hdec : ∀ c, _root_.Spec.IsDigit c → (c != '\n' && c != ',') = true := fun c h => hdig c (.inl h)
  have hman : ∀ P : Char → Prop, (∀ c, P c → (c != '\n' && c != ',') = true) → ∀ m ip fp, Mantissa P m ip fp →
      ∀ c ∈ m, (c != '\n' && c != ',') = true := by
    intro P hP m ip fp hm c hc
    obtain ⟨h1, -, ⟨rfl, rfl⟩ | rfl⟩ := hm
    · exact hP c (h1 c (by simp [hc]))
    · simp only [List.mem_append, List.mem_cons] at hc
      rcases hc with hc | rfl | hc
      · exact hP c (h1 c (by simp [hc]))
      · decide
      · exact hP c (h1 c (by simp [hc]))
  have hup : ∀ (c M : Char), c.toUpper = M → M ≠ '\n' ∧ M ≠ ',' → (c != '\n' && c != ',') = true := by
    intro c M h hM
    simp only [Bool.and_eq_true, bne_iff_ne]
    constructor <;> rintro rfl
    · exact hM.1 h.symm
    · exact hM.2 h.symm
  have hexp : ∀ (M : Char) (t : CStr) (e : Int), M ≠ '\n' ∧ M ≠ ',' → Exponent M t e →
      ∀ c ∈ t, (c != '\n' && c != ',') = true := by
    intro M t e hM h c hc
    rcases h with ⟨rfl, -⟩ | ⟨d, ds, hd, -, hds, h⟩
    · simp at hc
    · have := hup d M hd hM
      rcases h with ⟨rfl, -⟩ | ⟨rfl, -⟩ | ⟨rfl, -⟩ <;> simp only [List.mem_cons] at hc
      · rcases hc with rfl | hc
        · exact this
        · exact hdec c (hds c hc)
      · rcases hc with rfl | rfl | hc
        · exact this
        · decide
        · exact hdec c (hds c hc)
      · rcases hc with rfl | rfl | hc
        · exact this
        · decide
        · exact hdec c (hds c hc)
  have hword : ∀ w v : CStr, _root_.Spec.SameIgnoringCase w v → (∀ M ∈ v, M.toUpper ≠ '\n' ∧ M.toUpper ≠ ',') →
      ∀ c ∈ w, (c != '\n' && c != ',') = true := by
    intro w v h hv c hc
    have : c.toUpper ∈ v.map Char.toUpper := by rw [← h]; exact List.mem_map_of_mem hc
    obtain ⟨M, hM, he⟩ := List.mem_map.1 this
    exact hup c _ rfl (he ▸ hv M hM)
  have huns : ∀ u y, Unsigned u y → ∀ c ∈ u, (c != '\n' && c != ',') = true := by
    intro u y hu c hc
    cases hu with
    | decimal hm ht _ =>
      rcases List.mem_append.1 hc with hc | hc
      · exact hman _ hdec _ _ _ hm c hc
      · exact hexp _ _ _ (by decide) ht c hc
    | hex hX hm ht _ =>
      simp only [List.cons_append, List.mem_cons, List.mem_append] at hc
      rcases hc with rfl | rfl | hc | hc
      · decide
      · exact hup _ _ hX (by decide)
      · exact hman _ hdig _ _ _ hm c hc
      · exact hexp _ _ _ (by decide) ht c hc
    | inf h => rcases h with h | h <;> exact hword _ _ h (by decide) c hc
    | nan h => exact hword _ _ h (by decide) c hc
    | nanTag h hcs =>
      simp only [List.append_assoc, List.cons_append, List.mem_cons, List.mem_append] at hc
      rcases hc with hc | rfl | hc | rfl | hc
      · exact hword _ _ h (by decide) c hc
      · decide
      · rcases hcs c hc with h | rfl
        · simp only [Bool.and_eq_true, bne_iff_ne]
          constructor <;> rintro rfl <;> exact absurd h (by decide)
        · decide
      · decide
      · simp at hc
  intro c hc
  simp only [List.mem_append] at hc
  rcases hc with (hc | hc) | hc
  · exact hblank _ hb c hc
  · cases hn with
    | plain h _ => exact huns _ _ h c hc
    | plus h =>
      rcases List.mem_cons.1 hc with rfl | hc
      · decide
      · exact huns _ _ h c hc
    | minus h _ =>
      rcases List.mem_cons.1 hc with rfl | hc
      · decide
      · exact huns _ _ h c hc
  · exact hblank _ hb' c hc

theorem convert_input (s : CStr) (x : Dbl) : Numeric (upToComma s) x ↔
    ∃ t, V.convert s = some (x, t) ∧ V.endsNumber t = true := by
  constructor
  · intro h
    refine ⟨s.dropWhile (fun c => c != '\n' && c != ','), ?_, ?_⟩
    · rw [convert_iff]
      · exact ⟨upToComma s, upToComma_eq s, h⟩
      · exact fun c r h => after_upToComma h
    · cases hd : s.dropWhile (fun c => c != '\n' && c != ',') with
      | nil => rfl
      | cons c r => rcases after_upToComma hd with rfl | rfl <;> rfl
  · rintro ⟨t, hc, he⟩
    have ht : ∀ c r, t = c :: r → c = ',' ∨ c = '\n' := by
      rintro c r rfl
      simpa [V.endsNumber, or_comm] using he
    rw [convert_iff s t x ht] at hc
    obtain ⟨p, rfl, hp⟩ := hc
    have : upToComma (p ++ t) = p :=
      (span_all (numeric_chars hp) (fun c r h => by rcases ht c r h with rfl | rfl <;> decide)).1
    rwa [this]

theorem convert_input_rest {s t : CStr} {x : Dbl} (h : V.convert s = some (x, t)) (he : V.endsNumber t = true) :
    t = s.dropWhile (fun c => c != '\n' && c != ',') := by
  have ht : ∀ c r, t = c :: r → c = ',' ∨ c = '\n' := by
    rintro c r rfl
    simpa [V.endsNumber, or_comm] using he
  rw [convert_iff s t x ht] at h
  obtain ⟨p, rfl, hp⟩ := h
  exact (span_all (numeric_chars hp) (fun c r h => by rcases ht c r h with rfl | rfl <;> decide)).2.symm

end LB
