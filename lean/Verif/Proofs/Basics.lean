import Verif.Model.Basics
import Verif.Spec.Text
/- Lemmas about characters, digits and comparison functions. -/
namespace LB

theorem toNat_ofNat_lt {n : Nat} (h : n < 0xd800) : (Char.ofNat n).toNat = n := by
  have hv : n.isValidChar := Or.inl h
  simp only [Char.ofNat, hv, dif_pos, Char.ofNatAux, Char.toNat]
  rfl

theorem toupper_toNat (c : Char) :
    (toupper c).toNat = if 97 ≤ c.toNat ∧ c.toNat ≤ 122 then c.toNat - 32 else c.toNat := by
  unfold toupper islower
  by_cases h : 97 ≤ c.toNat ∧ c.toNat ≤ 122
  · simp [h, toNat_ofNat_lt (show c.toNat - 32 < 0xd800 by omega)]
  · simp only [decide_eq_true_eq]; rw [if_neg h, if_neg h]

theorem tolower_toNat (c : Char) :
    (tolower c).toNat = if 65 ≤ c.toNat ∧ c.toNat ≤ 90 then c.toNat + 32 else c.toNat := by
  unfold tolower isupper
  by_cases h : 65 ≤ c.toNat ∧ c.toNat ≤ 90
  · simp [h, toNat_ofNat_lt (show c.toNat + 32 < 0xd800 by omega)]
  · simp only [decide_eq_true_eq]; rw [if_neg h, if_neg h]

theorem toUpper_eq (c : Char) : Char.toUpper c = toupper c := by
  apply Char.toNat_inj.mp
  rw [toupper_toNat]
  unfold Char.toUpper
  have hc : c.toNat = c.val.toNat := rfl
  by_cases h : c.val ≥ 'a'.val ∧ c.val ≤ 'z'.val
  · have h' : 97 ≤ c.toNat ∧ c.toNat ≤ 122 := by
      obtain ⟨h1, h2⟩ := h
      exact ⟨UInt32.le_iff_toNat_le.mp h1, UInt32.le_iff_toNat_le.mp h2⟩
    rw [dif_pos h, if_pos h']
    rw [Char.toNat_mk, UInt32.toNat_add, show ('A'.val - 'a'.val).toNat = 2^32 - 32 from by decide]
    rw [← hc]; omega
  · have h' : ¬ (97 ≤ c.toNat ∧ c.toNat ≤ 122) := by
      intro h2; apply h
      exact ⟨UInt32.le_iff_toNat_le.mpr h2.1, UInt32.le_iff_toNat_le.mpr h2.2⟩
    rw [dif_neg h, if_neg h']

theorem tolower_eq_iff (a b : Char) : tolower a = tolower b ↔ Char.toUpper a = Char.toUpper b := by
  rw [toUpper_eq, toUpper_eq, ← Char.toNat_inj, ← Char.toNat_inj]
  rw [tolower_toNat, tolower_toNat, toupper_toNat, toupper_toNat]
  split <;> split <;> split <;> split <;> omega

theorem map_tolower_eq_iff (a b : List Char) :
    a.map tolower = b.map tolower ↔ Spec.SameIgnoringCase a b := by
  unfold Spec.SameIgnoringCase
  induction a generalizing b with
  | nil => cases b <;> simp
  | cons x xs ih =>
    cases b with
    | nil => simp
    | cons y ys => simp only [List.map_cons, List.cons.injEq, tolower_eq_iff, ih]

theorem strcasecmp_eq_zero (a b : CStr) : strcasecmp a b = 0 ↔ a.map tolower = b.map tolower := by
  fun_induction strcasecmp a b with
  | case1 => simp
  | case2 => simp
  | case3 => simp
  | case4 a as b bs d h =>
    simp only [List.map_cons, List.cons.injEq]
    constructor
    · intro h2; exact absurd h2 h
    · rintro ⟨h2, -⟩
      exfalso; apply h; rw [show d = ((tolower a).toNat : Int) - (tolower b).toNat from rfl, h2]; omega
  | case5 a as b bs d h ih =>
    simp only [List.map_cons, List.cons.injEq, ih]
    have : tolower a = tolower b := by
      apply Char.toNat_inj.mp; simp only [d, ne_eq, Decidable.not_not] at h; omega
    simp [this]

theorem strcasecmp_eq_zero_iff (a b : CStr) : strcasecmp a b = 0 ↔ Spec.SameIgnoringCase a b := by
  rw [strcasecmp_eq_zero, map_tolower_eq_iff]

theorem strcasecmp_neg (a b : CStr) : strcasecmp a b = - strcasecmp b a := by
  fun_induction strcasecmp a b with
  | case1 => simp [strcasecmp]
  | case2 => simp [strcasecmp]
  | case3 => simp [strcasecmp]
  | case4 a as b bs d h =>
    rw [strcasecmp]
    have : ((tolower b).toNat : Int) - (tolower a).toNat ≠ 0 := by omega
    simp only [this, ne_eq, not_false_eq_true, if_true]; omega
  | case5 a as b bs d h ih =>
    rw [strcasecmp]
    have : ¬ ((tolower b).toNat : Int) - (tolower a).toNat ≠ 0 := by omega
    simp only [this, if_false]; exact ih

theorem strcasecmp_trans (a b c : CStr) (h1 : strcasecmp a b < 0) (h2 : strcasecmp b c < 0) :
    strcasecmp a c < 0 := by
  induction a generalizing b c with
  | nil =>
    cases c with
    | nil => cases b <;> simp [strcasecmp] at h1 h2
    | cons => simp [strcasecmp]
  | cons x xs ih =>
    cases b with
    | nil => simp [strcasecmp] at h1
    | cons y ys =>
      cases c with
      | nil => simp [strcasecmp] at h2
      | cons z zs =>
        simp only [strcasecmp] at *
        split at h1 <;> split at h2 <;> split <;> try omega
        exact ih _ _ h1 h2

theorem strncasecmp_eq_zero (a b : CStr) (n : Nat) :
    strncasecmp a b n = 0 ↔ (a.take n).map tolower = (b.take n).map tolower := by
  fun_induction strncasecmp a b n with
  | case1 => simp
  | case2 => simp
  | case3 => simp
  | case4 => simp
  | case5 a as b bs n d h =>
    simp only [List.take_succ_cons, List.map_cons, List.cons.injEq]
    constructor
    · intro h2; exact absurd h2 h
    · rintro ⟨h2, -⟩
      exfalso; apply h; rw [show d = ((tolower a).toNat : Int) - (tolower b).toNat from rfl, h2]; omega
  | case6 a as b bs n d h ih =>
    simp only [List.take_succ_cons, List.map_cons, List.cons.injEq, ih]
    have : tolower a = tolower b := by
      apply Char.toNat_inj.mp; simp only [d, ne_eq, Decidable.not_not] at h; omega
    simp [this]

theorem strncasecmp_eq_zero_iff (a b : CStr) (n : Nat) :
    strncasecmp a b n = 0 ↔ Spec.SameIgnoringCase (a.take n) (b.take n) := by
  rw [strncasecmp_eq_zero, map_tolower_eq_iff]

theorem isdigit_iff (c : Char) : isdigit c = true ↔ Spec.IsDigit c := by
  simp only [isdigit, decide_eq_true_eq, Spec.IsDigit, Char.le_def]
  constructor
  · rintro ⟨h1, h2⟩
    exact ⟨UInt32.le_iff_toNat_le.mpr h1, UInt32.le_iff_toNat_le.mpr h2⟩
  · rintro ⟨h1, h2⟩
    exact ⟨UInt32.le_iff_toNat_le.mp h1, UInt32.le_iff_toNat_le.mp h2⟩

theorem isdigit_digitChar (n : Nat) (h : n < 10) : isdigit n.digitChar = true := by
  have : n = 0 ∨ n = 1 ∨ n = 2 ∨ n = 3 ∨ n = 4 ∨ n = 5 ∨ n = 6 ∨ n = 7 ∨ n = 8 ∨ n = 9 := by omega
  rcases this with h|h|h|h|h|h|h|h|h|h <;> subst h <;> decide

theorem fmtU_digits (n : Nat) : ∀ c ∈ fmtU n, isdigit c = true := by
  intro c hc
  unfold fmtU at hc
  induction n using Nat.strongRecOn with
  | _ n ih =>
    by_cases h : n < 10
    · rw [Nat.toDigits_of_lt_base h] at hc
      simp only [List.mem_singleton] at hc
      subst hc; exact isdigit_digitChar n h
    · have h1 : Nat.toDigits 10 n = Nat.toDigits 10 (n / 10) ++ Nat.toDigits 10 (n % 10) := by
        rw [Nat.toDigits_append_toDigits (by omega) (by omega) (Nat.mod_lt _ (by omega))]
        congr 1; omega
      rw [h1, List.mem_append] at hc
      rcases hc with hc | hc
      · exact ih (n / 10) (by omega) hc
      · exact ih (n % 10) (by omega) hc

theorem fmtU_ne_nil (n : Nat) : fmtU n ≠ [] := by
  unfold fmtU
  by_cases h : n < 10
  · rw [Nat.toDigits_of_lt_base h]; simp
  · have h1 : Nat.toDigits 10 n = Nat.toDigits 10 (n / 10) ++ Nat.toDigits 10 (n % 10) := by
      rw [Nat.toDigits_append_toDigits (by omega) (by omega) (Nat.mod_lt _ (by omega))]
      congr 1; omega
    rw [h1, Nat.toDigits_of_lt_base (n := n % 10) (Nat.mod_lt _ (by omega))]; simp

theorem decimal_fmtU (n : Nat) : Spec.decimal (fmtU n) = n := Nat.ofDigitChars_ten_toDigits

end LB
