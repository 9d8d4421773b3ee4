import Verif.Proofs.StringUniq
/- C16: listings of names. -/
namespace LB
open Spec

/-- `a` comes before `b` in dictionary order, ignoring case: they agree up to a place where `a`
ends or has the smaller (lower-cased) character. -/
def Precedes : List Char → List Char → Prop
  | [], [] => False
  | [], _ :: _ => True
  | _ :: _, [] => False
  | a :: as, b :: bs => a.toLower.toNat < b.toLower.toNat ∨ (a.toLower = b.toLower ∧ Precedes as bs)

theorem toLower_eq (c : Char) : Char.toLower c = tolower c := by
  apply Char.toNat_inj.mp
  rw [tolower_toNat]
  unfold Char.toLower
  have hc : c.toNat = c.val.toNat := rfl
  by_cases h : c.val ≥ 'A'.val ∧ c.val ≤ 'Z'.val
  · have h' : 65 ≤ c.toNat ∧ c.toNat ≤ 90 := by
      obtain ⟨h1, h2⟩ := h
      exact ⟨UInt32.le_iff_toNat_le.mp h1, UInt32.le_iff_toNat_le.mp h2⟩
    rw [dif_pos h, if_pos h']
    rw [Char.toNat_mk, UInt32.toNat_add, show ('a'.val - 'A'.val).toNat = 32 from by decide]
    rw [← hc]; omega
  · have h' : ¬ (65 ≤ c.toNat ∧ c.toNat ≤ 90) := by
      intro h2; apply h
      exact ⟨UInt32.le_iff_toNat_le.mpr h2.1, UInt32.le_iff_toNat_le.mpr h2.2⟩
    rw [dif_neg h, if_neg h']

theorem strcasecmp_lt_iff (a b : CStr) : strcasecmp a b < 0 ↔ Precedes a b := by
  fun_induction strcasecmp a b with
  | case1 => simp [Precedes]
  | case2 => simp [Precedes]
  | case3 => simp [Precedes]
  | case4 a as b bs d h =>
    simp only [Precedes, toLower_eq]
    constructor
    · intro h2; exact Or.inl (by omega)
    · rintro (h2 | ⟨h2, -⟩)
      · omega
      · exfalso; apply h; rw [show d = ((tolower a).toNat : Int) - (tolower b).toNat from rfl, h2]; omega
  | case5 a as b bs d h ih =>
    simp only [Precedes, toLower_eq, ih]
    have : tolower a = tolower b := by
      apply Char.toNat_inj.mp; simp only [d, ne_eq, Decidable.not_not] at h; omega
    simp [this]

/-- C16.  A listing of names is in dictionary order ignoring case with no name twice, contains
only names given, and contains every name given, up to case. -/
theorem C16_names_sorted_unique (names : List (List Char)) :
    (uniqueStrings names).Pairwise Precedes ∧
    (∀ x ∈ uniqueStrings names, x ∈ names) ∧
    (∀ s ∈ names, ∃ x ∈ uniqueStrings names, SameIgnoringCase x s) ∧
    (uniqueStrings names).Pairwise (fun a b => ¬ SameIgnoringCase a b) := by
  obtain ⟨h1, h2, _, h4⟩ := foldl_insert names .leaf trivial
  have hs := Tree.bst_sorted _ h1
  refine ⟨?_, ?_, h4, ?_⟩
  · exact hs.imp (fun h => (strcasecmp_lt_iff _ _).mp h)
  · intro x hx
    rcases h2 x hx with h | h
    · exact h
    · simp [traverseTree] at h
  · exact hs.imp (fun h h' => by rw [(strcasecmp_eq_zero_iff _ _).mpr h'] at h; omega)

example : uniqueStrings ["beta".toList, "ALPHA".toList, "Beta".toList, "a".toList]
    = ["a".toList, "ALPHA".toList, "beta".toList] := by decide

end LB
