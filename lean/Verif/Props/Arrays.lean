import Verif.Proofs.Arrays
/- C13, C14, C15: arrays. -/
namespace LB
open Spec

/-- C15.  `DIM` with largest subscripts below 2^32-1 is accepted exactly for one or two dimensions
with at most 65536 elements in all, and then every element is zero. -/
theorem C15_dim_partial {α : Type} (zero : α) (max : List Nat) (hm : ∀ m ∈ max, m < 2 ^ 32 - 1) :
    newArray zero 0 max =
      if (max.length = 1 ∨ max.length = 2) ∧ cells max ≤ 65536 then
        .ok (some { size := { base := 0, dimensions := max.length, max := max, elements := cells max },
                    val := List.replicate (cells max) zero })
      else .ok none := by
  unfold newArray
  rw [initArraySize_base0 max hm]
  by_cases h : (max.length = 1 ∨ max.length = 2) ∧ cells max ≤ 65536
  · simp only [if_pos h]
  · simp only [if_neg h]

/-- C15, missing case: with the largest subscript 2^32-1 the size wraps to zero and `DIM` is
accepted without any cells. -/
theorem C15_dim_wraps : newArray (0 : Nat) 0 [2 ^ 32 - 1] =
    .ok (some { size := { base := 0, dimensions := 1, max := [65535], elements := 0 }, val := [] }) := by decide

/-- C15, missing case: a second dimension after such a subscript divides by zero. -/
theorem C15_dim_divides_by_zero (n : Nat) : newArray (0 : Nat) 0 [2 ^ 32 - 1, n] =
    .halt (.divByZero "compute_total_elements") := by
  simp [newArray, initArraySize, maxDimensions, computeTotalElements, totalElementsLoop, u32, maxElements]

/-- The array made by an accepted `DIM` (of the sizes covered by `C15_dim_partial`), possibly after
some stores: its shape is `max` and it has all its cells. -/
def Dimensioned {α : Type} (a : BArray α) (max : List Nat) : Prop :=
  (max.length = 1 ∨ max.length = 2) ∧ cells max ≤ 65536 ∧
  a.size = { base := 0, dimensions := max.length, max := max, elements := cells max } ∧
  a.val.length = cells max

theorem dimensioned_new {α : Type} (zero : α) (max : List Nat) (hm : ∀ m ∈ max, m < 2 ^ 32 - 1)
    (a : BArray α) (h : newArray zero 0 max = .ok (some a)) : Dimensioned a max := by
  rw [C15_dim_partial zero max hm] at h
  split at h
  · next hc =>
    simp only [Outcome.ok.injEq, Option.some.injEq] at h
    subst h
    exact ⟨hc.1, hc.2, rfl, by simp⟩
  · simp at h

theorem arrayGet_dim {α : Type} (a : BArray α) (max idx : List Nat) (h : Dimensioned a max) :
    arrayGet a idx = .ok (if InRange idx max then a.val[rowMajor idx max]? else none) := by
  obtain ⟨h1, h2, h3, h4⟩ := h
  unfold arrayGet
  rw [offset_base0 max idx h1 h2 a.size h3]
  by_cases hr : InRange idx max
  · simp only [hr, if_true]
    have := rowMajor_lt max idx h1 hr
    have hlt : rowMajor idx max < a.val.length := by omega
    rw [List.getElem?_eq_getElem hlt]
  · simp [hr]

theorem arraySet_dim {α : Type} (a : BArray α) (max idx : List Nat) (v : α) (h : Dimensioned a max) :
    arraySet a idx v = .ok (if InRange idx max then some { a with val := a.val.set (rowMajor idx max) v } else none) := by
  obtain ⟨h1, h2, h3, h4⟩ := h
  unfold arraySet
  rw [offset_base0 max idx h1 h2 a.size h3]
  by_cases hr : InRange idx max
  · simp only [hr, if_true]
    have := rowMajor_lt max idx h1 hr
    rw [if_pos (by omega)]
  · simp [hr]

/-- C13.  Every access to a dimensioned array, with any subscripts, stays inside the array: it
succeeds when the number of subscripts and each subscript fit, and is refused otherwise. -/
theorem C13_access_inside {α : Type} (a : BArray α) (max idx : List Nat) (v : α) (h : Dimensioned a max) :
    (InRange idx max → (∃ x, arrayGet a idx = .ok (some x)) ∧ ∃ b, arraySet a idx v = .ok (some b) ∧ Dimensioned b max) ∧
    (¬ InRange idx max → arrayGet a idx = .ok none ∧ arraySet a idx v = .ok none) := by
  constructor
  · intro hr
    rw [arrayGet_dim a max idx h, arraySet_dim a max idx v h, if_pos hr, if_pos hr]
    have := rowMajor_lt max idx h.1 hr
    have hlt : rowMajor idx max < a.val.length := by rw [h.2.2.2]; exact this
    refine ⟨⟨_, by rw [List.getElem?_eq_getElem hlt]⟩, _, rfl, h.1, h.2.1, h.2.2.1, ?_⟩
    simp [h.2.2.2]
  · intro hr
    rw [arrayGet_dim a max idx h, arraySet_dim a max idx v h, if_neg hr, if_neg hr]
    exact ⟨rfl, rfl⟩

/-- C13 fails for the wrapped size of `C15_dim_wraps`: the access leaves the array. -/
theorem C13_violated_at_wrap (a : BArray Nat) (h : newArray 0 0 [2 ^ 32 - 1] = .ok (some a)) :
    arrayGet a [5] = .halt (.outOfBounds "array element read") := by
  rw [C15_dim_wraps] at h
  simp only [Outcome.ok.injEq, Option.some.injEq] at h
  subst h
  decide

/-- C14.  Storing in one element changes that element and no other. -/
theorem C14_elements_separate {α : Type} (a b : BArray α) (max i : List Nat) (v : α)
    (h : Dimensioned a max) (hb : arraySet a i v = .ok (some b)) :
    arrayGet b i = .ok (some v) ∧ ∀ j, j ≠ i → arrayGet b j = arrayGet a j := by
  have hset := arraySet_dim a max i v h
  rw [hb] at hset
  by_cases hr : InRange i max
  · rw [if_pos hr] at hset
    simp only [Outcome.ok.injEq, Option.some.injEq] at hset
    have hlt : rowMajor i max < a.val.length := by rw [h.2.2.2]; exact rowMajor_lt max i h.1 hr
    have hbd : Dimensioned b max := by
      subst hset; exact ⟨h.1, h.2.1, h.2.2.1, by simp [h.2.2.2]⟩
    constructor
    · rw [arrayGet_dim b max i hbd, if_pos hr]
      subst hset; simp [hlt]
    · intro j hj
      rw [arrayGet_dim b max j hbd, arrayGet_dim a max j h]
      by_cases hrj : InRange j max
      · rw [if_pos hrj, if_pos hrj]
        have hne : rowMajor i max ≠ rowMajor j max :=
          fun e => hj (rowMajor_inj max j i h.1 hrj hr e.symm)
        subst hset
        simp [hne]
      · rw [if_neg hrj, if_neg hrj]
  · rw [if_neg hr] at hset; simp at hset

example : ∃ a : BArray Nat, newArray 0 0 [2, 3] = .ok (some a) ∧ Dimensioned a [2, 3] ∧
    InRange [1, 2] [2, 3] ∧ ¬ InRange [1, 4] [2, 3] ∧ ¬ InRange [1] [2, 3] := by
  refine ⟨_, rfl, ?_, by decide, by decide, by decide⟩
  exact ⟨by decide, by decide, by decide, by decide⟩

end LB
