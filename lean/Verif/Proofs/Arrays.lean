import Verif.Model.Arrays
import Verif.Spec.Arrays
/- Lemmas about Basic/arrays.c with array base 0 (the only base the program uses). -/
namespace LB

open Spec (cells InRange)

theorem u32_of_lt {n : Nat} (h : n < 2 ^ 32) : u32 n = n := Nat.mod_eq_of_lt h
theorem u16_of_lt {n : Nat} (h : n < 2 ^ 16) : u16 n = n := Nat.mod_eq_of_lt h

theorem total_one (m : Nat) (hm : m < 2 ^ 32 - 1) :
    computeTotalElements 0 [m] = .ok (if m + 1 ≤ 65536 then some (m + 1) else none) := by
  unfold computeTotalElements
  have h1 : u32 (m - 0 + 1) = m + 1 := u32_of_lt (by omega)
  simp only [totalElementsLoop, h1, maxElements]
  rw [if_neg (by omega), if_neg (by omega)]
  by_cases h : m + 1 ≤ 65536
  · rw [if_neg (by omega), if_pos h]
    simp only [Nat.one_mul]; rw [u32_of_lt (by omega)]
  · rw [if_pos (by omega), if_neg h]

theorem total_two (m n : Nat) (hm : m < 2 ^ 32 - 1) (hn : n < 2 ^ 32 - 1) :
    computeTotalElements 0 [m, n]
      = .ok (if (m + 1) * (n + 1) ≤ 65536 then some ((m + 1) * (n + 1)) else none) := by
  unfold computeTotalElements
  have h1 : u32 (m - 0 + 1) = m + 1 := u32_of_lt (by omega)
  have h2 : u32 (n - 0 + 1) = n + 1 := u32_of_lt (by omega)
  simp only [totalElementsLoop, h1, h2, maxElements]
  rw [if_neg (by omega), if_neg (by omega)]
  by_cases h : m + 1 ≤ 65536
  · rw [if_neg (by omega)]
    simp only [Nat.one_mul]
    rw [u32_of_lt (n := m + 1) (by omega), if_neg (by omega), if_neg (by omega)]
    have key : n + 1 > 64 * 1024 / (m + 1) ↔ ¬ (m + 1) * (n + 1) ≤ 65536 := by
      rw [gt_iff_lt, Nat.div_lt_iff_lt_mul (by omega), Nat.mul_comm (n + 1)]; omega
    by_cases h' : (m + 1) * (n + 1) ≤ 65536
    · rw [if_neg (by rw [key]; omega), if_pos h', u32_of_lt (by omega)]
    · rw [if_pos (key.mpr h'), if_neg h']
  · rw [if_pos (by omega), if_neg]
    have : (m + 1) * 1 ≤ (m + 1) * (n + 1) := Nat.mul_le_mul_left _ (by omega)
    omega

theorem initArraySize_base0 (max : List Nat) (hm : ∀ m ∈ max, m < 2 ^ 32 - 1) :
    initArraySize 0 max =
      if (max.length = 1 ∨ max.length = 2) ∧ cells max ≤ 65536 then
        .ok (some { base := 0, dimensions := max.length, max := max, elements := cells max })
      else .ok none := by
  unfold initArraySize
  match max, hm with
  | [], _ => simp
  | [m], hm =>
    have h := hm m (by simp)
    rw [if_neg (by simp [maxDimensions]), total_one m h]
    simp only [cells, List.map_cons, List.map_nil, List.prod_cons, List.prod_nil, Nat.mul_one]
    by_cases hc : m + 1 ≤ 65536
    · simp only [hc, if_true]
      rw [if_pos (by simp)]
      simp [u16_of_lt (show m < 2 ^ 16 by omega), u16_of_lt (show 0 < 2 ^ 16 by omega)]
    · simp [hc]
  | [m, n], hm =>
    have h := hm m (by simp)
    have h' := hm n (by simp)
    rw [if_neg (by simp [maxDimensions]), total_two m n h h']
    simp only [cells, List.map_cons, List.map_nil, List.prod_cons, List.prod_nil, Nat.mul_one]
    by_cases hc : (m + 1) * (n + 1) ≤ 65536
    · simp only [hc, if_true]
      rw [if_pos (by simp)]
      have hm' : m < 2 ^ 16 := by
        have : (m + 1) * 1 ≤ (m + 1) * (n + 1) := Nat.mul_le_mul_left _ (by omega)
        omega
      have hn' : n < 2 ^ 16 := by
        have : 1 * (n + 1) ≤ (m + 1) * (n + 1) := Nat.mul_le_mul_right _ (by omega)
        omega
      simp [u16_of_lt hm', u16_of_lt hn', u16_of_lt (show 0 < 2 ^ 16 by omega)]
    · simp [hc]
  | _ :: _ :: _ :: _, _ =>
    rw [if_pos (by simp [maxDimensions])]; simp

theorem u32_bounds (n : Nat) : u32 n < 2 ^ 32 := Nat.mod_lt _ (by decide)

/-- Position of an element in row-major order. -/
def rowMajor (idx max : List Nat) : Nat :=
  match idx, max with
  | [i], [_] => i
  | [i, j], [_, n] => i * (n + 1) + j
  | _, _ => 0

theorem indexesInRange_iff (idx max : List Nat) (hl : idx.length = max.length) :
    indexesInRange 0 idx max = true ↔ InRange idx max := by
  unfold Spec.InRange
  simp only [hl, true_and]
  induction idx generalizing max with
  | nil => simp [indexesInRange]
  | cons i is ih =>
    cases max with
    | nil => simp at hl
    | cons m ms =>
      simp only [indexesInRange, Nat.not_lt_zero, decide_false, Bool.false_or, Bool.and_eq_true,
        Bool.not_eq_true', decide_eq_false_iff_not, Nat.not_lt]
      rw [ih ms (by simpa using hl)]
      constructor
      · rintro ⟨h1, h2⟩ k a b ha hb
        cases k with
        | zero => simp at ha hb; omega
        | succ k => exact h2 k a b (by simpa using ha) (by simpa using hb)
      · intro h
        exact ⟨by have := h 0 i m (by simp) (by simp); omega,
          fun k a b ha hb => h (k + 1) a b (by simpa using ha) (by simpa using hb)⟩

instance (idx max : List Nat) : Decidable (InRange idx max) :=
  if hl : idx.length = max.length then
    decidable_of_iff _ (indexesInRange_iff idx max hl)
  else isFalse (fun h => hl h.1)

theorem offset_base0 (max idx : List Nat) (hd : max.length = 1 ∨ max.length = 2)
    (hc : cells max ≤ 65536) (sz : ArraySize)
    (hsz : sz = { base := 0, dimensions := max.length, max := max, elements := cells max }) :
    computeElementOffset sz idx =
      .ok (if InRange idx max then some (rowMajor idx max) else none) := by
  subst hsz
  unfold computeElementOffset
  simp only
  by_cases hl : idx.length = max.length
  · rw [if_neg (by simpa using hl)]
    by_cases hr : InRange idx max
    · rw [if_neg (by simp [(indexesInRange_iff idx max hl).mpr hr]), if_pos hr]
      match max, idx, hl, hd, hc, hr with
      | [m], [i], _, _, _, _ => simp [rowMajor]
      | [m, n], [i, j], _, _, hc, hr =>
        have hi : i ≤ m := hr.2 0 i m (by simp) (by simp)
        have hj : j ≤ n := hr.2 1 j n (by simp) (by simp)
        simp only [cells, List.map_cons, List.map_nil, List.prod_cons, List.prod_nil, Nat.mul_one] at hc
        have h1 : 1 * (n + 1) ≤ (m + 1) * (n + 1) := Nat.mul_le_mul_right _ (by omega)
        have h2 : i * (n + 1) ≤ m * (n + 1) := Nat.mul_le_mul_right _ hi
        have h3 : (m + 1) * (n + 1) = m * (n + 1) + (n + 1) := by rw [Nat.add_mul, Nat.one_mul]
        simp only [rowMajor, Nat.sub_zero]
        rw [u32_of_lt (n := n + 1) (by omega), u32_of_lt (n := i * (n + 1)) (by omega),
          u32_of_lt (by omega)]
    · have : indexesInRange 0 idx max = false := by
        rw [← Bool.not_eq_true, indexesInRange_iff idx max hl]; exact hr
      rw [if_pos (by simp [this]), if_neg hr]
  · rw [if_pos (by simpa using hl), if_neg (fun h => hl h.1)]

theorem rowMajor_lt (max idx : List Nat) (hd : max.length = 1 ∨ max.length = 2) (hr : InRange idx max) :
    rowMajor idx max < cells max := by
  obtain ⟨hl, hr⟩ := hr
  match max, idx, hl, hd, hr with
  | [m], [i], _, _, hr =>
    have := hr 0 i m (by simp) (by simp)
    simp [rowMajor, cells]; omega
  | [m, n], [i, j], _, _, hr =>
    have hi : i ≤ m := hr 0 i m (by simp) (by simp)
    have hj : j ≤ n := hr 1 j n (by simp) (by simp)
    have h2 : i * (n + 1) ≤ m * (n + 1) := Nat.mul_le_mul_right _ hi
    have h3 : (m + 1) * (n + 1) = m * (n + 1) + (n + 1) := by rw [Nat.add_mul, Nat.one_mul]
    simp only [rowMajor, cells, List.map_cons, List.map_nil, List.prod_cons, List.prod_nil, Nat.mul_one]
    omega

theorem rowMajor_inj (max a b : List Nat) (hd : max.length = 1 ∨ max.length = 2)
    (ha : InRange a max) (hb : InRange b max) (h : rowMajor a max = rowMajor b max) : a = b := by
  obtain ⟨hla, hra⟩ := ha
  obtain ⟨hlb, hrb⟩ := hb
  match max, a, b, hla, hlb, hd, hra, hrb, h with
  | [m], [i], [j], _, _, _, _, _, h => simpa [rowMajor] using h
  | [m, n], [i, j], [k, l], _, _, _, hra, hrb, h =>
    have hj : j ≤ n := hra 1 j n (by simp) (by simp)
    have hl : l ≤ n := hrb 1 l n (by simp) (by simp)
    simp only [rowMajor] at h
    have hik : i = k := by
      have e1 : (i * (n + 1) + j) / (n + 1) = i := by
        rw [Nat.mul_comm, Nat.mul_add_div (by omega), Nat.div_eq_of_lt (by omega)]; omega
      have e2 : (k * (n + 1) + l) / (n + 1) = k := by
        rw [Nat.mul_comm, Nat.mul_add_div (by omega), Nat.div_eq_of_lt (by omega)]; omega
      rw [← e1, h, e2]
    subst hik
    have : j = l := by omega
    rw [this]

end LB
