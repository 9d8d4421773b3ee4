import Verif.Spec.Doubles
import Verif.Proofs.Num
/- Rounding to doubles gives the nearest one. -/
namespace LB
open LB.Spec
theorem power_two (e : Int) : power 2 e = Dbl.pow2 e := by
  unfold power Dbl.pow2
  split
  · rename_i h
    rw [show (-e).toNat = 0 by omega]
    simp only [Rat.pow_zero, Rat.div_def, show (1:Rat)⁻¹ = 1 by decide +kernel, Rat.mul_one]
    rfl
  · rename_i h
    rw [show e.toNat = 0 by omega]
    simp only [Rat.pow_zero]
    rfl

namespace Dbl

theorem cast_le {a b : Int} (h : a ≤ b) : (a : Rat) ≤ (b : Rat) := Rat.intCast_le_intCast.2 h

theorem roundEven_cases (x : Rat) :
    ((x.floor : Rat) ≤ x ∧ x < (x.floor : Rat) + 1) ∧
    ((roundEven x = x.floor ∧ x - x.floor < 1/2) ∨ (roundEven x = x.floor + 1 ∧ 1/2 < x - x.floor) ∨
     (x - x.floor = 1/2 ∧ roundEven x % 2 = 0 ∧ (roundEven x = x.floor ∨ roundEven x = x.floor + 1))) := by
  have h1 : (x.floor : Rat) ≤ x := Rat.floor_le x
  have h2 : x < (x.floor : Rat) + 1 := by
    have : x - 1 < (x.floor : Rat) := Rat.lt_floor
    grind
  refine ⟨⟨h1, h2⟩, ?_⟩
  unfold roundEven
  simp only
  split
  · rename_i h; exact .inl ⟨rfl, h⟩
  · rename_i h
    split
    · rename_i h'; exact .inr (.inl ⟨rfl, h'⟩)
    · rename_i h'
      refine .inr (.inr ⟨Rat.le_antisymm (Rat.not_lt.1 h') (Rat.not_lt.1 h), ?_, ?_⟩)
      · split <;> omega
      · split
        · exact .inl rfl
        · exact .inr rfl

theorem gap_core (x f r n : Rat) (h1 : f ≤ x) (h2 : x < f + 1)
    (hr : (r = f ∧ x - f < 1/2) ∨ (r = f + 1 ∧ 1/2 < x - f) ∨ (x - f = 1/2 ∧ (r = f ∨ r = f + 1)))
    (hn : n ≤ f ∨ f + 1 ≤ n) : gap x r ≤ gap x n := by
  unfold gap
  rcases hr with ⟨rfl, h⟩ | ⟨rfl, h⟩ | ⟨h, hr⟩
  · rcases hn with hn | hn <;> split <;> split <;> grind
  · rcases hn with hn | hn <;> split <;> split <;> grind
  · have hx : x = f + 1/2 := by grind
    subst hx
    rcases hr with rfl | rfl <;> rcases hn with hn | hn <;> split <;> split <;> grind

theorem tie_core (x f r n : Rat) (h1 : f ≤ x) (h2 : x < f + 1)
    (hr : (r = f ∧ x - f < 1/2) ∨ (r = f + 1 ∧ 1/2 < x - f) ∨ (x - f = 1/2 ∧ (r = f ∨ r = f + 1)))
    (hn : n ≤ f - 1 ∨ n = f ∨ n = f + 1 ∨ f + 2 ≤ n) (hne : n ≠ r) (he : gap x r = gap x n) :
    x - f = 1/2 ∧ ((n = f ∧ r = f + 1) ∨ (n = f + 1 ∧ r = f)) := by
  unfold gap at he
  rcases hr with ⟨rfl, h⟩ | ⟨rfl, h⟩ | ⟨h, hr⟩
  · rcases hn with hn | rfl | rfl | hn <;> grind
  · rcases hn with hn | rfl | rfl | hn <;> grind
  · have hx : x = f + 1/2 := by grind
    subst hx
    rcases hr with rfl | rfl <;> rcases hn with hn | rfl | rfl | hn <;> grind

theorem roundEven_rat (x : Rat) :
    (((roundEven x : Int) : Rat) = x.floor ∧ x - x.floor < 1/2) ∨
    (((roundEven x : Int) : Rat) = (x.floor : Rat) + 1 ∧ 1/2 < x - x.floor) ∨
    (x - x.floor = 1/2 ∧ (((roundEven x : Int) : Rat) = x.floor ∨ ((roundEven x : Int) : Rat) = (x.floor : Rat) + 1)) := by
  have hone : ((x.floor + 1 : Int) : Rat) = (x.floor : Rat) + 1 := by rw [Rat.intCast_add]; rfl
  rcases (roundEven_cases x).2 with ⟨g, h⟩ | ⟨g, h⟩ | ⟨h, -, g | g⟩
  · exact .inl ⟨by rw [g], h⟩
  · exact .inr (.inl ⟨by rw [g, hone], h⟩)
  · exact .inr (.inr ⟨h, .inl (by rw [g])⟩)
  · exact .inr (.inr ⟨h, .inr (by rw [g, hone])⟩)

/-- `roundEven` gives the nearest integer. -/
theorem roundEven_near (x : Rat) (n : Int) : gap x (roundEven x) ≤ gap x n := by
  obtain ⟨⟨h1, h2⟩, -⟩ := roundEven_cases x
  refine gap_core x x.floor _ n h1 h2 (roundEven_rat x) ?_
  have hone : ((x.floor + 1 : Int) : Rat) = (x.floor : Rat) + 1 := by rw [Rat.intCast_add]; rfl
  rcases Int.lt_or_le x.floor n with h | h
  · exact .inr (by rw [← hone]; exact cast_le (by omega))
  · exact .inl (cast_le h)

theorem roundEven_tie (x : Rat) (n : Int) (hne : n ≠ roundEven x) (h : gap x (roundEven x) = gap x n) :
    roundEven x % 2 = 0 ∧ n % 2 = 1 := by
  obtain ⟨⟨h1, h2⟩, h3⟩ := roundEven_cases x
  have hone : ((x.floor + 1 : Int) : Rat) = (x.floor : Rat) + 1 := by rw [Rat.intCast_add]; rfl
  have htwo : ((x.floor + 2 : Int) : Rat) = (x.floor : Rat) + 2 := by rw [Rat.intCast_add]; rfl
  have hmone : ((x.floor - 1 : Int) : Rat) = (x.floor : Rat) - 1 := by rw [Rat.intCast_sub]; rfl
  have hcases : n ≤ x.floor - 1 ∨ n = x.floor ∨ n = x.floor + 1 ∨ x.floor + 2 ≤ n := by omega
  obtain ⟨hh, hn⟩ := tie_core x x.floor (roundEven x) n h1 h2 (roundEven_rat x)
    (by
      rcases hcases with hc | hc | hc | hc
      · exact .inl (by rw [← hmone]; exact cast_le hc)
      · exact .inr (.inl (by rw [hc]))
      · exact .inr (.inr (.inl (by rw [hc, hone])))
      · exact .inr (.inr (.inr (by rw [← htwo]; exact cast_le hc))))
    (fun he => hne (Rat.intCast_inj.1 he)) h
  rw [← hone] at hn
  have hn' : (n = x.floor ∧ roundEven x = x.floor + 1) ∨ (n = x.floor + 1 ∧ roundEven x = x.floor) := by
    rcases hn with ⟨a, b⟩ | ⟨a, b⟩
    · exact .inl ⟨Rat.intCast_inj.1 a, Rat.intCast_inj.1 b⟩
    · exact .inr ⟨Rat.intCast_inj.1 a, Rat.intCast_inj.1 b⟩
  rcases h3 with ⟨-, g⟩ | ⟨-, g⟩ | ⟨-, g, -⟩
  · exfalso; rw [hh] at g; exact absurd g (by decide +kernel)
  · exfalso; rw [hh] at g; exact absurd g (by decide +kernel)
  · exact ⟨g, by omega⟩

theorem gap_scale (x y u : Rat) (hu : 0 < u) : gap (x * u) (y * u) = gap x y * u := by
  unfold gap
  by_cases h : x ≤ y
  · rw [if_pos h, if_pos (Rat.mul_le_mul_of_nonneg_right h (Rat.le_of_lt hu))]; grind
  · have h' := Rat.not_le.1 h
    have := Rat.mul_lt_mul_of_pos_right h' hu
    rw [if_neg h, if_neg (Rat.not_le.2 this)]; grind

theorem gap_neg (x y : Rat) : gap (-x) (-y) = gap x y := by
  unfold gap
  split <;> split <;> grind

theorem isDouble_neg {q : Rat} (h : IsDouble q) : IsDouble (-q) := by
  obtain ⟨m, e, h1, h2, h3, rfl⟩ := h
  exact ⟨-m, e, by omega, h2, h3, by rw [Rat.intCast_neg]; grind⟩

theorem pow2_add_nat (e : Int) (n : Nat) : pow2 (e + n) = pow2 e * 2 ^ n := by
  have h := pow2_sub_nat (e + n) n
  rw [show e + (n : Int) - n = e by omega] at h
  have := two_pow_pos n
  have : (2 : Rat) ^ n ≠ 0 := by intro h; rw [h] at this; exact absurd this (by decide)
  grind

theorem pow2_lt {a b : Int} (h : a < b) : pow2 a < pow2 b := by
  have h1 := pow2_mono (show a + 1 ≤ b by omega)
  have h2 := pow2_succ a
  have h3 := pow2_pos a
  grind

theorem lt_of_pow2_lt {a b : Int} (h : pow2 a < pow2 b) : a < b := by
  rcases Int.lt_or_le a b with h' | h'
  · exact h'
  · have := pow2_mono h'
    grind

theorem castPow (n : Nat) : ((2 ^ n : Int) : Rat) = (2 : Rat) ^ n := by
  rw [Rat.intCast_pow]; rfl

/-- The parts of a positive number being rounded: its spacing, and the number of spacings it has. -/
theorem parts (a : Rat) (h : 0 < a) :
    ∃ (k : Int) (y : Rat), ulp a = pow2 k ∧ a = y * pow2 k ∧ a / ulp a = y ∧ -1074 ≤ k ∧ 0 < y ∧ y < 2 ^ 53 ∧
      (k = -1074 ∨ (2 ^ 52 ≤ y ∧ k = ilog2 a - 52)) := by
  obtain ⟨h1, h2⟩ := ilog2_spec a h
  have hu := ulp_pos a
  have hune : ulp a ≠ 0 := by intro h; rw [h] at hu; exact absurd hu (by decide)
  have hy : a = a / ulp a * ulp a := by grind
  refine ⟨max (ilog2 a - 52) (-1074), a / ulp a, rfl, hy, rfl, by omega, ?_, ?_, ?_⟩
  · rw [Rat.div_def]; exact Rat.mul_pos h (Rat.inv_pos.2 hu)
  · apply Rat.not_le.1
    intro hle
    have h3 := Rat.mul_le_mul_of_nonneg_right hle (Rat.le_of_lt hu)
    rw [← hy] at h3
    have h4 := pow2_add_nat (max (ilog2 a - 52) (-1074)) 53
    have h5 := pow2_mono (show ilog2 a + 1 ≤ max (ilog2 a - 52) (-1074) + ((53 : Nat) : Int) by omega)
    have h6 : ulp a = pow2 (max (ilog2 a - 52) (-1074)) := rfl
    rw [h4, ← h6] at h5
    grind
  · rcases Int.lt_or_le (ilog2 a - 52) (-1074) with hc | hc
    · left; omega
    · right
      have hk : max (ilog2 a - 52) (-1074) = ilog2 a - 52 := by omega
      refine ⟨?_, hk⟩
      apply Rat.not_lt.1
      intro hlt
      have h3 := Rat.mul_lt_mul_of_pos_right hlt hu
      rw [← hy] at h3
      have h4 := pow2_add_nat (ilog2 a - 52) 52
      rw [show ilog2 a - 52 + ((52 : Nat) : Int) = ilog2 a by omega] at h4
      have h6 : ulp a = pow2 (ilog2 a - 52) := by unfold ulp; rw [hk]
      rw [← h6] at h4
      grind

theorem roundEven_bounds {y : Rat} (h0 : 0 < y) (h : y < 2 ^ 53) : 0 ≤ roundEven y ∧ roundEven y ≤ 2 ^ 53 := by
  constructor
  · exact le_roundEven (n := 0) (by simpa using Rat.le_of_lt h0)
  · refine roundEven_le (n := 2 ^ 53) ?_
    rw [castPow]; exact Rat.le_of_lt h

set_option exponentiation.threshold 2000 in
theorem tooLarge_eq : tooLarge = (2 ^ 54 - 1) * pow2 970 := by rw [tooLarge, power_two]

/-- What `roundMag` gives is a double. -/
theorem roundMag_isDouble {a r : Rat} (h : 0 < a) (hr : roundMag a = some r) : IsDouble r := by
  obtain ⟨k, y, hu, ha, hy, hk, hy0, hy1, hcase⟩ := parts a h
  unfold roundMag at hr
  simp only [hu, show a / pow2 k = y by rw [← hu]; exact hy] at hr
  obtain ⟨hm0, hm1⟩ := roundEven_bounds hy0 hy1
  split at hr
  · cases hr
  · rename_i hlt
    cases hr
    replace hlt := Rat.not_le.1 hlt
    have hkp := pow2_pos k
    by_cases hm : roundEven y = 2 ^ 53
    · rw [hm] at hlt ⊢
      have h1 := pow2_add_nat k 53
      rw [castPow] at hlt ⊢
      have h2 : pow2 (k + (53 : Nat)) < pow2 1024 := by grind
      have h3 := lt_of_pow2_lt h2
      refine ⟨2 ^ 52, k + 1, by decide, by omega, by omega, ?_⟩
      rw [power_two, pow2_succ, castPow]
      grind
    · have hm' : roundEven y < 2 ^ 53 := by omega
      refine ⟨roundEven y, k, by omega, hk, ?_, by rw [power_two]⟩
      rcases hcase with rfl | ⟨hge, -⟩
      · decide
      · have h1 : (2 : Int) ^ 52 ≤ roundEven y := le_roundEven (by rw [castPow]; exact hge)
        have h2 : (2 : Rat) ^ 52 ≤ (roundEven y : Rat) := by rw [← castPow]; exact cast_le h1
        have h3 := pow2_add_nat k 52
        have h4 := Rat.mul_le_mul_of_nonneg_right h2 (Rat.le_of_lt hkp)
        have h5 : pow2 (k + (52 : Nat)) < pow2 1024 := by grind
        have := lt_of_pow2_lt h5
        omega

/-- A double is a multiple of the spacing around `a`, or it is below `a` and further from it than such a multiple. -/
theorem near_multiple {a d : Rat} {k : Int} {y : Rat} (ha : a = y * pow2 k)
    (hcase : k = -1074 ∨ (2 : Rat) ^ 52 ≤ y) (hd : IsDouble d) :
    (∃ n : Int, d = n * pow2 k) ∨ gap a (((2 ^ 52 : Int) : Rat) * pow2 k) < gap a d := by
  obtain ⟨m, e, hm, he1, he2, rfl⟩ := hd
  rw [power_two]
  rcases Int.lt_or_le e k with h | h
  · right
    have hge : (2 : Rat) ^ 52 ≤ y := by rcases hcase with rfl | h'; (· omega); exact h'
    have hkp := pow2_pos k
    have hep := pow2_pos e
    have h1 : (2 : Rat) ^ 52 * pow2 k ≤ a := by rw [ha]; exact Rat.mul_le_mul_of_nonneg_right hge (Rat.le_of_lt hkp)
    have h2 : (m : Rat) < (2 : Rat) ^ 53 := by
      rw [← castPow]
      exact Rat.intCast_lt_intCast.2 (by omega)
    have h3 := Rat.mul_lt_mul_of_pos_right h2 hep
    have h4 := pow2_mono (show e + 1 ≤ k by omega)
    rw [pow2_succ] at h4
    have h5 : (2 : Rat) ^ 53 * pow2 e ≤ (2 : Rat) ^ 52 * pow2 k := by
      have := Rat.mul_le_mul_of_nonneg_left h4 (show (0 : Rat) ≤ 2 ^ 52 by decide +kernel)
      grind
    rw [castPow]
    unfold gap
    have hlt : m * pow2 e < (2 : Rat) ^ 52 * pow2 k := by grind
    grind
  · left
    obtain ⟨n, rfl⟩ : ∃ n : Nat, e = k + n := ⟨(e - k).toNat, by omega⟩
    refine ⟨m * 2 ^ n, ?_⟩
    rw [pow2_add_nat, Rat.intCast_mul, castPow]
    grind

theorem roundMag_near {a r : Rat} (h : 0 < a) (hr : roundMag a = some r) (d : Rat) (hd : IsDouble d) :
    gap a r ≤ gap a d ∧ (d ≠ r → gap a r = gap a d →
      ∃ m n e : Int, r = m * power 2 e ∧ d = n * power 2 e ∧ m % 2 = 0 ∧ n % 2 = 1) := by
  obtain ⟨k, y, hu, ha, hy, hk, hy0, hy1, hcase⟩ := parts a h
  unfold roundMag at hr
  simp only [hu, show a / pow2 k = y by rw [← hu]; exact hy] at hr
  have hkp := pow2_pos k
  have hrr : r = roundEven y * pow2 k := by
    split at hr
    · cases hr
    · cases hr; rfl
  have hnear : ∀ n : Int, gap a r ≤ gap a (n * pow2 k) := by
    intro n
    rw [hrr, ha, gap_scale _ _ _ hkp, gap_scale _ _ _ hkp]
    exact Rat.mul_le_mul_of_nonneg_right (roundEven_near y n) (Rat.le_of_lt hkp)
  rcases near_multiple ha (hcase.imp _root_.id (·.1)) hd with ⟨n, rfl⟩ | hlt
  · refine ⟨hnear n, fun hne heq => ?_⟩
    rw [hrr, ha, gap_scale _ _ _ hkp, gap_scale _ _ _ hkp] at heq
    have hne' : n ≠ roundEven y := by
      rintro rfl
      exact hne hrr.symm
    have heq' : gap y (roundEven y) = gap y n := by
      have : pow2 k ≠ 0 := by intro h; rw [h] at hkp; exact absurd hkp (by decide)
      grind
    obtain ⟨h1, h2⟩ := roundEven_tie y n hne' heq'
    exact ⟨roundEven y, n, k, by rw [hrr, power_two], by rw [power_two], h1, h2⟩
  · have := hnear (2 ^ 52)
    constructor
    · grind
    · intro _ h; grind

set_option exponentiation.threshold 2000 in
/-- Rounding overflows exactly from half a spacing above the largest double on. -/
theorem roundMag_none {a : Rat} (h : 0 < a) : roundMag a = none ↔ tooLarge ≤ a := by
  obtain ⟨k, y, hu, ha, hy, hk, hy0, hy1, hcase⟩ := parts a h
  have hkp := pow2_pos k
  have hcond : roundMag a = none ↔ pow2 1024 ≤ roundEven y * pow2 k := by
    unfold roundMag
    simp only [hu, show a / pow2 k = y by rw [← hu]; exact hy]
    split
    · rename_i h; exact ⟨fun _ => h, fun _ => rfl⟩
    · rename_i h; exact ⟨fun h' => (by cases h'), fun h' => absurd h' h⟩
  rw [hcond, tooLarge_eq]
  obtain ⟨hm0, hm1⟩ := roundEven_bounds hy0 hy1
  have hm1' : (roundEven y : Rat) ≤ (2 : Rat) ^ 53 := by rw [← castPow]; exact cast_le hm1
  have e1 : pow2 1024 = pow2 970 * 2 ^ 54 := pow2_add_nat 970 54
  have h970 := pow2_pos 970
  rcases Int.lt_or_le k 971 with hk1 | hk1
  · -- too small for both
    have hle := pow2_mono (show k ≤ 970 by omega)
    have h1 : ¬ pow2 1024 ≤ roundEven y * pow2 k := by
      rw [Rat.not_le]
      have h2 := Rat.mul_le_mul_of_nonneg_right hm1' (Rat.le_of_lt hkp)
      grind
    have h2 : ¬ (2 ^ 54 - 1) * pow2 970 ≤ a := by
      rw [Rat.not_le, ha]
      have h3 := Rat.mul_lt_mul_of_pos_right hy1 hkp
      grind
    exact ⟨fun h => absurd h h1, fun h => absurd h h2⟩
  · have hge : (2 : Rat) ^ 52 ≤ y := by
      rcases hcase with rfl | ⟨h', -⟩
      · omega
      · exact h'
    have hge' : (2 : Rat) ^ 52 ≤ (roundEven y : Rat) := by
      rw [← castPow]; exact cast_le (le_roundEven (by rw [castPow]; exact hge))
    rcases Int.lt_or_le 971 k with hk2 | hk2
    · -- too large for both
      have hle := pow2_mono (show 972 ≤ k by omega)
      have e2 : pow2 972 = pow2 970 * 2 ^ 2 := pow2_add_nat 970 2
      have h1 : pow2 1024 ≤ roundEven y * pow2 k := by
        have h2 := Rat.mul_le_mul_of_nonneg_right hge' (Rat.le_of_lt hkp)
        grind
      have h2 : (2 ^ 54 - 1) * pow2 970 ≤ a := by
        rw [ha]
        have h3 := Rat.mul_le_mul_of_nonneg_right hge (Rat.le_of_lt hkp)
        grind
      exact ⟨fun _ => h2, fun _ => h1⟩
    · have hk3 : k = 971 := by omega
      subst hk3
      have e2 : pow2 971 = pow2 970 * 2 := by rw [show (971 : Int) = 970 + 1 from rfl, pow2_succ]; grind
      have hA : pow2 1024 ≤ roundEven y * pow2 971 ↔ roundEven y = 2 ^ 53 := by
        constructor
        · intro h
          refine Int.le_antisymm hm1 ?_
          apply Rat.intCast_le_intCast.1
          rw [castPow]
          apply Rat.not_lt.1
          intro hlt
          have := Rat.mul_lt_mul_of_pos_right hlt hkp
          grind
        · intro h
          rw [h, castPow]
          grind
      have hB : (2 ^ 54 - 1) * pow2 970 ≤ a ↔ (2 : Rat) ^ 53 - 1 / 2 ≤ y := by
        rw [ha]
        constructor
        · intro h
          apply Rat.not_lt.1
          intro hlt
          have := Rat.mul_lt_mul_of_pos_right hlt hkp
          grind
        · intro h
          have := Rat.mul_le_mul_of_nonneg_right h (Rat.le_of_lt hkp)
          grind
      rw [hA, hB]
      obtain ⟨⟨f1, f2⟩, f3⟩ := roundEven_cases y
      have hfl : y.floor ≤ 2 ^ 53 - 1 := by
        have : y.floor < 2 ^ 53 := by
          apply Rat.intCast_lt_intCast.1
          rw [castPow]
          grind
        omega
      constructor
      · intro h
        rcases f3 with ⟨g, g'⟩ | ⟨g, g'⟩ | ⟨g', -, g | g⟩
        · omega
        · have e3 : y.floor = 2 ^ 53 - 1 := by omega
          rw [e3] at g'
          have e4 : ((2 ^ 53 - 1 : Int) : Rat) = 2 ^ 53 - 1 := by decide +kernel
          rw [e4] at g'
          grind
        · omega
        · have e3 : y.floor = 2 ^ 53 - 1 := by omega
          rw [e3] at g'
          have e4 : ((2 ^ 53 - 1 : Int) : Rat) = 2 ^ 53 - 1 := by decide +kernel
          rw [e4] at g'
          have e5 : y = 2 ^ 53 - 1 / 2 := by clear h e1 hA hB; grind
          rw [e5]
          exact Rat.le_refl
      · intro h
        have e3 : y.floor = 2 ^ 53 - 1 := by
          refine Int.le_antisymm hfl ?_
          have e4 : ((2 ^ 53 - 1 : Int) : Rat) ≤ y := by
            have e4 : ((2 ^ 53 - 1 : Int) : Rat) = 2 ^ 53 - 1 := by decide +kernel
            rw [e4]; grind
          have := Rat.floor_monotone e4
          rwa [Rat.floor_intCast] at this
        have e4 : ((2 ^ 53 - 1 : Int) : Rat) = 2 ^ 53 - 1 := by decide +kernel
        rw [e3] at f3
        rw [e4] at f3
        rcases f3 with ⟨g, g'⟩ | ⟨g, g'⟩ | ⟨g', g'', g | g⟩
        · grind
        · omega
        · rw [g] at g''; exact absurd g'' (by decide)
        · omega

theorem tooLarge_pos : 0 < tooLarge := by
  rw [tooLarge_eq]
  exact Rat.mul_pos (by decide +kernel) (pow2_pos _)

theorem isDouble_zero : IsDouble 0 := ⟨0, 0, by decide, by decide, by decide, by decide +kernel⟩

theorem roundMag_nonneg {a r : Rat} (h : 0 < a) (hr : roundMag a = some r) : 0 ≤ r := by
  obtain ⟨k, y, hu, ha, hy, hk, hy0, hy1, hcase⟩ := parts a h
  unfold roundMag at hr
  simp only [hu, show a / pow2 k = y by rw [← hu]; exact hy] at hr
  split at hr
  · cases hr
  · cases hr
    have := cast_le (roundEven_bounds hy0 hy1).1
    exact Rat.mul_nonneg (by simpa using this) (Rat.le_of_lt (pow2_pos k))

/-- `rnd` rounds. -/
theorem rnd_rounded (q : Rat) : Rounded q (rnd q) := by
  have hT := tooLarge_pos
  unfold rnd
  split
  · rename_i h
    subst h
    refine .inr (.inr ⟨0, rfl, by grind, hT, isDouble_zero, ?_, ?_, ?_⟩)
    · intro d _; unfold gap; grind
    · intro d _ hne h
      exfalso
      unfold gap at h
      grind
    · intro _
      exact ⟨fun h => (by cases h), fun h => absurd h (by decide)⟩
  · rename_i hne
    split
    · rename_i hpos
      cases hr : roundMag q with
      | none => exact .inl ⟨rfl, (roundMag_none hpos).1 hr⟩
      | some r =>
        refine .inr (.inr ⟨r, rfl, by grind, ?_, roundMag_isDouble hpos hr, fun d hd => (roundMag_near hpos hr d hd).1,
          fun d hd => (roundMag_near hpos hr d hd).2, ?_⟩)
        · apply Rat.not_le.1
          intro h
          rw [(roundMag_none hpos).2 h] at hr
          cases hr
        · intro _
          exact ⟨fun h => (by cases h), fun h => (by grind)⟩
    · rename_i hnp
      have hpos : 0 < -q := by grind
      cases hr : roundMag (-q) with
      | none =>
        have := (roundMag_none hpos).1 hr
        exact .inr (.inl ⟨rfl, by grind⟩)
      | some r =>
        have hlt : -q < tooLarge := by
          apply Rat.not_le.1
          intro h
          rw [(roundMag_none hpos).2 h] at hr
          cases hr
        have hd := isDouble_neg (roundMag_isDouble hpos hr)
        have h1 : ∀ d, IsDouble d → gap q (-r) ≤ gap q d := by
          intro d hd
          have := (roundMag_near hpos hr (-d) (isDouble_neg hd)).1
          rw [gap_neg] at this
          have e : gap (-q) r = gap q (-r) := by
            have := gap_neg q (-r)
            rwa [Rat.neg_neg] at this
          rwa [e] at this
        have h2 : ∀ d, IsDouble d → d ≠ -r → gap q (-r) = gap q d →
            ∃ m n e : Int, -r = m * power 2 e ∧ d = n * power 2 e ∧ m % 2 = 0 ∧ n % 2 = 1 := by
          intro d hd hne heq
          have e : gap (-q) r = gap q (-r) := by
            have := gap_neg q (-r)
            rwa [Rat.neg_neg] at this
          obtain ⟨m, n, k, g1, g2, g3, g4⟩ := (roundMag_near hpos hr (-d) (isDouble_neg hd)).2 (by grind)
            (by rw [gap_neg, e]; exact heq)
          refine ⟨-m, -n, k, ?_, ?_, by omega, by omega⟩
          · rw [Rat.intCast_neg, g1]; grind
          · rw [Rat.intCast_neg]; grind
        simp only
        split
        · rename_i h0
          subst h0
          refine .inr (.inr ⟨0, rfl, by grind, by grind, isDouble_zero, ?_, ?_, ?_⟩)
          · simpa using h1
          · simpa using h2
          · intro _
            exact ⟨fun _ => by grind, fun _ => rfl⟩
        · rename_i h0
          refine .inr (.inr ⟨-r, rfl, by grind, by grind, hd, h1, h2, ?_⟩)
          intro h
          exfalso
          grind

end Dbl
end LB
