import Verif.Model.Num
/- Facts about doubles: integers up to 2^53 are exact, rounding errors. -/
namespace LB
namespace Dbl

theorem pow2_nonneg_eq (e : Int) (h : 0 ≤ e) : pow2 e = (2 : Rat) ^ e.toNat := by
  have : (-e).toNat = 0 := by omega
  simp [pow2, this]
  grind

theorem pow2_neg_eq (k : Nat) : pow2 (-(k : Int)) = 1 / (2 : Rat) ^ k := by
  have h1 : (-(k : Int)).toNat = 0 := by omega
  have h2 : (-(-(k : Int))).toNat = k := by omega
  simp [pow2, h1]

theorem two_pow_pos (k : Nat) : (0 : Rat) < (2 : Rat) ^ k := Rat.pow_pos (by decide)

theorem pow2_pos (e : Int) : 0 < pow2 e := by
  unfold pow2
  have h1 := two_pow_pos e.toNat
  have h2 := two_pow_pos (-e).toNat
  rw [Rat.div_def]
  exact Rat.mul_pos h1 (Rat.inv_pos.2 h2)

theorem roundEven_int (n : Int) : roundEven (n : Rat) = n := by
  unfold roundEven
  simp only [Rat.floor_intCast]
  have : (n : Rat) - (n : Rat) = 0 := by grind
  simp only [this]
  rw [if_pos (by decide +kernel)]

theorem ilog2_nat_le (n : Nat) : ilog2 (n : Rat) ≤ (n.log2 : Int) := by
  have h1 : ((n : Rat)).num = n := Rat.num_natCast n
  have h2 : ((n : Rat)).den = 1 := Rat.den_natCast n
  unfold ilog2
  simp only [h1, h2]
  have : Nat.log2 1 = 0 := by decide
  simp only [this, Int.natAbs_natCast]
  split <;> omega

set_option exponentiation.threshold 2000 in
theorem roundMag_nat (n : Nat) (h0 : 0 < n) (h : n < 2 ^ 53) : roundMag (n : Rat) = some (n : Rat) := by
  have hl : n.log2 < 53 := (Nat.log2_lt (by omega)).2 h
  have hi := ilog2_nat_le n
  have hk : ∃ k : Nat, max (ilog2 (n : Rat) - 52) (-1074) = -(k : Int) :=
    ⟨(-(max (ilog2 (n : Rat) - 52) (-1074))).toNat, by omega⟩
  obtain ⟨k, hk⟩ := hk
  have hp := two_pow_pos k
  have hu : ulp (n : Rat) = 1 / 2 ^ k := by unfold ulp; rw [hk, pow2_neg_eq]
  unfold roundMag
  rw [hu]
  have hq : (n : Rat) / (1 / 2 ^ k) = ((n * 2 ^ k : Int) : Rat) := by
    have : (2 : Rat) ^ k ≠ 0 := by intro h; rw [h] at hp; exact absurd hp (by decide)
    rw [Rat.intCast_mul, Rat.intCast_pow, Rat.intCast_natCast]
    have e : ((2 : Int) : Rat) = 2 := rfl
    rw [e]
    grind
  rw [hq, roundEven_int, ← hq]
  have hne : (2 : Rat) ^ k ≠ 0 := by intro h; rw [h] at hp; exact absurd hp (by decide)
  have hr : (n : Rat) / (1 / 2 ^ k) * (1 / 2 ^ k) = n := by grind
  simp only [hr]
  rw [if_neg]
  rw [Rat.not_le]
  have h3 : pow2 1024 = ((2 ^ 1024 : Nat) : Rat) := by decide +kernel
  rw [h3, Rat.natCast_lt_natCast]
  exact Nat.lt_trans h (Nat.pow_lt_pow_right (by decide) (by decide))

/-- Integers up to 2^53 in magnitude are doubles. -/
theorem rnd_int (n : Int) (h : n.natAbs ≤ 2 ^ 53) : rnd (n : Rat) = fin n := by
  have key : ∀ m : Nat, 0 < m → m ≤ 2 ^ 53 → roundMag (m : Rat) = some (m : Rat) := by
    intro m h0 hm
    by_cases hlt : m < 2 ^ 53
    · exact roundMag_nat m h0 hlt
    · have : m = 2 ^ 53 := by omega
      subst this; decide +kernel
  unfold rnd
  by_cases h0 : n = 0
  · subst h0; rfl
  · have hz : (n : Rat) ≠ 0 := by simpa using h0
    rw [if_neg hz]
    by_cases hp : 0 < n
    · obtain ⟨m, rfl⟩ := Int.eq_ofNat_of_zero_le (Int.le_of_lt hp)
      have hp' : (0 : Rat) < ((m : Int) : Rat) := Rat.intCast_pos.2 hp
      rw [if_pos hp', Rat.intCast_natCast, key m (by omega) (by simpa using h)]
    · have hn' : ¬ (0 : Rat) < (n : Rat) := fun hh => hp (Rat.intCast_pos.1 hh)
      rw [if_neg hn']
      obtain ⟨m, hm⟩ : ∃ m : Nat, n = -(m : Int) := ⟨n.natAbs, by omega⟩
      subst hm
      have e : -((-(m : Int) : Int) : Rat) = (m : Rat) := by
        rw [Rat.intCast_neg, Rat.intCast_natCast]; grind
      rw [e, key m (by omega) (by simpa using h)]
      have : (m : Rat) ≠ 0 := by
        intro hh
        have : m = 0 := by exact_mod_cast hh
        omega
      simp only [if_neg this]
      rw [Rat.intCast_neg, Rat.intCast_natCast]

theorem ofInt_exact (n : Int) (h : n.natAbs ≤ 2 ^ 53) : ofInt n = fin n := rnd_int n h

/-! Rounding. -/

theorem pow2_ofNat (n : Nat) : pow2 (n : Int) = (2 : Rat) ^ n := by
  rw [pow2_nonneg_eq _ (by omega)]; simp

theorem pow2_succ (e : Int) : pow2 (e + 1) = 2 * pow2 e := by
  rcases Int.lt_or_le e 0 with h | h
  · obtain ⟨k, rfl⟩ : ∃ k : Nat, e = -((k + 1 : Nat) : Int) := ⟨(-e).toNat - 1, by omega⟩
    rw [show -((k + 1 : Nat) : Int) + 1 = -(k : Int) by omega, pow2_neg_eq, pow2_neg_eq, Rat.pow_succ]
    have := two_pow_pos k
    have : (2 : Rat) ^ k ≠ 0 := by intro h; rw [h] at this; exact absurd this (by decide)
    grind
  · obtain ⟨k, rfl⟩ := Int.eq_ofNat_of_zero_le h
    rw [show (k : Int) + 1 = ((k + 1 : Nat) : Int) by omega, pow2_ofNat, pow2_ofNat, Rat.pow_succ]
    grind

theorem pow2_sub_nat (e : Int) (n : Nat) : pow2 (e - n) = pow2 e / 2 ^ n := by
  induction n with
  | zero => simp; grind
  | succ n ih =>
    have h := pow2_succ (e - (n + 1 : Nat))
    rw [show e - ((n + 1 : Nat) : Int) + 1 = e - n by omega, ih] at h
    rw [Rat.pow_succ]
    have := two_pow_pos n
    have : (2 : Rat) ^ n ≠ 0 := by intro h; rw [h] at this; exact absurd this (by decide)
    grind

theorem pow2_mono {a b : Int} (h : a ≤ b) : pow2 a ≤ pow2 b := by
  obtain ⟨n, rfl⟩ : ∃ n : Nat, b = a + n := ⟨(b - a).toNat, by omega⟩
  clear h
  induction n with
  | zero => simp
  | succ n ih =>
    rw [show a + ((n + 1 : Nat) : Int) = a + n + 1 by omega, pow2_succ]
    have := pow2_pos (a + n)
    grind

theorem ilog2_spec (a : Rat) (h : 0 < a) : pow2 (ilog2 a) ≤ a ∧ a < pow2 (ilog2 a + 1) := by
  have hn : 0 < a.num := by simpa using (Rat.lt_iff 0 a).1 h
  have hd : 0 < a.den := a.den_pos
  have hp0 : a.num.natAbs ≠ 0 := by omega
  have hq0 : a.den ≠ 0 := by omega
  have ha : a = (a.num.natAbs : Rat) / (a.den : Rat) := by
    have h1 := Rat.num_divInt_den a
    rw [Rat.divInt_eq_div, Rat.intCast_natCast] at h1
    have h2 : (a.num : Rat) = ((a.num.natAbs : Int) : Rat) := by congr 1; omega
    rw [h2, Rat.intCast_natCast] at h1
    exact h1.symm
  have hp1 : (2 : Rat) ^ a.num.natAbs.log2 ≤ (a.num.natAbs : Rat) := by
    have := Nat.log2_self_le hp0
    have h' : ((2 ^ a.num.natAbs.log2 : Nat) : Rat) ≤ (a.num.natAbs : Rat) := Rat.natCast_le_natCast.2 this
    simpa [Rat.natCast_pow] using h'
  have hp2 : (a.num.natAbs : Rat) < 2 * (2 : Rat) ^ a.num.natAbs.log2 := by
    have := Nat.lt_log2_self (n := a.num.natAbs)
    have h' : (a.num.natAbs : Rat) < ((2 ^ (a.num.natAbs.log2 + 1) : Nat) : Rat) := Rat.natCast_lt_natCast.2 this
    rw [Rat.natCast_pow, Rat.pow_succ] at h'
    have e : ((2 : Nat) : Rat) = 2 := rfl
    rw [e] at h'
    grind
  have hq1 : (2 : Rat) ^ a.den.log2 ≤ (a.den : Rat) := by
    have := Nat.log2_self_le hq0
    have h' : ((2 ^ a.den.log2 : Nat) : Rat) ≤ (a.den : Rat) := Rat.natCast_le_natCast.2 this
    simpa [Rat.natCast_pow] using h'
  have hq2 : (a.den : Rat) < 2 * (2 : Rat) ^ a.den.log2 := by
    have := Nat.lt_log2_self (n := a.den)
    have h' : (a.den : Rat) < ((2 ^ (a.den.log2 + 1) : Nat) : Rat) := Rat.natCast_lt_natCast.2 this
    rw [Rat.natCast_pow, Rat.pow_succ] at h'
    have e : ((2 : Nat) : Rat) = 2 := rfl
    rw [e] at h'
    grind
  have he0 : pow2 ((a.num.natAbs.log2 : Int) - (a.den.log2 : Int)) = 2 ^ a.num.natAbs.log2 / 2 ^ a.den.log2 := by
    rw [pow2_sub_nat, pow2_ofNat]
  have hP := two_pow_pos a.num.natAbs.log2
  have hQ := two_pow_pos a.den.log2
  have hQ' : (2 : Rat) ^ a.den.log2 ≠ 0 := by intro h; rw [h] at hQ; exact absurd hQ (by decide)
  have hq : (0 : Rat) < (a.den : Rat) := by
    have := Rat.natCast_lt_natCast (a := 0) (b := a.den)
    simpa using this.2 hd
  generalize hPe : (2 : Rat) ^ a.num.natAbs.log2 = P at *
  generalize hQe : (2 : Rat) ^ a.den.log2 = Q at *
  generalize hpe : (a.num.natAbs : Rat) = p at *
  generalize hqe : (a.den : Rat) = q at *
  -- a·q = p
  have haq : a * q = p := by
    have : q ≠ 0 := by intro h; rw [h] at hq; exact absurd hq (by decide)
    rw [ha]; grind
  generalize hE : (a.num.natAbs.log2 : Int) - (a.den.log2 : Int) = E at *
  have hup : a < 2 * (P / Q) := by
    apply Rat.not_le.1
    intro hle
    have h1 : 2 * (P / Q) * q ≤ a * q := Rat.mul_le_mul_of_nonneg_right hle (Rat.le_of_lt hq)
    have h2 : 2 * (P / Q) * Q ≤ 2 * (P / Q) * q := by
      apply Rat.mul_le_mul_of_nonneg_left hq1
      have : 0 < P / Q := by rw [Rat.div_def]; exact Rat.mul_pos hP (Rat.inv_pos.2 hQ)
      grind
    have h3 : 2 * (P / Q) * Q = 2 * P := by grind
    grind
  have hlo : P / Q < 2 * a := by
    apply Rat.not_le.1
    intro hle
    have h1 : 2 * a * Q ≤ P / Q * Q := Rat.mul_le_mul_of_nonneg_right hle (Rat.le_of_lt hQ)
    have h3 : P / Q * Q = P := by grind
    have h4 : a * q < a * (2 * Q) := Rat.mul_lt_mul_of_pos_left hq2 h
    grind
  unfold ilog2
  simp only [hE]
  rw [pow2_succ]
  split
  · rename_i hlt
    have h1 := pow2_succ (E - 1)
    rw [show E - 1 + 1 = E by omega] at h1
    rw [he0] at h1 hlt
    constructor <;> grind
  · rename_i hge
    have hge := Rat.not_lt.1 hge
    rw [he0] at hge ⊢
    exact ⟨hge, hup⟩

theorem roundEven_le {x : Rat} {n : Int} (h : x ≤ n) : roundEven x ≤ n := by
  unfold roundEven
  have hf : x.floor ≤ n := by
    have := Rat.floor_monotone h
    rwa [Rat.floor_intCast] at this
  rcases Int.lt_or_le x.floor n with hlt | hge
  · simp only
    split
    · exact hf
    · split
      · omega
      · split <;> omega
  · have he : x.floor = n := by omega
    have h1 : (x.floor : Rat) ≤ x := Rat.floor_le x
    rw [he] at h1
    have hx : x = n := Rat.le_antisymm h h1
    simp only [hx, Rat.floor_intCast]
    rw [if_pos]
    · exact Int.le_refl _
    · have : (n : Rat) - n = 0 := by grind
      rw [this]; decide +kernel

theorem le_roundEven {x : Rat} {n : Int} (h : (n : Rat) ≤ x) : n ≤ roundEven x := by
  unfold roundEven
  have hf : n ≤ x.floor := by
    have := Rat.floor_monotone h
    rwa [Rat.floor_intCast] at this
  simp only
  split
  · exact hf
  · split
    · omega
    · split <;> omega

theorem ulp_pos (a : Rat) : 0 < ulp a := pow2_pos _

/-- Rounding does not pass a multiple of the spacing. -/
theorem round_le {a : Rat} {n : Int} (h : a ≤ n * ulp a) : roundEven (a / ulp a) * ulp a ≤ n * ulp a := by
  have hu := ulp_pos a
  apply Rat.mul_le_mul_of_nonneg_right _ (Rat.le_of_lt hu)
  apply Rat.intCast_le_intCast.2
  apply roundEven_le
  apply Rat.not_lt.1
  intro hlt
  have h1 := Rat.mul_lt_mul_of_pos_right hlt hu
  have : ulp a ≠ 0 := by intro h; rw [h] at hu; exact absurd hu (by decide)
  have h2 : a / ulp a * ulp a = a := by grind
  grind

theorem le_round {a : Rat} {n : Int} (h : n * ulp a ≤ a) : n * ulp a ≤ roundEven (a / ulp a) * ulp a := by
  have hu := ulp_pos a
  apply Rat.mul_le_mul_of_nonneg_right _ (Rat.le_of_lt hu)
  apply Rat.intCast_le_intCast.2
  apply le_roundEven
  apply Rat.not_lt.1
  intro hlt
  have h1 := Rat.mul_lt_mul_of_pos_right hlt hu
  have : ulp a ≠ 0 := by intro h; rw [h] at hu; exact absurd hu (by decide)
  have h2 : a / ulp a * ulp a = a := by grind
  grind

set_option exponentiation.threshold 2000 in
/-- A quotient that stays away from 1 by at least 2^-31 does not become 1 by rounding. -/
theorem rnd_below_one (q : Rat) (h0 : 0 < q) (h1 : q ≤ 1 - 1 / 2 ^ 31) : ∃ r, rnd q = fin r ∧ 0 ≤ r ∧ r < 1 := by
  have hz : q ≠ 0 := by intro h; rw [h] at h0; exact absurd h0 (by decide)
  obtain ⟨hl, hu⟩ := ilog2_spec q h0
  have hlog : ilog2 q ≤ -1 := by
    rcases Int.lt_or_le (ilog2 q) 0 with h | h
    · omega
    · have := pow2_mono h
      have e : pow2 0 = 1 := by decide +kernel
      rw [e] at this
      have e2 : (1 : Rat) / 2 ^ 31 > 0 := by decide +kernel
      grind
  have key : roundEven (q / ulp q) * ulp q < 1 := by
    rcases Int.lt_or_le (ilog2 q) (-1) with h | h
    · obtain ⟨k, hk⟩ : ∃ k : Nat, max (ilog2 q - 52) (-1074) = -((k + 1 : Nat) : Int) :=
        ⟨(-(max (ilog2 q - 52) (-1074))).toNat - 1, by omega⟩
      have hulp : ulp q = 1 / 2 ^ (k + 1) := by unfold ulp; rw [hk, pow2_neg_eq]
      have h2 := pow2_mono (show ilog2 q + 1 ≤ -1 by omega)
      have e : pow2 (-1) = 1 / 2 := by decide +kernel
      rw [e] at h2
      have hp := two_pow_pos k
      have hne : (2 : Rat) ^ k ≠ 0 := by intro h; rw [h] at hp; exact absurd hp (by decide)
      have hn : ((2 ^ k : Int) : Rat) * ulp q = 1 / 2 := by
        rw [hulp, Rat.pow_succ, Rat.intCast_pow]
        have e : ((2 : Int) : Rat) = 2 := rfl
        rw [e]; grind
      have := round_le (a := q) (n := 2 ^ k) (by rw [hn]; grind)
      rw [hn] at this
      grind
    · have he : ilog2 q = -1 := by omega
      have hulp : ulp q = 1 / 2 ^ 53 := by
        unfold ulp; rw [he]; decide +kernel
      have := round_le (a := q) (n := 9007199250546688) (by rw [hulp]; grind)
      rw [hulp] at this
      rw [hulp]
      have e2 : ((9007199250546688 : Int) : Rat) * (1 / 2 ^ 53) < 1 := by decide +kernel
      grind
  have hnn : 0 ≤ roundEven (q / ulp q) * ulp q := by
    have := le_round (a := q) (n := 0) (by simp; grind)
    simpa using this
  refine ⟨roundEven (q / ulp q) * ulp q, ?_, hnn, key⟩
  unfold rnd
  rw [if_neg hz, if_pos h0]
  unfold roundMag
  rw [if_neg]
  rw [Rat.not_le]
  have e3 : (1 : Rat) ≤ pow2 1024 := by decide +kernel
  grind

end Dbl
end LB
