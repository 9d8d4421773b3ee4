import Verif.Proofs.Num
/- Facts about printing doubles: six significant digits, short texts. -/
namespace LB
namespace Dbl

theorem rat_lt_le {a b c : Rat} (h : a < b) (h' : b ≤ c) : a < c := by grind
theorem rat_le_lt {a b c : Rat} (h : a ≤ b) (h' : b < c) : a < c := by grind

theorem ten_pow_pos (k : Nat) : (0 : Rat) < (10 : Rat) ^ k := Rat.pow_pos (by decide)

theorem ten_pow_ne (k : Nat) : (10 : Rat) ^ k ≠ 0 := by
  intro h; have := ten_pow_pos k; rw [h] at this; exact absurd this (by decide)

theorem pow10_ofNat (k : Nat) : pow10 (k : Int) = (10 : Rat) ^ k := by
  have h1 : (-(k : Int)).toNat = 0 := by omega
  simp [pow10, h1]
  grind

theorem pow10_neg_eq (k : Nat) : pow10 (-(k : Int)) = 1 / (10 : Rat) ^ k := by
  have h1 : (-(k : Int)).toNat = 0 := by omega
  have h2 : (-(-(k : Int))).toNat = k := by omega
  simp [pow10, h1]

theorem pow10_pos (e : Int) : 0 < pow10 e := by
  unfold pow10
  rw [Rat.div_def]
  exact Rat.mul_pos (ten_pow_pos _) (Rat.inv_pos.2 (ten_pow_pos _))

theorem pow10_succ (e : Int) : pow10 (e + 1) = 10 * pow10 e := by
  rcases Int.lt_or_le e 0 with h | h
  · obtain ⟨k, rfl⟩ : ∃ k : Nat, e = -((k + 1 : Nat) : Int) := ⟨(-e).toNat - 1, by omega⟩
    rw [show -((k + 1 : Nat) : Int) + 1 = -(k : Int) by omega, pow10_neg_eq, pow10_neg_eq, Rat.pow_succ]
    have := ten_pow_ne k
    grind
  · obtain ⟨k, rfl⟩ := Int.eq_ofNat_of_zero_le h
    rw [show (k : Int) + 1 = ((k + 1 : Nat) : Int) by omega, pow10_ofNat, pow10_ofNat, Rat.pow_succ]
    grind

theorem pow10_sub_nat (e : Int) (n : Nat) : pow10 (e - n) = pow10 e / 10 ^ n := by
  induction n with
  | zero => simp; grind
  | succ n ih =>
    have h := pow10_succ (e - (n + 1 : Nat))
    rw [show e - ((n + 1 : Nat) : Int) + 1 = e - n by omega, ih] at h
    rw [Rat.pow_succ]
    have := ten_pow_ne n
    grind

theorem pow10_mono {a b : Int} (h : a ≤ b) : pow10 a ≤ pow10 b := by
  obtain ⟨n, rfl⟩ : ∃ n : Nat, b = a + n := ⟨(b - a).toNat, by omega⟩
  clear h
  induction n with
  | zero => simp
  | succ n ih =>
    rw [show a + ((n + 1 : Nat) : Int) = a + n + 1 by omega, pow10_succ]
    have := pow10_pos (a + n)
    grind

theorem pow10_lt {a b : Int} (h : pow10 a < pow10 b) : a < b := by
  apply Int.not_le.1
  intro hle
  have := pow10_mono hle
  grind

theorem pow10_add_nat (e : Int) (n : Nat) : pow10 (e + n) = pow10 e * 10 ^ n := by
  induction n with
  | zero => simp
  | succ n ih => rw [show e + ((n + 1 : Nat) : Int) = e + n + 1 by omega, pow10_succ, ih, Rat.pow_succ]; grind

theorem pow10_add (a b : Int) : pow10 (a + b) = pow10 a * pow10 b := by
  rcases Int.lt_or_le b 0 with h | h
  · obtain ⟨n, rfl⟩ : ∃ n : Nat, b = -(n : Int) := ⟨(-b).toNat, by omega⟩
    rw [show a + -(n : Int) = a - n by omega, pow10_sub_nat, pow10_neg_eq]
    have := ten_pow_ne n
    grind
  · obtain ⟨n, rfl⟩ := Int.eq_ofNat_of_zero_le h
    rw [pow10_add_nat, pow10_ofNat]

/-- The bounds on a number that its number of digits gives. -/
theorem digits_bounds (n : Nat) (h : n ≠ 0) :
    (10 : Rat) ^ (Nat.toDigits 10 n).length ≤ 10 * (n : Rat) ∧ (n : Rat) < (10 : Rat) ^ (Nat.toDigits 10 n).length := by
  have hpos := Nat.length_toDigits_pos (b := 10) (n := n)
  generalize hl : (Nat.toDigits 10 n).length = l at hpos
  have h1 : n < 10 ^ l := (Nat.length_toDigits_le_iff (by decide) hpos).1 (by omega)
  constructor
  · have h2 : 10 ^ (l - 1) ≤ n := by
      rcases Nat.lt_or_ge 1 l with hl1 | hl1
      · apply Nat.le_of_not_lt
        intro hlt
        have := (Nat.length_toDigits_le_iff (b := 10) (n := n) (k := l - 1) (by decide) (by omega)).2 hlt
        omega
      · rw [show l - 1 = 0 by omega]; simp; omega
    have h3 : 10 ^ l ≤ 10 * n := by
      have : 10 ^ l = 10 * 10 ^ (l - 1) := by
        obtain ⟨k, rfl⟩ : ∃ k, l = k + 1 := ⟨l - 1, by omega⟩
        rw [Nat.pow_succ, Nat.mul_comm]; simp
      omega
    have h' : ((10 ^ l : Nat) : Rat) ≤ ((10 * n : Nat) : Rat) := Rat.natCast_le_natCast.2 h3
    rw [Rat.natCast_pow, Rat.natCast_mul] at h'
    exact h'
  · have h' : (n : Rat) < ((10 ^ l : Nat) : Rat) := Rat.natCast_lt_natCast.2 h1
    rw [Rat.natCast_pow] at h'
    exact h'

theorem ilog10_spec (a : Rat) (h : 0 < a) : pow10 (ilog10 a) ≤ a ∧ a < pow10 (ilog10 a + 1) := by
  have hn : 0 < a.num := by simpa using (Rat.lt_iff 0 a).1 h
  have hd : 0 < a.den := a.den_pos
  have ha : a = (a.num.natAbs : Rat) / (a.den : Rat) := by
    have h1 := Rat.num_divInt_den a
    rw [Rat.divInt_eq_div, Rat.intCast_natCast] at h1
    have h2 : (a.num : Rat) = ((a.num.natAbs : Int) : Rat) := by congr 1; omega
    rw [h2, Rat.intCast_natCast] at h1
    exact h1.symm
  obtain ⟨hp1, hp2⟩ := digits_bounds a.num.natAbs (by omega)
  obtain ⟨hq1, hq2⟩ := digits_bounds a.den (by omega)
  have he0 : pow10 (((Nat.toDigits 10 a.num.natAbs).length : Int) - ((Nat.toDigits 10 a.den).length : Int)) =
      10 ^ (Nat.toDigits 10 a.num.natAbs).length / 10 ^ (Nat.toDigits 10 a.den).length := by
    rw [pow10_sub_nat, pow10_ofNat]
  have hP := ten_pow_pos (Nat.toDigits 10 a.num.natAbs).length
  have hQ := ten_pow_pos (Nat.toDigits 10 a.den).length
  have hQ' := ten_pow_ne (Nat.toDigits 10 a.den).length
  have hq : (0 : Rat) < (a.den : Rat) := by
    have := Rat.natCast_lt_natCast (a := 0) (b := a.den)
    simpa using this.2 hd
  unfold ilog10
  generalize hPe : (10 : Rat) ^ (Nat.toDigits 10 a.num.natAbs).length = P at *
  generalize hQe : (10 : Rat) ^ (Nat.toDigits 10 a.den).length = Q at *
  generalize hpe : (a.num.natAbs : Rat) = p at *
  generalize hqe : (a.den : Rat) = q at *
  have haq : a * q = p := by
    have : q ≠ 0 := by intro h; rw [h] at hq; exact absurd hq (by decide)
    rw [ha]; grind
  generalize hE : ((Nat.toDigits 10 a.num.natAbs).length : Int) - ((Nat.toDigits 10 a.den).length : Int) = E at *
  have hup : a < 10 * (P / Q) := by
    apply Rat.not_le.1
    intro hle
    have h1 : 10 * (P / Q) * q ≤ a * q := Rat.mul_le_mul_of_nonneg_right hle (Rat.le_of_lt hq)
    have h2 : (P / Q) * Q ≤ (P / Q) * (10 * q) := by
      apply Rat.mul_le_mul_of_nonneg_left hq1
      have : 0 < P / Q := by rw [Rat.div_def]; exact Rat.mul_pos hP (Rat.inv_pos.2 hQ)
      grind
    have h3 : (P / Q) * Q = P := by grind
    grind
  have hlo : P / Q < 10 * a := by
    apply Rat.not_le.1
    intro hle
    have h1 : 10 * a * Q ≤ P / Q * Q := Rat.mul_le_mul_of_nonneg_right hle (Rat.le_of_lt hQ)
    have h3 : P / Q * Q = P := by grind
    have h4 : a * q < a * Q := Rat.mul_lt_mul_of_pos_left hq2 h
    grind
  simp only
  rw [pow10_succ]
  split
  · rename_i hlt
    have h1 := pow10_succ (E - 1)
    rw [show E - 1 + 1 = E by omega] at h1
    rw [he0] at h1 hlt
    constructor <;> grind
  · rename_i hge
    have hge := Rat.not_lt.1 hge
    rw [he0] at hge ⊢
    exact ⟨hge, hup⟩

/-- The six digits and the exponent of a number. -/
theorem sixDigits_bounds (a : Rat) (h : 0 < a) :
    100000 ≤ (sixDigits a).1 ∧ (sixDigits a).1 < 1000000 ∧ ilog10 a ≤ (sixDigits a).2 ∧ (sixDigits a).2 ≤ ilog10 a + 1 := by
  obtain ⟨h1, h2⟩ := ilog10_spec a h
  have hp := pow10_pos (5 - ilog10 a)
  have lo : ((100000 : Int) : Rat) ≤ a * pow10 (5 - ilog10 a) := by
    have := Rat.mul_le_mul_of_nonneg_right h1 (Rat.le_of_lt hp)
    rw [← pow10_add, show ilog10 a + (5 - ilog10 a) = ((5 : Nat) : Int) by omega, pow10_ofNat] at this
    exact this
  have hi : a * pow10 (5 - ilog10 a) ≤ ((1000000 : Int) : Rat) := by
    have := Rat.mul_le_mul_of_nonneg_right (Rat.le_of_lt h2) (Rat.le_of_lt hp)
    rw [← pow10_add, show ilog10 a + 1 + (5 - ilog10 a) = ((6 : Nat) : Int) by omega, pow10_ofNat] at this
    exact this
  have lo' := le_roundEven lo
  have hi' := roundEven_le hi
  unfold sixDigits
  simp only
  split
  · refine ⟨?_, ?_, ?_, ?_⟩ <;> simp only <;> omega
  · rename_i hne
    refine ⟨?_, ?_, ?_, ?_⟩ <;> simp only <;> omega

theorem dropTrailingZeros_length (ds : CStr) : (dropTrailingZeros ds).length ≤ ds.length := by
  unfold dropTrailingZeros
  rw [List.length_reverse]
  have := (List.dropWhile_suffix (fun x : Char => x == '0') (l := ds.reverse)).length_le
  simpa using this

theorem fraction_length (ds : CStr) : (fraction ds).length ≤ ds.length + 1 := by
  unfold fraction; split <;> simp

theorem fmtPos_length (a : Rat) (h : 0 < a) (hl : -400 ≤ ilog10 a) (hu : ilog10 a ≤ 400) : (fmtPos a).length ≤ 12 := by
  obtain ⟨h1, h2, h3, h4⟩ := sixDigits_bounds a h
  unfold fmtPos
  generalize hs : sixDigits a = me at *
  obtain ⟨m, e⟩ := me
  simp only at h1 h2 h3 h4 ⊢
  have hds : (Nat.toDigits 10 m).length ≤ 6 := (Nat.length_toDigits_le_iff (by decide) (by decide)).2 h2
  generalize Nat.toDigits 10 m = ds at hds
  split
  · have hex : (Nat.toDigits 10 e.natAbs).length ≤ 3 := (Nat.length_toDigits_le_iff (by decide) (by decide)).2 (by omega)
    generalize Nat.toDigits 10 e.natAbs = ex at hex
    have f1 := fraction_length (dropTrailingZeros (ds.drop 1))
    have f2 := dropTrailingZeros_length (ds.drop 1)
    simp only [List.length_drop] at f2
    have f3 : (if ex.length < 2 then '0' :: ex else ex).length ≤ 3 := by split <;> (try simp only [List.length_cons]) <;> omega
    simp only [List.length_append, List.length_take, List.length_cons, List.length_nil]
    omega
  · split
    · have f1 := fraction_length (dropTrailingZeros (List.replicate (e.natAbs - 1) '0' ++ ds))
      have f2 := dropTrailingZeros_length (List.replicate (e.natAbs - 1) '0' ++ ds)
      simp only [List.length_append, List.length_replicate] at f2
      simp only [List.length_cons]
      omega
    · have f1 := fraction_length (dropTrailingZeros (ds.drop (e.toNat + 1)))
      have f2 := dropTrailingZeros_length (ds.drop (e.toNat + 1))
      simp only [List.length_drop] at f2
      simp only [List.length_append, List.length_take]
      omega

set_option exponentiation.threshold 2000 in
theorem ilog10_bounds (r : Rat) (h1 : pow2 (-1074) ≤ r) (h2 : r < pow2 1024) : -400 ≤ ilog10 r ∧ ilog10 r ≤ 400 := by
  have h0 : 0 < r := rat_lt_le (pow2_pos _) h1
  obtain ⟨h3, h4⟩ := ilog10_spec r h0
  have a1 : pow2 1024 ≤ pow10 400 := by decide +kernel
  have a2 : pow10 (-400) ≤ pow2 (-1074) := by decide +kernel
  have b1 : ilog10 r < 400 := pow10_lt (rat_le_lt h3 (rat_lt_le h2 a1))
  have b2 : -400 < ilog10 r + 1 := pow10_lt (rat_le_lt a2 (rat_le_lt h1 h4))
  omega

theorem roundMag_bounds {a r : Rat} (ha : 0 < a) (h : roundMag a = some r) (hr : r ≠ 0) : pow2 (-1074) ≤ r ∧ r < pow2 1024 := by
  unfold roundMag at h
  simp only at h
  split at h
  · simp at h
  · rename_i hlt
    simp only [Option.some.injEq] at h
    rw [h] at hlt
    refine ⟨?_, Rat.not_le.1 hlt⟩
    have hu := ulp_pos a
    have hk0 : 0 ≤ roundEven (a / ulp a) := by
      apply le_roundEven
      rw [Rat.div_def]
      exact Rat.le_of_lt (Rat.mul_pos ha (Rat.inv_pos.2 hu))
    have hk1 : roundEven (a / ulp a) ≠ 0 := by
      intro hk
      rw [hk] at h
      apply hr
      rw [← h]
      exact Rat.zero_mul _
    have hk : ((1 : Int) : Rat) ≤ (roundEven (a / ulp a) : Rat) := Rat.intCast_le_intCast.2 (by omega)
    have h5 : pow2 (-1074) ≤ ulp a := pow2_mono (by omega)
    have h6 := Rat.mul_le_mul_of_nonneg_right hk (Rat.le_of_lt hu)
    rw [h] at h6
    have h7 : ((1 : Int) : Rat) * ulp a = ulp a := Rat.one_mul _
    rw [h7] at h6
    exact Rat.le_trans h5 h6

/-- `printf("%g")` writes at most 13 characters. -/
theorem fmtG_length (x : Dbl) : (fmtG x).length ≤ 13 := by
  have key : ∀ q r : Rat, 0 < q → roundMag q = some r → r ≠ 0 → (fmtPos r).length ≤ 12 := by
    intro q r hq hr h0
    obtain ⟨h1, h2⟩ := roundMag_bounds hq hr h0
    obtain ⟨h3, h4⟩ := ilog10_bounds r h1 h2
    exact fmtPos_length r (rat_lt_le (pow2_pos _) h1) h3 h4
  unfold fmtG canon
  split
  · rename_i q
    unfold rnd
    split
    · decide
    · split
      · rename_i hq
        cases hm : roundMag q with
        | none => decide
        | some r =>
          simp only [fmtDbl]
          split
          · decide
          · rename_i h0
            have h1 := (roundMag_bounds hq hm h0).1
            have h2 : 0 < r := rat_lt_le (pow2_pos _) h1
            rw [if_neg (by grind)]
            have := key q r hq hm h0
            omega
      · rename_i hq0 hq
        have hq' : 0 < -q := by grind
        cases hm : roundMag (-q) with
        | none => decide
        | some r =>
          simp only
          split
          · decide
          · rename_i h0
            have h1 := (roundMag_bounds hq' hm h0).1
            have h2 : 0 < r := rat_lt_le (pow2_pos _) h1
            simp only [fmtDbl]
            rw [if_neg (by grind), if_pos (by grind)]
            have := key (-q) r hq' hm h0
            simp only [List.length_cons, Rat.neg_neg]
            omega
  · rename_i hy
    cases x with
    | fin q => exact absurd rfl (hy q)
    | _ => decide

end Dbl
end LB
