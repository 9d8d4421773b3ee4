import Verif.Proofs.Doubles
/- Arithmetic follows IEEE 754. -/
namespace LB
open LB.Spec
namespace Dbl

theorem toRat_fin {x : Dbl} {p : Rat} (h : x.toRat? = some p) : x = .fin p ∨ (x = .nzero ∧ p = 0) := by
  cases x <;> simp [toRat?] at h
  · exact .inr ⟨rfl, h.symm⟩
  · exact .inl (by rw [h])

theorem kinds (x : Dbl) : x = .nan ∨ Infinite x ∨ ∃ p, x.toRat? = some p := by
  cases x with
  | nan => exact .inl rfl
  | pinf => exact .inr (.inl (.inl rfl))
  | ninf => exact .inr (.inl (.inr rfl))
  | nzero => exact .inr (.inr ⟨0, rfl⟩)
  | fin q => exact .inr (.inr ⟨q, rfl⟩)

theorem isNeg_iff (x : Dbl) : x.isNeg = true ↔ Negative x := by
  cases x <;> simp [isNeg, Negative]

theorem isInf_iff (x : Dbl) : x.isInf = true ↔ Infinite x := by
  cases x <;> simp [isInf, Infinite]

theorem isZero_iff (x : Dbl) : x.isZero = true ↔ x.toRat? = some 0 := by
  cases x <;> simp [isZero, toRat?]

theorem signed_of {x y z : Dbl} (h : z.isNeg = (x.isNeg != y.isNeg)) : Signed x y z := by
  unfold Signed
  rw [← isNeg_iff, ← isNeg_iff, ← isNeg_iff, h]
  cases x.isNeg <;> cases y.isNeg <;> simp

theorem signedInf_infinite (s : Bool) : Infinite (signedInf s) ∧ (signedInf s).isNeg = s := by
  cases s
  · exact ⟨.inl rfl, rfl⟩
  · exact ⟨.inr rfl, rfl⟩

theorem signedZero_zero (s : Bool) : (signedZero s).toRat? = some 0 ∧ (signedZero s).isNeg = s := by
  cases s
  · exact ⟨rfl, by decide +kernel⟩
  · exact ⟨rfl, rfl⟩

/-- A double is rounded to itself. -/
theorem rounded_self {q : Rat} (h : IsDouble q) : Rounded q (.fin q) := by
  have hgap : gap q q = 0 := by unfold gap; rw [if_pos Rat.le_refl]; grind
  have hnn : ∀ d, 0 ≤ gap q d := by intro d; unfold gap; split <;> grind
  obtain ⟨m, e, hm, h1, h2, rfl⟩ := id h
  have hp := pow2_pos e
  have hle := pow2_mono h2
  have hm1 : (m : Rat) ≤ 2 ^ 53 - 1 := by
    have e4 : ((2 ^ 53 - 1 : Int) : Rat) = 2 ^ 53 - 1 := by decide +kernel
    rw [← e4]; exact cast_le (by omega)
  have hm2 : -((2 : Rat) ^ 53 - 1) ≤ (m : Rat) := by
    have e4 : ((-(2 ^ 53 - 1) : Int) : Rat) = -(2 ^ 53 - 1) := by decide +kernel
    rw [← e4]; exact cast_le (by omega)
  have e2 : pow2 971 = pow2 970 * 2 := by rw [show (971 : Int) = 970 + 1 from rfl, pow2_succ]; grind
  have h970 := pow2_pos 970
  have hb : ∀ x : Rat, x ≤ 2 ^ 53 - 1 → x * pow2 e < tooLarge := by
    intro x hx
    rw [tooLarge_eq]
    have g1 := Rat.mul_le_mul_of_nonneg_right hx (Rat.le_of_lt hp)
    have g2 := Rat.mul_le_mul_of_nonneg_left hle (show (0 : Rat) ≤ 2 ^ 53 - 1 by decide +kernel)
    grind
  refine .inr (.inr ⟨_, rfl, ?_, ?_, h, ?_, ?_, ?_⟩)
  · rw [power_two]
    have := hb (-m) (by grind)
    grind
  · rw [power_two]; exact hb m hm1
  · intro d _; rw [hgap]; exact hnn d
  · intro d _ hne heq
    exfalso
    rw [hgap] at heq
    apply hne
    unfold gap at heq
    split at heq <;> grind
  · intro h0
    rw [h0]
    exact ⟨fun h => (by cases h), fun h => absurd h (by decide)⟩

theorem valid_isDouble {x : Dbl} {p : Rat} (hv : Valid x) (h : x.toRat? = some p) : IsDouble p := by
  rcases toRat_fin h with rfl | ⟨-, rfl⟩
  · exact hv
  · exact isDouble_zero

theorem rounded_valid {q : Rat} {x : Dbl} (h : Rounded q x) : Valid x := by
  rcases h with ⟨rfl, -⟩ | ⟨rfl, -⟩ | ⟨r, hr, -, -, hd, -⟩
  · trivial
  · trivial
  · rcases toRat_fin hr with rfl | ⟨rfl, -⟩
    · exact hd
    · trivial

/-- Rounding has one result. -/
theorem rounded_unique {q : Rat} {x y : Dbl} (hx : Rounded q x) (hy : Rounded q y) : x = y := by
  have hT := tooLarge_pos
  rcases hx with ⟨rfl, h1⟩ | ⟨rfl, h1⟩ | ⟨r, hr, a1, a2, ad, an, at_, az⟩ <;>
  rcases hy with ⟨rfl, h2⟩ | ⟨rfl, h2⟩ | ⟨s, hs, b1, b2, bd, bn, bt, bz⟩
  · rfl
  · exfalso; grind
  · exfalso; grind
  · exfalso; grind
  · rfl
  · exfalso; grind
  · exfalso; grind
  · exfalso; grind
  · have heq : gap q r = gap q s := Rat.le_antisymm (an s bd) (bn r ad)
    by_cases hrs : r = s
    · subst hrs
      rcases toRat_fin hr with rfl | ⟨rfl, rfl⟩ <;> rcases toRat_fin hs with rfl | ⟨rfl, h0⟩
      · rfl
      · subst h0
        have := (bz rfl).1 rfl
        exact (az rfl).2 this
      · exact ((bz rfl).2 ((az rfl).1 rfl)).symm
      · rfl
    · exfalso
      obtain ⟨m, n, e, g1, g2, g3, g4⟩ := at_ s bd (fun h => hrs h.symm) heq
      obtain ⟨m', n', e', k1, k2, k3, k4⟩ := bt r ad hrs heq.symm
      -- the same number as an even and an odd multiple: of which power?
      have key : ∀ (x : Rat) (m n e e' : Int), x = n * power 2 e → x = m * power 2 e' → n % 2 = 1 → m % 2 = 0 → e' < e := by
        intro x m n e e' h1 h2 h3 h4
        rcases Int.lt_or_le e' e with h | h
        · exact h
        · exfalso
          obtain ⟨k, rfl⟩ : ∃ k : Nat, e' = e + k := ⟨(e' - e).toNat, by omega⟩
          rw [power_two, pow2_add_nat] at h2
          rw [power_two] at h1
          have hp := pow2_pos e
          have hne : pow2 e ≠ 0 := by intro h; rw [h] at hp; exact absurd hp (by decide)
          have h5 : (n : Rat) = ((m * 2 ^ k : Int) : Rat) := by
            rw [Rat.intCast_mul, castPow]
            grind
          have h6 := Rat.intCast_inj.1 h5
          have h7 : (m * 2 ^ k) % 2 = 0 := by
            rw [Int.mul_emod, h4]; simp
          omega
      have c1 := key s m' n e e' g2 k1 g4 k3
      have c2 := key r m n' e' e k2 g1 k4 g3
      omega

theorem rounded_iff {q : Rat} {x : Dbl} : Rounded q x ↔ x = rnd q :=
  ⟨fun h => rounded_unique h (rnd_rounded q), fun h => h ▸ rnd_rounded q⟩

theorem add_sum (x y : Dbl) (hx : Valid x) (hy : Valid y) : Sum x y (add x y) := by
  rcases kinds x with rfl | hi | ⟨p, hp⟩
  · exact .undefined (.inl rfl)
  · rcases hi with rfl | rfl
    · cases y with
      | nan => exact .undefined (.inr rfl)
      | pinf => exact .left (.inl rfl) (.inl rfl)
      | ninf => exact .opposite (.inl ⟨rfl, rfl⟩)
      | nzero => exact .left (.inl rfl) (.inr ⟨0, rfl⟩)
      | fin q => exact .left (.inl rfl) (.inr ⟨q, rfl⟩)
    · cases y with
      | nan => exact .undefined (.inr rfl)
      | pinf => exact .opposite (.inr ⟨rfl, rfl⟩)
      | ninf => exact .left (.inr rfl) (.inl rfl)
      | nzero => exact .left (.inr rfl) (.inr ⟨0, rfl⟩)
      | fin q => exact .left (.inr rfl) (.inr ⟨q, rfl⟩)
  · rcases kinds y with rfl | hi | ⟨q, hq⟩
    · rcases toRat_fin hp with rfl | ⟨rfl, -⟩ <;> exact .undefined (.inr rfl)
    · rcases hi with rfl | rfl
      · rcases toRat_fin hp with rfl | ⟨rfl, -⟩ <;> exact .right (.inl rfl) ⟨_, rfl⟩
      · rcases toRat_fin hp with rfl | ⟨rfl, -⟩ <;> exact .right (.inr rfl) ⟨_, rfl⟩
    · have hdp := valid_isDouble hx hp
      have hdq := valid_isDouble hy hq
      by_cases h0 : p + q = 0
      · rcases toRat_fin hp with rfl | ⟨rfl, rfl⟩ <;> rcases toRat_fin hq with rfl | ⟨rfl, rfl⟩
        · refine .zero (z := add (fin p) (fin q)) hp hq h0 ?_ ?_ <;> simp [add, h0, rnd, toRat?]
        · have : p = 0 := by grind
          subst this
          refine .zero (z := add (fin 0) nzero) hp hq h0 ?_ ?_ <;> simp [add, toRat?]
        · have : q = 0 := by grind
          subst this
          refine .zero (z := add nzero (fin 0)) hp hq h0 ?_ ?_ <;> simp [add, toRat?]
        · refine .zero (z := add nzero nzero) hp hq h0 ?_ ?_ <;> simp [add, toRat?]
      · refine .finite hp hq h0 ?_
        rcases toRat_fin hp with rfl | ⟨rfl, rfl⟩ <;> rcases toRat_fin hq with rfl | ⟨rfl, rfl⟩
        · exact rnd_rounded _
        · rw [Rat.add_zero]; exact rounded_self hdp
        · rw [Rat.zero_add]; exact rounded_self hdq
        · exact absurd (by decide +kernel) h0

theorem neg_opposite (x : Dbl) : Opposite x (neg x) := by
  cases x with
  | nan => exact .inl ⟨rfl, rfl⟩
  | pinf => exact .inr ⟨by simp, by simp [neg, Negative], .inl ⟨.inl rfl, .inr rfl⟩⟩
  | ninf => exact .inr ⟨by simp, by simp [neg, Negative], .inl ⟨.inr rfl, .inl rfl⟩⟩
  | nzero => exact .inr ⟨by simp, by simp [neg, Negative], .inr ⟨0, rfl, rfl⟩⟩
  | fin q =>
    by_cases h : q = 0
    · subst h
      exact .inr ⟨by simp, by simp [neg, Negative], .inr ⟨0, rfl, rfl⟩⟩
    · refine .inr ⟨by simp, ?_, .inr ⟨q, rfl, by simp [neg, h, toRat?]⟩⟩
      simp [neg, h, Negative]
      grind

theorem valid_neg {x : Dbl} (h : Valid x) : Valid (neg x) := by
  cases x with
  | fin q =>
    by_cases h0 : q = 0
    · simp [neg, h0, Valid]
    · simp only [neg, h0, if_false]; exact isDouble_neg h
  | nzero => exact isDouble_zero
  | _ => trivial

theorem mul_product (x y : Dbl) : Product x y (mul x y) := by
  unfold mul
  simp only
  by_cases hnan : x = nan ∨ y = nan
  · rw [if_pos hnan]; exact .undefined hnan
  · rw [if_neg hnan]
    have hn := not_or.1 hnan
    by_cases hinf : (x.isInf || y.isInf) = true
    · rw [if_pos hinf]
      have hi : Infinite x ∨ Infinite y := by
        simpa [Bool.or_eq_true, isInf_iff] using hinf
      by_cases hz : (x.isZero || y.isZero) = true
      · rw [if_pos hz]
        have hz' : x.toRat? = some 0 ∨ y.toRat? = some 0 := by
          simpa [Bool.or_eq_true, isZero_iff] using hz
        refine .infZero ?_
        rcases hi with hi | hi <;> rcases hz' with hz' | hz'
        · rcases hi with rfl | rfl <;> cases hz'
        · exact .inl ⟨hi, hz'⟩
        · exact .inr ⟨hz', hi⟩
        · rcases hi with rfl | rfl <;> cases hz'
      · rw [if_neg hz]
        have hz' : ¬ (x.toRat? = some 0 ∨ y.toRat? = some 0) := by
          simpa [Bool.or_eq_true, isZero_iff] using hz
        obtain ⟨a, b⟩ := not_or.1 hz'
        exact .infinite hn.1 hn.2 hi a b (signedInf_infinite _).1 (signed_of (signedInf_infinite _).2)
    · rw [if_neg hinf]
      have hi : ¬ (Infinite x ∨ Infinite y) := by
        simpa [Bool.or_eq_true, isInf_iff] using hinf
      obtain ⟨hi1, hi2⟩ := not_or.1 hi
      obtain ⟨p, hp⟩ := ((kinds x).resolve_left hn.1).resolve_left hi1
      obtain ⟨q, hq⟩ := ((kinds y).resolve_left hn.2).resolve_left hi2
      simp only [hp, hq]
      by_cases h0 : p * q = 0
      · rw [if_pos h0]
        exact .zero hp hq h0 (signedZero_zero _).1 (signed_of (signedZero_zero _).2)
      · rw [if_neg h0]
        exact .finite hp hq h0 (rnd_rounded _)

theorem div_quotient (x y : Dbl) : Quotient x y (div x y) := by
  unfold div
  simp only
  by_cases hnan : x = nan ∨ y = nan
  · rw [if_pos hnan]; exact .undefined hnan
  · rw [if_neg hnan]
    have hn := not_or.1 hnan
    by_cases hix : x.isInf = true
    · rw [if_pos hix]
      have hi := (isInf_iff x).1 hix
      by_cases hiy : y.isInf = true
      · rw [if_pos hiy]; exact .infInf hi ((isInf_iff y).1 hiy)
      · rw [if_neg hiy]
        obtain ⟨q, hq⟩ := ((kinds y).resolve_left hn.2).resolve_left (fun h => hiy ((isInf_iff y).2 h))
        exact .infinite hi hq (signedInf_infinite _).1 (signed_of (signedInf_infinite _).2)
    · rw [if_neg hix]
      obtain ⟨p, hp⟩ := ((kinds x).resolve_left hn.1).resolve_left (fun h => hix ((isInf_iff x).2 h))
      by_cases hiy : y.isInf = true
      · rw [if_pos hiy]
        exact .byInf hp ((isInf_iff y).1 hiy) (signedZero_zero _).1 (signed_of (signedZero_zero _).2)
      · rw [if_neg hiy]
        obtain ⟨q, hq⟩ := ((kinds y).resolve_left hn.2).resolve_left (fun h => hiy ((isInf_iff y).2 h))
        simp only [hp, hq]
        by_cases hq0 : q = 0
        · subst hq0
          rw [if_pos rfl]
          by_cases hp0 : p = 0
          · subst hp0; rw [if_pos rfl]; exact .zeroZero hp hq
          · rw [if_neg hp0]
            exact .byZero hp hp0 hq (signedInf_infinite _).1 (signed_of (signedInf_infinite _).2)
        · rw [if_neg hq0]
          by_cases hp0 : p = 0
          · subst hp0
            rw [if_pos rfl]
            exact .zero hp hq hq0 (signedZero_zero _).1 (signed_of (signedZero_zero _).2)
          · rw [if_neg hp0]
            exact .finite hp hq hp0 hq0 (rnd_rounded _)

theorem valid_of_infinite {z : Dbl} (h : Infinite z) : Valid z := by rcases h with rfl | rfl <;> trivial

theorem valid_of_zero {z : Dbl} (h : z.toRat? = some 0) : Valid z := by
  rcases toRat_fin h with rfl | ⟨rfl, -⟩
  · exact isDouble_zero
  · trivial

theorem sum_valid {x y z : Dbl} (h : Sum x y z) : Valid z := by
  cases h with
  | undefined | opposite => trivial
  | left h _ => exact valid_of_infinite h
  | right h _ => exact valid_of_infinite h
  | zero _ _ _ h _ => exact valid_of_zero h
  | finite _ _ _ h => exact rounded_valid h

theorem product_valid {x y z : Dbl} (h : Product x y z) : Valid z := by
  cases h with
  | undefined | infZero => trivial
  | infinite _ _ _ _ _ h _ => exact valid_of_infinite h
  | zero _ _ _ h _ => exact valid_of_zero h
  | finite _ _ _ h => exact rounded_valid h

theorem quotient_valid {x y z : Dbl} (h : Quotient x y z) : Valid z := by
  cases h with
  | undefined | infInf | zeroZero => trivial
  | infinite _ _ h _ => exact valid_of_infinite h
  | byZero _ _ _ h _ => exact valid_of_infinite h
  | byInf _ _ h _ => exact valid_of_zero h
  | zero _ _ _ h _ => exact valid_of_zero h
  | finite _ _ _ _ h => exact rounded_valid h

theorem signed_isNeg {x y z : Dbl} (h : Signed x y z) : z.isNeg = (x.isNeg != y.isNeg) := by
  unfold Signed at h
  rw [← isNeg_iff, ← isNeg_iff, ← isNeg_iff] at h
  revert h
  cases x.isNeg <;> cases y.isNeg <;> cases z.isNeg <;> simp

theorem infinite_eq {z : Dbl} {s : Bool} (h : Infinite z) (hs : z.isNeg = s) : z = signedInf s := by
  subst hs
  rcases h with rfl | rfl <;> rfl

theorem zero_eq {z : Dbl} {s : Bool} (h : z.toRat? = some 0) (hs : z.isNeg = s) : z = signedZero s := by
  subst hs
  rcases toRat_fin h with rfl | ⟨rfl, -⟩
  · decide +kernel
  · rfl

theorem infinite_not {z : Dbl} (h : Infinite z) : z ≠ .nan ∧ ∀ q, z.toRat? ≠ some q := by
  rcases h with rfl | rfl <;> exact ⟨by simp, by simp [toRat?]⟩

theorem toRat_not {z : Dbl} {q : Rat} (h : z.toRat? = some q) : z ≠ .nan ∧ ¬ Infinite z := by
  rcases toRat_fin h with rfl | ⟨rfl, -⟩ <;> exact ⟨by simp, by simp [Infinite]⟩

/-- IEEE 754 says what a sum is, for doubles. -/
theorem sum_eq {x y z : Dbl} (hx : Valid x) (hy : Valid y) (h : Sum x y z) : z = add x y := by
  cases h with
  | undefined h =>
    rcases h with rfl | rfl
    · rfl
    · cases x <;> rfl
  | opposite h => rcases h with ⟨rfl, rfl⟩ | ⟨rfl, rfl⟩ <;> rfl
  | left h h' =>
    rcases h with rfl | rfl <;> rcases h' with rfl | ⟨q, hq⟩
    · rfl
    · rcases toRat_fin hq with rfl | ⟨rfl, -⟩ <;> rfl
    · rfl
    · rcases toRat_fin hq with rfl | ⟨rfl, -⟩ <;> rfl
  | right h h' =>
    obtain ⟨q, hq⟩ := h'
    rcases h with rfl | rfl <;> rcases toRat_fin hq with rfl | ⟨rfl, -⟩ <;> rfl
  | @zero _ p q hp hq h0 hz hs =>
    rcases toRat_fin hp with rfl | ⟨rfl, rfl⟩ <;> rcases toRat_fin hq with rfl | ⟨rfl, rfl⟩ <;>
      rcases toRat_fin hz with rfl | ⟨rfl, -⟩ <;> simp [add, h0, rnd] at hs ⊢
    · grind
    · grind
  | @finite _ p q hp hq h0 hr =>
    have h := add_sum x y hx hy
    generalize add x y = w at h
    cases h with
    | undefined h => rcases h with rfl | rfl <;> simp [toRat?] at hp hq
    | opposite h => rcases h with ⟨rfl, rfl⟩ | ⟨rfl, rfl⟩ <;> simp [toRat?] at hp
    | left h _ => exact absurd hp ((infinite_not h).2 p)
    | right h _ => exact absurd hq ((infinite_not h).2 q)
    | zero hp' hq' h0' _ _ =>
      rw [hp] at hp'; rw [hq] at hq'
      cases hp'; cases hq'
      exact absurd h0' h0
    | finite hp' hq' _ hr' =>
      rw [hp] at hp'; rw [hq] at hq'
      cases hp'; cases hq'
      exact rounded_unique hr hr'

theorem product_eq {x y z : Dbl} (h : Product x y z) : z = mul x y := by
  unfold mul
  simp only
  cases h with
  | undefined h => rw [if_pos h]
  | infZero h =>
    by_cases hn : x = nan ∨ y = nan
    · rw [if_pos hn]
    · rw [if_neg hn]
      rcases h with ⟨h, h'⟩ | ⟨h', h⟩ <;> simp [(isInf_iff _).2 h, (isZero_iff _).2 h']
  | infinite h1 h2 h3 h4 h5 h6 h7 =>
    rw [if_neg (by rintro (h | h); exact h1 h; exact h2 h), if_pos, if_neg]
    · exact infinite_eq h6 (signed_isNeg h7)
    · simp only [Bool.or_eq_true, isZero_iff]
      rintro (h | h)
      · exact h4 h
      · exact h5 h
    · simpa only [Bool.or_eq_true, isInf_iff] using h3
  | zero h1 h2 h3 h4 h5 =>
    rw [if_neg (by rintro (h | h); exact (toRat_not h1).1 h; exact (toRat_not h2).1 h), if_neg]
    · simp only [h1, h2, h3, if_true]
      exact zero_eq h4 (signed_isNeg h5)
    · simp only [Bool.or_eq_true, isInf_iff]
      rintro (h | h)
      · exact (toRat_not h1).2 h
      · exact (toRat_not h2).2 h
  | finite h1 h2 h3 h4 =>
    rw [if_neg (by rintro (h | h); exact (toRat_not h1).1 h; exact (toRat_not h2).1 h), if_neg]
    · simp only [h1, h2, h3, if_false]
      exact rounded_unique h4 (rnd_rounded _)
    · simp only [Bool.or_eq_true, isInf_iff]
      rintro (h | h)
      · exact (toRat_not h1).2 h
      · exact (toRat_not h2).2 h

theorem not_isInf {x : Dbl} {p : Rat} (h : x.toRat? = some p) : ¬ x.isInf = true := by
  rw [isInf_iff]; exact (toRat_not h).2

theorem quotient_eq {x y z : Dbl} (h : Quotient x y z) : z = div x y := by
  unfold div
  simp only
  have fin2 : ∀ {p q}, x.toRat? = some p → y.toRat? = some q → ¬ (x = nan ∨ y = nan) := by
    intro p q h1 h2
    rintro (h | h)
    · exact (toRat_not h1).1 h
    · exact (toRat_not h2).1 h
  cases h with
  | undefined h => rw [if_pos h]
  | infInf h1 h2 =>
    rw [if_neg (by rintro (h | h); exact (infinite_not h1).1 h; exact (infinite_not h2).1 h),
      if_pos ((isInf_iff _).2 h1), if_pos ((isInf_iff _).2 h2)]
  | zeroZero h1 h2 =>
    rw [if_neg (fin2 h1 h2), if_neg (not_isInf h1), if_neg (not_isInf h2)]
    simp [h1, h2]
  | infinite h1 h2 h3 h4 =>
    rw [if_neg (by rintro (h | h); exact (infinite_not h1).1 h; exact (toRat_not h2).1 h),
      if_pos ((isInf_iff _).2 h1), if_neg (not_isInf h2)]
    exact infinite_eq h3 (signed_isNeg h4)
  | byZero h1 h2 h3 h4 h5 =>
    rw [if_neg (fin2 h1 h3), if_neg (not_isInf h1), if_neg (not_isInf h3)]
    simp only [h1, h3, if_true, if_neg h2]
    exact infinite_eq h4 (signed_isNeg h5)
  | byInf h1 h2 h3 h4 =>
    rw [if_neg (by rintro (h | h); exact (toRat_not h1).1 h; exact (infinite_not h2).1 h),
      if_neg (not_isInf h1), if_pos ((isInf_iff _).2 h2)]
    exact zero_eq h3 (signed_isNeg h4)
  | zero h1 h2 h3 h4 h5 =>
    rw [if_neg (fin2 h1 h2), if_neg (not_isInf h1), if_neg (not_isInf h2)]
    simp only [h1, h2, if_true, if_neg h3]
    exact zero_eq h4 (signed_isNeg h5)
  | finite h1 h2 h3 h4 h5 =>
    rw [if_neg (fin2 h1 h2), if_neg (not_isInf h1), if_neg (not_isInf h2)]
    simp only [h1, h2, if_neg h3, if_neg h4]
    exact rounded_unique h5 (rnd_rounded _)

theorem opposite_eq {x y : Dbl} (h : Opposite x y) : y = neg x := by
  rcases h with ⟨rfl, rfl⟩ | ⟨h1, h2, h3⟩
  · rfl
  · rw [← isNeg_iff, ← isNeg_iff] at h2
    rcases h3 with ⟨a, b⟩ | ⟨p, a, b⟩
    · rcases a with rfl | rfl <;> rcases b with rfl | rfl <;> simp [isNeg] at h2 <;> rfl
    · rcases toRat_fin a with rfl | ⟨rfl, rfl⟩ <;> rcases toRat_fin b with rfl | ⟨rfl, hb⟩
      · by_cases h0 : p = 0
        · subst h0; exact absurd h2 (by decide +kernel)
        · simp [neg, h0]
      · have : p = 0 := by grind
        subst this; rfl
      · rfl
      · simp [isNeg] at h2

theorem lt_iff (x y : Dbl) : lt x y = true ↔ Less x y := by
  unfold Less
  cases x <;> cases y <;> simp [lt, toRat?]

theorem eq_iff (x y : Dbl) : eq x y = true ↔ Equal x y := by
  unfold Equal
  cases x <;> cases y <;> simp [eq, toRat?, Infinite, eq_comm]

end Dbl
end LB
