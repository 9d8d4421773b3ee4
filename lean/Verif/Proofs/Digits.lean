import Verif.Spec.Digits
import Verif.Proofs.Decimal
import Verif.Proofs.Arith
import Verif.Proofs.Numbers
/- Numbers are written with six significant digits. -/
namespace LB
open LB.Spec
namespace Dbl

/- ### The nearest number with six digits -/

theorem scaled_eq (m : Nat) (e : Int) : scaled m e = m * pow10 (e - 5) := by rw [scaled, power_ten]

theorem scaled_lo {m : Nat} (h : SixDigits m) (e : Int) : pow10 e ≤ scaled m e := by
  rw [scaled_eq, show e = e - 5 + (5 : Nat) by omega, pow10_add_nat, show e - 5 + ((5 : Nat) : Int) - 5 = e - 5 by omega, Rat.mul_comm]
  apply Rat.mul_le_mul_of_nonneg_right _ (Rat.le_of_lt (pow10_pos _))
  have := Rat.natCast_le_natCast.2 h.1
  exact this

theorem scaled_hi {m : Nat} (h : m ≤ 1000000) (e : Int) : scaled m e ≤ pow10 (e + 1) := by
  rw [scaled_eq, show e + 1 = e - 5 + (6 : Nat) by omega, pow10_add_nat, Rat.mul_comm (pow10 _)]
  apply Rat.mul_le_mul_of_nonneg_right _ (Rat.le_of_lt (pow10_pos _))
  have := Rat.natCast_le_natCast.2 h
  exact this

theorem scaled_lt {m : Nat} (h : SixDigits m) (e : Int) : scaled m e < pow10 (e + 1) := by
  rw [scaled_eq, show e + 1 = e - 5 + (6 : Nat) by omega, pow10_add_nat, Rat.mul_comm (pow10 _)]
  apply Rat.mul_lt_mul_of_pos_right _ (pow10_pos _)
  have := Rat.natCast_lt_natCast.2 h.2
  exact this

theorem scaled_inj {m n : Nat} {e k : Int} (hm : SixDigits m) (hn : SixDigits n) (h : scaled m e = scaled n k) : m = n ∧ e = k := by
  have a1 := scaled_lo hm e
  have a2 := scaled_lt hm e
  have b1 := scaled_lo hn k
  have b2 := scaled_lt hn k
  have he : e = k := by
    have := pow10_lt (rat_le_lt a1 (h ▸ b2))
    have := pow10_lt (rat_le_lt b1 (h ▸ a2))
    omega
  subst he
  refine ⟨?_, rfl⟩
  rw [scaled_eq, scaled_eq] at h
  have hp := pow10_pos (e - 5)
  have hne : pow10 (e - 5) ≠ 0 := fun h0 => by rw [h0] at hp; exact absurd hp (by decide)
  have : (m : Rat) = n := by
    have h2 : (m : Rat) * pow10 (e - 5) * (pow10 (e - 5))⁻¹ = n * pow10 (e - 5) * (pow10 (e - 5))⁻¹ := by rw [h]
    rwa [Rat.mul_assoc, Rat.mul_assoc, Rat.mul_inv_cancel _ hne, Rat.mul_one, Rat.mul_one] at h2
  exact Rat.natCast_inj.1 this

/-- There is no number with six digits between one and its successor. -/
theorem scaled_next {m n : Nat} {e k : Int} (hm : SixDigits m) (hn : SixDigits n) (h : scaled m e < scaled n k) :
    scaled (m + 1) e ≤ scaled n k := by
  have a1 := scaled_lo hm e
  have b1 := scaled_lo hn k
  have b2 := scaled_lt hn k
  have hs := scaled_hi (m := m + 1) (by have := hm.2; omega) e
  rcases Int.lt_trichotomy e k with hk | rfl | hk
  · have := pow10_mono (show e + 1 ≤ k by omega)
    grind
  · rw [scaled_eq, scaled_eq] at h ⊢
    have hp := pow10_pos (e - 5)
    have : (m : Rat) < n := by
      apply Rat.not_le.1
      intro hle
      have := Rat.mul_le_mul_of_nonneg_right hle (Rat.le_of_lt hp)
      grind
    have := Rat.natCast_lt_natCast.1 this
    apply Rat.mul_le_mul_of_nonneg_right _ (Rat.le_of_lt hp)
    exact Rat.natCast_le_natCast.2 (by omega)
  · have := pow10_mono (show k + 1 ≤ e by omega)
    grind

theorem nearest_not_lt {q : Rat} {m n : Nat} {e k : Int} (h : Nearest q m e) (h' : Nearest q n k) : ¬ scaled m e < scaled n k := by
  intro hlt
  have h1 := h.2 n k h'.1
  have h2 := h'.2 m e h.1
  have heq : gap q (scaled m e) = gap q (scaled n k) := by grind
  have e1 := h1.2 heq (by grind)
  have e2 := h2.2 heq.symm (by grind)
  have hle := scaled_next h.1 h'.1 hlt
  obtain ⟨w1, w2⟩ := h.1
  have hnext : SixDigits (m + 1) := ⟨by omega, by omega⟩
  have hne : scaled (m + 1) e ≠ scaled n k := by
    intro heq
    have := (scaled_inj hnext h'.1 heq).1
    omega
  have hstep : scaled m e < scaled (m + 1) e := by
    rw [scaled_eq, scaled_eq]
    apply Rat.mul_lt_mul_of_pos_right _ (pow10_pos _)
    exact Rat.natCast_lt_natCast.2 (by omega)
  have h3 := (h.2 (m + 1) e hnext).1
  generalize scaled m e = a at *
  generalize scaled n k = b at *
  generalize scaled (m + 1) e = c at *
  unfold gap at *
  grind

theorem nearest_unique {q : Rat} {m n : Nat} {e k : Int} (h : Nearest q m e) (h' : Nearest q n k) : m = n ∧ e = k := by
  apply scaled_inj h.1 h'.1
  have := nearest_not_lt h h'
  have := nearest_not_lt h' h
  grind

theorem sixDigits_nearest (a : Rat) (h : 0 < a) : Nearest a (sixDigits a).1 (sixDigits a).2 := by
  obtain ⟨h1, h2⟩ := ilog10_spec a h
  have hb := sixDigits_bounds a h
  have hu := pow10_pos (ilog10 a - 5)
  have ha : a = a * pow10 (5 - ilog10 a) * pow10 (ilog10 a - 5) := by
    rw [Rat.mul_assoc, ← pow10_add, show 5 - ilog10 a + (ilog10 a - 5) = ((0 : Nat) : Int) by omega, pow10_ofNat]
    grind
  have lo : ((100000 : Int) : Rat) ≤ a * pow10 (5 - ilog10 a) := by
    have := Rat.mul_le_mul_of_nonneg_right h1 (Rat.le_of_lt (pow10_pos (5 - ilog10 a)))
    rw [← pow10_add, show ilog10 a + (5 - ilog10 a) = ((5 : Nat) : Int) by omega, pow10_ofNat] at this
    exact this
  have hM0 := le_roundEven lo
  have hval : scaled (sixDigits a).1 (sixDigits a).2 = (roundEven (a * pow10 (5 - ilog10 a)) : Rat) * pow10 (ilog10 a - 5) ∧
      (roundEven (a * pow10 (5 - ilog10 a)) % 2 = 0 → (sixDigits a).1 % 2 = 0) := by
    unfold sixDigits
    simp only
    split
    · rename_i hm
      have : roundEven (a * pow10 (5 - ilog10 a)) = 1000000 := by omega
      refine ⟨?_, fun _ => (by decide : 100000 % 2 = 0)⟩
      rw [this, scaled_eq, show ilog10 a + 1 - 5 = ilog10 a - 5 + 1 by omega, pow10_succ]
      have : ((1000000 : Int) : Rat) = ((100000 : Nat) : Rat) * 10 := by decide +kernel
      rw [this]; grind
    · refine ⟨?_, fun _ => by omega⟩
      rw [scaled_eq]
      congr 1
      rw [← Rat.intCast_natCast]
      congr 1
      omega
  obtain ⟨hval, heven⟩ := hval
  refine ⟨⟨hb.1, hb.2.1⟩, fun n k hn => ?_⟩
  rw [hval]
  generalize hy : a * pow10 (5 - ilog10 a) = y at *
  generalize hE : ilog10 a = E at *
  rcases Int.lt_or_le k E with hk | hk
  · have hstrict : gap a ((roundEven y : Rat) * pow10 (E - 5)) < gap a (scaled n k) := by
      have hlt := scaled_lt hn k
      have hmono := pow10_mono (show k + 1 ≤ E by omega)
      have hnear := roundEven_near y 100000
      have hs1 := gap_scale y (roundEven y) _ hu
      have hs2 := gap_scale y ((100000 : Int) : Rat) _ hu
      rw [← ha] at hs1 hs2
      have hg := Rat.mul_le_mul_of_nonneg_right hnear (Rat.le_of_lt hu)
      rw [← hs1, ← hs2] at hg
      refine rat_le_lt hg ?_
      have hp : ((100000 : Int) : Rat) * pow10 (E - 5) = pow10 E := by
        rw [show E = E - 5 + (5 : Nat) by omega, pow10_add_nat, show E - 5 + ((5 : Nat) : Int) - 5 = E - 5 by omega, Rat.mul_comm]
        congr 1
      rw [hp]
      unfold gap
      grind
    exact ⟨Rat.le_of_lt hstrict, fun heq => absurd heq (by grind)⟩
  · obtain ⟨j, rfl⟩ : ∃ j : Nat, k = E + j := ⟨(k - E).toNat, by omega⟩
    have hd : scaled n (E + j) = ((n * 10 ^ j : Nat) : Int) * pow10 (E - 5) := by
      rw [scaled_eq, show E + (j : Int) - 5 = E - 5 + j by omega, pow10_add_nat, Rat.intCast_natCast, Rat.natCast_mul, Rat.natCast_pow]
      have : ((10 : Nat) : Rat) = 10 := rfl
      rw [this]; grind
    rw [hd]
    have hs1 := gap_scale y (roundEven y) _ hu
    have hs2 := gap_scale y (((n * 10 ^ j : Nat) : Int) : Rat) _ hu
    rw [← ha] at hs1 hs2
    rw [hs1, hs2]
    refine ⟨Rat.mul_le_mul_of_nonneg_right (roundEven_near y _) (Rat.le_of_lt hu), fun heq hne => ?_⟩
    have heq' : gap y (roundEven y) = gap y ((n * 10 ^ j : Nat) : Int) := by grind
    exact heven (roundEven_tie y _ (fun h => hne (by rw [h])) heq').1

/- ### The text -/

theorem decimal_nil : _root_.Spec.decimal [] = 0 := rfl

theorem ofDigitChars_shift (ds : CStr) (a : Nat) : Nat.ofDigitChars 10 ds a = a * 10 ^ ds.length + _root_.Spec.decimal ds := by
  induction ds generalizing a with
  | nil => simp [Nat.ofDigitChars, decimal_nil]
  | cons d ds ih =>
    have h1 : ∀ b, Nat.ofDigitChars 10 (d :: ds) b = Nat.ofDigitChars 10 ds (10 * b + (d.toNat - '0'.toNat)) := fun _ => rfl
    rw [_root_.Spec.decimal, h1, h1, ih, ih (10 * 0 + _)]
    simp only [List.length_cons, Nat.pow_succ]
    grind

theorem decimal_append (a b : CStr) : _root_.Spec.decimal (a ++ b) = _root_.Spec.decimal a * 10 ^ b.length + _root_.Spec.decimal b := by
  have : _root_.Spec.decimal (a ++ b) = Nat.ofDigitChars 10 b (_root_.Spec.decimal a) := by
    unfold _root_.Spec.decimal Nat.ofDigitChars
    rw [List.foldl_append]
  rw [this, ofDigitChars_shift]

theorem decimal_single (d : Char) : _root_.Spec.decimal [d] = d.toNat - 48 := by
  show 10 * 0 + (d.toNat - '0'.toNat) = _
  simp

theorem decimal_zeros (k : Nat) : _root_.Spec.decimal (List.replicate k '0') = 0 := by
  induction k with
  | zero => rfl
  | succ k ih => rw [List.replicate_succ', decimal_append, ih]; rfl

theorem digit_toNat {d : Char} (h : _root_.Spec.IsDigit d) : 48 ≤ d.toNat ∧ d.toNat ≤ 57 := h

theorem decimal_lt {ds : CStr} (h : ∀ c ∈ ds, _root_.Spec.IsDigit c) : _root_.Spec.decimal ds < 10 ^ ds.length := by
  induction ds with
  | nil => decide
  | cons d ds ih =>
    have h1 := ih (fun c hc => h c (List.mem_cons_of_mem _ hc))
    have h2 := digit_toNat (h d (by simp))
    have := decimal_append [d] ds
    rw [decimal_single] at this
    simp only [List.cons_append, List.nil_append] at this
    rw [this, List.length_cons, Nat.pow_succ]
    have : (d.toNat - 48) * 10 ^ ds.length ≤ 9 * 10 ^ ds.length := Nat.mul_le_mul_right _ (by omega)
    omega

theorem decimal_ge {d : Char} {ds : CStr} (h : _root_.Spec.IsDigit d) (h0 : d ≠ '0') : 10 ^ ds.length ≤ _root_.Spec.decimal (d :: ds) := by
  have := decimal_append [d] ds
  rw [decimal_single] at this
  simp only [List.cons_append, List.nil_append] at this
  have h1 := digit_toNat h
  have h2 : d.toNat ≠ 48 := fun he => h0 (Char.toNat_inj.1 he)
  have : 1 * 10 ^ ds.length ≤ (d.toNat - 48) * 10 ^ ds.length := Nat.mul_le_mul_right _ (by omega)
  omega

theorem decimal_inj {a b : CStr} (ha : ∀ c ∈ a, _root_.Spec.IsDigit c) (hb : ∀ c ∈ b, _root_.Spec.IsDigit c) (hl : a.length = b.length)
    (h : _root_.Spec.decimal a = _root_.Spec.decimal b) : a = b := by
  induction a generalizing b with
  | nil => cases b with
    | nil => rfl
    | cons => simp at hl
  | cons x a ih =>
    cases b with
    | nil => simp at hl
    | cons y b =>
      have hl' : a.length = b.length := by simpa using hl
      have e1 := decimal_append [x] a
      have e2 := decimal_append [y] b
      rw [decimal_single] at e1 e2
      simp only [List.cons_append, List.nil_append] at e1 e2
      have l1 := decimal_lt (fun c hc => ha c (List.mem_cons_of_mem _ hc))
      have l2 := decimal_lt (fun c hc => hb c (List.mem_cons_of_mem _ hc))
      rw [← hl'] at l2 e2
      rw [e1, e2] at h
      have hpos : 0 < 10 ^ a.length := Nat.pow_pos (by decide)
      have hq : x.toNat - 48 = y.toNat - 48 := by
        have t1 : ((x.toNat - 48) * 10 ^ a.length + _root_.Spec.decimal a) / 10 ^ a.length = x.toNat - 48 := by
          rw [Nat.mul_comm, Nat.mul_add_div hpos, Nat.div_eq_of_lt l1]; rfl
        have t2 : ((y.toNat - 48) * 10 ^ a.length + _root_.Spec.decimal b) / 10 ^ a.length = y.toNat - 48 := by
          rw [Nat.mul_comm, Nat.mul_add_div hpos, Nat.div_eq_of_lt l2]; rfl
        rw [← t1, ← t2, h]
      have hx := digit_toNat (ha x (by simp))
      have hy := digit_toNat (hb y (by simp))
      have : x = y := Char.toNat_inj.1 (by omega)
      subst this
      rw [ih (fun c hc => ha c (List.mem_cons_of_mem _ hc)) (fun c hc => hb c (List.mem_cons_of_mem _ hc)) hl' (by omega)]

theorem dropTrailingZeros_spec (ds : CStr) :
    ∃ k, ds = dropTrailingZeros ds ++ List.replicate k '0' ∧ (dropTrailingZeros ds).getLast? ≠ some '0' := by
  unfold dropTrailingZeros
  refine ⟨(ds.reverse.takeWhile (· == '0')).length, ?_, ?_⟩
  · have h1 := List.takeWhile_append_dropWhile (p := fun c : Char => c == '0') (l := ds.reverse)
    have h2 := congrArg List.reverse h1
    rw [List.reverse_append, List.reverse_reverse] at h2
    have h3 : (ds.reverse.takeWhile (· == '0')).reverse = List.replicate (ds.reverse.takeWhile (· == '0')).length '0' := by
      rw [List.eq_replicate_iff]
      refine ⟨List.length_reverse, fun c hc => ?_⟩
      have := List.all_takeWhile (l := ds.reverse) (p := (· == '0'))
      rw [List.all_eq_true] at this
      exact beq_iff_eq.1 (this c (List.mem_reverse.1 hc))
    rw [← h3]
    exact h2.symm
  · rw [List.getLast?_reverse]
    intro h
    have := List.head?_dropWhile_not (fun c : Char => c == '0') ds.reverse
    rw [h] at this
    simp at this

theorem fraction_eq (ip fp : CStr) : ip ++ fraction fp = if fp = [] then ip else ip ++ '.' :: fp := by
  unfold fraction
  cases fp <;> simp

theorem toDigits_digits (n : Nat) : ∀ c ∈ Nat.toDigits 10 n, _root_.Spec.IsDigit c :=
  fun c hc => (isdigit_iff c).1 (fmtU_digits n c hc)

theorem decimal_toDigits (n : Nat) : _root_.Spec.decimal (Nat.toDigits 10 n) = n := decimal_fmtU n

/-- The value of digits from which zeros at the end were dropped. -/
theorem value_eq {ip fp : CStr} {k m : Nat} {e x : Int} (h : _root_.Spec.decimal (ip ++ fp ++ List.replicate k '0') = m) (hk : k + (e - 5) = x) :
    _root_.Spec.decimal (ip ++ fp) * power 10 x = scaled m e := by
  rw [decimal_append, decimal_zeros, List.length_replicate, Nat.add_zero] at h
  rw [scaled_eq, power_ten, ← h, ← hk, pow10_add, pow10_ofNat, Rat.natCast_mul, Rat.natCast_pow]
  have : ((10 : Nat) : Rat) = 10 := rfl
  rw [this]; grind

theorem head_not_zero {c : Char} {ds : CStr} (h : ∀ d ∈ c :: ds, _root_.Spec.IsDigit d) (hv : 10 ^ ds.length ≤ _root_.Spec.decimal (c :: ds)) : c ≠ '0' := by
  rintro rfl
  have := decimal_append ['0'] ds
  simp only [List.cons_append, List.nil_append] at this
  rw [this] at hv
  have := decimal_lt (fun d hd => h d (List.mem_cons_of_mem _ hd))
  have h0 : _root_.Spec.decimal ['0'] = 0 := rfl
  rw [h0] at hv
  omega

theorem fmtPos_shown (a : Rat) (h : 0 < a) : Shown a (fmtPos a) := by
  have hn := sixDigits_nearest a h
  have hb := sixDigits_bounds a h
  unfold fmtPos
  generalize hs : sixDigits a = me at *
  obtain ⟨m, e⟩ := me
  simp only at hn hb ⊢
  have hlen : (Nat.toDigits 10 m).length = 6 := by
    have h1 : (Nat.toDigits 10 m).length ≤ 6 := (Nat.length_toDigits_le_iff (by decide) (by decide)).2 hb.2.1
    have h2 : ¬ (Nat.toDigits 10 m).length ≤ 5 := by
      rw [Nat.length_toDigits_le_iff (by decide) (by decide)]; omega
    omega
  have hdig := toDigits_digits m
  have hval := decimal_toDigits m
  generalize Nat.toDigits 10 m = ds at *
  split
  · rename_i he
    match ds, hlen with
    | c :: r, hlen =>
      simp only [List.take_succ_cons, List.take_zero, List.drop_succ_cons, List.drop_zero]
      obtain ⟨k, hk1, hk2⟩ := dropTrailingZeros_spec r
      have hc0 : c ≠ '0' := head_not_zero hdig (by rw [hval]; simp only [List.length_cons] at hlen; rw [show r.length = 5 by omega]; omega)
      have hl := congrArg List.length hk1
      simp only [List.length_append, List.length_replicate] at hl
      simp only [List.length_cons] at hlen
      have key := Shown.exponent (q := a) (m := m) (e := e) (c := c) (fp := dropTrailingZeros r) (t := [c] ++ fraction (dropTrailingZeros r))
        (ex := if (Nat.toDigits 10 e.natAbs).length < 2 then '0' :: Nat.toDigits 10 e.natAbs else Nat.toDigits 10 e.natAbs)
        hn (by omega) ⟨?_, by simp, hk2, fraction_eq _ _⟩ hc0 ?_ ?_ ?_ ?_ ?_
      · simpa using key
      · intro d hd
        apply hdig
        rw [hk1]
        simp only [List.mem_append, List.mem_cons, List.not_mem_nil, or_false] at hd ⊢
        rcases hd with rfl | hd
        · exact .inl rfl
        · exact .inr (.inl hd)
      · refine value_eq (ip := [c]) (fp := dropTrailingZeros r) (k := k) ?_ (by omega)
        rw [List.append_assoc, ← hk1]; exact hval
      · intro d hd
        split at hd
        · rcases List.mem_cons.1 hd with rfl | hd
          · decide
          · exact toDigits_digits _ _ hd
        · exact toDigits_digits _ _ hd
      · have := Nat.length_toDigits_pos (b := 10) (n := e.natAbs)
        split <;> simp <;> omega
      · intro hz
        have hp := Nat.length_toDigits_pos (b := 10) (n := e.natAbs)
        split at hz
        · rename_i h2
          rw [if_pos h2, List.length_cons]; omega
        · rename_i h2
          exfalso
          have hd := toDigits_digits e.natAbs
          have hv := decimal_toDigits e.natAbs
          have hle : ¬ (Nat.toDigits 10 e.natAbs).length ≤ (Nat.toDigits 10 e.natAbs).length - 1 := by omega
          rw [Nat.length_toDigits_le_iff (by decide) (by omega)] at hle
          generalize Nat.toDigits 10 e.natAbs = ex at *
          cases ex with
          | nil => simp at hp
          | cons x ex =>
            simp only [List.head?_cons, Option.some.injEq] at hz
            refine head_not_zero hd ?_ hz
            rw [hv]
            simpa using hle
      · split
        · have := decimal_append ['0'] (Nat.toDigits 10 e.natAbs)
          simp only [List.cons_append, List.nil_append] at this
          rw [this, decimal_toDigits, show _root_.Spec.decimal ['0'] = 0 from rfl]; omega
        · exact decimal_toDigits _
  · rename_i he
    split
    · rename_i hneg
      obtain ⟨k, hk1, hk2⟩ := dropTrailingZeros_spec (List.replicate (e.natAbs - 1) '0' ++ ds)
      have hl := congrArg List.length hk1
      simp only [List.length_append, List.length_replicate] at hl
      refine .plain (ip := ['0']) (fp := dropTrailingZeros (List.replicate (e.natAbs - 1) '0' ++ ds)) hn (by omega) (by omega)
        ⟨?_, by simp, hk2, fraction_eq ['0'] _⟩ (fun _ => rfl) ?_
      · intro d hd
        simp only [List.mem_append, List.mem_cons, List.not_mem_nil, or_false] at hd
        rcases hd with rfl | hd
        · decide
        · have : d ∈ List.replicate (e.natAbs - 1) '0' ++ ds := by rw [hk1]; exact List.mem_append_left _ hd
          rcases List.mem_append.1 this with h' | h'
          · rw [List.eq_of_mem_replicate h']; decide
          · exact hdig d h'
      · refine value_eq (k := k) ?_ (by omega)
        rw [List.append_assoc, ← hk1, decimal_append, decimal_append, decimal_zeros, hval, show _root_.Spec.decimal ['0'] = 0 from rfl]
        omega
    · rename_i hneg
      obtain ⟨k, hk1, hk2⟩ := dropTrailingZeros_spec (ds.drop (e.toNat + 1))
      have hl := congrArg List.length hk1
      simp only [List.length_append, List.length_replicate, List.length_drop] at hl
      refine .plain (ip := ds.take (e.toNat + 1)) (fp := dropTrailingZeros (ds.drop (e.toNat + 1))) hn (by omega) (by omega)
        ⟨?_, ?_, hk2, fraction_eq _ _⟩ ?_ ?_
      · intro d hd
        rcases List.mem_append.1 hd with hd | hd
        · exact hdig d (List.mem_of_mem_take hd)
        · exact hdig d (List.mem_of_mem_drop (by rw [hk1]; exact List.mem_append_left _ hd))
      · intro h0
        have := congrArg List.length h0
        simp only [List.length_take, List.length_nil] at this
        omega
      · intro hz
        exfalso
        match ds, hlen with
        | c :: r, hlen =>
          simp only [List.take_succ_cons, List.head?_cons, Option.some.injEq] at hz
          refine head_not_zero hdig ?_ hz
          rw [hval]; simp only [List.length_cons] at hlen; rw [show r.length = 5 by omega]; omega
      · refine value_eq (k := k) ?_ (by omega)
        rw [List.append_assoc, ← hk1, List.take_append_drop, hval]

theorem fmtDbl_printed (x : Dbl) : Printed x (fmtDbl x) := by
  cases x with
  | nan => exact .nan
  | pinf => exact .pinf
  | ninf => exact .ninf
  | nzero => exact .nzero
  | fin q =>
    simp only [fmtDbl]
    split
    · rename_i h; subst h; exact .zero
    · rename_i h
      split
      · rename_i h1; exact .neg h1 (fmtPos_shown _ (by grind))
      · rename_i h1; exact .pos (by grind) (fmtPos_shown _ (by grind))

theorem canon_valid {x : Dbl} (h : Valid x) : x.canon = x := by
  cases x with
  | fin q => exact (rounded_iff.1 (rounded_self h)).symm
  | _ => rfl

theorem fmtG_printed {x : Dbl} (h : Valid x) : Printed x (fmtG x) := by
  rw [fmtG, canon_valid h]; exact fmtDbl_printed x

/- ### There is only one text -/

/-- Digits after the point that do not end with 0 are determined by the value. -/
theorem pointed_unique {ip fp ip' fp' : CStr} {x : Int} (h1 : ∀ c ∈ ip ++ fp, _root_.Spec.IsDigit c) (h1' : ∀ c ∈ ip' ++ fp', _root_.Spec.IsDigit c)
    (h2' : fp'.getLast? ≠ some '0') (hle : fp.length ≤ fp'.length)
    (hv : _root_.Spec.decimal (ip ++ fp) * power 10 (x - fp.length) = _root_.Spec.decimal (ip' ++ fp') * power 10 (x - fp'.length)) :
    fp = fp' ∧ _root_.Spec.decimal ip = _root_.Spec.decimal ip' := by
  obtain ⟨k, hk⟩ : ∃ k, fp'.length = fp.length + k := ⟨fp'.length - fp.length, by omega⟩
  have hv' : _root_.Spec.decimal (ip ++ fp) * 10 ^ k = _root_.Spec.decimal (ip' ++ fp') := by
    rw [power_ten, power_ten, show x - (fp.length : Int) = x - fp'.length + k by omega, pow10_add_nat] at hv
    have hp := pow10_pos (x - fp'.length)
    have hne : pow10 (x - fp'.length) ≠ 0 := fun h0 => by rw [h0] at hp; exact absurd hp (by decide)
    generalize pow10 (x - fp'.length) = u at *
    have : (_root_.Spec.decimal (ip ++ fp) : Rat) * 10 ^ k = _root_.Spec.decimal (ip' ++ fp') := by
      have h2 : ((_root_.Spec.decimal (ip ++ fp) : Rat) * 10 ^ k) * u * u⁻¹ = _root_.Spec.decimal (ip' ++ fp') * u * u⁻¹ := by rw [← hv]; grind
      rwa [Rat.mul_assoc, Rat.mul_inv_cancel _ hne, Rat.mul_one, Rat.mul_assoc, Rat.mul_inv_cancel _ hne, Rat.mul_one] at h2
    apply Rat.natCast_inj.1
    rw [← this, Rat.natCast_mul, Rat.natCast_pow]
    rfl
  have hk0 : k = 0 := by
    cases k with
    | zero => rfl
    | succ k =>
      exfalso
      obtain ⟨f, d, rfl⟩ : ∃ f d, fp' = f ++ [d] := by
        rcases List.eq_nil_or_concat fp' with rfl | ⟨f, d, rfl⟩
        · simp at hk
        · exact ⟨f, d, by simp⟩
      rw [← List.append_assoc, decimal_append (ip' ++ f), decimal_single, Nat.pow_succ] at hv'
      simp only [List.length_cons, List.length_nil] at hv'
      have hd := digit_toNat (h1' d (by simp))
      have : d.toNat ≠ 48 := fun he => h2' (by rw [List.getLast?_append]; simp [Char.toNat_inj.1 (show d.toNat = '0'.toNat from he)])
      have : (_root_.Spec.decimal (ip ++ fp) * (10 ^ k * 10)) % 10 = 0 := by rw [← Nat.mul_assoc]; omega
      omega
  subst hk0
  rw [Nat.pow_zero, Nat.mul_one, decimal_append, decimal_append, hk, Nat.add_zero] at hv'
  have l1 := decimal_lt (fun c hc => h1 c (List.mem_append_right _ hc))
  have l2 := decimal_lt (fun c hc => h1' c (List.mem_append_right _ hc))
  rw [hk, Nat.add_zero] at l2
  have hpos : 0 < 10 ^ fp.length := Nat.pow_pos (by decide)
  have hq : _root_.Spec.decimal ip = _root_.Spec.decimal ip' := by
    have t1 : (_root_.Spec.decimal ip * 10 ^ fp.length + _root_.Spec.decimal fp) / 10 ^ fp.length = _root_.Spec.decimal ip := by
      rw [Nat.mul_comm, Nat.mul_add_div hpos, Nat.div_eq_of_lt l1]; rfl
    have t2 : (_root_.Spec.decimal ip' * 10 ^ fp.length + _root_.Spec.decimal fp') / 10 ^ fp.length = _root_.Spec.decimal ip' := by
      rw [Nat.mul_comm, Nat.mul_add_div hpos, Nat.div_eq_of_lt l2]; rfl
    rw [← t1, ← t2, hv']
  refine ⟨decimal_inj (fun c hc => h1 c (List.mem_append_right _ hc)) (fun c hc => h1' c (List.mem_append_right _ hc)) (by omega) ?_, hq⟩
  rw [hq] at hv'
  omega

/-- Digits of which the first is not 0 are not fewer than others with the same value. -/
theorem digits_length {a b : CStr} (ha : ∀ c ∈ a, _root_.Spec.IsDigit c) (hb : ∀ c ∈ b, _root_.Spec.IsDigit c) (hb0 : b.head? ≠ some '0')
    (h : _root_.Spec.decimal a = _root_.Spec.decimal b) : b.length ≤ a.length := by
  cases b with
  | nil => simp
  | cons d b =>
    have h1 := decimal_ge (ds := b) (hb d (by simp)) (fun h => hb0 (by rw [h]; rfl))
    have h2 := decimal_lt ha
    rw [h] at h2
    have : 10 ^ b.length < 10 ^ a.length := Nat.lt_of_le_of_lt h1 h2
    have := (Nat.pow_lt_pow_iff_right (a := 10) (by decide)).1 this
    simp only [List.length_cons]
    omega

theorem digits_unique {a b : CStr} (ha : ∀ c ∈ a, _root_.Spec.IsDigit c) (hb : ∀ c ∈ b, _root_.Spec.IsDigit c) {n : Nat} (hla : n ≤ a.length) (hlb : n ≤ b.length)
    (ha0 : a.head? = some '0' → a.length = n) (hb0 : b.head? = some '0' → b.length = n)
    (h : _root_.Spec.decimal a = _root_.Spec.decimal b) : a = b := by
  refine decimal_inj ha hb ?_ h
  have h1 : b.length ≤ a.length := by
    by_cases h0 : b.head? = some '0'
    · rw [hb0 h0]; exact hla
    · exact digits_length ha hb h0 h
  have h2 : a.length ≤ b.length := by
    by_cases h0 : a.head? = some '0'
    · rw [ha0 h0]; exact hlb
    · exact digits_length hb ha h0 h.symm
  omega

theorem shown_unique {q : Rat} {t t' : CStr} (h : Shown q t) (h' : Shown q t') : t = t' := by
  cases h with
  | @plain m e ip fp t hn h1 h2 hp hz hv =>
    cases h' with
    | @plain m' e' ip' fp' t' hn' h1' h2' hp' hz' hv' =>
      obtain ⟨rfl, rfl⟩ := nearest_unique hn hn'
      have hv'' := hv.trans hv'.symm
      have key : fp = fp' ∧ _root_.Spec.decimal ip = _root_.Spec.decimal ip' := by
        rw [show (-(fp.length : Int)) = 0 - fp.length by omega, show (-(fp'.length : Int)) = 0 - fp'.length by omega] at hv''
        rcases Nat.le_total fp.length fp'.length with hl | hl
        · exact pointed_unique hp.1 hp'.1 hp'.2.2.1 hl hv''
        · obtain ⟨a, b⟩ := pointed_unique hp'.1 hp.1 hp.2.2.1 hl hv''.symm
          exact ⟨a.symm, b.symm⟩
      obtain ⟨rfl, hip⟩ := key
      have hlen : ∀ {i : CStr}, i ≠ [] → 1 ≤ i.length := fun {i} h => List.length_pos_iff.2 h
      have : ip = ip' := digits_unique (n := 1) (fun c hc => hp.1 c (List.mem_append_left _ hc)) (fun c hc => hp'.1 c (List.mem_append_left _ hc))
        (hlen hp.2.1) (hlen hp'.2.1) (fun h => by rw [hz h]; rfl) (fun h => by rw [hz' h]; rfl) hip
      subst this
      rw [hp.2.2.2, hp'.2.2.2]
    | @exponent m' e' c' fp' t' ex' hn' h1' =>
      obtain ⟨rfl, rfl⟩ := nearest_unique hn hn'
      omega
  | @exponent m e c fp t ex hn h1 hp hc hv hd hl hz hx =>
    cases h' with
    | @plain m' e' ip' fp' t' hn' h1' h2' hp' hz' hv' =>
      obtain ⟨rfl, rfl⟩ := nearest_unique hn hn'
      omega
    | @exponent m' e' c' fp' t' ex' hn' h1' hp' hc' hv' hd' hl' hz' hx' =>
      obtain ⟨rfl, rfl⟩ := nearest_unique hn hn'
      have hv'' := hv.trans hv'.symm
      have key : fp = fp' ∧ _root_.Spec.decimal [c] = _root_.Spec.decimal [c'] := by
        rcases Nat.le_total fp.length fp'.length with hl | hl
        · exact pointed_unique (ip := [c]) (ip' := [c']) hp.1 hp'.1 hp'.2.2.1 hl hv''
        · obtain ⟨a, b⟩ := pointed_unique (ip := [c']) (ip' := [c]) hp'.1 hp.1 hp.2.2.1 hl hv''.symm
          exact ⟨a.symm, b.symm⟩
      obtain ⟨rfl, hcc⟩ := key
      have hone : [c] = [c'] := decimal_inj (fun d h => hp.1 d (List.mem_append_left _ h)) (fun d h => hp'.1 d (List.mem_append_left _ h)) rfl hcc
      have hex : ex = ex' := digits_unique (n := 2) hd hd' hl hl' hz hz' (hx.trans hx'.symm)
      rw [hp.2.2.2, hp'.2.2.2, hone, hex]

theorem printed_unique {x : Dbl} {t t' : CStr} (h : Printed x t) (h' : Printed x t') : t = t' := by
  have irr : ∀ {q : Rat}, q < 0 → 0 < q → False := by intro q h1 h2; grind
  cases h with
  | pos h1 h2 =>
    cases h' with
    | zero => exact absurd h1 (by decide)
    | pos _ h2' => exact shown_unique h2 h2'
    | neg h1' => exact (irr h1' h1).elim
  | neg h1 h2 =>
    cases h' with
    | zero => exact absurd h1 (by decide)
    | pos h1' => exact (irr h1 h1').elim
    | neg _ h2' => rw [shown_unique h2 h2']
  | zero =>
    cases h' with
    | zero => rfl
    | pos h1' => exact absurd h1' (by decide)
    | neg h1' => exact absurd h1' (by decide)
  | nan | pinf | ninf | nzero => cases h'; rfl

theorem fmtG_iff {x : Dbl} (h : Valid x) {t : CStr} : Printed x t ↔ fmtG x = t :=
  ⟨fun h' => printed_unique (fmtG_printed h) h', fun h' => h' ▸ fmtG_printed h⟩

/- ### Whole numbers, and reading back -/

theorem shown_integer (n : Nat) (h0 : 0 < n) (h : n < 1000000) : Shown n (_root_.Spec.numeral n) := by
  have hlen : (Nat.toDigits 10 n).length ≤ 6 := (Nat.length_toDigits_le_iff (by decide) (by decide)).2 h
  have hpos := Nat.length_toDigits_pos (b := 10) (n := n)
  have hlo : 10 ^ ((Nat.toDigits 10 n).length - 1) ≤ n := by
    rcases Nat.lt_or_ge 1 (Nat.toDigits 10 n).length with hl | hl
    · have hle : ¬ (Nat.toDigits 10 n).length ≤ (Nat.toDigits 10 n).length - 1 := by omega
      rw [Nat.length_toDigits_le_iff (by decide) (by omega)] at hle
      omega
    · rw [show (Nat.toDigits 10 n).length - 1 = 0 by omega]; exact h0
  have hhi : n < 10 ^ (Nat.toDigits 10 n).length := by
    have := (Nat.length_toDigits_le_iff (b := 10) (n := n) (k := (Nat.toDigits 10 n).length) (by decide) hpos).1 (Nat.le_refl _)
    exact this
  have hdig := toDigits_digits n
  have hval := decimal_toDigits n
  unfold _root_.Spec.numeral
  generalize hl : (Nat.toDigits 10 n).length = l at *
  have hsix : SixDigits (n * 10 ^ (6 - l)) := by
    obtain ⟨j, hj⟩ : ∃ j, l = j + 1 := ⟨l - 1, by omega⟩
    subst hj
    constructor
    · have : 10 ^ (j + 1 - 1) * 10 ^ (6 - (j + 1)) ≤ n * 10 ^ (6 - (j + 1)) := Nat.mul_le_mul_right _ hlo
      rw [← Nat.pow_add, show j + 1 - 1 + (6 - (j + 1)) = 5 by omega] at this
      exact this
    · have : n * 10 ^ (6 - (j + 1)) < 10 ^ (j + 1) * 10 ^ (6 - (j + 1)) := Nat.mul_lt_mul_of_pos_right hhi (Nat.pow_pos (by decide))
      rw [← Nat.pow_add, show j + 1 + (6 - (j + 1)) = 6 by omega] at this
      exact this
  have hsc : scaled (n * 10 ^ (6 - l)) (l - 1) = n := by
    rw [scaled_eq, show ((l : Int) - 1 - 5) = 0 - ((6 - l : Nat) : Int) by omega, pow10_sub_nat, show (0 : Int) = ((0 : Nat) : Int) from rfl, pow10_ofNat,
      Rat.natCast_mul, Rat.natCast_pow]
    have := ten_pow_ne (6 - l)
    have h10 : ((10 : Nat) : Rat) = 10 := rfl
    rw [h10, Rat.pow_zero]
    grind
  have hnear : Nearest n (n * 10 ^ (6 - l)) (l - 1) := by
    refine ⟨hsix, fun m k _ => ?_⟩
    rw [hsc]
    have hg : gap (n : Rat) n = 0 := by unfold gap; grind
    rw [hg]
    unfold gap
    constructor
    · grind
    · intro h1 h2
      exfalso
      grind
  refine .plain (ip := Nat.toDigits 10 n) (fp := []) hnear (by omega) (by omega) ⟨by simpa using hdig, ?_, by simp, by simp⟩ ?_ ?_
  · intro h0; rw [h0] at hl; simp at hl; omega
  · intro hz
    exfalso
    generalize Nat.toDigits 10 n = ds at *
    cases ds with
    | nil => simp at hl; omega
    | cons c ds =>
      simp only [List.head?_cons, Option.some.injEq] at hz
      refine head_not_zero hdig ?_ hz
      rw [hval]
      simp only [List.length_cons] at hl
      rw [show ds.length = l - 1 by omega]
      exact hlo
  · rw [hsc, List.append_nil, hval, List.length_nil, power_ten, show (-((0 : Nat) : Int)) = ((0 : Nat) : Int) from rfl, pow10_ofNat, Rat.pow_zero, Rat.mul_one]

theorem pointed_mantissa {ip fp t : CStr} (h : Pointed ip fp t) : Mantissa _root_.Spec.IsDigit t ip fp := by
  refine ⟨h.1, by simp [h.2.1], ?_⟩
  rw [h.2.2.2]
  split
  · rename_i h0; exact .inl ⟨rfl, h0⟩
  · exact .inr rfl

theorem pointed_head {ip fp t u : CStr} (h : Pointed ip fp t) : ∃ c cs, t ++ u = c :: cs ∧ (_root_.Spec.IsDigit c ∨ c = '.') := by
  obtain ⟨h1, h2, h3, h4⟩ := h
  match ip, h2 with
  | c :: ip, _ =>
    refine ⟨c, (if fp = [] then ip else ip ++ '.' :: fp) ++ u, ?_, .inl (h1 c (by simp))⟩
    rw [h4]; split <;> simp

theorem shown_back {q : Rat} {t : CStr} (h : Shown q t) : ∃ m e, Nearest q m e ∧ ∀ y, Rounded (scaled m e) y → Numeric t y := by
  have whole : ∀ {t y}, NumberText t y → Numeric t y := fun {t y} h => ⟨[], t, [], by simp, nofun, nofun, h⟩
  cases h with
  | @plain m e ip fp t hn h1 h2 hp hz hv =>
    refine ⟨m, e, hn, fun y hy => whole (.plain ?_ ?_)⟩
    · have := Unsigned.decimal (y := y) (t := []) (e := 0) (pointed_mantissa hp) (.inl ⟨rfl, rfl⟩) (by rw [show (0 : Int) - fp.length = -fp.length by omega, hv]; exact hy)
      simpa using this
    · have := pointed_head (u := []) hp
      simpa using this
  | @exponent m e c fp t ex hn h1 hp hc hv hd hl hz hx =>
    refine ⟨m, e, hn, fun y hy => whole (.plain ?_ (pointed_head hp))⟩
    refine .decimal (e := e) (pointed_mantissa hp) (.inr ⟨'e', ex, by decide, fun h0 => by rw [h0] at hl; simp at hl, hd, .inr ?_⟩) ?_
    · rcases Int.lt_or_le e 0 with h0 | h0
      · exact .inr ⟨by simp [h0], by omega⟩
      · exact .inl ⟨by simp [Int.not_lt.2 h0], by omega⟩
    · exact (show ((_root_.Spec.decimal ([c] ++ fp) : Nat) : Rat) * power 10 (e - fp.length) = scaled m e from hv) ▸ hy

end Dbl
end LB
