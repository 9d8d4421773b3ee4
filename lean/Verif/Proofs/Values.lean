import Verif.Proofs.Branches
import Verif.Proofs.Num
import Verif.Spec.Values
/- Lemmas on counts, logical operands and comparisons. -/
namespace LB
open Spec
namespace V

theorem rat_int_lt {a : Int} {q : Rat} (b : Int) (hq : q = b) : (a : Rat) < q ↔ a < b := by
  subst hq; exact Rat.intCast_lt_intCast

theorem lt_int {k m : Int} : Dbl.lt (.fin k) (.fin m) = decide (k < m) := by
  simp [Dbl.lt, Rat.intCast_lt_intCast]

theorem toNat_int {k : Nat} : Dbl.toNat (.fin ((k : Int) : Rat)) = k := by
  simp only [Dbl.toNat, Rat.floor_intCast]; omega

theorem toInt_int (k : Int) : Dbl.toInt (.fin (k : Rat)) = k := by
  simp only [Dbl.toInt]
  have h : -(k : Rat) = ((-k : Int) : Rat) := by rw [Rat.intCast_neg]
  split
  · rw [h, Rat.floor_intCast]; omega
  · exact Rat.floor_intCast k

theorem floor_ne_comm (x : Dbl) : Dbl.ne (Dbl.floor x) x = Dbl.ne x (Dbl.floor x) := by
  cases x <;> simp [Dbl.ne, Dbl.floor, Dbl.eq, eq_comm]

theorem isCount_cases (x : Dbl) :
    (∃ n, IsCount x n ∧ notNatural x = false ∧ aboveUnsigned x = false ∧ Dbl.toNat x = n) ∨
    ((∀ n, ¬ IsCount x n) ∧ (notNatural x = true ∨ aboveUnsigned x = true)) := by
  by_cases hx : notNatural x = true
  · refine .inr ⟨?_, .inl hx⟩
    rintro n ⟨hn, -⟩
    simp only [notNatural, floor_ne_comm] at hx
    rw [(ne_floor_iff x).2 (.inl ⟨_, hn⟩)] at hx
    rcases hn with rfl | ⟨rfl, -⟩
    · have := lt_int (k := n) (m := 0)
      rw [show ((0 : Int) : Rat) = 0 from rfl] at this
      simp [this] at hx
      omega
    · exact absurd hx (by decide +kernel)
  · have hx' : notNatural x = false := by simpa using hx
    simp only [notNatural, floor_ne_comm, Bool.or_eq_false_iff] at hx'
    rcases (ne_floor_iff x).1 hx'.2 with ⟨k, hk⟩ | rfl | rfl
    · by_cases ha : aboveUnsigned x = true
      · refine .inr ⟨?_, .inr ha⟩
        rintro n ⟨hn, hle⟩
        rcases hn with rfl | ⟨rfl, -⟩
        · have := lt_int (k := 4294967295) (m := n)
          simp only [aboveUnsigned] at ha
          rw [show ((4294967295 : Int) : Rat) = 4294967295 from rfl] at this
          rw [this] at ha
          simp at ha; omega
        · exact absurd ha (by decide +kernel)
      · have ha' : aboveUnsigned x = false := by simpa using ha
        rcases hk with rfl | ⟨rfl, rfl⟩
        · have h1 := lt_int (k := k) (m := 0)
          rw [show ((0 : Int) : Rat) = 0 from rfl, hx'.1] at h1
          have h2 := lt_int (k := 4294967295) (m := k)
          rw [show ((4294967295 : Int) : Rat) = 4294967295 from rfl] at h2
          rw [show Dbl.lt (.fin 4294967295) (.fin k) = false from ha'] at h2
          simp at h1 h2
          obtain ⟨n, rfl⟩ := Int.eq_ofNat_of_zero_le h1
          exact .inl ⟨n, ⟨.inl rfl, by omega⟩, by simpa using hx, ha', toNat_int⟩
        · exact .inl ⟨0, ⟨.inr ⟨rfl, rfl⟩, by omega⟩, by simpa using hx, ha', rfl⟩
    · exact .inr ⟨(by rintro n ⟨h | ⟨h, -⟩, -⟩ <;> cases h), .inr rfl⟩
    · exact absurd hx'.1 (by decide)

theorem isInt_unique {x : Dbl} {k m : Int} (h : IsInt x k) (h' : IsInt x m) : k = m := by
  rcases h with rfl | ⟨rfl, rfl⟩ <;> rcases h' with h' | ⟨h', rfl⟩
  · have : (k : Rat) = m := by simpa using h'
    exact_mod_cast this
  · cases h'
  · cases h'
  · rfl

theorem popUnsigned_count {vm : VM} {x : Dbl} {n : Nat} {rest : List Dbl} (hs : vm.stack = x :: rest) (h : IsCount x n) :
    popUnsigned vm = .ok n { vm with stack := rest } := by
  rcases isCount_cases x with ⟨m, hm, h1, h2, h3⟩ | ⟨h1, -⟩
  · have : m = n := by have := isInt_unique hm.1 h.1; omega
    subst this
    simp [popUnsigned, pop, hs, h1, h2, h3]
  · exact absurd h (h1 n)

theorem popUnsigned_other {vm : VM} {x : Dbl} {rest : List Dbl} (hs : vm.stack = x :: rest) (h : ∀ n, ¬ IsCount x n) :
    ∃ e, (e = .notNonNegative ∨ e = .outOfRange) ∧ popUnsigned vm = .err e { vm with stack := rest } := by
  rcases isCount_cases x with ⟨m, hm, -⟩ | ⟨-, h2⟩
  · exact absurd hm (h m)
  · by_cases hx : notNatural x = true
    · exact ⟨_, .inl rfl, by simp [popUnsigned, pop, hs, hx]⟩
    · refine ⟨_, .inr rfl, by simp [popUnsigned, pop, hs, hx, h2.resolve_left hx]⟩

theorem popIndex_count {vm : VM} {x : Dbl} {n : Nat} {rest : List Dbl} (hs : vm.stack = x :: rest) (h : IsCount x n) :
    popIndex vm = .ok n { vm with stack := rest } := by
  rcases isCount_cases x with ⟨m, hm, h1, h2, h3⟩ | ⟨h1, -⟩
  · have : m = n := by have := isInt_unique hm.1 h.1; omega
    subst this
    simp [popIndex, pop, hs, h1, h2, h3]
  · exact absurd h (h1 n)

theorem popIndex_other {vm : VM} {x : Dbl} {rest : List Dbl} (hs : vm.stack = x :: rest) (h : ∀ n, ¬ IsCount x n) :
    ∃ e, (e = .indexNotNonNegative ∨ e = .indexOutOfRange) ∧ popIndex vm = .err e { vm with stack := rest } := by
  rcases isCount_cases x with ⟨m, hm, -⟩ | ⟨-, h2⟩
  · exact absurd hm (h m)
  · by_cases hx : notNatural x = true
    · exact ⟨_, .inl rfl, by simp [popIndex, pop, hs, hx]⟩
    · refine ⟨_, .inr rfl, by simp [popIndex, pop, hs, hx, h2.resolve_left hx]⟩

theorem popIndexLoop_other {xs rest : List Dbl} : ∀ {vm : VM}, vm.stack = xs ++ rest → (∃ x ∈ xs, ∀ n, ¬ IsCount x n) →
    ∃ e r, (e = .indexNotNonNegative ∨ e = .indexOutOfRange) ∧ popIndexLoop xs.length vm = .err e { vm with stack := r } := by
  induction xs with
  | nil => rintro vm - ⟨x, hx, -⟩; cases hx
  | cons y ys ih =>
    intro vm hs hex
    by_cases hy : ∃ n, IsCount y n
    · obtain ⟨n, hy⟩ := hy
      have hex' : ∃ x ∈ ys, ∀ n, ¬ IsCount x n := by
        obtain ⟨x, hx, hc⟩ := hex
        rcases List.mem_cons.1 hx with rfl | hx
        · exact absurd hy (hc n)
        · exact ⟨x, hx, hc⟩
      obtain ⟨e, r, he, h⟩ := ih (vm := { vm with stack := ys ++ rest }) rfl hex'
      refine ⟨e, r, he, ?_⟩
      simp only [List.length_cons, popIndexLoop, bind_apply, popIndex_count (rest := ys ++ rest) hs hy, h]
    · obtain ⟨e, he, h⟩ := popIndex_other (rest := ys ++ rest) hs (fun n hn => hy ⟨n, hn⟩)
      refine ⟨e, ys ++ rest, he, ?_⟩
      simp only [List.length_cons, popIndexLoop, bind_apply, h]

theorem popIndexes_other {n : Nat} {xs rest : List Dbl} {vm : VM} (hs : vm.stack = xs ++ rest) (hn : xs.length = n)
    (hd : n ≤ maxDimensions) (hex : ∃ x ∈ xs, ∀ n, ¬ IsCount x n) :
    ∃ e r, (e = .indexNotNonNegative ∨ e = .indexOutOfRange) ∧ popIndexes n vm = .err e { vm with stack := r } := by
  obtain ⟨e, r, he, h⟩ := popIndexLoop_other hs hex
  subst hn
  exact ⟨e, r, he, by simp [popIndexes, hd, h]⟩

theorem popIndexLoop_counts {xs rest : List Dbl} {ns : List Nat} : ∀ {vm : VM}, vm.stack = xs ++ rest →
    AreCounts xs ns → popIndexLoop xs.length vm = .ok ns { vm with stack := rest } := by
  induction xs generalizing ns with
  | nil => intro vm hs h; cases ns with
    | nil => simp only [List.nil_append] at hs; simp [popIndexLoop, ← hs]
    | cons n ns => exact absurd h id
  | cons y ys ih =>
    intro vm hs h
    cases ns with
    | nil => exact absurd h id
    | cons n ns =>
      obtain ⟨hy, h⟩ := h
      have := ih (vm := { vm with stack := ys ++ rest }) rfl h
      simp only [List.length_cons, popIndexLoop, bind_apply, popIndex_count (rest := ys ++ rest) hs hy, this, pure_apply]

theorem popIndexes_counts {n : Nat} {xs rest : List Dbl} {ns : List Nat} {vm : VM} (hs : vm.stack = xs ++ rest) (hn : xs.length = n)
    (hd : n ≤ maxDimensions) (h : AreCounts xs ns) : popIndexes n vm = .ok ns { vm with stack := rest } := by
  subst hn
  simp [popIndexes, hd, popIndexLoop_counts hs h]

theorem isWord_cases (x : Dbl) :
    (∃ k, IsWord x k ∧ badLogic x = false ∧ Dbl.toInt x = k) ∨ ((∀ k, ¬ IsWord x k) ∧ badLogic x = true) := by
  have hlow : ∀ k : Int, Dbl.lt (.fin k) (.fin (-2147483648)) = decide (k < -2147483648) := fun k => by
    have := lt_int (k := k) (m := -2147483648)
    rwa [show ((-2147483648 : Int) : Rat) = -2147483648 from rfl] at this
  have hhigh : ∀ k : Int, Dbl.lt (.fin 2147483647) (.fin k) = decide (2147483647 < k) := fun k => by
    have := lt_int (k := 2147483647) (m := k)
    rwa [show ((2147483647 : Int) : Rat) = 2147483647 from rfl] at this
  by_cases hi : Dbl.ne x (Dbl.floor x) = false
  · rcases (ne_floor_iff x).1 hi with ⟨k, hk⟩ | rfl | rfl
    · rcases hk with rfl | ⟨rfl, rfl⟩
      · by_cases hk : -2147483648 ≤ k ∧ k ≤ 2147483647
        · refine .inl ⟨k, ⟨.inl rfl, hk⟩, ?_, toInt_int k⟩
          simp only [badLogic, hlow, hhigh, hi, Bool.or_eq_false_iff, decide_eq_false_iff_not, and_true]
          omega
        · refine .inr ⟨?_, ?_⟩
          · rintro m ⟨hm, h1, h2⟩
            have := isInt_unique (.inl rfl) hm
            subst this
            omega
          · simp only [badLogic, hlow, hhigh, hi, Bool.or_eq_true, decide_eq_true_eq, Bool.false_eq_true, or_false]
            omega
      · exact .inl ⟨0, ⟨.inr ⟨rfl, rfl⟩, by omega⟩, by decide +kernel, rfl⟩
    · exact .inr ⟨(by rintro n ⟨h | ⟨h, -⟩, -⟩ <;> cases h), rfl⟩
    · exact .inr ⟨(by rintro n ⟨h | ⟨h, -⟩, -⟩ <;> cases h), rfl⟩
  · refine .inr ⟨?_, ?_⟩
    · rintro m ⟨hm, -⟩
      exact hi ((ne_floor_iff x).2 (.inl ⟨m, hm⟩))
    · simp [badLogic, hi]

theorem popLogic_word {vm : VM} {x : Dbl} {k : Int} {rest : List Dbl} (hs : vm.stack = x :: rest) (h : IsWord x k) :
    popLogic vm = .ok k { vm with stack := rest } := by
  rcases isWord_cases x with ⟨m, hm, h1, h3⟩ | ⟨h1, -⟩
  · have : m = k := isInt_unique hm.1 h.1
    subst this
    simp [popLogic, pop, hs, h1, h3]
  · exact absurd h (h1 k)

theorem popLogic_other {vm : VM} {x : Dbl} {rest : List Dbl} (hs : vm.stack = x :: rest) (h : ∀ k, ¬ IsWord x k) :
    popLogic vm = .err .invalidLogical { vm with stack := rest } := by
  rcases isWord_cases x with ⟨m, hm, -⟩ | ⟨-, h2⟩
  · exact absurd hm (h m)
  · simp [popLogic, pop, hs, h2]

/-! Strings. -/

theorem char_lt (a b : Char) : a < b ↔ a.toNat < b.toNat := Iff.rfl

theorem strcmp_spec (s t : CStr) : (strcmp s t < 0 ↔ s < t) ∧ (strcmp s t = 0 ↔ s = t) ∧ (strcmp s t > 0 ↔ t < s) := by
  induction s generalizing t with
  | nil => cases t <;> simp [strcmp]
  | cons a s ih =>
    cases t with
    | nil => simp [strcmp]
    | cons b t =>
      simp only [strcmp]
      have ht := ih t
      rw [List.cons_lt_cons_iff, List.cons_lt_cons_iff, char_lt, char_lt]
      by_cases hab : a = b
      · subst hab
        simp [ht]
      · have : a.toNat ≠ b.toNat := fun h => hab (Char.toNat_inj.1 h)
        have hd : (a.toNat : Int) - (b.toNat : Int) ≠ 0 := by omega
        simp only [ne_eq, hd, not_false_eq_true, if_true, hab, Ne.symm hab, false_and, or_false, List.cons.injEq]
        refine ⟨by omega, by simp, by omega⟩

theorem relStr_spec (r : Rel) (s t : CStr) : relStr r (strcmp s t) = true ↔ relStrings r s t := by
  obtain ⟨h1, h2, h3⟩ := strcmp_spec s t
  cases r
  · simp [relStr, relStrings, h2]
  · simp [relStr, relStrings, h1]
  · simp only [relStr, relStrings, decide_eq_true_eq, h3]
  · simp [relStr, relStrings, h2]
  · simp only [relStr, relStrings, decide_eq_true_eq, ← h1, ← h2]; omega
  · simp only [relStr, relStrings, decide_eq_true_eq, ← h3, ← h2]; omega

/-! Bits. -/

theorem bit_nat (n i : Nat) : bit (n : Int) i = n.testBit i := by
  rw [Nat.testBit_eq_decide_div_mod_eq]
  unfold bit
  have : (n : Int) / 2 ^ i % 2 = ((n / 2 ^ i % 2 : Nat) : Int) := by simp
  rw [this]
  congr 1
  exact propext (by omega)

theorem bit_toInt (v : BitVec 32) (i : Nat) : bit v.toInt i = if i < 32 then v.getLsbD i else v.msb := by
  have hlt := v.isLt
  have hmsb : v.msb = decide (2 ^ 31 ≤ v.toNat) := by
    rw [BitVec.msb_eq_decide]
  rw [BitVec.toInt_eq_toNat_cond]
  split
  · rename_i h
    rw [bit_nat, BitVec.testBit_toNat]
    split
    · rfl
    · rw [BitVec.getLsbD_of_ge v i (by omega), hmsb]
      simp; omega
  · rename_i h
    split
    · rename_i hi
      have e : ((v.toNat : Int) - ((2 ^ 32 : Nat) : Int)) / 2 ^ i = (v.toNat : Int) / 2 ^ i - 2 ^ (32 - i) := by
        have h2 : ((2 ^ 32 : Nat) : Int) = 2 ^ (32 - i) * 2 ^ i := by
          rw [← Int.pow_add, show 32 - i + i = 32 by omega]; rfl
        rw [h2]
        have hne : (2 : Int) ^ i ≠ 0 := by
          have : (0 : Int) < 2 ^ i := Int.pow_pos (by decide)
          omega
        rw [Int.sub_ediv_of_dvd _ (Int.dvd_mul_left _ _), Int.mul_ediv_cancel _ hne]
      rw [← BitVec.testBit_toNat, ← bit_nat]
      unfold bit
      rw [e]
      have h3 : (2 : Int) ^ (32 - i) = 2 * 2 ^ (31 - i) := by
        rw [show 32 - i = (31 - i) + 1 by omega, Int.pow_succ]; omega
      rw [h3]
      congr 1
      exact propext (by omega)
    · rename_i hi
      have hp : (2 : Int) ^ 32 ≤ 2 ^ i := by
        have : 2 ^ 32 ≤ 2 ^ i := Nat.pow_le_pow_right (by decide) (by omega)
        exact_mod_cast this
      have e : ((v.toNat : Int) - ((2 ^ 32 : Nat) : Int)) / 2 ^ i = -1 := by
        have h2 : ((2 ^ 32 : Nat) : Int) = 2 ^ 32 := rfl
        rw [h2]
        have : (0:Int) < 2 ^ i := by omega
        have hx : -(2 : Int) ^ i ≤ (v.toNat : Int) - 2 ^ 32 ∧ (v.toNat : Int) - 2 ^ 32 < 0 := by omega
        generalize (v.toNat : Int) - 2 ^ 32 = x at hx
        exact ((Int.ediv_emod_unique this (r := x + 2 ^ i)).2 ⟨by omega, by omega, by omega⟩).1
      unfold bit
      rw [e, hmsb]
      simp; omega

theorem toInt_ofInt_word {a : Int} (h : -2147483648 ≤ a ∧ a ≤ 2147483647) : (BitVec.ofInt 32 a).toInt = a := by
  rw [BitVec.toInt_ofInt]
  simp only [Int.bmod]
  omega

theorem toInt_word (v : BitVec 32) : -2147483648 ≤ v.toInt ∧ v.toInt ≤ 2147483647 := by
  have h1 := BitVec.le_toInt v
  have h2 := BitVec.toInt_lt (x := v)
  simp at h1 h2
  omega

theorem andInt_spec {a b : Int} (ha : -2147483648 ≤ a ∧ a ≤ 2147483647) (hb : -2147483648 ≤ b ∧ b ≤ 2147483647) :
    ∀ i, bit (andInt a b) i = (bit a i && bit b i) := by
  intro i
  have h1 := bit_toInt (BitVec.ofInt 32 a) i
  have h2 := bit_toInt (BitVec.ofInt 32 b) i
  rw [toInt_ofInt_word ha] at h1
  rw [toInt_ofInt_word hb] at h2
  rw [andInt, bit_toInt, h1, h2]
  split <;> simp

theorem orInt_spec {a b : Int} (ha : -2147483648 ≤ a ∧ a ≤ 2147483647) (hb : -2147483648 ≤ b ∧ b ≤ 2147483647) :
    ∀ i, bit (orInt a b) i = (bit a i || bit b i) := by
  intro i
  have h1 := bit_toInt (BitVec.ofInt 32 a) i
  have h2 := bit_toInt (BitVec.ofInt 32 b) i
  rw [toInt_ofInt_word ha] at h1
  rw [toInt_ofInt_word hb] at h2
  rw [orInt, bit_toInt, h1, h2]
  split <;> simp

theorem notInt_eq {a : Int} (ha : -2147483648 ≤ a ∧ a ≤ 2147483647) : notInt a = -a - 1 := by
  rw [notInt, BitVec.toInt_not]
  have : ((BitVec.ofInt 32 a).toNat : Int) = a % 2 ^ 32 := by
    rw [BitVec.toNat_ofInt]
    omega
  rw [this]
  simp only [Int.bmod]
  omega

/-- An integer is determined by its bits. -/
theorem bits_determine {a b : Int} (h : ∀ i, bit a i = bit b i) : a = b := by
  have step : ∀ n : Nat, ∀ a b : Int, (∀ i, bit a i = bit b i) → a.natAbs + b.natAbs ≤ n → a = b := by
    intro n
    induction n with
    | zero => intro a b _ hn; omega
    | succ n ih =>
      intro a b h hn
      have h0 := h 0
      simp only [bit, Int.pow_zero, Int.ediv_one, decide_eq_decide] at h0
      have hs : ∀ c : Int, ∀ i, bit c (i + 1) = bit (c / 2) i := by
        intro c i
        simp only [bit]
        rw [Int.pow_succ, Int.mul_comm, Int.ediv_ediv_of_nonneg (by decide)]
      by_cases hsame : a = b
      · exact hsame
      by_cases hsmall : (a = 0 ∨ a = -1) ∧ (b = 0 ∨ b = -1)
      · omega
      · have := ih (a / 2) (b / 2) (fun i => by rw [← hs, ← hs]; exact h (i + 1)) (by omega)
        omega
  exact step _ a b h (Nat.le_refl _)

end V
end LB
