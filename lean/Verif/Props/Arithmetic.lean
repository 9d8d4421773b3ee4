import Verif.Proofs.Arith
import Verif.Proofs.Branches
import Verif.Proofs.Demo
/- C53: arithmetic on numbers is that of IEEE 754 doubles. -/
namespace LB
open LB.Spec

/-- The result IEEE 754 gives for an operator; that of `^` is left to the library. -/
def Spec.Result : Arith → Dbl → Dbl → Dbl → Prop
  | .add, x, y, z => Sum x y z
  | .sub, x, y, z => ∃ y', Opposite y y' ∧ Sum x y' z
  | .mul, x, y, z => Product x y z
  | .div, x, y, z => Quotient x y z
  | .pow, _, _, _ => True

/-- C53.  An arithmetic operator takes its right operand from the top of the stack and the left one from below it, and
leaves what IEEE 754 gives for them: the double nearest to the exact result, of two equally near ones that with the even
last bit, an infinity if the result is too large, NaN where there is no result. -/
theorem C53_operator (env : Env) (vm : VM) (o : Arith) (x y : Dbl) (rest : List Dbl) (hat : At vm (.arith o))
    (hs : vm.stack = y :: x :: rest) (hroom : vm.stack.length ≤ 16) (hx : Valid x) (hy : Valid y) :
    ∃ z, V.execute env vm = .ok () { vm with stack := z :: rest, cs := following vm.cs } ∧ Spec.Result o x y z ∧
      (o ≠ .pow → Valid z) ∧ (o = .pow → z = env.pow x y) := by
  have hr : ¬ rest.length ≥ maxNumStack := by rw [hs] at hroom; simp [maxNumStack] at hroom ⊢; omega
  refine ⟨V.arithOp env o x y, ?_, ?_⟩
  · rw [V.execute_at env hat]
    simp only [V.exec, V.brk_apply, V.bind_apply, V.pop, hs, V.push, hr, if_false]
  · cases o with
    | add =>
      have := Dbl.add_sum x y hx hy
      exact ⟨this, fun _ => Dbl.sum_valid this, fun h => (by cases h)⟩
    | sub =>
      have := Dbl.add_sum x (Dbl.neg y) hx (Dbl.valid_neg hy)
      exact ⟨⟨_, Dbl.neg_opposite y, this⟩, fun _ => Dbl.sum_valid this, fun h => (by cases h)⟩
    | mul =>
      have := Dbl.mul_product x y
      exact ⟨this, fun _ => Dbl.product_valid this, fun h => (by cases h)⟩
    | div =>
      have := Dbl.div_quotient x y
      exact ⟨this, fun _ => Dbl.quotient_valid this, fun h => (by cases h)⟩
    | pow => exact ⟨trivial, fun h => absurd rfl h, fun _ => rfl⟩

example : At (Demo.machine [.arith .sub] []) (.arith .sub) ∧ Valid (.fin (1/2)) ∧ ¬ Valid (.fin (1/3)) ∧
    Spec.Result .sub (.fin 1) (.fin (1/2)) (.fin (1/2)) ∧ ¬ Spec.Result .sub (.fin (1/2)) (.fin 1) (.fin (1/2)) := by
  have h1 : IsDouble 1 := ⟨1, 0, by decide, by decide, by decide, by decide +kernel⟩
  have h2 : IsDouble (1/2) := ⟨1, -1, by decide, by decide, by decide, by decide +kernel⟩
  refine ⟨⟨.stored, _, rfl, rfl, rfl⟩, h2, ?_, ?_, ?_⟩
  · rintro ⟨m, e, -, -, -, h⟩
    have hp := Dbl.pow2_pos e
    rw [power_two] at h
    rcases Int.le_total 0 e with he | he
    · rw [Dbl.pow2_nonneg_eq e he] at h
      have h' : (1 : Rat) = ((3 * (m * 2 ^ e.toNat) : Int) : Rat) := by
        rw [Rat.intCast_mul, Rat.intCast_mul, Dbl.castPow]
        have : ((3 : Int) : Rat) = 3 := rfl
        grind
      have := Rat.intCast_inj.1 (show ((1 : Int) : Rat) = _ from h')
      omega
    · obtain ⟨k, rfl⟩ : ∃ k : Nat, e = -(k : Int) := ⟨(-e).toNat, by omega⟩
      rw [Dbl.pow2_neg_eq] at h
      have hk := Dbl.two_pow_pos k
      have h' : (((2 : Int) ^ k : Int) : Rat) = ((3 * m : Int) : Rat) := by
        rw [Rat.intCast_mul, Dbl.castPow]
        have : ((3 : Int) : Rat) = 3 := rfl
        have hne : (2 : Rat) ^ k ≠ 0 := by intro h; rw [h] at hk; exact absurd hk (by decide)
        grind
      have h3 := Rat.intCast_inj.1 h'
      have h4 : ∀ k : Nat, (2 : Int) ^ k % 3 ≠ 0 := by
        intro k
        induction k with
        | zero => decide
        | succ k ih => rw [Int.pow_succ]; omega
      exact h4 k (by omega)
  · exact ⟨_, Dbl.neg_opposite _, by
      have := Dbl.add_sum (.fin 1) (Dbl.neg (.fin (1/2))) h1 (Dbl.valid_neg h2)
      rwa [show Dbl.add (.fin 1) (Dbl.neg (.fin (1/2))) = .fin (1/2) by decide +kernel] at this⟩
  · rintro ⟨y', ho, hsum⟩
    rw [Dbl.opposite_eq ho] at hsum
    have := Dbl.sum_eq (x := .fin (1/2)) h2 (Dbl.valid_neg (x := .fin 1) h1) hsum
    exact absurd this (by decide +kernel)

/-- C53.  There is no choice in this: operands that are doubles have one sum, difference, product and quotient. -/
theorem C53_unique (o : Arith) (x y z z' : Dbl) (ho : o ≠ .pow) (hx : Valid x) (hy : Valid y)
    (h : Spec.Result o x y z) (h' : Spec.Result o x y z') : z = z' := by
  cases o with
  | add => rw [Dbl.sum_eq hx hy h, Dbl.sum_eq hx hy h']
  | sub =>
    obtain ⟨a, ha, h⟩ := h
    obtain ⟨b, hb, h'⟩ := h'
    rw [Dbl.opposite_eq ha] at h
    rw [Dbl.opposite_eq hb] at h'
    rw [Dbl.sum_eq hx (Dbl.valid_neg hy) h, Dbl.sum_eq hx (Dbl.valid_neg hy) h']
  | mul => rw [Dbl.product_eq h, Dbl.product_eq h']
  | div => rw [Dbl.quotient_eq h, Dbl.quotient_eq h']
  | pow => exact absurd rfl ho

/-- C53.  Unary minus gives the number of the same magnitude with the other sign. -/
theorem C53_minus (env : Env) (vm : VM) (x : Dbl) (rest : List Dbl) (hat : At vm .neg) (hs : vm.stack = x :: rest)
    (hroom : vm.stack.length ≤ 16) :
    ∃ z, V.execute env vm = .ok () { vm with stack := z :: rest, cs := following vm.cs } ∧ Opposite x z ∧
      (Valid x → Valid z) ∧ ∀ z', Opposite x z' → z' = z := by
  have hr : ¬ rest.length ≥ maxNumStack := by rw [hs] at hroom; simp [maxNumStack] at hroom ⊢; omega
  refine ⟨Dbl.neg x, ?_, Dbl.neg_opposite x, Dbl.valid_neg, fun z' h => Dbl.opposite_eq h⟩
  rw [V.execute_at env hat]
  simp only [V.exec, V.brk_apply, V.bind_apply, V.pop, hs, V.push, hr, if_false]

example : Opposite (.fin 3) (.fin (-3)) ∧ Opposite (.fin 0) .nzero ∧ ¬ Opposite (.fin 0) (.fin 0) := by
  refine ⟨?_, ?_, ?_⟩
  · have := Dbl.neg_opposite (.fin 3); rwa [show Dbl.neg (.fin 3) = .fin (-3) by decide +kernel] at this
  · exact Dbl.neg_opposite (.fin 0)
  · intro h; exact absurd (Dbl.opposite_eq h) (by decide +kernel)

/-- C53.  Every exact value has one rounding; the number of a program line and the result of an operator are such
roundings. -/
theorem C53_rounding (q : Rat) : ∃ x, Rounded q x ∧ ∀ y, Rounded q y → y = x :=
  ⟨Dbl.rnd q, Dbl.rnd_rounded q, fun _ h => Dbl.rounded_unique h (Dbl.rnd_rounded q)⟩

/-- C53.  Comparisons are those of IEEE 754: the zeros are equal, NaN is unordered. -/
theorem C53_compare (env : Env) (vm : VM) (r : Rel) (x y : Dbl) (rest : List Dbl) (hat : At vm (.cmpNum r))
    (hs : vm.stack = y :: x :: rest) (hroom : vm.stack.length ≤ 16) :
    ∃ z, V.execute env vm = .ok () { vm with stack := z :: rest, cs := following vm.cs } ∧ (z = .fin (-1) ∨ z = .fin 0) ∧
      (z = .fin (-1) ↔ match r with
        | .eq => Equal x y
        | .ne => ¬ Equal x y
        | .lt => Less x y
        | .gt => Less y x
        | .le => Less x y ∨ Equal x y
        | .ge => Less y x ∨ Equal y x) := by
  have hr : ¬ rest.length ≥ maxNumStack := by rw [hs] at hroom; simp [maxNumStack] at hroom ⊢; omega
  refine ⟨if V.relNum r x y then .fin (-1) else .fin 0, ?_, ?_, ?_⟩
  · rw [V.execute_at env hat]
    simp only [V.exec, V.brk_apply, V.bind_apply, V.pop, hs, V.pushLogic, V.push, hr, if_false]
  · split
    · exact .inl rfl
    · exact .inr rfl
  · have hne : (Dbl.fin 0) ≠ .fin (-1) := by decide +kernel
    have key : ∀ b : Bool, (if b = true then Dbl.fin (-1) else .fin 0) = .fin (-1) ↔ b = true := by
      intro b
      cases b
      · exact ⟨fun h => absurd h hne, fun h => (by cases h)⟩
      · exact ⟨fun _ => rfl, fun _ => rfl⟩
    rw [key]
    cases r <;> simp only [V.relNum, Dbl.ne, Dbl.le, Bool.not_eq_true', Bool.or_eq_true, ← Dbl.lt_iff, ← Dbl.eq_iff,
      Bool.not_eq_true]

example : Less .ninf (.fin (-5)) ∧ Less (.fin (-5)) .nzero ∧ Equal .nzero (.fin 0) ∧ ¬ Less .nan (.fin 0) ∧
    ¬ Less (.fin 0) .nan ∧ ¬ Equal .nan .nan ∧ Less (.fin 7) .pinf := by
  simp only [← Dbl.lt_iff, ← Dbl.eq_iff]
  decide +kernel

set_option maxRecDepth 100000 in
example : Demo.shows "A=1E308*10:PRINT A;-A;1/A;-A*A;-A*-A;-1/A;1/0;-1/0;1/(-1/A)\nPRINT .1+.2=.3;.5+.25=.75\n" =
    .ok ">  inf  -inf  0  -inf  inf  -0  inf  -inf  -inf \n>  0  -1 \n".toList := by decide +kernel

end LB
