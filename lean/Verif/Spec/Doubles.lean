import Verif.Model.Num
/- What it means to round an exact result to a double (IEEE 754 binary64). -/
namespace LB.Spec

/-- `b` to the power `e`, for any integer `e`. -/
def power (b : Nat) (e : Int) : Rat := if 0 ≤ e then (b : Rat) ^ e.toNat else 1 / (b : Rat) ^ (-e).toNat

/-- The distance of two numbers. -/
def gap (a b : Rat) : Rat := if a ≤ b then b - a else a - b

/-- A number that a double can hold: an integer of at most 53 bits times a power of two from 2^-1074 to 2^971. -/
def IsDouble (q : Rat) : Prop := ∃ m e : Int, m.natAbs < 2 ^ 53 ∧ -1074 ≤ e ∧ e ≤ 971 ∧ q = m * power 2 e

/-- The least number that is too large to be rounded to a finite double. -/
def tooLarge : Rat := (2 ^ 54 - 1) * power 2 970

/-- `x` is the exact result `q` rounded to a double: the nearest there is; of two that are equally near the one whose
last bit is even; infinite if the magnitude of `q` is too large; zero keeps the sign of `q`. -/
def Rounded (q : Rat) (x : Dbl) : Prop :=
  (x = .pinf ∧ tooLarge ≤ q) ∨ (x = .ninf ∧ q ≤ -tooLarge) ∨
  ∃ r, x.toRat? = some r ∧ -tooLarge < q ∧ q < tooLarge ∧ IsDouble r ∧
    (∀ d, IsDouble d → gap q r ≤ gap q d) ∧
    (∀ d, IsDouble d → d ≠ r → gap q r = gap q d →
      ∃ m n e : Int, r = m * power 2 e ∧ d = n * power 2 e ∧ m % 2 = 0 ∧ n % 2 = 1) ∧
    (r = 0 → (x = .nzero ↔ q < 0))

/-- The values a `double` can have. -/
def Valid : Dbl → Prop
  | .fin q => IsDouble q
  | _ => True

/-- The sign bit of a number; that of NaN is not modelled. -/
def Negative (x : Dbl) : Prop := x = .ninf ∨ x = .nzero ∨ ∃ q, x = .fin q ∧ q < 0

/-- A product or quotient has a minus sign exactly when one operand has. -/
def Signed (x y z : Dbl) : Prop := Negative z ↔ ¬ (Negative x ↔ Negative y)

/-- `x` is one of the infinities. -/
def Infinite (x : Dbl) : Prop := x = .pinf ∨ x = .ninf

/-- `z` is what IEEE 754 gives for `x + y`. -/
inductive Sum : Dbl → Dbl → Dbl → Prop
  | undefined {x y} : x = .nan ∨ y = .nan → Sum x y .nan
  | opposite {x y} : (x = .pinf ∧ y = .ninf) ∨ (x = .ninf ∧ y = .pinf) → Sum x y .nan
  | left {x y} : Infinite x → (y = x ∨ ∃ q, y.toRat? = some q) → Sum x y x
  | right {x y} : Infinite y → (∃ p, x.toRat? = some p) → Sum x y y
  | zero {x y z p q} : x.toRat? = some p → y.toRat? = some q → p + q = 0 → z.toRat? = some 0 →
      (z = .nzero ↔ x = .nzero ∧ y = .nzero) → Sum x y z
  | finite {x y z p q} : x.toRat? = some p → y.toRat? = some q → p + q ≠ 0 → Rounded (p + q) z → Sum x y z

/-- `y` is `-x`: the same magnitude with the other sign. -/
def Opposite (x y : Dbl) : Prop :=
  (x = .nan ∧ y = .nan) ∨ (x ≠ .nan ∧ (Negative y ↔ ¬ Negative x) ∧
    ((Infinite x ∧ Infinite y) ∨ ∃ p, x.toRat? = some p ∧ y.toRat? = some (-p)))

/-- `z` is what IEEE 754 gives for `x * y`. -/
inductive Product : Dbl → Dbl → Dbl → Prop
  | undefined {x y} : x = .nan ∨ y = .nan → Product x y .nan
  | infZero {x y} : (Infinite x ∧ y.toRat? = some 0) ∨ (x.toRat? = some 0 ∧ Infinite y) → Product x y .nan
  | infinite {x y z} : x ≠ .nan → y ≠ .nan → Infinite x ∨ Infinite y → x.toRat? ≠ some 0 → y.toRat? ≠ some 0 →
      Infinite z → Signed x y z → Product x y z
  | zero {x y z p q} : x.toRat? = some p → y.toRat? = some q → p * q = 0 → z.toRat? = some 0 → Signed x y z →
      Product x y z
  | finite {x y z p q} : x.toRat? = some p → y.toRat? = some q → p * q ≠ 0 → Rounded (p * q) z → Product x y z

/-- `z` is what IEEE 754 gives for `x / y`. -/
inductive Quotient : Dbl → Dbl → Dbl → Prop
  | undefined {x y} : x = .nan ∨ y = .nan → Quotient x y .nan
  | infInf {x y} : Infinite x → Infinite y → Quotient x y .nan
  | zeroZero {x y} : x.toRat? = some 0 → y.toRat? = some 0 → Quotient x y .nan
  | infinite {x y z p} : Infinite x → y.toRat? = some p → Infinite z → Signed x y z → Quotient x y z
  | byZero {x y z p} : x.toRat? = some p → p ≠ 0 → y.toRat? = some 0 → Infinite z → Signed x y z → Quotient x y z
  | byInf {x y z p} : x.toRat? = some p → Infinite y → z.toRat? = some 0 → Signed x y z → Quotient x y z
  | zero {x y z q} : x.toRat? = some 0 → y.toRat? = some q → q ≠ 0 → z.toRat? = some 0 → Signed x y z → Quotient x y z
  | finite {x y z p q} : x.toRat? = some p → y.toRat? = some q → p ≠ 0 → q ≠ 0 → Rounded (p / q) z → Quotient x y z

/-- `x` is less than `y`: NaN is neither less nor greater than anything. -/
def Less (x y : Dbl) : Prop :=
  (x = .ninf ∧ (y = .pinf ∨ ∃ q, y.toRat? = some q)) ∨ (y = .pinf ∧ ∃ p, x.toRat? = some p) ∨
  ∃ p q, x.toRat? = some p ∧ y.toRat? = some q ∧ p < q

/-- `x` equals `y`: the two zeros are equal, NaN is equal to nothing. -/
def Equal (x y : Dbl) : Prop := (Infinite x ∧ y = x) ∨ ∃ p, x.toRat? = some p ∧ y.toRat? = some p

end LB.Spec
