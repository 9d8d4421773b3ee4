import Verif.Spec.Doubles
import Verif.Spec.Text
/- How a number is written in decimal: six significant digits, as `%g` of C does. -/
namespace LB.Spec
open _root_.Spec

/-- A number of exactly six digits. -/
def SixDigits (m : Nat) : Prop := 100000 ≤ m ∧ m < 1000000

/-- The number with the six digits `m`, the first of which counts 10^e. -/
def scaled (m : Nat) (e : Int) : Rat := m * power 10 (e - 5)

/-- Of all numbers with six significant digits, `scaled m e` is nearest to `q`; of two that are equally near it is the one
with an even last digit. -/
def Nearest (q : Rat) (m : Nat) (e : Int) : Prop :=
  SixDigits m ∧ ∀ n k, SixDigits n → gap q (scaled m e) ≤ gap q (scaled n k) ∧
    (gap q (scaled m e) = gap q (scaled n k) → scaled m e ≠ scaled n k → m % 2 = 0)

/-- `t` consists of the digits `ip`, followed by a point and the digits `fp` if there are any; the last one of these is not
0. -/
def Pointed (ip fp t : CStr) : Prop :=
  (∀ c ∈ ip ++ fp, IsDigit c) ∧ ip ≠ [] ∧ fp.getLast? ≠ some '0' ∧ t = if fp = [] then ip else ip ++ '.' :: fp

/-- How a positive number is written: rounded to six significant digits, without an exponent if the first digit counts
from 0.0001 to 100000, else with an exponent of at least two digits. -/
inductive Shown (q : Rat) : CStr → Prop
  | plain {m e ip fp t} : Nearest q m e → -4 ≤ e → e ≤ 5 → Pointed ip fp t → (ip.head? = some '0' → ip = ['0']) →
      decimal (ip ++ fp) * power 10 (-fp.length) = scaled m e → Shown q t
  | exponent {m e c fp t ex} : Nearest q m e → e < -4 ∨ 5 < e → Pointed [c] fp t → c ≠ '0' →
      decimal (c :: fp) * power 10 (e - fp.length) = scaled m e →
      (∀ d ∈ ex, IsDigit d) → 2 ≤ ex.length → (ex.head? = some '0' → ex.length = 2) → decimal ex = e.natAbs →
      Shown q (t ++ 'e' :: (if e < 0 then '-' else '+') :: ex)

/-- How a double is written. -/
inductive Printed : Dbl → CStr → Prop
  | nan : Printed .nan "nan".toList
  | pinf : Printed .pinf "inf".toList
  | ninf : Printed .ninf "-inf".toList
  | zero : Printed (.fin 0) "0".toList
  | nzero : Printed .nzero "-0".toList
  | pos {q t} : 0 < q → Shown q t → Printed (.fin q) t
  | neg {q t} : q < 0 → Shown (-q) t → Printed (.fin q) ('-' :: t)

end LB.Spec
