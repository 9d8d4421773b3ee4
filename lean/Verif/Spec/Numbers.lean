import Verif.Spec.Machine
import Verif.Spec.Doubles
import Verif.Spec.Text
/- Which texts denote numbers where text is converted: VAL, READ and INPUT. -/
namespace LB.Spec
open _root_.Spec

/-- A hexadecimal digit. -/
def IsHexDigit (c : Char) : Prop := IsDigit c ∨ ('A' ≤ c ∧ c ≤ 'F') ∨ ('a' ≤ c ∧ c ≤ 'f')

/-- The value of a hexadecimal digit. -/
def hexDigit (c : Char) : Nat := if c ≤ '9' then c.toNat - 48 else if c ≤ 'F' then c.toNat - 55 else c.toNat - 87

/-- The value of a row of hexadecimal digits, most significant first. -/
def hexadecimal : List Char → Nat
  | [] => 0
  | c :: cs => hexDigit c * 16 ^ cs.length + hexadecimal cs

/-- `m` consists of the digits `ip`, or of the digits `ip`, a point and the digits `fp`; at least one digit. -/
def Mantissa (isd : Char → Prop) (m ip fp : List Char) : Prop :=
  (∀ c ∈ ip ++ fp, isd c) ∧ ip ++ fp ≠ [] ∧ ((m = ip ∧ fp = []) ∨ m = ip ++ '.' :: fp)

/-- `t` is empty and `e` is 0, or `t` is the marker in either case, an optional sign and digits that denote `e`. -/
def Exponent (marker : Char) (t : List Char) (e : Int) : Prop :=
  (t = [] ∧ e = 0) ∨
  ∃ c ds, c.toUpper = marker ∧ ds ≠ [] ∧ (∀ d ∈ ds, IsDigit d) ∧
    ((t = c :: ds ∧ e = decimal ds) ∨ (t = c :: '+' :: ds ∧ e = decimal ds) ∨ (t = c :: '-' :: ds ∧ e = -decimal ds))

/-- Numbers without a sign, and their exact value rounded to a double. -/
inductive Unsigned : List Char → Dbl → Prop
  | decimal {m ip fp t : List Char} {e : Int} {y : Dbl} : Mantissa IsDigit m ip fp → Exponent 'E' t e →
      Rounded (decimal (ip ++ fp) * power 10 (e - fp.length)) y → Unsigned (m ++ t) y
  | hex {x : Char} {m ip fp t : List Char} {e : Int} {y : Dbl} : x.toUpper = 'X' → Mantissa IsHexDigit m ip fp →
      Exponent 'P' t e → Rounded (hexadecimal (ip ++ fp) * power 2 (e - 4 * fp.length)) y →
      Unsigned ('0' :: x :: m ++ t) y
  | inf {w : List Char} : SameIgnoringCase w "INF".toList ∨ SameIgnoringCase w "INFINITY".toList → Unsigned w .pinf
  | nan {w : List Char} : SameIgnoringCase w "NAN".toList → Unsigned w .nan
  | nanTag {w cs : List Char} : SameIgnoringCase w "NAN".toList → (∀ c ∈ cs, isalnum c ∨ c = '_') →
      Unsigned (w ++ '(' :: cs ++ [')']) .nan

/-- Texts that start with a digit, a point or a sign and are, as a whole, a number. -/
inductive NumberText : List Char → Dbl → Prop
  | plain {u : List Char} {x : Dbl} : Unsigned u x → (∃ c cs, u = c :: cs ∧ (IsDigit c ∨ c = '.')) → NumberText u x
  | plus {u : List Char} {x : Dbl} : Unsigned u x → NumberText ('+' :: u) x
  | minus {u : List Char} {x y : Dbl} : Unsigned u x → Opposite x y → NumberText ('-' :: u) y

/-- Blanks: spaces and tabs. -/
def Blank (b : List Char) : Prop := ∀ c ∈ b, c = ' ' ∨ c = '\t'

/-- Apart from blanks around it the text is a number. -/
def Numeric (s : List Char) (x : Dbl) : Prop := ∃ b n b', s = b ++ n ++ b' ∧ Blank b ∧ Blank b' ∧ NumberText n x

/-- The part of an input line up to the next comma or the end of the line. -/
def upToComma (s : List Char) : List Char := s.takeWhile (fun c => c != '\n' && c != ',')

end LB.Spec
