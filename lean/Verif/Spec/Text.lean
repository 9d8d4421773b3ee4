/- Independent vocabulary for text used in theorem statements.  Nothing here refers to the model. -/
namespace Spec

/-- Two texts are the same up to the case of ASCII letters (Lean's own `Char.toUpper`). -/
def SameIgnoringCase (a b : List Char) : Prop := a.map Char.toUpper = b.map Char.toUpper

instance (a b : List Char) : Decidable (SameIgnoringCase a b) :=
  inferInstanceAs (Decidable (_ = _))

/-- A decimal digit. -/
def IsDigit (c : Char) : Prop := '0' ≤ c ∧ c ≤ '9'

instance (c : Char) : Decidable (IsDigit c) := inferInstanceAs (Decidable (_ ∧ _))

/-- Numeric value of a string of decimal digits, most significant first (Lean core). -/
def decimal (ds : List Char) : Nat := Nat.ofDigitChars 10 ds 0

/-- Decimal numeral of a natural number (Lean core). -/
def numeral (n : Nat) : List Char := Nat.toDigits 10 n

end Spec
