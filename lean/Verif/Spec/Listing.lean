import Verif.Spec.Text
/- The file format of stored programs. -/
namespace Spec

/-- `l` is a program line numbered `n` with text `t`: digits, then one optional space, then the
text, on a line of at most 254 characters free of NUL and newline.  Without the space the text
must not begin with a digit or a space.  The number is the decimal value modulo 2^32. -/
def WellFormedLine (l : List Char) (n : Nat) (t : List Char) : Prop :=
  ∃ ds sep, l = ds ++ sep ++ t ∧ ds ≠ [] ∧ (∀ c ∈ ds, IsDigit c) ∧ n = decimal ds % 2 ^ 32 ∧
    (sep = [' '] ∨ (sep = [] ∧ ∀ c, t.head? = some c → ¬ IsDigit c ∧ c ≠ ' ')) ∧
    '\n' ∉ l ∧ '\x00' ∉ l ∧ l.length ≤ 254

/-- `contents` is a file of well-formed lines carrying the given numbers and texts. -/
inductive Listing : List Char → List (Nat × List Char) → Prop where
  | nil : Listing [] []
  | cons {l n t c ps} : WellFormedLine l n t → Listing c ps → Listing (l ++ '\n' :: c) ((n, t) :: ps)

end Spec
