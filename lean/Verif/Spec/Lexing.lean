import Verif.Model.Lexer
import Verif.Spec.Numbers
/- Vocabulary for claims about reading tokens. -/
namespace LB.Spec

/-- The lexer is inside its line and `r` is what is left of the line. -/
def Left (lex : Lex) (r : CStr) : Prop := ∃ t, lex.text = some t ∧ lex.pos ≤ t.length ∧ t.drop lex.pos = r

/-- A character that can occur in a line and ends nothing: ASCII, not a newline, not DEL. -/
def Plain (c : Char) : Prop := c.toNat < 127 ∧ c ≠ '\n'

instance (c : Char) : Decidable (Plain c) := inferInstanceAs (Decidable (_ ∧ _))

/-- The lexer moved on by `n` characters, having read the token `tok` spelled `w` that starts `b` characters ahead. -/
def moved (lex : Lex) (b n : Nat) (tok : Tok) (w : CStr) : Lex :=
  { lex with pos := lex.pos + n, tokenPos := lex.pos + b, token := tok, word := w }

/-- The rest of the line begins with an allowed character, or is empty. -/
def Clean (r : CStr) : Prop := ∀ c, r.head? = some c → Plain c

/-- White space between tokens: spaces, tabs and carriage returns. -/
def Space (b : CStr) : Prop := ∀ c ∈ b, c = ' ' ∨ c = '\t' ∨ c = '\r'

instance (b : CStr) : Decidable (Space b) := inferInstanceAs (Decidable (∀ c ∈ b, _))

/-- A name: a letter, more letters or digits, and possibly a dollar sign at the end. -/
def Name (w : CStr) : Prop :=
  ∃ c x d, w = c :: x ++ d ∧ c.isAlpha = true ∧ (∀ e ∈ x, e.isAlphanum = true) ∧ (d = [] ∨ d = ['$'])

/-- The name `w` ends before `r`: no letter, digit or, unless there is one already, dollar sign follows. -/
def NameEnds (w r : CStr) : Prop :=
  Clean r ∧ (w.getLast? = some '$' ∨ ∀ c, r.head? = some c → c.isAlphanum = false ∧ c ≠ '$')

/-- A text without quotes that fits a string literal. -/
def Quotable (s : CStr) : Prop := (∀ c ∈ s, Plain c) ∧ '"' ∉ s

/-- A number as written in a program: `m` are the digits with an optional point, `t` is an optional exponent without a
plus sign. -/
def Literal (w : CStr) (x : Dbl) : Prop :=
  ∃ m ip fp t e, w = m ++ t ∧ Mantissa _root_.Spec.IsDigit m ip fp ∧ Exponent 'E' t e ∧ '+' ∉ t ∧
    Rounded (_root_.Spec.decimal (ip ++ fp) * power 10 (e - fp.length)) x

/-- What follows cannot be part of a number. -/
def NumberEnds (r : CStr) : Prop := Clean r ∧ ∀ c, r.head? = some c → ¬ _root_.Spec.IsDigit c ∧ c ≠ '.' ∧ c ≠ 'e' ∧ c ≠ 'E'

/-- The text of an item of `DATA` and its value. -/
inductive DataItem : CStr → CStr → Prop
  | quoted {b v b' : CStr} : Blank b → Blank b' → Quotable v → v.length ≤ 127 → DataItem (b ++ '"' :: v ++ '"' :: b') v
  | plain {b v b' : CStr} : Blank b → Blank b' → (∀ c ∈ v, Plain c ∧ c ≠ '"' ∧ c ≠ ',' ∧ c ≠ ':') →
      (∀ c, v.head? = some c ∨ v.getLast? = some c → c ≠ ' ' ∧ c ≠ '\t') → (v = [] → b' = []) →
      v.length + b'.length ≤ 127 → DataItem (b ++ v ++ b') v

end LB.Spec
