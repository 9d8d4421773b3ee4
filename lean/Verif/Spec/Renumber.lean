import Verif.Spec.Lexing
import Verif.Spec.Commands
/- What RENUM makes of the text of a line. -/
namespace LB.Spec
open _root_.Spec

/-- Read from its beginning, the text `b ++ w ++ r` has first the white space `b` and then the token `t`, spelled `w`; if it is a
number it is the number `x`. -/
def Begins (kw : Bool) (b w r : CStr) (t : Tok) (x : Dbl) : Prop :=
  Space b ∧ ∃ lex, lexLine (newLex kw) 0 (b ++ w ++ r) = .ok (t, lex) ∧ lex.tokenPos = b.length ∧ lex.pos = (b ++ w).length ∧
    (t = .num → lex.num = x)

/-- The keywords behind which RENUM looks for a line number. -/
def jumpWords : List Kw := [.ELSE, .GOSUB, .GOTO, .RESTORE, .THEN]

/-- The token `t` with the value `x` is the number of a line that has a new number `m` according to `to`. -/
def Refers (to : Nat → Nat → Prop) (t : Tok) (x : Dbl) (m : Nat) : Prop :=
  ∃ n : Nat, t = .num ∧ x = .fin n ∧ 1 ≤ n ∧ n ≤ 65535 ∧ to n m

/-- The second text is the first one with the number of a line replaced by its new number, in decimal, wherever the token
before it is one of the keywords above, which is itself not such a token behind a keyword.  Everything else, including
white space, is the same. -/
inductive Retargeted (kw : Bool) (to : Nat → Nat → Prop) : CStr → CStr → Prop
  | done {b w r : CStr} {t : Tok} {x : Dbl} : Begins kw b w r t x → t = .ch '\n' ∨ t = .eof → Retargeted kw to (b ++ w ++ r) (b ++ w ++ r)
  | token {b w r r' : CStr} {t : Tok} {x : Dbl} : Begins kw b w r t x → t ≠ .ch '\n' → t ≠ .eof → (∀ k ∈ jumpWords, t ≠ .kw k) →
      Retargeted kw to r r' → Retargeted kw to (b ++ w ++ r) (b ++ w ++ r')
  | reference {b w b' w' r r' : CStr} {k : Kw} {t : Tok} {x y : Dbl} {m : Nat} : Begins kw b w (b' ++ w' ++ r) (.kw k) y → k ∈ jumpWords →
      Begins kw b' w' r t x → Refers to t x m → Retargeted kw to r r' →
      Retargeted kw to (b ++ w ++ (b' ++ w' ++ r)) (b ++ w ++ (b' ++ Nat.toDigits 10 m ++ r'))
  | other {b w b' w' r r' : CStr} {k : Kw} {t : Tok} {x y : Dbl} : Begins kw b w (b' ++ w' ++ r) (.kw k) y → k ∈ jumpWords →
      Begins kw b' w' r t x → (∀ m, ¬ Refers to t x m) → Retargeted kw to r r' →
      Retargeted kw to (b ++ w ++ (b' ++ w' ++ r)) (b ++ w ++ (b' ++ w' ++ r'))

/-- The line that had the number `n` in the first machine has the number `m` in the second. -/
def MovedTo (vm vm' : VM) (n m : Nat) : Prop := ∃ (i : Nat) (t t' : CStr), (lines vm)[i]? = some (n, t) ∧ (lines vm')[i]? = some (m, t')

/-- A text of ASCII characters in which no number is directly followed by something that could continue it. -/
def Orderly (kw : Bool) (s : CStr) : Prop :=
  (∀ c ∈ s, Plain c) ∧ ∀ a b w r x, s = a ++ (b ++ w ++ r) → Begins kw b w r .num x → NumberEnds r

end LB.Spec
