import Verif.Model.Parser
/-
What compiling a program may do, in terms of its text.
-/
namespace LB.Spec

/-- A character the lexer does not accept: neither one of the first 127 nor the last one of the
8-bit set. -/
def Unreadable (c : Char) : Prop := c.toNat ≠ 255 ∧ 127 ≤ c.toNat

/-- The ways in which compiling a line of text `t` ends the process. -/
inductive EndsProcess (t : CStr) : Halt → Prop
  /-- The line has a character that is not accepted. -/
  | unreadable {c : Char} : c ∈ t → Unreadable c → EndsProcess t (.exit "invalid character on line")
  /-- An item of `DATA` has an opening quote and no closing one. -/
  | unterminated : '"' ∈ t → EndsProcess t (.exit "unterminated string")
  /-- A quoted item of `DATA` has more than 127 characters. -/
  | longString : '"' ∈ t → 128 ≤ t.length → EndsProcess t (.exit "a string is too long")
  /-- Another item of `DATA` has more than 127 characters. -/
  | longItem : 128 ≤ t.length → EndsProcess t (.exit "data is too long")
  /-- `READ` names a function that is reserved and not implemented. -/
  | readReserved : EndsProcess t (.assertFail "read_item")

/-- A line of ordinary characters, short and without quotes. -/
structure Ordinary (t : CStr) : Prop where
  readable : ∀ c ∈ t, ¬ Unreadable c
  short : t.length < 128
  noQuote : '"' ∉ t

end LB.Spec
