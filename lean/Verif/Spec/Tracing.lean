import Verif.Model.VM
/-
What the options --trace-basic and --trace-for add to the output of a program.
-/
namespace LB.Spec

/-- The open loops as tracing shows them, the innermost first: the variable, its value and the limit. -/
def openLoops (loops : List (List Char × Dbl × Dbl)) : List Char :=
  if loops = [] then "empty".toList
  else (loops.map (fun l => l.1 ++ " = ".toList ++ Dbl.fmtG l.2.1 ++ ", ".toList ++ Dbl.fmtG l.2.2 ++ "; ".toList)).flatten

/-- What tracing a program with these lines writes at once: the number of a line that is reached, in brackets; where a FOR or NEXT
is executed, the line; and the open loops. -/
inductive TraceText (basic loops : Bool) (lines : List SrcLine) : List Char → Prop
  | line (l : SrcLine) : basic = true → l ∈ lines → TraceText basic loops lines ('[' :: Nat.toDigits 10 l.num ++ [']'])
  | at_ (tag : String) (l : SrcLine) : loops = true → tag ∈ ["FOR", "NEXT-VARIABLE", "NEXT-IMPLICIT"] → l ∈ lines →
      TraceText basic loops lines ("[".toList ++ tag.toList ++ "]\n-- line: ".toList ++ Nat.toDigits 10 l.num ++ ' ' :: l.text ++ ['\n'])
  | open_ (tag : String) (ls : List (List Char × Dbl × Dbl)) : loops = true → tag ∈ ["initial stack", "final stack"] →
      TraceText basic loops lines ("-- ".toList ++ tag.toList ++ ": ".toList ++ openLoops ls ++ ['\n'])

/-- The first text is the second with what tracing writes put in. -/
inductive Marked (basic loops : Bool) (lines : List SrcLine) : List Char → List Char → Prop
  | nil : Marked basic loops lines [] []
  | both {t u : List Char} (s : List Char) : Marked basic loops lines t u → Marked basic loops lines (t ++ s) (u ++ s)
  | mark {t u x : List Char} : Marked basic loops lines t u → TraceText basic loops lines x → Marked basic loops lines (t ++ x) u

/-- From the surroundings `a` and `b`, two machines came to `a'` and `b'` in the same way, but what the first printed has what
tracing writes put in. -/
structure AlikeTraced (basic loops : Bool) (lines : List SrcLine) (a b a' b' : World) : Prop where
  stdin : a'.stdin = b'.stdin
  rng : a'.rng = b'.rng
  ticks : a'.ticks = b'.ticks
  out : ∃ t u, a'.out = a.out ++ t ∧ b'.out = b.out ++ u ∧ Marked basic loops lines t u

end LB.Spec
