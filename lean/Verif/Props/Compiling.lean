import Verif.Spec.Compiling
import Verif.Proofs.Halting
import Verif.Proofs.Demo
/-
C41: compilation terminates.
-/
namespace LB
open LB.Spec

/-- C41.  Whatever the program text, the names already known and the keyword mode, the compiler comes to an end:
it returns code or reports one error, or it ends the process for one of the listed reasons.  The recursion
bound of the model (the length of the line, plus two, for each loop and for the nesting of expressions)
is never exhausted and no memory outside of an array is touched.

Partial: the claim promises a result for every text; the listed reasons are the texts for which the program
gives none. -/
theorem C41_compile_partial (source : Source) (st : SymTab) (prefixes : Bool) :
    (∃ code st', parseSource source st prefixes = .ok (code, st')) ∨
      ∃ l ∈ source.lines, ∃ h, parseSource source st prefixes = .halt h ∧ EndsProcess l.text h := by
  rcases parseSource_ends source st prefixes with ⟨r, h⟩ | ⟨l, hl, h, hp, hm⟩
  · exact .inl ⟨r.1, r.2, h⟩
  · refine .inr ⟨l, hl, h, hp, ?_⟩
    rcases hm with (⟨rfl, c, hc, hi⟩ | ⟨rfl, hq, hn⟩ | ⟨rfl, hq⟩ | ⟨rfl, hn⟩) | rfl
    · exact .unreadable hc hi
    · exact .longString hq hn
    · exact .unterminated hq
    · exact .longItem hn
    · exact .readReserved

/-- C41.  A program of ordinary lines always gets code or one error, unless it makes `READ` name a reserved function. -/
theorem C41_ordinary_partial (source : Source) (st : SymTab) (prefixes : Bool) (ho : ∀ l ∈ source.lines, Ordinary l.text) :
    (∃ code st', parseSource source st prefixes = .ok (code, st')) ∨ parseSource source st prefixes = .halt (.assertFail "read_item") := by
  rcases C41_compile_partial source st prefixes with h | ⟨l, hl, h, hp, hm⟩
  · exact .inl h
  · obtain ⟨hr, hs, hq⟩ := ho l hl
    cases hm with
    | unreadable hc hi => exact absurd hi (hr _ hc)
    | unterminated h => exact absurd h hq
    | longString h _ => exact absurd h hq
    | longItem h => exact absurd hs (by omega)
    | readReserved => exact .inr hp

/-- The reason for the end of the process, if any. -/
def ending {α : Type} : Outcome α → Option Halt
  | .ok _ => none
  | .halt h => some h

theorem ending_eq {α : Type} {r : Outcome α} {h : Halt} (he : ending r = some h) : r = .halt h := by
  cases r with
  | ok => cases he
  | halt => cases he; rfl

/-- A program of one line. -/
def oneLine (s : String) : Source := { name := none, lines := [⟨10, s.toList⟩] }

example : Ordinary "FOR I=1 TO 10:PRINT (((I))):NEXT I:IF I>2 THEN GOSUB 20 ELSE A=2^3^I".toList :=
  ⟨by simp only [Unreadable]; decide +kernel, by decide +kernel, by decide +kernel⟩

/-- The claim without exceptions is false: a `DATA` item with no closing quote ends the process. -/
theorem C41_data_violated : parseSource (oneLine "DATA \"ABC") (initBuiltins newSymbolTable) false = .halt (.exit "unterminated string") :=
  ending_eq (by decide +kernel)

/-- The claim without exceptions is false: so does an item of 128 characters. -/
theorem C41_long_violated : parseSource (oneLine (String.ofList ("DATA ".toList ++ List.replicate 128 'A'))) (initBuiltins newSymbolTable) false =
    .halt (.exit "data is too long") :=
  ending_eq (by decide +kernel)

/-- The claim without exceptions is false: `READ FIX` is an assertion failure. -/
theorem C41_read_violated : parseSource (oneLine "READ FIX") (initBuiltins newSymbolTable) true = .halt (.assertFail "read_item") :=
  ending_eq (by decide +kernel)

end LB
