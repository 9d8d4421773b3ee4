import Verif.Model.Monitor
import Verif.Spec.Program
import Verif.Spec.Text
/- What a user types at the prompt and what the stored program shows. -/
namespace LB.Spec
open _root_.Spec

/-- The lines of the stored program. -/
def lines (vm : VM) : List (Nat × List Char) :=
  match vm.stored.source with
  | none => []
  | some src => src.lines.map (fun l => (l.num, l.text))

/-- Spaces and tabs only. -/
def Blanks (s : List Char) : Prop := ∀ c ∈ s, c = ' ' ∨ c = '\t'

/-- A letter of the alphabet. -/
def IsLetter (c : Char) : Prop := ('A' ≤ c ∧ c ≤ 'Z') ∨ ('a' ≤ c ∧ c ≤ 'z')

instance (c : Char) : Decidable (IsLetter c) := inferInstanceAs (Decidable (_ ∨ _))

/-- A typed line that changes the program by hand. -/
inductive Typed where
  | edit (e : Edit)
  | new

/-- What is typed. -/
def Typed.text : Typed → List Char
  | .edit (.enter n t) => numeral n ++ ' ' :: t
  | .edit (.erase n) => numeral n
  | .new => "NEW".toList

/-- What it means. -/
def Typed.apply (p : Prog) : Typed → Prog
  | .edit e => applyEdit p e
  | .new => emptyProg

/-- Numbers that fit the machine; number 0 can be deleted but not entered. -/
def Typed.Fits : Typed → Prop
  | .edit (.enter n _) => 1 ≤ n ∧ n < 2 ^ 32
  | .edit (.erase n) => n < 2 ^ 32
  | .new => True

/-- Typing lines one after the other. -/
def typeLines (ctx : Ctx) : List (List Char) → LB.Session → Outcome LB.Session
  | [], s => .ok s
  | l :: ls, s =>
    match interpret ctx s l with
    | .halt h => .halt h
    | .ok s' => typeLines ctx ls s'

/-- Program lines as they are listed. -/
def listing (ls : List (Nat × List Char)) : List Char :=
  (ls.map (fun l => numeral l.1 ++ ' ' :: l.2 ++ ['\n'])).flatten

/-- A line shown by a listing in pages, with its position among those shown (from 0), after which the listing waits
for Enter instead of ending the line: the 23rd and every 24th after it, except the last line of the program. -/
def turnsPage (last : Option Nat) (l : (Nat × List Char) × Nat) : Bool := l.2 % 24 == 22 && some l.1.1 != last

/-- The text of a listing in pages; what ends the line after a page is the Enter the user types. -/
def pagedListing (last : Option Nat) (ls : List ((Nat × List Char) × Nat)) : List Char :=
  (ls.map (fun l => numeral l.1.1 ++ ' ' :: l.1.2 ++ if turnsPage last l then [] else ['\n'])).flatten

/-- What follows the first newline. -/
def afterLine : List Char → List Char
  | [] => []
  | c :: s => if c = '\n' then s else afterLine s

/-- What follows the first `n` newlines. -/
def afterLines : Nat → List Char → List Char
  | 0, s => s
  | n + 1, s => afterLines n (afterLine s)

/-- The names of the commands, written out independently of the lookup table. -/
def commandNames : List (String × Cmd) := [
  ("BYE", .bye), ("COMPILE", .compile), ("CONT", .cont), ("HELP", .help), ("LIST", .list), ("LOAD", .load),
  ("NEW", .new), ("RENUM", .renum), ("RENUMBER", .renum), ("RUN", .run), ("SAVE", .save)]

/-- An maybe number as typed. -/
def maybe : Option Nat → List Char
  | none => []
  | some n => numeral n

end LB.Spec
