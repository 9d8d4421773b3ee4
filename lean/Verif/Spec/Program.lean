/- The stored program as seen by its user: a finite map from line numbers to texts. -/
namespace Spec

/-- An abstract program: the text of each line number, if there is such a line. -/
abbrev Prog := Nat → Option (List Char)

/-- The empty program. -/
def emptyProg : Prog := fun _ => none

/-- An editing action of the user. -/
inductive Edit where
  /-- type `n text` -/
  | enter (n : Nat) (text : List Char)
  /-- type `n` alone -/
  | erase (n : Nat)

/-- What an editing action means: only the named line changes. -/
def applyEdit (p : Prog) : Edit → Prog
  | .enter n t => fun m => if m = n then some t else p m
  | .erase n => fun m => if m = n then none else p m

/-- Line numbers in strictly ascending order (hence no number twice). -/
def Ascending (nums : List Nat) : Prop := nums.Pairwise (· < ·)

instance (nums : List Nat) : Decidable (Ascending nums) :=
  inferInstanceAs (Decidable (nums.Pairwise _))

/-- A list of numbered lines shows exactly the program `p`, in ascending order. -/
def Shows (ls : List (Nat × List Char)) (p : Prog) : Prop :=
  Ascending (ls.map (·.1)) ∧ ∀ n t, (n, t) ∈ ls ↔ p n = some t

end Spec
