import Verif.Spec.Variables
import Verif.Spec.Arrays
/- What it means that values are forgotten. -/
namespace LB.Spec

/-- Nothing has a value: no scalar was given one, no array is dimensioned, no function is defined. -/
def Unused (st : SymTab) : Prop :=
  ∀ (j : Nat) (s : Symbol), st.psym[j]? = some s → s.kind ≠ .builtin →
    s.defined = false ∧ s.str = none ∧ s.numarr = none ∧ s.strarr = none ∧ s.def_ = none

/-- The same names have the same meaning in both tables; only values may differ. -/
def SameNames (st st' : SymTab) : Prop :=
  (∀ name paren, symLookup st' name paren = symLookup st name paren) ∧
  st'.psym.map (fun s => (s.name, s.id, s.kind, s.type)) = st.psym.map (fun s => (s.name, s.id, s.kind, s.type))

/-- `id` is an array of numbers or strings without dimensions. -/
def Undimensioned (st : SymTab) (id : Nat) (t : Ty) : Prop :=
  ∃ s, st.psym[id]? = some s ∧ s.kind = .array ∧ s.type = t ∧ s.defined = false ∧ s.numarr = none ∧ s.strarr = none

/-- `id` is the array of numbers `a`. -/
def NumArray (st : SymTab) (id : Nat) (a : BArray Dbl) : Prop :=
  ∃ s, st.psym[id]? = some s ∧ s.kind = .array ∧ s.type = .num ∧ s.defined = true ∧ s.numarr = some a

/-- `id` is the array of strings `a`. -/
def StrArray (st : SymTab) (id : Nat) (a : BArray (Option CStr)) : Prop :=
  ∃ s, st.psym[id]? = some s ∧ s.kind = .array ∧ s.type = .str ∧ s.defined = true ∧ s.strarr = some a

/-- Largest subscripts of an array that is used without DIM with the subscripts `ns`. -/
def autoShape (ns : List Nat) : List Nat := ns.map (max 10)

/-- One or two dimensions with at most 65536 elements. -/
def Shape (max : List Nat) : Prop := (max.length = 1 ∨ max.length = 2) ∧ _root_.Spec.cells max ≤ 65536

instance (max : List Nat) : Decidable (Shape max) := by unfold Shape; infer_instance

/-- `a` has the largest subscripts `max`, and every element of it is `v`. -/
def FilledWith {α : Type} (a : BArray α) (max : List Nat) (v : α) : Prop :=
  ∀ idx, (_root_.Spec.InRange idx max → arrayGet a idx = .ok (some v)) ∧ (¬ _root_.Spec.InRange idx max → arrayGet a idx = .ok none)

end LB.Spec
