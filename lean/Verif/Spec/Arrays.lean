/- Array shapes and subscripts as the user sees them (subscripts count from 0). -/
namespace Spec

/-- Number of cells of an array whose largest subscripts are `max`. -/
def cells (max : List Nat) : Nat := (max.map (· + 1)).prod

/-- The subscripts `idx` name an element of an array whose largest subscripts are `max`. -/
def InRange (idx max : List Nat) : Prop :=
  idx.length = max.length ∧ ∀ (k i m : Nat), idx[k]? = some i → max[k]? = some m → i ≤ m

end Spec
