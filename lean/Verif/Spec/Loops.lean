import Verif.Spec.Machine
/- What FOR and NEXT mean. -/
namespace LB.Spec

/-- The loop that a `NEXT` instruction refers to: the innermost one, or the one of its variable. -/
inductive NextOf : Inst → List ForLoop → ForLoop → Prop
  | implicit {fs : List ForLoop} {f : ForLoop} : fs.getLast? = some f → NextOf .nextImp fs f
  | named {fs : List ForLoop} {f : ForLoop} : f ∈ fs → NextOf (.nextVar f.symbolId) fs f

/-- The loops other than that of a variable, in the same order. -/
def loopsBut (id : Nat) (fs : List ForLoop) : List ForLoop := fs.filter (fun f => f.symbolId ≠ id)

/-- No two open loops have the same variable. -/
def OnePerVariable (fs : List ForLoop) : Prop := (fs.map (fun f : ForLoop => f.symbolId)).Nodup

/-- `x` has passed the limit in the direction of the step. -/
def Beyond (step limit x : Dbl) : Prop :=
  (Dbl.lt (.fin 0) step = true ∧ Dbl.lt limit x = true) ∨ (Dbl.lt step (.fin 0) = true ∧ Dbl.lt x limit = true)

/-- How often the body of `FOR V = a TO b STEP s` runs, for a step other than 0: once, and once more for
every further value that has not passed the limit. -/
def passes (a b s : Int) : Nat :=
  if 0 < s then (if b < a then 1 else ((b - a) / s).toNat + 1)
  else (if a < b then 1 else ((a - b) / (-s)).toNat + 1)

end LB.Spec
