import Verif.Spec.Expressions
/- What functions made with DEF mean in expressions. -/
namespace LB.Src
open LB.Spec

/-- A function made with DEF: the name of its parameter and its body. -/
structure Fn (t : Ty) where
  param : CStr
  body : Expr t

/-- The functions: `none` for the names of arrays, `some none` for a function that was not made yet. -/
abbrev Fns := (t : Ty) → CStr → Option (Option (Fn t))

/-- The functions after DEF. -/
def Fns.set (F : Fns) {t : Ty} (w : CStr) (f : Fn t) : Fns := fun t' w' =>
  if h : t' = t ∧ _root_.Spec.SameIgnoringCase w' w then some (some (h.1 ▸ f)) else F t' w'

/-- The functions after CLEAR. -/
def Fns.forget (F : Fns) : Fns := fun t w => (F t w).map fun _ => none

/-- A name with subscripts within the body of a function: an element of an array; functions cannot be called. -/
def inside (F : Fns) (t : Ty) (w : CStr) (xs : List Dbl) : Ev (Meaning t) := fun s =>
  match F t w with
  | none => element t w xs s
  | some none => .error .notDefined s
  | some (some _) => .error .nestedCall s

/-- The call of a function: its body is evaluated while the parameter has the value of the argument; then the parameter is
again what it was.  If there is an error in the body, the parameter remains what it is. -/
noncomputable def Fn.call (env : Env) (F : Fns) {t : Ty} (f : Fn t) (x : Dbl) : Ev (Meaning t) := fun s =>
  match f.body.evalBy env (inside F) { s with nums := assign s.nums f.param x } with
  | .ok v s' => .ok v { s' with nums := assign s'.nums f.param (s.nums f.param) }
  | .error e s' => .error e s'
  | .unknown => .unknown

/-- A name with subscripts: an element of an array or the call of a function. -/
noncomputable def reach (env : Env) (F : Fns) (t : Ty) (w : CStr) (xs : List Dbl) : Ev (Meaning t) := fun s =>
  match F t w with
  | none => element t w xs s
  | some none => .error .notDefined s
  | some (some f) =>
    match xs with
    | [x] => f.call env F x s
    | _ => .error .paramCount s

/-- The value of an expression that may call these functions. -/
noncomputable abbrev meaning (env : Env) (F : Fns) {t : Ty} (e : Expr t) : Ev (Meaning t) := e.evalBy env (reach env F)

end LB.Src
