import Verif.Model.Session
/- What can be observed of the machine while it runs. -/
namespace LB.Spec

/-- The machine is about to execute the instruction `i`. -/
def At (vm : VM) (i : Inst) : Prop :=
  ∃ r b, vm.cs.code = some r ∧ (V.codeOf vm r).bcode = some b ∧ b.inst[vm.cs.pc]? = some i

/-- `id` is a numeric scalar variable. -/
def NumVar (st : SymTab) (id : Nat) : Prop :=
  ∃ s, st.psym[id]? = some s ∧ s.kind = .variable ∧ s.type = .num

/-- `id` is a string scalar variable, and counts as defined when it holds a string. -/
def StrVar (st : SymTab) (id : Nat) : Prop :=
  ∃ s, st.psym[id]? = some s ∧ s.kind = .variable ∧ s.type = .str ∧ (s.str.isSome = true → s.defined = true)

/-- The number a program sees in the scalar `id`: 0 unless a value was given to it. -/
def num (st : SymTab) (id : Nat) : Dbl :=
  match st.psym[id]? with
  | some s => if s.defined then s.num else .fin 0
  | none => .fin 0

/-- The string a program sees in the scalar `id`: empty unless a value was given to it. -/
def str (st : SymTab) (id : Nat) : CStr :=
  match st.psym[id]? with
  | some s => if s.defined then s.str.getD [] else []
  | none => []

/-- The two tables have the same names, and agree on everything except possibly the symbol `id`. -/
def SameBut (id : Nat) (st st' : SymTab) : Prop :=
  st'.hash = st.hash ∧ st'.nextId = st.nextId ∧ ∀ j, j ≠ id → st'.psym[j]? = st.psym[j]?

/-- The next position in the same code. -/
def following (cs : CodeState) : CodeState := { cs with pc := cs.pc + 1 }

/-- The machine after `n` instructions, if all of them succeed. -/
def after (env : Env) : Nat → VM → Option VM
  | 0, vm => some vm
  | n + 1, vm =>
    match V.execute env vm with
    | .ok () vm' => after env n vm'
    | _ => none

end LB.Spec
