import Verif.Spec.Machine
/- What assigning to and reading scalar variables means. -/
namespace LB.Spec

/-- `j` is a scalar variable. -/
def Scalar (st : SymTab) (j : Nat) : Prop := ∃ s, st.psym[j]? = some s ∧ s.kind = .variable

/-- A value of a scalar. -/
inductive Val where
  | num (x : Dbl)
  | str (s : CStr)
  deriving DecidableEq, Repr

/-- What a program sees in the scalar `j`: 0 or the empty string unless a value was given to it. -/
def value (st : SymTab) (j : Nat) : Option Val :=
  match st.psym[j]? with
  | some s =>
    match s.type with
    | .num => some (.num (num st j))
    | .str => some (.str (str st j))
    | .err => none
  | none => none

/-- The function `id` has `j` as its parameter. -/
def HasParam (st : SymTab) (id j : Nat) : Prop :=
  ∃ s d, st.psym[id]? = some s ∧ s.def_ = some d ∧ d.bcode.inst[1]? = some (.param j)

/-- The instruction, executed next, gives the scalar `j` a value: an assignment, FOR, READ or INPUT to it, the NEXT of
its loop, CLEAR, or the call and the end of a function with the parameter `j`. -/
def Assigns (vm : VM) (j : Nat) : Inst → Prop
  | .setSimpleNum id => id = j
  | .setSimpleStr id => id = j
  | .for_ id => id = j
  | .readNum id n => id = j ∧ n = 0
  | .readStr id n => id = j ∧ n = 0
  | .inputNum id n => id = j ∧ n = 0
  | .inputStr id n => id = j ∧ n = 0
  | .inputLine id n => id = j ∧ n = 0
  | .nextVar id => id = j
  | .nextImp => ∃ f, vm.forStack.getLast? = some f ∧ f.symbolId = j
  | .clear => True
  | .getParenNum id _ => HasParam vm.st id j
  | .getParenStr id _ => HasParam vm.st id j
  | .endDef => vm.fn.paramId = j
  | _ => False

/-- `b` is reached from `a` by instructions none of which gives the scalar `j` a value. -/
inductive Quiet (env : Env) (j : Nat) : VM → VM → Prop
  | here (a : VM) : Quiet env j a a
  | step {a b c : VM} {i : Inst} : Quiet env j a b → At b i → ¬ Assigns b j i → V.execute env b = .ok () c →
      Quiet env j a c

end LB.Spec
