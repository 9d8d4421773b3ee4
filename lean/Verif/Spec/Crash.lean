import Verif.Spec.Machine
import Verif.Spec.Values
/- Statements that the compiler accepts although they cannot be executed. -/
namespace LB.Spec

/-- The symbol an instruction writes to. -/
def writesTo : Inst → Option Nat
  | .setSimpleNum id => some id
  | .setSimpleStr id => some id
  | .inputNum id _ => some id
  | .inputStr id _ => some id
  | .inputLine id _ => some id
  | .readNum id _ => some id
  | .readStr id _ => some id
  | _ => none

/-- The symbol an instruction uses as an array, and the number of subscripts. -/
def indexes : Inst → Option (Nat × Nat)
  | .dimNum id n => some (id, n)
  | .dimStr id n => some (id, n)
  | .getParenNum id n => some (id, n)
  | .getParenStr id n => some (id, n)
  | .setArrayNum id n => some (id, n)
  | .setArrayStr id n => some (id, n)
  | .inputNum id n => some (id, n)
  | .inputStr id n => some (id, n)
  | .inputLine id n => some (id, n)
  | .readNum id n => some (id, n)
  | .readStr id n => some (id, n)
  | _ => none

/-- The numbers an instruction uses as `n` subscripts; for a number stored into an element they lie below that number. -/
def subscriptsOf (vm : VM) (i : Inst) (n : Nat) : List Dbl :=
  match i with
  | .setArrayNum _ _ => (vm.stack.drop 1).take n
  | _ => vm.stack.take n

/-- The instruction gives a value to the name of a built-in function. -/
def AssignsBuiltin (vm : VM) (i : Inst) : Prop :=
  ∃ id s, writesTo i = some id ∧ vm.st.psym[id]? = some s ∧ s.kind = .builtin

/-- The instruction uses an array with another number of subscripts than one or two. -/
def WrongSubscripts (vm : VM) (i : Inst) : Prop :=
  ∃ id n s, indexes i = some (id, n) ∧ vm.st.psym[id]? = some s ∧ s.kind = .array ∧ (n = 0 ∨ 2 < n)

/-- The instruction uses an array with the subscript 4294967295, whose size does not fit into 32 bits, or an array
that was given such a size. -/
def HugeSubscript (vm : VM) (i : Inst) : Prop :=
  ∃ id n s, indexes i = some (id, n) ∧ vm.st.psym[id]? = some s ∧ s.kind = .array ∧
    ((∃ x ∈ subscriptsOf vm i n, IsCount x 4294967295) ∨ (∃ a, s.numarr = some a ∧ a.val = []) ∨ ∃ a, s.strarr = some a ∧ a.val = [])

/-- The instruction belongs to a statement that the compiler should not have accepted, or makes an array too large. -/
def Misuse (vm : VM) (i : Inst) : Prop := AssignsBuiltin vm i ∨ WrongSubscripts vm i ∨ HugeSubscript vm i

end LB.Spec
