import Verif.Spec.Running
/- When compiled code is in order. -/
namespace LB.Spec

/-- The errors by which the machine reports that its code or its stacks are not in order: an empty stack, an unknown
instruction, a missing line of ON, running into a parameter or the end of a function, a malformed function. -/
def Malformed (e : RunError) : Prop :=
  e = .numEmpty ∨ e = .strEmpty ∨ e = .unknownOpcode ∨ e = .onLineExpected ∨ e = .runIntoParam ∨
    e = .unexpectedEndDef ∨ e = .corruptMissing ∨ e = .corruptParam ∨ e = .defParams

instance (e : RunError) : Decidable (Malformed e) := by unfold Malformed; infer_instance

/-- The program was stopped by a STOP, or at the start of a line. -/
def StoppedBetween (vm : VM) : Prop :=
  ∀ b, vm.stored.bcode = some b →
    b.inst[vm.stoppedProgram.pc]? = some .stop ∨ ∃ l, b.inst[vm.stoppedProgram.pc]? = some (.sourceLine l)

end LB.Spec
