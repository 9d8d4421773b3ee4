import Verif.Spec.Doubles
import Verif.Model.VM
/- The numbers a session holds at some moment. -/
namespace LB.Spec

/-- `x` is one of the numbers the machine holds: on the stack of operands, as the value of a variable, in an array, as
the limit or the step of a loop under way, set aside while the parameter of a function has its place, or written in the
stored program, in the line last typed or in the definition of a function. -/
inductive HoldsNumber : VM → Dbl → Prop
  | operand {vm : VM} {x : Dbl} : x ∈ vm.stack → HoldsNumber vm x
  | simple {vm : VM} {s : Symbol} : s ∈ vm.st.psym → HoldsNumber vm s.num
  | element {vm : VM} {s : Symbol} {a : BArray Dbl} {x : Dbl} : s ∈ vm.st.psym → s.numarr = some a → x ∈ a.val → HoldsNumber vm x
  | limit {vm : VM} {f : ForLoop} : f ∈ vm.forStack → HoldsNumber vm f.limit
  | step {vm : VM} {f : ForLoop} : f ∈ vm.forStack → HoldsNumber vm f.step
  | saved {vm : VM} : HoldsNumber vm vm.fn.paramVal
  | stored {vm : VM} {b : Bcode} {x : Dbl} : vm.stored.bcode = some b → .pushNum x ∈ b.inst → HoldsNumber vm x
  | typed {vm : VM} {b : Bcode} {x : Dbl} : vm.immediate.bcode = some b → .pushNum x ∈ b.inst → HoldsNumber vm x
  | body {vm : VM} {s : Symbol} {d : Def} {x : Dbl} : s ∈ vm.st.psym → s.def_ = some d → .pushNum x ∈ d.bcode.inst →
      HoldsNumber vm x

end LB.Spec
