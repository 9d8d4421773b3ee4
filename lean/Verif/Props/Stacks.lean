import Verif.Proofs.Bounds
import Verif.Proofs.Exec
import Verif.Proofs.Demo
/- C50: the limits on nesting and on the complexity of expressions. -/
namespace LB
open Spec

/-- C50.  At every moment of every session the numeric stack holds at most 16 values, the string stack at
most 8, and at most 8 subroutine calls and 8 loops are open. -/
theorem C50_within_limits (vm : VM) (h : Moment vm) :
    vm.stack.length ≤ 16 ∧ vm.strstack.length ≤ 8 ∧ vm.retstack.length ≤ 8 ∧ vm.forStack.length ≤ 8 :=
  ⟨(V.moment_bounds h).1, (V.moment_bounds h).2.1, (V.moment_bounds h).2.2.1, (V.moment_bounds h).2.2.2.1⟩

/-- The hypothesis of `C50_within_limits`: a machine in the middle of typed work. -/
example : ∃ vm, Moment vm ∧ vm.stored.source = some { name := none, lines := [⟨10, "PRINT 1".toList⟩] } := by
  refine ⟨_, Moment.enter 10 "PRINT 1".toList (Moment.start false false false {}) (by decide) rfl, rfl⟩

/-- C50.  A number is put on the stack when there is room, nothing else changes; a seventeenth number is
refused and everything stays as it is. -/
theorem C50_push_number (env : Env) (vm : VM) (x : Dbl) (hat : At vm (.pushNum x)) :
    (vm.stack.length < 16 → V.execute env vm = .ok () { vm with stack := x :: vm.stack, cs := following vm.cs }) ∧
    (vm.stack.length = 16 → V.execute env vm = .err .numOverflow vm) := by
  rw [V.execute_at env hat]
  constructor
  · intro h
    have : ¬ vm.stack.length ≥ maxNumStack := by simp [maxNumStack]; omega
    simp only [V.exec, V.brk_apply, V.push, if_neg this]
  · intro h
    have : vm.stack.length ≥ maxNumStack := by simp [maxNumStack]; omega
    simp only [V.exec, V.brk_apply, V.push, if_pos this]

/-- C50.  A string is put on the stack when there is room, nothing else changes; a ninth string is refused
and everything stays as it is. -/
theorem C50_push_string (env : Env) (vm : VM) (x : CStr) (hat : At vm (.pushStr x)) :
    (vm.strstack.length < 8 →
      V.execute env vm = .ok () { vm with strstack := x :: vm.strstack, cs := following vm.cs }) ∧
    (vm.strstack.length = 8 → V.execute env vm = .err .strOverflow vm) := by
  rw [V.execute_at env hat]
  constructor
  · intro h
    have : ¬ vm.strstack.length ≥ maxStrStack := by simp [maxStrStack]; omega
    simp only [V.exec, V.brk_apply, V.pushStr, if_neg this]
  · intro h
    have : vm.strstack.length ≥ maxStrStack := by simp [maxStrStack]; omega
    simp only [V.exec, V.brk_apply, V.pushStr, if_pos this]

example : At (Demo.machine [.pushNum (.fin 3)] []) (.pushNum (.fin 3)) := ⟨.stored, _, rfl, rfl, rfl⟩
example : At (Demo.machine [.pushStr ['a']] []) (.pushStr ['a']) := ⟨.stored, _, rfl, rfl, rfl⟩

set_option maxRecDepth 100000 in
/-- Sixteen pending numbers are accepted, seventeen are not. -/
example : Demo.shows "PRINT 1+(2+(3+(4+(5+(6+(7+(8+(9+(10+(11+(12+(13+(14+(15+16))))))))))))))\nPRINT 1+(2+(3+(4+(5+(6+(7+(8+(9+(10+(11+(12+(13+(14+(15+(16+17)))))))))))))))\n"
    = .ok ">  136 \n> ".toList := by decide +kernel

end LB
