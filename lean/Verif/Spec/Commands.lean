import Verif.Spec.Running
/- Continuing a stopped program, renumbering. -/
namespace LB.Spec
open _root_.Spec

/-- The machine right after a change of the stored program that was made with a line number typed, NEW or LOAD. -/
inductive Edited (may : Cmd → VM → Prop) : VM → Prop
  | enter {vm vm' : VM} (num : Nat) (text : CStr) : State may .idle vm → vmEnterSourceLine vm num text = .ok vm' →
      Edited may vm'
  | delete {vm : VM} (num : Nat) : State may .idle vm → lines (vmDeleteSourceLine vm num) ≠ lines vm →
      Edited may (vmDeleteSourceLine vm num)
  | new {vm : VM} : State may .idle vm → Edited may (vmClearNames (vmNewProgram vm))
  | load {vm vm' : VM} (name : CStr) (c : Option CStr) : State may .idle vm → vmLoadSource vm name c = .ok (true, vm') →
      Edited may vm'

/-- What was run ended neither at a STOP nor through an interrupt. -/
def RanToEnd (e : Option RunEnd) (vm : VM) : Prop := ∀ r, e = some r → r.interrupted = false ∧ vm.stopped = false

/-- The machine after any further commands and statements, none of which stopped a program. -/
inductive Since (vm : VM) : VM → Prop
  | refl : Since vm vm
  | world {vm1 : VM} (w : World) : Since vm vm1 → Since vm { vm1 with world := w }
  | enter {vm1 vm2 : VM} (num : Nat) (text : CStr) : Since vm vm1 → vmEnterSourceLine vm1 num text = .ok vm2 → Since vm vm2
  | delete {vm1 : VM} (num : Nat) : Since vm vm1 → Since vm (vmDeleteSourceLine vm1 num)
  | new {vm1 : VM} : Since vm vm1 → Since vm (vmClearNames (vmNewProgram vm1))
  | load {vm1 vm2 : VM} (name : CStr) (c : Option CStr) (b : Bool) : Since vm vm1 →
      vmLoadSource vm1 name c = .ok (b, vm2) → Since vm vm2
  | renum {vm1 vm2 : VM} (new old inc : Nat) : Since vm vm1 → renumber vm1 new old inc = .ok vm2 → Since vm vm2
  | compile {vm1 vm2 : VM} (b : Bool) : Since vm vm1 → ensureProgramCompiled vm1 = .ok (b, vm2) → Since vm vm2
  | run {vm1 vm2 : VM} (env : Env) (brk : Nat → Bool) (n : Nat) (e : Option RunEnd) : Since vm vm1 →
      runProgram env brk n (vmClearValues vm1) = .ok (e, vm2) → RanToEnd e vm2 → Since vm vm2
  | typed {vm1 vm2 : VM} (env : Env) (brk : Nat → Bool) (n : Nat) (line : CStr) (e : Option RunEnd) : Since vm vm1 →
      runImmediate env brk n vm1 line = .ok (e, vm2) → RanToEnd e vm2 → Since vm vm2

/-- The lines from `old` on get the numbers `new`, `new + inc`, …; the others keep theirs. -/
def renumbered (new old inc : Nat) (nums : List Nat) : List Nat :=
  nums.filter (· < old) ++
    (List.range (nums.filter (old ≤ ·)).length).map (fun i => new + inc * i)

/-- The stored lines are what the machine has code for: the code is what the compiler makes of exactly these lines,
and jumps find the lines of this program. -/
def CodeIsCurrent (vm : VM) : Prop :=
  ∀ src, vm.stored.source = some src → ∃ b idx st,
    vm.stored.bcode = some b ∧ vm.stored.index = some idx ∧
    parseSource src (initBuiltins newSymbolTable) vm.keywordsAnywhere = .ok (some b, st) ∧ bcodeIndex b src = .ok idx

end LB.Spec
