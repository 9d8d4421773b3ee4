import Verif.Model.Monitor
/- Which sessions and which states of the machine can occur. -/
namespace LB.Spec

/-- Sessions that can be reached from a fresh start by typing lines, whatever is typed, whenever
interrupts arrive, and however long programs run. -/
inductive Session : LB.Session → Prop
  | start (kw tb tf : Bool) (world : World) (files : CStr → Option CStr) :
      Session (newSession kw tb tf world files)
  | line {s s' : LB.Session} (ctx : Ctx) : Session s → interactStep ctx s = .ok (some s') → Session s'

/-- Every state the machine passes through: between commands, while a command works, and after each
executed instruction, successful or not. -/
inductive Moment : VM → Prop
  | start (kw tb tf : Bool) (world : World) : Moment (newVm kw tb tf world)
  | world {vm : VM} (w : World) : Moment vm → Moment { vm with world := w }
  | enter {vm vm' : VM} (num : Nat) (text : CStr) :
      Moment vm → text.length < cmdSize → vmEnterSourceLine vm num text = .ok vm' → Moment vm'
  | delete {vm : VM} (num : Nat) : Moment vm → Moment (vmDeleteSourceLine vm num)
  | new {vm : VM} : Moment vm → Moment (vmNewProgram vm)
  | clearNames {vm : VM} : Moment vm → Moment (vmClearNames vm)
  | clearValues {vm : VM} : Moment vm → Moment (vmClearValues vm)
  | load {vm vm' : VM} (name : CStr) (c : Option CStr) (b : Bool) :
      Moment vm → vmLoadSource vm name c = .ok (b, vm') → Moment vm'
  | renum {vm vm' : VM} (new old inc : Nat) : Moment vm → renumber vm new old inc = .ok vm' → Moment vm'
  | compile {vm vm' : VM} (b : Bool) : Moment vm → ensureProgramCompiled vm = .ok (b, vm') → Moment vm'
  | reset {vm : VM} : Moment vm → Moment (resetControlState vm)
  | at_ {vm : VM} (cs : CodeState) : Moment vm → Moment { vm with cs := cs }
  | stopped {vm : VM} (b : Bool) (cs : CodeState) : Moment vm → Moment { vm with stopped := b, stoppedProgram := cs }
  | noImmediate {vm : VM} : Moment vm → Moment { vm with immediate := {} }
  | immediateFailed {vm : VM} {st : SymTab} (line : CStr) : Moment vm → line.length < cmdSize →
      parseSource (wrapSourceText line) vm.st false = .ok (none, st) → Moment { vm with st := st }
  | immediate {vm : VM} {st : SymTab} {bc : Bcode} {idx : LineMap} (line : CStr) : Moment vm →
      line.length < cmdSize →
      parseSource (wrapSourceText line) vm.st false = .ok (some bc, st) →
      bcodeIndex bc (wrapSourceText line) = .ok idx →
      Moment { vm with st := st, immediate := ⟨some (wrapSourceText line), some bc, some idx⟩, immediateData := 0 }
  | step {vm vm' : VM} (env : Env) : Moment vm → V.execute env vm = .ok () vm' → Moment vm'
  | error {vm vm' : VM} {e : RunError} (env : Env) : Moment vm → V.execute env vm = .err e vm' → Moment vm'

end LB.Spec
