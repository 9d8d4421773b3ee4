import Verif.Spec.Machine
import Verif.Spec.Typing
/- The states of the machine between commands and while a program or a typed statement is running. -/
namespace LB.Spec
open _root_.Spec

/-- Waiting for a command, or running: a program (RUN, CONT) or a typed statement. -/
inductive Phase where
  | idle
  | program
  | typed
  deriving DecidableEq, Repr

/-- What is left of the machine when running ends, with or without an error or an interrupt. -/
def finish (ph : Phase) (e : RunEnd) (vm : VM) : VM :=
  let w := recordStopped e (runMessages e vm)
  if ph = .typed ∧ immediateState w then resetControlState w else w

/-- The machine at the start of a run at a position. -/
def startAt (cs : CodeState) (vm : VM) : VM := { vm with cs := cs, stopped := false }

/-- `cs` after the `STOP` at `cs`, if it is one. -/
def resumeAt (b : Bcode) (cs : CodeState) : CodeState :=
  match b.inst[cs.pc]? with
  | some .stop => { cs with pc := cs.pc + 1 }
  | _ => cs

/-- Every state of the machine in a session, whatever is typed, whenever interrupts arrive and however long programs
run.  CONT and RENUM are only used where `may` holds; CONT may also be used right after an interrupt that arrives
between two instructions. -/
inductive State (may : Cmd → VM → Prop) : Phase → VM → Prop
  | start (kw tb tf : Bool) (world : World) : State may .idle (newVm kw tb tf world)
  | world {vm : VM} (w : World) : State may .idle vm → State may .idle { vm with world := w }
  | enter {vm vm' : VM} (num : Nat) (text : CStr) : State may .idle vm → text.length < cmdSize →
      vmEnterSourceLine vm num text = .ok vm' → State may .idle vm'
  | delete {vm : VM} (num : Nat) : State may .idle vm → State may .idle (vmDeleteSourceLine vm num)
  | new {vm : VM} : State may .idle vm → State may .idle (vmClearNames (vmNewProgram vm))
  | load {vm vm' : VM} (name : CStr) (c : Option CStr) (b : Bool) : State may .idle vm →
      vmLoadSource vm name c = .ok (b, vm') → State may .idle vm'
  | renum {vm vm' : VM} (new old inc : Nat) : State may .idle vm → may .renum vm → renumber vm new old inc = .ok vm' →
      State may .idle vm'
  | compile {vm vm' : VM} (b : Bool) : State may .idle vm → ensureProgramCompiled vm = .ok (b, vm') →
      State may .idle vm'
  | clearValues {vm : VM} : State may .idle vm → State may .idle (vmClearValues vm)
  | noImmediate {vm : VM} : State may .idle vm → State may .idle { vm with immediate := {} }
  | run {vm : VM} : State may .idle vm → ensureProgramCompiled vm = .ok (true, vm) → vm.stored.source ≠ none →
      State may .program (startAt { code := some .stored, sourceLine := 0, pc := 0 } (resetControlState vm))
  | failed {vm : VM} {st : SymTab} (line : CStr) : State may .idle vm → line.length < cmdSize →
      ensureProgramCompiled vm = .ok (true, vm) →
      parseSource (wrapSourceText line) vm.st false = .ok (none, st) → State may .idle { vm with st := st }
  | typed {vm : VM} {st : SymTab} {bc : Bcode} {idx : LineMap} (line : CStr) : State may .idle vm →
      line.length < cmdSize →
      ensureProgramCompiled vm = .ok (true, vm) →
      parseSource (wrapSourceText line) vm.st false = .ok (some bc, st) →
      bcodeIndex bc (wrapSourceText line) = .ok idx →
      State may .typed (startAt { code := some .immediate, sourceLine := 0, pc := 0 }
        { vm with st := st, immediate := ⟨some (wrapSourceText line), some bc, some idx⟩, immediateData := 0 })
  | cont {vm : VM} {r : CodeRef} {b : Bcode} : State may .idle vm → may .cont vm → vm.stoppedProgram.code = some r →
      (V.codeOf vm r).bcode = some b → vm.stoppedProgram.pc < b.used →
      State may .program (startAt (resumeAt b vm.stoppedProgram) vm)
  | resume {vm : VM} {b : Bcode} : State may .program vm → vm.cs.code = some .stored → vm.stored.bcode = some b →
      vm.cs.pc < b.used → vm.stopped = false →
      State may .program (startAt (resumeAt b vm.cs) (finish .program ⟨none, true⟩ vm))
  | step {ph : Phase} {vm vm' : VM} (env : Env) : ph ≠ .idle → State may ph vm → (∃ i, At vm i) →
      vm.stopped = false → V.execute env vm = .ok () vm' → State may ph vm'
  | error {ph : Phase} {vm vm' : VM} {e : RunError} (env : Env) (interrupted : Bool) : ph ≠ .idle → State may ph vm →
      (∃ i, At vm i) → vm.stopped = false → V.execute env vm = .err e vm' →
      State may .idle (finish ph ⟨some e, interrupted⟩ vm')
  | finish {ph : Phase} {vm : VM} (interrupted : Bool) : ph ≠ .idle → State may ph vm →
      interrupted = true ∨ vm.stopped = true ∨ (∃ used, curUsed vm = .ok used ∧ used ≤ vm.cs.pc) →
      State may .idle (finish ph ⟨none, interrupted⟩ vm)

/-- The line is a command: its first word is the name of the command. -/
def IsCommand (line : List Char) (k : Cmd) : Prop :=
  ∃ pre w rest n, line = pre ++ w ++ rest ∧ Blanks pre ∧ (∀ c ∈ w, IsLetter c) ∧
    (∀ c, rest.head? = some c → ¬ IsLetter c) ∧ (n, k) ∈ commandNames ∧ SameIgnoringCase n.toList w

/-- The next line the session reads. -/
def NextLine (s : LB.Session) (line : List Char) : Prop :=
  ∃ o r, getLine (s.vm.world.stdin.length + 1) s.vm.world.stdin = (o, some line, r)

/-- Sessions in which commands are only used where `may` holds; statements and program lines are typed freely. -/
inductive SessionWhere (may : Cmd → VM → Prop) : LB.Session → Prop
  | start (kw tb tf : Bool) (world : World) (files : CStr → Option CStr) :
      SessionWhere may (newSession kw tb tf world files)
  | line {s s' : LB.Session} (ctx : Ctx) : SessionWhere may s →
      (∀ line k w, NextLine s line → IsCommand line k → may k { s.vm with world := w }) →
      interactStep ctx s = .ok (some s') → SessionWhere may s'

/-- The machine once the line with RUN has been read. -/
def afterPrompt (vm : VM) (rest : List Char) : VM :=
  { vm with world := { vm.world with out := vm.world.out ++ "> ".toList, stdin := rest } }

/-- From the surroundings `a` and `b`, two machines came to `a'` and `b'` in the same way: they printed the same, and the input
still to be read, the generator and the clock are the same. -/
structure Alike (a b a' b' : World) : Prop where
  stdin : a'.stdin = b'.stdin
  rng : a'.rng = b'.rng
  ticks : a'.ticks = b'.ticks
  out : ∃ t, a'.out = a.out ++ t ∧ b'.out = b.out ++ t

/-- A line that says RUN, with or without something after it. -/
structure SaysRun (line : List Char) : Prop where
  word : ∃ pre w tail, line = pre ++ w ++ tail ∧ Blanks pre ∧ SameIgnoringCase "RUN".toList w ∧
    (∀ c ∈ w, IsLetter c) ∧ ∀ c, tail.head? = some c → ¬ IsLetter c
  whole : '\n' ∉ line ∧ '\x00' ∉ line ∧ line.length ≤ 126

end LB.Spec
