import Verif.Model.VM
/- Basic/run.c:116-391: compiling, running, continuing and changing the stored program. -/
namespace LB

/-- `new_vm` (Basic/run.c:116-127). -/
def newVm (keywordsAnywhere traceBasic traceFor : Bool) (world : World) : VM :=
  { st := initBuiltins newSymbolTable, col := 1, keywordsAnywhere := keywordsAnywhere,
    traceBasic := traceBasic, traceFor := traceFor, inputPrompt := true, world := world }

/-- Writing text to standard output (`puts`, `printf`, `putchar` in Basic/run.c:352-357,
Monitor/interactive.c). -/
def putOut (vm : VM) (s : CStr) : VM := { vm with world := { vm.world with out := vm.world.out ++ s } }

/-- `vm_clear_names` (Basic/run.c:145-148). -/
def vmClearNames (vm : VM) : VM := { vm with st := initBuiltins (clearSymbolTableNames vm.st) }

/-- `vm_clear_values` (Basic/run.c:150-152). -/
def vmClearValues (vm : VM) : VM := { vm with st := clearSymbolTableValues vm.st }

/-- `reset_control_state` (Basic/run.c:162-176). -/
def resetControlState (vm : VM) : VM :=
  { vm with cs := clearCodeState, fn := { vm.fn with codeState := clearCodeState },
            stoppedProgram := clearCodeState, stack := [], strstack := [], retstack := [], col := 1,
            forStack := [], programData := 0, immediateData := 0, inp := -1, inputPc := 0 }

/-- `stored_program_changed` (Basic/run.c:180-189). -/
def storedProgramChanged (vm : VM) : VM :=
  { vm with stored := { vm.stored with index := none, bcode := none } }

/-- `ensure_program_compiled` (Basic/run.c:193-208). -/
def ensureProgramCompiled (vm : VM) : Outcome (Bool × VM) :=
  match vm.stored.source, vm.stored.bcode with
  | some src, none =>
    if vm.stored.index.isSome then .halt (.assertFail "ensure_program_compiled")
    else
      match parseSource src (initBuiltins (clearSymbolTableNames vm.st)) vm.keywordsAnywhere with
      | .halt h => .halt h
      | .ok (none, st) => .ok (false, { vm with st := st })
      | .ok (some bc, st) =>
        match bcodeIndex bc src with
        | .halt h => .halt h
        | .ok idx =>
          .ok (true, resetControlState
            { vm with st := st, stored := { vm.stored with bcode := some bc, index := some idx } })
  | _, _ => .ok (true, vm)

/-- `vm_new_program` (Basic/run.c:214-219). -/
def vmNewProgram (vm : VM) : VM :=
  storedProgramChanged { vm with stored := { vm.stored with source := vm.stored.source.map clearSource } }

/-- `vm_delete_source_line` (Basic/run.c:223-232). -/
def vmDeleteSourceLine (vm : VM) (num : Nat) : VM :=
  match vm.stored.source with
  | none => vm
  | some src =>
    match findSourceLinenum src num with
    | none => vm
    | some i => storedProgramChanged { vm with stored := { vm.stored with source := some (deleteSourceLine src i) } }

/-- `vm_enter_source_line` (Basic/run.c:236-241). -/
def vmEnterSourceLine (vm : VM) (num : Nat) (text : CStr) : Outcome VM :=
  match enterSourceLine (vm.stored.source.getD (newSource none)) num text with
  | .halt h => .halt h
  | .ok src => .ok (storedProgramChanged { vm with stored := { vm.stored with source := some src } })

/-- `vm_load_source` (Basic/run.c:249-259), given the contents of the file, `none` if it cannot be
opened. -/
def vmLoadSource (vm : VM) (name : CStr) (contents : Option CStr) : Outcome (Bool × VM) :=
  match loadSourceFile name contents with
  | .halt h => .halt h
  | .ok none => .ok (false, vm)
  | .ok (some src) => .ok (true, storedProgramChanged { vm with stored := { vm.stored with source := some src } })

/-- How a run ended: normally or after `run_error`, and whether an interrupt had arrived
(Basic/run.c:341-352). -/
structure RunEnd where
  error : Option RunError
  interrupted : Bool
  deriving DecidableEq, Repr

/-- `vm->code_state.code->bcode->used` (Basic/run.c:344). -/
def curUsed (vm : VM) : Outcome Nat :=
  match V.curBcode vm with
  | .ok b _ => .ok b.used
  | .err _ _ => .halt (.outOfBounds "bcode")
  | .halt h => .halt h

/-- The loop of `run` (Basic/run.c:343-346).  `brk k` tells whether an interrupt has arrived when
`interrupted` is looked at for the `k`-th time; the first argument bounds the number of turns. -/
def vmLoop (env : Env) (brk : Nat → Bool) : Nat → Nat → VM → Outcome (RunEnd × VM)
  | 0, _, _ => .halt .fuel
  | n + 1, k, vm =>
    match curUsed vm with
    | .halt h => .halt h
    | .ok used =>
      if vm.cs.pc < used ∧ !vm.stopped ∧ !brk k then
        match V.execute env vm with
        | .ok () vm' => vmLoop env brk n (k + 1) vm'
        | .err e vm' => .ok (⟨some e, brk (k + 1)⟩, vm')
        | .halt h => .halt h
      else .ok (⟨none, brk k⟩, vm)

/-- Messages at the end of `run` (Basic/run.c:349-355). -/
def runMessages (e : RunEnd) (vm : VM) : VM :=
  if e.interrupted then putOut vm "Break\n".toList
  else if vm.stopped then
    putOut vm (printSourceLine (vm.cs.code.bind (fun r => (V.codeOf vm r).source)) vm.cs.sourceLine ++
      "\nStopped\n".toList)
  else vm

/-- The end of `run` (Basic/run.c:362-367). -/
def recordStopped (e : RunEnd) (vm : VM) : VM :=
  if vm.cs.code = some .stored then
    if vm.stopped || e.interrupted then { vm with stoppedProgram := vm.cs }
    else { vm with stoppedProgram := clearCodeState }
  else vm

/-- `run` (Basic/run.c:336-368); `n` bounds the number of steps. -/
def run (env : Env) (brk : Nat → Bool) (n : Nat) (vm : VM) : Outcome (RunEnd × VM) :=
  if vm.cs.code.isNone then .halt (.assertFail "run")
  else
    match vmLoop env brk n 0 { vm with stopped := false } with
    | .halt h => .halt h
    | .ok (e, vm') => .ok (e, recordStopped e (runMessages e vm'))

/-- `run_program` (Basic/run.c:267-280); `none` means that nothing was run. -/
def runProgram (env : Env) (brk : Nat → Bool) (n : Nat) (vm : VM) : Outcome (Option RunEnd × VM) :=
  if vm.stored.source.isNone then .ok (none, vm)
  else
    match ensureProgramCompiled vm with
    | .halt h => .halt h
    | .ok (false, vm') => .ok (none, vm')
    | .ok (true, vm') =>
      match run env brk n { resetControlState vm' with cs := { code := some .stored, sourceLine := 0, pc := 0 } } with
      | .halt h => .halt h
      | .ok (e, vm'') => .ok (some e, vm'')

/-- Test made on each code state by `immediate_state` (Basic/run.c:315-316, 321-322). -/
def notStored (cs : CodeState) : Bool := cs.code != some .stored

/-- `immediate_state` (Basic/run.c:313-330).  The assertions that the entries are not NULL hold
whenever an entry is made, because `code_state.code` is not NULL while running. -/
def immediateState (vm : VM) : Bool :=
  vm.retstack.any notStored || vm.forStack.any (fun f => notStored f.codeState) ||
    (vm.fn.codeState.code.isSome && notStored vm.fn.codeState)

/-- `run_immediate` (Basic/run.c:284-309). -/
def runImmediate (env : Env) (brk : Nat → Bool) (n : Nat) (vm : VM) (line : CStr) :
    Outcome (Option RunEnd × VM) :=
  match ensureProgramCompiled { vm with immediate := {} } with
  | .halt h => .halt h
  | .ok (false, vm') => .ok (none, vm')
  | .ok (true, vm') =>
    let source := wrapSourceText line
    match parseSource source vm'.st false with
    | .halt h => .halt h
    | .ok (none, st) => .ok (none, { vm' with st := st })
    | .ok (some bc, st) =>
      match bcodeIndex bc source with
      | .halt h => .halt h
      | .ok idx =>
        match run env brk n { vm' with st := st, immediate := ⟨some source, some bc, some idx⟩, immediateData := 0,
                                       cs := { code := some .immediate, sourceLine := 0, pc := 0 } } with
        | .halt h => .halt h
        | .ok (e, vm'') => .ok (some e, if immediateState vm'' then resetControlState vm'' else vm'')

/-- Is the instruction a `B_STOP`? (Basic/run.c:378). -/
def isStop : Inst → Bool
  | .stop => true
  | _ => false

/-- `vm_continue` (Basic/run.c:370-382): `none` is the result false.  Reading an instruction at or
after `used` is out of bounds. -/
def vmContinue (env : Env) (brk : Nat → Bool) (n : Nat) (vm : VM) : Outcome (Option RunEnd × VM) :=
  match vm.stoppedProgram.code with
  | none => .ok (none, vm)
  | some r =>
    match (V.codeOf vm r).bcode with
    | none => .ok (none, vm)
    | some bc =>
      match bc.inst[vm.stoppedProgram.pc]? with
      | none => .halt (.outOfBounds "vm_continue")
      | some i =>
        let cs := if isStop i then { vm.stoppedProgram with pc := vm.stoppedProgram.pc + 1 } else vm.stoppedProgram
        match run env brk n { vm with cs := cs } with
        | .halt h => .halt h
        | .ok (e, vm') => .ok (some e, vm')

end LB
