import Verif.Model.Parser
import Verif.Spec.Doubles
/- Basic/run.c: the virtual machine that runs compiled programs. -/
namespace LB

/-- `MAX_NUM_STACK` (Basic/run.c:26). -/
def maxNumStack : Nat := 16

/-- `MAX_STR_STACK` (Basic/run.c:27). -/
def maxStrStack : Nat := 8

/-- `MAX_RETURN_STACK` (Basic/run.c:28). -/
def maxReturnStack : Nat := 8

/-- `MAX_FOR` (Basic/run.c:29). -/
def maxFor : Nat := 8

/-- `TAB_SIZE` (Basic/run.c:30). -/
def tabSize : Nat := 8

/-- Size of the buffer `input` (Basic/run.c:96). -/
def inputSize : Nat := 128

/-- Library functions whose results the model leaves open: `pow` (Basic/run.c:568), `atan` (1019),
`cos` (1032), `exp` (1035), `log` (1079), `sin` (1140), `sqrt` (1143), `tan` (1146), `rand`, `srand`
and `RAND_MAX` (1003-1006, 1124), `time` and `localtime` (1003, 1149-1152), `system("clear")`
(Shared/os.c:9-23).  `rand g` is the number drawn in generator state `g` and the next state;
`time t` is the clock at its `t`-th reading; `localtime t` the hour, minute and second of it, in the ranges that
the C standard gives for `struct tm`.  The results of the mathematical functions are doubles, as their type in C is. -/
structure Env where
  pow : Dbl → Dbl → Dbl
  atan : Dbl → Dbl
  cos : Dbl → Dbl
  exp : Dbl → Dbl
  log : Dbl → Dbl
  sin : Dbl → Dbl
  sqrt : Dbl → Dbl
  tan : Dbl → Dbl
  pow_double : ∀ x y, Spec.Valid x → Spec.Valid y → Spec.Valid (pow x y)
  math_double : ∀ f ∈ [atan, cos, exp, log, sin, sqrt, tan], ∀ x, Spec.Valid x → Spec.Valid (f x)
  rand : Nat → Nat × Nat
  srand : Nat → Nat
  randMax : Nat
  time : Nat → Nat
  localtime : Nat → Fin 24 × Fin 60 × Fin 61
  clearScreen : CStr

/-- Which of the three `CODE` structures of the machine a pointer refers to
(Basic/run.c:64-66). -/
inductive CodeRef where
  | stored | immediate | def_
  deriving DecidableEq, Repr

/-- `CODE` (Basic/run.c:34-38). -/
structure Code where
  source : Option Source := none
  bcode : Option Bcode := none
  index : Option LineMap := none

/-- `CODE_STATE` (Basic/run.c:51-55). -/
structure CodeState where
  code : Option CodeRef := none
  sourceLine : Nat := 0
  pc : Nat := 0
  deriving DecidableEq, Repr

/-- `clear_code_state` (Basic/run.c:57-61). -/
def clearCodeState : CodeState := { code := none, sourceLine := 0, pc := 0 }

/-- `struct for_loop` (Basic/run.c:80-85). -/
structure ForLoop where
  codeState : CodeState
  symbolId : Nat
  step : Dbl
  limit : Dbl
  deriving DecidableEq, Repr

/-- The member `fn` of `struct vm` (Basic/run.c:91-96). -/
structure FnState where
  codeState : CodeState := {}
  paramId : Nat := 0
  paramDefined : Bool := false
  paramVal : Dbl := .fin 0
  deriving DecidableEq, Repr

/-- What the machine shares with its surroundings: text still to be read from standard input, text
written to standard output, state of the C random number generator, number of clock readings made
(`stdin`, `stdout`, `rand`, `time` in Basic/run.c).  Standard error is not modelled. -/
structure World where
  stdin : CStr := []
  out : CStr := []
  rng : Nat := 0
  ticks : Nat := 0
  deriving DecidableEq, Repr

/-- `struct vm` (Basic/run.c:63-114).  A stack of `sp` entries is the list of its `sp` live entries:
`stack`, `strstack` and `retstack` with the top first, `forStack` with the bottom first.
The options `array_base`, `strict_dim`, `strict_for`, `strict_on`, `strict_variables` and `verbose`
keep the value 0 given by `ecalloc` (line 117): nothing in /repo sets them; the branches they guard
are left out.  `trace_log` only writes to standard error and `errjmp` is the error result of `Res`. -/
structure VM where
  stored : Code := {}
  immediate : Code := {}
  defCode : Code := {}
  cs : CodeState := {}
  st : SymTab
  stack : List Dbl := []
  strstack : List CStr := []
  retstack : List CodeState := []
  stopped : Bool := false
  stoppedProgram : CodeState := {}
  col : Nat := 0
  forStack : List ForLoop := []
  programData : Nat := 0
  immediateData : Nat := 0
  fn : FnState := {}
  input : CStr := []
  inp : Int := 0
  inputPc : Nat := 0
  keywordsAnywhere : Bool := false
  traceBasic : Bool := false
  traceFor : Bool := false
  inputPrompt : Bool := false
  world : World := {}

/-- The errors reported by `run_error` (Basic/run.c:394-407), one per message, with the line of the
call.  `STRING_TOO_LONG` (408) and "error reading input" (916) are included; the strict-mode
messages and those of other platforms are not. -/
inductive RunError where
  | concatTooLong              -- 689
  | forTooDeep                 -- 741
  | nextWithoutFor             -- 762, 783
  | nextWithoutForVar          -- 774
  | defParams                  -- 797
  | runIntoParam               -- 813
  | onInvalid                  -- 822
  | onLineExpected             -- 831
  | numericDataExpected        -- 983
  | invalidCharCode            -- 1024
  | stringTooLong              -- 1062, 1093, 1115
  | invalidLog                 -- 1078
  | stringIndex                -- 1088
  | invalidNumber              -- 1161
  | numOverflow                -- 1177
  | numEmpty                   -- 1186
  | invalidLogical             -- 1202
  | notNonNegative             -- 1209
  | outOfRange                 -- 1211
  | indexNotNonNegative        -- 1218
  | indexOutOfRange            -- 1220
  | strOverflow                -- 1232
  | strEmpty                   -- 1238
  | invalidDimensions          -- 1277, 1359
  | badIndexes                 -- 1295, 1378
  | lineNotFound (n : Nat)     -- 1440
  | noData                     -- 1466
  | outOfData                  -- 1472
  | gosubTooDeep               -- 1489
  | returnWithoutGosub         -- 1497
  | notDefined                 -- 1536
  | nestedCall                 -- 1541
  | paramCount                 -- 1544
  | corruptMissing             -- 1548
  | corruptParam               -- 1561
  | unexpectedEndDef           -- 1580
  | unknownOpcode              -- 1170
  deriving DecidableEq, Repr

/-- Result of a step of the machine: normal return, `longjmp` out of `run_error` with the state left
behind (Basic/run.c:394-407), or the end of the process. -/
inductive Res (α : Type) where
  | ok (a : α) (vm : VM)
  | err (e : RunError) (vm : VM)
  | halt (h : Halt)

/-- Functions of Basic/run.c that take the `VM*` (lines 410-1600). -/
def VmM (α : Type) := VM → Res α

/-- Sequencing: an error or a halt skips the rest (Basic/run.c:406, 345). -/
def VmM.bind {α β} (x : VmM α) (f : α → VmM β) : VmM β := fun vm =>
  match x vm with
  | .ok a vm' => f a vm'
  | .err e vm' => .err e vm'
  | .halt h => .halt h

instance : Monad VmM where
  pure a := fun vm => .ok a vm
  bind := VmM.bind

namespace V

/-- Reading the machine (`vm->…`, Basic/run.c). -/
def get : VmM VM := fun vm => .ok vm vm

/-- Writing the machine (`vm->… = …`, Basic/run.c). -/
def modify (f : VM → VM) : VmM Unit := fun vm => .ok () (f vm)

/-- `run_error` (Basic/run.c:394-407). -/
def fail {α} (e : RunError) : VmM α := fun vm => .err e vm

/-- A failed `assert` or undefined behaviour (Basic/run.c). -/
def halt {α} (h : Halt) : VmM α := fun _ => .halt h

/-- Calling a function that may end the process (Basic/run.c). -/
def lift {α} : Outcome α → VmM α
  | .ok a => pure a
  | .halt h => halt h

/-- `assert(cond)` (Basic/run.c). -/
def assert (b : Bool) (w : String) : VmM Unit := if b then pure () else halt (.assertFail w)

/-- `if (cond) …` without `else` (Basic/run.c). -/
def when_ (b : Bool) (x : VmM Unit) : VmM Unit := if b then x else pure ()

/-- `if (cond) run_error(…)` (Basic/run.c). -/
def check (b : Bool) (e : RunError) : VmM Unit := if b then fail e else pure ()

/-- Writing text to standard output (`putchar`, `fputs`, `puts`, `printf` in Basic/run.c). -/
def out (s : CStr) : VmM Unit := modify (fun vm => { vm with world := { vm.world with out := vm.world.out ++ s } })

/-- The `CODE` a reference points to (Basic/run.c:64-66). -/
def codeOf (vm : VM) : CodeRef → Code
  | .stored => vm.stored
  | .immediate => vm.immediate
  | .def_ => vm.defCode

/-- `vm->code_state.code->bcode` (Basic/run.c:471); a null pointer is undefined behaviour. -/
def curBcode : VmM Bcode := fun vm =>
  match vm.cs.code with
  | none => .halt (.outOfBounds "code_state.code is NULL")
  | some r => match (codeOf vm r).bcode with
    | none => .halt (.outOfBounds "bcode is NULL")
    | some b => .ok b vm

/-- `vm->code_state.code->source` (Basic/run.c:481). -/
def curSource : VmM (Option Source) := fun vm =>
  match vm.cs.code with
  | none => .halt (.outOfBounds "code_state.code is NULL")
  | some r => .ok (codeOf vm r).source vm

/-- `vm->code_state.pc = pc` (Basic/run.c). -/
def setPc (pc : Nat) : VmM Unit := modify (fun vm => { vm with cs := { vm.cs with pc := pc } })

/-- `vm->st = st`, used for writes into the symbol table (Basic/run.c). -/
def setSt (st : SymTab) : VmM Unit := modify (fun vm => { vm with st := st })

/-- `symbol(vm->st, id)` (Basic/run.c:501; Basic/symbol.c:148-152). -/
def sym (id : Nat) : VmM Symbol := fun vm =>
  match symbolAt vm.st id with
  | .ok s => .ok s vm
  | .halt h => .halt h

/-- Writing through a `SYMBOL*` (Basic/run.c:515-518, 1264-1268). -/
def updSym (id : Nat) (f : Symbol → Symbol) : VmM Unit :=
  modify (fun vm => { vm with st := symUpdate vm.st id f })

/-- `push` (Basic/run.c:1175-1182). -/
def push (x : Dbl) : VmM Unit := fun vm =>
  if vm.stack.length ≥ maxNumStack then .err .numOverflow vm
  else .ok () { vm with stack := x :: vm.stack }

/-- `pop` (Basic/run.c:1184-1193). -/
def pop : VmM Dbl := fun vm =>
  match vm.stack with
  | [] => .err .numEmpty vm
  | x :: s => .ok x { vm with stack := s }

/-- `push_logic` (Basic/run.c:1195-1197). -/
def pushLogic (b : Bool) : VmM Unit := push (if b then .fin (-1) else .fin 0)

/-- Range test of `pop_logic` (Basic/run.c:1201): `x < INT_MIN || x > INT_MAX || x != floor(x)`. -/
def badLogic (x : Dbl) : Bool :=
  Dbl.lt x (.fin (-2147483648)) || Dbl.lt (.fin 2147483647) x || Dbl.ne x (Dbl.floor x)

/-- `pop_logic` (Basic/run.c:1199-1204). -/
def popLogic : VmM Int := do
  let x ← pop
  if badLogic x then fail .invalidLogical else pure (Dbl.toInt x)

/-- First test of `pop_unsigned` and `pop_index` (Basic/run.c:1208, 1217): `x < 0 || floor(x) != x`. -/
def notNatural (x : Dbl) : Bool := Dbl.lt x (.fin 0) || Dbl.ne (Dbl.floor x) x

/-- Second test of `pop_unsigned` and `pop_index` (Basic/run.c:1210, 1219): `x > (unsigned)(-1)`. -/
def aboveUnsigned (x : Dbl) : Bool := Dbl.lt (.fin 4294967295) x

/-- `pop_unsigned` (Basic/run.c:1206-1213). -/
def popUnsigned : VmM Nat := do
  let x ← pop
  if notNatural x then fail .notNonNegative
  else if aboveUnsigned x then fail .outOfRange
  else pure (Dbl.toNat x)

/-- `pop_index` (Basic/run.c:1215-1222). -/
def popIndex : VmM Nat := do
  let x ← pop
  if notNatural x then fail .indexNotNonNegative
  else if aboveUnsigned x then fail .indexOutOfRange
  else pure (Dbl.toNat x)

/-- Loop of `pop_indexes` (Basic/run.c:1226-1227). -/
def popIndexLoop : Nat → VmM (List Nat)
  | 0 => pure []
  | n + 1 => do
    let i ← popIndex
    let is ← popIndexLoop n
    pure (i :: is)

/-- `pop_indexes` (Basic/run.c:1224-1228): in the order they are popped. -/
def popIndexes (dimensions : Nat) : VmM (List Nat) := do
  assert (decide (dimensions ≤ maxDimensions)) "pop_indexes"
  popIndexLoop dimensions

/-- `push_str` (Basic/run.c:1230-1234). -/
def pushStr (s : CStr) : VmM Unit := fun vm =>
  if vm.strstack.length ≥ maxStrStack then .err .strOverflow vm
  else .ok () { vm with strstack := s :: vm.strstack }

/-- `pop_str` (Basic/run.c:1236-1241). -/
def popStr : VmM CStr := fun vm =>
  match vm.strstack with
  | [] => .err .strEmpty vm
  | x :: s => .ok x { vm with strstack := s }

/-- `compare_strings` (Basic/run.c:1243-1250). -/
def compareStrings : VmM Int := do
  let t ← popStr
  let s ← popStr
  pure (strcmp s t)

/-- The assertion `sym->kind == SYM_VARIABLE && sym->type == …` (Basic/run.c:1253, 1265, 1334, 1347). -/
def isVar (s : Symbol) (t : Ty) : Bool := s.kind == .variable && s.type == t

/-- The assertion `sym->kind == SYM_ARRAY && sym->type == …` (Basic/run.c:512, 648, 1272, 1300, 1313). -/
def isArr (s : Symbol) (t : Ty) : Bool := s.kind == .array && s.type == t

/-- `get_numeric_simple` (Basic/run.c:1252-1262). -/
def getNumericSimple (id : Nat) : VmM Unit := do
  let s ← sym id
  assert (isVar s .num) "get_numeric_simple"
  when_ (!s.defined) (updSym id (fun s => { s with num := .fin 0, defined := true }))
  let s ← sym id
  push s.num

/-- `set_numeric_simple` (Basic/run.c:1264-1269). -/
def setNumericSimple (id : Nat) (val : Dbl) : VmM Unit := do
  let s ← sym id
  assert (isVar s .num) "set_numeric_simple"
  updSym id (fun s => { s with num := val, defined := true })

/-- The members of a symbol used by the numeric (Basic/run.c:1271-1331) and the string
(Basic/run.c:1353-1419) array functions, which are copies of each other. -/
structure ArrField (α : Type) where
  type : Ty
  zero : α
  get : Symbol → Option (BArray α)
  set : Option (BArray α) → Symbol → Symbol

/-- `val.numarr` (Basic/symbol.h:36, Basic/run.c:1271-1331). -/
def numField : ArrField Dbl :=
  { type := .num, zero := .fin 0, get := (·.numarr), set := fun a s => { s with numarr := a } }

/-- `val.strarr` (Basic/symbol.h:37, Basic/run.c:1353-1419). -/
def strField : ArrField (Option CStr) :=
  { type := .str, zero := none, get := (·.strarr), set := fun a s => { s with strarr := a } }

/-- `dimension_numeric` and `dimension_string` (Basic/run.c:1271-1280, 1353-1362); `array_base` is 0. -/
def dimension {α} (F : ArrField α) (id : Nat) (max : List Nat) : VmM Unit := do
  let s ← sym id
  assert (isArr s F.type) "dimension"
  match ← lift (newArray F.zero 0 max) with
  | none => do
    updSym id (fun s => { F.set none s with defined := false })
    fail .invalidDimensions
  | some a => updSym id (fun s => { F.set (some a) s with defined := true })

/-- `dimension_numeric_auto` and `dimension_string_auto` (Basic/run.c:1283-1291, 1364-1372). -/
def dimensionAuto {α} (F : ArrField α) (id : Nat) (indexes : List Nat) : VmM Unit := do
  let s ← sym id
  assert (F.get s).isNone "dimension_auto"
  dimension F id (indexes.map (fun i => if i < 10 then 10 else i))

/-- `B_DIM_NUM` and `B_DIM_STR` (Basic/run.c:510-523, 646-659). -/
def dimStatement {α} (F : ArrField α) (id ndim : Nat) : VmM Unit := do
  let s ← sym id
  assert (isArr s F.type) "B_DIM"
  when_ (F.get s).isSome (do
    assert s.defined "B_DIM defined"
    updSym id (fun s => { F.set none s with defined := false }))
  let max ← popIndexes ndim
  dimension F id max

/-- Common part of `get_…_element` and `set_…_element` (Basic/run.c:1300-1308, 1313-1321, 1383-1391,
1396-1404): the array, dimensioned if necessary, and the subscripts. -/
def elementArray {α} (F : ArrField α) (id ndim : Nat) : VmM (BArray α × List Nat) := do
  let s ← sym id
  assert (isArr s F.type) "element"
  let indexes ← popIndexes ndim
  when_ (!s.defined) (dimensionAuto F id indexes)
  let s ← sym id
  match F.get s with
  | none => halt (.assertFail "element array")
  | some a => pure (a, indexes)

/-- `get_numeric_element` and `get_string_element` with `numeric_element` and `string_element`
(Basic/run.c:1293-1310, 1374-1393): the value read. -/
def getElement {α} (F : ArrField α) (id ndim : Nat) : VmM α := do
  let (a, indexes) ← elementArray F id ndim
  match ← lift (arrayGet a indexes) with
  | none => fail .badIndexes
  | some v => pure v

/-- `set_numeric_element` and `set_string_element` (Basic/run.c:1312-1322, 1395-1408). -/
def setElement {α} (F : ArrField α) (id ndim : Nat) (val : α) : VmM Unit := do
  let (a, indexes) ← elementArray F id ndim
  match ← lift (arraySet a indexes val) with
  | none => fail .badIndexes
  | some a' => updSym id (F.set (some a'))

/-- `set_numeric` (Basic/run.c:1324-1329). -/
def setNumeric (id ndim : Nat) (val : Dbl) : VmM Unit :=
  if ndim = 0 then setNumericSimple id val else setElement numField id ndim val

/-- `get_string_simple` (Basic/run.c:1333-1344). -/
def getStringSimple (id : Nat) : VmM Unit := do
  let s ← sym id
  assert (isVar s .str) "get_string_simple"
  when_ (!s.defined) (updSym id (fun s => { s with str := none, defined := true }))
  let s ← sym id
  pushStr (s.str.getD [])

/-- `set_string_simple` (Basic/run.c:1346-1356). -/
def setStringSimple (id : Nat) (val : CStr) : VmM Unit := do
  let s ← sym id
  assert (isVar s .str) "set_string_simple"
  when_ s.str.isSome (assert s.defined "set_string_simple defined")
  updSym id (fun s => { s with str := some val, defined := true })

/-- `set_string` (Basic/run.c:1410-1415). -/
def setString (id ndim : Nat) (val : CStr) : VmM Unit :=
  if ndim = 0 then setStringSimple id val else setElement strField id ndim (some val)

/-- `*s == ' ' || *s == '\t'` (Basic/run.c:1418, 1424, 931). -/
def isSpTab (c : Char) : Bool := c == ' ' || c == '\t'

/-- `convert` (Basic/run.c:1421-1434): the value and the text after it. -/
def convert (s : CStr) : Option (Dbl × CStr) :=
  match s.dropWhile isSpTab with
  | [] => none
  | c :: r =>
    if isdigit c || c == '.' || c == '-' || c == '+' then
      let (x, rest) := strtod (c :: r)
      some (x, rest.dropWhile isSpTab)
    else none

/-- `find_basic_line` (Basic/run.c:1436-1442). -/
def findBasicLine (n : Nat) : VmM Nat := fun vm =>
  match vm.stored.index.bind (lookupLineMapping · n) with
  | none => .err (.lineNotFound n) vm
  | some pc => .ok pc vm

/-- `go_to_basic_line` (Basic/run.c:1444-1448). -/
def goToBasicLine (n : Nat) : VmM Unit := do
  let pc ← findBasicLine n
  modify (fun vm => { vm with cs := { vm.cs with pc := pc, code := some .stored } })

/-- `while (dp < bc->used && bc->inst[dp].op != …) dp++` (Basic/run.c:1469-1470; with a first `++`,
lines 807-809, 840-842, 848-850, 853-855). -/
def scan (p : Inst → Bool) (insts : List Inst) (pc : Nat) : Nat :=
  pc + ((insts.drop pc).takeWhile (fun i => !p i)).length

/-- First part of `find_data` (Basic/run.c:1453-1463): the code read from, the position in it, and
whether it is the immediate code. -/
def dataSource (vm : VM) : Outcome (Option Bcode × Nat × Bool) :=
  if vm.cs.code = some .immediate then
    match vm.immediate.bcode with
    | none => .halt (.assertFail "find_data")
    | some b =>
      if b.hasData then .ok (some b, vm.immediateData, true)
      else .ok (vm.stored.bcode, vm.programData, false)
  else .ok (vm.stored.bcode, vm.programData, false)

/-- `find_data` (Basic/run.c:1452-1485).  The operand of `B_DATA` is never NULL, so the test in
lines 1475-1476 is left out. -/
def findData : VmM CStr := do
  let vm ← get
  let (bc, dp, imm) ← lift (dataSource vm)
  match bc with
  | none => fail .noData
  | some b =>
    if !b.hasData then fail .noData
    else
      match b.inst[scan Inst.isData b.inst dp]? with
      | some (.data s) => do
        let dp' := scan Inst.isData b.inst dp + 1
        modify (fun vm => if imm then { vm with immediateData := dp' } else { vm with programData := dp' })
        pure s
      | _ => fail .outOfData

/-- `push_return` (Basic/run.c:1487-1493). -/
def pushReturn (pc : Nat) : VmM Unit := fun vm =>
  if vm.retstack.length ≥ maxReturnStack then .err .gosubTooDeep vm
  else .ok () { vm with retstack := { vm.cs with pc := pc } :: vm.retstack }

/-- `pop_return` (Basic/run.c:1495-1500). -/
def popReturn : VmM Unit := fun vm =>
  match vm.retstack with
  | [] => .err .returnWithoutGosub vm
  | cs :: r => .ok () { vm with retstack := r, cs := cs }

/-- `find_for` (Basic/run.c:1503-1509). -/
def findFor (vm : VM) (id : Nat) : Option Nat := vm.forStack.findIdx? (fun f => f.symbolId == id)

/-- Text of one entry in `dump_for_stack` (Basic/run.c:1608-1609). -/
def dumpEntry (f : ForLoop) : VmM CStr := do
  let s ← sym f.symbolId
  pure (s.name ++ " = ".toList ++ Dbl.fmtG s.num ++ ", ".toList ++ Dbl.fmtG f.limit ++ "; ".toList)

/-- Loop of `dump_for_stack` (Basic/run.c:1607-1610). -/
def dumpEntries : List ForLoop → VmM CStr
  | [] => pure []
  | f :: fs => do
    let a ← dumpEntry f
    let b ← dumpEntries fs
    pure (a ++ b)

/-- `dump_for_stack` (Basic/run.c:1602-1613). -/
def dumpForStack (tag : String) : VmM Unit := do
  let vm ← get
  let body ← if vm.forStack.isEmpty then pure "empty".toList else dumpEntries vm.forStack.reverse
  out ("-- ".toList ++ tag.toList ++ ": ".toList ++ body ++ ['\n'])

/-- `dump_for` (Basic/run.c:1596-1600). -/
def dumpFor (tag : String) : VmM Unit := do
  let src ← curSource
  let vm ← get
  match src with
  | none => halt (.outOfBounds "dump_for: source is NULL")
  | some src => do
    let n ← lift (sourceLinenum src vm.cs.sourceLine)
    let t ← lift (sourceText src vm.cs.sourceLine)
    out ("[".toList ++ tag.toList ++ "]\n-- line: ".toList ++ fmtU n ++ ' ' :: t ++ ['\n'])
    dumpForStack "initial stack"

/-- `if (vm->trace_for) dump…` (Basic/run.c:722, 754, 759, 780, 1528). -/
def traced (x : VmM Unit) : VmM Unit := do
  let vm ← get
  when_ vm.traceFor x

/-- Exit test of a loop (Basic/run.c:1518). -/
def pastLimit (step x limit : Dbl) : Bool :=
  (Dbl.lt (.fin 0) step && Dbl.lt limit x) || (Dbl.lt step (.fin 0) && Dbl.lt x limit)

/-- `next` (Basic/run.c:1514-1530). -/
def next (si : Nat) : VmM Unit := do
  let vm ← get
  match vm.forStack[si]? with
  | none => halt (.outOfBounds "for_stack")
  | some f => do
    let s ← sym f.symbolId
    let x := Dbl.add s.num f.step
    (if pastLimit f.step x f.limit then
      modify (fun vm => { vm with forStack := vm.forStack.eraseIdx si })
    else
      modify (fun vm => { vm with st := symUpdate vm.st f.symbolId (fun s => { s with num := x }),
                                  cs := f.codeState }))
    traced (dumpForStack "final stack")

/-- Choosing the entry for a `FOR` (Basic/run.c:726-746): an entry of the same variable is moved to
the top, otherwise a new entry is made. -/
def forEntry (id : Nat) : VmM Unit := do
  let vm ← get
  match findFor vm id with
  | some si =>
    match vm.forStack[si]? with
    | none => halt (.outOfBounds "for_stack")
    | some f => modify (fun vm => { vm with forStack := vm.forStack.eraseIdx si ++ [f] })
  | none =>
    if vm.forStack.length ≥ maxFor then do
      dumpForStack "overflow"
      fail .forTooDeep
    else modify (fun vm => { vm with forStack := vm.forStack ++ [⟨clearCodeState, id, .fin 0, .fin 0⟩] })

/-- Writing to the entry at the top of the `FOR` stack (Basic/run.c:747-751). -/
def setTopFor (f : ForLoop → ForLoop) : VmM Unit :=
  modify (fun vm => { vm with forStack := vm.forStack.modify (vm.forStack.length - 1) f })

/-- The entry at the top of the `FOR` stack belongs to the variable and returns to this instruction
(Basic/run.c:726-748). -/
def forTop (id : Nat) : VmM Unit := do
  forEntry id
  let vm ← get
  setTopFor (fun f => { f with codeState := vm.cs, symbolId := id })

/-- `B_FOR` (Basic/run.c:721-757).  A new entry starts cleared instead of with stale memory: all its
members are written before they are read. -/
def forStatement (id : Nat) : VmM Unit := do
  traced (dumpFor "FOR")
  let s ← sym id
  assert (isVar s .num) "B_FOR"
  forTop id
  let step ← pop
  setTopFor (fun f => { f with step := step })
  let limit ← pop
  setTopFor (fun f => { f with limit := limit })
  let x ← pop
  updSym id (fun s => { s with num := x, defined := true })
  traced (dumpForStack "final stack")

/-- `B_NEXT_VAR` (Basic/run.c:758-778). -/
def nextVariable (id : Nat) : VmM Unit := do
  traced (dumpFor "NEXT-VARIABLE")
  let vm ← get
  match vm.forStack.getLast? with
  | none => fail .nextWithoutFor
  | some f =>
    if f.symbolId = id then next (vm.forStack.length - 1)
    else match findFor vm id with
      | none => fail .nextWithoutForVar
      | some si => next si

/-- `B_NEXT_IMP` (Basic/run.c:779-786). -/
def nextImplicit : VmM Unit := do
  traced (dumpFor "NEXT-IMPLICIT")
  let vm ← get
  if vm.forStack.isEmpty then fail .nextWithoutFor
  else next (vm.forStack.length - 1)

/-- `call_def` (Basic/run.c:1532-1576).  `def_code.source` is not modelled (`Def`). -/
def callDef (id params : Nat) : VmM Unit := do
  let s ← sym id
  assert (s.kind == .def_) "call_def"
  check (!s.defined) .notDefined
  match s.def_ with
  | none => halt (.assertFail "call_def def")
  | some d => do
    let vm ← get
    check vm.fn.codeState.code.isSome .nestedCall
    check (decide (params ≠ 1)) .paramCount
    let bc ← curBcode
    check (decide (vm.cs.pc + params ≥ bc.used)) .corruptMissing
    modify (fun vm => { vm with fn := { vm.fn with codeState := vm.cs } })
    modify (fun vm => { vm with defCode := { vm.defCode with bcode := some d.bcode } })
    modify (fun vm => { vm with cs := { code := some .def_, sourceLine := d.sourceLine, pc := 0 } })
    match d.bcode.inst[1]? with
    | none => halt (.outOfBounds "call_def parameter")
    | some (Inst.param pid) => do
      let ps ← sym pid
      assert (isVar ps .num) "call_def parameter"
      modify (fun vm => { vm with fn := { vm.fn with paramId := pid, paramDefined := ps.defined, paramVal := ps.num } })
      let x ← pop
      updSym pid (fun s => { s with num := x, defined := true })
      modify (fun vm => { vm with cs := { vm.cs with pc := vm.cs.pc + params } })
    | some _ => fail .corruptParam

/-- `end_def` (Basic/run.c:1578-1587). -/
def endDef : VmM Unit := do
  let vm ← get
  check vm.fn.codeState.code.isNone .unexpectedEndDef
  modify (fun vm => { vm with cs := vm.fn.codeState })
  modify (fun vm => { vm with fn := { vm.fn with codeState := { vm.fn.codeState with code := none } } })
  let _ ← sym vm.fn.paramId
  updSym vm.fn.paramId (fun s => { s with defined := vm.fn.paramDefined, num := vm.fn.paramVal })

/-- `B_DEF` (Basic/run.c:787-811). -/
def defStatement (id params : Nat) : VmM Unit := do
  let s ← sym id
  assert (s.kind == .def_) "B_DEF"
  when_ s.def_.isSome (do
    assert s.defined "B_DEF defined"
    updSym id (fun s => { s with def_ := none, defined := false }))
  check (decide (params ≠ 1)) .defParams
  let bc ← curBcode
  let vm ← get
  let body ← lift (bcodeCopyDef bc vm.cs.pc)
  let line := if vm.cs.code = some .stored then vm.cs.sourceLine else 0
  updSym id (fun s => { s with def_ := some ⟨body, line⟩, defined := true })
  setPc (scan Inst.isEndDef bc.inst (vm.cs.pc + 1))

/-- Result of `execute`'s switch: `break` or `return` (Basic/run.c:474-1171). -/
inductive Flow where
  | brk | ret
  deriving DecidableEq, Repr

/-- A case that ends with `break` (Basic/run.c:474-1171). -/
def brk (x : VmM Unit) : VmM Flow := do
  x
  pure .brk

/-- A case that ends with `return` (Basic/run.c:474-1171). -/
def ret (x : VmM Unit) : VmM Flow := do
  x
  pure .ret

/-- The arithmetic operators (Basic/run.c:545-569). -/
def arithOp (env : Env) : Arith → Dbl → Dbl → Dbl
  | .add => Dbl.add
  | .sub => Dbl.sub
  | .mul => Dbl.mul
  | .div => Dbl.div
  | .pow => env.pow

/-- The comparisons of numbers (Basic/run.c:570-599). -/
def relNum : Rel → Dbl → Dbl → Bool
  | .eq, x, y => Dbl.eq x y
  | .lt, x, y => Dbl.lt x y
  | .gt, x, y => Dbl.lt y x
  | .ne, x, y => Dbl.ne x y
  | .le, x, y => Dbl.le x y
  | .ge, x, y => Dbl.le y x

/-- The comparisons of strings, from the result of `strcmp` (Basic/run.c:666-683). -/
def relStr : Rel → Int → Bool
  | .eq, r => r == 0
  | .lt, r => decide (r < 0)
  | .gt, r => decide (r > 0)
  | .ne, r => r != 0
  | .le, r => decide (r ≤ 0)
  | .ge, r => decide (r ≥ 0)

/-- `|` on `int` (Basic/run.c:603). -/
def orInt (a b : Int) : Int := (BitVec.ofInt 32 a ||| BitVec.ofInt 32 b).toInt

/-- `&` on `int` (Basic/run.c:609). -/
def andInt (a b : Int) : Int := (BitVec.ofInt 32 a &&& BitVec.ofInt 32 b).toInt

/-- `~` on `int` (Basic/run.c:614). -/
def notInt (a : Int) : Int := (~~~ (BitVec.ofInt 32 a)).toInt

/-- `if (pop(vm))`: NaN counts as true (Basic/run.c:709, 838, 846). -/
def truth (x : Dbl) : Bool := !Dbl.isZero x

/-- Size of the buffers for string results (Basic/run.c:687, 1060, 1091, 1113). -/
def strBuf : Nat := 256

/-- `s[0]` as a signed `char` (Basic/run.c:1011). -/
def firstChar (s : CStr) : Int :=
  match s with
  | [] => 0
  | c :: _ => if c.toNat < 128 then c.toNat else (c.toNat : Int) - 256

/-- Range test of `B_CHR` (Basic/run.c:1023). -/
def badChar (x : Dbl) : Bool :=
  Dbl.lt x (.fin 0) || Dbl.lt (.fin 255) x || Dbl.ne x (Dbl.floor x)

/-- The buffer made by `B_CHR` as a string (Basic/run.c:1025-1028): code 0 gives the empty string.
The conversion of 128…255 to a signed `char` is assumed to wrap. -/
def chrStr (x : Dbl) : CStr := if Dbl.toNat x = 0 then [] else [Char.ofNat (Dbl.toNat x)]

/-- `B_SGN` (Basic/run.c:1130-1138). -/
def sgn (x : Dbl) : Dbl :=
  if Dbl.lt x (.fin 0) then .fin (-1) else if Dbl.lt (.fin 0) x then .fin 1 else x

/-- `B_RND` (Basic/run.c:1122-1129): one turn of the loop.  A value of at least 1 leaves the machine at
the same instruction, so that the next step draws again. -/
def rndStep (env : Env) : VmM Flow := do
  let vm ← get
  let (r, g) := env.rand vm.world.rng
  modify (fun vm => { vm with world := { vm.world with rng := g } })
  let x := Dbl.div (Dbl.ofInt r) (Dbl.ofInt env.randMax)
  if Dbl.le (.fin 1) x then pure .ret
  else brk (push x)

/-- Reading the clock (`time(NULL)`, Basic/run.c:1003, 1149). -/
def readClock (env : Env) : VmM Nat := do
  let vm ← get
  modify (fun vm => { vm with world := { vm.world with ticks := vm.world.ticks + 1 } })
  pure (env.time vm.world.ticks)

/-- `B_LEFT` (Basic/run.c:1054-1068). -/
def leftFn : VmM Unit := do
  let s ← popStr
  let u ← popUnsigned
  let u := if u > s.length then s.length else u
  check (decide (u + 1 > strBuf)) .stringTooLong
  pushStr (s.take u)

/-- `B_RIGHT` (Basic/run.c:1107-1121). -/
def rightFn : VmM Unit := do
  let s ← popStr
  let u ← popUnsigned
  let u := if u > s.length then s.length else u
  check (decide (u + 1 > strBuf)) .stringTooLong
  pushStr ((s.drop (s.length - u)).take u)

/-- `B_MID3` (Basic/run.c:1082-1099). -/
def midFn : VmM Unit := do
  let s ← popStr
  let v ← popUnsigned
  let u ← popUnsigned
  check (decide (u < 1 ∨ u > s.length)) .stringIndex
  let v := if v > s.length - u + 1 then s.length - u + 1 else v
  check (decide (v + 1 > strBuf)) .stringTooLong
  pushStr ((s.drop (u - 1)).take v)

/-- `B_VAL` (Basic/run.c:1156-1165). -/
def valFn : VmM Unit := do
  let s ← popStr
  match convert s with
  | some (x, []) => push x
  | _ => fail .invalidNumber

/-- `%02u` (Basic/run.c:1152) for numbers below 100. -/
def twoDigits (n : Nat) : CStr := if n < 10 then '0' :: fmtU n else fmtU n

/-- `%02u:%02u:%02u` (Basic/run.c:1152). -/
def timeText (t : Fin 24 × Fin 60 × Fin 61) : CStr :=
  twoDigits t.1 ++ ':' :: twoDigits t.2.1 ++ ':' :: twoDigits t.2.2

/-- The built-in functions other than `RND` (Basic/run.c:1009-1165). -/
def builtinOp (env : Env) : Bi → VmM Unit
  | .asc => do let s ← popStr; push (Dbl.ofInt (firstChar s))
  | .abs => do let x ← pop; push (Dbl.fabs x)
  | .atn => do let x ← pop; push (env.atan x)
  | .chr => do
    let x ← pop
    check (badChar x) .invalidCharCode
    pushStr (chrStr x)
  | .cos => do let x ← pop; push (env.cos x)
  | .exp => do let x ← pop; push (env.exp x)
  | .int => do let x ← pop; push (Dbl.floor x)
  | .left => leftFn
  | .len => do let s ← popStr; push (Dbl.ofInt s.length)
  | .log => do
    let x ← pop
    check (Dbl.le x (.fin 0)) .invalidLog
    push (env.log x)
  | .mid3 => midFn
  | .str => do let x ← pop; pushStr (Dbl.fmtG x)
  | .right => rightFn
  | .sgn => do let x ← pop; push (sgn x)
  | .sin => do let x ← pop; push (env.sin x)
  | .sqr => do let x ← pop; push (env.sqrt x)
  | .tan => do let x ← pop; push (env.tan x)
  | .timeStr => do let t ← readClock env; pushStr (timeText (env.localtime t))
  | .val => valFn
  | .rnd => pure ()

/-- Position after writing text, one character at a time (Basic/run.c:893-899). -/
def colAfter : Nat → CStr → Nat
  | col, [] => col
  | col, c :: s => colAfter (if c = '\n' then 1 else u32 (col + 1)) s

/-- The loop of `B_PRINT_COMMA` (Basic/run.c:881-883), at most `n` turns: text and position. -/
def commaLoop : Nat → Nat → CStr × Nat
  | 0, col => ([], col)
  | n + 1, col =>
    let col' := u32 (col + 1)
    if col' % tabSize ≠ 1 then ((' ' :: (commaLoop n col').1), (commaLoop n col').2)
    else ([' '], col')

/-- Writing text and setting the position `vm->col` (Basic/run.c:858-902). -/
def outCol (s : CStr) (col : Nat) : VmM Unit := do
  out s
  modify (fun vm => { vm with col := col })

/-- `B_PRINT_SPC` (Basic/run.c:862-868). -/
def printSpc : VmM Unit := do
  let k ← popUnsigned
  let vm ← get
  outCol (List.replicate k ' ') (u32 (vm.col + k))

/-- `B_PRINT_TAB` (Basic/run.c:869-879). -/
def printTab : VmM Unit := do
  let k ← popUnsigned
  let vm ← get
  let (nl, col) := if k < vm.col then (['\n'], 1) else ([], vm.col)
  outCol (nl ++ List.replicate (k - col) ' ') (if col < k then k else col)

/-- `B_PRINT_COMMA` (Basic/run.c:880-885): eight turns are enough to reach a tab stop. -/
def printComma : VmM Unit := do
  let vm ← get
  outCol (commaLoop tabSize vm.col).1 (commaLoop tabSize vm.col).2

/-- `B_PRINT_NUM` (Basic/run.c:886-889). -/
def printNum : VmM Unit := do
  let x ← pop
  let vm ← get
  let s := ' ' :: Dbl.fmtG x ++ [' ']
  outCol s (u32 (vm.col + s.length))

/-- `B_PRINT_STR` (Basic/run.c:890-902). -/
def printStr : VmM Unit := do
  let s ← popStr
  let vm ← get
  outCol s (colAfter vm.col s)

/-- `fgets` in `B_INPUT_BUF` (Basic/run.c:914-917).  Read errors other than the end of the input are not
modelled; at the end of the input the buffer keeps its contents. -/
def readInputLine : VmM Unit := modify (fun vm =>
  match fgets inputSize vm.world.stdin with
  | none => vm
  | some (buf, rest) => { vm with input := cstr buf, world := { vm.world with stdin := rest } })

/-- `B_INPUT_BUF` (Basic/run.c:908-920). -/
def inputBuf (prompt : Option CStr) : VmM Unit := do
  out (prompt.getD [])
  let vm ← get
  when_ vm.inputPrompt (out "? ".toList)
  readInputLine
  modify (fun vm => { vm with inp := 0, inputPc := vm.cs.pc })

/-- `vm->input + vm->inp` (Basic/run.c:923, 931, 943, 955): the rest of the buffer.  A position before the
buffer or after its terminator is an out-of-bounds access. -/
def inputRest : VmM CStr := fun vm =>
  if vm.inp < 0 ∨ vm.inp > vm.input.length then .halt (.outOfBounds "input")
  else .ok (vm.input.drop vm.inp.toNat) vm

/-- `vm->inp += n` (Basic/run.c:924, 932, 934, 957). -/
def advance (n : Nat) : VmM Unit := modify (fun vm => { vm with inp := vm.inp + n })

/-- Blanks skipped by `B_INPUT_END` (Basic/run.c:923). -/
def isEndBlank (c : Char) : Bool := c == ' ' || c == '\t' || c == '\n' || c == '\r'

/-- `B_INPUT_END` (Basic/run.c:921-928). -/
def inputEnd : VmM Unit := do
  let s ← inputRest
  advance (s.takeWhile isEndBlank).length
  when_ (!(s.dropWhile isEndBlank).isEmpty) (out "* Extra input was discarded *\n".toList)

/-- Repeating an `INPUT` (Basic/run.c:937-939, 950-952): message and return to its start. -/
def inputAgain (msg : String) : VmM Flow := do
  out msg.toList
  modify (fun vm => { vm with cs := { vm.cs with pc := vm.inputPc } })
  pure .ret

/-- `B_INPUT_SEP` (Basic/run.c:929-940). -/
def inputSep : VmM Flow := do
  let s ← inputRest
  advance (s.takeWhile isSpTab).length
  match s.dropWhile isSpTab with
  | ',' :: _ => brk (advance 1)
  | _ => inputAgain "* More input items are expected *\n"

/-- The characters that end a numeric item (Basic/run.c:944). -/
def endsNumber : CStr → Bool
  | [] => true
  | c :: _ => c == '\n' || c == ','

/-- `B_INPUT_NUM` (Basic/run.c:941-953). -/
def inputNum (id ndim : Nat) : VmM Flow := do
  let s ← inputRest
  match convert s with
  | some (x, t) =>
    if endsNumber t then do
      let _ ← sym id
      setNumeric id ndim x
      modify (fun vm => { vm with inp := (vm.input.length : Int) - t.length })
      pure .brk
    else inputAgain "* Invalid input *\n"
  | none => inputAgain "* Invalid input *\n"

/-- The characters of a string item (Basic/run.c:956). -/
def inStrItem (c : Char) : Bool := c != '\n' && c != ','

/-- `B_INPUT_STR` (Basic/run.c:954-965). -/
def inputStr (id ndim : Nat) : VmM Unit := do
  let s ← inputRest
  let t := s.takeWhile inStrItem
  advance t.length
  let _ ← sym id
  setString id ndim t

/-- `B_INPUT_LINE` (Basic/run.c:966-974). -/
def inputLine (id ndim : Nat) : VmM Unit := do
  modify (fun vm => { vm with input := vm.input.takeWhile (fun c => c != '\n') })
  let vm ← get
  let _ ← sym id
  setString id ndim vm.input

/-- `B_READ_NUM` (Basic/run.c:978-987). -/
def readNum (id ndim : Nat) : VmM Unit := do
  let s ← findData
  match convert s with
  | some (x, []) => setNumeric id ndim x
  | _ => fail .numericDataExpected

/-- `B_READ_STR` (Basic/run.c:988-993). -/
def readStr (id ndim : Nat) : VmM Unit := do
  let s ← findData
  setString id ndim s

/-- `B_GET_PAREN_NUM` (Basic/run.c:524-536). -/
def getParenNum (id ndim : Nat) : VmM Unit := do
  let s ← sym id
  assert (s.type == .num) "B_GET_PAREN_NUM"
  if s.kind = .array then do
    let x ← getElement numField id ndim
    push x
  else do
    assert (s.kind == .def_) "B_GET_PAREN_NUM kind"
    callDef id ndim

/-- `B_GET_PAREN_STR` (Basic/run.c:660-672). -/
def getParenStr (id ndim : Nat) : VmM Unit := do
  let s ← sym id
  assert (s.type == .str) "B_GET_PAREN_STR"
  if s.kind = .array then do
    let x ← getElement strField id ndim
    pushStr (x.getD [])
  else do
    assert (s.kind == .def_) "B_GET_PAREN_STR kind"
    callDef id ndim

/-- Range test of `ON` (Basic/run.c:823): `x < 1 || x > count`. -/
def onOutside (x : Dbl) (count : Nat) : Bool := Dbl.lt x (.fin 1) || Dbl.lt (.fin count) x

/-- `B_ON_GOTO` and `B_ON_GOSUB` (Basic/run.c:818-836). -/
def onStatement (count : Nat) (gosub : Bool) : VmM Unit := do
  let x ← pop
  check (Dbl.ne x (Dbl.floor x)) .onInvalid
  let vm ← get
  if onOutside x count then setPc (vm.cs.pc + count + 1)
  else do
    let bc ← curBcode
    match bc.inst[vm.cs.pc + Dbl.toNat x]? with
    | some (.onLine l) => do
      when_ gosub (pushReturn (vm.cs.pc + count + 1))
      goToBasicLine l
    | _ => fail .onLineExpected

/-- Is the instruction a `B_ELSE`? (Basic/run.c:850). -/
def isElse : Inst → Bool
  | .else_ => true
  | _ => false

/-- `do pc++ while (pc < used && op != …)` (Basic/run.c:840-842, 848-850, 853-855). -/
def skipTo (p : Inst → Bool) : VmM Unit := do
  let bc ← curBcode
  let vm ← get
  setPc (scan p bc.inst (vm.cs.pc + 1))

/-- `B_SOURCE_LINE` (Basic/run.c:478-488). -/
def sourceLineInst (line : Nat) : VmM Unit := do
  modify (fun vm => { vm with cs := { vm.cs with sourceLine := line } })
  let vm ← get
  when_ vm.traceBasic (do
    match ← curSource with
    | none => halt (.outOfBounds "source is NULL")
    | some src => do
      let n ← lift (sourceLinenum src line)
      out ('[' :: fmtU n ++ [']']))

/-- The switch of `execute` (Basic/run.c:474-1171). -/
def exec (env : Env) : Inst → VmM Flow
  | .nop => pure .brk
  | .sourceLine l => brk (sourceLineInst l)
  | .clear => brk (modify (fun vm => { vm with st := clearSymbolTableValues vm.st }))
  | .pushNum x => brk (push x)
  | .popNum => brk (do let _ ← pop)
  | .getSimpleNum id => brk (getNumericSimple id)
  | .setSimpleNum id => brk (do let _ ← sym id; let x ← pop; setNumericSimple id x)
  | .dimNum id n => brk (dimStatement numField id n)
  | .getParenNum id n => brk (getParenNum id n)
  | .setArrayNum id n => brk (do let _ ← sym id; let x ← pop; setElement numField id n x)
  | .neg => brk (do let x ← pop; push (Dbl.neg x))
  | .arith o => brk (do let x ← pop; let y ← pop; push (arithOp env o y x))
  | .cmpNum r => brk (do let x ← pop; let y ← pop; pushLogic (relNum r y x))
  | .or => brk (do let b ← popLogic; let a ← popLogic; push (Dbl.ofInt (orInt a b)))
  | .and => brk (do let b ← popLogic; let a ← popLogic; push (Dbl.ofInt (andInt a b)))
  | .not => brk (do let a ← popLogic; push (Dbl.ofInt (notInt a)))
  | .pushStr s => brk (pushStr s)
  | .popStr => brk (do let _ ← popStr)
  | .setSimpleStr id => brk (do let _ ← sym id; let x ← popStr; setStringSimple id x)
  | .getSimpleStr id => brk (getStringSimple id)
  | .dimStr id n => brk (dimStatement strField id n)
  | .getParenStr id n => brk (getParenStr id n)
  | .setArrayStr id n => brk (do let _ ← sym id; let x ← popStr; setElement strField id n (some x))
  | .cmpStr r => brk (do let c ← compareStrings; pushLogic (relStr r c))
  | .concat => brk (do
      let t ← popStr
      let s ← popStr
      check (decide (s.length + t.length + 1 > strBuf)) .concatTooLong
      pushStr (s ++ t))
  | .end_ => ret (do let bc ← curBcode; setPc bc.used)
  | .stop => ret (modify (fun vm => { vm with stopped := true }))
  | .goto_ l => ret (goToBasicLine l)
  | .gotrue l => do
    let x ← pop
    if truth x then ret (goToBasicLine l) else pure .brk
  | .gosub l => ret (do let vm ← get; pushReturn (vm.cs.pc + 1); goToBasicLine l)
  | .return_ => ret popReturn
  | .for_ id => brk (forStatement id)
  | .nextVar id => brk (nextVariable id)
  | .nextImp => brk nextImplicit
  | .def_ id n => brk (defStatement id n)
  | .param _ => fail .runIntoParam
  | .endDef => brk endDef
  | .onGoto n => ret (onStatement n false)
  | .onGosub n => ret (onStatement n true)
  | .onLine _ => fail .unknownOpcode
  | .ifThen => do
    let x ← pop
    if !truth x then ret (skipTo Inst.isSourceLine) else pure .brk
  | .ifElse => do
    let x ← pop
    if !truth x then brk (skipTo isElse) else pure .brk
  | .else_ => ret (skipTo Inst.isSourceLine)
  | .printLn => brk (outCol ['\n'] 1)
  | .printSpc => brk printSpc
  | .printTab => brk printTab
  | .printComma => brk printComma
  | .printNum => brk printNum
  | .printStr => brk printStr
  | .cls => brk (outCol env.clearScreen 1)
  | .inputBuf p => brk (inputBuf p)
  | .inputEnd => brk inputEnd
  | .inputSep => inputSep
  | .inputNum id n => inputNum id n
  | .inputStr id n => brk (inputStr id n)
  | .inputLine id n => brk (inputLine id n)
  | .data _ => pure .brk
  | .readNum id n => brk (readNum id n)
  | .readStr id n => brk (readStr id n)
  | .restore => brk (modify (fun vm => { vm with programData := 0, immediateData := 0 }))
  | .restoreLine l => brk (do
      let pc ← findBasicLine l
      modify (fun vm => { vm with programData := pc }))
  | .rand => brk (do
      let t ← readClock env
      modify (fun vm => { vm with world := { vm.world with rng := env.srand (u32 t) } }))
  | .seed => brk (do
      let k ← popUnsigned
      modify (fun vm => { vm with world := { vm.world with rng := env.srand k } }))
  | .bi .rnd => rndStep env
  | .bi b => brk (builtinOp env b)

/-- `execute` (Basic/run.c:469-1173). -/
def execute (env : Env) : VmM Unit := do
  let bc ← curBcode
  let vm ← get
  match bc.inst[vm.cs.pc]? with
  | none => halt (.assertFail "execute")
  | some i =>
    match ← exec env i with
    | .ret => pure ()
    | .brk => modify (fun vm => { vm with cs := { vm.cs with pc := vm.cs.pc + 1 } })

end V
end LB
