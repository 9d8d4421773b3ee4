import Verif.Model.Num
import Verif.Model.Source
import Verif.Model.LineMap
/- Basic/bcode.h, Basic/bcode.c, Basic/emit.c: B-code, the compiled form of programs. -/
namespace LB

/-- Arithmetic operations `B_ADD`, `B_SUB`, `B_MUL`, `B_DIV`, `B_POW` (Basic/bcode.h:28-32). -/
inductive Arith where
  | add | sub | mul | div | pow
  deriving DecidableEq, Repr

/-- Comparisons `B_EQ_NUM` … `B_GE_NUM` and `B_EQ_STR` … `B_GE_STR` (Basic/bcode.h:33-38, 51-56). -/
inductive Rel where
  | eq | lt | gt | ne | le | ge
  deriving DecidableEq, Repr

/-- Built-in functions `B_ABS` … `B_VAL` (Basic/bcode.h:102-122); `B_INKEY` is never emitted on
Linux (Basic/builtin.c:22-26) and left out. -/
inductive Bi where
  | abs | asc | atn | chr | cos | exp | int | left | len | log | mid3 | right | rnd | sgn | sin
  | sqr | str | tan | timeStr | val
  deriving DecidableEq, Repr

/-- `BINST` (Basic/bcode.h:13-123, 139-156): opcode and operand.  The `bcode` member of a
line operand (line 145) is never used and left out; `params` is an `unsigned char`. -/
inductive Inst where
  | nop
  | sourceLine (line : Nat)
  | clear
  | pushNum (x : Dbl)
  | popNum
  | getSimpleNum (id : Nat)
  | setSimpleNum (id : Nat)
  | dimNum (id : Nat) (params : Nat)
  | getParenNum (id : Nat) (params : Nat)
  | setArrayNum (id : Nat) (params : Nat)
  | arith (o : Arith)
  | cmpNum (r : Rel)
  | or
  | and
  | not
  | neg
  | pushStr (s : CStr)
  | popStr
  | setSimpleStr (id : Nat)
  | getSimpleStr (id : Nat)
  | dimStr (id : Nat) (params : Nat)
  | getParenStr (id : Nat) (params : Nat)
  | setArrayStr (id : Nat) (params : Nat)
  | cmpStr (r : Rel)
  | concat
  | end_
  | stop
  | goto_ (lineno : Nat)
  | gotrue (lineno : Nat)
  | gosub (lineno : Nat)
  | return_
  | for_ (id : Nat)
  | nextVar (id : Nat)
  | nextImp
  | def_ (id : Nat) (params : Nat)
  | param (id : Nat)
  | endDef
  | onGoto (count : Nat)
  | onGosub (count : Nat)
  | onLine (lineno : Nat)
  | ifThen
  | ifElse
  | else_
  | printLn
  | printSpc
  | printTab
  | printComma
  | printNum
  | printStr
  | cls
  | inputBuf (prompt : Option CStr)
  | inputEnd
  | inputSep
  | inputNum (id : Nat) (params : Nat)
  | inputStr (id : Nat) (params : Nat)
  | inputLine (id : Nat) (params : Nat)
  | data (s : CStr)
  | readNum (id : Nat) (params : Nat)
  | readStr (id : Nat) (params : Nat)
  | restore
  | restoreLine (lineno : Nat)
  | rand
  | seed
  | bi (b : Bi)
  deriving DecidableEq, Repr

/-- Is the instruction a `B_DATA`? (Basic/bcode.c:175, Basic/run.c:1460-1482). -/
def Inst.isData : Inst → Bool
  | .data _ => true
  | _ => false

/-- Is the instruction a `B_SOURCE_LINE`? (Basic/bcode.c:217, Basic/run.c:840). -/
def Inst.isSourceLine : Inst → Bool
  | .sourceLine _ => true
  | _ => false

/-- Is the instruction a `B_END_DEF`? (Basic/bcode.c:184). -/
def Inst.isEndDef : Inst → Bool
  | .endDef => true
  | _ => false

/-- `BCODE` (Basic/bcode.h:158-163); `used` is the length of the list. -/
structure Bcode where
  inst : List Inst
  hasData : Bool
  deriving DecidableEq, Repr

/-- `used` (Basic/bcode.h:161). -/
def Bcode.used (bc : Bcode) : Nat := bc.inst.length

/-- `new_bcode` (Basic/bcode.c:140-147). -/
def newBcode : Bcode := { inst := [], hasData := false }

/-- `bcode_latest` (Basic/bcode.c:160-163). -/
def bcodeLatest (bc : Bcode) : Option Inst := bc.inst.getLast?

/-- `bcode_next` with the operand stored by the `emit` functions
(Basic/bcode.c:165-178, Basic/emit.c:8-55). -/
def emitInst (bc : Bcode) (i : Inst) : Bcode :=
  { inst := bc.inst ++ [i], hasData := bc.hasData || i.isData }

/-- `patch_opcode` and `patch_count` (Basic/emit.c:57-70): replace an instruction;
an index out of range ends the process. -/
def patchInst (bc : Bcode) (index : Nat) (i : Inst) : Outcome Bcode :=
  if index < bc.used then .ok { bc with inst := bc.inst.set index i }
  else .halt (.exit "B-code index out of range")

/-- `bcode_copy_def` with `def_end` (Basic/bcode.c:180-209): the code from `start` up to the first
`B_END_DEF`, followed by `B_END_DEF`. -/
def bcodeCopyDef (src : Bcode) (start : Nat) : Outcome Bcode :=
  if src.used ≤ start then .halt (.assertFail "def_end")
  else .ok { inst := (src.inst.drop start).takeWhile (fun i => !i.isEndDef) ++ [.endDef],
             hasData := false }

/-- Loop of `bcode_index` (Basic/bcode.c:230-235) from instruction `i` on. -/
def bcodeIndexLoop (source : Source) : List Inst → Nat → LineMap → Outcome LineMap
  | [], _, m => .ok m
  | .sourceLine l :: rest, i, m =>
    match sourceLinenum source l with
    | .halt h => .halt h
    | .ok basicLine =>
      match insertLineMapping m basicLine i with
      | .halt h => .halt h
      | .ok (_, m') => bcodeIndexLoop source rest (i + 1) m'
  | _ :: rest, i, m => bcodeIndexLoop source rest (i + 1) m

/-- `line_count` (Basic/bcode.c:213-221). -/
def lineCount (bc : Bcode) : Nat := (bc.inst.filter (·.isSourceLine)).length

/-- `bcode_index` (Basic/bcode.c:224-238). -/
def bcodeIndex (bc : Bcode) (source : Source) : Outcome LineMap :=
  bcodeIndexLoop source bc.inst 0 (newLineMap (lineCount bc))

end LB
