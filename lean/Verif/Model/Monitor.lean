import Verif.Model.Session
import Verif.Model.StringUniq
/- Monitor/interactive.c: the command loop; System/lbasic.c:158-200: listings of a file. -/
namespace LB

/-- `PAGE` (Monitor/interactive.c:21). -/
def pageSize : Nat := 24

/-- `enum command_tokens` (Monitor/interactive.c:23-35). -/
inductive Cmd where
  | bye | compile | cont | help | list | load | new | renum | run | save
  deriving DecidableEq, Repr

/-- `commands[]` (Monitor/interactive.c:37-53). -/
def commands : List (CStr × Cmd) := [
  ("BYE".toList, .bye), ("COMPILE".toList, .compile), ("CONT".toList, .cont), ("HELP".toList, .help),
  ("LIST".toList, .list), ("LOAD".toList, .load), ("NEW".toList, .new), ("RENUM".toList, .renum),
  ("RENUMBER".toList, .renum), ("RUN".toList, .run), ("SAVE".toList, .save)]

/-- `find_command` (Monitor/interactive.c:55-62). -/
def findCommand (cmd : CStr) (len : Nat) : Option Cmd :=
  (commands.find? (fun p => p.1.length == len && strncasecmp p.1 cmd len == 0)).map (·.2)

/-- `help` (Monitor/interactive.c:64-76). -/
def helpText : CStr :=
  ("BYE                       quit to operating system\n" ++
   "COMPILE                   compile program to check syntax without running\n" ++
   "CONT                      continue program after STOP or break\n" ++
   "HELP                      show this help\n" ++
   "LIST [[start]-[end]][P]   list current file\n" ++
   "LOAD \"program.bas\"        load source from file\n" ++
   "NEW                       wipe current file from memory\n" ++
   "RENUM [new[,old[,inc]]]   renumber program lines\n" ++
   "RUN                       run current file as a Basic program\n" ++
   "SAVE \"program.bas\"        save current file under given name\n" ++
   "*DIR                      run DIR or other operating system command\n").toList

/-- The state of an interactive session: the machine, the files of the working directory and the
flag `quit` (Monitor/interactive.c:81-93; `fopen` in Basic/source.c:158, 192).  `files name = none` if
the file cannot be opened for reading. -/
structure Session where
  vm : VM
  files : CStr → Option CStr
  quit : Bool

/-- What the model leaves open about one command: the library functions, when interrupts arrive, a bound
on the number of steps, and which files can be written (`fopen(…, "w")`, Basic/source.c:192). -/
structure Ctx where
  env : Env
  brk : Nat → Bool
  fuel : Nat
  canWrite : CStr → Bool

/-- `error` (Shared/utils.c:26-33): message and newline on standard output. -/
def Session.error (s : Session) (msg : CStr) : Session := { s with vm := putOut s.vm (msg ++ ['\n']) }

/-- `skip_space` (Monitor/interactive.c:433-437). -/
def skipSpace (s : CStr) : CStr := s.dropWhile V.isSpTab

/-- `read_num` (Monitor/interactive.c:439-447): value modulo 2^32 and the rest; called on a digit. -/
def readNumGo : Nat → CStr → Nat × CStr
  | n, [] => (n, [])
  | n, c :: s => if isdigit c then readNumGo (u32 (10 * n + digitVal c)) s else (n, c :: s)

/-- `read_num` (Monitor/interactive.c:439-447) with its assertion. -/
def readNum (s : CStr) : Outcome (Nat × CStr) :=
  match s with
  | c :: _ => if isdigit c then .ok (readNumGo 0 s) else .halt (.assertFail "read_num")
  | [] => .halt (.assertFail "read_num")

/-- `*p == '\0' || *p == '\n'` (Monitor/interactive.c:137, 145, 419, 426). -/
def atEol : CStr → Bool
  | [] => true
  | c :: _ => c == '\n'

/-- `isdigit(*p)` (Monitor/interactive.c:133, 250, 257, 271, 278, 284). -/
def startsDigit : CStr → Bool
  | [] => false
  | c :: _ => isdigit c

/-- The condition tested by `check_eol` (Monitor/interactive.c:424-431). -/
def checkEol (line : CStr) : Bool := atEol (skipSpace line)

/-- `demarcate_string` (Monitor/interactive.c:449-463): the quoted text and the rest of the line. -/
def demarcateString (line : CStr) : Option (CStr × CStr) :=
  match skipSpace line with
  | '"' :: s =>
    let inside := fun c : Char => c != '\n' && c != '"'
    match s.dropWhile inside with
    | '"' :: rest => some (s.takeWhile inside, rest)
    | _ => some (s.takeWhile inside, [])
  | _ => none

/-- `read_num` if a digit is found, otherwise the default
(Monitor/interactive.c:250-253, 257-258, 271-274, 278-279, 284-285). -/
def optNum (s : CStr) (dflt : Nat) : Nat × CStr :=
  if startsDigit s then readNumGo 0 s else (dflt, s)

/-- `get_list_numbers` (Monitor/interactive.c:244-262). -/
def getListNumbers (line : CStr) : Nat × Nat × CStr :=
  let p := skipSpace line
  let (start, p) := if startsDigit p then ((optNum p 0).1, skipSpace (optNum p 0).2) else (0, p)
  match p with
  | '-' :: q => (start, optNum (skipSpace q) (2 ^ 32 - 1))
  | _ => (start, 2 ^ 32 - 1, p)

/-- Part of `get_renum_numbers` (Monitor/interactive.c:276-286). -/
def commaNum (p : CStr) (dflt : Nat) : Nat × CStr :=
  match p with
  | ',' :: q => optNum (skipSpace q) dflt
  | _ => (dflt, p)

/-- `get_renum_numbers` (Monitor/interactive.c:264-289): new, old, increment and the rest. -/
def getRenumNumbers (line : CStr) : Nat × Nat × Nat × CStr :=
  let p := skipSpace line
  let (new, p) := if startsDigit p then ((optNum p 0).1, skipSpace (optNum p 0).2) else (10, p)
  let (old, p) := commaNum p 1
  let (inc, p) := commaNum p 10
  (new, old, inc, p)

/-- `get_page_flag` (Monitor/interactive.c:291-300). -/
def getPageFlag (line : CStr) : Bool × CStr :=
  match skipSpace line with
  | c :: s => if tolower c = 'p' then (true, s) else (false, c :: s)
  | [] => (false, [])

/-- `await_newline` (Monitor/interactive.c:410-415): input left after the next newline. -/
def awaitNewline (stdin : CStr) : CStr := (stdin.dropWhile (fun c => c != '\n')).drop 1

/-- Loop of `list` (Monitor/interactive.c:312-324) over the lines that are left: text written and
remaining input.  `k` counts lines looked at, `count` lines shown. -/
def listLoop (brk : Nat → Bool) (start end_ : Nat) (page : Bool) :
    List SrcLine → Nat → Nat → CStr → CStr × CStr
  | [], _, _, stdin => ([], stdin)
  | l :: ls, k, count, stdin =>
    if brk k then ([], stdin)
    else if l.num > end_ then ([], stdin)
    else if l.num ≥ start then
      let line := fmtU l.num ++ ' ' :: l.text
      if page && decide ((count + 1) % pageSize = pageSize - 1) && !ls.isEmpty then
        let (o, i) := listLoop brk start end_ page ls (k + 1) (count + 1) (awaitNewline stdin)
        (line ++ o, i)
      else
        let (o, i) := listLoop brk start end_ page ls (k + 1) (count + 1) stdin
        (line ++ '\n' :: o, i)
    else listLoop brk start end_ page ls (k + 1) count stdin

/-- `list` (Monitor/interactive.c:306-327). -/
def listProgram (brk : Nat → Bool) (vm : VM) (start end_ : Nat) (page : Bool) : VM :=
  match vm.stored.source with
  | none => vm
  | some src =>
    let (o, i) := listLoop brk start end_ page src.lines 0 0 vm.world.stdin
    { putOut vm o with world := { (putOut vm o).world with stdin := i } }

/-- `takes_line_number` (Monitor/interactive.c:398-408). -/
def takesLineNumber (t : Tok) : Bool :=
  t == .kw .ELSE || t == .kw .GOSUB || t == .kw .GOTO || t == .kw .RESTORE || t == .kw .THEN

/-- First loop of `renumber` (Monitor/interactive.c:343-360) over the lines that are left: the lines with
their new numbers, the map, and the message if it bails out (then the rest keeps its numbers). -/
def renumLoop (oldStart inc : Nat) : List SrcLine → Nat → Nat → LineMap →
    Outcome (List SrcLine × LineMap × Option CStr)
  | [], _, _, m => .ok ([], m, none)
  | l :: ls, new, prev, m =>
    if l.num ≥ oldStart then
      if new < prev then
        .ok (l :: ls, m, some ("Cannot renumber line ".toList ++ fmtU l.num ++ " to ".toList ++ fmtU new ++
          " after line ".toList ++ fmtU prev))
      else
        match insertLineMapping m l.num new with
        | .halt h => .halt h
        | .ok (_, m') =>
          match renumLoop oldStart inc ls (u32 (new + inc)) new m' with
          | .halt h => .halt h
          | .ok (ls', m'', e) => .ok ({ l with num := new } :: ls', m'', e)
    else
      match insertLineMapping m l.num l.num with
      | .halt h => .halt h
      | .ok (_, m') =>
        match renumLoop oldStart inc ls new l.num m' with
        | .halt h => .halt h
        | .ok (ls', m'', e) => .ok (l :: ls', m'', e)

/-- The number to be replaced, if any (Monitor/interactive.c:368-373): `x > 0 && x <= 65535 &&
floor(x) == x`, and the line is in the map. -/
def renumTarget (m : LineMap) (tok : Tok) (lex : Lex) : Option Nat :=
  if tok == .num && Dbl.lt (.fin 0) lex.num && Dbl.le lex.num (.fin 65535) && Dbl.eq (Dbl.floor lex.num) lex.num
  then lookupLineMapping m (Dbl.toNat lex.num) else none

/-- Result of retargeting one line: the source, the lexer, and the message if `renumber` bails out. -/
inductive RenumRes where
  | done (src : Source) (lex : Lex)
  | bail (src : Source) (msg : String)

/-- Inner loop of the second part of `renumber` (Monitor/interactive.c:365-390) for one line.  The
first argument bounds the number of tokens. -/
def renumTokens (m : LineMap) (line : Nat) : Nat → Source → Tok → Lex → Outcome RenumRes
  | 0, _, _, _ => .halt .fuel
  | n + 1, src, tok, lex =>
    if tok = .eof ∨ tok = .ch '\n' then .ok (.done src lex)
    else if takesLineNumber tok then
      match lexNext lex with
      | .halt h => .halt h
      | .ok (tok, lex) =>
        match renumTarget m tok lex with
        | none =>
          match lexNext lex with
          | .halt h => .halt h
          | .ok (tok, lex) => renumTokens m line n src tok lex
        | some new =>
          match sourceReplace src line lex.tokenPos lex.word (fmtU new) with
          | none => .ok (.bail src "internal error: renumbering: replacing line number in source line")
          | some src =>
            match sourceText src line with
            | .halt h => .halt h
            | .ok text =>
              match lexRefresh lex text with
              | .halt h => .halt h
              | .ok (tok, lex) =>
                if tok ≠ .num then
                  .ok (.bail src "internal error: renumbering: retokenising update source text")
                else
                  match lexNext lex with
                  | .halt h => .halt h
                  | .ok (tok, lex) => renumTokens m line n src tok lex
    else
      match lexNext lex with
      | .halt h => .halt h
      | .ok (tok, lex) => renumTokens m line n src tok lex

/-- Second loop of `renumber` (Monitor/interactive.c:363-391): `todo` lines left from `line` on. -/
def renumLines (m : LineMap) : Nat → Nat → Source → Lex → Outcome (Source × Option String)
  | 0, _, src, _ => .ok (src, none)
  | todo + 1, line, src, lex =>
    match sourceText src line with
    | .halt h => .halt h
    | .ok text =>
      match lexLine lex line text with
      | .halt h => .halt h
      | .ok (tok, lex) =>
        match renumTokens m line (text.length + 2) src tok lex with
        | .halt h => .halt h
        | .ok (.bail src msg) => .ok (src, some msg)
        | .ok (.done src lex) => renumLines m todo (line + 1) src lex

/-- `renumber` (Monitor/interactive.c:331-396). -/
def renumber (vm : VM) (newStart oldStart inc : Nat) : Outcome VM :=
  match vm.stored.source with
  | none => .ok vm
  | some src =>
    match renumLoop oldStart inc src.lines newStart 0 (newLineMap (sourceLines src)) with
    | .halt h => .halt h
    | .ok (ls, _, some msg) =>
      .ok (putOut { vm with stored := { vm.stored with source := some { src with lines := ls } } } (msg ++ ['\n']))
    | .ok (ls, m, none) =>
      match renumLines m (sourceLines src) 0 { src with lines := ls } (newLex vm.keywordsAnywhere) with
      | .halt h => .halt h
      | .ok (src', msg) =>
        let vm' := { vm with stored := { vm.stored with source := some src' } }
        .ok (match msg with
          | none => vm'
          | some msg => putOut vm' (msg.toList ++ ['\n']))

/-- Running something and keeping the other parts of the session (Monitor/interactive.c:179-242). -/
def Session.withVm (s : Session) (r : Outcome (Option RunEnd × VM)) : Outcome Session :=
  match r with
  | .halt h => .halt h
  | .ok (_, vm) => .ok { s with vm := vm }

/-- `LOAD` (Monitor/interactive.c:210-217). -/
def loadCommand (s : Session) (line : CStr) : Outcome Session :=
  match demarcateString line with
  | some (name, rest) =>
    if checkEol rest then
      match vmLoadSource s.vm name (s.files name) with
      | .halt h => .halt h
      | .ok (_, vm) => .ok { s with vm := vm }
    else .ok ((s.error "Command syntax error".toList).error "Quoted file name expected".toList)
  | none => .ok (s.error "Quoted file name expected".toList)

/-- `SAVE` (Monitor/interactive.c:218-225) with `vm_save_source` and `save_source_file`
(Basic/run.c:243-247, Basic/source.c:189-201).  The message for a file that cannot be opened goes to
standard error. -/
def saveCommand (canWrite : CStr → Bool) (s : Session) (line : CStr) : Session :=
  match demarcateString line with
  | some (name, rest) =>
    if checkEol rest then
      match s.vm.stored.source with
      | none => s
      | some src =>
        if canWrite name then
          { s with files := fun n => if n = name then some (saveSourceFile src) else s.files n }
        else s
    else (s.error "Command syntax error".toList).error "Quoted file name expected".toList
  | none => s.error "Quoted file name expected".toList

/-- `if (check_eol(line)) …` (Monitor/interactive.c:182, 196, 206, 229). -/
def Session.ifEol (s : Session) (line : CStr) (k : Outcome Session) : Outcome Session :=
  if checkEol line then k else .ok (s.error "Command syntax error".toList)

/-- `command` (Monitor/interactive.c:179-242). -/
def command (ctx : Ctx) (s : Session) (cmd : Cmd) (line : CStr) : Outcome Session :=
  match cmd with
  | .bye => s.ifEol line (.ok { s with quit := true })
  | .compile =>
    match ensureProgramCompiled s.vm with
    | .halt h => .halt h
    | .ok (_, vm) => .ok { s with vm := vm }
  | .cont =>
    match vmContinue ctx.env ctx.brk ctx.fuel s.vm with
    | .halt h => .halt h
    | .ok (none, vm) => .ok ({ s with vm := vm }.error "Cannot continue".toList)
    | .ok (some _, vm) => .ok { s with vm := vm }
  | .help => .ok { s with vm := putOut s.vm helpText }
  | .new => s.ifEol line (.ok { s with vm := vmClearNames (vmNewProgram s.vm) })
  | .list =>
    let (start, end_, rest) := getListNumbers line
    let (page, rest) := getPageFlag rest
    s.ifEol rest (.ok { s with vm := listProgram ctx.brk s.vm start end_ page })
  | .load => loadCommand s line
  | .save => .ok (saveCommand ctx.canWrite s line)
  | .renum =>
    let (new, old, inc, rest) := getRenumNumbers line
    s.ifEol rest (match renumber s.vm new old inc with
      | .halt h => .halt h
      | .ok vm => .ok { s with vm := vm })
  | .run => s.withVm (runProgram ctx.env ctx.brk ctx.fuel (vmClearValues s.vm))

/-- `program_line` (Monitor/interactive.c:141-152). -/
def programLine (s : Session) (line : CStr) : Outcome Session :=
  match readNum line with
  | .halt h => .halt h
  | .ok (num, p) =>
    if atEol p then .ok { s with vm := vmDeleteSourceLine s.vm num }
    else
      let text := match p with
        | ' ' :: q => q
        | _ => p
      match vmEnterSourceLine s.vm num text with
      | .halt h => .halt h
      | .ok vm => .ok { s with vm := vm }

/-- `immediate` (Monitor/interactive.c:156-171). -/
def immediateLine (ctx : Ctx) (s : Session) (line : CStr) : Outcome Session :=
  let word := line.takeWhile isalpha
  match if word.isEmpty then none else findCommand line word.length with
  | some k => command ctx s k (line.drop word.length)
  | none => s.withVm (runImmediate ctx.env ctx.brk ctx.fuel s.vm line)

/-- `interpret` (Monitor/interactive.c:131-139).  The operating system command run by `oscli`
(417-422) is outside the model: it leaves the session as it is. -/
def interpret (ctx : Ctx) (s : Session) (line : CStr) : Outcome Session :=
  match skipSpace line with
  | [] => .ok s
  | c :: p =>
    if isdigit c then programLine s (c :: p)
    else if c = '*' then .ok s
    else if c = '\n' then .ok s
    else immediateLine ctx s (c :: p)

/-- Size of `cmd` (Monitor/interactive.c:83). -/
def cmdSize : Nat := 128

/-- `get_line` with `line_complete` (Monitor/interactive.c:97-120): prompts until a complete line has
been read.  Text written, the line (`none` at the end of the input), remaining input; the first
argument bounds the number of turns. -/
def getLine : Nat → CStr → CStr × Option CStr × CStr
  | 0, stdin => ([], none, stdin)
  | n + 1, stdin =>
    match fgets cmdSize stdin with
    | none => ("> ".toList, none, stdin)
    | some (buf, rest) =>
      match (cstr buf).getLast? with
      | none => let (o, l, r) := getLine n rest; ("> ".toList ++ o, l, r)
      | some c =>
        if c = '\n' then ("> ".toList, some (cstr buf).dropLast, rest)
        else let (o, l, r) := getLine n (awaitNewline rest)
             ("> Command line too long\n".toList ++ o, l, r)

/-- One turn of the loop of `interact` (Monitor/interactive.c:89-90): `none` when the session ends. -/
def interactStep (ctx : Ctx) (s : Session) : Outcome (Option Session) :=
  if s.quit then .ok none
  else
    let (o, l, r) := getLine (s.vm.world.stdin.length + 1) s.vm.world.stdin
    let vm := { putOut s.vm o with world := { (putOut s.vm o).world with stdin := r } }
    match l with
    | none => .ok none
    | some line =>
      match interpret ctx { s with vm := vm } line with
      | .halt h => .halt h
      | .ok s' => .ok (some s')

/-- The session at the start of `interact` (Monitor/interactive.c:81-87). -/
def newSession (keywordsAnywhere traceBasic traceFor : Bool) (world : World) (files : CStr → Option CStr) :
    Session :=
  { vm := newVm keywordsAnywhere traceBasic traceFor world, files := files, quit := false }

/-- `printf("%5u")` (System/lbasic.c:162). -/
def padLeft5 (s : CStr) : CStr := List.replicate (5 - s.length) ' ' ++ s

/-- `list_file` (System/lbasic.c:158-165). -/
def listFile (src : Source) : CStr :=
  (src.lines.map (fun l => padLeft5 (fmtU l.num) ++ ' ' :: l.text ++ ['\n'])).flatten

/-- Inner loop of `list_names` (System/lbasic.c:178-182): the names met on a line.  The first
argument bounds the number of tokens. -/
def namesOnLine : Nat → Tok → Lex → Outcome (List CStr × Lex)
  | 0, _, _ => .halt .fuel
  | n + 1, tok, lex =>
    if tok = .ch '\n' ∨ tok = .kw .REM then .ok ([], lex)
    else
      match lexNext lex with
      | .halt h => .halt h
      | .ok (tok', lex') =>
        match namesOnLine n tok' lex' with
        | .halt h => .halt h
        | .ok (ns, lex'') => .ok (if tok = .id then lex.word :: ns else ns, lex'')

/-- Outer loop of `list_names` (System/lbasic.c:175-183); `n` bounds the tokens of a line. -/
def namesInLines (n : Nat) : List SrcLine → Lex → Outcome (List CStr)
  | [], _ => .ok []
  | l :: ls, lex =>
    match lexLine lex l.num l.text with
    | .halt h => .halt h
    | .ok (tok, lex) =>
      match namesOnLine n tok lex with
      | .halt h => .halt h
      | .ok (ns, lex) =>
        match namesInLines n ls lex with
        | .halt h => .halt h
        | .ok ms => .ok (ns ++ ms)

/-- `list_names` (System/lbasic.c:169-191): the names in the order shown. -/
def listNames (n : Nat) (src : Source) (crunched : Bool) : Outcome (List CStr) :=
  match namesInLines n src.lines (newLex crunched) with
  | .halt h => .halt h
  | .ok ns => .ok (uniqueStrings ns)

end LB
