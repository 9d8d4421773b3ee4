import Verif.Model.Monitor
/- System/options.c, System/lbasic.c and `print_binst` of Basic/symbol.c: the command line and what the program does with a
file named there.  Builds without UNIT_TEST, for Linux (no timer). -/
namespace LB

/-- `enum mode` (System/options.h:10) without `TEST_MODE`, which only builds for unit tests have. -/
inductive Mode where
  | no | list | listNames | parse | code | run
  deriving DecidableEq, Repr

/-- `Options` (System/options.h:12-23) without `report_time` (Windows only). -/
structure Options where
  mode : Mode := .no
  fileName : Option CStr := none
  keywordsAnywhere : Bool := false
  printVersion : Bool := false
  quiet : Bool := false
  reportMemory : Bool := false
  traceBasic : Bool := false
  traceFor : Bool := false
  traceLog : Bool := false
  deriving DecidableEq, Repr

/-- What `parse_options` does: it returns the options, or shows the usage and ends the process. -/
inductive Parsed where
  | options (opt : Options) (world : World)
  | usage (full : Bool) (world : World)
  deriving DecidableEq, Repr

/-- `strcmp(arg, a) == 0 || strcmp(arg, b) == 0` (System/options.c:22-62). -/
def isOption (arg : CStr) (a b : String) : Bool := arg == a.toList || arg == b.toList

/-- The loop of `parse_options` (System/options.c:19-71); `srand((unsigned)time(NULL))` (line 46) changes the state of
the generator and reads the clock; `fatal` ends the process. -/
def parseOptions (env : Env) (opt : Options) (w : World) : List CStr → Outcome Parsed
  | [] => .ok (.options opt w)
  | arg :: rest =>
    if isOption arg "--help" "-h" || isOption arg "-?" "/?" then .ok (.usage false w)
    else if isOption arg "--help-full" "-hh" then .ok (.usage true w)
    else if isOption arg "--list" "-l" then parseOptions env { opt with mode := .list } w rest
    else if isOption arg "--list-names" "-n" then parseOptions env { opt with mode := .listNames } w rest
    else if isOption arg "--parse" "-p" then parseOptions env { opt with mode := .parse } w rest
    else if isOption arg "--code" "-c" then parseOptions env { opt with mode := .code } w rest
    else if isOption arg "--run" "-r" then parseOptions env { opt with mode := .run } w rest
    else if isOption arg "--keywords-anywhere" "-k" then parseOptions env { opt with keywordsAnywhere := true } w rest
    else if isOption arg "--quiet" "-q" then parseOptions env { opt with quiet := true } w rest
    else if isOption arg "--randomize" "-z" then
      parseOptions env opt { w with rng := env.srand (env.time w.ticks % 4294967296), ticks := w.ticks + 1 } rest
    else if isOption arg "--report-memory" "-m" then parseOptions env { opt with reportMemory := true } w rest
    else if isOption arg "--trace-basic" "-t" then parseOptions env { opt with traceBasic := true } w rest
    else if isOption arg "--trace-for" "-f" then parseOptions env { opt with traceFor := true } w rest
    else if isOption arg "--trace-log" "-g" then parseOptions env { opt with traceLog := true } w rest
    else if isOption arg "--version" "-v" then parseOptions env { opt with printVersion := true } w rest
    else if arg.head? = some '-' then .halt (.exit "unrecognised option")
    else if opt.fileName.isNone then parseOptions env { opt with fileName := some arg } w rest
    else .halt (.exit "unexpected argument")

/-- The options and explanations shown by `help` (System/options.c:76-148). -/
def usageEntries : List (String × String) := [
  ("--code, -c",
    "    List translated intermediate code (B-code) program.\n\n"),
  ("--help, -h",
    "    Show program usage and list options.\n\n"),
  ("--help-full, -hh",
    "    Show program usage and explain all options.\n\n"),
  ("--keywords-anywhere, -k",
    "    Recognise BASIC keywords anywhere outside a string, crunched with\n    other names, not needing spaces between them.\n\n"),
  ("--list, -l",
    "    List the source program. This checks that line numbers are distinct\n    and in sequence, and that Legacy Basic can load the program, without\n    running it or checking for syntax errors.\n\n"),
  ("--list-names, -n",
    "    List the names in the source program. Flag the names of built-in\n    functions (*) and printing operators (=). The unflagged names are\n    user-defined names. If the interpreter considers a name user-\n    defined, it will not be interpreted as a built-in.\n\n"),
  ("--parse, -p",
    "    Parse the specified BASIC program without running it, to find\n    syntax errors or unsupported constructs.\n\n"),
  ("--quiet, -q",
    "    Suppress version information when running a BASIC program.\n\n"),
  ("--randomize, -z",
    "    Randomize the random number generator, so that RND produces a\n    different sequence of numbers in each run.\n\n"),
  ("--report-memory, -m",
    "    On exit, print the number of memory blocks allocated and released.\n    For debugging the interpreter.\n\n"),
  ("--run, -r",
    "    Run the specified BASIC program. This is the default option.\n\n"),
  ("--trace-basic, -t",
    "    Trace BASIC line numbers executed at runtime. Equivalent to TRON and\n    TRACE ON in some BASICs.\n\n"),
  ("--trace-for, -f",
    "    Print information about FOR loops at runtime.\n    For debugging the interpreter.\n\n"),
  ("--trace-log, -g",
    "    Print a detailed log of program execution to stderr.\n    For debugging the interpreter.\n\n"),
  ("--version, -v",
    "    Print version information and exit.\n\n")]

/-- `help` (System/options.c:73-153): the text shown for `--help`, or with `full` for `--help-full`. -/
def usageText (full : Bool) : CStr :=
  "Usage: legacy-basic [options] name.bas\n\n".toList ++
    (usageEntries.map (fun e => e.1.toList ++ '\n' :: (if full then e.2.toList else []))).flatten

/-- What the model leaves open about the process: see `Ctx`; the files, a bound on the number of lines typed, and the
text of `report_memory` (System/lbasic.c:90-94), which counts blocks of memory. -/
structure Host where
  ctx : Ctx
  files : CStr → Option CStr
  turns : Nat
  memory : CStr

/-- Text added to standard output (`printf` in System/lbasic.c). -/
def World.put (w : World) (s : CStr) : World := { w with out := w.out ++ s }

/-- `print_version` (System/lbasic.c:86-88). -/
def versionText : CStr := "Legacy Basic 3.2.0 Copyright (c) 2022-24 Nigel Perks\n\n".toList

/-- Loop of `interact` (Monitor/interactive.c:89-90); the first argument bounds the number of lines.  At the end of the
input the last prompt has been written. -/
def interactLoop (ctx : Ctx) : Nat → Session → Outcome World
  | 0, _ => .halt .fuel
  | n + 1, s =>
    match interactStep ctx s with
    | .halt h => .halt h
    | .ok (some s') => interactLoop ctx n s'
    | .ok none =>
      if s.quit then .ok s.vm.world
      else
        let (o, _, r) := getLine (s.vm.world.stdin.length + 1) s.vm.world.stdin
        .ok { s.vm.world.put o with stdin := r }

/-- `interact` (Monitor/interactive.c:81-93). -/
def interact (h : Host) (opt : Options) (w : World) : Outcome World :=
  let w := if opt.quiet then w else w.put "Type HELP to list commands\n\n".toList
  interactLoop h.ctx h.turns (newSession opt.keywordsAnywhere opt.traceBasic opt.traceFor w h.files)

/-- `ops[].name` for the comparisons (Basic/bcode.c:33-38, 51-56). -/
def relName : Rel → String
  | .eq => "EQ" | .lt => "LT" | .gt => "GT" | .ne => "NE" | .le => "LE" | .ge => "GE"

/-- `ops[].name` for the operators (Basic/bcode.c:28-32). -/
def arithName : Arith → String
  | .add => "ADD" | .sub => "SUB" | .mul => "MUL" | .div => "DIV" | .pow => "POW"

/-- `ops[].name` for the built-in functions (Basic/bcode.c:102-122). -/
def biName : Bi → String
  | .abs => "ABS" | .asc => "ASC" | .atn => "ATN" | .chr => "CHR" | .cos => "COS" | .exp => "EXP" | .int => "INT"
  | .left => "LEFT" | .len => "LEN" | .log => "LOG" | .mid3 => "MID3" | .right => "RIGHT" | .rnd => "RND" | .sgn => "SGN"
  | .sin => "SIN" | .sqr => "SQR" | .str => "STR" | .tan => "TAN" | .timeStr => "TIME-STR" | .val => "VAL"

/-- `bcode_name` (Basic/bcode.c:11-123, 130-133). -/
def bcodeName : Inst → String
  | .nop => "NOP" | .sourceLine _ => "LINE" | .clear => "CLEAR"
  | .pushNum _ => "PUSH-NUM" | .popNum => "POP-NUM" | .getSimpleNum _ => "GET-SIMPLE-NUM" | .setSimpleNum _ => "SET-SIMPLE-NUM"
  | .dimNum _ _ => "DIM-NUM" | .getParenNum _ _ => "GET-PARAM-NUM" | .setArrayNum _ _ => "SET-ARRAY-NUM"
  | .arith o => arithName o | .cmpNum r => relName r ++ "-NUM"
  | .or => "OR" | .and => "AND" | .not => "NOT" | .neg => "NEG"
  | .pushStr _ => "PUSH-STR" | .popStr => "POP-STR" | .setSimpleStr _ => "SET-SIMPLE-STR" | .getSimpleStr _ => "GET-SIMPLE-STR"
  | .dimStr _ _ => "DIM-STR" | .getParenStr _ _ => "GET-ARRAY-STR" | .setArrayStr _ _ => "SET-ARRAY-STR"
  | .cmpStr r => relName r ++ "-STR" | .concat => "CONCAT"
  | .end_ => "END" | .stop => "STOP" | .goto_ _ => "GOTO" | .gotrue _ => "GOTRUE" | .gosub _ => "GOSUB" | .return_ => "RETURN"
  | .for_ _ => "FOR" | .nextVar _ => "NEXT-VAR" | .nextImp => "NEXT-IMP"
  | .def_ _ _ => "DEF" | .param _ => "PARAM" | .endDef => "END-DEF"
  | .onGoto _ => "ON-GOTO" | .onGosub _ => "ON-GOSUB" | .onLine _ => "ON-LINE"
  | .ifThen => "IF-THEN" | .ifElse => "IF-ELSE" | .else_ => "ELSE"
  | .printLn => "PRINT-LN" | .printSpc => "PRINT-SPC" | .printTab => "PRINT-TAB" | .printComma => "PRINT-COMMA"
  | .printNum => "PRINT-NUM" | .printStr => "PRINT-STR" | .cls => "CLS"
  | .inputBuf _ => "INPUT-BUF" | .inputEnd => "INPUT-END" | .inputSep => "INPUT-SEP"
  | .inputNum _ _ => "INPUT-NUM" | .inputStr _ _ => "INPUT-STR" | .inputLine _ _ => "INPUT-LINE"
  | .data _ => "DATA" | .readNum _ _ => "READ-NUM" | .readStr _ _ => "READ-STR"
  | .restore => "RESTORE" | .restoreLine _ => "RESTORE-LINE"
  | .rand => "RAND" | .seed => "SEED" | .bi b => biName b

/-- `sym_name` (Basic/symbol.c:154-157). -/
def symName (st : SymTab) (id : Nat) : Outcome CStr :=
  match st.psym[id]? with
  | some s => .ok s.name
  | none => .halt (.assertFail "sym_name")

/-- Formats `BF_VAR` and `BF_PARAM` (Basic/symbol.c:193-198): the name, and the number of parameters. -/
def symOperand (st : SymTab) (id : Nat) (params : Option Nat) : Outcome CStr :=
  match symName st id, params with
  | .halt h, _ => .halt h
  | .ok s, none => .ok s
  | .ok s, some n => .ok (s ++ ", ".toList ++ fmtU n)

/-- The operand shown by `print_binst` (Basic/symbol.c:173-204). -/
def operandText (src : Source) (st : SymTab) : Inst → Outcome CStr
  | .sourceLine l =>
    match sourceLinenum src l, sourceText src l with
    | .ok n, .ok t => .ok (fmtU l ++ ": ".toList ++ fmtU n ++ ' ' :: t)
    | .halt h, _ => .halt h
    | _, .halt h => .halt h
  | .goto_ l | .gotrue l | .gosub l | .onLine l | .restoreLine l | .onGoto l | .onGosub l => .ok (fmtU l)
  | .pushNum x => .ok (Dbl.fmtG x)
  | .pushStr s | .data s | .inputBuf (some s) => .ok ('"' :: s ++ ['"'])
  | .inputBuf none => .ok "null".toList
  | .getSimpleNum id | .setSimpleNum id | .getSimpleStr id | .setSimpleStr id | .for_ id | .nextVar id | .param id =>
    symOperand st id none
  | .dimNum id n | .getParenNum id n | .setArrayNum id n | .dimStr id n | .getParenStr id n | .setArrayStr id n | .def_ id n
  | .inputNum id n | .inputStr id n | .inputLine id n | .readNum id n | .readStr id n => symOperand st id (some n)
  | _ => .ok []

/-- `print_binst` (Basic/symbol.c:169-206) with the source given. -/
def printBinst (i : Inst) (j : Nat) (src : Source) (st : SymTab) : Outcome CStr :=
  match operandText src st i with
  | .halt h => .halt h
  | .ok t => .ok (padLeft5 (fmtU j) ++ ' ' :: (bcodeName i).toList ++ ' ' :: t ++ ['\n'])

/-- The loop of `--code` (System/lbasic.c:128-129) from instruction `j` on. -/
def listCode (src : Source) (st : SymTab) : List Inst → Nat → Outcome CStr
  | [], _ => .ok []
  | i :: is, j =>
    match printBinst i j src st with
    | .halt h => .halt h
    | .ok t =>
      match listCode src st is (j + 1) with
      | .halt h => .halt h
      | .ok ts => .ok (t ++ ts)

/-- `name_is_print_builtin` (Basic/parse.c:576-578). -/
def nameIsPrintBuiltin (name : CStr) : Bool := strcasecmp name "SPC".toList == 0 || strcasecmp name "TAB".toList == 0

/-- `print_name` (System/lbasic.c:193-200). -/
def printName (name : CStr) : CStr :=
  (if (builtin name).isSome then '*' else if nameIsPrintBuiltin name then '=' else ' ') :: ' ' :: name ++ ['\n']

/-- `process_file` (System/lbasic.c:99-155): exit status and world.  A file that cannot be opened is reported on
standard error only.  The bound on tokens in `listNames` is that on steps. -/
def processFile (h : Host) (opt : Options) (name : CStr) (w : World) : Outcome (Nat × World) :=
  match opt.mode with
  | .list =>
    match loadSourceFile name (h.files name) with
    | .halt e => .halt e
    | .ok none => .ok (0, w)
    | .ok (some src) => .ok (0, w.put (listFile src))
  | .listNames =>
    match loadSourceFile name (h.files name) with
    | .halt e => .halt e
    | .ok none => .ok (0, w)
    | .ok (some src) =>
      match listNames h.ctx.fuel src opt.keywordsAnywhere with
      | .halt e => .halt e
      | .ok names => .ok (0, w.put (names.map printName).flatten)
  | .parse | .code =>
    match loadSourceFile name (h.files name) with
    | .halt e => .halt e
    | .ok none => .ok (0, w)
    | .ok (some src) =>
      match parseSource src (initBuiltins newSymbolTable) opt.keywordsAnywhere with
      | .halt e => .halt e
      | .ok (none, _) => .ok (1, w)
      | .ok (some bc, st) =>
        if opt.mode = .code then
          match listCode src st bc.inst 0 with
          | .halt e => .halt e
          | .ok t => .ok (0, w.put t)
        else .ok (0, w)
  | .no | .run =>
    match vmLoadSource (newVm opt.keywordsAnywhere opt.traceBasic opt.traceFor w) name (h.files name) with
    | .halt e => .halt e
    | .ok (false, vm) => .ok (0, vm.world)
    | .ok (true, vm) =>
      match runProgram h.ctx.env h.ctx.brk h.ctx.fuel vm with
      | .halt e => .halt e
      | .ok (_, vm') => .ok (0, vm'.world)

/-- The end of `main` (System/lbasic.c:78-84): the report of memory, if asked for. -/
def finish (h : Host) (opt : Options) (status : Nat) (w : World) : Nat × World :=
  (status, if opt.reportMemory && status == 0 then w.put h.memory else w)

/-- `main` (System/lbasic.c:43-84) behind `argv[0]`: exit status and world; `EXIT_FAILURE` is 1. -/
def lbasic (h : Host) (args : List CStr) (w : World) : Outcome (Nat × World) :=
  match parseOptions h.ctx.env {} w args with
  | .halt e => .halt e
  | .ok (.usage full w) => .ok (1, w.put (usageText full))
  | .ok (.options opt w) =>
    if opt.printVersion then .ok (1, w.put versionText)
    else
      let w := if opt.quiet then w else w.put versionText
      match opt.fileName with
      | none =>
        if opt.mode ≠ .no then .halt (.exit "invalid option for interactive mode")
        else
          match interact h opt w with
          | .halt e => .halt e
          | .ok w => .ok (finish h opt 0 w)
      | some name =>
        match processFile h opt name w with
        | .halt e => .halt e
        | .ok (s, w) => .ok (finish h opt s w)

end LB
