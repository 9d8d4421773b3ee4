import Verif.Model.Basics
/- Basic/source.c: the stored program text. -/
namespace LB

/-- `struct source_line` (Basic/source.h:9-12). -/
structure SrcLine where
  num : Nat
  text : CStr
  deriving DecidableEq, Repr

/-- `SOURCE` (Basic/source.h:14-19): name and the `used` lines in array order.
Capacity management (`allocated`, `ensure_space`, Basic/source.c:86-92) is not modelled. -/
structure Source where
  name : Option CStr := none
  lines : List SrcLine := []
  deriving DecidableEq, Repr

/-- `new_source` (Basic/source.c:13-17). -/
def newSource (name : Option CStr) : Source := { name := name, lines := [] }

/-- `clear_source` (Basic/source.c:19-24). -/
def clearSource (src : Source) : Source := { src with lines := [] }

/-- `source_lines` (Basic/source.c:40-43). -/
def sourceLines (src : Source) : Nat := src.lines.length

/-- `source_linenum` with `check_line` (Basic/source.c:45-49, 58-62). -/
def sourceLinenum (src : Source) (line : Nat) : Outcome Nat :=
  match src.lines[line]? with
  | some l => .ok l.num
  | none => .halt (.exit "source line number out of range")

/-- `source_text` (Basic/source.c:51-56): asserts the index. -/
def sourceText (src : Source) (line : Nat) : Outcome CStr :=
  match src.lines[line]? with
  | some l => .ok l.text
  | none => .halt (.assertFail "source_text")

/-- `set_source_linenum` (Basic/source.c:64-68). -/
def setSourceLinenum (src : Source) (line basicLineno : Nat) : Outcome Source :=
  match src.lines[line]? with
  | some l => .ok { src with lines := src.lines.set line { l with num := basicLineno } }
  | none => .halt (.exit "source line number out of range")

/-- `print_source_line` (Basic/source.c:70-73): text printed, nothing if out of range. -/
def printSourceLine (src : Option Source) (line : Nat) : CStr :=
  match src with
  | none => []
  | some s => match s.lines[line]? with
    | some l => fmtU l.num ++ ' ' :: l.text
    | none => []

/-- `latest` in `append` (Basic/source.c:99). -/
def lastNum (ls : List SrcLine) : Nat :=
  match ls.getLast? with
  | some l => l.num
  | none => 0

/-- `append` (Basic/source.c:94-107); `source_error` exits (Basic/source.c:75-84). -/
def appendLine (ls : List SrcLine) (num : Nat) (text : CStr) : Outcome (List SrcLine) :=
  if num = 0 then .halt (.exit "invalid line number")
  else if num ≤ lastNum ls then .halt (.exit "line number is not in increasing order")
  else .ok (ls ++ [⟨num, text⟩])

/-- Loop of `parse_line_number` (Basic/source.c:113-115): value so far, rest of the line. -/
def digitsLoop : CStr → Nat → Nat × CStr
  | [], num => (num, [])
  | c :: s, num => if isdigit c then digitsLoop s (u32 (num * 10 + digitVal c)) else (num, c :: s)

/-- `parse_line_number` (Basic/source.c:109-122): number (mod 2^32) and text after one space. -/
def parseLineNumber (line : CStr) : Outcome (Nat × CStr) :=
  let (num, s) := digitsLoop line 0
  if s.length = line.length then .halt (.exit "line has no line number")
  else match s with
    | ' ' :: t => .ok (num, t)
    | s => .ok (num, s)

/-- `spread` (Basic/source.c:124-134): make room for a line at `pos`. -/
def spread (ls : List SrcLine) (pos : Nat) : List SrcLine :=
  ls.take pos ++ ⟨0, []⟩ :: ls.drop pos

/-- Loop of `enter_source_line` (Basic/source.c:138-150) at index `i`; `rest` are the lines from `i` on. -/
def enterLoop (ls : List SrcLine) (num : Nat) (text : CStr) : Nat → List SrcLine → Outcome (List SrcLine)
  | _, [] => appendLine ls num text
  | i, l :: rest =>
    if l.num = num then .ok (ls.set i { l with text := text })
    else if l.num > num then .ok ((spread ls i).set i ⟨num, text⟩)
    else enterLoop ls num text (i + 1) rest

/-- `enter_source_line` (Basic/source.c:136-152). -/
def enterSourceLine (src : Source) (num : Nat) (text : CStr) : Outcome Source :=
  match enterLoop src.lines num text 0 src.lines with
  | .ok ls => .ok { src with lines := ls }
  | .halt h => .halt h

/-- `delete_source_line` (Basic/source.c:154-162): by array index, out of range is ignored. -/
def deleteSourceLine (src : Source) (line : Nat) : Source :=
  if line < src.lines.length then { src with lines := src.lines.take line ++ src.lines.drop (line + 1) }
  else src

/-- Loop of `find_source_linenum` (Basic/source.c:266-271). -/
def findLoop (num : Nat) : Nat → List SrcLine → Option Nat
  | _, [] => none
  | i, l :: rest => if l.num = num then some i else findLoop num (i + 1) rest

/-- `find_source_linenum` (Basic/source.c:264-273). -/
def findSourceLinenum (src : Source) (num : Nat) : Option Nat := findLoop num 0 src.lines

/-- Body of C's `fgets`: at most `k` characters, stopping after a newline; what was read and the rest.
Used by Basic/source.c:172, Basic/run.c:914, Monitor/interactive.c:103. -/
def fgetsGo : Nat → CStr → CStr × CStr
  | 0, s => ([], s)
  | _ + 1, [] => ([], [])
  | k + 1, c :: s =>
    if c = '\n' then (['\n'], s)
    else let (a, r) := fgetsGo k s; (c :: a, r)

/-- C's `fgets(buf, n, fp)` on the remaining file contents: `none` is the NULL result at end of file.
(Basic/source.c:172, Basic/run.c:914, Monitor/interactive.c:103). -/
def fgets (n : Nat) (s : CStr) : Option (CStr × CStr) :=
  match s with
  | [] => none
  | s => some (fgetsGo (n - 1) s)

/-- The C string in a buffer: the bytes before the first NUL (`strlen(buf)`, Basic/source.c:173). -/
def cstr (buf : CStr) : CStr := buf.takeWhile (fun c => decide (c ≠ '\x00'))

/-- Loop body of `load_source_file` (Basic/source.c:172-187) for one buffer. -/
def loadBuf (ls : List SrcLine) (buf : CStr) : Outcome (List SrcLine) :=
  let s := cstr buf
  match s.getLast? with
  | none => .halt (.exit "source line is empty")
  | some c =>
    if c ≠ '\n' then .halt (.exit "source line is too long")
    else
      let line := s.dropLast
      if line.length = 0 then .halt (.exit "source line is empty")
      else match parseLineNumber line with
        | .halt h => .halt h
        | .ok (num, text) => appendLine ls num text

/-- Loop of `load_source_file` (Basic/source.c:172-187).  Each iteration consumes at least one byte,
so `contents.length + 1` iterations suffice (proved). -/
def loadLoop : Nat → List SrcLine → CStr → Outcome (List SrcLine)
  | 0, _, _ => .halt .fuel
  | fuel + 1, ls, contents =>
    match fgets 256 contents with
    | none => .ok ls
    | some (buf, rest) => match loadBuf ls buf with
      | .halt h => .halt h
      | .ok ls' => loadLoop fuel ls' rest

/-- `load_source_file` (Basic/source.c:164-189).  `contents = none` when the file cannot be opened. -/
def loadSourceFile (name : CStr) (contents : Option CStr) : Outcome (Option Source) :=
  match contents with
  | none => .ok none
  | some c => match loadLoop (c.length + 1) [] c with
    | .halt h => .halt h
    | .ok ls => .ok (some { name := some name, lines := ls })

/-- One `fprintf` of `save_source_file` (Basic/source.c:198). -/
def saveLine (l : SrcLine) : CStr := fmtU l.num ++ ' ' :: l.text ++ ['\n']

/-- `save_source_file` (Basic/source.c:191-201): contents written; failure to create the file
is the caller's `none`. -/
def saveSourceFile (src : Source) : CStr := (src.lines.map saveLine).flatten

/-- `line_length` (Basic/source.c:203-212). -/
def lineLength (s : CStr) : Nat := (s.takeWhile (fun c => decide (c ≠ '\x00' ∧ c ≠ '\n'))).length

/-- `get_line` (Basic/source.c:214-223) with `bufsz = 256`. -/
def getLineStr (s : CStr) : Outcome CStr :=
  let len := lineLength s
  if len = 0 then .halt (.exit "source line is empty")
  else if len + 1 > 256 then .halt (.exit "source line is too long")
  else .ok (s.take len)

/-- Loop of `load_source_string` (Basic/source.c:231-245). -/
def loadStringLoop : Nat → List SrcLine → CStr → Outcome (List SrcLine)
  | 0, _, _ => .halt .fuel
  | fuel + 1, ls, s =>
    match getLineStr s with
    | .halt h => .halt h
    | .ok buf => match parseLineNumber buf with
      | .halt h => .halt h
      | .ok (num, text) => match appendLine ls num text with
        | .halt h => .halt h
        | .ok ls' =>
          match s.drop (lineLength s) with
          | [] => .ok ls'
          | _ :: t => match t with
            | [] => .ok ls'
            | t => loadStringLoop fuel ls' t

/-- `load_source_string` (Basic/source.c:225-248). -/
def loadSourceString (s : CStr) (name : CStr) : Outcome Source :=
  match loadStringLoop (s.length + 1) [] s with
  | .halt h => .halt h
  | .ok ls => .ok { name := some name, lines := ls }

/-- `wrap_source_text` (Basic/source.c:250-262). -/
def wrapSourceText (text : CStr) : Source := { name := none, lines := [⟨0, text⟩] }

/-- `source_replace` (Basic/source.c:275-295): `none` is the result false. -/
def sourceReplace (src : Source) (line pos : Nat) (from_ to : CStr) : Option Source :=
  match src.lines[line]? with
  | none => none
  | some sl =>
    let lineLen := sl.text.length
    let fromLen := from_.length
    if pos ≤ lineLen ∧ lineLen - pos ≥ fromLen ∧ (sl.text.drop pos).take fromLen = from_ then
      let text := sl.text.take pos ++ to ++ sl.text.drop (pos + fromLen)
      some { src with lines := src.lines.set line { sl with text := text } }
    else none

end LB
