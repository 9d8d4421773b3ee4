import Verif.Spec.Semantics
import Verif.Spec.Running
import Verif.Spec.Listing
import Verif.Spec.CommandLine
import Verif.Spec.Typing
/- What is printed in a dialogue with the interpreter. -/
namespace LB.Spec
open _root_.Spec

/-- A line that fits the command line buffer. -/
def WholeLine (line : List Char) : Prop := '\n' ∉ line ∧ '\x00' ∉ line ∧ line.length ≤ 126

instance (line : List Char) : Decidable (WholeLine line) := inferInstanceAs (Decidable (_ ∧ _))

/-- The line is the word, in any case, followed by `tail`. -/
def SaysWord (word : String) (line tail : List Char) : Prop :=
  WholeLine line ∧ ∃ pre w, line = pre ++ w ++ tail ∧ Blanks pre ∧ SameIgnoringCase word.toList w ∧ ∀ c ∈ w, IsLetter c

/-- The name of a file in quotes, of which the second may be missing, and nothing else. -/
def Quoting (tail f : List Char) : Prop :=
  ∃ sp last, tail = sp ++ '"' :: f ++ last ∧ Blanks sp ∧ (last = [] ∨ ∃ sp', last = '"' :: sp' ∧ Blanks sp') ∧ '"' ∉ f ∧ '\n' ∉ f

/-- What there is between two lines typed: the program, the name of the file it was loaded from, the files, the state of
the generator, how often the clock was read, the line that INPUT read last, whether keywords are recognised anywhere, and
whether the program was stopped and not changed since then. -/
structure Desk where
  prog : Prog
  name : Option CStr
  files : CStr → Option CStr
  rng : Nat
  ticks : Nat
  line : CStr
  anywhere : Bool
  paused : Bool

/-- Does the action change something? -/
def Typed.changes (p : Prog) : Typed → Bool
  | .edit (.erase n) => (p n).isSome
  | _ => true

/-- Was the end a STOP? -/
def _root_.LB.Src.Ending.isStop : Src.Ending → Bool
  | .stopped => true
  | _ => false

/-- The lines of a program. -/
def sourceOf (ps : List (Nat × List Char)) (name : Option CStr) : Source := ⟨name, ps.map (fun p => ⟨p.1, p.2⟩)⟩

/-- The desk with the rest of the input, for a run. -/
def Desk.machine (d : Desk) (rest : List Char) : VM := { newVm false false false ⟨rest, [], d.rng, d.ticks⟩ with input := d.line }

/-- Something other than a letter follows. -/
def EndsWord (tail : List Char) : Prop := ∀ c, tail.head? = some c → ¬ IsLetter c

/-- Behind blanks, if any, stands the character. -/
def Behind (tail : List Char) (c : Char) : Prop := ∃ sp more, tail = sp ++ c :: more ∧ Blanks sp ∧ c ≠ ' ' ∧ c ≠ '\t'

/-- `Talk env can d typed out`: at the desk `d`, when everything that is going to be typed is `typed`, the dialogue prints `out`
and ends; `can` says which files can be written. -/
inductive Talk (env : Env) (can : CStr → Bool) : Desk → List Char → List Char → Prop
  /-- The input ends. -/
  | over (d : Desk) : Talk env can d [] "> ".toList
  /-- `BYE` ends the dialogue. -/
  | bye {d : Desk} {line tail rest : List Char} : SaysWord "BYE" line tail → Blanks tail → Talk env can d (line ++ '\n' :: rest) "> ".toList
  /-- A blank line does nothing. -/
  | blank {d : Desk} {line rest out : List Char} : WholeLine line → Blanks line → Talk env can d rest out →
      Talk env can d (line ++ '\n' :: rest) ("> ".toList ++ out)
  /-- A program line is entered or deleted, or `NEW`. -/
  | edit {d : Desk} {rest out : List Char} (t : Typed) : t.Fits → WholeLine t.text → Talk env can { d with prog := t.apply d.prog, paused := d.paused && !t.changes d.prog } rest out →
      Talk env can d (t.text ++ '\n' :: rest) ("> ".toList ++ out)
  /-- A line that starts with a star does nothing. -/
  | remark {d : Desk} {pre text rest out : List Char} : WholeLine (pre ++ '*' :: text) → Blanks pre → Talk env can d rest out →
      Talk env can d (pre ++ '*' :: text ++ '\n' :: rest) ("> ".toList ++ out)
  /-- A line that is too long does nothing. -/
  | long {d : Desk} {line rest out : List Char} : '\n' ∉ line → '\x00' ∉ line → 127 ≤ line.length → Talk env can d rest out →
      Talk env can d (line ++ '\n' :: rest) ("> Command line too long\n".toList ++ out)
  /-- `LIST` shows the program, or the part from a line on. -/
  | list {d : Desk} {line sp sp' rest out : List Char} {ps : List (Nat × List Char)} (a : Option Nat) : SaysWord "LIST" line (sp ++ maybe a ++ sp') →
      Blanks sp → Blanks sp' → (∀ n, a = some n → n < 2 ^ 32) → _root_.Spec.Shows ps d.prog → Talk env can d rest out →
      Talk env can d (line ++ '\n' :: rest) ("> ".toList ++ listing (ps.filter (fun l => decide (a.getD 0 ≤ l.1))) ++ out)
  /-- `LIST` with a range shows the lines in it. -/
  | range {d : Desk} {line sp rest out : List Char} {ps : List (Nat × List Char)} (a b : Option Nat) : SaysWord "LIST" line (sp ++ maybe a ++ '-' :: maybe b) →
      Blanks sp → (∀ n, a = some n → n < 2 ^ 32) → (∀ n, b = some n → n < 2 ^ 32) → _root_.Spec.Shows ps d.prog → Talk env can d rest out →
      Talk env can d (line ++ '\n' :: rest) ("> ".toList ++ listing (ps.filter (fun l => decide (a.getD 0 ≤ l.1 ∧ l.1 ≤ b.getD (2 ^ 32 - 1)))) ++ out)
  /-- `SAVE` writes the program to a file. -/
  | save {d : Desk} {line tail f rest out : List Char} {ps : List (Nat × List Char)} : SaysWord "SAVE" line tail → Quoting tail f → can f = true →
      _root_.Spec.Shows ps d.prog → ps ≠ [] → Talk env can { d with files := fun n => if n = f then some (listing ps) else d.files n } rest out →
      Talk env can d (line ++ '\n' :: rest) ("> ".toList ++ out)
  /-- `SAVE` to a file that cannot be written does nothing (the message is not on the standard output). -/
  | unsaved {d : Desk} {line tail f rest out : List Char} : SaysWord "SAVE" line tail → Quoting tail f → can f = false → Talk env can d rest out →
      Talk env can d (line ++ '\n' :: rest) ("> ".toList ++ out)
  /-- `HELP` shows the commands. -/
  | help {d : Desk} {line tail rest out : List Char} : SaysWord "HELP" line tail → EndsWord tail → Talk env can d rest out →
      Talk env can d (line ++ '\n' :: rest) ("> ".toList ++ helpText ++ out)
  /-- `BYE` and `NEW` are refused if something follows. -/
  | refused {d : Desk} {word : String} {line tail rest out : List Char} {c : Char} : word = "BYE" ∨ word = "NEW" → SaysWord word line tail → EndsWord tail →
      Behind tail c → Talk env can d rest out → Talk env can d (line ++ '\n' :: rest) ("> Command syntax error\n".toList ++ out)
  /-- `LOAD` and `SAVE` are refused without a quote. -/
  | unquoted {d : Desk} {word : String} {line tail rest out : List Char} : word = "LOAD" ∨ word = "SAVE" → SaysWord word line tail → EndsWord tail →
      Blanks tail ∨ (∃ c, Behind tail c ∧ c ≠ '"') → Talk env can d rest out → Talk env can d (line ++ '\n' :: rest) ("> Quoted file name expected\n".toList ++ out)
  /-- `LIST` and `RENUM` are refused if something else than numbers follows. -/
  | junk {d : Desk} {word : String} {line tail rest out : List Char} {c : Char} : word = "LIST" ∨ word = "RENUM" → SaysWord word line tail → EndsWord tail →
      Behind tail c → ¬ IsDigit c → c ∉ ['-', ',', 'p', 'P'] → Talk env can d rest out → Talk env can d (line ++ '\n' :: rest) ("> Command syntax error\n".toList ++ out)
  /-- `LOAD` and `SAVE` are refused if something follows the name. -/
  | trailing {d : Desk} {word : String} {line sp f more rest out : List Char} {c : Char} : word = "LOAD" ∨ word = "SAVE" → SaysWord word line (sp ++ '"' :: f ++ '"' :: more) →
      Blanks sp → '"' ∉ f → Behind more c → Talk env can d rest out →
      Talk env can d (line ++ '\n' :: rest) ("> Command syntax error\nQuoted file name expected\n".toList ++ out)
  /-- `LIST` with `P` shows the program, or the part from a line on, in pages; at the end of each a line is read. -/
  | pages {d : Desk} {line sp sp' t rest out : List Char} {p : Char} {ps : List (Nat × List Char)} (a : Option Nat) :
      SaysWord "LIST" line (sp ++ maybe a ++ (sp' ++ p :: t)) → Blanks sp → Blanks sp' → Blanks t → p = 'p' ∨ p = 'P' → sp ++ maybe a ++ sp' ≠ [] →
      (∀ n, a = some n → n < 2 ^ 32) → _root_.Spec.Shows ps d.prog →
      Talk env can d (afterLines (((ps.filter (fun l => decide (a.getD 0 ≤ l.1))).zipIdx.filter (turnsPage (ps.getLast?.map (·.1)))).length) rest) out →
      Talk env can d (line ++ '\n' :: rest) ("> ".toList ++ pagedListing (ps.getLast?.map (·.1)) (ps.filter (fun l => decide (a.getD 0 ≤ l.1))).zipIdx ++ out)
  /-- `CONT` is refused unless the program was stopped and not changed since then. -/
  | cont {d : Desk} {line tail rest out : List Char} : SaysWord "CONT" line tail → EndsWord tail → d.paused = false → Talk env can d rest out →
      Talk env can d (line ++ '\n' :: rest) ("> Cannot continue\n".toList ++ out)
  /-- `COMPILE` prints nothing for a program of the documented statements. -/
  | compile {d : Desk} {line tail rest out : List Char} {ps : List (Nat × List Char)} {prog : Src.Program} : SaysWord "COMPILE" line tail → EndsWord tail →
      _root_.Spec.Shows ps d.prog → Src.LinesAs d.anywhere (sourceOf ps d.name).lines prog → prog.vars ≤ 65510 → prog.Apart → Talk env can d rest out →
      Talk env can d (line ++ '\n' :: rest) ("> ".toList ++ out)
  /-- `LOAD` reads the program from a file. -/
  | load {d : Desk} {line tail f text rest out : List Char} {ps : List (Nat × List Char)} {p : Prog} : SaysWord "LOAD" line tail → Quoting tail f →
      d.files f = some text → Listing text ps → (∀ n t, (n, t) ∈ ps → n ≠ 0) → _root_.Spec.Shows ps p → Talk env can { d with prog := p, name := some f, paused := false } rest out →
      Talk env can d (line ++ '\n' :: rest) ("> ".toList ++ out)
  /-- `LOAD` of a file that is not there does nothing (the message is not on the standard output). -/
  | missing {d : Desk} {line tail f rest out : List Char} : SaysWord "LOAD" line tail → Quoting tail f → d.files f = none → Talk env can d rest out →
      Talk env can d (line ++ '\n' :: rest) ("> ".toList ++ out)
  /-- `RUN` does what the statements of the program mean; INPUT reads the lines typed after it. -/
  | run {d : Desk} {line rest out : List Char} {ps : List (Nat × List Char)} {prog : Src.Program} {k : Nat} {e : Src.Ending} {c : Src.Config} :
      SaysRun line → _root_.Spec.Shows ps d.prog → Src.LinesAs d.anywhere (sourceOf ps d.name).lines prog → prog.Fits → prog.vars ≤ 65510 → prog.Apart →
      Src.steps env prog k (Src.start prog (d.machine rest)) = .stop e c → e ≠ .unknown → e ≠ .error .forTooDeep →
      Talk env can { d with rng := c.rng, ticks := c.ticks, line := c.line, paused := e.isStop } c.stdin out →
      Talk env can d (line ++ '\n' :: rest) ("> ".toList ++ c.out ++ e.message (sourceOf ps d.name).lines c.place ++ out)

/-- The arguments ask for a dialogue with nothing traced. -/
structure AsksTalk (args : List CStr) : Prop where
  usable : ∀ a ∈ args, Usable a
  noFile : ∀ a ∈ args, ¬ IsFile a
  mode : ∀ a ∈ args, ∀ m, ¬ Says a (.mode m)
  plain : ∀ a ∈ args, ∀ s ∈ [Switch.version, .traceBasic, .traceFor], ¬ Says a s

/-- What is printed first in a dialogue. -/
def greeting (args : List CStr) : CStr :=
  if ∃ a ∈ args, Says a .quiet then [] else versionText ++ "Type HELP to list commands\n\n".toList

end LB.Spec
