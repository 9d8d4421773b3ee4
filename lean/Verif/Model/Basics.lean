/-
Basic vocabulary of the model: C strings, character classes, comparison
functions of the C library, machine integers and process outcomes.
-/

namespace LB

/-- A C string: the bytes before the terminating NUL.  A byte `b` is `Char.ofNat b`.
Models `char*` values throughout /repo (NULL is modelled by `Option CStr` where it can occur). -/
abbrev CStr := List Char

/-- Ways in which the process ends or its behaviour becomes undefined.
Models `exit(EXIT_FAILURE)` (Basic/source.c:75-84, Basic/lexer.c:58-79, Shared/utils.c:14-24),
failed `assert` (assertions are enabled, see DESIGN.md), and undefined behaviour.
`fuel` is not a behaviour of the program: it marks an exhausted recursion bound of the model. -/
inductive Halt where
  | exit (msg : String)
  | assertFail (where_ : String)
  | outOfBounds (where_ : String)
  | divByZero (where_ : String)
  | fuel
  deriving DecidableEq, Repr

/-- Result of a C function that may end the process.
Models the calls to `exit`/`assert`/undefined behaviour in all of /repo. -/
inductive Outcome (α : Type) where
  | ok (a : α)
  | halt (h : Halt)
  deriving DecidableEq, Repr

/-- Sequencing of C statements: a halt stops everything.  Models `;` (all files of /repo). -/
def Outcome.bind {α β} : Outcome α → (α → Outcome β) → Outcome β
  | .ok a, f => f a
  | .halt h, _ => .halt h

instance : Monad Outcome where
  pure := .ok
  bind := Outcome.bind

/-- `isdigit` in the C locale (used in Basic/lexer.c:226, Basic/source.c:114,
Monitor/interactive.c:133).  Negative `char` values are non-digits (glibc tables). -/
def isdigit (c : Char) : Bool := decide (48 ≤ c.toNat ∧ c.toNat ≤ 57)

/-- `isupper` in the C locale (part of `isalpha`, Basic/lexer.c:188). -/
def isupper (c : Char) : Bool := decide (65 ≤ c.toNat ∧ c.toNat ≤ 90)

/-- `islower` in the C locale (part of `isalpha`, Basic/lexer.c:188). -/
def islower (c : Char) : Bool := decide (97 ≤ c.toNat ∧ c.toNat ≤ 122)

/-- `isalpha` in the C locale (Basic/lexer.c:188, Monitor/interactive.c:159). -/
def isalpha (c : Char) : Bool := isupper c || islower c

/-- `isalnum` in the C locale (Basic/lexer.c:198, 215). -/
def isalnum (c : Char) : Bool := isalpha c || isdigit c

/-- `toupper` in the C locale (Shared/hash.c:23). -/
def toupper (c : Char) : Char := if islower c then Char.ofNat (c.toNat - 32) else c

/-- `tolower` in the C locale (Basic/lexer.c:243 and inside `strcasecmp`). -/
def tolower (c : Char) : Char := if isupper c then Char.ofNat (c.toNat + 32) else c

/-- `strcasecmp`, called `STRICMP` (Shared/os.h:22): difference of the first two characters
that differ after `tolower`.  The NUL terminator is below every character; only the sign of the
result is specified by C and used in /repo. -/
def strcasecmp : CStr → CStr → Int
  | [], [] => 0
  | [], _ :: _ => -1
  | _ :: _, [] => 1
  | a :: as, b :: bs =>
    let d := ((tolower a).toNat : Int) - ((tolower b).toNat : Int)
    if d ≠ 0 then d else strcasecmp as bs

/-- `strncasecmp`, called `STRNICMP` (Shared/os.h:23): like `strcasecmp` on at most `n` characters. -/
def strncasecmp : CStr → CStr → Nat → Int
  | _, _, 0 => 0
  | [], [], _ + 1 => 0
  | [], _ :: _, _ + 1 => -1
  | _ :: _, [], _ + 1 => 1
  | a :: as, b :: bs, n + 1 =>
    let d := ((tolower a).toNat : Int) - ((tolower b).toNat : Int)
    if d ≠ 0 then d else strncasecmp as bs n

/-- `strcmp` on unsigned bytes (Basic/run.c:1246); only the sign of the result is used. -/
def strcmp : CStr → CStr → Int
  | [], [] => 0
  | [], _ :: _ => -1
  | _ :: _, [] => 1
  | a :: as, b :: bs =>
    let d := (a.toNat : Int) - (b.toNat : Int)
    if d ≠ 0 then d else strcmp as bs

/-- Reduction to 32-bit `unsigned` (every `unsigned` in /repo). -/
def u32 (n : Nat) : Nat := n % 2 ^ 32

/-- Reduction to 16-bit `unsigned short` (`SYMID`, Basic/symbol.h:22; `array_size`, Basic/arrays.h:13-18). -/
def u16 (n : Nat) : Nat := n % 2 ^ 16

/-- Value of a decimal digit character, `c - '0'` (Basic/source.c:115, Monitor/interactive.c:443). -/
def digitVal (c : Char) : Nat := c.toNat - 48

/-- `printf("%u", n)` for a 32-bit unsigned (Basic/source.c:198, Monitor/interactive.c:319, 371). -/
def fmtU (n : Nat) : CStr := Nat.toDigits 10 n

/-- `string_name` (Shared/utils.c:86-88): the name is non-empty and ends in `$`. -/
def stringName (name : CStr) : Bool := name.getLast? == some '$'

end LB
