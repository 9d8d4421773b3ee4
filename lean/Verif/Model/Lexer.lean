import Verif.Model.Num
import Verif.Model.Token
/- Basic/lexer.c, Basic/lexer.h: lexical analysis of one line of BASIC text. -/
namespace LB

/-- `MAX_WORD` (Basic/lexer.h:9). -/
def maxWord : Nat := 128

/-- `LEX` (Basic/lexer.h:11-21).  `word` is the string held in the buffer `word`; writing outside
the buffer is a distinct outcome of the functions below.  `text = none` is the NULL pointer. -/
structure Lex where
  lineno : Nat
  text : Option CStr
  pos : Nat
  tokenPos : Nat
  token : Tok
  num : Dbl
  prefixes : Bool
  word : CStr
  deriving DecidableEq, Repr

/-- `new_lex` (Basic/lexer.c:15-27). -/
def newLex (prefixes : Bool) : Lex :=
  { lineno := 0, text := none, pos := 0, tokenPos := 0, token := .none, num := .fin 0,
    prefixes := prefixes, word := [] }

/-- A character as returned by `lex_char`: `none` is `EOF`.  A byte 0xFF read as a `signed char`
has the value of `EOF` (Basic/lexer.c:97, 111, 125). -/
def asInt (c : Char) : Option Char := if c.toNat = 255 then none else some c

/-- The `char` value that compares equal to `c` (Basic/lexer.c:153). -/
def byteOf : Option Char → Char
  | some c => c
  | none => Char.ofNat 255

/-- `validate` (Basic/lexer.c:76-81): bytes from 127 on, other than 0xFF, end the process. -/
def validate (c : Char) : Outcome Unit :=
  if c.toNat ≠ 255 ∧ 127 ≤ c.toNat then .halt (.exit "invalid character on line") else .ok ()

/-- `lex_peek` (Basic/lexer.c:116-128).  The terminating NUL reads as a newline; a position beyond
it is an out-of-bounds read. -/
def lexPeek (lex : Lex) : Outcome (Option Char) :=
  match lex.text with
  | none => .ok none
  | some t =>
    if lex.pos > t.length then .halt (.outOfBounds "lexer text")
    else match t[lex.pos]? with
      | none => .ok (some '\n')
      | some c =>
        match validate c with
        | .halt h => .halt h
        | .ok () => .ok (asInt c)

/-- `lex_char` (Basic/lexer.c:102-114). -/
def lexChar (lex : Lex) : Outcome (Option Char × Lex) :=
  match lexPeek lex with
  | .halt h => .halt h
  | .ok c =>
    match lex.text with
    | none => .ok (c, lex)
    | some t => .ok (c, if lex.pos < t.length then { lex with pos := lex.pos + 1 } else lex)

/-- `lex_char_pos` (Basic/lexer.c:83-100): the character and its position. -/
def lexCharPos (lex : Lex) : Outcome (Option Char × Nat × Lex) :=
  match lexChar lex with
  | .halt h => .halt h
  | .ok (c, lex') => .ok (c, (if lex.text = none then 0 else lex.pos), lex')

/-- `lex_discard` (Basic/lexer.c:130-139). -/
def lexDiscard (lex : Lex) : Lex :=
  let n := match lex.text with
    | none => 0
    | some t => t.length
  { lex with pos := n, tokenPos := n, token := .ch '\n' }

/-- `pushback` (Basic/lexer.c:145-156). -/
def pushback (lex : Lex) (c : Option Char) : Outcome Lex :=
  match lex.text with
  | none => .halt (.exit "internal error: invalid pushback")
  | some t =>
    if lex.pos > t.length then .halt (.outOfBounds "lexer text")
    else if c = some '\n' ∧ lex.pos = t.length then .ok lex
    else if lex.pos = 0 then .halt (.exit "internal error: invalid pushback")
    else if t[lex.pos - 1]? = some (byteOf c) then .ok { lex with pos := lex.pos - 1 }
    else .halt (.exit "internal error: pushback")

/-- A write of `lex->word[i++] = c` (Basic/lexer.c:198, 209, 212, 218, 225, 228): out of bounds
when `i` is not below the size of the buffer. -/
def putWord (w : CStr) (c : Char) : Outcome CStr :=
  if w.length < maxWord then .ok (w ++ [c]) else .halt (.outOfBounds "lexer word")

/-- The write of the terminating NUL `lex->word[i] = '\0'` (Basic/lexer.c:201-287). -/
def endWord (lex : Lex) (w : CStr) : Outcome Lex :=
  if w.length < maxWord then .ok { lex with word := w } else .halt (.outOfBounds "lexer word")

/-- `return lex->token = t` (Basic/lexer.c:195-311). -/
def setToken (lex : Lex) (t : Tok) : Tok × Lex := (t, { lex with token := t })

/-- `isalpha` etc. on a possible `EOF` (Basic/lexer.c:188, 199, 219, 235). -/
def testCh (p : Char → Bool) : Option Char → Bool
  | some c => p c
  | none => false

/-- White space of `lex_next` (Basic/lexer.c:183). -/
def isBlank (c : Char) : Bool := c == ' ' || c == '\t' || c == '\r'

/-- White space of `lex_next_data` (Basic/lexer.c:319). -/
def isDataBlank (c : Char) : Bool := c == ' ' || c == '\t'

/-- The loops skipping white space (Basic/lexer.c:181-184, 317-320).
Recursion bound: one more than the characters left. -/
def skipBlanks (blank : Char → Bool) : Nat → Lex → Outcome (Option Char × Nat × Lex)
  | 0, _ => .halt .fuel
  | n + 1, lex =>
    match lexCharPos lex with
    | .halt h => .halt h
    | .ok (c, pos, lex') =>
      if testCh blank c then skipBlanks blank n lex' else .ok (c, pos, lex')

/-- Recursion bound of the loops: one more than the characters left (Basic/lexer.c:179-357). -/
def lexFuel (lex : Lex) : Nat :=
  match lex.text with
  | none => 1
  | some t => t.length - lex.pos + 2

/-- The text at the current position, `lex->text + lex->pos` (Basic/lexer.c:191, 200). -/
def lexRemaining (lex : Lex) : CStr :=
  match lex.text with
  | none => []
  | some t => t.drop lex.pos

/-- Loop reading a name where keywords are recognised anywhere (Basic/lexer.c:199-214), entered
with the characters `w` so far. -/
def nameLoopAnywhere : Nat → Lex → CStr → Outcome (Tok × Lex)
  | 0, _, _ => .halt .fuel
  | n + 1, lex, w =>
    match lexPeek lex with
    | .halt h => .halt h
    | .ok c =>
      if testCh isalnum c then
        if testCh isalpha c && (keywordPrefix (lexRemaining lex)).isSome then
          match endWord lex w with
          | .halt h => .halt h
          | .ok lex' => .ok (setToken lex' .id)
        else if w.length + 2 ≥ maxWord then
          match endWord lex w with
          | .halt h => .halt h
          | .ok lex' => .ok (setToken lex' .error)
        else
          match lexChar lex with
          | .halt h => .halt h
          | .ok (c', lex') =>
            match putWord w (byteOf c') with
            | .halt h => .halt h
            | .ok w' => nameLoopAnywhere n lex' w'
      else if c = some '$' then
        match lexChar lex with
        | .halt h => .halt h
        | .ok (c', lex') =>
          match putWord w (byteOf c') with
          | .halt h => .halt h
          | .ok w' =>
            match endWord lex' w' with
            | .halt h => .halt h
            | .ok lex'' => .ok (setToken lex'' .id)
      else
        match endWord lex w with
        | .halt h => .halt h
        | .ok lex' => .ok (setToken lex' .id)

/-- A word where keywords are recognised anywhere (Basic/lexer.c:189-215); `c` is its first
character, already read. -/
def wordAnywhere (lex0 : Lex) (c : Option Char) : Outcome (Tok × Lex) :=
  match pushback lex0 c with
  | .halt h => .halt h
  | .ok lex =>
    match keywordPrefix (lexRemaining lex) with
    | some kw => .ok (setToken { lex with word := kw.name, pos := lex.pos + kw.len } (.kw kw.token))
    | none =>
      match lexChar lex with
      | .halt h => .halt h
      | .ok (c', lex') =>
        match putWord [] (byteOf c') with
        | .halt h => .halt h
        | .ok w => nameLoopAnywhere (lexFuel lex') lex' w

/-- Loop reading a keyword or name (Basic/lexer.c:219-232), entered with the characters `w` so
far. -/
def nameLoop : Nat → Lex → CStr → Outcome (Tok × Lex)
  | 0, _, _ => .halt .fuel
  | n + 1, lex, w =>
    match lexChar lex with
    | .halt h => .halt h
    | .ok (c, lex') =>
      if testCh isalnum c then
        if w.length + 2 ≥ maxWord then
          match endWord lex' w with
          | .halt h => .halt h
          | .ok lex'' => .ok (setToken lex'' .error)
        else
          match putWord w (byteOf c) with
          | .halt h => .halt h
          | .ok w' => nameLoop n lex' w'
      else if c = some '$' then
        match putWord w '$' with
        | .halt h => .halt h
        | .ok w' =>
          match endWord lex' w' with
          | .halt h => .halt h
          | .ok lex'' => .ok (setToken lex'' (identifierToken w'))
      else
        match pushback lex' c with
        | .halt h => .halt h
        | .ok lex'' =>
          match endWord lex'' w with
          | .halt h => .halt h
          | .ok lex''' => .ok (setToken lex''' (identifierToken w))

/-- `append` (Basic/lexer.c:168-177): `none` when the word is full. -/
def appendCh (w : CStr) (c : Option Char) : Option CStr :=
  if w.length + 1 ≥ maxWord then none else some (w ++ [byteOf c])

/-- Result of a part of number scanning (Basic/lexer.c:235-265): the word was too long, or the
word so far and the next character. -/
inductive NumScan where
  | tooLong (w : CStr) (lex : Lex)
  | ok (w : CStr) (c : Option Char) (lex : Lex)
  deriving DecidableEq, Repr

/-- The digit loops (Basic/lexer.c:239-242, 247-250, 260-264). -/
def digitRun : Nat → Lex → CStr → Option Char → Outcome NumScan
  | 0, _, _, _ => .halt .fuel
  | n + 1, lex, w, c =>
    if testCh isdigit c then
      match appendCh w c with
      | none => .ok (.tooLong w lex)
      | some w' =>
        match lexChar lex with
        | .halt h => .halt h
        | .ok (c', lex') => digitRun n lex' w' c'
    else .ok (.ok w c lex)

/-- Append the character just read, read the next one and continue with digits
(Basic/lexer.c:244-251, 253-259). -/
def appendThenDigits (lex : Lex) (w : CStr) (c : Option Char) : Outcome NumScan :=
  match appendCh w c with
  | none => .ok (.tooLong w lex)
  | some w' =>
    match lexChar lex with
    | .halt h => .halt h
    | .ok (c', lex') => digitRun (lexFuel lex' + 1) lex' w' c'

/-- The fraction part (Basic/lexer.c:244-251). -/
def scanFraction (lex : Lex) (w : CStr) (c : Option Char) : Outcome NumScan :=
  if c = some '.' then appendThenDigits lex w c else .ok (.ok w c lex)

/-- The exponent part (Basic/lexer.c:252-265). -/
def scanExp (lex : Lex) (w : CStr) (c : Option Char) : Outcome NumScan :=
  if testCh (fun c => tolower c == 'e') c then
    match appendCh w c with
    | none => .ok (.tooLong w lex)
    | some w' =>
      match lexChar lex with
      | .halt h => .halt h
      | .ok (c', lex') =>
        if c' = some '-' then appendThenDigits lex' w' c'
        else digitRun (lexFuel lex' + 1) lex' w' c'
  else .ok (.ok w c lex)

/-- Sequencing of number parts: a word that is too long ends with `TOK_ERROR`
(Basic/lexer.c:240-262). -/
def NumScan.andThen (r : Outcome NumScan) (k : Lex → CStr → Option Char → Outcome NumScan) :
    Outcome NumScan :=
  match r with
  | .halt h => .halt h
  | .ok (.tooLong w lex) => .ok (.tooLong w lex)
  | .ok (.ok w c lex) => k lex w c

/-- The characters of a number (Basic/lexer.c:237-265); `c` is its first character. -/
def numberChars (lex : Lex) (c : Option Char) : Outcome NumScan :=
  NumScan.andThen (NumScan.andThen (digitRun (lexFuel lex + 1) lex [] c) scanFraction) scanExp

/-- A number (Basic/lexer.c:235-275); `c` is its first character, already read. -/
def lexNumber (lex0 : Lex) (c : Option Char) : Outcome (Tok × Lex) :=
  match numberChars lex0 c with
  | .halt h => .halt h
  | .ok (.tooLong w lex) =>
    match endWord lex w with
    | .halt h => .halt h
    | .ok lex' => .ok (setToken lex' .error)
  | .ok (.ok w c lex) =>
    match pushback lex c with
    | .halt h => .halt h
    | .ok lex1 =>
      match endWord lex1 w with
      | .halt h => .halt h
      | .ok lex2 =>
        let (x, rest) := strtod w
        let lex3 := { lex2 with num := x }
        if rest.isEmpty then .ok (setToken lex3 .num) else .ok (setToken lex3 .error)

/-- Does `c` end a quoted string? (Basic/lexer.c:279, 326). -/
def endsString (c : Option Char) : Bool := c == some '"' || c == some '\n' || c == none

/-- Result of reading up to a delimiter: too long, or the characters and the delimiter
(Basic/lexer.c:279-286, 326-333, 340-348). -/
inductive RunScan where
  | tooLong (w : CStr) (lex : Lex)
  | ok (w : CStr) (c : Option Char) (lex : Lex)
  deriving DecidableEq, Repr

/-- Loop collecting characters up to a delimiter, starting with the character `c` already read
(Basic/lexer.c:279-286, 326-333, 340-348). -/
def runLoop (stop : Option Char → Bool) : Nat → Lex → CStr → Option Char → Outcome RunScan
  | 0, _, _, _ => .halt .fuel
  | n + 1, lex, w, c =>
    if stop c then .ok (.ok w c lex)
    else if w.length + 1 ≥ maxWord then .ok (.tooLong w lex)
    else
      match putWord w (byteOf c) with
      | .halt h => .halt h
      | .ok w' =>
        match lexChar lex with
        | .halt h => .halt h
        | .ok (c', lex') => runLoop stop n lex' w' c'

/-- Read the next character and collect up to the closing quote (Basic/lexer.c:278-286, 325-333). -/
def quotedRun (lex : Lex) : Outcome RunScan :=
  match lexChar lex with
  | .halt h => .halt h
  | .ok (c, lex') => runLoop endsString (lexFuel lex' + 1) lex' [] c

/-- A quoted string (Basic/lexer.c:277-293); the opening quote has been read. -/
def lexString (lex0 : Lex) : Outcome (Tok × Lex) :=
  match quotedRun lex0 with
  | .halt h => .halt h
  | .ok (.tooLong w lex) =>
    match endWord lex w with
    | .halt h => .halt h
    | .ok lex' => .ok (setToken lex' .error)
  | .ok (.ok w c lex) =>
    match endWord lex w with
    | .halt h => .halt h
    | .ok lex' => if c = some '"' then .ok (setToken lex' .str) else .ok (setToken lex' .error)

/-- Tokens starting with `<` (Basic/lexer.c:295-302). -/
def lexLess (lex0 : Lex) : Outcome (Tok × Lex) :=
  match lexChar lex0 with
  | .halt h => .halt h
  | .ok (c, lex) =>
    if c = some '>' then .ok (setToken lex .ne)
    else if c = some '=' then .ok (setToken lex .le)
    else match pushback lex c with
      | .halt h => .halt h
      | .ok lex' => .ok (setToken lex' (.ch '<'))

/-- Tokens starting with `>` (Basic/lexer.c:304-309). -/
def lexGreater (lex0 : Lex) : Outcome (Tok × Lex) :=
  match lexChar lex0 with
  | .halt h => .halt h
  | .ok (c, lex) =>
    if c = some '=' then .ok (setToken lex .ge)
    else match pushback lex c with
      | .halt h => .halt h
      | .ok lex' => .ok (setToken lex' (.ch '>'))

/-- A keyword or name where keywords are separate words (Basic/lexer.c:217-232). -/
def wordSeparate (lex : Lex) (c : Option Char) : Outcome (Tok × Lex) :=
  match putWord [] (byteOf c) with
  | .halt h => .halt h
  | .ok w => nameLoop (lexFuel lex) lex w

/-- The token that starts with the character `c`, already read (Basic/lexer.c:188-311). -/
def lexToken (lex : Lex) (c : Option Char) : Outcome (Tok × Lex) :=
  if testCh isalpha c then
    if lex.prefixes then wordAnywhere lex c else wordSeparate lex c
  else if testCh isdigit c || c == some '.' then lexNumber lex c
  else if c = some '"' then lexString lex
  else if c = some '<' then lexLess lex
  else if c = some '>' then lexGreater lex
  else match c with
    | none => .ok (setToken lex .eof)
    | some c => .ok (setToken lex (.ch c))

/-- `lex_next` (Basic/lexer.c:179-312). -/
def lexNext (lex0 : Lex) : Outcome (Tok × Lex) :=
  match skipBlanks isBlank (lexFuel lex0) lex0 with
  | .halt h => .halt h
  | .ok (c, pos, lex1) => lexToken { lex1 with tokenPos := pos } c

/-- `lex_line` (Basic/lexer.c:33-39). -/
def lexLine (lex : Lex) (lineno : Nat) (text : CStr) : Outcome (Tok × Lex) :=
  lexNext { lex with lineno := lineno, text := some text, pos := 0 }

/-- `lex_refresh` (Basic/lexer.c:42-46). -/
def lexRefresh (lex : Lex) (text : CStr) : Outcome (Tok × Lex) :=
  lexNext { lex with text := some text, pos := lex.tokenPos }

/-- Does `c` end an unquoted item of `DATA`? (Basic/lexer.c:340). -/
def endsDatum (c : Option Char) : Bool :=
  c == some '"' || c == some ',' || c == some ':' || c == some '\n' || c == none

/-- Trimming of trailing blanks (Basic/lexer.c:351-352). -/
def trimRight (w : CStr) : CStr := (w.reverse.dropWhile isDataBlank).reverse

/-- `lex_next_data` (Basic/lexer.c:315-357).  A malformed item ends the process; the token of the
lexer is unchanged. -/
def lexNextData (lex0 : Lex) : Outcome (CStr × Lex) :=
  match skipBlanks isDataBlank (lexFuel lex0) lex0 with
  | .halt h => .halt h
  | .ok (c, pos, lex1) =>
    let lex := { lex1 with tokenPos := pos }
    if c = some '"' then
      match quotedRun lex with
      | .halt h => .halt h
      | .ok (.tooLong _ _) => .halt (.exit "a string is too long")
      | .ok (.ok w c' lex') =>
        if c' = some '"' then
          match endWord lex' w with
          | .halt h => .halt h
          | .ok lex'' => .ok (w, lex'')
        else .halt (.exit "unterminated string")
    else
      match runLoop endsDatum (lexFuel lex + 1) lex [] c with
      | .halt h => .halt h
      | .ok (.tooLong _ _) => .halt (.exit "data is too long")
      | .ok (.ok w c' lex') =>
        match pushback lex' c' with
        | .halt h => .halt h
        | .ok lex'' =>
          match endWord lex'' (trimRight w) with
          | .halt h => .halt h
          | .ok lex''' => .ok (trimRight w, lex''')

/-- The test made on a number token for a line number (Basic/lexer.c:400, Basic/parse.c:949,
Monitor/interactive.c:370): positive, at most 65535, an integer. -/
def lineNumberOk (x : Dbl) : Bool :=
  Dbl.lt (.fin 0) x && Dbl.le x (.fin 65535) && Dbl.eq (Dbl.floor x) x

/-- `lex_unsigned` (Basic/lexer.c:397-406). -/
def lexUnsigned (lex : Lex) : Option Nat :=
  if lex.token = .num ∧ lineNumberOk lex.num then some lex.num.toNat else none

end LB
