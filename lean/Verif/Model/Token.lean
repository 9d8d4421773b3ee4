import Verif.Model.Hash
/- Basic/token.c, Basic/token.h: keywords and tokens. -/
namespace LB

/-- The keyword tokens, in the order of the enum (Basic/token.h:19-47). -/
inductive Kw where
  | AND | CLEAR | CLS | DATA | DEF | DIM | ELSE | END | FOR | GOSUB | GOTO | IF | INPUT | LET
  | LINE | NEXT | NOT | ON | OR | PRINT | RANDOMIZE | READ | REM | RESTORE | RETURN | STEP
  | STOP | THEN | TO
  deriving DecidableEq, Repr

/-- Token codes (Basic/token.h:7-48): a character stands for itself, codes from 256 on are named. -/
inductive Tok where
  | ch (c : Char)
  | none
  | error
  | eof
  | id
  | num
  | str
  | ne
  | le
  | ge
  | kw (k : Kw)
  deriving DecidableEq, Repr

/-- `KEYWORD` (Basic/token.h:50-54). -/
structure Keyword where
  name : CStr
  len : Nat
  token : Kw
  deriving DecidableEq, Repr

/-- `keywords[]` (Basic/token.c:15-47), without the terminating entry. -/
def keywords : List Keyword := [
  ⟨"AND".toList, 3, .AND⟩,
  ⟨"CLEAR".toList, 5, .CLEAR⟩,
  ⟨"CLS".toList, 3, .CLS⟩,
  ⟨"DATA".toList, 4, .DATA⟩,
  ⟨"DEF".toList, 3, .DEF⟩,
  ⟨"DIM".toList, 3, .DIM⟩,
  ⟨"ELSE".toList, 4, .ELSE⟩,
  ⟨"END".toList, 3, .END⟩,
  ⟨"FOR".toList, 3, .FOR⟩,
  ⟨"GOSUB".toList, 5, .GOSUB⟩,
  ⟨"GOTO".toList, 4, .GOTO⟩,
  ⟨"IF".toList, 2, .IF⟩,
  ⟨"INPUT".toList, 5, .INPUT⟩,
  ⟨"LET".toList, 3, .LET⟩,
  ⟨"LINE".toList, 4, .LINE⟩,
  ⟨"NEXT".toList, 4, .NEXT⟩,
  ⟨"NOT".toList, 3, .NOT⟩,
  ⟨"ON".toList, 2, .ON⟩,
  ⟨"OR".toList, 2, .OR⟩,
  ⟨"PRINT".toList, 5, .PRINT⟩,
  ⟨"RANDOMIZE".toList, 9, .RANDOMIZE⟩,
  ⟨"READ".toList, 4, .READ⟩,
  ⟨"REM".toList, 3, .REM⟩,
  ⟨"RESTORE".toList, 7, .RESTORE⟩,
  ⟨"RETURN".toList, 6, .RETURN⟩,
  ⟨"STEP".toList, 4, .STEP⟩,
  ⟨"STOP".toList, 4, .STOP⟩,
  ⟨"THEN".toList, 4, .THEN⟩,
  ⟨"TO".toList, 2, .TO⟩]

/-- `KEYWORD_HASH_SIZE` (Basic/token.c:49). -/
def keywordHashSize : Nat := 79

/-- The chained hash table `keyword_hash.kw` (Basic/token.c:51-58): slot number to chain. -/
abbrev KwTable := Nat → List Keyword

/-- One iteration of the loop in `init_keywords` (Basic/token.c:68-72): push the node at the
head of its chain. -/
def kwInsert (t : KwTable) (k : Keyword) : KwTable :=
  let h := hashpjwUpper k.name % keywordHashSize
  fun i => if i = h then k :: t i else t i

/-- `init_keywords` (Basic/token.c:60-90).  The check that token codes are consecutive
(lines 64-66) compares constants; it is stated as a theorem instead. -/
def initKeywords : KwTable := keywords.foldl kwInsert (fun _ => [])

/-- `identifier_token` (Basic/token.c:102-111) on a given table. -/
def identifierTokenIn (t : KwTable) (s : CStr) : Tok :=
  let h := hashpjwUpper s % keywordHashSize
  match (t h).find? (fun k => strcasecmp k.name s == 0) with
  | some k => .kw k.token
  | none => .id

/-- `identifier_token` (Basic/token.c:102-111) on the table built by `init_keywords`. -/
def identifierToken (s : CStr) : Tok := identifierTokenIn initKeywords s

/-- `keyword_prefix` (Basic/token.c:117-126) on a given keyword list. -/
def keywordPrefixIn (ks : List Keyword) (s : CStr) : Option Keyword :=
  ks.find? (fun k => strncasecmp k.name s k.len == 0)

/-- `keyword_prefix` (Basic/token.c:117-126). -/
def keywordPrefix (s : CStr) : Option Keyword := keywordPrefixIn keywords s

end LB
