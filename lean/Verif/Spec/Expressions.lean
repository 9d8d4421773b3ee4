import Verif.Spec.Lexing
import Verif.Spec.Machine
import Verif.Spec.Values
import Verif.Props.Arrays
import Verif.Props.Keywords
/- Expressions: how they are written, what they mean, and the code they are compiled to. -/
namespace LB.Spec

/-- The functions of a number that give a number. -/
inductive NumFn where
  | abs | atn | cos | exp | int | log | sgn | sin | sqr | tan
  deriving DecidableEq, Repr

/-- The functions of a string that give a number. -/
inductive StrFn where
  | asc | len | val
  deriving DecidableEq, Repr

/-- The functions of a number that give a string. -/
inductive TextFn where
  | chr | str
  deriving DecidableEq, Repr

/-- The functions that give a part of a string at one of its ends. -/
inductive EndFn where
  | left | right
  deriving DecidableEq, Repr

/-- An expression with its type, made of numbers, strings, variables, elements of arrays with one or two subscripts,
operators and built-in functions.  The argument that RND and TIME$ may have does not matter. -/
inductive Expr : Ty → Type
  | num (x : Dbl) : Expr .num
  | str (s : CStr) : Expr .str
  | numVar (w : CStr) : Expr .num
  | strVar (w : CStr) : Expr .str
  | neg (a : Expr .num) : Expr .num
  | arith (o : Arith) (a b : Expr .num) : Expr .num
  | concat (a b : Expr .str) : Expr .str
  | cmp (r : Rel) (a b : Expr .num) : Expr .num
  | cmpStr (r : Rel) (a b : Expr .str) : Expr .num
  | not (a : Expr .num) : Expr .num
  | and (a b : Expr .num) : Expr .num
  | or (a b : Expr .num) : Expr .num
  | numFn (f : NumFn) (a : Expr .num) : Expr .num
  | strFn (f : StrFn) (a : Expr .str) : Expr .num
  | textFn (f : TextFn) (a : Expr .num) : Expr .str
  | endFn (f : EndFn) (a : Expr .str) (n : Expr .num) : Expr .str
  | mid (a : Expr .str) (i n : Expr .num) : Expr .str
  | elem (t : Ty) (w : CStr) (i : Expr .num) : Expr t
  | elem2 (t : Ty) (w : CStr) (i j : Expr .num) : Expr t
  | rnd : Expr .num
  | rndOf {t : Ty} (a : Expr t) : Expr .num
  | time : Expr .str
  | timeOf {t : Ty} (a : Expr t) : Expr .str

/- ### How expressions are written -/

/-- A token with its value.  The word DATA is taken together with the items after it, which are not tokens. -/
inductive Lexeme where
  | num (x : Dbl)
  | str (s : CStr)
  | name (w : CStr)
  | op (t : Tok)
  | data (l : List CStr)
  deriving DecidableEq, Repr

/-- The operators and parentheses. -/
def opTok (c : Char) : Lexeme := .op (.ch c)

/-- The levels of the grammar, from the weakest operator to the strongest. -/
inductive Level where
  | or | and | not | rel | add | mult | neg | power | primary
  deriving DecidableEq, Repr

/-- How the relations are written. -/
def relTok : Rel → Tok
  | .eq => .ch '='
  | .lt => .ch '<'
  | .gt => .ch '>'
  | .ne => .ne
  | .le => .le
  | .ge => .ge

/-- How the functions are written. -/
def NumFn.name : NumFn → CStr
  | .abs => "ABS".toList
  | .atn => "ATN".toList
  | .cos => "COS".toList
  | .exp => "EXP".toList
  | .int => "INT".toList
  | .log => "LOG".toList
  | .sgn => "SGN".toList
  | .sin => "SIN".toList
  | .sqr => "SQR".toList
  | .tan => "TAN".toList

/-- How the functions are written. -/
def StrFn.name : StrFn → CStr
  | .asc => "ASC".toList
  | .len => "LEN".toList
  | .val => "VAL".toList

/-- How the functions are written. -/
def TextFn.name : TextFn → CStr
  | .chr => "CHR$".toList
  | .str => "STR$".toList

/-- How the functions are written. -/
def EndFn.name : EndFn → CStr
  | .left => "LEFT$".toList
  | .right => "RIGHT$".toList

/-- `k` minus signs before an expression: two of them cancel. -/
def minus (k : Nat) (e : Expr .num) : Expr .num := if k % 2 = 1 then .neg e else e

/-- `k` times NOT before an expression: two of them cancel. -/
def nots (k : Nat) (e : Expr .num) : Expr .num := if k % 2 = 1 then .not e else e

/-- The type of the variables and arrays with this name. -/
def typeOf (w : CStr) : Ty := if w.getLast? = some '$' then .str else .num

/-- The grammar: `Phrase v l e` says that the tokens `l` are the expression `e`, written without parentheses around an
operator weaker than the level `v`.  Powers associate to the right; products, sums, AND and OR to the left; relations do
not associate. -/
inductive Phrase : Level → List Lexeme → {t : Ty} → Expr t → Prop
  | num {x} : Phrase .primary [.num x] (.num x)
  | str {s} : Phrase .primary [.str s] (.str s)
  | numVar {w} : builtin w = none → w.getLast? ≠ some '$' → Phrase .primary [.name w] (.numVar w)
  | strVar {w} : builtin w = none → w.getLast? = some '$' → Phrase .primary [.name w] (.strVar w)
  | paren {l t} {e : Expr t} : Phrase .or l e → Phrase .primary (opTok '(' :: (l ++ [opTok ')'])) e
  | numFn {w f l a} : _root_.Spec.SameIgnoringCase w (NumFn.name f) → Phrase .or l a → Phrase .primary (.name w :: opTok '(' :: (l ++ [opTok ')'])) (.numFn f a)
  | strFn {w f l a} : _root_.Spec.SameIgnoringCase w (StrFn.name f) → Phrase .or l a → Phrase .primary (.name w :: opTok '(' :: (l ++ [opTok ')'])) (.strFn f a)
  | textFn {w f l a} : _root_.Spec.SameIgnoringCase w (TextFn.name f) → Phrase .or l a → Phrase .primary (.name w :: opTok '(' :: (l ++ [opTok ')'])) (.textFn f a)
  | endFn {w f l a l' n} : _root_.Spec.SameIgnoringCase w (EndFn.name f) → Phrase .or l a → Phrase .or l' n →
      Phrase .primary (.name w :: opTok '(' :: (l ++ opTok ',' :: (l' ++ [opTok ')']))) (.endFn f a n)
  | mid {w l a l' i l'' n} : _root_.Spec.SameIgnoringCase w "MID$".toList → Phrase .or l a → Phrase .or l' i → Phrase .or l'' n →
      Phrase .primary (.name w :: opTok '(' :: (l ++ opTok ',' :: (l' ++ opTok ',' :: (l'' ++ [opTok ')'])))) (.mid a i n)
  | elem {w l i} : builtin w = none → Phrase .or l i → Phrase .primary (.name w :: opTok '(' :: (l ++ [opTok ')'])) (.elem (typeOf w) w i)
  | elem2 {w l i l' j} : builtin w = none → Phrase .or l i → Phrase .or l' j →
      Phrase .primary (.name w :: opTok '(' :: (l ++ opTok ',' :: (l' ++ [opTok ')']))) (.elem2 (typeOf w) w i j)
  | rnd {w} : _root_.Spec.SameIgnoringCase w "RND".toList → Phrase .primary [.name w] .rnd
  | rndEmpty {w} : _root_.Spec.SameIgnoringCase w "RND".toList → Phrase .primary [.name w, opTok '(', opTok ')'] .rnd
  | rndOf {w l t} {a : Expr t} : _root_.Spec.SameIgnoringCase w "RND".toList → Phrase .or l a → Phrase .primary (.name w :: opTok '(' :: (l ++ [opTok ')'])) (.rndOf a)
  | time {w} : _root_.Spec.SameIgnoringCase w "TIME$".toList → Phrase .primary [.name w] .time
  | timeEmpty {w} : _root_.Spec.SameIgnoringCase w "TIME$".toList → Phrase .primary [.name w, opTok '(', opTok ')'] .time
  | timeOf {w l t} {a : Expr t} : _root_.Spec.SameIgnoringCase w "TIME$".toList → Phrase .or l a → Phrase .primary (.name w :: opTok '(' :: (l ++ [opTok ')'])) (.timeOf a)
  | primary {l t} {e : Expr t} : Phrase .primary l e → Phrase .power l e
  | pow {l l' a b} : Phrase .primary l a → Phrase .power l' b → Phrase .power (l ++ opTok '^' :: l') (.arith .pow a b)
  | power {l t} {e : Expr t} : Phrase .power l e → Phrase .neg l e
  | minus {k l a} : Phrase .power l a → Phrase .neg (List.replicate k (opTok '-') ++ l) (minus k a)
  | neg {l t} {e : Expr t} : Phrase .neg l e → Phrase .mult l e
  | mul {l l' a b} : Phrase .mult l a → Phrase .neg l' b → Phrase .mult (l ++ opTok '*' :: l') (.arith .mul a b)
  | div {l l' a b} : Phrase .mult l a → Phrase .neg l' b → Phrase .mult (l ++ opTok '/' :: l') (.arith .div a b)
  | mult {l t} {e : Expr t} : Phrase .mult l e → Phrase .add l e
  | add {l l' a b} : Phrase .add l a → Phrase .mult l' b → Phrase .add (l ++ opTok '+' :: l') (.arith .add a b)
  | sub {l l' a b} : Phrase .add l a → Phrase .mult l' b → Phrase .add (l ++ opTok '-' :: l') (.arith .sub a b)
  | concat {l l' a b} : Phrase .add l a → Phrase .mult l' b → Phrase .add (l ++ opTok '+' :: l') (.concat a b)
  | sum {l t} {e : Expr t} : Phrase .add l e → Phrase .rel l e
  | cmp {l l' a b r} : Phrase .add l a → Phrase .add l' b → Phrase .rel (l ++ .op (relTok r) :: l') (.cmp r a b)
  | cmpStr {l l' a b r} : Phrase .add l a → Phrase .add l' b → Phrase .rel (l ++ .op (relTok r) :: l') (.cmpStr r a b)
  | rel {l t} {e : Expr t} : Phrase .rel l e → Phrase .not l e
  | nots {k l a} : Phrase .rel l a → Phrase .not (List.replicate k (.op (.kw .NOT)) ++ l) (nots k a)
  | not {l t} {e : Expr t} : Phrase .not l e → Phrase .and l e
  | and {l l' a b} : Phrase .and l a → Phrase .not l' b → Phrase .and (l ++ .op (.kw .AND) :: l') (.and a b)
  | conj {l t} {e : Expr t} : Phrase .and l e → Phrase .or l e
  | or {l l' a b} : Phrase .or l a → Phrase .and l' b → Phrase .or (l ++ .op (.kw .OR) :: l') (.or a b)

/-- The tokens that could continue an expression. -/
def Continues (t : Tok) : Prop :=
  t ∈ [.ch '(', .ch '^', .ch '*', .ch '/', .ch '+', .ch '-', .ch '=', .ch '<', .ch '>', .ne, .le, .ge, .kw .AND, .kw .OR]

instance (t : Tok) : Decidable (Continues t) := inferInstanceAs (Decidable (_ ∈ _))

/-- The text of the items of a DATA statement, which have commas between them, and their values. -/
inductive DataItems : CStr → List CStr → Prop
  | one {t v} : DataItem t v → DataItems t [v]
  | more {t v r l} : DataItem t v → DataItems r l → DataItems (t ++ ',' :: r) (v :: l)

/-- No keyword begins inside `w`, when `r` follows. -/
def Unbroken (w r : CStr) : Prop :=
  ∀ p q, w = p ++ q → q ≠ [] → ∀ v k, (v, k) ∈ reservedWords → ¬ _root_.Spec.SameIgnoringCase v.toList ((q ++ r).take v.toList.length)

/-- A keyword begins here. -/
def KeywordNext (r : CStr) : Prop := ∃ v k, (v, k) ∈ reservedWords ∧ _root_.Spec.SameIgnoringCase v.toList (r.take v.toList.length)

/-- The text `r` starts with these tokens, written with or without blanks between them, and `r'` is what follows.  With
`any` keywords are recognised everywhere: a keyword ends by itself, it also ends the name before it, and no name contains
one. -/
inductive SpellsAs (any : Bool) : CStr → List Lexeme → CStr → Prop
  | done {r} : SpellsAs any r [] r
  | eol {b} : Space b → SpellsAs any b [opTok '\n'] []
  | num {b w x r l r'} : Space b → Literal w x → w.length ≤ 127 → NumberEnds r → SpellsAs any r l r' → SpellsAs any (b ++ w ++ r) (.num x :: l) r'
  | str {b s r l r'} : Space b → Quotable s → s.length ≤ 127 → SpellsAs any r l r' → SpellsAs any (b ++ '"' :: (s ++ '"' :: r)) (.str s :: l) r'
  | name {b w r l r'} : Space b → Name w → w.length ≤ 126 → (NameEnds w r ∨ any = true ∧ '$' ∉ w ∧ KeywordNext r) → (any = true → Unbroken w r) →
      (∀ v k, (v, k) ∈ reservedWords → ¬ _root_.Spec.SameIgnoringCase v.toList w) → SpellsAs any r l r' → SpellsAs any (b ++ w ++ r) (.name w :: l) r'
  | keyword {b w r l r' v k} : Space b → Name w → (NameEnds w r ∨ any = true) → (v, k) ∈ reservedWords →
      _root_.Spec.SameIgnoringCase v.toList w → SpellsAs any r l r' → SpellsAs any (b ++ w ++ r) (.op (.kw k) :: l) r'
  | sign {b c r l r'} : Space b → c ∈ "()^*/+-=:;,?".toList → SpellsAs any r l r' → SpellsAs any (b ++ c :: r) (opTok c :: l) r'
  | less {b r l r'} : Space b → Clean r → r.head? ≠ some '>' → r.head? ≠ some '=' → SpellsAs any r l r' → SpellsAs any (b ++ '<' :: r) (opTok '<' :: l) r'
  | greater {b r l r'} : Space b → Clean r → r.head? ≠ some '=' → SpellsAs any r l r' → SpellsAs any (b ++ '>' :: r) (opTok '>' :: l) r'
  | ne {b r l r'} : Space b → SpellsAs any r l r' → SpellsAs any (b ++ '<' :: '>' :: r) (.op .ne :: l) r'
  | le {b r l r'} : Space b → SpellsAs any r l r' → SpellsAs any (b ++ '<' :: '=' :: r) (.op .le :: l) r'
  | ge {b r l r'} : Space b → SpellsAs any r l r' → SpellsAs any (b ++ '>' :: '=' :: r) (.op .ge :: l) r'
  | dataLast {b w r vs} : Space b → Name w → _root_.Spec.SameIgnoringCase "DATA".toList w → (NameEnds w r ∨ any = true) → DataItems r vs →
      SpellsAs any (b ++ w ++ r) [.data vs, opTok '\n'] []
  | dataColon {b w t vs r l r'} : Space b → Name w → _root_.Spec.SameIgnoringCase "DATA".toList w → (NameEnds w (t ++ ':' :: r) ∨ any = true) → DataItems t vs →
      SpellsAs any r l r' → SpellsAs any (b ++ w ++ (t ++ ':' :: r)) (.data vs :: opTok ':' :: l) r'

/-- The same when keywords have to be separated from names. -/
abbrev Spells := SpellsAs false

/-- The lexer stands at this token. -/
def Current (lex : Lex) : Lexeme → Prop
  | .num x => lex.token = .num ∧ lex.num = x
  | .str s => lex.token = .str ∧ lex.word = s
  | .name w => lex.token = .id ∧ lex.word = w
  | .op t => lex.token = t
  | .data _ => lex.token = .kw .DATA

/-- From the word DATA the lexer reads these items, up to the token after them. -/
inductive DataMoves : List CStr → Lex → Tok → Lex → Prop
  | last {v lex lex1 t lex'} : lexNextData lex = .ok (v, lex1) → lexNext lex1 = .ok (t, lex') → t ≠ .ch ',' → DataMoves [v] lex t lex'
  | more {v lex lex1 lex2 vs t lex'} : lexNextData lex = .ok (v, lex1) → lexNext lex1 = .ok (.ch ',', lex2) → DataMoves vs lex2 t lex' →
      DataMoves (v :: vs) lex t lex'

/-- The lexer goes on from this token to the next. -/
def Moves : Lexeme → Lex → Tok → Lex → Prop
  | .data vs, lex, t, lex' => DataMoves vs lex t lex'
  | .num _, lex, t, lex' | .str _, lex, t, lex' | .name _, lex, t, lex' | .op _, lex, t, lex' => lexNext lex = .ok (t, lex')

/-- The lexer stands at the first of these tokens, and reads the others up to the token after them. -/
inductive Scans : Lex → List Lexeme → Lex → Prop
  | done {lex} : Scans lex [] lex
  | more {lex a l t lex' lex''} : Current lex a → Moves a lex t lex' → Scans lex' l lex'' → Scans lex (a :: l) lex''

/- ### What expressions mean -/

/-- The values of a type. -/
abbrev Meaning : Ty → Type
  | .num => Dbl
  | .str => CStr
  | .err => Unit

/-- The values of variables and elements before they are given one. -/
def blank : (t : Ty) → Meaning t
  | .num => .fin 0
  | .str => []
  | .err => ()

/-- An array: its largest subscripts and its elements.  It may not have been made yet; `odd` is one that does not have the
elements it should have (see `C15_dim_wraps`). -/
inductive Arr (α : Type) where
  | missing
  | made (dims : List Nat) (cell : List Nat → α)
  | odd

/-- What the value of an expression depends on: the variables and the arrays, the state of the random number generator,
and how often the clock was read. -/
structure Store where
  nums : CStr → Dbl
  strs : CStr → CStr
  numArrs : CStr → Arr Dbl
  strArrs : CStr → Arr CStr
  rng : Nat
  ticks : Nat

/-- The values of the variables when that of `w` becomes `x`; names are the same regardless of case. -/
def assign {α : Type} (vals : CStr → α) (w : CStr) (x : α) : CStr → α :=
  fun v => if _root_.Spec.SameIgnoringCase v w then x else vals v

/-- The array with this name. -/
def Store.arr (s : Store) : (t : Ty) → CStr → Arr (Meaning t)
  | .num, w => s.numArrs w
  | .str, w => s.strArrs w
  | .err, _ => .missing

/-- The array with this name is replaced. -/
def Store.setArr (s : Store) : (t : Ty) → CStr → Arr (Meaning t) → Store
  | .num, w, a => { s with numArrs := assign s.numArrs w a }
  | .str, w, a => { s with strArrs := assign s.strArrs w a }
  | .err, _, _ => s

/-- The result of an evaluation: a value or an error, and what it depends on afterwards; `unknown` is where nothing is
said about what happens. -/
inductive Answer (α : Type) where
  | ok (x : α) (s : Store)
  | error (e : RunError) (s : Store)
  | unknown

/-- Evaluations.  They are performed one after the other, up to the first error. -/
def Ev (α : Type) : Type := Store → Answer α

instance : Monad Ev where
  pure x := fun s => .ok x s
  bind m f := fun s =>
    match m s with
    | .ok x s' => f x s'
    | .error e s' => .error e s'
    | .unknown => .unknown

/-- An evaluation that depends on nothing. -/
def Ev.of {α : Type} (r : Except RunError α) : Ev α := fun s =>
  match r with
  | .ok x => .ok x s
  | .error e => .error e s

/-- The relations between numbers.  Nothing but `<>` holds if one of them is not a number. -/
def relNumbers : Rel → Dbl → Dbl → Bool
  | .eq, x, y => Dbl.eq x y
  | .ne, x, y => !Dbl.eq x y
  | .lt, x, y => Dbl.lt x y
  | .gt, x, y => Dbl.lt y x
  | .le, x, y => Dbl.lt x y || Dbl.eq x y
  | .ge, x, y => Dbl.lt y x || Dbl.eq x y

instance (r : Rel) (s t : CStr) : Decidable (relStrings r s t) := by
  cases r <;> unfold relStrings <;> infer_instance

/-- Truth as a number. -/
def truthValue (b : Bool) : Dbl := if b then .fin (-1) else .fin 0

/-- An operand of AND, OR or NOT: an integer of 32 bits. -/
def word32 (x : Dbl) : Except RunError (BitVec 32) :=
  match x with
  | .fin q => if q.den = 1 ∧ -2147483648 ≤ q.num ∧ q.num ≤ 2147483647 then .ok (BitVec.ofInt 32 q.num) else .error .invalidLogical
  | .nzero => .ok 0
  | _ => .error .invalidLogical

/-- The number with these bits. -/
def ofWord (b : BitVec 32) : Dbl := .fin b.toInt

/-- A whole number that fits into 32 bits. -/
def count : Dbl → Except RunError Nat
  | .fin q => if q.den = 1 ∧ 0 ≤ q.num then if q.num ≤ 4294967295 then .ok q.num.toNat else .error .outOfRange else .error .notNonNegative
  | .nzero => .ok 0
  | .pinf => .error .outOfRange
  | _ => .error .notNonNegative

/-- A subscript: a whole number that fits into 32 bits. -/
def subscript : Dbl → Except RunError Nat
  | .fin q => if q.den = 1 ∧ 0 ≤ q.num then if q.num ≤ 4294967295 then .ok q.num.toNat else .error .indexOutOfRange else .error .indexNotNonNegative
  | .nzero => .ok 0
  | .pinf => .error .indexOutOfRange
  | _ => .error .indexNotNonNegative

/-- The subscripts of an element.  The last one is looked at first. -/
def subscripts (xs : List Dbl) : Except RunError (List Nat) := do
  let l ← xs.reverse.mapM subscript
  .ok l.reverse

/-- An array is made: there may be at most 65536 elements, which hold 0 or the empty string.  Nothing is said about the
largest subscript 4294967295 (see `C15_dim_wraps`). -/
def dimension (t : Ty) (w : CStr) (dims : List Nat) : Ev Unit := fun s =>
  if 4294967295 ∈ dims then .unknown
  else if _root_.Spec.cells dims ≤ 65536 then .ok () (s.setArr t w (.made dims fun _ => blank t))
  else .error .invalidDimensions (s.setArr t w .missing)

/-- An array that is not there when an element is used is made, with the largest subscripts 10, or larger ones if they are
needed. -/
def settle (t : Ty) (w : CStr) (idx : List Nat) : Ev Unit := fun s =>
  match s.arr t w with
  | .missing => dimension t w (idx.map (max 10)) s
  | .made _ _ => .ok () s
  | .odd => .unknown

/-- The element of an array that is there. -/
def fetch (t : Ty) (w : CStr) (idx : List Nat) : Ev (Meaning t) := fun s =>
  match s.arr t w with
  | .made dims cell => if _root_.Spec.InRange idx dims then .ok (cell idx) s else .error .badIndexes s
  | _ => .unknown

/-- An element of an array that is there is given a value. -/
def place (t : Ty) (w : CStr) (idx : List Nat) (v : Meaning t) : Ev Unit := fun s =>
  match s.arr t w with
  | .made dims cell =>
    if _root_.Spec.InRange idx dims then .ok () (s.setArr t w (.made dims fun j => if j = idx then v else cell j)) else .error .badIndexes s
  | _ => .unknown

/-- The value of an element. -/
def element (t : Ty) (w : CStr) (xs : List Dbl) : Ev (Meaning t) := do
  let idx ← Ev.of (subscripts xs)
  settle t w idx
  fetch t w idx

/-- An element is given a value. -/
def setElement (t : Ty) (w : CStr) (xs : List Dbl) (v : Meaning t) : Ev Unit := do
  let idx ← Ev.of (subscripts xs)
  settle t w idx
  place t w idx v

/-- An array is given up. -/
def forget (t : Ty) (w : CStr) : Ev Unit := fun s => .ok () (s.setArr t w .missing)

/-- DIM: an array with these sizes instead of the one that was there. -/
def redimension (t : Ty) (w : CStr) (xs : List Dbl) : Ev Unit := do
  forget t w
  let idx ← Ev.of (subscripts xs)
  dimension t w idx

/-- The number that the generator gives in the state `g`. -/
def drawn (env : Env) (g : Nat) : Dbl := Dbl.div (Dbl.ofInt (env.rand g).1) (Dbl.ofInt env.randMax)

/-- `x` is the first number that the generator gives, from the state `g` on, that is not 1 or more; `g'` is its state
afterwards. -/
inductive Draws (env : Env) : Nat → Dbl → Nat → Prop
  | now {g} : Dbl.le (.fin 1) (drawn env g) = false → Draws env g (drawn env g) (env.rand g).2
  | later {g x g'} : Dbl.le (.fin 1) (drawn env g) = true → Draws env (env.rand g).2 x g' → Draws env g x g'

open Classical in
/-- A random number.  Nothing is said if the generator never gives one. -/
noncomputable def random (env : Env) : Ev Dbl := fun s =>
  if h : ∃ p : Dbl × Nat, Draws env s.rng p.1 p.2 then .ok h.choose.1 { s with rng := h.choose.2 } else .unknown

/-- A number below 100 with two digits. -/
def twoPlaces (n : Nat) : CStr := [Char.ofNat (48 + n / 10), Char.ofNat (48 + n % 10)]

/-- The time of day. -/
def clock (env : Env) : Ev CStr := fun s =>
  let t := env.localtime (env.time s.ticks)
  .ok (twoPlaces t.1 ++ ':' :: twoPlaces t.2.1 ++ ':' :: twoPlaces t.2.2) { s with ticks := s.ticks + 1 }

/-- The value of an arithmetic operation. -/
def arithValue (env : Env) : Arith → Dbl → Dbl → Dbl
  | .add => Dbl.add
  | .sub => Dbl.sub
  | .mul => Dbl.mul
  | .div => Dbl.div
  | .pow => env.pow

/-- The value of a function of a number. -/
def NumFn.value (env : Env) : NumFn → Dbl → Except RunError Dbl
  | .abs, .fin q => .ok (.fin (if q < 0 then -q else q))
  | .abs, .nzero => .ok (.fin 0)
  | .abs, .ninf => .ok .pinf
  | .abs, x => .ok x
  | .int, .fin q => .ok (.fin q.floor)
  | .int, x => .ok x
  | .sgn, .fin q => .ok (.fin (if q < 0 then -1 else if 0 < q then 1 else 0))
  | .sgn, .pinf => .ok (.fin 1)
  | .sgn, .ninf => .ok (.fin (-1))
  | .sgn, x => .ok x
  | .log, .fin q => if 0 < q then .ok (env.log (.fin q)) else .error .invalidLog
  | .log, .nzero => .error .invalidLog
  | .log, .ninf => .error .invalidLog
  | .log, x => .ok (env.log x)
  | .atn, x => .ok (env.atan x)
  | .cos, x => .ok (env.cos x)
  | .exp, x => .ok (env.exp x)
  | .sin, x => .ok (env.sin x)
  | .sqr, x => .ok (env.sqrt x)
  | .tan, x => .ok (env.tan x)

/-- The code of the first character of a string, as a signed byte; 0 for the empty string. -/
def firstCode : CStr → Int
  | [] => 0
  | c :: _ => if c.toNat < 128 then c.toNat else (c.toNat : Int) - 256

/-- The number that a text denotes as a whole; `C33_val` says which texts these are. -/
def textNumber (s : CStr) : Option Dbl :=
  match V.convert s with
  | some (x, []) => some x
  | _ => none

/-- The value of a function of a string. -/
def StrFn.value : StrFn → CStr → Except RunError Dbl
  | .asc, s => .ok (Dbl.ofInt (firstCode s))
  | .len, s => .ok (Dbl.ofInt s.length)
  | .val, s =>
    match textNumber s with
    | some x => .ok x
    | none => .error .invalidNumber

/-- The value of a function that gives a string. -/
def TextFn.value : TextFn → Dbl → Except RunError CStr
  | .str, x => .ok (Dbl.fmtG x)
  | .chr, .fin q => if q.den = 1 ∧ 0 ≤ q.num ∧ q.num ≤ 255 then .ok (if q = 0 then [] else [Char.ofNat q.num.toNat]) else .error .invalidCharCode
  | .chr, .nzero => .ok []
  | .chr, _ => .error .invalidCharCode

/-- The `n` characters at an end of a string, or all if there are fewer. -/
def EndFn.value : EndFn → CStr → Nat → Except RunError CStr
  | .left, s, n => if min n s.length ≤ 255 then .ok (s.take n) else .error .stringTooLong
  | .right, s, n => if min n s.length ≤ 255 then .ok (s.drop (s.length - n)) else .error .stringTooLong

/-- The `n` characters of a string from the position `i` on, or fewer if it ends before; positions are counted from 1. -/
def midOf (s : CStr) (i n : Nat) : Except RunError CStr :=
  if 1 ≤ i ∧ i ≤ s.length then
    if min n (s.length - i + 1) ≤ 255 then .ok ((s.drop (i - 1)).take n) else .error .stringTooLong
  else .error .stringIndex

/-- The value of an expression: operands are evaluated from left to right, and the first error is the result;
`get` tells what a name with subscripts stands for. -/
noncomputable def Expr.evalBy (env : Env) (get : (t : Ty) → CStr → List Dbl → Ev (Meaning t)) : {t : Ty} → Expr t → Ev (Meaning t)
  | _, .num x => Ev.of (.ok x)
  | _, .str s => Ev.of (.ok s)
  | _, .numVar w => fun s => .ok (s.nums w) s
  | _, .strVar w => fun s => .ok (s.strs w) s
  | _, .neg a => do
    let x ← a.evalBy env get
    Ev.of (.ok (Dbl.neg x))
  | _, .arith o a b => do
    let x ← a.evalBy env get
    let y ← b.evalBy env get
    Ev.of (.ok (arithValue env o x y))
  | _, .concat a b => do
    let s ← a.evalBy env get
    let t ← b.evalBy env get
    Ev.of (if s.length + t.length ≤ 255 then .ok (s ++ t) else .error .concatTooLong)
  | _, .cmp r a b => do
    let x ← a.evalBy env get
    let y ← b.evalBy env get
    Ev.of (.ok (truthValue (relNumbers r x y)))
  | _, .cmpStr r a b => do
    let s ← a.evalBy env get
    let t ← b.evalBy env get
    Ev.of (.ok (truthValue (decide (relStrings r s t))))
  | _, .not a => do
    let x ← a.evalBy env get
    Ev.of (do
      let u ← word32 x
      .ok (ofWord (~~~ u)))
  | _, .and a b => do
    let x ← a.evalBy env get
    let y ← b.evalBy env get
    Ev.of (do
      let u ← word32 x
      let v ← word32 y
      .ok (ofWord (u &&& v)))
  | _, .or a b => do
    let x ← a.evalBy env get
    let y ← b.evalBy env get
    Ev.of (do
      let u ← word32 x
      let v ← word32 y
      .ok (ofWord (u ||| v)))
  | _, .numFn f a => do
    let x ← a.evalBy env get
    Ev.of (f.value env x)
  | _, .strFn f a => do
    let s ← a.evalBy env get
    Ev.of (f.value s)
  | _, .textFn f a => do
    let x ← a.evalBy env get
    Ev.of (f.value x)
  | _, .endFn f a n => do
    let s ← a.evalBy env get
    let x ← n.evalBy env get
    Ev.of (do
      let k ← count x
      f.value s k)
  | _, .mid a i n => do
    let s ← a.evalBy env get
    let x ← i.evalBy env get
    let y ← n.evalBy env get
    Ev.of (do
      let k ← count y
      let j ← count x
      midOf s j k)
  | _, .elem t w i => do
    let x ← i.evalBy env get
    get t w [x]
  | _, .elem2 t w i j => do
    let x ← i.evalBy env get
    let y ← j.evalBy env get
    get t w [x, y]
  | _, .rnd => random env
  | _, .rndOf a => do
    let _ ← a.evalBy env get
    random env
  | _, .time => clock env
  | _, .timeOf a => do
    let _ ← a.evalBy env get
    clock env

/-- The value of an expression in which names with subscripts are elements of arrays. -/
noncomputable abbrev Expr.eval (env : Env) {t : Ty} (e : Expr t) : Ev (Meaning t) := e.evalBy env element

/-- How many numbers have to be remembered at once while the expression is evaluated. -/
def Expr.nums : {t : Ty} → Expr t → Nat
  | _, .num _ => 1
  | _, .str _ => 0
  | _, .numVar _ => 1
  | _, .strVar _ => 0
  | _, .neg a => a.nums
  | _, .arith _ a b => max a.nums (1 + b.nums)
  | _, .concat a b => max a.nums b.nums
  | _, .cmp _ a b => max a.nums (1 + b.nums)
  | _, .cmpStr _ a b => max 1 (max a.nums b.nums)
  | _, .not a => a.nums
  | _, .and a b => max a.nums (1 + b.nums)
  | _, .or a b => max a.nums (1 + b.nums)
  | _, .numFn _ a => a.nums
  | _, .strFn _ a => max 1 a.nums
  | _, .textFn _ a => a.nums
  | _, .endFn _ a n => max a.nums n.nums
  | _, .mid a i n => max a.nums (max i.nums (1 + n.nums))
  | _, .elem _ _ i => max 1 i.nums
  | _, .elem2 _ _ i j => max i.nums (1 + j.nums)
  | _, .rnd => 1
  | _, .rndOf a => max 1 a.nums
  | _, .time => 0
  | _, .timeOf a => a.nums

/-- How many strings have to be remembered at once while the expression is evaluated. -/
def Expr.strs : {t : Ty} → Expr t → Nat
  | _, .num _ => 0
  | _, .str _ => 1
  | _, .numVar _ => 0
  | _, .strVar _ => 1
  | _, .neg a => a.strs
  | _, .arith _ a b => max a.strs b.strs
  | _, .concat a b => max a.strs (1 + b.strs)
  | _, .cmp _ a b => max a.strs b.strs
  | _, .cmpStr _ a b => max a.strs (1 + b.strs)
  | _, .not a => a.strs
  | _, .and a b => max a.strs b.strs
  | _, .or a b => max a.strs b.strs
  | _, .numFn _ a => a.strs
  | _, .strFn _ a => a.strs
  | _, .textFn _ a => max 1 a.strs
  | _, .endFn _ a n => max a.strs (1 + n.strs)
  | _, .mid a i n => max a.strs (1 + max i.strs n.strs)
  | _, .elem t _ i => max (if t = .str then 1 else 0) i.strs
  | _, .elem2 t _ i j => max (if t = .str then 1 else 0) (max i.strs j.strs)
  | _, .rnd => 0
  | _, .rndOf a => a.strs
  | _, .time => 1
  | _, .timeOf a => max 1 a.strs

/-- How often a variable or an array occurs in the expression. -/
def Expr.vars : {t : Ty} → Expr t → Nat
  | _, .rnd | _, .time => 0
  | _, .rndOf a | _, .timeOf a => a.vars
  | _, .elem _ _ i => i.vars + 1
  | _, .elem2 _ _ i j => i.vars + j.vars + 1
  | _, .num _ | _, .str _ => 0
  | _, .numVar _ | _, .strVar _ => 1
  | _, .neg a | _, .not a | _, .numFn _ a | _, .strFn _ a | _, .textFn _ a => a.vars
  | _, .endFn _ a n => a.vars + n.vars
  | _, .mid a i n => a.vars + i.vars + n.vars
  | _, .arith _ a b | _, .concat a b | _, .cmp _ a b | _, .cmpStr _ a b | _, .and a b | _, .or a b => a.vars + b.vars

/-- The names of the arrays in the expression. -/
def Expr.arrays : {t : Ty} → Expr t → List CStr
  | _, .num _ | _, .str _ | _, .numVar _ | _, .strVar _ | _, .rnd | _, .time => []
  | _, .neg a | _, .not a | _, .numFn _ a | _, .strFn _ a | _, .textFn _ a | _, .rndOf a | _, .timeOf a => a.arrays
  | _, .elem _ w i => w :: i.arrays
  | _, .elem2 _ w i j => w :: (i.arrays ++ j.arrays)
  | _, .endFn _ a n => a.arrays ++ n.arrays
  | _, .mid a i n => a.arrays ++ i.arrays ++ n.arrays
  | _, .arith _ a b | _, .concat a b | _, .cmp _ a b | _, .cmpStr _ a b | _, .and a b | _, .or a b => a.arrays ++ b.arrays

/-- There are no elements of arrays, RND or TIME$ in the expression. -/
def Expr.steady : {t : Ty} → Expr t → Bool
  | _, .num _ | _, .str _ | _, .numVar _ | _, .strVar _ => true
  | _, .rnd | _, .time | _, .rndOf _ | _, .timeOf _ | _, .elem _ _ _ | _, .elem2 _ _ _ _ => false
  | _, .neg a | _, .not a | _, .numFn _ a | _, .strFn _ a | _, .textFn _ a => a.steady
  | _, .endFn _ a n => a.steady && n.steady
  | _, .mid a i n => a.steady && i.steady && n.steady
  | _, .arith _ a b | _, .concat a b | _, .cmp _ a b | _, .cmpStr _ a b | _, .and a b | _, .or a b => a.steady && b.steady

/-- The number a program sees in the variable with this name: 0 unless a value was given to it. -/
def numNamed (st : SymTab) (w : CStr) : Dbl :=
  match st.psym.find? (fun s => s.kind == .variable && decide (_root_.Spec.SameIgnoringCase s.name w)) with
  | some s => if s.defined && s.type == .num then s.num else .fin 0
  | none => .fin 0

/-- The string a program sees in the variable with this name: empty unless a value was given to it. -/
def strNamed (st : SymTab) (w : CStr) : CStr :=
  match st.psym.find? (fun s => s.kind == .variable && decide (_root_.Spec.SameIgnoringCase s.name w)) with
  | some s => if s.defined && s.type == .str then s.str.getD [] else []
  | none => []

/-- The elements of an array of the interpreter, which has the subscripts in the reverse order. -/
def cellOf {α β : Type} (conv : α → β) (zero : β) (a : BArray α) (idx : List Nat) : β :=
  match arrayGet a idx.reverse with
  | .ok (some v) => conv v
  | _ => zero

/-- An array as the program sees it. -/
def arrView {α β : Type} (conv : α → β) (zero : β) (defined : Bool) : Option (BArray α) → Arr β
  | none => if defined then .odd else .missing
  | some a =>
    if defined = true ∧ (a.size.max.length = 1 ∨ a.size.max.length = 2) ∧ _root_.Spec.cells a.size.max ≤ 65536 ∧
        a.size = { base := 0, dimensions := a.size.max.length, max := a.size.max, elements := _root_.Spec.cells a.size.max } ∧
        a.val.length = _root_.Spec.cells a.size.max then
      .made a.size.max.reverse (cellOf conv zero a)
    else .odd

/-- The array with this name; a name that was only read so far may become one. -/
def arraySymbol (st : SymTab) (w : CStr) : Option Symbol :=
  st.psym.find? (fun s => (s.kind == .array || s.kind == .unknown) && decide (_root_.Spec.SameIgnoringCase s.name w))

/-- The array of numbers that a program sees under this name. -/
def numArrNamed (st : SymTab) (w : CStr) : Arr Dbl :=
  match arraySymbol st w with
  | some s => if s.type = .num then arrView id (.fin 0) s.defined s.numarr else .missing
  | none => .missing

/-- The array of strings that a program sees under this name. -/
def strArrNamed (st : SymTab) (w : CStr) : Arr CStr :=
  match arraySymbol st w with
  | some s => if s.type = .str then arrView (·.getD []) [] s.defined s.strarr else .missing
  | none => .missing

/-- What expressions depend on. -/
def storeOf (vm : VM) : Store :=
  ⟨numNamed vm.st, strNamed vm.st, numArrNamed vm.st, strArrNamed vm.st, vm.world.rng, vm.world.ticks⟩

/-- The arrays of the expression are not functions of the program. -/
def NoFunctions {t : Ty} (e : Expr t) (st : SymTab) : Prop :=
  ∀ w ∈ e.arrays, ∀ s ∈ st.psym, _root_.Spec.SameIgnoringCase s.name w → s.kind ≠ .def_

/-- What PRINT writes for a value. -/
def written : {t : Ty} → Meaning t → CStr
  | .num, x => ' ' :: Dbl.fmtG x ++ [' ']
  | .str, s => s
  | .err, _ => []

/-- From `vm` to `vm'` the value and the end of the line were printed, or there was an error and nothing was printed. -/
def Shows {t : Ty} (value : Answer (Meaning t)) (vm : VM) (r : RunEnd) (vm' : VM) : Prop :=
  match value with
  | .ok x s => r.error = none ∧ vm'.world.out = vm.world.out ++ written x ++ ['\n'] ∧ storeOf vm' = s
  | .error e s => r.error = some e ∧ vm'.world.out = vm.world.out ∧ storeOf vm' = s
  | .unknown => True

/- ### The code of expressions -/

/-- The instructions of the functions. -/
def NumFn.code : NumFn → Inst
  | .abs => .bi .abs
  | .atn => .bi .atn
  | .cos => .bi .cos
  | .exp => .bi .exp
  | .int => .bi .int
  | .log => .bi .log
  | .sgn => .bi .sgn
  | .sin => .bi .sin
  | .sqr => .bi .sqr
  | .tan => .bi .tan

/-- The instructions of the functions. -/
def StrFn.code : StrFn → Inst
  | .asc => .bi .asc
  | .len => .bi .len
  | .val => .bi .val

/-- The instructions of the functions. -/
def TextFn.code : TextFn → Inst
  | .chr => .bi .chr
  | .str => .bi .str

/-- The instructions of the functions. -/
def EndFn.code : EndFn → Inst
  | .left => .bi .left
  | .right => .bi .right

/-- The instruction that reads an element. -/
def getInst (t : Ty) (id n : Nat) : Inst := if t = .str then .getParenStr id n else .getParenNum id n

/-- The instruction that discards a value. -/
def popInst (t : Ty) : Inst := if t = .str then .popStr else .popNum

/-- The code of an expression: operands before operators. -/
inductive Postfix (st : SymTab) : {t : Ty} → Expr t → List Inst → Prop
  | num {x} : Postfix st (.num x) [.pushNum x]
  | str {s} : Postfix st (.str s) [.pushStr s]
  | numVar {w : CStr} {q : Nat} {s : Symbol} : st.psym[q]? = some s → _root_.Spec.SameIgnoringCase s.name w → s.kind = .variable → s.type = .num →
      Postfix st (.numVar w) [.getSimpleNum s.id]
  | strVar {w : CStr} {q : Nat} {s : Symbol} : st.psym[q]? = some s → _root_.Spec.SameIgnoringCase s.name w → s.kind = .variable → s.type = .str →
      Postfix st (.strVar w) [.getSimpleStr s.id]
  | neg {a c} : Postfix st a c → Postfix st (.neg a) (c ++ [.neg])
  | arith {o a b c d} : Postfix st a c → Postfix st b d → Postfix st (.arith o a b) (c ++ d ++ [.arith o])
  | concat {a b c d} : Postfix st a c → Postfix st b d → Postfix st (.concat a b) (c ++ d ++ [.concat])
  | cmp {r a b c d} : Postfix st a c → Postfix st b d → Postfix st (.cmp r a b) (c ++ d ++ [.cmpNum r])
  | cmpStr {r a b c d} : Postfix st a c → Postfix st b d → Postfix st (.cmpStr r a b) (c ++ d ++ [.cmpStr r])
  | not {a c} : Postfix st a c → Postfix st (.not a) (c ++ [.not])
  | and {a b c d} : Postfix st a c → Postfix st b d → Postfix st (.and a b) (c ++ d ++ [.and])
  | or {a b c d} : Postfix st a c → Postfix st b d → Postfix st (.or a b) (c ++ d ++ [.or])
  | numFn {f a c} : Postfix st a c → Postfix st (.numFn f a) (c ++ [f.code])
  | strFn {f a c} : Postfix st a c → Postfix st (.strFn f a) (c ++ [f.code])
  | textFn {f a c} : Postfix st a c → Postfix st (.textFn f a) (c ++ [f.code])
  | endFn {f a n c d} : Postfix st a c → Postfix st n d → Postfix st (.endFn f a n) (c ++ d ++ [f.code])
  | mid {a i n c d d'} : Postfix st a c → Postfix st i d → Postfix st n d' → Postfix st (.mid a i n) (c ++ d ++ d' ++ [.bi .mid3])
  | elem {t : Ty} {w : CStr} {i c} {q : Nat} {s : Symbol} : Postfix st i c → st.psym[q]? = some s → _root_.Spec.SameIgnoringCase s.name w →
      s.kind = .unknown ∨ s.kind = .array ∨ s.kind = .def_ → s.type = t → t ≠ .err → Postfix st (.elem t w i) (c ++ [getInst t s.id 1])
  | elem2 {t : Ty} {w : CStr} {i j c d} {q : Nat} {s : Symbol} : Postfix st i c → Postfix st j d → st.psym[q]? = some s → _root_.Spec.SameIgnoringCase s.name w →
      s.kind = .unknown ∨ s.kind = .array ∨ s.kind = .def_ → s.type = t → t ≠ .err → Postfix st (.elem2 t w i j) (c ++ d ++ [getInst t s.id 2])
  | rnd : Postfix st .rnd [.bi .rnd]
  | rndOf {t} {a : Expr t} {c} : t ≠ .err → Postfix st a c → Postfix st (.rndOf a) (c ++ [popInst t, .bi .rnd])
  | time : Postfix st .time [.bi .timeStr]
  | timeOf {t} {a : Expr t} {c} : t ≠ .err → Postfix st a c → Postfix st (.timeOf a) (c ++ [popInst t, .bi .timeStr])

end LB.Spec
