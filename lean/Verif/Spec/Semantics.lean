import Verif.Spec.UserFns
import Verif.Spec.Print
import Verif.Spec.Program
/- What programs mean, statement by statement, and how their lines are written. -/
namespace LB.Src
open LB.Spec

/-- An item of a PRINT statement. -/
inductive Item where
  | value {t : Ty} (e : Expr t)
  | tab (e : Expr .num)
  | spc (e : Expr .num)
  | comma
  | semicolon

/-- A variable with its type. -/
inductive Var where
  | num (w : CStr)
  | str (w : CStr)

/-- What INPUT gives a value to: a variable or an element of an array. -/
inductive Slot where
  | var (v : Var)
  | elem (t : Ty) (w : CStr) (is : List (Expr .num))

/-- A statement. -/
inductive Stmt where
  | letNum (w : CStr) (e : Expr .num)
  | letStr (w : CStr) (e : Expr .str)
  | letElem (t : Ty) (w : CStr) (is : List (Expr .num)) (e : Expr t)
  | dim (t : Ty) (w : CStr) (is : List (Expr .num))
  | print (l : List Item)
  | goto (n : Nat)
  | gosub (n : Nat)
  | ret
  | ifGoto (e : Expr .num) (n : Nat)
  | ifThen (e : Expr .num)
  | ifElse (e : Expr .num)
  | else_
  | for_ (w : CStr) (a b s : Expr .num)
  | next (w : CStr)
  | nextAny
  | end_
  | stop
  | on (gosub : Bool) (e : Expr .num) (ls : List Nat)
  | data (l : List CStr)
  | read (v : Var)
  | readElem (t : Ty) (w : CStr) (is : List (Expr .num))
  | restore
  | restoreLine (n : Nat)
  | input (prompt : Option CStr) (vs : List Slot)
  | lineInput (prompt : Option CStr) (w : CStr)
  | lineInputElem (prompt : Option CStr) (w : CStr) (is : List (Expr .num))
  | cls
  | clear
  | randomize
  | seed (e : Expr .num)
  | def_ (t : Ty) (w p : CStr) (e : Expr t)

/-- A program: its lines with their numbers, each a list of statements.  What follows THEN is part of the list. -/
abbrev Program := List (Nat × List Stmt)

/- ### What programs do -/

/-- A place in a program: the line and the statement, both counted from 0. -/
abbrev Place := Nat × Nat

/-- A FOR loop: its variable, limit and step, and the place after the FOR statement. -/
structure Loop where
  var : CStr
  limit : Dbl
  step : Dbl
  body : Place

/-- The situation of a running program: what the values of expressions depend on (the variables, the arrays, the random
number generator and the clock), the place of the statement to be performed next, the places to return to (the latest
first), the loops (the latest last), the print column, what was printed, how many items of DATA were read, the input that
was not read yet, the line that was read last, what INPUT prints before it reads, and the functions. -/
structure Config extends Store where
  place : Place
  calls : List Place
  loops : List Loop
  col : Nat
  out : CStr
  data : Nat
  stdin : CStr
  line : CStr
  mark : CStr
  fns : Fns

/-- How a run ends; `unknown` is where nothing is said about what follows. -/
inductive Ending where
  | finished
  | stopped
  | error (e : RunError)
  | unknown

/-- The program goes on in a new situation, or it ends. -/
inductive Next where
  | go (c : Config)
  | stop (e : Ending) (c : Config)

/-- The text that an item prints in column `col`. -/
noncomputable def Item.text (env : Env) (F : Fns) (col : Nat) : Item → Ev CStr
  | .value e => do
    let x ← meaning env F e
    Ev.of (.ok (written x))
  | .spc e => do
    let x ← meaning env F e
    Ev.of (do
      let n ← count x
      .ok (List.replicate n ' '))
  | .tab e => do
    let x ← meaning env F e
    Ev.of (do
      let n ← count x
      .ok (if n < col then '\n' :: List.replicate (n - 1) ' ' else List.replicate (n - col) ' '))
  | .comma => Ev.of (.ok (List.replicate (8 - (col + 7) % 8) ' '))
  | .semicolon => Ev.of (.ok [])

/-- The column after a text; columns are counted with 32 bits. -/
def column (col : Nat) (t : CStr) : Nat := columnAfter col t % 4294967296

/-- Printing one item after the other, up to the first error. -/
noncomputable def printItems (env : Env) : List Item → Config → Option Ending × Config
  | [], c => (none, c)
  | i :: l, c =>
    match i.text env c.fns c.col c.toStore with
    | .ok t s => printItems env l { c with toStore := s, col := column c.col t, out := c.out ++ t }
    | .error e s => (some (.error e), { c with toStore := s })
    | .unknown => (some .unknown, c)

/-- The separators; a PRINT statement that ends with one does not end the line. -/
def Item.separator : Item → Bool
  | .comma | .semicolon => true
  | _ => false

/-- The end of a PRINT statement. -/
def endLine (l : List Item) (c : Config) : Config :=
  if l.getLast?.any Item.separator then c else { c with col := 1, out := c.out ++ ['\n'] }

/-- Going on at the line with the number `n`. -/
def jump (prog : Program) (n : Nat) (c : Config) : Next :=
  match prog.findIdx? (fun l => l.1 == n) with
  | some i => .go { c with place := (i, 0) }
  | none => .stop (.error (.lineNotFound n)) c

/-- The place after a statement. -/
def after (ss : List Stmt) (p : Place) : Place := if p.2 + 1 < ss.length then (p.1, p.2 + 1) else (p.1 + 1, 0)

/-- Is it an ELSE? -/
def Stmt.isElse : Stmt → Bool
  | .else_ => true
  | _ => false

/-- The place after the first ELSE that follows in the line. -/
def afterElse (ss : List Stmt) (p : Place) : Place :=
  match (ss.drop (p.2 + 1)).findIdx? Stmt.isElse with
  | some k => after ss (p.1, p.2 + 1 + k)
  | none => (p.1 + 1, 0)

/-- Has the variable of a loop passed its limit? -/
def passed (step limit x : Dbl) : Bool :=
  (Dbl.lt (.fin 0) step && Dbl.lt limit x) || (Dbl.lt step (.fin 0) && Dbl.lt x limit)

/-- NEXT for the loop with the position `i`. -/
def nextLoop (i : Nat) (c : Config) (p' : Place) : Next :=
  match c.loops[i]? with
  | none => .stop (.error .nextWithoutFor) c
  | some f =>
    let x := Dbl.add (c.nums f.var) f.step
    if passed f.step f.limit x then .go { c with place := p', loops := c.loops.eraseIdx i }
    else .go { c with place := f.body, nums := assign c.nums f.var x }

/-- With the value of an expression, and what holds when it was evaluated, or the end of the run if it has none. -/
def withValue (c : Config) {α : Type} (m : Ev α) (f : α → Config → Next) : Next :=
  match m c.toStore with
  | .ok x s => f x { c with toStore := s }
  | .error e s => .stop (.error e) { c with toStore := s }
  | .unknown => .stop .unknown c

/-- The values of expressions, from left to right. -/
noncomputable def values (env : Env) (F : Fns) : List (Expr .num) → Ev (List Dbl)
  | [] => Ev.of (.ok [])
  | e :: es => do
    let x ← meaning env F e
    let xs ← values env F es
    Ev.of (.ok (x :: xs))

/-- The number is not zero. -/
def isTrue : Dbl → Bool
  | .nzero => false
  | .fin q => q ≠ 0
  | _ => true

/-- Calling the subroutine at the line with the number `n`. -/
def call (prog : Program) (ss : List Stmt) (n : Nat) (c : Config) : Next :=
  if 8 ≤ c.calls.length then .stop (.error .gosubTooDeep) c else jump prog n { c with calls := after ss c.place :: c.calls }

/-- The line number that ON selects: the first for 1, the second for 2 …, and none for other whole numbers. -/
def select (ls : List Nat) : Dbl → Except RunError (Option Nat)
  | .fin q => if q.den ≠ 1 then .error .onInvalid else .ok (if 1 ≤ q.num then ls[q.num.toNat - 1]? else none)
  | .nan => .error .onInvalid
  | _ => .ok none

/-- The items of DATA in a list of statements. -/
def dataOf (ss : List Stmt) : List CStr :=
  ss.flatMap fun
    | .data l => l
    | _ => []

/-- The items of DATA in a program, in their order. -/
def Program.data (prog : Program) : List CStr := prog.flatMap (fun l => dataOf l.2)

/-- A text becomes the value of a variable; for a number it has to be the text of a number. -/
def store (c : Config) : Var → CStr → Option Config
  | .num w, t => (textNumber t).map fun x => { c with nums := assign c.nums w x }
  | .str w, t => some { c with strs := assign c.strs w t }

/-- The value that a text gives to an element of an array. -/
def reading : (t : Ty) → CStr → Option (Meaning t)
  | .num, t => textNumber t
  | .str, t => some t
  | .err, _ => none

/-- INPUT and LINE INPUT print the prompt and read a line of at most 127 characters.  At the end of the input the line
remains what it was. -/
def ask (prompt : Option CStr) (c : Config) : Config :=
  let c := { c with out := c.out ++ (prompt.getD [] ++ c.mark) }
  match fgets 128 c.stdin with
  | some (l, rest) => { c with line := cstr l, stdin := rest }
  | none => c

/-- What a line is made of: a field extends to a comma or to the end of the line. -/
def inField (ch : Char) : Bool := ch ≠ ',' ∧ ch ≠ '\n'

/-- A complaint, after which the statement is performed again. -/
def complain (m : String) (c : Config) : Next := .go { c with out := c.out ++ m.toList }

/-- Giving a variable or an element the field `u`.  The subscripts are evaluated first.  Nothing is said about what follows
when an element of an array of numbers gets something that is not a number. -/
noncomputable def give (env : Env) (c : Config) (u : CStr) : Slot → (Config → Next) → Next
  | .var v, k =>
    match store c v u with
    | none => complain "* Invalid input *\n" c
    | some c' => k c'
  | .elem t w is, k =>
    withValue c (values env c.fns is) fun xs c =>
      match reading t u with
      | none => .stop .unknown c
      | some v => withValue c (setElement t w xs v) fun _ c => k c

/-- A character that does not matter at the end of an input line. -/
def idle (ch : Char) : Bool := ch = ' ' ∨ ch = '\t' ∨ ch = '\n' ∨ ch = '\r'

/-- What INPUT says about the rest of a line. -/
def extra (r : CStr) : CStr := if r.all idle then [] else "* Extra input was discarded *\n".toList

/-- The end of INPUT: something is said about the rest of the line, and the program goes on at the place `p`. -/
def filled (p : Place) (r : CStr) (c : Config) : Next := .go { c with place := p, out := c.out ++ extra r }

/-- Giving the variables and elements the fields of the line `t`, one after the other. -/
noncomputable def fill (env : Env) (p : Place) : List Slot → CStr → Config → Next
  | [], t, c => filled p t c
  | v :: vs, t, c =>
    give env c (t.takeWhile inField) v fun c =>
      match vs, t.dropWhile inField with
      | [], r => filled p r c
      | _ :: _, ',' :: r => fill env p vs r c
      | _ :: _, _ => complain "* More input items are expected *\n" c

/-- Performing a statement of the line `ss`. -/
noncomputable def perform (env : Env) (prog : Program) (ss : List Stmt) (c : Config) : Stmt → Next
  | .letNum w e => withValue c (meaning env c.fns e) fun x c => .go { c with place := after ss c.place, nums := assign c.nums w x }
  | .letStr w e => withValue c (meaning env c.fns e) fun x c => .go { c with place := after ss c.place, strs := assign c.strs w x }
  | .letElem t w is e =>
    withValue c (values env c.fns is) fun xs c => withValue c (meaning env c.fns e) fun v c => withValue c (setElement t w xs v) fun _ c => .go { c with place := after ss c.place }
  | .dim t w is => withValue c (values env c.fns is) fun xs c => withValue c (redimension t w xs) fun _ c => .go { c with place := after ss c.place }
  | .print l =>
    match printItems env l c with
    | (some e, c') => .stop e c'
    | (none, c') => .go { endLine l c' with place := after ss c.place }
  | .goto n => jump prog n c
  | .gosub n => call prog ss n c
  | .ret =>
    match c.calls with
    | [] => .stop (.error .returnWithoutGosub) c
    | p :: r => .go { c with place := p, calls := r }
  | .ifGoto e n => withValue c (meaning env c.fns e) fun x c => if isTrue x then jump prog n c else .go { c with place := after ss c.place }
  | .ifThen e => withValue c (meaning env c.fns e) fun x c => .go { c with place := if isTrue x then after ss c.place else (c.place.1 + 1, 0) }
  | .ifElse e => withValue c (meaning env c.fns e) fun x c => .go { c with place := if isTrue x then after ss c.place else afterElse ss c.place }
  | .else_ => .go { c with place := (c.place.1 + 1, 0) }
  | .for_ w a b s =>
    withValue c (meaning env c.fns a) fun x c => withValue c (meaning env c.fns b) fun y c => withValue c (meaning env c.fns s) fun z c =>
      let others := c.loops.filter (fun f => ¬ _root_.Spec.SameIgnoringCase f.var w)
      if 8 ≤ others.length then .stop (.error .forTooDeep) c
      else .go { c with place := after ss c.place, nums := assign c.nums w x, loops := others ++ [⟨w, y, z, after ss c.place⟩] }
  | .next w =>
    match c.loops.findIdx? (fun f => _root_.Spec.SameIgnoringCase f.var w) with
    | some i => nextLoop i c (after ss c.place)
    | none => .stop (.error (if c.loops = [] then .nextWithoutFor else .nextWithoutForVar)) c
  | .nextAny => nextLoop (c.loops.length - 1) c (after ss c.place)
  | .end_ => .stop .finished c
  | .stop => .stop .stopped c
  | .on gosub e ls =>
    withValue c (meaning env c.fns e) fun x c =>
      match select ls x with
      | .error e => .stop (.error e) c
      | .ok none => .go { c with place := after ss c.place }
      | .ok (some n) => if gosub then call prog ss n c else jump prog n c
  | .data _ => .go { c with place := after ss c.place }
  | .read v =>
    match prog.data[c.data]? with
    | none => .stop (.error (if prog.data = [] then .noData else .outOfData)) c
    | some t =>
      match store c v t with
      | none => .stop (.error .numericDataExpected) c
      | some c' => .go { c' with place := after ss c.place, data := c.data + 1 }
  | .readElem t w is =>
    withValue c (values env c.fns is) fun xs c =>
      match prog.data[c.data]? with
      | none => .stop (.error (if prog.data = [] then .noData else .outOfData)) c
      | some u =>
        match reading t u with
        | none => .stop (.error .numericDataExpected) c
        | some v => withValue c (setElement t w xs v) fun _ c => .go { c with place := after ss c.place, data := c.data + 1 }
  | .restore => .go { c with place := after ss c.place, data := 0 }
  | .restoreLine n =>
    match prog.findIdx? (fun l => l.1 == n) with
    | some i => .go { c with place := after ss c.place, data := (Program.data (prog.take i)).length }
    | none => .stop (.error (.lineNotFound n)) c
  | .input prompt vs => fill env (after ss c.place) vs (ask prompt c).line (ask prompt c)
  | .lineInput prompt w =>
    let c' := ask prompt c
    let t := c'.line.takeWhile (· ≠ '\n')
    .go { c' with place := after ss c.place, line := t, strs := assign c.strs w t }
  | .lineInputElem prompt w is =>
    withValue (ask prompt c) (values env c.fns is) fun xs c =>
      let t := c.line.takeWhile (· ≠ '\n')
      withValue { c with line := t } (setElement .str w xs t) fun _ c => .go { c with place := after ss c.place }
  | .cls => .go { c with place := after ss c.place, out := c.out ++ env.clearScreen, col := 1 }
  | .clear =>
    if c.loops = [] then .go { c with place := after ss c.place, nums := fun _ => .fin 0, strs := fun _ => [], numArrs := fun _ => .missing, strArrs := fun _ => .missing, fns := c.fns.forget }
    else .stop .unknown c
  | .randomize => .go { c with place := after ss c.place, ticks := c.ticks + 1, rng := env.srand (env.time c.ticks % 4294967296) }
  | .seed e =>
    withValue c (meaning env c.fns e) fun x c =>
      match count x with
      | .error e => .stop (.error e) c
      | .ok k => .go { c with place := after ss c.place, rng := env.srand k }
  | .def_ _ w p e => .go { c with place := after ss c.place, fns := c.fns.set w ⟨p, e⟩ }

/-- Performing the next statement; at the end of the program the run is finished. -/
noncomputable def step (env : Env) (prog : Program) (c : Config) : Next :=
  match prog[c.place.1]? with
  | none => .stop .finished c
  | some (_, ss) =>
    match ss[c.place.2]? with
    | none => .go { c with place := (c.place.1 + 1, 0) }
    | some s => perform env prog ss c s

/-- Performing `n` statements. -/
noncomputable def steps (env : Env) (prog : Program) : Nat → Config → Next
  | 0, c => .go c
  | n + 1, c =>
    match step env prog c with
    | .go c' => steps env prog n c'
    | .stop e c' => .stop e c'

/-- The name of the function that DEF makes. -/
def Stmt.function? : Stmt → Option CStr
  | .def_ _ w _ _ => some w
  | _ => none

/-- The names of the functions made with DEF. -/
def Program.functions (prog : Program) : List CStr := prog.flatMap fun l => l.2.filterMap Stmt.function?

/-- The start of a run: all variables are 0 or empty, there are no arrays, and no function was made yet. -/
def start (prog : Program) (vm : VM) : Config where
  place := (0, 0)
  nums := fun _ => .fin 0
  strs := fun _ => []
  numArrs := fun _ => .missing
  strArrs := fun _ => .missing
  calls := []
  loops := []
  col := 1
  out := []
  data := 0
  stdin := vm.world.stdin
  line := vm.input
  mark := if vm.inputPrompt then "? ".toList else []
  rng := vm.world.rng
  ticks := vm.world.ticks
  fns := fun _ w => if ∃ f ∈ prog.functions, _root_.Spec.SameIgnoringCase f w then some none else none

/-- The error with which a run ends. -/
def Ending.error? : Ending → Option RunError
  | .error e => some e
  | _ => none

/-- What is printed when a run ends: after STOP, the line and `Stopped`. -/
def Ending.message (ls : List SrcLine) (p : Place) : Ending → CStr
  | .stopped => ls[p.1]?.elim [] (fun l => Nat.toDigits 10 l.num ++ ' ' :: l.text) ++ "\nStopped\n".toList
  | _ => []

/- ### How programs are written -/

/-- The token could continue an expression. -/
def Opens : Lexeme → Prop
  | .op t => Continues t
  | _ => False

instance (a : Lexeme) : Decidable (Opens a) := by unfold Opens; split <;> infer_instance

/-- The tokens of the items of a PRINT statement.  Separators are optional; a value extends as far as possible. -/
inductive Items : List Lexeme → List Item → Prop
  | nil : Items [] []
  | value {l l' is t} {e : Expr t} : Phrase .or l e →
      (∀ w, l.head? = some (.name w) → ¬ _root_.Spec.SameIgnoringCase w "SPC".toList ∧ ¬ _root_.Spec.SameIgnoringCase w "TAB".toList) →
      (∀ a, l'.head? = some a → ¬ Opens a) → Items l' is → Items (l ++ l') (.value e :: is)
  | tab {w l e l' is} : _root_.Spec.SameIgnoringCase w "TAB".toList → Phrase .or l e → Items l' is →
      Items (.name w :: opTok '(' :: (l ++ opTok ')' :: l')) (.tab e :: is)
  | spc {w l e l' is} : _root_.Spec.SameIgnoringCase w "SPC".toList → Phrase .or l e → Items l' is →
      Items (.name w :: opTok '(' :: (l ++ opTok ')' :: l')) (.spc e :: is)
  | comma {l is} : Items l is → Items (opTok ',' :: l) (.comma :: is)
  | semicolon {l is} : Items l is → Items (opTok ';' :: l) (.semicolon :: is)

/-- A keyword. -/
def kw (k : Kw) : Lexeme := .op (.kw k)

/-- A line number. -/
def lineNo (n : Nat) : Lexeme := .num (.fin n)

/-- One or two subscripts. -/
inductive Subscripts : List Lexeme → List (Expr .num) → Prop
  | one {l i} : Phrase .or l i → Subscripts l [i]
  | two {l i l' j} : Phrase .or l i → Phrase .or l' j → Subscripts (l ++ opTok ',' :: l') [i, j]

/-- The tokens of an element of an array. -/
inductive Element : List Lexeme → CStr → List (Expr .num) → Prop
  | mk {w l is} : builtin w = none → Subscripts l is → Element (.name w :: opTok '(' :: (l ++ [opTok ')'])) w is

/-- The tokens of `V = expression`. -/
inductive Assignment : List Lexeme → Stmt → Prop
  | num {w l e} : builtin w = none → w.getLast? ≠ some '$' → Phrase .or l e → Assignment (.name w :: opTok '=' :: l) (.letNum w e)
  | str {w l e} : builtin w = none → w.getLast? = some '$' → Phrase .or l e → Assignment (.name w :: opTok '=' :: l) (.letStr w e)
  | elem {l w is l' e} : Element l w is → Phrase .or l' e → Assignment (l ++ opTok '=' :: l') (.letElem (typeOf w) w is e)

/-- The arrays of DIM with commas between them. -/
inductive Dims : List Lexeme → List Stmt → Prop
  | one {l w is} : Element l w is → Dims l [.dim (typeOf w) w is]
  | more {l w is l' ss} : Element l w is → Dims l' ss → Dims (l ++ opTok ',' :: l') (.dim (typeOf w) w is :: ss)

/-- The names after NEXT. -/
inductive Names : List Lexeme → List Stmt → Prop
  | one {w} : builtin w = none → w.getLast? ≠ some '$' → Names [.name w] [.next w]
  | more {w l ss} : builtin w = none → w.getLast? ≠ some '$' → Names l ss → Names (.name w :: opTok ',' :: l) (.next w :: ss)

/-- Line numbers with commas between them. -/
inductive LineNos : List Lexeme → List Nat → Prop
  | one {n} : 1 ≤ n → n ≤ 65535 → LineNos [lineNo n] [n]
  | more {n l ns} : 1 ≤ n → n ≤ 65535 → LineNos l ns → LineNos (lineNo n :: opTok ',' :: l) (n :: ns)

/-- The variable with a name. -/
def varOf (w : CStr) : Var := if w.getLast? = some '$' then .str w else .num w

/-- A variable or an element after INPUT. -/
inductive Holder : List Lexeme → Slot → Prop
  | var {w} : builtin w = none → Holder [.name w] (.var (varOf w))
  | elem {l w is} : Element l w is → Holder l (.elem (typeOf w) w is)

/-- The same with commas between them. -/
inductive Holders : List Lexeme → List Slot → Prop
  | one {l v} : Holder l v → Holders l [v]
  | more {l v l' vs} : Holder l v → Holders l' vs → Holders (l ++ opTok ',' :: l') (v :: vs)

/-- What READ gives a value to. -/
inductive Target : List Lexeme → Stmt → Prop
  | var {w} : builtin w = none → Target [.name w] (.read (varOf w))
  | elem {l w is} : Element l w is → Target l (.readElem (typeOf w) w is)

/-- The same with commas between them. -/
inductive Targets : List Lexeme → List Stmt → Prop
  | one {l s} : Target l s → Targets l [s]
  | more {l s l' ss} : Target l s → Targets l' ss → Targets (l ++ opTok ',' :: l') (s :: ss)

/-- The tokens of a prompt. -/
inductive Prompt : List Lexeme → Option CStr → Prop
  | none : Prompt [] none
  | bare {t} : Prompt [.str t] (some t)
  | semicolon {t} : Prompt [.str t, opTok ';'] (some t)
  | comma {t} : Prompt [.str t, opTok ','] (some t)

/-- The tokens of a statement other than IF and REM, and what it is. -/
inductive Simple : List Lexeme → List Stmt → Prop
  | empty : Simple [] []
  | letKw {l s} : Assignment l s → Simple (kw .LET :: l) [s]
  | assign {l s} : Assignment l s → Simple l [s]
  | print {l is} : Items l is → Simple (kw .PRINT :: l) [.print is]
  | query {l is} : Items l is → Simple (opTok '?' :: l) [.print is]
  | goto {n} : 1 ≤ n → n ≤ 65535 → Simple [kw .GOTO, lineNo n] [.goto n]
  | gosub {n} : 1 ≤ n → n ≤ 65535 → Simple [kw .GOSUB, lineNo n] [.gosub n]
  | ret : Simple [kw .RETURN] [.ret]
  | for_ {w l a l' b} : builtin w = none → w.getLast? ≠ some '$' → Phrase .or l a → Phrase .or l' b →
      Simple (kw .FOR :: .name w :: opTok '=' :: (l ++ kw .TO :: l')) [.for_ w a b (.num (.fin 1))]
  | forStep {w l a l' b l'' s} : builtin w = none → w.getLast? ≠ some '$' → Phrase .or l a → Phrase .or l' b → Phrase .or l'' s →
      Simple (kw .FOR :: .name w :: opTok '=' :: (l ++ kw .TO :: (l' ++ kw .STEP :: l''))) [.for_ w a b s]
  | nextAny : Simple [kw .NEXT] [.nextAny]
  | next {l ss} : Names l ss → Simple (kw .NEXT :: l) ss
  | end_ : Simple [kw .END] [.end_]
  | stop : Simple [kw .STOP] [.stop]
  | onGoto {l e l' ns} : Phrase .or l e → LineNos l' ns → Simple (kw .ON :: (l ++ kw .GOTO :: l')) [.on false e ns]
  | onGosub {l e l' ns} : Phrase .or l e → LineNos l' ns → Simple (kw .ON :: (l ++ kw .GOSUB :: l')) [.on true e ns]
  | data {vs} : Simple [.data vs] [.data vs]
  | read {l ss} : Targets l ss → Simple (kw .READ :: l) ss
  | dim {l ss} : Dims l ss → Simple (kw .DIM :: l) ss
  | restore : Simple [kw .RESTORE] [.restore]
  | restoreLine {n} : 1 ≤ n → n ≤ 65535 → Simple [kw .RESTORE, lineNo n] [.restoreLine n]
  | input {l p l' vs} : Prompt l p → Holders l' vs → Simple (kw .INPUT :: (l ++ l')) [.input p vs]
  | lineInput {l p w} : Prompt l p → builtin w = none → w.getLast? = some '$' → Simple (kw .LINE :: kw .INPUT :: (l ++ [.name w])) [.lineInput p w]
  | lineInputElem {l p l' w is} : Prompt l p → Element l' w is → w.getLast? = some '$' → Simple (kw .LINE :: kw .INPUT :: (l ++ l')) [.lineInputElem p w is]
  | cls : Simple [kw .CLS] [.cls]
  | clear : Simple [kw .CLEAR] [.clear]
  | randomize : Simple [kw .RANDOMIZE] [.randomize]
  | seed {l e} : Phrase .or l e → Simple (kw .RANDOMIZE :: l) [.seed e]
  | def_ {w p l e} : builtin w = none → builtin p = none → p.getLast? ≠ some '$' → Phrase .or l e →
      Simple (kw .DEF :: .name w :: opTok '(' :: .name p :: opTok ')' :: opTok '=' :: l) [.def_ (typeOf w) w p e]

/-- The same with IF statements that have a line number after THEN. -/
inductive Sentence : List Lexeme → List Stmt → Prop
  | simple {l ss} : Simple l ss → Sentence l ss
  | ifGoto {l e n} : Phrase .or l e → 1 ≤ n → n ≤ 65535 → Sentence (kw .IF :: (l ++ [kw .THEN, lineNo n])) [.ifGoto e n]
  | ifGotoElse {l e n m} : Phrase .or l e → 1 ≤ n → n ≤ 65535 → 1 ≤ m → m ≤ 65535 →
      Sentence (kw .IF :: (l ++ [kw .THEN, lineNo n, kw .ELSE, lineNo m])) [.ifGoto e n, .goto m]

/-- Statements between THEN and ELSE. -/
inductive Block : List Lexeme → List Stmt → Prop
  | last {l ss} : Simple l ss → l ≠ [] → Block l ss
  | colon {l ss l' ss'} : Simple l ss → Block l' ss' → Block (l ++ opTok ':' :: l') (ss ++ ss')

/-- The tokens of a line with the end of the line, or up to the word REM, and the statements of the line. -/
inductive Clauses : List Lexeme → List Stmt → Prop
  | last {l ss} : Sentence l ss → Clauses (l ++ [opTok '\n']) ss
  | rem : Clauses [kw .REM] []
  | colon {l ss l' ss'} : Sentence l ss → Clauses l' ss' → Clauses (l ++ opTok ':' :: l') (ss ++ ss')
  | ifThen {l e l' ss} : Phrase .or l e → Clauses l' ss → Clauses (kw .IF :: (l ++ kw .THEN :: l')) (.ifThen e :: ss)
  | ifElse {l e l' ss l'' ss'} : Phrase .or l e → Block l' ss → Clauses l'' ss' →
      Clauses (kw .IF :: (l ++ kw .THEN :: (l' ++ kw .ELSE :: l''))) (.ifElse e :: (ss ++ .else_ :: ss'))

/-- The text is a line with these statements; with `any`, keywords are recognised everywhere. -/
def LineAs (any : Bool) (text : CStr) (ss : List Stmt) : Prop := ∃ l r, SpellsAs any text l r ∧ Clauses l ss

/-- The stored lines are this program; with `any`, keywords are recognised everywhere. -/
inductive LinesAs (any : Bool) : List SrcLine → Program → Prop
  | nil : LinesAs any [] []
  | cons {l ls ss prog} : LineAs any l.text ss → LinesAs any ls prog → LinesAs any (l :: ls) ((l.num, ss) :: prog)

/-- The same when keywords have to be separated from names. -/
abbrev Line := LineAs false
/-- The same when keywords have to be separated from names. -/
abbrev Lines := LinesAs false

/- ### The size of programs -/

/-- How often variables occur. -/
def Item.vars : Item → Nat
  | .value e => e.vars
  | .tab e => e.vars
  | .spc e => e.vars
  | _ => 0

/-- How often variables occur. -/
def Slot.vars : Slot → Nat
  | .var _ => 1
  | .elem _ _ is => (is.map Expr.vars).sum + 1

/-- How often variables occur in a statement. -/
def Stmt.vars : Stmt → Nat
  | .letNum _ e => e.vars + 1
  | .letStr _ e => e.vars + 1
  | .letElem _ _ is e => (is.map Expr.vars).sum + 1 + e.vars
  | .dim _ _ is => (is.map Expr.vars).sum + 1
  | .print l => (l.map Item.vars).sum
  | .ifGoto e _ => e.vars
  | .ifThen e => e.vars
  | .ifElse e => e.vars
  | .for_ _ a b s => a.vars + b.vars + s.vars + 1
  | .next _ => 1
  | .on _ e _ => e.vars
  | .read _ => 1
  | .readElem _ _ is => (is.map Expr.vars).sum + 1
  | .input _ vs => (vs.map Slot.vars).sum
  | .lineInput _ _ => 1
  | .lineInputElem _ _ is => (is.map Expr.vars).sum + 1
  | .seed e => e.vars
  | .def_ _ _ _ e => e.vars + 2
  | _ => 0

/-- How often variables occur in a line. -/
def lineVars (ss : List Stmt) : Nat := (ss.map Stmt.vars).sum

/-- How often variables occur in a program. -/
def Program.vars (prog : Program) : Nat := (prog.map (fun l => lineVars l.2)).sum

/-- How many numbers and strings the bodies of functions need on the stacks. -/
def Stmt.room : Stmt → Nat × Nat
  | .def_ _ _ _ e => (e.nums, e.strs)
  | _ => (0, 0)

/-- How many numbers and strings the bodies of the functions of a program need at most. -/
def Program.room (prog : Program) : Nat × Nat :=
  let l := prog.flatMap (·.2)
  ((l.map (·.room.1)).foldr max 0, (l.map (·.room.2)).foldr max 0)

/-- Evaluating the expression does not overflow the stacks when `k` numbers are already there, and functions need room for
`r` numbers and strings. -/
def Fits (r : Nat × Nat) (k : Nat) {t : Ty} (e : Expr t) : Prop := k + e.nums + r.1 ≤ 16 ∧ e.strs + r.2 ≤ 8

/-- Evaluating the expressions one after the other does not overflow the stacks when `k` numbers are already there. -/
def FitsAll (r : Nat × Nat) : Nat → List (Expr .num) → Prop
  | _, [] => True
  | k, e :: es => Fits r k e ∧ FitsAll r (k + 1) es

/-- Evaluating the expression of the item does not overflow the stacks. -/
def Item.Fits (r : Nat × Nat) : Item → Prop
  | .value e => Src.Fits r 0 e
  | .tab e => Src.Fits r 0 e
  | .spc e => Src.Fits r 0 e
  | _ => True

/-- Evaluating the subscripts does not overflow the stacks. -/
def Slot.Fits (r : Nat × Nat) : Slot → Prop
  | .var _ => True
  | .elem _ _ is => FitsAll r 0 is

/-- Evaluating the expressions of the statement does not overflow the stacks. -/
def Stmt.Fits (r : Nat × Nat) : Stmt → Prop
  | .letNum _ e => Src.Fits r 0 e
  | .letStr _ e => Src.Fits r 0 e
  | .letElem _ _ is e => FitsAll r 0 is ∧ Src.Fits r is.length e
  | .dim _ _ is => FitsAll r 0 is
  | .readElem _ _ is => FitsAll r 0 is
  | .print l => ∀ i ∈ l, i.Fits r
  | .ifGoto e _ => Src.Fits r 0 e
  | .ifThen e => Src.Fits r 0 e
  | .ifElse e => Src.Fits r 0 e
  | .for_ _ a b s => Src.Fits r 0 a ∧ Src.Fits r 1 b ∧ Src.Fits r 2 s
  | .on _ e _ => Src.Fits r 0 e
  | .seed e => Src.Fits r 0 e
  | .input _ vs => ∀ v ∈ vs, v.Fits r
  | .lineInputElem _ _ is => FitsAll r 0 is
  | _ => True

/-- The name of the array. -/
def Slot.array? : Slot → Option CStr
  | .var _ => none
  | .elem _ w _ => some w

/-- The names of the arrays with elements that get values, or that are dimensioned. -/
def Stmt.arrays : Stmt → List CStr
  | .letElem _ w _ _ => [w]
  | .dim _ w _ => [w]
  | .readElem _ w _ => [w]
  | .input _ vs => vs.filterMap Slot.array?
  | .lineInputElem _ w _ => [w]
  | _ => []

/-- The names of these arrays. -/
def Program.elements (prog : Program) : List CStr := prog.flatMap fun l => l.2.flatMap Stmt.arrays

/-- No name is that of a function and of such an array. -/
def Program.Apart (prog : Program) : Prop := ∀ f ∈ prog.functions, ∀ a ∈ prog.elements, ¬ _root_.Spec.SameIgnoringCase f a

/-- No expression of the program overflows the stacks. -/
def Program.Fits (prog : Program) : Prop := ∀ l ∈ prog, ∀ s ∈ l.2, s.Fits prog.room

/-- The machine holds the program `prog`, read as it recognises keywords, and has not compiled it yet; nothing is
traced. -/
structure Ready (vm : VM) (src : Source) (prog : Program) : Prop where
  stored : vm.stored = ⟨some src, none, none⟩
  traceBasic : vm.traceBasic = false
  traceFor : vm.traceFor = false
  ascending : _root_.Spec.Ascending (src.lines.map (·.num))
  lines : LinesAs vm.keywordsAnywhere src.lines prog
  fits : prog.Fits
  small : prog.vars ≤ 65510
  apart : prog.Apart

/-- The stored program is `prog`, whether it has been compiled and run before or not; nothing is traced; with `any`,
keywords are recognised everywhere. -/
structure Holds (any : Bool) (vm : VM) (src : Source) (prog : Program) : Prop where
  source : vm.stored.source = some src
  keywords : vm.keywordsAnywhere = any
  traceBasic : vm.traceBasic = false
  traceFor : vm.traceFor = false
  lines : LinesAs any src.lines prog
  fits : prog.Fits
  small : prog.vars ≤ 65510
  apart : prog.Apart

end LB.Src
