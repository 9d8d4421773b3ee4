import Verif.Model.Lexer
import Verif.Model.Symbol
/- Basic/parse.c: the one-pass compiler from BASIC text to B-code. -/
namespace LB

/-- `PARSER` (Basic/parse.c:20-26). -/
structure Parser where
  lex : Lex
  bcode : Bcode
  st : SymTab
  ifThen : Nat

/-- Result of a parsing function: normal return, `parse_error` (a `longjmp` to `parse_source`,
Basic/parse.c:60-88; the state at that moment is kept, the message is abbreviated), or the end of
the process. -/
inductive PRes (α : Type) where
  | ok (a : α) (p : Parser)
  | err (msg : String) (p : Parser)
  | halt (h : Halt)

/-- A parsing function (Basic/parse.c: functions taking `PARSER*`). -/
def P (α : Type) : Type := Parser → PRes α

/-- Sequencing of parsing functions (`;` in Basic/parse.c). -/
def P.bind {α β : Type} (x : P α) (f : α → P β) : P β := fun p =>
  match x p with
  | .ok a p' => f a p'
  | .err m p' => .err m p'
  | .halt h => .halt h

instance : Monad P where
  pure a := fun p => .ok a p
  bind := P.bind

namespace P

/-- `parse_error` and `parse_error_no_token` (Basic/parse.c:60-88). -/
def fail {α : Type} (msg : String) : P α := fun p => .err msg p

/-- A failed `assert` (Basic/parse.c:240, 715, 837). -/
def assertFail {α : Type} (msg : String) : P α := fun _ => .halt (.assertFail msg)

/-- Exhausted recursion bound of the model (no counterpart in /repo/Basic/parse.c). -/
def outOfFuel {α : Type} : P α := fun _ => .halt .fuel

/-- `lex_token(parser->lex)` (Basic/lexer.c:359-362). -/
def token : P Tok := fun p => .ok p.lex.token p

/-- `lex_word(parser->lex)` (Basic/lexer.c:364-367). -/
def word : P CStr := fun p => .ok p.lex.word p

/-- `lex_num(parser->lex)` (Basic/lexer.c:369-372). -/
def num : P Dbl := fun p => .ok p.lex.num p

/-- `lex_next(parser->lex)` (Basic/lexer.c:179-312). -/
def next : P Tok := fun p =>
  match lexNext p.lex with
  | .halt h => .halt h
  | .ok (t, lex) => .ok t { p with lex := lex }

/-- `lex_next_data(parser->lex)` (Basic/lexer.c:315-357). -/
def nextData : P CStr := fun p =>
  match lexNextData p.lex with
  | .halt h => .halt h
  | .ok (w, lex) => .ok w { p with lex := lex }

/-- `emit` and its variants (Basic/emit.c:8-55): append an instruction. -/
def emit (i : Inst) : P Unit := fun p => .ok () { p with bcode := emitInst p.bcode i }

/-- The index of the next instruction, returned by `emit` (Basic/emit.c:10, 54). -/
def here : P Nat := fun p => .ok p.bcode.used p

/-- `patch_opcode`, `patch_count` (Basic/emit.c:62-70). -/
def patch (index : Nat) (i : Inst) : P Unit := fun p =>
  match patchInst p.bcode index i with
  | .halt h => .halt h
  | .ok bc => .ok () { p with bcode := bc }

/-- Assignment to `parser->if_then` (Basic/parse.c:105, 382, 385, 406). -/
def setIfThen (n : Nat) : P Unit := fun p => .ok () { p with ifThen := n }

/-- Reading `parser->if_then` (Basic/parse.c:390, 404). -/
def getIfThen : P Nat := fun p => .ok p.ifThen p

/-- `bcode_latest(parser->bcode)` (Basic/parse.c:391). -/
def latest : P (Option Inst) := fun p => .ok (bcodeLatest p.bcode) p

/-- `sym_lookup(parser->st, ...)` (Basic/parse.c:265, 912). -/
def lookup (name : CStr) (paren : Bool) : P (Option Nat) := fun p => .ok (symLookup p.st name paren) p

/-- `sym_insert(parser->st, ...)` (Basic/parse.c:273, 925). -/
def insert (name : CStr) (kind : SymKind) (type : Ty) : P Nat := fun p =>
  let (st, sym) := symInsert p.st name kind type
  .ok sym { p with st := st }

/-- Reading through a `SYMBOL*` (Basic/parse.c:237-945). -/
def sym (q : Nat) : P Symbol := fun p =>
  match p.st.psym[q]? with
  | some s => .ok s p
  | none => .halt (.outOfBounds "symbol pointer")

/-- `sym->kind = k` (Basic/parse.c:268, 916). -/
def setKind (q : Nat) (k : SymKind) : P Unit := fun p =>
  .ok () { p with st := symUpdate p.st q (fun s => { s with kind := k }) }

/-- Recursion bound: more than the number of tokens of the line (no counterpart in
/repo/Basic/parse.c; the theorems show that it is never exhausted). -/
def fuel : P Nat := fun p =>
  .ok (match p.lex.text with
    | none => 2
    | some t => t.length + 2) p

/-- `match` (Basic/parse.c:90-98). -/
def matchTok (t : Tok) : P Unit := do
  let t' ← token
  if t' ≠ t then fail "unexpected token"
  else
    let _ ← next
    pure ()

/-- `eos` (Basic/parse.c:183-186). -/
def eos : P Bool := do
  let t ← token
  pure (t == .eof || t == .ch '\n' || t == .ch ':' || t == .kw .ELSE)

/-- `line_number` (Basic/parse.c:946-956). -/
def lineNumber : P Nat := do
  let t ← token
  if t = .num then
    let x ← num
    if lineNumberOk x then
      let _ ← next
      pure x.toNat
    else fail "line number expected"
  else fail "line number expected"

section Expr

/- The functions of the expression grammar take the parser `expr` of a nested expression
(`expression`, Basic/parse.c:624) as parameter; `expression` below closes the recursion. -/
variable (expr : P Ty)

/-- `numeric_expression` (Basic/parse.c:604-607). -/
def numericExpression : P Unit := do
  let t ← expr
  if t ≠ .num then fail "numeric expression expected" else pure ()

/-- `string_expression` (Basic/parse.c:609-612). -/
def stringExpression : P Unit := do
  let t ← expr
  if t ≠ .str then fail "string expression expected" else pure ()

/-- `discard_expression` (Basic/parse.c:614-620); nothing is emitted for `TYPE_ERR`. -/
def discardExpression : P Unit := do
  let t ← expr
  match t with
  | .num => emit .popNum
  | .str => emit .popStr
  | .err => pure ()

/-- `builtin_arg` (Basic/parse.c:883-889). -/
def builtinArg (c : Char) : P Unit :=
  if c = 'n' then numericExpression expr
  else if c = 's' then stringExpression expr
  else fail "internal error: unknown argument type"

/-- Loop over the remaining arguments of a built-in function (Basic/parse.c:851-854). -/
def builtinArgs : List Char → P Unit
  | [] => pure ()
  | c :: cs => do
    matchTok (.ch ',')
    builtinArg expr c
    builtinArgs cs

/-- Loop over subscripts (Basic/parse.c:904-908): called at `(` or `,`, returns the number of
subscripts. -/
def subscripts : Nat → Nat → P Nat
  | 0, _ => outOfFuel
  | n + 1, count => do
    let _ ← next
    numericExpression expr
    let t ← token
    if t = .ch ',' then subscripts n (count + 1) else pure (count + 1)

/-- The symbol of `identifier` (Basic/parse.c:912-928). -/
def resolve (name : CStr) (params : Nat) (parenKind : SymKind) : P Nat := do
  let type : Ty := if stringName name then .str else .num
  let found ← lookup name (params != 0)
  match found with
  | some q =>
    let s ← sym q
    if params ≠ 0 then
      if s.kind = .unknown then
        setKind q parenKind
        pure q
      else if parenKind ≠ .unknown ∧ s.kind ≠ parenKind then fail "expected another kind of name"
      else pure q
    else pure q
  | none => insert name (if params ≠ 0 then parenKind else .variable) type

/-- `identifier` (Basic/parse.c:894-929): the symbol and the number of subscripts. -/
def identifier (parenKind : SymKind) : P (Nat × Nat) := do
  let name ← word
  matchTok .id
  let t ← token
  let params ←
    if t = .ch '(' then do
      let n ← fuel
      let k ← subscripts expr n 0
      matchTok (.ch ')')
      pure k
    else pure 0
  let q ← resolve name params parenKind
  pure (q, params)

/-- `simple_variable` (Basic/parse.c:931-937). -/
def simpleVariable : P Nat := do
  let (q, _) ← identifier expr .unknown
  let s ← sym q
  if s.kind ≠ .variable then fail "simple variable expected" else pure q

/-- `numeric_simple_variable` (Basic/parse.c:939-944). -/
def numericSimpleVariable : P Nat := do
  let q ← simpleVariable expr
  let s ← sym q
  if s.type ≠ .num then fail "numeric variable expected" else pure q

/-- The argument part of a built-in function (Basic/parse.c:836-856). -/
def builtinCall (args : List Char) : P Unit :=
  match args with
  | [] => assertFail "primary_expression"
  | 'd' :: _ => do
    let t ← token
    if t = .ch '(' then
      let t' ← next
      if t' ≠ .ch ')' then discardExpression expr else pure ()
      matchTok (.ch ')')
    else pure ()
  | a :: as => do
    matchTok (.ch '(')
    builtinArg expr a
    builtinArgs expr as
    matchTok (.ch ')')

/-- A built-in function in an expression (Basic/parse.c:833-858). -/
def builtinPrimary (b : Builtin) : P Ty :=
  if b.type = .err then fail "built-in function not yet implemented"
  else do
    let _ ← next
    match b.args, b.opcode with
    | some args, some op =>
      builtinCall expr args
      emit (.bi op)
      pure b.type
    | _, _ => assertFail "primary_expression"

/-- A variable, array element or user function in an expression (Basic/parse.c:860-870);
`params` is stored in an `unsigned char`. -/
def namePrimary : P Ty := do
  let (q, params) ← identifier expr .unknown
  let s ← sym q
  if params ≠ 0 then
    emit (if s.type = .str then .getParenStr s.id (params % 256) else .getParenNum s.id (params % 256))
  else
    emit (if s.type = .str then .getSimpleStr s.id else .getSimpleNum s.id)
  pure s.type

/-- `primary_expression` (Basic/parse.c:819-881). -/
def primaryExpression : P Ty := do
  let t ← token
  if t = .num then
    let x ← num
    emit (.pushNum x)
    let _ ← next
    pure .num
  else if t = .str then
    let w ← word
    emit (.pushStr w)
    let _ ← next
    pure .str
  else if t = .id then
    let w ← word
    match builtin w with
    | some b => builtinPrimary expr b
    | none => namePrimary expr
  else if t = .ch '(' then
    let _ ← next
    let ty ← expr
    if ty ≠ .err then matchTok (.ch ')') else pure ()
    pure ty
  else fail "expression expected"

/-- `power_expr` (Basic/parse.c:803-815). -/
def powerExpr : Nat → P Ty
  | 0 => outOfFuel
  | n + 1 => do
    let type1 ← primaryExpression expr
    let t ← token
    if type1 = .num ∧ t = .ch '^' then
      let _ ← next
      let type2 ← powerExpr n
      if type2 ≠ .num then pure .err
      else
        emit (.arith .pow)
        pure type1
    else pure type1

/-- The loops counting prefix operators (Basic/parse.c:668-670, 784-786): the token `t` is read
again and again; returns the number found. -/
def countPrefix (t : Tok) : Nat → Nat → P Nat
  | 0, _ => outOfFuel
  | n + 1, count => do
    let t' ← token
    if t' = t then
      let _ ← next
      countPrefix t n (count + 1)
    else pure count

/-- `neg_expr` (Basic/parse.c:780-799). -/
def negExpr (n : Nat) : P Ty := do
  let neg ← countPrefix (.ch '-') n 0
  let type ← powerExpr expr n
  if neg ≠ 0 then
    if type ≠ .num then fail "negation requires a numeric value"
    else if neg % 2 ≠ 0 then
      emit .neg
      pure type
    else pure type
  else pure type

/-- Loop of `mult_expr` (Basic/parse.c:765-773). -/
def multLoop (n : Nat) (type1 : Ty) : Nat → P Unit
  | 0 => outOfFuel
  | k + 1 => do
    let t ← token
    if t = .ch '*' ∨ t = .ch '/' then
      let op : Arith := if t = .ch '*' then .mul else .div
      let _ ← next
      let type2 ← negExpr expr n
      if type1 = .num ∧ type2 = .num then
        emit (.arith op)
        multLoop n type1 k
      else fail "Invalid types for multiplicative operator"
    else pure ()

/-- `mult_expr` (Basic/parse.c:762-776). -/
def multExpr (n : Nat) : P Ty := do
  let type1 ← negExpr expr n
  multLoop expr n type1 n
  pure type1

/-- Loop of `add_expr` for numbers (Basic/parse.c:737-744). -/
def addLoop (n : Nat) : Nat → P Unit
  | 0 => outOfFuel
  | k + 1 => do
    let t ← token
    if t = .ch '+' ∨ t = .ch '-' then
      let op : Arith := if t = .ch '+' then .add else .sub
      let _ ← next
      let type2 ← multExpr expr n
      if type2 ≠ .num then fail "Additive operator type mismatch"
      else
        emit (.arith op)
        addLoop n k
    else pure ()

/-- Loop of `add_expr` for strings (Basic/parse.c:747-753). -/
def concatLoop (n : Nat) : Nat → P Unit
  | 0 => outOfFuel
  | k + 1 => do
    let t ← token
    if t = .ch '+' then
      let _ ← next
      let type2 ← multExpr expr n
      if type2 ≠ .str then fail "String concatenation type mismatch"
      else
        emit .concat
        concatLoop n k
    else pure ()

/-- `add_expr` (Basic/parse.c:732-758). -/
def addExpr (n : Nat) : P Ty := do
  let type1 ← multExpr expr n
  match type1 with
  | .num => addLoop expr n n
  | .str => concatLoop expr n n
  | .err => pure ()
  pure type1

/-- `relop` with the opcode selection (Basic/parse.c:685-687, 704-724). -/
def relop : Tok → Option Rel
  | .ch '=' => some .eq
  | .ch '<' => some .lt
  | .ch '>' => some .gt
  | .ne => some .ne
  | .le => some .le
  | .ge => some .ge
  | _ => none

/-- `relational_expression` (Basic/parse.c:691-728). -/
def relationalExpression (n : Nat) : P Ty := do
  let type1 ← addExpr expr n
  if type1 = .err then pure .err
  else
    let t ← token
    match relop t with
    | none => pure type1
    | some r =>
      let _ ← next
      let type2 ← addExpr expr n
      if type2 = .err then pure .err
      else if type1 ≠ type2 then fail "type mismatch in relational expression"
      else
        emit (if type1 = .str then .cmpStr r else .cmpNum r)
        pure .num

/-- `NOT_expression` (Basic/parse.c:664-683). -/
def notExpression (n : Nat) : P Ty := do
  let k ← countPrefix (.kw .NOT) n 0
  let type ← relationalExpression expr n
  if k ≠ 0 then
    if type ≠ .num then fail "NOT requires a numeric value"
    else if k % 2 ≠ 0 then
      emit .not
      pure type
    else pure type
  else pure type

/-- Loop of `AND_expression` (Basic/parse.c:650-657). -/
def andLoop (n : Nat) (type1 : Ty) : Nat → P Unit
  | 0 => outOfFuel
  | k + 1 => do
    let t ← token
    if t = .kw .AND then
      let _ ← next
      let type2 ← notExpression expr n
      if type1 = .num ∧ type2 = .num then
        emit .and
        andLoop n type1 k
      else fail "Invalid types for AND"
    else pure ()

/-- `AND_expression` (Basic/parse.c:647-660). -/
def andExpression (n : Nat) : P Ty := do
  let type1 ← notExpression expr n
  andLoop expr n type1 n
  pure type1

/-- Loop of `OR_expression` (Basic/parse.c:633-640). -/
def orLoop (n : Nat) (type1 : Ty) : Nat → P Unit
  | 0 => outOfFuel
  | k + 1 => do
    let t ← token
    if t = .kw .OR then
      let _ ← next
      let type2 ← andExpression expr n
      if type1 = .num ∧ type2 = .num then
        emit .or
        orLoop n type1 k
      else fail "Invalid types for OR"
    else pure ()

/-- `OR_expression` (Basic/parse.c:630-643). -/
def orExpression (n : Nat) : P Ty := do
  let type1 ← andExpression expr n
  orLoop expr n type1 n
  pure type1

end Expr

/-- `expression` (Basic/parse.c:624-626) with a bound on the nesting of expressions. -/
def expressionN : Nat → P Ty
  | 0 => outOfFuel
  | n + 1 => orExpression (expressionN n) (n + 1)

/-- `expression` (Basic/parse.c:624-626). -/
def expression : P Ty := do
  let n ← fuel
  expressionN n

/-- `clear_statement` (Basic/parse.c:199-202). -/
def clearStatement : P Unit := do
  matchTok (.kw .CLEAR)
  emit .clear

/-- `cls_statement` (Basic/parse.c:204-207). -/
def clsStatement : P Unit := do
  matchTok (.kw .CLS)
  emit .cls

/-- Loop of `data_statement` (Basic/parse.c:216-217). -/
def dataLoop : Nat → P Unit
  | 0 => outOfFuel
  | n + 1 => do
    let t ← next
    if t = .ch ',' then
      let w ← nextData
      emit (.data w)
      dataLoop n
    else pure ()

/-- `data_statement` (Basic/parse.c:211-218). -/
def dataStatement : P Unit := do
  let w ← nextData
  emit (.data w)
  let n ← fuel
  dataLoop n

/-- `read_item` (Basic/parse.c:234-243). -/
def readItem : P Unit := do
  let (q, dim) ← identifier expression .array
  let s ← sym q
  if s.type = .str then emit (.readStr s.id (dim % 256))
  else if s.type = .num then emit (.readNum s.id (dim % 256))
  else assertFail "read_item"

/-- A list of items separated by commas (Basic/parse.c:227-230, 302-305). -/
def commaLoop (item : P Unit) : Nat → P Unit
  | 0 => outOfFuel
  | n + 1 => do
    let t ← token
    if t = .ch ',' then
      let _ ← next
      item
      commaLoop item n
    else pure ()

/-- `read_statement` (Basic/parse.c:223-231). -/
def readStatement : P Unit := do
  matchTok (.kw .READ)
  readItem
  let n ← fuel
  commaLoop readItem n

/-- `restore_statement` (Basic/parse.c:246-252). -/
def restoreStatement : P Unit := do
  matchTok (.kw .RESTORE)
  let t ← token
  if t = .num then
    let l ← lineNumber
    emit (.restoreLine l)
  else emit .restore

/-- `def_parameter` (Basic/parse.c:290-294). -/
def defParameter : P Unit := do
  let q ← numericSimpleVariable expression
  let s ← sym q
  emit (.param s.id)

/-- The symbol of a `DEF` statement (Basic/parse.c:263-273). -/
def defSymbol (name : CStr) (type : Ty) : P Nat := do
  let found ← lookup name true
  match found with
  | some q =>
    let s ← sym q
    if s.kind = .unknown then
      setKind q .def_
      pure q
    else if s.kind ≠ .def_ then fail "name already used"
    else pure q
  | none => insert name .def_ type

/-- `def_statement` (Basic/parse.c:257-288). -/
def defStatement : P Unit := do
  matchTok (.kw .DEF)
  let t ← token
  if t ≠ .id then fail "User-defined function name expected"
  else
    let name ← word
    let type : Ty := if stringName name then .str else .num
    let q ← defSymbol name type
    matchTok .id
    let s ← sym q
    emit (.def_ s.id 1)
    matchTok (.ch '(')
    defParameter
    matchTok (.ch ')')
    matchTok (.ch '=')
    if type = .str then stringExpression expression else numericExpression expression
    emit .endDef

/-- `dim_array` (Basic/parse.c:309-319). -/
def dimArray : P Unit := do
  let (q, dimensions) ← identifier expression .array
  let s ← sym q
  if s.kind ≠ .array then fail "array name and dimensions expected"
  else if s.type = .str then emit (.dimStr s.id (dimensions % 256))
  else emit (.dimNum s.id (dimensions % 256))

/-- `dim_statement` (Basic/parse.c:298-306). -/
def dimStatement : P Unit := do
  matchTok (.kw .DIM)
  dimArray
  let n ← fuel
  commaLoop dimArray n

/-- `end_statement` (Basic/parse.c:321-324). -/
def endStatement : P Unit := do
  matchTok (.kw .END)
  emit .end_

/-- `for_statement` (Basic/parse.c:326-343). -/
def forStatement : P Unit := do
  matchTok (.kw .FOR)
  let q ← numericSimpleVariable expression
  matchTok (.ch '=')
  numericExpression expression
  matchTok (.kw .TO)
  numericExpression expression
  let t ← token
  if t = .kw .STEP then
    let _ ← next
    numericExpression expression
  else emit (.pushNum (.fin 1))
  let s ← sym q
  emit (.for_ s.id)

/-- One variable of a `NEXT` statement (Basic/parse.c:349-350, 353-354). -/
def nextItem : P Unit := do
  let q ← numericSimpleVariable expression
  let s ← sym q
  emit (.nextVar s.id)

/-- `next_statement` (Basic/parse.c:345-359). -/
def nextStatement : P Unit := do
  matchTok (.kw .NEXT)
  let t ← token
  if t = .id then
    nextItem
    let n ← fuel
    commaLoop nextItem n
  else emit .nextImp

/-- `gosub_statement` (Basic/parse.c:361-365). -/
def gosubStatement : P Unit := do
  matchTok (.kw .GOSUB)
  let l ← lineNumber
  emit (.gosub l)

/-- `goto_statement` (Basic/parse.c:367-371). -/
def gotoStatement : P Unit := do
  matchTok (.kw .GOTO)
  let l ← lineNumber
  emit (.goto_ l)

/-- `if_statement` (Basic/parse.c:375-387): true when the statement continues after `THEN`. -/
def ifStatement : P Bool := do
  matchTok (.kw .IF)
  numericExpression expression
  matchTok (.kw .THEN)
  let t ← token
  if t = .num then
    let l ← lineNumber
    emit (.gotrue l)
    setIfThen 0
    pure false
  else
    let i ← here
    emit .ifThen
    setIfThen i
    pure true

/-- Is the latest instruction a `B_GOTRUE`? (Basic/parse.c:391-392). -/
def isGotrue : Option Inst → Bool
  | some (.gotrue _) => true
  | _ => false

/-- `else_clause` (Basic/parse.c:389-408). -/
def elseClause : P Bool := do
  let i ← getIfThen
  if i = 0 then
    let l ← latest
    if isGotrue l then
      matchTok (.kw .ELSE)
      let n ← lineNumber
      emit (.goto_ n)
      pure false
    else fail "unexpected ELSE"
  else
    matchTok (.kw .ELSE)
    patch i .ifElse
    emit .else_
    setIfThen 0
    pure true

/-- `input_buffer` (Basic/parse.c:429-439). -/
def inputBuffer : P Unit := do
  let t ← token
  if t = .str then
    let w ← word
    let sep ← next
    if sep = .ch ';' ∨ sep = .ch ',' then
      let _ ← next
      emit (.inputBuf (some w))
    else emit (.inputBuf (some w))
  else emit (.inputBuf none)

/-- `input_item` (Basic/parse.c:441-446). -/
def inputItem : P Unit := do
  let (q, dimensions) ← identifier expression .array
  let s ← sym q
  emit (if s.type = .num then .inputNum s.id (dimensions % 256) else .inputStr s.id (dimensions % 256))

/-- Loop of `input_statement` (Basic/parse.c:419-423). -/
def inputLoop : Nat → P Unit
  | 0 => outOfFuel
  | n + 1 => do
    let t ← token
    if t = .ch ',' then
      let _ ← next
      emit .inputSep
      inputItem
      inputLoop n
    else pure ()

/-- `input_statement` (Basic/parse.c:413-426). -/
def inputStatement : P Unit := do
  matchTok (.kw .INPUT)
  inputBuffer
  inputItem
  let n ← fuel
  inputLoop n
  emit .inputEnd

/-- `line_input_statement` (Basic/parse.c:448-459). -/
def lineInputStatement : P Unit := do
  matchTok (.kw .LINE)
  matchTok (.kw .INPUT)
  inputBuffer
  let (q, dimensions) ← identifier expression .array
  let s ← sym q
  if s.type ≠ .str then fail "string variable or array element expected"
  else emit (.inputLine s.id (dimensions % 256))

/-- `assignment` (Basic/parse.c:461-477). -/
def assignment : P Unit := do
  let (q, dimensions) ← identifier expression .array
  matchTok (.ch '=')
  let e ← expression
  let s ← sym q
  if e ≠ s.type then fail "type mismatch in assignment"
  else if dimensions ≠ 0 then
    emit (if s.type = .str then .setArrayStr s.id (dimensions % 256)
          else .setArrayNum s.id (dimensions % 256))
  else
    emit (if s.type = .str then .setSimpleStr s.id else .setSimpleNum s.id)

/-- `let_statement` (Basic/parse.c:479-483). -/
def letStatement : P Unit := do
  matchTok (.kw .LET)
  assignment

/-- `on_line` (Basic/parse.c:511-513). -/
def onLine : P Unit := do
  let l ← lineNumber
  emit (.onLine l)

/-- Loop of `on_statement` (Basic/parse.c:503-507): returns the number of lines. -/
def onLoop : Nat → Nat → P Nat
  | 0, _ => outOfFuel
  | n + 1, count => do
    let t ← token
    if t = .ch ',' then
      let _ ← next
      onLine
      onLoop n (count + 1)
    else pure count

/-- `on_statement` (Basic/parse.c:487-509). -/
def onStatement : P Unit := do
  matchTok (.kw .ON)
  numericExpression expression
  let t ← token
  if t = .kw .GOTO ∨ t = .kw .GOSUB then
    let op : Nat → Inst := if t = .kw .GOTO then .onGoto else .onGosub
    let i ← here
    emit (op 0)
    let _ ← next
    onLine
    let n ← fuel
    let count ← onLoop n 1
    patch i (op count)
  else fail "GOTO or GOSUB expected"

/-- `print_builtin` (Basic/parse.c:568-574). -/
def printBuiltin (i : Inst) : P Unit := do
  let _ ← next
  matchTok (.ch '(')
  numericExpression expression
  matchTok (.ch ')')
  emit i

/-- Is the token the given print function name? (Basic/parse.c:526-532). -/
def isName (t : Tok) (w : CStr) (name : String) : Bool :=
  t == .id && strcasecmp w name.toList == 0

/-- Loop of `print_statement` (Basic/parse.c:525-562): `sep` is true after a separator;
returns whether the last item was a separator. -/
def printLoop : Nat → Bool → P Bool
  | 0, _ => outOfFuel
  | n + 1, sep => do
    let e ← eos
    if e then pure sep
    else
      let t ← token
      let w ← word
      if isName t w "SPC" then
        printBuiltin .printSpc
        printLoop n false
      else if isName t w "TAB" then
        printBuiltin .printTab
        printLoop n false
      else if t = .ch ';' then
        let _ ← next
        printLoop n true
      else if t = .ch ',' then
        let _ ← next
        emit .printComma
        printLoop n true
      else
        let type ← expression
        match type with
        | .num =>
          emit .printNum
          printLoop n false
        | .str =>
          emit .printStr
          printLoop n false
        | .err => fail "an expression was expected"

/-- `print_statement` (Basic/parse.c:517-566). -/
def printStatement : P Unit := do
  let t ← token
  if t = .ch '?' then
    let _ ← next
    pure ()
  else matchTok (.kw .PRINT)
  let n ← fuel
  let sep ← printLoop n false
  if sep then pure () else emit .printLn

/-- `randomize_statement` (Basic/parse.c:580-588). -/
def randomizeStatement : P Unit := do
  matchTok (.kw .RANDOMIZE)
  let e ← eos
  if e then emit .rand
  else
    numericExpression expression
    emit .seed

/-- `rem_statement` (Basic/parse.c:590-592). -/
def remStatement : P Unit := fun p => .ok () { p with lex := lexDiscard p.lex }

/-- `return_statement` (Basic/parse.c:594-597). -/
def returnStatement : P Unit := do
  matchTok (.kw .RETURN)
  emit .return_

/-- `stop_statement` (Basic/parse.c:599-602). -/
def stopStatement : P Unit := do
  matchTok (.kw .STOP)
  emit .stop

/-- A statement that does not continue (Basic/parse.c:152-174). -/
def plain (x : P Unit) : P Bool := do
  x
  pure false

/-- The `switch` of `statement` (Basic/parse.c:151-177). -/
def statementBody (t : Tok) : P Bool :=
  match t with
  | .kw .CLEAR => plain clearStatement
  | .kw .CLS => plain clsStatement
  | .kw .DATA => plain dataStatement
  | .kw .DEF => plain defStatement
  | .kw .DIM => plain dimStatement
  | .kw .END => plain endStatement
  | .kw .FOR => plain forStatement
  | .kw .GOSUB => plain gosubStatement
  | .kw .GOTO => plain gotoStatement
  | .kw .IF => ifStatement
  | .kw .INPUT => plain inputStatement
  | .kw .LET => plain letStatement
  | .kw .LINE => plain lineInputStatement
  | .kw .NEXT => plain nextStatement
  | .kw .ON => plain onStatement
  | .kw .PRINT => plain printStatement
  | .ch '?' => plain printStatement
  | .kw .RANDOMIZE => plain randomizeStatement
  | .kw .READ => plain readStatement
  | .kw .REM => plain remStatement
  | .kw .RESTORE => plain restoreStatement
  | .kw .RETURN => plain returnStatement
  | .kw .STOP => plain stopStatement
  | .id => plain assignment
  | .ch '\n' => pure false
  | .ch ':' => pure false
  | _ => fail "statement expected"

/-- `statement` (Basic/parse.c:149-181): true when another statement must follow. -/
def statement : P Bool := do
  let t ← token
  let continues ← statementBody t
  let t' ← token
  if t' = .kw .ELSE then elseClause else pure continues

/-- `complete_statement` (Basic/parse.c:118-121). -/
def completeStatement : Nat → P Unit
  | 0 => outOfFuel
  | n + 1 => do
    let continues ← statement
    if continues then completeStatement n else pure ()

/-- Loop of `parse_line` over the statements of a line (Basic/parse.c:107-110). -/
def colonLoop (fuel : Nat) : Nat → P Unit
  | 0 => outOfFuel
  | n + 1 => do
    let t ← token
    if t = .ch ':' then
      let _ ← next
      completeStatement fuel
      colonLoop fuel n
    else pure ()

/-- `lex_line(parser->lex, ...)` (Basic/parse.c:103). -/
def startLine (lineno : Nat) (text : CStr) : P Unit := fun p =>
  match lexLine p.lex lineno text with
  | .halt h => .halt h
  | .ok (_, lex) => .ok () { p with lex := lex }

/-- `parse_line` (Basic/parse.c:102-112). -/
def parseLine (lineIndex lineno : Nat) (text : CStr) : P Unit := do
  startLine lineno text
  emit (.sourceLine lineIndex)
  setIfThen 0
  let n ← fuel
  completeStatement n
  colonLoop n n
  matchTok (.ch '\n')

/-- Loop of `parse_source` (Basic/parse.c:39-40) from line `i` on. -/
def parseLines : List SrcLine → Nat → P Unit
  | [], _ => pure ()
  | l :: ls, i => do
    parseLine i l.num l.text
    parseLines ls (i + 1)

end P

/-- `parse_source` (Basic/parse.c:30-49): the code, `none` after an error, and the symbol table. -/
def parseSource (source : Source) (st : SymTab) (prefixes : Bool) : Outcome (Option Bcode × SymTab) :=
  match P.parseLines source.lines 0 { lex := newLex prefixes, bcode := newBcode, st := st, ifThen := 0 } with
  | .ok _ p => .ok (some p.bcode, symMakeUnknownArray p.st)
  | .err _ p => .ok (none, symMakeUnknownArray p.st)
  | .halt h => .halt h

end LB
