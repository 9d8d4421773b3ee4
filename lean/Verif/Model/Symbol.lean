import Verif.Model.Hash
import Verif.Model.Arrays
import Verif.Model.Bcode
/- Basic/symbol.c, Basic/symbol.h, Basic/builtin.c, Basic/init.c, Basic/def.c: the symbol table. -/
namespace LB

/-- `TYPE_ERR`, `TYPE_NUM`, `TYPE_STR` (Shared/utils.h:27). -/
inductive Ty where
  | err | num | str
  deriving DecidableEq, Repr

/-- `enum symbol_kind` (Basic/symbol.h:11-17). -/
inductive SymKind where
  | unknown | variable | array | def_ | builtin
  deriving DecidableEq, Repr

/-- `struct def` (Basic/def.h:10-14).  The `source` member is only used to show the text of a
failing line and left out. -/
structure Def where
  bcode : Bcode
  sourceLine : Nat
  deriving DecidableEq, Repr

/-- `SYMBOL` (Basic/symbol.h:23-41).  The members of the union `val` are separate fields; each is
only used under the kind and type that select it.  The chain link is in `SymTab.hash`. -/
structure Symbol where
  name : CStr
  id : Nat
  kind : SymKind
  type : Ty
  defined : Bool
  num : Dbl := .fin 0
  str : Option CStr := none
  numarr : Option (BArray Dbl) := none
  strarr : Option (BArray (Option CStr)) := none
  def_ : Option Def := none
  deriving DecidableEq, Repr

/-- `SYMBOL_HASH_SIZE` (Basic/symbol.h:43). -/
def symbolHashSize : Nat := 293

/-- `SYMTAB` (Basic/symbol.h:47-53).  A pointer to a symbol is its position in `psym`;
`hash h` is the chain of slot `h` in link order. -/
structure SymTab where
  hash : Nat → List Nat
  psym : List Symbol
  nextId : Nat

/-- `new_symbol_table` (Basic/symbol.c:22-24). -/
def newSymbolTable : SymTab := { hash := fun _ => [], psym := [], nextId := 0 }

/-- `undefine_value` (Basic/symbol.c:58-94). -/
def undefineValue (s : Symbol) : Symbol :=
  match s.kind with
  | .builtin => s
  | .variable =>
    match s.type with
    | .num => { s with num := .fin 0, defined := false }
    | .str => { s with str := none, defined := false }
    | .err => { s with defined := false }
  | .array =>
    match s.type with
    | .num => { s with numarr := none, defined := false }
    | .str => { s with strarr := none, defined := false }
    | .err => { s with defined := false }
  | .def_ => { s with def_ := none, defined := false }
  | .unknown => { s with defined := false }

/-- `clear_symbol_table_values` (Basic/symbol.c:50-56). -/
def clearSymbolTableValues (st : SymTab) : SymTab :=
  { st with psym := st.psym.map (fun s => if s.defined then undefineValue s else s) }

/-- `clear_symbol_table_names` (Basic/symbol.c:34-45). -/
def clearSymbolTableNames (_st : SymTab) : SymTab := { hash := fun _ => [], psym := [], nextId := 0 }

/-- `match_paren` (Basic/symbol.c:96-106). -/
def matchParen (kind : SymKind) (paren : Bool) : Bool :=
  match kind with
  | .unknown => paren
  | .variable => !paren
  | .array => paren
  | .def_ => paren
  | .builtin => true

/-- The slot of a name (Basic/symbol.c:109, 125). -/
def symHash (name : CStr) : Nat := hashpjwUpper name % symbolHashSize

/-- Test made on each symbol of a chain (Basic/symbol.c:111). -/
def symMatches (st : SymTab) (name : CStr) (paren : Bool) (p : Nat) : Bool :=
  match st.psym[p]? with
  | none => false
  | some s => matchParen s.kind paren && strcasecmp s.name name == 0

/-- `sym_lookup` (Basic/symbol.c:108-115). -/
def symLookup (st : SymTab) (name : CStr) (paren : Bool) : Option Nat :=
  (st.hash (symHash name)).find? (symMatches st name paren)

/-- `sym_insert` (Basic/symbol.c:117-138): the new table and the pointer to the new symbol. -/
def symInsert (st : SymTab) (name : CStr) (kind : SymKind) (type : Ty) (defined : Bool := false) :
    SymTab × Nat :=
  let p := st.psym.length
  let h := symHash name
  ({ hash := fun i => if i = h then p :: st.hash i else st.hash i
     psym := st.psym ++ [{ name := name, id := st.nextId, kind := kind, type := type, defined := defined }]
     nextId := u16 (st.nextId + 1) }, p)

/-- `symbol` (Basic/symbol.c:148-152): the position must be below `used`. -/
def symbolAt (st : SymTab) (id : Nat) : Outcome Symbol :=
  match st.psym[id]? with
  | some s => .ok s
  | none => .halt (.assertFail "symbol")

/-- Writing through a `SYMBOL*` (Basic/parse.c:268, 916; Basic/run.c:1264-1268). -/
def symUpdate (st : SymTab) (p : Nat) (f : Symbol → Symbol) : SymTab :=
  { st with psym := st.psym.modify p f }

/-- `sym_make_unknown_array` (Basic/symbol.c:162-167). -/
def symMakeUnknownArray (st : SymTab) : SymTab :=
  { st with psym := st.psym.map (fun s => if s.kind = .unknown then { s with kind := .array } else s) }

/-- `BUILTIN` (Basic/builtin.h:6-11); `none` opcode is `B_NOP`, `none` args is NULL. -/
structure Builtin where
  name : CStr
  type : Ty
  args : Option CStr
  opcode : Option Bi
  deriving DecidableEq, Repr

/-- `builtins[]` (Basic/builtin.c:12-43), with the `#else` branch for `INKEY$`. -/
def builtins : List Builtin := [
  ⟨"ABS".toList, .num, some "n".toList, some .abs⟩,
  ⟨"ASC".toList, .num, some "s".toList, some .asc⟩,
  ⟨"ATN".toList, .num, some "n".toList, some .atn⟩,
  ⟨"CHR$".toList, .str, some "n".toList, some .chr⟩,
  ⟨"COS".toList, .num, some "n".toList, some .cos⟩,
  ⟨"EXP".toList, .num, some "n".toList, some .exp⟩,
  ⟨"FIX".toList, .err, none, none⟩,
  ⟨"GET$".toList, .err, none, none⟩,
  ⟨"HEX$".toList, .err, none, none⟩,
  ⟨"INKEY$".toList, .err, none, none⟩,
  ⟨"INT".toList, .num, some "n".toList, some .int⟩,
  ⟨"LEFT$".toList, .str, some "sn".toList, some .left⟩,
  ⟨"LEN".toList, .num, some "s".toList, some .len⟩,
  ⟨"LOG".toList, .num, some "n".toList, some .log⟩,
  ⟨"MID$".toList, .str, some "snn".toList, some .mid3⟩,
  ⟨"RIGHT$".toList, .str, some "sn".toList, some .right⟩,
  ⟨"RND".toList, .num, some "d".toList, some .rnd⟩,
  ⟨"SGN".toList, .num, some "n".toList, some .sgn⟩,
  ⟨"SIN".toList, .num, some "n".toList, some .sin⟩,
  ⟨"SPACE$".toList, .err, none, none⟩,
  ⟨"SQR".toList, .num, some "n".toList, some .sqr⟩,
  ⟨"STR$".toList, .str, some "n".toList, some .str⟩,
  ⟨"TAN".toList, .num, some "n".toList, some .tan⟩,
  ⟨"TIME$".toList, .str, some "d".toList, some .timeStr⟩,
  ⟨"USR".toList, .err, none, none⟩,
  ⟨"VAL".toList, .num, some "s".toList, some .val⟩]

/-- `builtin` (Basic/builtin.c:45-52). -/
def builtin (s : CStr) : Option Builtin := builtins.find? (fun b => strcasecmp b.name s == 0)

/-- `init_builtins` (Basic/init.c:4-12).  The union member `builtin` set there (lines 8-9) is never
read: the parser uses the table `builtins[]`. -/
def initBuiltins (st : SymTab) : SymTab :=
  builtins.foldl (fun st b => (symInsert st b.name .builtin b.type true).1) st

end LB
