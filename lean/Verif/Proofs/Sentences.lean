import Verif.Spec.Semantics
import Verif.Proofs.Printing
import Verif.Proofs.Renumber
/- Statements are compiled to their code. -/
namespace LB
open LB.Spec _root_.Spec

/-- The number of the variable with this name and type. -/
def Numbered (st : SymTab) (w : CStr) (t : Ty) (id : Nat) : Prop :=
  ∃ (q : Nat) (s : Symbol), st.psym[q]? = some s ∧ SameIgnoringCase s.name w ∧ s.kind = .variable ∧ s.type = t ∧ s.id = id

theorem Numbered.grow {st st' : SymTab} {w : CStr} {t : Ty} {id : Nat} (h : Numbered st w t id) (hg : Grows st st') : Numbered st' w t id := by
  obtain ⟨q, s, h1, h2, h3, h4, h5⟩ := h
  obtain ⟨s', k1, k2, k3, k4, k5⟩ := hg q s h1
  refine ⟨q, s', k1, k4 ▸ h2, ?_, k3.trans h4, k2.trans h5⟩
  rcases k5 with k5 | ⟨k5, _⟩
  · exact k5.trans h3
  · rw [h3] at k5; cases k5

/-- The number of the array with this name and type. -/
def Arrayed (st : SymTab) (w : CStr) (t : Ty) (id : Nat) : Prop :=
  ∃ (q : Nat) (s : Symbol), st.psym[q]? = some s ∧ SameIgnoringCase s.name w ∧ s.kind = .array ∧ s.type = t ∧ s.id = id

theorem Arrayed.grow {st st' : SymTab} {w : CStr} {t : Ty} {id : Nat} (h : Arrayed st w t id) (hg : Grows st st') : Arrayed st' w t id := by
  obtain ⟨q, s, h1, h2, h3, h4, h5⟩ := h
  obtain ⟨s', k1, k2, k3, k4, k5⟩ := hg q s h1
  refine ⟨q, s', k1, k4 ▸ h2, ?_, k3.trans h4, k2.trans h5⟩
  rcases k5 with k5 | ⟨k5, _⟩
  · exact k5.trans h3
  · rw [h3] at k5; cases k5

/-- The number of the function with this name and type. -/
def Fnamed (st : SymTab) (w : CStr) (t : Ty) (id : Nat) : Prop :=
  ∃ (q : Nat) (s : Symbol), st.psym[q]? = some s ∧ SameIgnoringCase s.name w ∧ s.kind = .def_ ∧ s.type = t ∧ s.id = id

theorem Fnamed.grow {st st' : SymTab} {w : CStr} {t : Ty} {id : Nat} (h : Fnamed st w t id) (hg : Grows st st') : Fnamed st' w t id := by
  obtain ⟨q, s, h1, h2, h3, h4, h5⟩ := h
  obtain ⟨s', k1, k2, k3, k4, k5⟩ := hg q s h1
  refine ⟨q, s', k1, k4 ▸ h2, ?_, k3.trans h4, k2.trans h5⟩
  rcases k5 with k5 | ⟨k5, _⟩
  · exact k5.trans h3
  · rw [h3] at k5; cases k5

/-- The instructions for elements of arrays. -/
def setInst (t : Ty) (id n : Nat) : Inst := if t = .str then .setArrayStr id n else .setArrayNum id n
def dimInst (t : Ty) (id n : Nat) : Inst := if t = .str then .dimStr id n else .dimNum id n
def readInst (t : Ty) (id n : Nat) : Inst := if t = .str then .readStr id n else .readNum id n

/-- The code of an item. -/
inductive ItemCode (st : SymTab) : Src.Item → List Inst → Prop
  | value {t} {e : Expr t} {c} : Postfix st e c → ItemCode st (.value e) (c ++ [printInst t])
  | tab {e c} : Postfix st e c → ItemCode st (.tab e) (c ++ [.printTab])
  | spc {e c} : Postfix st e c → ItemCode st (.spc e) (c ++ [.printSpc])
  | comma : ItemCode st .comma [.printComma]
  | semicolon : ItemCode st .semicolon []

/-- The code of the items of a PRINT statement. -/
inductive ItemsCode (st : SymTab) : List Src.Item → List Inst → Prop
  | nil : ItemsCode st [] []
  | cons {i l c d} : ItemCode st i c → ItemsCode st l d → ItemsCode st (i :: l) (c ++ d)

/-- The end of the code of a PRINT statement. -/
def lineEnd (l : List Src.Item) : List Inst := if l.getLast?.any Src.Item.separator then [] else [.printLn]

/-- The code that gives a variable a field of the input. -/
inductive VarCode (st : SymTab) : Src.Var → Inst → Prop
  | num {w id} : Numbered st w .num id → VarCode st (.num w) (.inputNum id 0)
  | str {w id} : Numbered st w .str id → VarCode st (.str w) (.inputStr id 0)

/-- The instruction that gives an element a field of the input. -/
def inputInst (t : Ty) (id n : Nat) : Inst := if t = .num then .inputNum id n else .inputStr id n

/-- The code that gives a variable or an element a field of the input. -/
inductive SlotCode (st : SymTab) : Src.Slot → List Inst → Prop
  | var {v i} : VarCode st v i → SlotCode st (.var v) [i]
  | elem {t w is c id} : SubsCode st is c → Arrayed st w t id → 1 ≤ is.length → is.length ≤ 2 → t ≠ .err → SlotCode st (.elem t w is) (c ++ [inputInst t id is.length])

/-- The code of INPUT after the line is read. -/
inductive InputCode (st : SymTab) : List Src.Slot → List Inst → Prop
  | one {v c} : SlotCode st v c → InputCode st [v] (c ++ [.inputEnd])
  | more {v c vs d} : SlotCode st v c → InputCode st vs d → InputCode st (v :: vs) (c ++ .inputSep :: d)

/-- The instruction at the start of ON. -/
def onInst (gosub : Bool) (n : Nat) : Inst := if gosub then .onGosub n else .onGoto n

/-- The code of a statement. -/
inductive StmtCode (st : SymTab) : Src.Stmt → List Inst → Prop
  | letNum {w e c id} : Postfix st e c → Numbered st w .num id → StmtCode st (.letNum w e) (c ++ [.setSimpleNum id])
  | letStr {w e c id} : Postfix st e c → Numbered st w .str id → StmtCode st (.letStr w e) (c ++ [.setSimpleStr id])
  | letElem {t w is e c d id} : SubsCode st is c → Postfix st e d → Arrayed st w t id → 1 ≤ is.length → is.length ≤ 2 → t ≠ .err →
      StmtCode st (.letElem t w is e) (c ++ d ++ [setInst t id is.length])
  | dim {t w is c id} : SubsCode st is c → Arrayed st w t id → 1 ≤ is.length → is.length ≤ 2 → t ≠ .err → StmtCode st (.dim t w is) (c ++ [dimInst t id is.length])
  | print {l c} : ItemsCode st l c → StmtCode st (.print l) (c ++ lineEnd l)
  | goto {n} : StmtCode st (.goto n) [.goto_ n]
  | gosub {n} : StmtCode st (.gosub n) [.gosub n]
  | ret : StmtCode st .ret [.return_]
  | ifGoto {e c n} : Postfix st e c → StmtCode st (.ifGoto e n) (c ++ [.gotrue n])
  | ifThen {e c} : Postfix st e c → StmtCode st (.ifThen e) (c ++ [.ifThen])
  | ifElse {e c} : Postfix st e c → StmtCode st (.ifElse e) (c ++ [.ifElse])
  | else_ : StmtCode st .else_ [.else_]
  | for_ {w a b s c d f id} : Postfix st a c → Postfix st b d → Postfix st s f → Numbered st w .num id →
      StmtCode st (.for_ w a b s) (c ++ d ++ f ++ [.for_ id])
  | next {w id} : Numbered st w .num id → StmtCode st (.next w) [.nextVar id]
  | nextAny : StmtCode st .nextAny [.nextImp]
  | end_ : StmtCode st .end_ [.end_]
  | stop : StmtCode st .stop [.stop]
  | on {g e c ns} : Postfix st e c → StmtCode st (.on g e ns) (c ++ onInst g ns.length :: ns.map .onLine)
  | data {vs} : StmtCode st (.data vs) (vs.map .data)
  | readNum {w id} : Numbered st w .num id → StmtCode st (.read (.num w)) [.readNum id 0]
  | readStr {w id} : Numbered st w .str id → StmtCode st (.read (.str w)) [.readStr id 0]
  | readElem {t w is c id} : SubsCode st is c → Arrayed st w t id → 1 ≤ is.length → is.length ≤ 2 → t ≠ .err → StmtCode st (.readElem t w is) (c ++ [readInst t id is.length])
  | restore : StmtCode st .restore [.restore]
  | restoreLine {n} : StmtCode st (.restoreLine n) [.restoreLine n]
  | input {p vs c} : InputCode st vs c → StmtCode st (.input p vs) (.inputBuf p :: c)
  | lineInput {p w id} : Numbered st w .str id → StmtCode st (.lineInput p w) [.inputBuf p, .inputLine id 0]
  | lineInputElem {p w is c id} : SubsCode st is c → Arrayed st w .str id → 1 ≤ is.length → is.length ≤ 2 →
      StmtCode st (.lineInputElem p w is) (.inputBuf p :: (c ++ [.inputLine id is.length]))
  | cls : StmtCode st .cls [.cls]
  | clear : StmtCode st .clear [.clear]
  | randomize : StmtCode st .randomize [.rand]
  | seed {e c} : Postfix st e c → StmtCode st (.seed e) (c ++ [.seed])
  | def_ {t w p e c id pid} : Fnamed st w t id → Numbered st p .num pid → Postfix st e c → t ≠ .err →
      StmtCode st (.def_ t w p e) (.def_ id 1 :: .param pid :: (c ++ [.endDef]))

/-- The code of the statements of a line. -/
inductive StmtsCode (st : SymTab) : List Src.Stmt → List Inst → Prop
  | nil : StmtsCode st [] []
  | cons {s l c d} : StmtCode st s c → StmtsCode st l d → StmtsCode st (s :: l) (c ++ d)

theorem ItemCode.grow {st st' : SymTab} {i : Src.Item} {c : List Inst} (h : ItemCode st i c) (hg : Grows st st') : ItemCode st' i c := by
  cases h with
  | value h => exact .value (h.grow hg)
  | tab h => exact .tab (h.grow hg)
  | spc h => exact .spc (h.grow hg)
  | comma => exact .comma
  | semicolon => exact .semicolon

theorem ItemsCode.grow {st st' : SymTab} {l : List Src.Item} {c : List Inst} (h : ItemsCode st l c) (hg : Grows st st') : ItemsCode st' l c := by
  induction h with
  | nil => exact .nil
  | cons h _ ih => exact .cons (h.grow hg) ih

theorem VarCode.grow {st st' : SymTab} {v : Src.Var} {i : Inst} (h : VarCode st v i) (hg : Grows st st') : VarCode st' v i := by
  cases h with
  | num h => exact .num (h.grow hg)
  | str h => exact .str (h.grow hg)

theorem SlotCode.grow {st st' : SymTab} {v : Src.Slot} {c : List Inst} (h : SlotCode st v c) (hg : Grows st st') : SlotCode st' v c := by
  cases h with
  | var h => exact .var (h.grow hg)
  | elem h k l1 l2 l3 => exact .elem (h.grow hg) (k.grow hg) l1 l2 l3

theorem InputCode.grow {st st' : SymTab} {vs : List Src.Slot} {c : List Inst} (h : InputCode st vs c) (hg : Grows st st') : InputCode st' vs c := by
  induction h with
  | one h => exact .one (h.grow hg)
  | more h _ ih => exact .more (h.grow hg) ih

theorem StmtCode.grow {st st' : SymTab} {s : Src.Stmt} {c : List Inst} (h : StmtCode st s c) (hg : Grows st st') : StmtCode st' s c := by
  cases h with
  | letNum h k => exact .letNum (h.grow hg) (k.grow hg)
  | letStr h k => exact .letStr (h.grow hg) (k.grow hg)
  | letElem h1 h2 k l1 l2 l3 => exact .letElem (h1.grow hg) (h2.grow hg) (k.grow hg) l1 l2 l3
  | dim h k l1 l2 l3 => exact .dim (h.grow hg) (k.grow hg) l1 l2 l3
  | print h => exact .print (h.grow hg)
  | goto => exact .goto
  | gosub => exact .gosub
  | ret => exact .ret
  | ifGoto h => exact .ifGoto (h.grow hg)
  | ifThen h => exact .ifThen (h.grow hg)
  | ifElse h => exact .ifElse (h.grow hg)
  | else_ => exact .else_
  | for_ h1 h2 h3 k => exact .for_ (h1.grow hg) (h2.grow hg) (h3.grow hg) (k.grow hg)
  | next k => exact .next (k.grow hg)
  | nextAny => exact .nextAny
  | end_ => exact .end_
  | stop => exact .stop
  | on h => exact .on (h.grow hg)
  | data => exact .data
  | readNum k => exact .readNum (k.grow hg)
  | readStr k => exact .readStr (k.grow hg)
  | readElem h k l1 l2 l3 => exact .readElem (h.grow hg) (k.grow hg) l1 l2 l3
  | restore => exact .restore
  | restoreLine => exact .restoreLine
  | input h => exact .input (h.grow hg)
  | lineInput k => exact .lineInput (k.grow hg)
  | lineInputElem h k l1 l2 => exact .lineInputElem (h.grow hg) (k.grow hg) l1 l2
  | cls => exact .cls
  | clear => exact .clear
  | randomize => exact .randomize
  | seed h => exact .seed (h.grow hg)
  | def_ h1 h2 h3 l => exact .def_ (h1.grow hg) (h2.grow hg) (h3.grow hg) l

theorem StmtsCode.grow {st st' : SymTab} {l : List Src.Stmt} {c : List Inst} (h : StmtsCode st l c) (hg : Grows st st') : StmtsCode st' l c := by
  induction h with
  | nil => exact .nil
  | cons h _ ih => exact .cons (h.grow hg) ih

theorem StmtsCode.append {st : SymTab} {l l' : List Src.Stmt} {c d : List Inst} (h : StmtsCode st l c) (k : StmtsCode st l' d) : StmtsCode st (l ++ l') (c ++ d) := by
  induction h with
  | nil => exact k
  | cons h _ ih => rw [List.cons_append, List.append_assoc]; exact .cons h ih

theorem StmtsCode.one {st : SymTab} {s : Src.Stmt} {c : List Inst} (h : StmtCode st s c) : StmtsCode st [s] c := by
  have := StmtsCode.cons h .nil
  rwa [List.append_nil] at this

/-- Functions have names in `fs`, and arrays have not. -/
def Sits (fs : List CStr) (s : Src.Stmt) : Prop := (∀ w, s.function? = some w → Among fs w) ∧ (∀ w ∈ s.arrays, ¬ Among fs w)

/-- So it is with these statements and with the table. -/
def Proper (fs : List CStr) (st : SymTab) (ss : List Src.Stmt) : Prop := Apart fs st ∧ ∀ s ∈ ss, Sits fs s

theorem Proper.left {fs : List CStr} {st : SymTab} {ss ss' : List Src.Stmt} (h : Proper fs st (ss ++ ss')) : Proper fs st ss :=
  ⟨h.1, fun s hs => h.2 s (List.mem_append_left _ hs)⟩

theorem Proper.right {fs : List CStr} {st : SymTab} {ss ss' : List Src.Stmt} (h : Proper fs st (ss ++ ss')) : Proper fs st ss' :=
  ⟨h.1, fun s hs => h.2 s (List.mem_append_right _ hs)⟩

theorem Proper.tail {fs : List CStr} {st : SymTab} {s : Src.Stmt} {ss : List Src.Stmt} (h : Proper fs st (s :: ss)) : Proper fs st ss :=
  ⟨h.1, fun s hs => h.2 s (List.mem_cons_of_mem _ hs)⟩

theorem Proper.head {fs : List CStr} {st : SymTab} {s : Src.Stmt} {ss : List Src.Stmt} (h : Proper fs st (s :: ss)) : Proper fs st [s] :=
  ⟨h.1, fun s hs => h.2 s (by simp only [List.mem_singleton] at hs; simp [hs])⟩

theorem Proper.add {fs : List CStr} {st st' : SymTab} {n : Nat} {ss : List Src.Stmt} (h : Proper fs st ss) (ha : Added fs n st st') : Proper fs st' ss :=
  ⟨ha.apart h.1, h.2⟩

/-- Statements were read, and their code was appended. -/
structure PutS (fs : List CStr) (p : Parser) (ss : List Src.Stmt) (p' : Parser) : Prop where
  ifThen : p'.ifThen = p.ifThen
  code : ∃ c, p'.bcode.inst = p.bcode.inst ++ c ∧ StmtsCode p'.st ss c
  names : WellNamed p'.st
  grows : Grows p.st p'.st
  added : Added fs (Src.lineVars ss) p.st p'.st
  data : p'.bcode.hasData = true → p.bcode.hasData = true ∨ Src.dataOf ss ≠ []

variable {fs : List CStr}

theorem PutS.moved {p p' : Parser} {lex1 : Lex} {ss : List Src.Stmt} (h : PutS fs { p with lex := lex1 } ss p') : PutS fs p ss p' :=
  ⟨h.ifThen, h.code, h.names, h.grows, h.added, h.data⟩

theorem data_append {p p1 p2 : Parser} {ss ss' : List Src.Stmt} (h : p1.bcode.hasData = true → p.bcode.hasData = true ∨ Src.dataOf ss ≠ [])
    (k : p2.bcode.hasData = true → p1.bcode.hasData = true ∨ Src.dataOf ss' ≠ []) (hd : p2.bcode.hasData = true) :
    p.bcode.hasData = true ∨ Src.dataOf (ss ++ ss') ≠ [] := by
  have happ : Src.dataOf (ss ++ ss') = Src.dataOf ss ++ Src.dataOf ss' := by simp [Src.dataOf]
  rw [happ]
  rcases k hd with hd | hd
  · rcases h hd with hd | hd
    · exact .inl hd
    · exact .inr (fun hn => hd (List.append_eq_nil_iff.1 hn).1)
  · exact .inr (fun hn => hd (List.append_eq_nil_iff.1 hn).2)

theorem PutS.append {p p1 p2 : Parser} {ss ss' : List Src.Stmt} (h : PutS fs p ss p1) (k : PutS fs p1 ss' p2) : PutS fs p (ss ++ ss') p2 := by
  obtain ⟨c, h1, h2⟩ := h.code
  obtain ⟨d, k1, k2⟩ := k.code
  refine ⟨k.ifThen.trans h.ifThen, ⟨c ++ d, by rw [k1, h1]; simp, (h2.grow k.grows).append k2⟩, k.names, h.grows.trans k.grows, ?_, fun hd => ?_⟩
  · have := h.added.trans k.added
    rwa [show Src.lineVars ss + Src.lineVars ss' = Src.lineVars (ss ++ ss') by simp [Src.lineVars]] at this
  · exact data_append h.data k.data hd

theorem PutS.refl {p : Parser} (hw : WellNamed p.st) : PutS fs p [] p :=
  ⟨rfl, ⟨[], by simp, .nil⟩, hw, Grows.refl _, Added.refl _, .inl⟩

theorem PutS.simple {p : Parser} (hw : WellNamed p.st) {s : Src.Stmt} {i : Inst} (h : StmtCode p.st s [i]) (lex' : Lex) (hi : i.isData = false := by rfl) :
    PutS fs p [s] { p with lex := lex', bcode := emitInst p.bcode i } :=
  ⟨rfl, ⟨[i], by simp [emitInst], .one h⟩, hw, Grows.refl _, Added.refl _, fun hd => .inl (by simpa [emitInst, hi] using hd)⟩

theorem added_grow {n : Nat} {st st' : SymTab} (h : Added fs n st st') : Grows st st' := by
  intro q s hs
  rcases h.old q s hs with h1 | ⟨hu, k, hk, h1, _⟩
  · exact ⟨s, h1, rfl, rfl, rfl, .inl rfl⟩
  · exact ⟨_, h1, rfl, rfl, rfl, .inr ⟨hu, hk⟩⟩

theorem nameType_num {w : CStr} (h : w.getLast? ≠ some '$') : nameType w = .num := by
  have : stringName w = false := by simp [stringName, h]
  simp [nameType, this]

theorem nameType_str {w : CStr} (h : w.getLast? = some '$') : nameType w = .str := by
  have : stringName w = true := by simp [stringName, h]
  simp [nameType, this]

namespace P

/-- The name of a simple variable. -/
theorem identifier_name {expr : P Ty} {k : SymKind} {p : Parser} {w : CStr} {t : Tok} {lex' : Lex} (hw : WellNamed p.st) (hb : LB.builtin w = none)
    (hc : Spec.Current p.lex (.name w)) (hn : lexNext p.lex = .ok (t, lex')) (ht : lex'.token ≠ .ch '(') :
    ∃ q st' s, identifier expr k p = .ok (q, 0) { p with lex := lex', st := st' } ∧ st'.psym[q]? = some s ∧ SameIgnoringCase s.name w ∧ s.kind = .variable ∧
      s.type = nameType w ∧ WellNamed st' ∧ Grows p.st st' ∧ ∀ {fs : List CStr}, Added fs 1 p.st st' := by
  obtain ⟨hid, rfl⟩ := hc
  obtain ⟨q, st', s, h1, h2⟩ := resolve_variable (p := { p with lex := lex' }) hw hb
  have h1' : resolve p.lex.word 0 k { p with lex := lex' } = .ok q { p with lex := lex', st := st' } := by
    rw [← h1]
    simp only [resolve, ne_eq, not_true_eq_false, if_false]
  refine ⟨q, st', s, ?_, h2⟩
  unfold identifier
  rw [bind_ok (x := word) (p := p) rfl, bind_ok (matchTok_ok hid hn), token_bind, if_neg ht, bind_ok (x := pure 0) (p := { p with lex := lex' }) rfl]
  exact bind_ok h1'

theorem sym_ok {p : Parser} {q : Nat} {s : Symbol} (h : p.st.psym[q]? = some s) : sym q p = .ok s p := by
  simp only [sym, h]

/-- The name of a numeric variable. -/
theorem numericSimpleVariable_name {expr : P Ty} {p : Parser} {w : CStr} {t : Tok} {lex' : Lex} (hw : WellNamed p.st) (hb : LB.builtin w = none)
    (hd : w.getLast? ≠ some '$')
    (hc : Spec.Current p.lex (.name w)) (hn : lexNext p.lex = .ok (t, lex')) (ht : lex'.token ≠ .ch '(') :
    ∃ q st' s, numericSimpleVariable expr p = .ok q { p with lex := lex', st := st' } ∧ st'.psym[q]? = some s ∧ SameIgnoringCase s.name w ∧ s.kind = .variable ∧
      s.type = .num ∧ WellNamed st' ∧ Grows p.st st' ∧ ∀ {fs : List CStr}, Added fs 1 p.st st' := by
  obtain ⟨q, st', s, h1, h2, h3, h4, h5, h6⟩ := identifier_name (expr := expr) (k := .unknown) hw hb hc hn ht
  rw [nameType_num hd] at h5
  refine ⟨q, st', s, ?_, h2, h3, h4, h5, h6⟩
  unfold numericSimpleVariable
  refine (bind_ok (p' := { p with lex := lex', st := st' }) (a := q) ?_).trans ?_
  · unfold simpleVariable
    refine (bind_ok h1).trans ?_
    refine (bind_ok (sym_ok (p := { p with lex := lex', st := st' }) h2)).trans ?_
    rw [if_neg (by simp [h4])]
    rfl
  · refine (bind_ok (sym_ok (p := { p with lex := lex', st := st' }) h2)).trans ?_
    rw [if_neg (by simp [h5])]
    rfl

theorem numericExpression_put {p : Parser} {l : List Lexeme} {e : Expr .num} {lex' : Lex} (hw : WellNamed p.st) (h : Phrase .or l e) {text : CStr}
    (ht : p.lex.text = some text) (hp : p.lex.pos ≤ text.length) (hs : Scans p.lex l lex') (hk : ¬ Continues lex'.token) :
    ∃ p', numericExpression expression p = .ok () p' ∧ Put p e lex' p' := by
  obtain ⟨p', h1, h2⟩ := expression_put hw h ht hp hs hk
  refine ⟨p', ?_, h2⟩
  unfold numericExpression
  rw [bind_ok h1]
  rfl

theorem scans_tame {l : List Lexeme} {lex lex' : Lex} {t : CStr} (h : Scans lex l lex') (ht : lex.text = some t) (hp : lex.pos ≤ t.length) :
    lex'.text = some t ∧ lex'.pos ≤ t.length := by
  induction h with
  | done => exact ⟨ht, hp⟩
  | @more lex _ _ _ _ _ h1 h2 _ ih =>
    have := (moves_tame (pre := lex.prefixes) (p := lex.pos) h2 ⟨ht, hp, Nat.le_refl _, rfl⟩).1.1
    exact ih this.text this.le

theorem typeOf_type (w : CStr) : typeOf w ≠ .err := by
  unfold typeOf
  split <;> simp

/-- An element of an array, before it is used. -/
theorem element_put {p : Parser} {l : List Lexeme} {w : CStr} {is : List (Expr .num)} {lex' : Lex} (h : Src.Element l w is) (hw : WellNamed p.st) (hd : Apart fs p.st) (hfs : ¬ Among fs w)
    {text : CStr} (ht : p.lex.text = some text) (hp : p.lex.pos ≤ text.length) (hs : Scans p.lex l lex') :
    ∃ q s c p', identifier expression .array p = .ok (q, is.length) p' ∧ p'.lex = lex' ∧ p'.ifThen = p.ifThen ∧ p'.bcode = { p.bcode with inst := p.bcode.inst ++ c } ∧
      SubsCode p'.st is c ∧ p'.st.psym[q]? = some s ∧ SameIgnoringCase s.name w ∧ s.kind = .array ∧ s.type = typeOf w ∧ WellNamed p'.st ∧ Grows p.st p'.st ∧
      Added fs ((is.map Expr.vars).sum + 1) p.st p'.st ∧ 1 ≤ is.length ∧ is.length ≤ 2 := by
  have num : ∀ {l : List Lexeme} {e : Expr .num}, Phrase .or l e → NumAt expression (fun lex => lex.text = some text ∧ lex.pos ≤ text.length) l e := by
    intro l e he p lex' hw hi hs hk
    refine numericExpression_put hw he hi.1 hi.2 hs (fun hc => ?_)
    revert hk
    generalize lex'.token = k at hc
    simp only [Continues, List.mem_cons, List.not_mem_nil, or_false] at hc
    rcases hc with rfl | rfl | rfl | rfl | rfl | rfl | rfl | rfl | rfl | rfl | rfl | rfl | rfl | rfl <;> decide
  cases h with
  | @mk w l is hb h =>
    have hl : SubList (NumAt expression (fun lex => lex.text = some text ∧ lex.pos ≤ text.length)) l is := by
      cases h with
      | one h => exact .one (num h)
      | two h h' => exact .more (num h) (.one (num h'))
    have hlen : 1 ≤ is.length ∧ is.length ≤ 2 := by cases h <;> simp
    obtain ⟨q, s, c, p', h1, h2, h3, h4, h5, h6, h7, _, h8, h9, h10⟩ := identifier_put (k := .array) (fun hi hs => scans_tame hs hi.1 hi.2) hl hlen.2 hw ⟨ht, hp⟩ hb (.inr ⟨rfl, fs, hd, hfs⟩) hs
    rw [typeOf_name] at h9
    exact ⟨q, s, c, p', h1, h2, h3, h4, h5, h6, h7, h8 rfl, h9, h10.1, h10.2.1, h10.2.2 fun _ => hfs, hlen⟩

/-- An assignment is compiled to its code. -/
theorem assignment_put {p : Parser} {l : List Lexeme} {s : Src.Stmt} {lex' : Lex} (h : Src.Assignment l s) (hw : WellNamed p.st) (hn : Proper fs p.st [s]) {text : CStr}
    (ht : p.lex.text = some text) (hp : p.lex.pos ≤ text.length) (hs : Scans p.lex l lex') (hk : ¬ Continues lex'.token) :
    ∃ p', assignment p = .ok () p' ∧ p'.lex = lex' ∧ PutS fs p [s] p' := by
  have key : ∀ {w l'} {ty : Ty} {e : Expr ty}, LB.builtin w = none → nameType w = ty → Phrase .or l' e → Scans p.lex (.name w :: opTok '=' :: l') lex' →
      ∃ p' c id, assignment p = .ok () p' ∧ p'.lex = lex' ∧ p'.ifThen = p.ifThen ∧
        p'.bcode = { p.bcode with inst := p.bcode.inst ++ (c ++ [if ty = .str then .setSimpleStr id else .setSimpleNum id]) } ∧ Postfix p'.st e c ∧ Numbered p'.st w ty id ∧
        WellNamed p'.st ∧ Grows p.st p'.st ∧ ∀ {fs : List CStr}, Added fs (e.vars + 1) p.st p'.st := by
    intro w l' ty e hb hty he hs
    cases hs with
    | @more _ _ _ t1 lex1 _ hc1 hn1 hs =>
      cases hs with
      | @more _ _ _ t2 lex2 _ hc2 hn2 hs =>
        have hc2 : lex1.token = .ch '=' := hc2
        obtain ⟨q, st1, s1, h1, h2, h3, h4, h5, h6, h7, h8⟩ := identifier_name (expr := expression) (k := .array) hw hb hc1 hn1 (by rw [hc2]; decide)
        have hT := scans_tame (.more hc1 hn1 (.more (show Spec.Current lex1 (opTok '=') from hc2) hn2 .done)) ht hp
        obtain ⟨p', k1, k2⟩ := expression_put (p := { p with lex := lex2, st := st1 }) h6 he hT.1 hT.2 hs hk
        obtain ⟨s2, j1, j2, j3, j4, j5⟩ := k2.grows q s1 h2
        have j6 : s2.kind = .variable := by
          rcases j5 with j5 | ⟨j5, _⟩
          · exact j5.trans h4
          · rw [h4] at j5; cases j5
        have j7 : s2.type = ty := (j3.trans h5).trans hty
        obtain ⟨c, m1, m2⟩ := k2.code
        refine ⟨{ p' with bcode := emitInst p'.bcode (if ty = .str then .setSimpleStr s2.id else .setSimpleNum s2.id) }, c, s2.id, ?_, k2.lex, k2.ifThen, ?_, m2,
          ⟨q, s2, j1, by rw [j4]; exact h3, j6, j7, rfl⟩, k2.names, h7.trans k2.grows, by rw [Nat.add_comm]; exact h8.trans k2.added⟩
        · unfold assignment
          refine (bind_ok h1).trans ?_
          refine (bind_ok (matchTok_ok (p := { p with lex := lex1, st := st1 }) hc2 hn2)).trans ?_
          refine (bind_ok k1).trans ?_
          refine (bind_ok (sym_ok j1)).trans ?_
          rw [j7]
          simp only [ne_eq, not_true_eq_false, if_false]
          rfl
        · simp only [emitInst, m1]
          congr 1
          · simp
          · split <;> simp [Inst.isData]
  cases h with
  | num hb hd he =>
    obtain ⟨p', c, id, k1, k2, k3, k4, k5, k6, k7, k8, k9⟩ := key (ty := .num) hb (nameType_num hd) he hs
    exact ⟨p', k1, k2, k3, ⟨_, congrArg Bcode.inst k4, .one (.letNum k5 k6)⟩, k7, k8, k9, fun hd => .inl (by rw [k4] at hd; exact hd)⟩
  | str hb hd he =>
    obtain ⟨p', c, id, k1, k2, k3, k4, k5, k6, k7, k8, k9⟩ := key (ty := .str) hb (nameType_str hd) he hs
    exact ⟨p', k1, k2, k3, ⟨_, congrArg Bcode.inst k4, .one (.letStr k5 k6)⟩, k7, k8, k9, fun hd => .inl (by rw [k4] at hd; exact hd)⟩
  | @elem l w is l' e hE he =>
    obtain ⟨lex1, hs1, hs⟩ := hs.split
    have hT1 := scans_tame hs1 ht hp
    cases hs with
    | @more _ _ _ t2 lex2 _ hc2 hn2 hs =>
      have hT2 := scans_tame (.more hc2 hn2 .done) hT1.1 hT1.2
      have hc2 : lex1.token = .ch '=' := hc2
      obtain ⟨q, s1, c, p1, h1, h2, h3, h4, h5, h6, h7, h8, h9, h10, h11, h12, h13, h14⟩ := element_put hE hw hn.1 ((hn.2 _ (List.mem_singleton.2 rfl)).2 w (List.mem_singleton.2 rfl)) ht hp hs1
      obtain ⟨p', k1, k2⟩ := expression_put (p := { p1 with lex := lex2 }) h10 he hT2.1 hT2.2 hs hk
      obtain ⟨s2, j1, j2, j3, j4, j5⟩ := k2.grows q s1 h6
      have j6 : s2.kind = .array := by
        rcases j5 with j5 | ⟨j5, _⟩
        · exact j5.trans h8
        · rw [h8] at j5; cases j5
      have j7 : s2.type = typeOf w := j3.trans h9
      obtain ⟨d, m1, m2⟩ := k2.code
      refine ⟨{ p' with bcode := emitInst p'.bcode (setInst (typeOf w) s2.id is.length) }, ?_, k2.lex, k2.ifThen.trans h3,
        ⟨c ++ d ++ [setInst (typeOf w) s2.id is.length], ?_, .one (.letElem (h5.grow k2.grows) m2 ⟨q, s2, j1, by rw [j4]; exact h7, j6, j7, rfl⟩ h13 h14 (typeOf_type w))⟩,
        k2.names, h11.trans k2.grows, ?_, fun hd => .inl ?_⟩
      · unfold assignment
        refine (bind_ok h1).trans ?_
        refine (bind_ok (matchTok_ok (k := .ch '=') (t := t2) (lex' := lex2) (by rw [h2]; exact hc2) (by rw [h2]; exact hn2))).trans ?_
        refine (bind_ok k1).trans ?_
        refine (bind_ok (sym_ok j1)).trans ?_
        rw [j7, if_neg (by simp), if_pos (by omega), Nat.mod_eq_of_lt (by omega)]
        rfl
      · simp [emitInst, m1, h4]
      · have := h12.trans k2.added
        simpa [Src.lineVars, Src.Stmt.vars] using this
      · have : (setInst (typeOf w) s2.id is.length).isData = false := by unfold setInst; split <;> rfl
        simpa [emitInst, this, m1, h4] using hd

/-- The token ends a statement. -/
def EndTok (t : Tok) : Prop := t = .ch '\n' ∨ t = .ch ':' ∨ t = .kw .ELSE

theorem EndTok.continues {t : Tok} (h : EndTok t) : ¬ Continues t := by
  rcases h with rfl | rfl | rfl <;> decide

theorem EndTok.eos {p : Parser} (h : EndTok p.lex.token) : eos p = .ok true p := by
  rw [eos_apply]
  rcases h with h | h | h <;> rw [h] <;> rfl

theorem current_opens {lex : Lex} {a : Lexeme} (h : Spec.Current lex a) (ha : ¬ Src.Opens a) : ¬ Continues lex.token := by
  cases a with
  | num => rw [h.1]; decide
  | str => rw [h.1]; decide
  | name => rw [h.1]; decide
  | op t => rw [show lex.token = t from h]; exact ha
  | data => rw [show lex.token = .kw .DATA from h]; decide

theorem scans_current {a : Lexeme} {l : List Lexeme} {lex lex' : Lex} (h : Scans lex (a :: l) lex') : Spec.Current lex a := by
  cases h; assumption

/-- TAB and SPC. -/
theorem printBuiltin_put {p : Parser} {w : CStr} {l : List Lexeme} {e : Expr .num} {i : Inst} {lex' : Lex} (hi : i.isData = false) (hw : WellNamed p.st)
    (h : Phrase .or l e) {text : CStr} (ht : p.lex.text = some text) (hp : p.lex.pos ≤ text.length)
    (hs : Scans p.lex (.name w :: opTok '(' :: (l ++ [opTok ')'])) lex') :
    ∃ p' c, printBuiltin i p = .ok () p' ∧ p'.lex = lex' ∧ p'.ifThen = p.ifThen ∧ p'.bcode = { p.bcode with inst := p.bcode.inst ++ (c ++ [i]) } ∧ Postfix p'.st e c ∧
      WellNamed p'.st ∧ Grows p.st p'.st ∧ ∀ {fs : List CStr}, Added fs e.vars p.st p'.st := by
  cases hs with
  | @more _ _ _ t1 lex1 _ hc1 hn1 hs =>
    cases hs with
    | @more _ _ _ t2 lex2 _ hc2 hn2 hs =>
      obtain ⟨lex3, hs1, hs2⟩ := hs.split
      cases hs2 with
      | @more _ _ _ t4 lex4 _ hc4 hn4 hs4 =>
        cases hs4
        have hc2 : lex1.token = .ch '(' := hc2
        have hc4 : lex3.token = .ch ')' := hc4
        have hT := scans_tame (.more hc1 hn1 (.more (show Spec.Current lex1 (opTok '(') from hc2) hn2 .done)) ht hp
        obtain ⟨p', k1, k2⟩ := numericExpression_put (p := { p with lex := lex2 }) hw h hT.1 hT.2 hs1 (by rw [hc4]; decide)
        obtain ⟨c, m1, m2⟩ := k2.code
        refine ⟨{ p' with lex := lex', bcode := emitInst p'.bcode i }, c, ?_, rfl, k2.ifThen, ?_, m2, k2.names, k2.grows, k2.added⟩
        · unfold printBuiltin
          refine (bind_ok (next_ok hn1)).trans ?_
          refine (bind_ok (matchTok_ok (p := { p with lex := lex1 }) hc2 hn2)).trans ?_
          refine (bind_ok k1).trans ?_
          refine (bind_ok (matchTok_ok (t := t4) (lex' := lex') (by rw [k2.lex]; exact hc4) (by rw [k2.lex]; exact hn4))).trans ?_
          rfl
        · simp only [emitInst, m1, hi, Bool.or_false]
          simp

/-- What PRINT remembers about the last item. -/
def lastSep (b : Bool) (l : List Src.Item) : Bool := (l.getLast?.map Src.Item.separator).getD b

theorem lastSep_cons (b : Bool) (i : Src.Item) (l : List Src.Item) : lastSep b (i :: l) = lastSep i.separator l := by
  simp only [lastSep, List.getLast?_cons]
  cases l.getLast? <;> rfl

theorem printLoop_put {l : List Lexeme} {is : List Src.Item} (h : Src.Items l is) : ∀ {n : Nat} {b : Bool} {p : Parser} {lex' : Lex} {text : CStr},
    WellNamed p.st → p.lex.text = some text → p.lex.pos ≤ text.length → Scans p.lex l lex' → EndTok lex'.token → l.length < n →
    ∃ p' c, printLoop n b p = .ok (lastSep b is) p' ∧ p'.lex = lex' ∧ p'.ifThen = p.ifThen ∧ p'.bcode = { p.bcode with inst := p.bcode.inst ++ c } ∧
      ItemsCode p'.st is c ∧ WellNamed p'.st ∧ Grows p.st p'.st ∧ ∀ {fs : List CStr}, Added fs (is.map Src.Item.vars).sum p.st p'.st := by
  induction h with
  | nil =>
    intro n b p lex' text hw ht hp hs he hn
    cases hs
    obtain ⟨n, rfl⟩ : ∃ k, n = k + 1 := ⟨n - 1, by omega⟩
    refine ⟨p, [], ?_, rfl, rfl, by simp, .nil, hw, Grows.refl _, Added.refl _⟩
    unfold printLoop
    refine (bind_ok he.eos).trans ?_
    rfl
  | @value l l' is t e h1 h2 h3 h4 ih =>
    intro n b p lex' text hw ht hp hs he hn
    obtain ⟨n, rfl⟩ : ∃ k, n = k + 1 := ⟨n - 1, by omega⟩
    obtain ⟨lex1, hs1, hs2⟩ := hs.split
    have hk : ¬ Continues lex1.token := by
      cases l' with
      | nil => cases hs2; exact he.continues
      | cons a l' => exact current_opens (scans_current hs2) (h3 a rfl)
    obtain ⟨p1, k1, k2⟩ := printLoop_item (n := n) (b := b) hw h1 ht hp hs1 hk h2
    obtain ⟨c, m1, m2⟩ := k1.code
    have hT := scans_tame hs1 ht hp
    have hpos := h1.pos
    obtain ⟨p2, d, j1, j2, j3, j4, j5, j6, j7, j8⟩ := ih (n := n) (b := false) (p := { p1 with bcode := emitInst p1.bcode (printInst t) }) (lex' := lex') (text := text)
      k1.names (by rw [show p1.lex = _ from k1.lex]; exact hT.1) (by rw [show p1.lex = _ from k1.lex]; exact hT.2) (by rw [show p1.lex = _ from k1.lex]; exact hs2) he
      (by simp only [List.length_append] at hn; omega)
    refine ⟨p2, c ++ [printInst t] ++ d, ?_, j2, j3.trans k1.ifThen, ?_, .cons (.value (m2.grow j7)) j5, j6, k1.grows.trans j7, k1.added.trans j8⟩
    · rw [k2, j1, lastSep_cons]; rfl
    · rw [j4]
      simp only [emitInst, m1]
      cases t <;> simp [printInst, Inst.isData]
  | @tab w l e l' is hw' h1 h4 ih =>
    intro n b p lex' text hw ht hp hs he hn
    obtain ⟨n, rfl⟩ : ∃ k, n = k + 1 := ⟨n - 1, by omega⟩
    have hc : p.lex.token = .id ∧ p.lex.word = w := scans_current hs
    rw [show (Lexeme.name w :: opTok '(' :: (l ++ opTok ')' :: l')) = (Lexeme.name w :: opTok '(' :: (l ++ [opTok ')'])) ++ l' by simp] at hs
    obtain ⟨lex1, hs1, hs2⟩ := hs.split
    obtain ⟨p1, c, k1, k2, k3, k4, k5, k6, k7, k8⟩ := printBuiltin_put (i := .printTab) rfl hw h1 ht hp hs1
    have hT := scans_tame hs1 ht hp
    obtain ⟨p2, d, j1, j2, j3, j4, j5, j6, j7, j8⟩ := ih (n := n) (b := false) (p := p1) (lex' := lex') (text := text)
      k6 (by rw [k2]; exact hT.1) (by rw [k2]; exact hT.2) (by rw [k2]; exact hs2) he (by simp only [List.length_append, List.length_cons] at hn; omega)
    refine ⟨p2, c ++ [.printTab] ++ d, ?_, j2, j3.trans k3, ?_, .cons (.tab (k5.grow j7)) j5, j6, k7.trans j7, k8.trans j8⟩
    · conv => lhs; unfold printLoop
      refine (bind_ok (eos_apply p)).trans ?_
      rw [hc.1]
      refine (token_bind _ p).trans ?_
      show (if isName p.lex.token p.lex.word "SPC" = true then _ else _ : P Bool) p = _
      have e1 : isName p.lex.token p.lex.word "SPC" = false := by
        simp only [isName, hc.1, hc.2]
        refine Bool.and_eq_false_iff.2 (.inr (beq_eq_false_iff_ne.2 fun h => ?_))
        have := (strcasecmp_eq_zero_iff _ _).1 h
        have : SameIgnoringCase "SPC".toList "TAB".toList := Eq.trans (Eq.symm this) hw'
        revert this; decide
      have e2 : isName p.lex.token p.lex.word "TAB" = true := by
        simp only [isName, hc.1, hc.2, (strcasecmp_eq_zero_iff _ _).2 hw']
        rfl
      rw [e1, e2, if_neg (by simp), if_pos rfl]
      rw [bind_ok k1, j1, lastSep_cons]
      rfl
    · rw [j4, k4]; simp
  | @spc w l e l' is hw' h1 h4 ih =>
    intro n b p lex' text hw ht hp hs he hn
    obtain ⟨n, rfl⟩ : ∃ k, n = k + 1 := ⟨n - 1, by omega⟩
    have hc : p.lex.token = .id ∧ p.lex.word = w := scans_current hs
    rw [show (Lexeme.name w :: opTok '(' :: (l ++ opTok ')' :: l')) = (Lexeme.name w :: opTok '(' :: (l ++ [opTok ')'])) ++ l' by simp] at hs
    obtain ⟨lex1, hs1, hs2⟩ := hs.split
    obtain ⟨p1, c, k1, k2, k3, k4, k5, k6, k7, k8⟩ := printBuiltin_put (i := .printSpc) rfl hw h1 ht hp hs1
    have hT := scans_tame hs1 ht hp
    obtain ⟨p2, d, j1, j2, j3, j4, j5, j6, j7, j8⟩ := ih (n := n) (b := false) (p := p1) (lex' := lex') (text := text)
      k6 (by rw [k2]; exact hT.1) (by rw [k2]; exact hT.2) (by rw [k2]; exact hs2) he (by simp only [List.length_append, List.length_cons] at hn; omega)
    refine ⟨p2, c ++ [.printSpc] ++ d, ?_, j2, j3.trans k3, ?_, .cons (.spc (k5.grow j7)) j5, j6, k7.trans j7, k8.trans j8⟩
    · conv => lhs; unfold printLoop
      refine (bind_ok (eos_apply p)).trans ?_
      rw [hc.1]
      refine (token_bind _ p).trans ?_
      show (if isName p.lex.token p.lex.word "SPC" = true then _ else _ : P Bool) p = _
      have e2 : isName p.lex.token p.lex.word "SPC" = true := by
        simp only [isName, hc.1, hc.2, (strcasecmp_eq_zero_iff _ _).2 hw']
        rfl
      rw [e2, if_pos rfl]
      rw [bind_ok k1, j1, lastSep_cons]
      rfl
    · rw [j4, k4]; simp
  | @comma l is h1 ih =>
    intro n b p lex' text hw ht hp hs he hn
    obtain ⟨n, rfl⟩ : ∃ k, n = k + 1 := ⟨n - 1, by omega⟩
    have hT := fun {lex1 t} (h : lexNext p.lex = .ok (t, lex1)) => scans_tame (.more (scans_current hs) h .done) ht hp
    cases hs with
    | @more _ _ _ t1 lex1 _ hc1 hn1 hs =>
      have hc1 : p.lex.token = .ch ',' := hc1
      have hT := hT hn1
      obtain ⟨p2, d, j1, j2, j3, j4, j5, j6, j7, j8⟩ := ih (n := n) (b := true) (p := { p with lex := lex1, bcode := emitInst p.bcode .printComma }) (lex' := lex') (text := text)
        hw hT.1 hT.2 hs he (by simp only [List.length_cons] at hn; omega)
      refine ⟨p2, [.printComma] ++ d, ?_, j2, j3, ?_, .cons .comma j5, j6, j7, fun {fs} => by simpa [Src.Item.vars] using j8 (fs := fs)⟩
      · conv => lhs; unfold printLoop
        refine (bind_ok (eos_apply p)).trans ?_
        rw [hc1]
        refine (token_bind _ p).trans ?_
        show (if isName p.lex.token p.lex.word "SPC" = true then _ else _ : P Bool) p = _
        simp only [hc1, isName]
        refine (bind_ok (next_ok hn1)).trans ?_
        refine (bind_ok (x := emit .printComma) (p := { p with lex := lex1 }) rfl).trans ?_
        rw [j1, lastSep_cons]
        rfl
      · rw [j4]; simp [emitInst, Inst.isData]
  | @semicolon l is h1 ih =>
    intro n b p lex' text hw ht hp hs he hn
    obtain ⟨n, rfl⟩ : ∃ k, n = k + 1 := ⟨n - 1, by omega⟩
    have hT := fun {lex1 t} (h : lexNext p.lex = .ok (t, lex1)) => scans_tame (.more (scans_current hs) h .done) ht hp
    cases hs with
    | @more _ _ _ t1 lex1 _ hc1 hn1 hs =>
      have hc1 : p.lex.token = .ch ';' := hc1
      have hT := hT hn1
      obtain ⟨p2, d, j1, j2, j3, j4, j5, j6, j7, j8⟩ := ih (n := n) (b := true) (p := { p with lex := lex1 }) (lex' := lex') (text := text)
        hw hT.1 hT.2 hs he (by simp only [List.length_cons] at hn; omega)
      refine ⟨p2, [] ++ d, ?_, j2, j3, j4, .cons .semicolon j5, j6, j7, fun {fs} => by simpa [Src.Item.vars] using j8 (fs := fs)⟩
      conv => lhs; unfold printLoop
      refine (bind_ok (eos_apply p)).trans ?_
      rw [hc1]
      refine (token_bind _ p).trans ?_
      show (if isName p.lex.token p.lex.word "SPC" = true then _ else _ : P Bool) p = _
      simp only [hc1, isName]
      refine (bind_ok (next_ok hn1)).trans ?_
      rw [j1, lastSep_cons]
      rfl

end P
end LB
