import Verif.Proofs.Clauses
import Verif.Proofs.StateMoment
/- The lines of a program are compiled to the code of their statements. -/
namespace LB
open LB.Spec _root_.Spec

/-- The code of the lines from the `i`th on. -/
inductive LinesCode (st : SymTab) : Nat → Src.Program → List Inst → Prop
  | nil {i} : LinesCode st i [] []
  | cons {i n ss prog c d} : StmtsCode st ss c → LinesCode st (i + 1) prog d → LinesCode st i ((n, ss) :: prog) (.sourceLine i :: c ++ d)

theorem LinesCode.grow {st st' : SymTab} {i : Nat} {prog : Src.Program} {c : List Inst} (h : LinesCode st i prog c) (hg : Grows st st') : LinesCode st' i prog c := by
  induction h with
  | nil => exact .nil
  | cons h _ ih => exact .cons (h.grow hg) ih

theorem literal_pos {w : CStr} {x : Dbl} (h : Literal w x) : 1 ≤ w.length := by
  obtain ⟨m, ip, fp, t, e, rfl, hm, _⟩ := h
  have : 1 ≤ m.length := by
    cases m with
    | nil => exfalso; revert hm; simp [Mantissa]
    | cons => simp
  rw [List.length_append]; omega

theorem name_pos {w : CStr} (h : Name w) : 1 ≤ w.length := by
  obtain ⟨c, x, d, rfl, _⟩ := h
  simp

theorem spells_length {any : Bool} {r : CStr} {l : List Lexeme} {r' : CStr} (h : SpellsAs any r l r') : l.length + r'.length ≤ r.length + 1 := by
  induction h with
  | done => simp
  | eol => simp
  | num _ hw _ _ _ ih => have := literal_pos hw; simp only [List.length_append, List.length_cons]; omega
  | name _ hw _ _ _ _ ih => have := name_pos hw; simp only [List.length_append, List.length_cons]; omega
  | keyword _ hw _ _ _ _ ih => have := name_pos hw; simp only [List.length_append, List.length_cons]; omega
  | dataLast _ hw _ _ _ => have := name_pos hw; simp only [List.length_append, List.length_cons, List.length_nil]; omega
  | dataColon _ hw _ _ _ _ ih => have := name_pos hw; simp only [List.length_append, List.length_cons]; omega
  | str _ _ _ _ ih | sign _ _ _ ih | less _ _ _ _ _ ih | greater _ _ _ _ ih | ne _ _ ih | le _ _ ih | ge _ _ ih => simp only [List.length_append, List.length_cons]; omega

theorem spells_eol {any : Bool} {r : CStr} {l : List Lexeme} {r' : CStr} (h : SpellsAs any r l r') : l.getLast? = some (opTok '\n') → r' = [] := by
  have key : ∀ {a : Lexeme} {l : List Lexeme} {r' : CStr}, (a ≠ opTok '\n') → (l.getLast? = some (opTok '\n') → r' = []) →
      ((a :: l).getLast? = some (opTok '\n') → r' = []) := by
    intro a l r' ha ih h
    cases l with
    | nil => exact absurd (Option.some.inj h) ha
    | cons b l => rw [List.getLast?_cons_cons] at h; exact ih h
  induction h with
  | done => intro h; cases h
  | eol => exact fun _ => rfl
  | num _ _ _ _ _ ih => exact key (by intro h; cases h) ih
  | name _ _ _ _ _ _ _ ih => exact key (by intro h; cases h) ih
  | str _ _ _ _ ih => exact key (by intro h; cases h) ih
  | keyword _ _ _ _ _ _ ih => exact key (by intro h; cases h) ih
  | dataLast => exact fun _ => rfl
  | dataColon _ _ _ _ _ _ ih => exact key (by intro h; cases h) (key (by decide) ih)
  | sign _ hc _ ih =>
    refine key ?_ ih
    intro h
    cases h
    exact absurd hc (by decide)
  | less _ _ _ _ _ ih => exact key (by decide) ih
  | greater _ _ _ _ ih => exact key (by decide) ih
  | ne _ _ ih => exact key (by intro h; cases h) ih
  | le _ _ ih => exact key (by intro h; cases h) ih
  | ge _ _ ih => exact key (by intro h; cases h) ih

theorem clauses_end {l : List Lexeme} {ss : List Src.Stmt} (h : Src.Clauses l ss) : l.getLast? = some (opTok '\n') ∨ l.getLast? = some (Src.kw .REM) := by
  have key : ∀ {a : Lexeme} {l l' : List Lexeme}, (l'.getLast? = some (opTok '\n') ∨ l'.getLast? = some (Src.kw .REM)) →
      ((l ++ a :: l').getLast? = some (opTok '\n') ∨ (l ++ a :: l').getLast? = some (Src.kw .REM)) := by
    intro a l l' h
    cases l' with
    | nil => rcases h with h | h <;> cases h
    | cons b l' => simpa [List.getLast?_append, List.getLast?_cons_cons] using h
  induction h with
  | last => left; simp
  | rem => right; rfl
  | colon _ _ ih => exact key ih
  | @ifThen l _ _ _ _ _ ih =>
    have := key (a := Src.kw .THEN) (l := Src.kw .IF :: l) ih
    simpa using this
  | @ifElse l _ l' _ _ _ _ _ _ ih =>
    have := key (a := Src.kw .ELSE) (l := Src.kw .IF :: (l ++ Src.kw .THEN :: l')) ih
    simpa using this

theorem lexes_last {l : List Lexeme} {lex' : Lex} {a : Lexeme} : ∀ {b : Lexeme} {lex : Lex}, Lexes b lex l lex' → l.getLast? = some a → Spec.Current lex' a := by
  induction l with
  | nil => intro _ lex _ h; cases h
  | cons b l ih =>
    intro _ lex h ha
    cases h with
    | more h1 h2 h3 =>
      cases l with
      | nil => cases h3; cases ha; exact h2
      | cons c l => rw [List.getLast?_cons_cons] at ha; exact ih h3 ha

namespace P

variable {fs : List CStr}

/-- A line of a program. -/
theorem parseLine_put {any : Bool} {p : Parser} {i n : Nat} {line : CStr} {ss : List Src.Stmt} (hw : WellNamed p.st) (hno : Proper fs p.st ss) (hpre : p.lex.prefixes = any) (h : Src.LineAs any line ss) :
    ∃ c p', parseLine i n line p = .ok () p' ∧ p'.bcode.inst = p.bcode.inst ++ .sourceLine i :: c ∧ StmtsCode p'.st ss c ∧
      p'.lex.prefixes = any ∧ WellNamed p'.st ∧ Grows p.st p'.st ∧ Added fs (Src.lineVars ss) p.st p'.st ∧
      (p'.bcode.hasData = true → p.bcode.hasData = true ∨ Src.dataOf ss ≠ []) := by
  obtain ⟨l, r, hl, hc⟩ := h
  obtain ⟨lex', h1, h2, hp', htx⟩ := spells_lexes hl (a := opTok '\n') (lex := { p.lex with lineno := n, text := some line, pos := 0 }) (fun _ h => by cases h) hpre ⟨line, rfl, Nat.zero_le _, rfl⟩
  have hlen := spells_length hl
  have hlast := clauses_end hc
  have hend : lex'.token = .ch '\n' → Left lex' [] := by
    intro ht
    rcases hlast with k | k
    · rw [spells_eol hl k] at h2; exact h2
    · have := lexes_last h1 k
      rw [show lex'.token = .kw .REM from this] at ht; cases ht
  obtain ⟨a, l', rfl⟩ := clauses_ne hc
  cases h1 with
  | @more _ _ _ _ t1 lex1 _ h4 h5 h6 =>
    have h4 : lexNext { p.lex with lineno := n, text := some line, pos := 0 } = .ok (t1, lex1) := h4
    have hT1 := lexNext_tame (pre := p.lex.prefixes) (p := 0) (t := line) (lex := { p.lex with lineno := n, text := some line, pos := 0 }) ⟨rfl, Nat.zero_le _, Nat.le_refl _, rfl⟩
    rw [h4] at hT1
    let p1 : Parser := { p with lex := lex1, bcode := emitInst p.bcode (.sourceLine i), ifThen := 0 }
    have hF : From p1.lex (a :: l') lex' := ⟨h5, h6⟩
    simp only [List.length_cons] at hlen
    obtain ⟨p2, k1, k2, k3, k4, k5⟩ := clauses_put hc (f := line.length + 2) (n := line.length + 2) (m := line.length + 2) (p := p1) hw hno hT1.1.text hT1.1.le hF hend
      (by simp [p1, emitInst]) (by simp only [List.length_cons]; omega) (by simp only [List.length_cons]; omega) (by simp only [List.length_cons]; omega)
    have hne := next_eol (lex := p2.lex) (bs := []) k3 (by simp)
    obtain ⟨c, m1, m2⟩ := k5.code
    refine ⟨c, { p2 with lex := { adv p2.lex 0 with tokenPos := p2.lex.pos, token := .ch '\n' } }, ?_, by rw [m1]; simp [p1, emitInst], m2, ?_, k5.names, k5.grows, k5.added,
      fun hd => by simpa [p1, emitInst, Inst.isData] using k5.data hd⟩
    · unfold parseLine
      refine (bind_ok (show startLine n line p = .ok () { p with lex := lex1 } by simp only [startLine, lexLine, h4])).trans ?_
      refine (bind_ok (show emit (.sourceLine i) { p with lex := lex1 } = .ok () { p with lex := lex1, bcode := emitInst p.bcode (.sourceLine i) } from rfl)).trans ?_
      refine (bind_ok (show setIfThen 0 { p with lex := lex1, bcode := emitInst p.bcode (.sourceLine i) } = .ok () p1 from rfl)).trans ?_
      refine (bind_ok (fuel_ok (p := p1) hT1.1.text)).trans ?_
      have k1' := k1
      unfold restOf at k1'
      rw [bind_apply] at k1'
      cases hcs : completeStatement (line.length + 2) p1 with
      | err m p => rw [hcs] at k1'; cases k1'
      | halt h => rw [hcs] at k1'; cases k1'
      | ok u p3 =>
        rw [hcs] at k1'
        refine (bind_ok hcs).trans ?_
        refine (bind_ok k1').trans ?_
        exact matchTok_ok k2 hne
    · show p2.lex.prefixes = any
      rcases k4 with k4 | k4
      · rw [k4]; exact hp'
      · rw [k4]; exact hp'

/-- The lines of a program. -/
theorem parseLines_put {any : Bool} {ls : List SrcLine} {prog : Src.Program} (h : Src.LinesAs any ls prog) : ∀ {i : Nat} {p : Parser}, WellNamed p.st → Proper fs p.st (prog.flatMap (·.2)) → p.lex.prefixes = any →
    ∃ c p', parseLines ls i p = .ok () p' ∧ p'.bcode.inst = p.bcode.inst ++ c ∧ LinesCode p'.st i prog c ∧
      WellNamed p'.st ∧ Grows p.st p'.st ∧ Added fs prog.vars p.st p'.st ∧ (p'.bcode.hasData = true → p.bcode.hasData = true ∨ prog.data ≠ []) := by
  induction h with
  | nil => exact fun {i p} hw _ _ => ⟨[], p, rfl, by simp, .nil, hw, Grows.refl _, Added.refl _, .inl⟩
  | @cons l ls ss prog hl _ ih =>
    intro i p hw hno hpre
    have hno : Proper fs p.st (ss ++ prog.flatMap (·.2)) := by simpa using hno
    obtain ⟨c, p1, h1, h2, h3, h4, h5, h6, h7, h8⟩ := parseLine_put (i := i) (n := l.num) hw hno.left hpre hl
    obtain ⟨d, p2, k1, k2, k3, k4, k5, k6, k7⟩ := ih (i := i + 1) h5 (hno.right.add h7) h4
    refine ⟨.sourceLine i :: c ++ d, p2, (bind_ok h1).trans k1, by rw [k2, h2]; simp, .cons (h3.grow k5) k3, k4, h6.trans k5, ?_, fun hd => ?_⟩
    · have := h7.trans k6
      simpa [Src.Program.vars] using this
    · simp only [Src.Program.data, List.flatMap_cons]
      rcases k7 hd with hd | hd
      · rcases h8 hd with hd | hd
        · exact .inl hd
        · exact .inr (fun hn => hd (List.append_eq_nil_iff.1 hn).1)
      · exact .inr (fun hn => hd (List.append_eq_nil_iff.1 hn).2)

end P

theorem items_none {c : List Inst} (h : ∀ i ∈ c, i.isData = false) : items c = [] := by
  induction c with
  | nil => rfl
  | cons i c ih =>
    have := h i (by simp)
    have ih := ih (fun j hj => h j (by simp [hj]))
    cases i <;> first | exact ih | cases this

theorem items_append (a b : List Inst) : items (a ++ b) = items a ++ items b := by
  induction a with
  | nil => rfl
  | cons i a ih => cases i <;> simp [items, ih]

theorem items_noData {i : Inst} (h : i.isData = false) (c : List Inst) : items (i :: c) = items c := by
  cases i <;> first | rfl | cases h

theorem postfix_items {st : SymTab} {t : Ty} {e : Expr t} {c : List Inst} (h : Postfix st e c) : items c = [] := by
  have h1 : ∀ f : NumFn, items [f.code] = [] := by intro f; cases f <;> rfl
  have h2 : ∀ f : StrFn, items [f.code] = [] := by intro f; cases f <;> rfl
  have h3 : ∀ f : TextFn, items [f.code] = [] := by intro f; cases f <;> rfl
  have h4 : ∀ f : EndFn, items [f.code] = [] := by intro f; cases f <;> rfl
  have h5 : ∀ (t : Ty) (i n : Nat), items [getInst t i n] = [] := by intro t i n; cases t <;> rfl
  have h6 : ∀ (t : Ty) (b : Bi), items [popInst t, .bi b] = [] := by intro t b; cases t <;> rfl
  induction h <;> simp_all [items_append, items]

theorem subsCode_items {st : SymTab} {is : List (Expr .num)} {c : List Inst} (h : SubsCode st is c) : items c = [] := by
  induction h with
  | nil => rfl
  | cons h _ ih => rw [items_append, ih, postfix_items h]; rfl

theorem itemsCode_items {st : SymTab} {is : List Src.Item} {c : List Inst} (h : ItemsCode st is c) : items c = [] := by
  induction h with
  | nil => rfl
  | cons h _ ih =>
    rw [items_append, ih]
    cases h with
    | @value t _ _ h => cases t <;> simp [items_append, items, postfix_items h, printInst]
    | tab h | spc h => simp [items_append, items, postfix_items h]
    | comma | semicolon => rfl

theorem slotCode_items {st : SymTab} {v : Src.Slot} {c : List Inst} (h : SlotCode st v c) : items c = [] := by
  cases h with
  | var h => cases h <;> rfl
  | @elem t w is c id h =>
    have : items [inputInst t id is.length] = [] := by unfold inputInst; split <;> rfl
    simp [items_append, this, subsCode_items h]

theorem inputCode_items {st : SymTab} {vs : List Src.Slot} {c : List Inst} (h : InputCode st vs c) : items c = [] := by
  induction h with
  | one h => simp [items_append, items, slotCode_items h]
  | more h _ ih => simp [items_append, items, slotCode_items h, ih]

theorem stmt_items {st : SymTab} {s : Src.Stmt} {c : List Inst} (h : StmtCode st s c) : items c = Src.dataOf [s] := by
  cases h with
  | @data vs =>
    simp only [Src.dataOf, List.flatMap_cons, List.flatMap_nil, List.append_nil]
    induction vs with
    | nil => rfl
    | cons v vs ih => simp only [List.map_cons, items, ih]
  | @on g e c ns h =>
    have hm : items (ns.map Inst.onLine) = [] := items_none (by simp only [List.mem_map]; rintro i ⟨n, _, rfl⟩; rfl)
    rw [items_append, postfix_items h, items_noData (by cases g <;> rfl), hm]
    rfl
  | print h => rw [items_append, itemsCode_items h]; simp only [lineEnd]; split <;> rfl
  | input h => simp only [items]; exact inputCode_items h
  | letNum h | letStr h | ifGoto h | ifThen h | ifElse h | seed h => simp [items_append, items, postfix_items h, Src.dataOf]
  | @letElem t w is e c d id h1 h2 =>
    have : items [setInst t id is.length] = [] := by unfold setInst; split <;> rfl
    simp [items_append, this, subsCode_items h1, postfix_items h2, Src.dataOf]
  | @dim t w is c id h =>
    have : items [dimInst t id is.length] = [] := by unfold dimInst; split <;> rfl
    simp [items_append, this, subsCode_items h, Src.dataOf]
  | @readElem t w is c id h =>
    have : items [readInst t id is.length] = [] := by unfold readInst; split <;> rfl
    simp [items_append, this, subsCode_items h, Src.dataOf]
  | lineInputElem h => simp [items_append, items, subsCode_items h, Src.dataOf]
  | def_ _ _ h => simp [items_append, items, postfix_items h, Src.dataOf]
  | for_ h1 h2 h3 => simp [items_append, items, postfix_items h1, postfix_items h2, postfix_items h3, Src.dataOf]
  | _ => rfl

theorem stmts_items {st : SymTab} {ss : List Src.Stmt} {c : List Inst} (h : StmtsCode st ss c) : items c = Src.dataOf ss := by
  induction h with
  | nil => rfl
  | cons h _ ih => rw [items_append, stmt_items h, ih]; simp [Src.dataOf]

/-- The items of DATA of the code. -/
theorem lines_items {st : SymTab} {i : Nat} {prog : Src.Program} {c : List Inst} (h : LinesCode st i prog c) : items c = prog.data := by
  induction h with
  | nil => rfl
  | cons h _ ih => simp [items, items_append, stmts_items h, ih, Src.Program.data]

/-- A program is compiled to the code of its statements. -/
theorem program_source {any : Bool} {fs : List CStr} {st : SymTab} {src : Source} {prog : Src.Program} (hw : WellNamed st) (hno : Proper fs st (prog.flatMap (·.2))) (h : Src.LinesAs any src.lines prog) :
    ∃ c d st', parseSource src st any = .ok (some ⟨c, d⟩, symMakeUnknownArray st') ∧ LinesCode (symMakeUnknownArray st') 0 prog c ∧ WellNamed st' ∧
      Grows st st' ∧ Added fs prog.vars st st' ∧ (d = true ↔ prog.data ≠ []) := by
  obtain ⟨c, p', h1, h2, h3, h4, h5, h6, h7⟩ := P.parseLines_put h (i := 0) (p := { lex := newLex any, bcode := newBcode, st := st, ifThen := 0 }) hw hno rfl
  have hp : parseSource src st any = .ok (some p'.bcode, symMakeUnknownArray p'.st) := by
    unfold parseSource
    rw [h1]
  have h2 : p'.bcode.inst = c := by rw [h2]; rfl
  refine ⟨c, p'.bcode.hasData, p'.st, by rw [hp, ← h2], h3.grow (unknown_grows _), h4, h5, h6, fun hd => ?_, fun hn => ?_⟩
  · rcases h7 hd with hd | hd
    · cases hd
    · exact hd
  · cases hd : p'.bcode.hasData with
    | true => rfl
    | false =>
      rw [← lines_items h3] at hn
      exact absurd (items_none (h2 ▸ parseSource_data hp hd)) hn

end LB
