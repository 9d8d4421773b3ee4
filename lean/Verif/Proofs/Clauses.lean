import Verif.Proofs.Statements
/- Lines are compiled to the code of their statements. -/
namespace LB
open LB.Spec _root_.Spec
namespace P

variable {fs : List CStr}

theorem items_no_eol {l : List Lexeme} {is : List Src.Item} (h : Src.Items l is) : ∀ a ∈ l, a ≠ opTok '\n' := by
  induction h with
  | nil => simp
  | value h1 _ _ _ ih =>
    intro a ha
    rcases List.mem_append.1 ha with ha | ha
    · exact phrase_no_eol h1 a ha
    · exact ih a ha
  | tab _ h1 _ ih | spc _ h1 _ ih =>
    intro a ha
    simp only [List.mem_cons, List.mem_append] at ha
    rcases ha with rfl | rfl | ha | rfl | ha
    · intro h; cases h
    · decide
    · exact phrase_no_eol h1 a ha
    · decide
    · exact ih a ha
  | comma _ ih | semicolon _ ih =>
    intro a ha
    rcases List.mem_cons.1 ha with rfl | ha
    · decide
    · exact ih a ha

theorem plain_ok {x : P Unit} {p p' : Parser} (h : x p = .ok () p') : plain x p = .ok false p' := by
  unfold plain
  rw [bind_ok h]
  rfl

theorem printStatement_put {p : Parser} {a : Lexeme} {l : List Lexeme} {is : List Src.Item} {lex' : Lex} (h : Src.Items l is) (ha : a = Src.kw .PRINT ∨ a = opTok '?')
    (hw : WellNamed p.st) {text : CStr} (ht : p.lex.text = some text) (hp : p.lex.pos ≤ text.length) (hs : Scans p.lex (a :: l) lex') (hk : EndTok lex'.token) :
    ∃ p', printStatement p = .ok () p' ∧ p'.lex = lex' ∧ PutS fs p [.print is] p' := by
  have hT := fun lex1 t h => scans_tame (.more (t := t) (lex' := lex1) (scans_current hs) h .done) ht hp
  cases hs with
  | @more _ _ _ t1 lex1 _ hc1 hn1 hs =>
    have hT := hT _ _ hn1
    have hn1 : lexNext p.lex = .ok (t1, lex1) := by rcases ha with rfl | rfl <;> exact hn1
    have hlen := (scans_length hs hT.1 hT.2 (items_no_eol h)).1
    obtain ⟨p1, c, k1, k2, k3, k4, k5, k6, k7, k8⟩ := printLoop_put h (n := text.length + 2) (b := false) (p := { p with lex := lex1 }) hw hT.1 hT.2 hs hk (by omega)
    have hfirst : (if p.lex.token = .ch '?' then (do let _ ← next; pure ()) else matchTok (.kw .PRINT) : P Unit) p = .ok () { p with lex := lex1 } := by
      rcases ha with rfl | rfl
      · have hc1 : p.lex.token = .kw .PRINT := hc1
        rw [if_neg (by rw [hc1]; decide)]
        exact matchTok_ok hc1 hn1
      · have hc1 : p.lex.token = .ch '?' := hc1
        rw [if_pos hc1]
        rw [bind_ok (next_ok hn1)]
        rfl
    have hl : lastSep false is = is.getLast?.any Src.Item.separator := by
      simp only [lastSep]
      cases is.getLast? <;> rfl
    have hpr : printStatement p = .ok () (if lastSep false is then p1 else { p1 with bcode := emitInst p1.bcode .printLn }) := by
      unfold printStatement
      rw [token_bind]
      by_cases hq : p.lex.token = .ch '?'
      · rw [if_pos hq] at hfirst ⊢
        refine (bind_ok (next_ok hn1)).trans ?_
        refine (bind_ok (fuel_ok (p := { p with lex := lex1 }) hT.1)).trans ?_
        refine (bind_ok k1).trans ?_
        split <;> rfl
      · rw [if_neg hq] at hfirst ⊢
        refine (bind_ok hfirst).trans ?_
        refine (bind_ok (fuel_ok (p := { p with lex := lex1 }) hT.1)).trans ?_
        refine (bind_ok k1).trans ?_
        split <;> rfl
    refine ⟨_, hpr, ?_, ?_⟩
    · split <;> exact k2
    · have hv : Src.lineVars [.print is] = (is.map Src.Item.vars).sum := by simp [Src.lineVars, Src.Stmt.vars]
      have hcode := StmtsCode.one (StmtCode.print k5)
      rw [hl]
      cases hb : is.getLast?.any Src.Item.separator with
      | true =>
        simp only [lineEnd, hb, if_true, List.append_nil] at hcode
        exact ⟨k3, ⟨c, congrArg Bcode.inst k4, hcode⟩, k6, k7, by rw [hv]; exact k8, fun hd => .inl (by rw [if_pos rfl] at hd; rw [k4] at hd; exact hd)⟩
      | false =>
        simp only [lineEnd, hb, Bool.false_eq_true, if_false] at hcode
        show PutS fs p _ { p1 with bcode := emitInst p1.bcode .printLn }
        exact ⟨k3, ⟨c ++ [.printLn], by simp [emitInst, Inst.isData, k4], hcode⟩, k6, k7, by rw [hv]; exact k8, fun hd => .inl (by simpa [emitInst, Inst.isData, k4] using hd)⟩

theorem names_put {l : List Lexeme} {ss : List Src.Stmt} (h : Src.Names l ss) : ∀ {n : Nat} {p : Parser} {lex' : Lex} {text : CStr},
    WellNamed p.st → p.lex.text = some text → p.lex.pos ≤ text.length → Scans p.lex l lex' → EndTok lex'.token → l.length ≤ n →
    ∃ p1 p', nextItem p = .ok () p1 ∧ p1.lex.text = some text ∧ commaLoop nextItem n p1 = .ok () p' ∧ p'.lex = lex' ∧ PutS fs p ss p' := by
  have one : ∀ {w : CStr} {p : Parser} {t : Tok} {lex' : Lex}, WellNamed p.st → LB.builtin w = none → w.getLast? ≠ some '$' → Spec.Current p.lex (.name w) →
      lexNext p.lex = .ok (t, lex') → lex'.token ≠ .ch '(' → ∃ p', nextItem p = .ok () p' ∧ p'.lex = lex' ∧ PutS fs p [.next w] p' := by
    intro w p t lex' hw hb hd hc hn ht
    obtain ⟨q, st', s, h1, h2, h3, h4, h5, h6, h7, h8⟩ := numericSimpleVariable_name (expr := expression) hw hb hd hc hn ht
    refine ⟨{ p with lex := lex', st := st', bcode := emitInst p.bcode (.nextVar s.id) }, ?_, rfl, rfl,
      ⟨[.nextVar s.id], by simp [emitInst, Inst.isData], .one (.next ⟨q, s, h2, h3, h4, h5, rfl⟩)⟩, h6, h7, h8, fun hd => .inl (by simpa [emitInst, Inst.isData] using hd)⟩
    unfold nextItem
    refine (bind_ok h1).trans ?_
    refine (bind_ok (sym_ok (p := { p with lex := lex', st := st' }) h2)).trans ?_
    rfl
  induction h with
  | @one w hb hd =>
    intro n p lex' text hw ht hp hs hk hn
    obtain ⟨n, rfl⟩ : ∃ k, n = k + 1 := ⟨n - 1, by simp at hn; omega⟩
    cases hs with
    | @more _ _ _ t1 lex1 _ hc1 hn1 hs =>
      cases hs
      obtain ⟨p', h1, h2, h3⟩ := one hw hb hd hc1 hn1 (by rcases hk with h | h | h <;> rw [h] <;> decide)
      refine ⟨p', p', h1, by rw [h2]; exact (scans_tame (.more hc1 hn1 .done) ht hp).1, ?_, h2, h3⟩
      unfold commaLoop
      refine (token_bind _ p').trans ?_
      rw [if_neg (by rw [h2]; rcases hk with h | h | h <;> rw [h] <;> decide)]
      rfl
  | @more w l ss hb hd _ ih =>
    intro n p lex' text hw ht hp hs hk hn
    obtain ⟨n, rfl⟩ : ∃ k, n = k + 1 := ⟨n - 1, by simp at hn; omega⟩
    cases hs with
    | @more _ _ _ t1 lex1 _ hc1 hn1 hs =>
      cases hs with
      | @more _ _ _ t2 lex2 _ hc2 hn2 hs =>
        have hT := scans_tame (.more hc1 hn1 (.more hc2 hn2 .done)) ht hp
        have hc2 : lex1.token = .ch ',' := hc2
        obtain ⟨p1, h1, h2, h3⟩ := one hw hb hd hc1 hn1 (by rw [hc2]; decide)
        obtain ⟨p3, p2, k1, _, k1', k2, k3⟩ := ih (n := n) (p := { p1 with lex := lex2 }) h3.names hT.1 hT.2 hs hk (by simp only [List.length_cons] at hn; omega)
        refine ⟨p1, p2, h1, by rw [h2]; exact (scans_tame (.more hc1 hn1 .done) ht hp).1, ?_, k2, h3.append k3.moved⟩
        conv => lhs; unfold commaLoop
        refine (token_bind _ p1).trans ?_
        rw [if_pos (by rw [h2]; exact hc2)]
        refine (bind_ok (next_ok (lex' := lex2) (t := t2) (by rw [h2]; exact hn2))).trans ?_
        exact (bind_ok k1).trans k1'

theorem names_no_eol {l : List Lexeme} {ss : List Src.Stmt} (h : Src.Names l ss) : ∀ a ∈ l, a ≠ opTok '\n' := by
  induction h with
  | one => intro a ha; simp at ha; subst ha; intro h; cases h
  | more _ _ _ ih =>
    intro a ha
    simp only [List.mem_cons] at ha
    rcases ha with rfl | rfl | ha
    · intro h; cases h
    · decide
    · exact ih a ha

theorem names_head {l : List Lexeme} {ss : List Src.Stmt} (h : Src.Names l ss) : ∃ w l', l = .name w :: l' := by
  cases h <;> exact ⟨_, _, rfl⟩

/-- The start of a FOR statement. -/
theorem for_put {p : Parser} {w : CStr} {l : List Lexeme} {a : Expr .num} {l' : List Lexeme} {b : Expr .num} {lex' : Lex} (hw : WellNamed p.st)
    (hb : LB.builtin w = none) (hd : w.getLast? ≠ some '$') (h1 : Phrase .or l a) (h2 : Phrase .or l' b)
    {text : CStr} (ht : p.lex.text = some text) (hp : p.lex.pos ≤ text.length)
    (hs : Scans p.lex (Src.kw .FOR :: .name w :: opTok '=' :: (l ++ Src.kw .TO :: l')) lex') (hk : ¬ Continues lex'.token) :
    ∃ p' q c d id, p'.lex = lex' ∧ p'.ifThen = p.ifThen ∧ p'.bcode = { p.bcode with inst := p.bcode.inst ++ (c ++ d) } ∧ Postfix p'.st a c ∧ Postfix p'.st b d ∧
      (∃ s : Symbol, p'.st.psym[q]? = some s ∧ s.kind = .variable ∧ s.type = .num ∧ SameIgnoringCase s.name w ∧ s.id = id) ∧
      WellNamed p'.st ∧ Grows p.st p'.st ∧ (∀ {fs : List CStr}, Added fs (a.vars + b.vars + 1) p.st p'.st) ∧
      ∀ x p'', (do
        let t ← token
        if t = .kw .STEP then
          let _ ← next
          numericExpression expression
        else emit (.pushNum (.fin 1))
        let s ← sym q
        emit (.for_ s.id) : P Unit) p' = .ok x p'' → forStatement p = .ok x p'' := by
  cases hs with
  | @more _ _ _ t1 lex1 _ hc1 hn1 hs =>
    cases hs with
    | @more _ _ _ t2 lex2 _ hc2 hn2 hs =>
      cases hs with
      | @more _ _ _ t3 lex3 _ hc3 hn3 hs =>
        obtain ⟨lex4, hs1, hs2⟩ := hs.split
        cases hs2 with
        | @more _ _ _ t5 lex5 _ hc5 hn5 hs2 =>
          have hT3 := scans_tame (.more hc1 hn1 (.more hc2 hn2 (.more hc3 hn3 .done))) ht hp
          have hT5 := scans_tame (.more hc5 hn5 .done) (scans_tame hs1 hT3.1 hT3.2).1 (scans_tame hs1 hT3.1 hT3.2).2
          have hc1 : p.lex.token = .kw .FOR := hc1
          have hc3 : lex2.token = .ch '=' := hc3
          have hc5 : lex4.token = .kw .TO := hc5
          obtain ⟨q, st', s, i1, i2, i3, i4, i5, i6, i7, i8⟩ := numericSimpleVariable_name (expr := expression) (p := { p with lex := lex1 }) hw hb hd hc2 hn2 (by rw [hc3]; decide)
          obtain ⟨p1, j1, j2⟩ := numericExpression_put (p := { p with lex := lex3, st := st' }) i6 h1 hT3.1 hT3.2 hs1 (by rw [hc5]; decide)
          obtain ⟨p2, k1, k2⟩ := numericExpression_put (p := { p1 with lex := lex5 }) j2.names h2 hT5.1 hT5.2 hs2 hk
          obtain ⟨c, m1, m2⟩ := j2.code
          obtain ⟨d, n1, n2⟩ := k2.code
          obtain ⟨s1, g1, g2, g3, g4, g5⟩ := j2.grows.trans k2.grows q s i2
          have g6 : s1.kind = .variable := by
            rcases g5 with g5 | ⟨g5, _⟩
            · exact g5.trans i4
            · rw [i4] at g5; cases g5
          refine ⟨p2, q, c, d, s1.id, k2.lex, k2.ifThen.trans j2.ifThen, ?_, m2.grow k2.grows, n2, ⟨s1, g1, g6, g3.trans i5, g4 ▸ i3, rfl⟩, k2.names,
            (i7.trans j2.grows).trans k2.grows, ?_, ?_⟩
          · rw [n1]; simp [m1]
          · intro fs
            have := ((i8 (fs := fs)).trans j2.added).trans k2.added
            rwa [show 1 + a.vars + b.vars = a.vars + b.vars + 1 by omega] at this
          · intro x p'' h
            unfold forStatement
            refine (bind_ok (matchTok_ok hc1 hn1)).trans ?_
            refine (bind_ok i1).trans ?_
            refine (bind_ok (matchTok_ok (p := { p with lex := lex2, st := st' }) hc3 hn3)).trans ?_
            refine (bind_ok j1).trans ?_
            refine (bind_ok (matchTok_ok (k := .kw .TO) (t := t5) (lex' := lex5) (by rw [j2.lex]; exact hc5) (by rw [j2.lex]; exact hn5))).trans ?_
            refine (bind_ok k1).trans ?_
            exact h

theorem phrase_eos {p : Parser} {v : Level} {l : List Lexeme} {t : Ty} {e : Expr t} {lex' : Lex} (h : Phrase v l e) (hs : Scans p.lex l lex') : eos p = .ok false p := by
  obtain ⟨a, l', rfl, ha⟩ := phrase_first h
  have hc := scans_current hs
  rw [eos_apply]
  have key : p.lex.token ∈ [Tok.num, .str, .id, .ch '(', .ch '-', .kw .NOT] := by
    rcases ha with ⟨x, rfl⟩ | ⟨x, rfl⟩ | ⟨x, rfl⟩ | rfl | rfl | rfl
    · simp [hc.1]
    · simp [hc.1]
    · simp [hc.1]
    · simp [show p.lex.token = .ch '(' from hc]
    · simp [show p.lex.token = .ch '-' from hc]
    · simp [show p.lex.token = .kw .NOT from hc]
  generalize p.lex.token = k at key
  simp only [List.mem_cons, List.not_mem_nil, or_false] at key
  rcases key with rfl | rfl | rfl | rfl | rfl | rfl <;> rfl

/-- Statements other than IF. -/
theorem simple_put {p : Parser} {l : List Lexeme} {ss : List Src.Stmt} {lex' : Lex} (h : Src.Simple l ss) (hw : WellNamed p.st) (hno : Proper fs p.st ss) {text : CStr}
    (ht : p.lex.text = some text) (hp : p.lex.pos ≤ text.length) (hs : Scans p.lex l lex') (hk : EndTok lex'.token) (he : l = [] → lex'.token ≠ .kw .ELSE) :
    ∃ p', statementBody p.lex.token p = .ok false p' ∧ p'.lex = lex' ∧ PutS fs p ss p' := by
  cases h with
  | empty =>
    cases hs
    refine ⟨p, ?_, rfl, PutS.refl hw⟩
    rcases hk with h | h | h
    · rw [h]; rfl
    · rw [h]; rfl
    · exact absurd h (he rfl)
  | @letKw l s h =>
    have hT := fun lex1 t h => scans_tame (.more (t := t) (lex' := lex1) (scans_current hs) h .done) ht hp
    cases hs with
    | @more _ _ _ t1 lex1 _ hc1 hn1 hs =>
      have hT := hT _ _ hn1
      have hc1 : p.lex.token = .kw .LET := hc1
      obtain ⟨p', h1, h2, h3⟩ := assignment_put (p := { p with lex := lex1 }) h hw hno hT.1 hT.2 hs hk.continues
      refine ⟨p', ?_, h2, h3.moved⟩
      rw [hc1]
      refine plain_ok ?_
      unfold letStatement
      exact (bind_ok (matchTok_ok hc1 hn1)).trans h1
  | @assign l s h =>
    obtain ⟨p', h1, h2, h3⟩ := assignment_put h hw hno ht hp hs hk.continues
    refine ⟨p', ?_, h2, h3⟩
    have hc : p.lex.token = .id := by
      cases h with
      | num | str => exact (scans_current hs).1
      | elem h => obtain ⟨l', rfl⟩ := element_head h; exact (scans_current hs).1
    rw [hc]
    exact plain_ok h1
  | print h =>
    obtain ⟨p', h1, h2, h3⟩ := printStatement_put h (.inl rfl) hw ht hp hs hk
    refine ⟨p', ?_, h2, h3⟩
    rw [show p.lex.token = .kw .PRINT from scans_current hs]
    exact plain_ok h1
  | query h =>
    obtain ⟨p', h1, h2, h3⟩ := printStatement_put h (.inr rfl) hw ht hp hs hk
    refine ⟨p', ?_, h2, h3⟩
    rw [show p.lex.token = .ch '?' from scans_current hs]
    exact plain_ok h1
  | @goto n g1 g2 =>
    cases hs with
    | @more _ _ _ t1 lex1 _ hc1 hn1 hs =>
      cases hs with
      | @more _ _ _ t2 lex2 _ hc2 hn2 hs =>
        cases hs
        have hc1 : p.lex.token = .kw .GOTO := hc1
        refine ⟨{ p with lex := lex', bcode := emitInst p.bcode (.goto_ n) }, ?_, rfl, PutS.simple hw .goto _⟩
        rw [hc1]
        refine plain_ok ?_
        unfold gotoStatement
        refine (bind_ok (matchTok_ok hc1 hn1)).trans ?_
        refine (bind_ok (lineNumber_ok (p := { p with lex := lex1 }) g1 g2 hc2 hn2)).trans ?_
        rfl
  | @gosub n g1 g2 =>
    cases hs with
    | @more _ _ _ t1 lex1 _ hc1 hn1 hs =>
      cases hs with
      | @more _ _ _ t2 lex2 _ hc2 hn2 hs =>
        cases hs
        have hc1 : p.lex.token = .kw .GOSUB := hc1
        refine ⟨{ p with lex := lex', bcode := emitInst p.bcode (.gosub n) }, ?_, rfl, PutS.simple hw .gosub _⟩
        rw [hc1]
        refine plain_ok ?_
        unfold gosubStatement
        refine (bind_ok (matchTok_ok hc1 hn1)).trans ?_
        refine (bind_ok (lineNumber_ok (p := { p with lex := lex1 }) g1 g2 hc2 hn2)).trans ?_
        rfl
  | ret =>
    cases hs with
    | @more _ _ _ t1 lex1 _ hc1 hn1 hs =>
      cases hs
      have hc1 : p.lex.token = .kw .RETURN := hc1
      refine ⟨_, ?_, rfl, PutS.simple hw .ret lex'⟩
      rw [hc1]
      exact plain_ok ((bind_ok (matchTok_ok hc1 hn1)).trans rfl)
  | end_ =>
    cases hs with
    | @more _ _ _ t1 lex1 _ hc1 hn1 hs =>
      cases hs
      have hc1 : p.lex.token = .kw .END := hc1
      refine ⟨_, ?_, rfl, PutS.simple hw .end_ lex'⟩
      rw [hc1]
      exact plain_ok ((bind_ok (matchTok_ok hc1 hn1)).trans rfl)
  | stop =>
    cases hs with
    | @more _ _ _ t1 lex1 _ hc1 hn1 hs =>
      cases hs
      have hc1 : p.lex.token = .kw .STOP := hc1
      refine ⟨_, ?_, rfl, PutS.simple hw .stop lex'⟩
      rw [hc1]
      exact plain_ok ((bind_ok (matchTok_ok hc1 hn1)).trans rfl)
  | nextAny =>
    cases hs with
    | @more _ _ _ t1 lex1 _ hc1 hn1 hs =>
      cases hs
      have hc1 : p.lex.token = .kw .NEXT := hc1
      refine ⟨_, ?_, rfl, PutS.simple hw .nextAny lex'⟩
      rw [hc1]
      refine plain_ok ?_
      unfold nextStatement
      refine (bind_ok (matchTok_ok hc1 hn1)).trans ?_
      refine (token_bind _ _).trans ?_
      rw [if_neg (by show lex'.token ≠ _; rcases hk with h | h | h <;> rw [h] <;> decide)]
      rfl
  | next h =>
    have hT := fun lex1 t h => scans_tame (.more (t := t) (lex' := lex1) (scans_current hs) h .done) ht hp
    cases hs with
    | @more _ _ _ t1 lex1 _ hc1 hn1 hs =>
      have hT := hT _ _ hn1
      have hc1 : p.lex.token = .kw .NEXT := hc1
      obtain ⟨w, l', rfl⟩ := names_head h
      have hlen := (scans_length hs hT.1 hT.2 (names_no_eol h)).1
      obtain ⟨p1, p', h1, h1', h1'', h2, h3⟩ := names_put h (n := text.length + 2) (p := { p with lex := lex1 }) hw hT.1 hT.2 hs hk (by omega)
      refine ⟨p', ?_, h2, h3.moved⟩
      rw [hc1]
      refine plain_ok ?_
      unfold nextStatement
      refine (bind_ok (matchTok_ok hc1 hn1)).trans ?_
      refine (token_bind _ _).trans ?_
      rw [if_pos (show lex1.token = .id from (scans_current hs).1)]
      refine (bind_ok h1).trans ?_
      exact (bind_ok (fuel_ok h1')).trans h1''
  | @for_ w l a l' b hb hd h1 h2 =>
    obtain ⟨p1, q, c, d, id, k1, k2, k3, k4, k5, ⟨s, k6, k7, k8, k9, k10⟩, k11, k12, k13, k14⟩ := for_put hw hb hd h1 h2 ht hp hs hk.continues
    refine ⟨{ p1 with bcode := emitInst (emitInst p1.bcode (.pushNum (.fin 1))) (.for_ id) }, ?_, k1, k2, ⟨c ++ d ++ [.pushNum (.fin 1)] ++ [.for_ id], ?_,
      .one (.for_ k4 k5 .num ⟨q, s, k6, k9, k7, k8, k10⟩)⟩, k11, k12, ?_, fun hd => .inl (by simpa [emitInst, Inst.isData, k3] using hd)⟩
    · rw [show p.lex.token = .kw .FOR from scans_current hs]
      refine plain_ok (k14 _ _ ?_)
      refine (token_bind _ _).trans ?_
      rw [if_neg (by rw [k1]; rcases hk with h | h | h <;> rw [h] <;> decide)]
      refine (bind_ok (x := emit (.pushNum (.fin 1))) (p := p1) rfl).trans ?_
      refine (bind_ok (sym_ok (p := { p1 with bcode := emitInst p1.bcode (.pushNum (.fin 1)) }) k6)).trans ?_
      rw [k10]
      rfl
    · simp [emitInst, Inst.isData, k3]
    · simpa [Src.lineVars, Src.Stmt.vars, Expr.vars] using k13
  | @forStep w l a l' b l'' s0 hb hd h1 h2 h3 =>
    rw [show (Src.kw .FOR :: Lexeme.name w :: opTok '=' :: (l ++ Src.kw .TO :: (l' ++ Src.kw .STEP :: l''))) =
      (Src.kw .FOR :: Lexeme.name w :: opTok '=' :: (l ++ Src.kw .TO :: l')) ++ (Src.kw .STEP :: l'') by simp] at hs
    obtain ⟨lex1, hs1, hs2⟩ := hs.split
    have hT1 := scans_tame hs1 ht hp
    cases hs2 with
    | @more _ _ _ t2 lex2 _ hc2 hn2 hs2 =>
      have hT2 := scans_tame (.more hc2 hn2 .done) hT1.1 hT1.2
      have hc2 : lex1.token = .kw .STEP := hc2
      obtain ⟨p1, q, c, d, id, k1, k2, k3, k4, k5, ⟨s, k6, k7, k8, k9, k10⟩, k11, k12, k13, k14⟩ := for_put hw hb hd h1 h2 ht hp hs1 (by rw [hc2]; decide)
      obtain ⟨p2, j1, j2⟩ := numericExpression_put (p := { p1 with lex := lex2 }) k11 h3 hT2.1 hT2.2 hs2 hk.continues
      obtain ⟨f, m1, m2⟩ := j2.code
      obtain ⟨s1, g1, g2, g3, g4, g5⟩ := j2.grows q s k6
      have g6 : s1.kind = .variable := by
        rcases g5 with g5 | ⟨g5, _⟩
        · exact g5.trans k7
        · rw [k7] at g5; cases g5
      refine ⟨{ p2 with bcode := emitInst p2.bcode (.for_ s1.id) }, ?_, j2.lex, j2.ifThen.trans k2, ⟨c ++ d ++ f ++ [.for_ s1.id], ?_,
        .one (.for_ (k4.grow j2.grows) (k5.grow j2.grows) m2 ⟨q, s1, g1, g4 ▸ k9, g6, g3.trans k8, rfl⟩)⟩, j2.names, k12.trans j2.grows, ?_, fun hd => .inl (by simpa [emitInst, Inst.isData, m1, k3] using hd)⟩
      · rw [show p.lex.token = .kw .FOR from scans_current hs1]
        refine plain_ok (k14 _ _ ?_)
        refine (token_bind _ _).trans ?_
        rw [if_pos (by rw [k1]; exact hc2)]
        refine (bind_ok (next_ok (t := t2) (lex' := lex2) (by rw [k1]; exact hn2))).trans ?_
        refine (bind_ok j1).trans ?_
        refine (bind_ok (sym_ok g1)).trans ?_
        rfl
      · simp [emitInst, Inst.isData, m1, k3]
      · have := (k13 (fs := fs)).trans j2.added
        simp only [Src.lineVars, Src.Stmt.vars, List.map_cons, List.map_nil, List.sum_cons, List.sum_nil]
        exact this.mono (by omega)
  | onGoto h h' =>
    obtain ⟨p', h1, h2, h3⟩ := onStatement_put (g := false) h h' hw ht hp hs hk
    refine ⟨p', ?_, h2, h3⟩
    rw [show p.lex.token = .kw .ON from scans_current hs]
    exact plain_ok h1
  | onGosub h h' =>
    obtain ⟨p', h1, h2, h3⟩ := onStatement_put (g := true) h h' hw ht hp hs hk
    refine ⟨p', ?_, h2, h3⟩
    rw [show p.lex.token = .kw .ON from scans_current hs]
    exact plain_ok h1
  | data =>
    cases hs with
    | @more _ _ _ t1 lex1 _ hc1 hn1 hs =>
      cases hs
      have hc1 : p.lex.token = .kw .DATA := hc1
      obtain ⟨p', h1, h2, h3⟩ := dataStatement_put hw ht hp hn1
      refine ⟨p', ?_, h2, h3⟩
      rw [hc1]
      exact plain_ok h1
  | read h =>
    have hT := fun lex1 t h => scans_tame (.more (t := t) (lex' := lex1) (scans_current hs) h .done) ht hp
    cases hs with
    | @more _ _ _ t1 lex1 _ hc1 hn1 hs =>
      have hT := hT _ _ hn1
      have hc1 : p.lex.token = .kw .READ := hc1
      have hlen := (scans_length hs hT.1 hT.2 (commas_no_eol target_no_eol (targets_commas h))).1
      obtain ⟨p1, p', h1, h1', h1'', h2, h3⟩ := commas_put (item := readItem) (fun h => by obtain ⟨_, _, rfl⟩ := target_head h; simp) target_put (targets_commas h) (n := text.length + 2) (p := { p with lex := lex1 }) hw hno hT.1 hT.2 hs hk (by omega)
      refine ⟨p', ?_, h2, h3.moved⟩
      rw [hc1]
      refine plain_ok ?_
      unfold readStatement
      refine (bind_ok (matchTok_ok hc1 hn1)).trans ?_
      refine (bind_ok h1).trans ?_
      exact (bind_ok (fuel_ok h1')).trans h1''
  | dim h =>
    have hT := fun lex1 t h => scans_tame (.more (t := t) (lex' := lex1) (scans_current hs) h .done) ht hp
    cases hs with
    | @more _ _ _ t1 lex1 _ hc1 hn1 hs =>
      have hT := hT _ _ hn1
      have hc1 : p.lex.token = .kw .DIM := hc1
      have hlen := (scans_length hs hT.1 hT.2 (commas_no_eol (fun h => by obtain ⟨_, _, h, _⟩ := h; exact element_no_eol h) (dims_commas h))).1
      obtain ⟨p1, p', h1, h1', h1'', h2, h3⟩ := commas_put (item := dimArray) (fun h => by obtain ⟨_, _, h, _⟩ := h; obtain ⟨_, rfl⟩ := element_head h; simp)
        (fun h hw hd ht hp hs _ => dim_put h hw hd ht hp hs) (dims_commas h) (n := text.length + 2) (p := { p with lex := lex1 }) hw hno hT.1 hT.2 hs hk (by omega)
      refine ⟨p', ?_, h2, h3.moved⟩
      rw [hc1]
      refine plain_ok ?_
      unfold dimStatement
      refine (bind_ok (matchTok_ok hc1 hn1)).trans ?_
      refine (bind_ok h1).trans ?_
      exact (bind_ok (fuel_ok h1')).trans h1''
  | restore =>
    cases hs with
    | @more _ _ _ t1 lex1 _ hc1 hn1 hs =>
      cases hs
      have hc1 : p.lex.token = .kw .RESTORE := hc1
      refine ⟨_, ?_, rfl, PutS.simple hw .restore lex'⟩
      rw [hc1]
      refine plain_ok ?_
      unfold restoreStatement
      refine (bind_ok (matchTok_ok hc1 hn1)).trans ?_
      refine (token_bind _ _).trans ?_
      rw [if_neg (by show lex'.token ≠ _; rcases hk with h | h | h <;> rw [h] <;> decide)]
      rfl
  | @restoreLine n g1 g2 =>
    cases hs with
    | @more _ _ _ t1 lex1 _ hc1 hn1 hs =>
      cases hs with
      | @more _ _ _ t2 lex2 _ hc2 hn2 hs =>
        cases hs
        have hc1 : p.lex.token = .kw .RESTORE := hc1
        refine ⟨{ p with lex := lex', bcode := emitInst p.bcode (.restoreLine n) }, ?_, rfl, PutS.simple hw .restoreLine _⟩
        rw [hc1]
        refine plain_ok ?_
        unfold restoreStatement
        refine (bind_ok (matchTok_ok hc1 hn1)).trans ?_
        refine (token_bind _ _).trans ?_
        rw [if_pos hc2.1]
        refine (bind_ok (lineNumber_ok (p := { p with lex := lex1 }) g1 g2 hc2 hn2)).trans ?_
        rfl
  | input h h' =>
    obtain ⟨p', h1, h2, h3⟩ := inputStatement_put h h' hw hno ht hp hs hk
    refine ⟨p', ?_, h2, h3⟩
    rw [show p.lex.token = .kw .INPUT from scans_current hs]
    exact plain_ok h1
  | lineInputElem h hE hl =>
    obtain ⟨p', h1, h2, h3⟩ := lineInputElem_put h hE hl hw hno ht hp hs
    refine ⟨p', ?_, h2, h3⟩
    rw [show p.lex.token = .kw .LINE from scans_current hs]
    exact plain_ok h1
  | lineInput h hb hd =>
    obtain ⟨p', h1, h2, h3⟩ := lineInputStatement_put h hb hd hw hs hk
    refine ⟨p', ?_, h2, h3⟩
    rw [show p.lex.token = .kw .LINE from scans_current hs]
    exact plain_ok h1
  | cls =>
    cases hs with
    | @more _ _ _ t1 lex1 _ hc1 hn1 hs =>
      cases hs
      have hc1 : p.lex.token = .kw .CLS := hc1
      refine ⟨_, ?_, rfl, PutS.simple hw .cls lex'⟩
      rw [hc1]
      exact plain_ok ((bind_ok (matchTok_ok hc1 hn1)).trans rfl)
  | clear =>
    cases hs with
    | @more _ _ _ t1 lex1 _ hc1 hn1 hs =>
      cases hs
      have hc1 : p.lex.token = .kw .CLEAR := hc1
      refine ⟨_, ?_, rfl, PutS.simple hw .clear lex'⟩
      rw [hc1]
      exact plain_ok ((bind_ok (matchTok_ok hc1 hn1)).trans rfl)
  | randomize =>
    cases hs with
    | @more _ _ _ t1 lex1 _ hc1 hn1 hs =>
      cases hs
      have hc1 : p.lex.token = .kw .RANDOMIZE := hc1
      refine ⟨_, ?_, rfl, PutS.simple hw .randomize lex'⟩
      rw [hc1]
      refine plain_ok ?_
      unfold randomizeStatement
      refine (bind_ok (matchTok_ok hc1 hn1)).trans ?_
      refine (bind_ok (EndTok.eos (p := { p with lex := lex' }) hk)).trans ?_
      rfl
  | @seed l e h =>
    have hT := fun lex1 t h => scans_tame (.more (t := t) (lex' := lex1) (scans_current hs) h .done) ht hp
    cases hs with
    | @more _ _ _ t1 lex1 _ hc1 hn1 hs =>
      have hT := hT _ _ hn1
      have hc1 : p.lex.token = .kw .RANDOMIZE := hc1
      obtain ⟨p1, k1, k2⟩ := numericExpression_put (p := { p with lex := lex1 }) hw h hT.1 hT.2 hs hk.continues
      obtain ⟨c, m1, m2⟩ := k2.code
      refine ⟨{ p1 with bcode := emitInst p1.bcode .seed }, ?_, k2.lex, k2.ifThen, ⟨c ++ [.seed], by simp [emitInst, m1], .one (.seed m2)⟩, k2.names, k2.grows, ?_, fun hd => .inl (by simpa [emitInst, Inst.isData, m1] using hd)⟩
      · rw [hc1]
        refine plain_ok ?_
        unfold randomizeStatement
        refine (bind_ok (matchTok_ok hc1 hn1)).trans ?_
        refine (bind_ok (phrase_eos (p := { p with lex := lex1 }) h hs)).trans ?_
        exact (bind_ok k1).trans rfl
      · have := k2.added (fs := fs)
        simpa [Src.lineVars, Src.Stmt.vars] using this
  | def_ hb hb' hx h =>
    obtain ⟨p', h1, h2, h3⟩ := defStatement_put hb hb' hx h hw hno ht hp hs hk.continues
    refine ⟨p', ?_, h2, h3⟩
    rw [show p.lex.token = .kw .DEF from scans_current hs]
    exact plain_ok h1

/-- Statements were read, and their code was appended; an IF statement may have been among them. -/
structure PutL (fs : List CStr) (p : Parser) (ss : List Src.Stmt) (p' : Parser) : Prop where
  code : ∃ c, p'.bcode.inst = p.bcode.inst ++ c ∧ StmtsCode p'.st ss c
  names : WellNamed p'.st
  grows : Grows p.st p'.st
  added : Added fs (Src.lineVars ss) p.st p'.st
  data : p'.bcode.hasData = true → p.bcode.hasData = true ∨ Src.dataOf ss ≠ []

theorem PutL.moved {p p' : Parser} {lex1 : Lex} {ss : List Src.Stmt} (h : PutL fs { p with lex := lex1 } ss p') : PutL fs p ss p' :=
  ⟨h.code, h.names, h.grows, h.added, h.data⟩

theorem PutL.moved' {p p' : Parser} {lex1 : Lex} {ss : List Src.Stmt} (h : PutL fs p ss p') : PutL fs p ss { p' with lex := lex1 } :=
  ⟨h.code, h.names, h.grows, h.added, h.data⟩

theorem _root_.LB.PutS.line {p p' : Parser} {ss : List Src.Stmt} (h : PutS fs p ss p') : PutL fs p ss p' := ⟨h.code, h.names, h.grows, h.added, h.data⟩

theorem PutL.append {p p1 p2 : Parser} {ss ss' : List Src.Stmt} (h : PutL fs p ss p1) (k : PutL fs p1 ss' p2) : PutL fs p (ss ++ ss') p2 := by
  obtain ⟨c, h1, h2⟩ := h.code
  obtain ⟨d, k1, k2⟩ := k.code
  refine ⟨⟨c ++ d, by rw [k1, h1]; simp, (h2.grow k.grows).append k2⟩, k.names, h.grows.trans k.grows, ?_, data_append h.data k.data⟩
  have := h.added.trans k.added
  rwa [show Src.lineVars ss + Src.lineVars ss' = Src.lineVars (ss ++ ss') by simp [Src.lineVars]] at this

/-- The lexer stands at the first of these tokens and comes to the last of them. -/
def From (lex : Lex) : List Lexeme → Lex → Prop
  | [], _ => False
  | a :: l, lex' => Spec.Current lex a ∧ Lexes a lex l lex'

theorem From.split {l : List Lexeme} {k : Lexeme} {l' : List Lexeme} {lex' : Lex} : ∀ {lex : Lex}, From lex (l ++ k :: l') lex' →
    ∃ lex1, Scans lex l lex1 ∧ From lex1 (k :: l') lex' := by
  induction l with
  | nil => exact fun {lex} h => ⟨lex, .done, h⟩
  | cons a l ih =>
    intro lex h
    obtain ⟨h1, h2⟩ := h
    cases l with
    | nil =>
      cases h2 with
      | more h3 h4 h5 => exact ⟨_, .more h1 h3 .done, h4, h5⟩
    | cons b l =>
      cases h2 with
      | more h3 h4 h5 =>
        obtain ⟨lex1, k1, k2⟩ := ih ⟨h4, h5⟩
        exact ⟨lex1, .more h1 h3 k1, k2⟩

theorem From.next {a b : Lexeme} {l : List Lexeme} {lex lex' : Lex} (h : From lex (a :: b :: l) lex') :
    Spec.Current lex a ∧ ∃ t lex1, Moves a lex t lex1 ∧ From lex1 (b :: l) lex' := by
  obtain ⟨h1, h2⟩ := h
  cases h2 with
  | more h3 h4 h5 => exact ⟨h1, _, _, h3, h4, h5⟩

/-- How a statement can start. -/
def FirstTok (t : Tok) : Prop := t ≠ .num ∧ t ≠ .kw .ELSE

theorem simple_first {l : List Lexeme} {ss : List Src.Stmt} (h : Src.Simple l ss) {lex : Lex} {a : Lexeme} (ha : l.head? = some a) (hc : Spec.Current lex a) :
    FirstTok lex.token := by
  have op : ∀ {t}, a = .op t → FirstTok t → FirstTok lex.token := by
    rintro t rfl h
    rw [show lex.token = t from hc]; exact h
  cases h with
  | empty => cases ha
  | assign h =>
    cases h with
    | num | str => cases ha; rw [show lex.token = _ from hc.1]; exact ⟨by decide, by decide⟩
    | elem h => obtain ⟨l', rfl⟩ := element_head h; cases ha; rw [show lex.token = _ from hc.1]; exact ⟨by decide, by decide⟩
  | letKw | print | query | goto | gosub | ret | for_ | forStep | nextAny | next | end_ | stop | onGoto | onGosub | read | dim | restore | restoreLine
  | input | lineInput | lineInputElem | cls | clear | randomize | seed | def_ =>
    cases ha; exact op rfl ⟨by decide, by decide⟩
  | data =>
    cases ha
    rw [show lex.token = .kw .DATA from hc]; exact ⟨by decide, by decide⟩

theorem sentence_first {l : List Lexeme} {ss : List Src.Stmt} (h : Src.Sentence l ss) {lex : Lex} {a : Lexeme} (ha : l.head? = some a) (hc : Spec.Current lex a) :
    FirstTok lex.token := by
  cases h with
  | simple h => exact simple_first h ha hc
  | ifGoto | ifGotoElse =>
    cases ha
    rw [show lex.token = .kw .IF from hc]; exact ⟨by decide, by decide⟩

theorem block_first {l : List Lexeme} {ss : List Src.Stmt} (h : Src.Block l ss) {lex lex' : Lex} (hs : Scans lex l lex') :
    FirstTok lex.token := by
  cases h with
  | last h hn =>
    cases l with
    | nil => exact absurd rfl hn
    | cons a l => exact simple_first h rfl (scans_current hs)
  | @colon l _ _ _ h _ =>
    cases l with
    | nil => rw [show lex.token = .ch ':' from scans_current hs]; exact ⟨by decide, by decide⟩
    | cons a l => exact simple_first h rfl (scans_current hs)

theorem clauses_first {l : List Lexeme} {ss : List Src.Stmt} (h : Src.Clauses l ss) {lex lex' : Lex} (hs : From lex l lex') : FirstTok lex.token := by
  cases h with
  | @last l _ h =>
    cases l with
    | nil => rw [show lex.token = .ch '\n' from hs.1]; exact ⟨by decide, by decide⟩
    | cons a l => exact sentence_first h rfl hs.1
  | @colon l _ _ _ h _ =>
    cases l with
    | nil => rw [show lex.token = .ch ':' from hs.1]; exact ⟨by decide, by decide⟩
    | cons a l => exact sentence_first h rfl hs.1
  | rem => rw [show lex.token = .kw .REM from hs.1]; exact ⟨by decide, by decide⟩
  | ifThen | ifElse => rw [show lex.token = .kw .IF from hs.1]; exact ⟨by decide, by decide⟩

theorem clauses_ne {l : List Lexeme} {ss : List Src.Stmt} (h : Src.Clauses l ss) : ∃ a l', l = a :: l' := by
  cases h with
  | @last l => cases l <;> exact ⟨_, _, rfl⟩
  | @colon l => cases l <;> exact ⟨_, _, rfl⟩
  | rem | ifThen | ifElse => exact ⟨_, _, rfl⟩

theorem statement_plain {p p' : Parser} {b : Bool} (h : statementBody p.lex.token p = .ok b p') (ht : p'.lex.token ≠ .kw .ELSE) : statement p = .ok b p' := by
  unfold statement
  refine (token_bind _ p).trans ?_
  refine (bind_ok h).trans ?_
  refine (token_bind _ p').trans ?_
  rw [if_neg ht]
  rfl

theorem statement_else {p p' : Parser} {b : Bool} (h : statementBody p.lex.token p = .ok b p') (ht : p'.lex.token = .kw .ELSE) : statement p = elseClause p' := by
  unfold statement
  refine (token_bind _ p).trans ?_
  refine (bind_ok h).trans ?_
  refine (token_bind _ p').trans ?_
  rw [if_pos ht]

/-- The condition of an IF statement. -/
theorem if_put {p : Parser} {l : List Lexeme} {e : Expr .num} {lex' : Lex} (h : Phrase .or l e) (hw : WellNamed p.st) {text : CStr}
    (ht : p.lex.text = some text) (hp : p.lex.pos ≤ text.length) (hs : Scans p.lex (Src.kw .IF :: (l ++ [Src.kw .THEN])) lex') :
    ∃ p' c, p'.lex = lex' ∧ p'.ifThen = p.ifThen ∧ p'.bcode = { p.bcode with inst := p.bcode.inst ++ c } ∧ Postfix p'.st e c ∧ WellNamed p'.st ∧
      Grows p.st p'.st ∧ (∀ {fs : List CStr}, Added fs e.vars p.st p'.st) ∧
      ifStatement p = (do
        let t ← token
        if t = .num then
          let l ← lineNumber
          emit (.gotrue l)
          setIfThen 0
          pure false
        else
          let i ← here
          emit .ifThen
          setIfThen i
          pure true : P Bool) p' := by
  cases hs with
  | @more _ _ _ t1 lex1 _ hc1 hn1 hs =>
    obtain ⟨lex2, hs1, hs2⟩ := hs.split
    have hT := scans_tame (.more hc1 hn1 .done) ht hp
    cases hs2 with
    | @more _ _ _ t3 lex3 _ hc3 hn3 hs3 =>
      cases hs3
      have hc1 : p.lex.token = .kw .IF := hc1
      have hc3 : lex2.token = .kw .THEN := hc3
      obtain ⟨p1, k1, k2⟩ := numericExpression_put (p := { p with lex := lex1 }) hw h hT.1 hT.2 hs1 (by rw [hc3]; decide)
      obtain ⟨c, m1, m2⟩ := k2.code
      refine ⟨{ p1 with lex := lex' }, c, rfl, k2.ifThen, m1, m2, k2.names, k2.grows, k2.added, ?_⟩
      unfold ifStatement
      refine (bind_ok (matchTok_ok hc1 hn1)).trans ?_
      refine (bind_ok k1).trans ?_
      refine (bind_ok (matchTok_ok (k := .kw .THEN) (t := t3) (lex' := lex') (by rw [k2.lex]; exact hc3) (by rw [k2.lex]; exact hn3))).trans ?_
      rfl

/-- A statement before a colon or the end of the line. -/
theorem sentence_put {p : Parser} {l : List Lexeme} {ss : List Src.Stmt} {lex' : Lex} (h : Src.Sentence l ss) (hw : WellNamed p.st) (hno : Proper fs p.st ss) {text : CStr}
    (ht : p.lex.text = some text) (hp : p.lex.pos ≤ text.length) (hs : Scans p.lex l lex') (hk : lex'.token = .ch '\n' ∨ lex'.token = .ch ':') :
    ∃ p', statement p = .ok false p' ∧ p'.lex = lex' ∧ PutL fs p ss p' := by
  have hE : lex'.token ≠ .kw .ELSE := by rcases hk with h | h <;> rw [h] <;> decide
  have hk' : EndTok lex'.token := by
    rcases hk with h | h
    · exact .inl h
    · exact .inr (.inl h)
  cases h with
  | simple h =>
    obtain ⟨p', h1, h2, h3⟩ := simple_put h hw hno ht hp hs hk' (fun _ => hE)
    exact ⟨p', statement_plain h1 (by rw [h2]; exact hE), h2, h3.line⟩
  | @ifGoto l e n he g1 g2 =>
    rw [show Src.kw .IF :: (l ++ [Src.kw .THEN, Src.lineNo n]) = (Src.kw .IF :: (l ++ [Src.kw .THEN])) ++ [Src.lineNo n] by simp] at hs
    obtain ⟨lex1, hs1, hs2⟩ := hs.split
    cases hs2 with
    | @more _ _ _ t2 lex2 _ hc2 hn2 hs2 =>
      cases hs2
      obtain ⟨p1, c, k1, k2, k3, k4, k5, k6, k7, k8⟩ := if_put he hw ht hp hs1
      refine ⟨{ p1 with lex := lex', bcode := emitInst p1.bcode (.gotrue n), ifThen := 0 }, statement_plain ?_ hE, rfl,
        ⟨c ++ [.gotrue n], by simp [emitInst, Inst.isData, k3], .one (.ifGoto k4)⟩, k5, k6, by simpa [Src.lineVars, Src.Stmt.vars] using k7, fun hd => .inl (by simpa [emitInst, Inst.isData, k3] using hd)⟩
      rw [show p.lex.token = .kw .IF from scans_current hs1]
      show ifStatement p = _
      rw [k8]
      refine (token_bind _ p1).trans ?_
      rw [if_pos (by rw [k1]; exact hc2.1)]
      refine (bind_ok (lineNumber_ok g1 g2 (by rw [k1]; exact hc2) (by rw [k1]; exact hn2))).trans ?_
      rfl
  | @ifGotoElse l e n m he g1 g2 g3 g4 =>
    rw [show Src.kw .IF :: (l ++ [Src.kw .THEN, Src.lineNo n, Src.kw .ELSE, Src.lineNo m]) = (Src.kw .IF :: (l ++ [Src.kw .THEN])) ++ [Src.lineNo n, Src.kw .ELSE, Src.lineNo m] by simp] at hs
    obtain ⟨lex1, hs1, hs2⟩ := hs.split
    cases hs2 with
    | @more _ _ _ t2 lex2 _ hc2 hn2 hs2 =>
      cases hs2 with
      | @more _ _ _ t3 lex3 _ hc3 hn3 hs2 =>
        cases hs2 with
        | @more _ _ _ t4 lex4 _ hc4 hn4 hs2 =>
          cases hs2
          have hc3 : lex2.token = .kw .ELSE := hc3
          obtain ⟨p1, c, k1, k2, k3, k4, k5, k6, k7, k8⟩ := if_put he hw ht hp hs1
          let p2 : Parser := { p1 with lex := lex2, bcode := emitInst p1.bcode (.gotrue n), ifThen := 0 }
          have hb : statementBody p.lex.token p = .ok false p2 := by
            rw [show p.lex.token = .kw .IF from scans_current hs1]
            show ifStatement p = _
            rw [k8]
            refine (token_bind _ p1).trans ?_
            rw [if_pos (by rw [k1]; exact hc2.1)]
            refine (bind_ok (lineNumber_ok g1 g2 (by rw [k1]; exact hc2) (by rw [k1]; exact hn2))).trans ?_
            rfl
          refine ⟨{ p2 with lex := lex', bcode := emitInst p2.bcode (.goto_ m) }, ?_, rfl,
            ⟨c ++ [.gotrue n] ++ [.goto_ m], by simp [p2, emitInst, Inst.isData, k3], .cons (.ifGoto k4) (.one .goto)⟩, k5, k6, by simpa [Src.lineVars, Src.Stmt.vars] using k7, fun hd => .inl (by simpa [p2, emitInst, Inst.isData, k3] using hd)⟩
          rw [statement_else hb hc3]
          unfold elseClause
          refine (bind_ok (x := getIfThen) (p := p2) rfl).trans ?_
          rw [if_pos (show p2.ifThen = 0 from rfl)]
          refine (bind_ok (x := latest) (p := p2) rfl).trans ?_
          rw [if_pos (by simp [p2, bcodeLatest, emitInst, isGotrue])]
          refine (bind_ok (matchTok_ok (p := p2) hc3 hn3)).trans ?_
          refine (bind_ok (lineNumber_ok (p := { p2 with lex := lex3 }) g3 g4 hc4 hn4)).trans ?_
          rfl

/-- The statements of a line, from one of them on. -/
def restOf (f n m : Nat) : P Unit := do
  completeStatement n
  colonLoop f m

theorem restOf_colon {f n m : Nat} {p p' : Parser} {t : Tok} {lex1 : Lex} (h : statement p = .ok false p') (hc : p'.lex.token = .ch ':') (hn : lexNext p'.lex = .ok (t, lex1)) :
    restOf f (n + 1) (m + 1) p = restOf f f m { p' with lex := lex1 } := by
  unfold restOf
  conv => lhs; unfold completeStatement
  refine (bind_ok (p' := p') (a := ()) ((bind_ok h).trans rfl)).trans ?_
  conv => lhs; unfold colonLoop
  refine (token_bind _ p').trans ?_
  rw [if_pos hc]
  exact bind_ok (next_ok hn)

theorem restOf_end {f n m : Nat} {p p' : Parser} (h : statement p = .ok false p') (hc : p'.lex.token = .ch '\n') : restOf f (n + 1) (m + 1) p = .ok () p' := by
  unfold restOf
  conv => lhs; unfold completeStatement
  refine (bind_ok (p' := p') (a := ()) ((bind_ok h).trans rfl)).trans ?_
  conv => lhs; unfold colonLoop
  refine (token_bind _ p').trans ?_
  rw [if_neg (by rw [hc]; decide)]
  rfl

theorem restOf_then {f n m : Nat} {p p' : Parser} (h : statement p = .ok true p') : restOf f (n + 1) m p = restOf f n m p' := by
  unfold restOf
  conv => lhs; unfold completeStatement
  rw [bind_apply, bind_apply, h]
  rfl

/-- The statements between THEN and ELSE. -/
theorem block_put {l : List Lexeme} {ss : List Src.Stmt} (h : Src.Block l ss) : ∀ {f n m r : Nat} {p : Parser} {lex' : Lex} {text : CStr}, WellNamed p.st → Proper fs p.st ss →
    p.lex.text = some text → p.lex.pos ≤ text.length → Scans p.lex l lex' → lex'.token = .kw .ELSE → l.length + r ≤ f → l.length + r ≤ n → l.length + r ≤ m →
    ∃ p' n' m', p'.lex = lex' ∧ PutS fs p ss p' ∧ r ≤ n' ∧ r ≤ m' ∧ ∀ p'', elseClause p' = .ok true p'' → restOf f n m p = restOf f n' m' p'' := by
  induction h with
  | @last l ss h hl =>
    intro f n m r p lex' text hw hno ht hp hs hk hf hn hm
    obtain ⟨n, rfl⟩ : ∃ k, n = k + 1 := ⟨n - 1, by cases l with | nil => exact absurd rfl hl | cons => simp at hn; omega⟩
    obtain ⟨p', h1, h2, h3⟩ := simple_put h hw hno ht hp hs (.inr (.inr hk)) (fun h => absurd h hl)
    refine ⟨p', n, m, h2, h3, ?_, by omega, fun p'' h4 => restOf_then (by rw [statement_else h1 (by rw [h2]; exact hk)]; exact h4)⟩
    cases l with
    | nil => exact absurd rfl hl
    | cons => simp at hn; omega
  | @colon l ss l' ss' h _ ih =>
    intro f n m r p lex' text hw hno ht hp hs hk hf hn hm
    obtain ⟨n, rfl⟩ : ∃ k, n = k + 1 := ⟨n - 1, by simp at hn; omega⟩
    obtain ⟨m, rfl⟩ : ∃ k, m = k + 1 := ⟨m - 1, by simp at hm; omega⟩
    obtain ⟨lex1, hs1, hs2⟩ := hs.split
    have hT1 := scans_tame hs1 ht hp
    cases hs2 with
    | @more _ _ _ t2 lex2 _ hc2 hn2 hs2 =>
      have hT2 := scans_tame (.more hc2 hn2 .done) hT1.1 hT1.2
      have hc2 : lex1.token = .ch ':' := hc2
      obtain ⟨p1, h1, h2, h3⟩ := simple_put h hw hno.left ht hp hs1 (.inr (.inl hc2)) (fun _ => by rw [hc2]; decide)
      simp only [List.length_append, List.length_cons] at hf hn hm
      obtain ⟨p2, n', m', k1, k2, k3, k4, k5⟩ := ih (f := f) (n := f) (m := m) (r := r) (p := { p1 with lex := lex2 }) h3.names (hno.right.add h3.added) hT2.1 hT2.2 hs2 hk (by omega) (by omega) (by omega)
      refine ⟨p2, n', m', k1, h3.append k2.moved, k3, k4, fun p'' h4 => ?_⟩
      rw [← k5 p'' h4]
      exact restOf_colon (t := t2) (lex1 := lex2) (statement_plain h1 (by rw [h2, hc2]; decide)) (by rw [h2]; exact hc2) (by rw [h2]; exact hn2)

theorem discard_left (lex : Lex) {text : CStr} (h : lex.text = some text) : Left (lexDiscard lex) [] :=
  ⟨text, h, by simp [lexDiscard, h], by simp [lexDiscard, h]⟩

/-- A line is compiled to the code of its statements. -/
theorem clauses_put {L : List Lexeme} {ss : List Src.Stmt} (h : Src.Clauses L ss) : ∀ {f n m : Nat} {p : Parser} {lex' : Lex} {text : CStr}, WellNamed p.st → Proper fs p.st ss →
    p.lex.text = some text → p.lex.pos ≤ text.length → From p.lex L lex' → (lex'.token = .ch '\n' → Left lex' []) → 1 ≤ p.bcode.inst.length →
    L.length ≤ f → L.length ≤ n → L.length ≤ m →
    ∃ p', restOf f n m p = .ok () p' ∧ p'.lex.token = .ch '\n' ∧ Left p'.lex [] ∧ (p'.lex = lex' ∨ p'.lex = lexDiscard lex') ∧ PutL fs p ss p' := by
  induction h with
  | @last l ss h =>
    intro f n m p lex' text hw hno ht hp hs hend hone hf hn hm
    obtain ⟨n, rfl⟩ : ∃ k, n = k + 1 := ⟨n - 1, by simp at hn; omega⟩
    obtain ⟨m, rfl⟩ : ∃ k, m = k + 1 := ⟨m - 1, by simp at hm; omega⟩
    obtain ⟨lex1, hs1, hs2⟩ := hs.split
    obtain ⟨hs2, hs3⟩ := hs2
    cases hs3
    have hs2 : lex'.token = .ch '\n' := hs2
    obtain ⟨p', h1, h2, h3⟩ := sentence_put h hw hno ht hp hs1 (.inl hs2)
    exact ⟨p', restOf_end h1 (by rw [h2]; exact hs2), by rw [h2]; exact hs2, by rw [h2]; exact hend hs2, .inl h2, h3⟩
  | rem =>
    intro f n m p lex' text hw hno ht hp hs hend hone hf hn hm
    obtain ⟨n, rfl⟩ : ∃ k, n = k + 1 := ⟨n - 1, by simp at hn; omega⟩
    obtain ⟨m, rfl⟩ : ∃ k, m = k + 1 := ⟨m - 1, by simp at hm; omega⟩
    obtain ⟨hs2, hs3⟩ := hs
    generalize he : p.lex = lx at hs3
    cases hs3
    subst he
    have hs2 : p.lex.token = .kw .REM := hs2
    refine ⟨{ p with lex := lexDiscard p.lex }, restOf_end (statement_plain ?_ ?_) rfl, rfl, discard_left _ ht, .inr rfl, (PutS.refl hw).line.moved'⟩
    · rw [hs2]
      exact plain_ok rfl
    · show Tok.ch '\n' ≠ _
      decide
  | @colon l ss l' ss' h hc' ih =>
    intro f n m p lex' text hw hno ht hp hs hend hone hf hn hm
    obtain ⟨n, rfl⟩ : ∃ k, n = k + 1 := ⟨n - 1, by simp at hn; omega⟩
    obtain ⟨m, rfl⟩ : ∃ k, m = k + 1 := ⟨m - 1, by simp at hm; omega⟩
    obtain ⟨lex1, hs1, hs2⟩ := hs.split
    have hT1 := scans_tame hs1 ht hp
    obtain ⟨b, l2, rfl⟩ := clauses_ne hc'
    obtain ⟨hc2, t2, lex2, hn2, hs2⟩ := hs2.next
    have hT2 := scans_tame (.more hc2 hn2 .done) hT1.1 hT1.2
    have hc2 : lex1.token = .ch ':' := hc2
    obtain ⟨p1, h1, h2, h3⟩ := sentence_put h hw hno.left ht hp hs1 (.inr hc2)
    simp only [List.length_append, List.length_cons] at hf hn hm ih
    obtain ⟨p2, k1, k2, k3, k4, k5⟩ := ih (f := f) (n := f) (m := m) (p := { p1 with lex := lex2 }) h3.names (hno.right.add h3.added) hT2.1 hT2.2 hs2 hend (by
      obtain ⟨c, hc, _⟩ := h3.code
      show 1 ≤ p1.bcode.inst.length
      rw [hc, List.length_append]; omega) (by omega) (by omega) (by omega)
    refine ⟨p2, ?_, k2, k3, k4, h3.append k5.moved⟩
    rw [← k1]
    exact restOf_colon (t := t2) (lex1 := lex2) h1 (by rw [h2]; exact hc2) (by rw [h2]; exact hn2)
  | @ifThen l e l' ss he hc' ih =>
    intro f n m p lex' text hw hno ht hp hs hend hone hf hn hm
    obtain ⟨n, rfl⟩ : ∃ k, n = k + 1 := ⟨n - 1, by simp at hn; omega⟩
    obtain ⟨b, l2, rfl⟩ := clauses_ne hc'
    rw [show Src.kw .IF :: (l ++ Src.kw .THEN :: b :: l2) = (Src.kw .IF :: (l ++ [Src.kw .THEN])) ++ b :: l2 by simp] at hs
    obtain ⟨lex1, hs1, hs2⟩ := hs.split
    have hT1 := scans_tame hs1 ht hp
    have hfst := clauses_first hc' hs2
    obtain ⟨p1, c, k1, k2, k3, k4, k5, k6, k7, k8⟩ := if_put he hw ht hp hs1
    let p2 : Parser := { p1 with bcode := emitInst p1.bcode .ifThen, ifThen := p1.bcode.used }
    have hb : statement p = .ok true p2 := by
      refine statement_plain ?_ (by show p1.lex.token ≠ _; rw [k1]; exact hfst.2)
      rw [show p.lex.token = .kw .IF from scans_current hs1]
      show ifStatement p = _
      rw [k8]
      refine (token_bind _ p1).trans ?_
      rw [if_neg (by rw [k1]; exact hfst.1)]
      rfl
    simp only [List.length_append, List.length_cons] at hf hn hm ih
    obtain ⟨p3, j1, j2, j3, j4, j5⟩ := ih (f := f) (n := n) (m := m) (p := p2) k5 (hno.tail.add k7) (by rw [show p2.lex = _ from k1]; exact hT1.1) (by rw [show p2.lex = _ from k1]; exact hT1.2)
      (by rw [show p2.lex = _ from k1]; exact hs2) hend (by simp [p2, emitInst]) (by omega) (by omega) (by omega)
    refine ⟨p3, ?_, j2, j3, j4, ?_⟩
    · rw [← j1]
      exact restOf_then hb
    · obtain ⟨d, m1, m2⟩ := j5.code
      refine ⟨⟨c ++ [.ifThen] ++ d, by rw [m1]; simp [p2, emitInst, Inst.isData, k3], .cons (.ifThen (k4.grow j5.grows)) m2⟩, j5.names, k6.trans j5.grows, ?_, fun hd => ?_⟩
      · have := k7.trans j5.added
        simpa [Src.lineVars, Src.Stmt.vars] using this
      · have := j5.data hd
        simpa [p2, emitInst, Inst.isData, k3, Src.dataOf] using this
  | @ifElse l e l' ss l'' ss' he hbk hc' ih =>
    intro f n m p lex' text hw hno ht hp hs hend hone hf hn hm
    obtain ⟨n, rfl⟩ : ∃ k, n = k + 1 := ⟨n - 1, by simp at hn; omega⟩
    obtain ⟨b, l2, rfl⟩ := clauses_ne hc'
    rw [show Src.kw .IF :: (l ++ Src.kw .THEN :: (l' ++ Src.kw .ELSE :: b :: l2)) = ((Src.kw .IF :: (l ++ [Src.kw .THEN])) ++ l') ++ Src.kw .ELSE :: b :: l2 by simp] at hs
    obtain ⟨lex2, hs1, hs2⟩ := hs.split
    obtain ⟨lex1, hs0, hs1⟩ := hs1.split
    have hT1 := scans_tame hs0 ht hp
    have hT2 := scans_tame hs1 hT1.1 hT1.2
    obtain ⟨hc2, t3, lex3, hn3, hs3⟩ := hs2.next
    have hT3 := scans_tame (.more hc2 hn3 .done) hT2.1 hT2.2
    have hc2 : lex2.token = .kw .ELSE := hc2
    have hfst := block_first hbk hs1
    obtain ⟨p1, c, k1, k2, k3, k4, k5, k6, k7, k8⟩ := if_put he hw ht hp hs0
    let p2 : Parser := { p1 with bcode := emitInst p1.bcode .ifThen, ifThen := p1.bcode.used }
    have hb : statement p = .ok true p2 := by
      refine statement_plain ?_ (by show p1.lex.token ≠ _; rw [k1]; exact hfst.2)
      rw [show p.lex.token = .kw .IF from scans_current hs0]
      show ifStatement p = _
      rw [k8]
      refine (token_bind _ p1).trans ?_
      rw [if_neg (by rw [k1]; exact hfst.1)]
      rfl
    simp only [List.length_append, List.length_cons] at hf hn hm ih
    obtain ⟨p3, n', m', j1, j2, j3, j4, j5⟩ := block_put hbk (f := f) (n := n) (m := m) (r := l2.length + 1) (p := p2) k5 (hno.tail.left.add k7) (by rw [show p2.lex = _ from k1]; exact hT1.1)
      (by rw [show p2.lex = _ from k1]; exact hT1.2) (by rw [show p2.lex = _ from k1]; exact hs1) hc2 (by omega) (by omega) (by omega)
    obtain ⟨d, m1, m2⟩ := j2.code
    have hinst : p3.bcode.inst = (p.bcode.inst ++ c) ++ .ifThen :: d := by rw [m1]; simp [p2, emitInst, k3]
    have hlen : p3.ifThen = (p.bcode.inst ++ c).length := by rw [j2.ifThen]; simp [p2, Bcode.used, k3]
    let p4 : Parser := { p3 with lex := lex3, bcode := ⟨(p.bcode.inst ++ c) ++ .ifElse :: d ++ [.else_], p3.bcode.hasData⟩, ifThen := 0 }
    have hels : elseClause p3 = .ok true p4 := by
      unfold elseClause
      refine (bind_ok (x := getIfThen) (p := p3) rfl).trans ?_
      rw [if_neg (by rw [hlen, List.length_append]; omega)]
      refine (bind_ok (matchTok_ok (k := .kw .ELSE) (t := t3) (lex' := lex3) (by rw [j1]; exact hc2) (by rw [j1]; exact hn3))).trans ?_
      refine (bind_ok (p' := { p3 with lex := lex3, bcode := ⟨(p.bcode.inst ++ c) ++ .ifElse :: d, p3.bcode.hasData⟩ }) (a := ()) ?_).trans ?_
      · unfold patch patchInst
        rw [if_pos (show p3.ifThen < p3.bcode.used by rw [hlen, Bcode.used, hinst]; simp)]
        show PRes.ok () { p3 with lex := lex3, bcode := ⟨p3.bcode.inst.set p3.ifThen .ifElse, p3.bcode.hasData⟩ } = _
        rw [hinst, hlen, getElem_set_middle]
      · show PRes.ok true _ = _
        congr 1
        simp [p4, emitInst, Inst.isData]
    obtain ⟨p5, q1, q2, q3, q4, q5⟩ := ih (f := f) (n := n') (m := m') (p := p4) j2.names ((hno.tail.right.tail.add k7).add j2.added) hT3.1 hT3.2 hs3 hend (by simp [p4]; omega) (by omega) (by omega) (by omega)
    refine ⟨p5, ?_, q2, q3, q4, ?_⟩
    · rw [← q1, ← j5 p4 hels]
      exact restOf_then hb
    · obtain ⟨g, r1, r2⟩ := q5.code
      refine ⟨⟨c ++ [.ifElse] ++ (d ++ ([.else_] ++ g)), by rw [r1]; simp [p4], .cons (.ifElse ((k4.grow j2.grows).grow q5.grows)) ((m2.grow q5.grows).append (.cons .else_ r2))⟩,
        q5.names, (k6.trans j2.grows).trans q5.grows, ?_, fun hd => ?_⟩
      · have := (k7.trans j2.added).trans q5.added
        simp only [Src.lineVars, Src.Stmt.vars, List.map_cons, List.map_append, List.sum_cons, List.sum_append] at this ⊢
        exact this.mono (by omega)
      · have := data_append (p := p2) (p1 := p4) j2.data q5.data hd
        simpa [p2, emitInst, Inst.isData, k3, Src.dataOf] using this

end P
end LB
