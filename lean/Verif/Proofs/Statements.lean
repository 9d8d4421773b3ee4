import Verif.Proofs.Sentences
/- READ, DATA, INPUT and ON are compiled to their code. -/
namespace LB
open LB.Spec _root_.Spec
namespace P

variable {fs : List CStr}

theorem lineNumberOk_nat {n : Nat} (h1 : 1 ≤ n) (h2 : n ≤ 65535) : lineNumberOk (.fin n) = true ∧ Dbl.toNat (.fin n) = n := by
  have hf : Dbl.floor (.fin n) = .fin n := V.floor_nat n
  refine ⟨?_, V.toNat_nat n⟩
  simp only [lineNumberOk, hf, Bool.and_eq_true]
  refine ⟨⟨?_, ?_⟩, ?_⟩
  · simp only [Dbl.lt, decide_eq_true_eq]; exact_mod_cast h1
  · simp only [Dbl.le, Dbl.lt, Dbl.eq, Bool.or_eq_true, decide_eq_true_eq]
    rcases Nat.lt_or_ge n 65535 with h | h
    · exact .inl (by exact_mod_cast h)
    · exact .inr (by have : n = 65535 := by omega
                     subst this; rfl)
  · simp [Dbl.eq]

theorem lineNumber_ok {p : Parser} {n : Nat} {t : Tok} {lex' : Lex} (h1 : 1 ≤ n) (h2 : n ≤ 65535) (hc : Spec.Current p.lex (Src.lineNo n))
    (hn : lexNext p.lex = .ok (t, lex')) : lineNumber p = .ok n { p with lex := lex' } := by
  unfold lineNumber
  rw [token_bind, if_pos hc.1]
  refine (bind_ok (x := num) (p := p) rfl).trans ?_
  rw [show p.lex.num = .fin n from hc.2, if_pos (lineNumberOk_nat h1 h2).1]
  refine (bind_ok (next_ok hn)).trans ?_
  rw [(lineNumberOk_nat h1 h2).2]
  rfl

/-- The name of a variable in a list. -/
theorem var_name {p : Parser} {w : CStr} {t : Tok} {lex' : Lex} (hw : WellNamed p.st) (hb : LB.builtin w = none)
    (hc : Spec.Current p.lex (.name w)) (hn : lexNext p.lex = .ok (t, lex')) (ht : lex'.token ≠ .ch '(') :
    ∃ q st' s, identifier expression .array p = .ok (q, 0) { p with lex := lex', st := st' } ∧ st'.psym[q]? = some s ∧ WellNamed st' ∧ Grows p.st st' ∧ (∀ {fs : List CStr}, Added fs 1 p.st st') ∧
      ((Src.varOf w = .num w ∧ s.type = .num ∧ Numbered st' w .num s.id) ∨ (Src.varOf w = .str w ∧ s.type = .str ∧ Numbered st' w .str s.id)) := by
  obtain ⟨q, st', s, h1, h2, h3, h4, h5, h6, h7, h8⟩ := identifier_name (expr := expression) (k := .array) hw hb hc hn ht
  refine ⟨q, st', s, h1, h2, h6, h7, h8, ?_⟩
  by_cases hd : w.getLast? = some '$'
  · rw [nameType_str hd] at h5
    exact .inr ⟨by simp [Src.varOf, hd], h5, q, s, h2, h3, h4, h5, rfl⟩
  · rw [nameType_num hd] at h5
    exact .inl ⟨by simp [Src.varOf, hd], h5, q, s, h2, h3, h4, h5, rfl⟩

theorem read_one {p : Parser} {w : CStr} {t : Tok} {lex' : Lex} (hw : WellNamed p.st) (hb : LB.builtin w = none)
    (hc : Spec.Current p.lex (.name w)) (hn : lexNext p.lex = .ok (t, lex')) (ht : lex'.token ≠ .ch '(') :
    ∃ p', readItem p = .ok () p' ∧ p'.lex = lex' ∧ PutS fs p [.read (Src.varOf w)] p' := by
  obtain ⟨q, st', s, h1, h2, h3, h4, h5, h6⟩ := var_name hw hb hc hn ht
  have hr : ∀ {i : Inst}, (s.type = .num ∧ i = .readNum s.id 0) ∨ (s.type = .str ∧ i = .readStr s.id 0) →
      readItem p = .ok () { p with lex := lex', st := st', bcode := emitInst p.bcode i } := by
    intro i hi
    unfold readItem
    refine (bind_ok h1).trans ?_
    refine (bind_ok (sym_ok (p := { p with lex := lex', st := st' }) h2)).trans ?_
    rcases hi with ⟨hi, rfl⟩ | ⟨hi, rfl⟩
    · rw [if_neg (by rw [hi]; decide), if_pos hi]; rfl
    · rw [if_pos hi]; rfl
  rcases h6 with ⟨e1, e2, e3⟩ | ⟨e1, e2, e3⟩
  · refine ⟨_, hr (.inl ⟨e2, rfl⟩), rfl, rfl, ⟨[.readNum s.id 0], by simp [emitInst], ?_⟩, h3, h4, h5, fun hd => .inl (by simpa [emitInst, Inst.isData] using hd)⟩
    rw [e1]; exact .one (.readNum e3)
  · refine ⟨_, hr (.inr ⟨e2, rfl⟩), rfl, rfl, ⟨[.readStr s.id 0], by simp [emitInst], ?_⟩, h3, h4, h5, fun hd => .inl (by simpa [emitInst, Inst.isData] using hd)⟩
    rw [e1]; exact .one (.readStr e3)

/-- Things with commas between them. -/
inductive Commas (T : List Lexeme → Src.Stmt → Prop) : List Lexeme → List Src.Stmt → Prop
  | one {l s} : T l s → Commas T l [s]
  | more {l s l' ss} : T l s → Commas T l' ss → Commas T (l ++ opTok ',' :: l') (s :: ss)

theorem commas_put {item : P Unit} {T : List Lexeme → Src.Stmt → Prop} (hpos : ∀ {l s}, T l s → 1 ≤ l.length)
    (hT : ∀ {p : Parser} {l : List Lexeme} {s : Src.Stmt} {lex' : Lex} {text : CStr}, T l s → WellNamed p.st → Proper fs p.st [s] → p.lex.text = some text → p.lex.pos ≤ text.length →
      Scans p.lex l lex' → lex'.token ≠ .ch '(' → ∃ p', item p = .ok () p' ∧ p'.lex = lex' ∧ PutS fs p [s] p')
    {l : List Lexeme} {ss : List Src.Stmt} (h : Commas T l ss) : ∀ {n : Nat} {p : Parser} {lex' : Lex} {text : CStr},
    WellNamed p.st → Proper fs p.st ss → p.lex.text = some text → p.lex.pos ≤ text.length → Scans p.lex l lex' → EndTok lex'.token → l.length ≤ n →
    ∃ p1 p', item p = .ok () p1 ∧ p1.lex.text = some text ∧ commaLoop item n p1 = .ok () p' ∧ p'.lex = lex' ∧ PutS fs p ss p' := by
  induction h with
  | @one l s h =>
    intro n p lex' text hw hd ht hp hs hk hn
    have := hpos h
    obtain ⟨n, rfl⟩ : ∃ k, n = k + 1 := ⟨n - 1, by omega⟩
    obtain ⟨p', h1, h2, h3⟩ := hT h hw hd ht hp hs (by rcases hk with h | h | h <;> rw [h] <;> decide)
    refine ⟨p', p', h1, by rw [h2]; exact (scans_tame hs ht hp).1, ?_, h2, h3⟩
    unfold commaLoop
    refine (token_bind _ p').trans ?_
    rw [if_neg (by rw [h2]; rcases hk with h | h | h <;> rw [h] <;> decide)]
    rfl
  | @more l s l' ss h _ ih =>
    intro n p lex' text hw hd ht hp hs hk hn
    have := hpos h
    simp only [List.length_append, List.length_cons] at hn
    obtain ⟨n, rfl⟩ : ∃ k, n = k + 1 := ⟨n - 1, by omega⟩
    obtain ⟨lex1, hs1, hs⟩ := hs.split
    have hT1 := scans_tame hs1 ht hp
    cases hs with
    | @more _ _ _ t2 lex2 _ hc2 hn2 hs =>
      have hT2 := scans_tame (.more hc2 hn2 .done) hT1.1 hT1.2
      have hc2 : lex1.token = .ch ',' := hc2
      obtain ⟨p1, h1, h2, h3⟩ := hT h hw hd.head ht hp hs1 (by rw [hc2]; decide)
      obtain ⟨p3, p2, k1, _, k1', k2, k3⟩ := ih (n := n) (p := { p1 with lex := lex2 }) h3.names (hd.tail.add h3.added) hT2.1 hT2.2 hs hk (by omega)
      refine ⟨p1, p2, h1, by rw [h2]; exact hT1.1, ?_, k2, h3.append k3.moved⟩
      conv => lhs; unfold commaLoop
      refine (token_bind _ p1).trans ?_
      rw [if_pos (by rw [h2]; exact hc2)]
      refine (bind_ok (next_ok (lex' := lex2) (t := t2) (by rw [h2]; exact hn2))).trans ?_
      exact (bind_ok k1).trans k1'

theorem commas_no_eol {T : List Lexeme → Src.Stmt → Prop} (hT : ∀ {l s}, T l s → ∀ a ∈ l, a ≠ opTok '\n') {l : List Lexeme} {ss : List Src.Stmt} (h : Commas T l ss) :
    ∀ a ∈ l, a ≠ opTok '\n' := by
  induction h with
  | one h => exact hT h
  | more h _ ih =>
    intro a ha
    simp only [List.mem_append, List.mem_cons] at ha
    rcases ha with ha | rfl | ha
    · exact hT h a ha
    · decide
    · exact ih a ha

theorem element_head {l : List Lexeme} {w : CStr} {is : List (Expr .num)} (h : Src.Element l w is) : ∃ l', l = .name w :: l' := by
  cases h; exact ⟨_, rfl⟩

theorem element_no_eol {l : List Lexeme} {w : CStr} {is : List (Expr .num)} (h : Src.Element l w is) : ∀ a ∈ l, a ≠ opTok '\n' := by
  cases h with
  | mk _ h =>
    intro a ha
    simp only [List.mem_cons, List.mem_append, List.not_mem_nil, or_false] at ha
    rcases ha with rfl | rfl | ha | rfl
    · intro h; cases h
    · decide
    · cases h with
      | one h => exact phrase_no_eol h a ha
      | two h h' =>
        simp only [List.mem_cons, List.mem_append] at ha
        rcases ha with ha | rfl | ha
        · exact phrase_no_eol h a ha
        · decide
        · exact phrase_no_eol h' a ha
    · decide

theorem target_head {l : List Lexeme} {s : Src.Stmt} (h : Src.Target l s) : ∃ w l', l = .name w :: l' := by
  cases h with
  | var => exact ⟨_, _, rfl⟩
  | elem h => exact ⟨_, element_head h⟩

theorem target_no_eol {l : List Lexeme} {s : Src.Stmt} (h : Src.Target l s) : ∀ a ∈ l, a ≠ opTok '\n' := by
  cases h with
  | var => intro a ha; simp at ha; subst ha; intro h; cases h
  | elem h => exact element_no_eol h

theorem targets_commas {l : List Lexeme} {ss : List Src.Stmt} (h : Src.Targets l ss) : Commas Src.Target l ss := by
  induction h with
  | one h => exact .one h
  | more h _ ih => exact .more h ih

/-- READ into a variable or an element. -/
theorem target_put {p : Parser} {l : List Lexeme} {s : Src.Stmt} {lex' : Lex} {text : CStr} (h : Src.Target l s) (hw : WellNamed p.st) (hd : Proper fs p.st [s])
    (ht : p.lex.text = some text) (hp : p.lex.pos ≤ text.length) (hs : Scans p.lex l lex') (hk : lex'.token ≠ .ch '(') :
    ∃ p', readItem p = .ok () p' ∧ p'.lex = lex' ∧ PutS fs p [s] p' := by
  cases h with
  | var hb =>
    cases hs with
    | more hc hn hs => cases hs; exact read_one hw hb hc hn hk
  | @elem l w is h =>
    obtain ⟨q, s1, c, p1, h1, h2, h3, h4, h5, h6, h7, h8, h9, h10, h11, h12, h13, h14⟩ := element_put h hw hd.1 ((hd.2 _ (List.mem_singleton.2 rfl)).2 w (List.mem_singleton.2 rfl)) ht hp hs
    refine ⟨{ p1 with bcode := emitInst p1.bcode (readInst (typeOf w) s1.id is.length) }, ?_, h2, h3,
      ⟨c ++ [readInst (typeOf w) s1.id is.length], by simp [emitInst, h4], .one (.readElem h5 ⟨q, s1, h6, h7, h8, h9, rfl⟩ h13 h14 (typeOf_type w))⟩, h10, h11, ?_, fun hd => .inl ?_⟩
    · unfold readItem
      refine (bind_ok h1).trans ?_
      refine (bind_ok (sym_ok h6)).trans ?_
      rw [h9, Nat.mod_eq_of_lt (by omega)]
      unfold readInst typeOf
      split <;> rfl
    · simpa [Src.lineVars, Src.Stmt.vars] using h12
    · have : (readInst (typeOf w) s1.id is.length).isData = false := by unfold readInst; split <;> rfl
      simpa [emitInst, this, h4] using hd

/-- An array in DIM. -/
def DimOf (l : List Lexeme) (s : Src.Stmt) : Prop := ∃ w is, Src.Element l w is ∧ s = .dim (typeOf w) w is

theorem dims_commas {l : List Lexeme} {ss : List Src.Stmt} (h : Src.Dims l ss) : Commas DimOf l ss := by
  induction h with
  | one h => exact .one ⟨_, _, h, rfl⟩
  | more h _ ih => exact .more ⟨_, _, h, rfl⟩ ih

theorem dim_put {p : Parser} {l : List Lexeme} {s : Src.Stmt} {lex' : Lex} {text : CStr} (h : DimOf l s) (hw : WellNamed p.st) (hd : Proper fs p.st [s])
    (ht : p.lex.text = some text) (hp : p.lex.pos ≤ text.length) (hs : Scans p.lex l lex') :
    ∃ p', dimArray p = .ok () p' ∧ p'.lex = lex' ∧ PutS fs p [s] p' := by
  obtain ⟨w, is, h, rfl⟩ := h
  obtain ⟨q, s1, c, p1, h1, h2, h3, h4, h5, h6, h7, h8, h9, h10, h11, h12, h13, h14⟩ := element_put h hw hd.1 ((hd.2 _ (List.mem_singleton.2 rfl)).2 w (List.mem_singleton.2 rfl)) ht hp hs
  refine ⟨{ p1 with bcode := emitInst p1.bcode (dimInst (typeOf w) s1.id is.length) }, ?_, h2, h3,
    ⟨c ++ [dimInst (typeOf w) s1.id is.length], by simp [emitInst, h4], .one (.dim h5 ⟨q, s1, h6, h7, h8, h9, rfl⟩ h13 h14 (typeOf_type w))⟩, h10, h11, ?_, fun hd => .inl ?_⟩
  · unfold dimArray
    refine (bind_ok h1).trans ?_
    refine (bind_ok (sym_ok h6)).trans ?_
    rw [if_neg (by rw [h8]; simp), h9, Nat.mod_eq_of_lt (by omega)]
    unfold dimInst
    split <;> rfl
  · simpa [Src.lineVars, Src.Stmt.vars] using h12
  · have : (dimInst (typeOf w) s1.id is.length).isData = false := by unfold dimInst; split <;> rfl
    simpa [emitInst, this, h4] using hd

theorem holder_head {l : List Lexeme} {v : Src.Slot} (h : Src.Holder l v) : ∃ w l', l = .name w :: l' := by
  cases h with
  | var => exact ⟨_, _, rfl⟩
  | elem h => exact ⟨_, element_head h⟩

theorem holder_no_eol {l : List Lexeme} {v : Src.Slot} (h : Src.Holder l v) : ∀ a ∈ l, a ≠ opTok '\n' := by
  cases h with
  | var => intro a ha; simp at ha; subst ha; intro h; cases h
  | elem h => exact element_no_eol h

theorem vars_no_eol {l : List Lexeme} {vs : List Src.Slot} (h : Src.Holders l vs) : ∀ a ∈ l, a ≠ opTok '\n' := by
  induction h with
  | one h => exact holder_no_eol h
  | more h _ ih =>
    intro a ha
    simp only [List.mem_append, List.mem_cons] at ha
    rcases ha with ha | rfl | ha
    · exact holder_no_eol h a ha
    · decide
    · exact ih a ha

theorem vars_head {l : List Lexeme} {vs : List Src.Slot} (h : Src.Holders l vs) : ∃ w l', l = .name w :: l' := by
  cases h with
  | one h => exact holder_head h
  | more h => obtain ⟨w, l', rfl⟩ := holder_head h; exact ⟨_, _, rfl⟩

theorem input_one {p : Parser} {w : CStr} {t : Tok} {lex' : Lex} (hw : WellNamed p.st) (hb : LB.builtin w = none)
    (hc : Spec.Current p.lex (.name w)) (hn : lexNext p.lex = .ok (t, lex')) (ht : lex'.token ≠ .ch '(') :
    ∃ st' i, inputItem p = .ok () { p with lex := lex', st := st', bcode := emitInst p.bcode i } ∧ VarCode st' (Src.varOf w) i ∧ i.isData = false ∧ WellNamed st' ∧ Grows p.st st' ∧ ∀ {fs : List CStr}, Added fs 1 p.st st' := by
  obtain ⟨q, st', s, h1, h2, h3, h4, h5, h6⟩ := var_name hw hb hc hn ht
  refine ⟨st', if s.type = .num then .inputNum s.id 0 else .inputStr s.id 0, ?_, ?_, by split <;> rfl, h3, h4, h5⟩
  · unfold inputItem
    refine (bind_ok h1).trans ?_
    refine (bind_ok (sym_ok (p := { p with lex := lex', st := st' }) h2)).trans ?_
    rfl
  · rcases h6 with ⟨e1, e2, e3⟩ | ⟨e1, e2, e3⟩
    · rw [e1, if_pos e2]; exact .num e3
    · rw [e1, if_neg (by rw [e2]; decide)]; exact .str e3

/-- A variable or an element after INPUT was read, and its code was appended. -/
structure Held1 (fs : List CStr) (p : Parser) (v : Src.Slot) (c : List Inst) (p' : Parser) : Prop where
  ifThen : p'.ifThen = p.ifThen
  inst : p'.bcode.inst = p.bcode.inst ++ c
  code : SlotCode p'.st v c
  names : WellNamed p'.st
  grows : Grows p.st p'.st
  added : Added fs v.vars p.st p'.st
  data : p'.bcode.hasData = p.bcode.hasData

theorem holder_put {p : Parser} {l : List Lexeme} {v : Src.Slot} {lex' : Lex} {text : CStr} (h : Src.Holder l v) (hw : WellNamed p.st) (hd : Apart fs p.st)
    (hv : ∀ w, v.array? = some w → ¬ Among fs w) (ht : p.lex.text = some text) (hp : p.lex.pos ≤ text.length) (hs : Scans p.lex l lex') (hk : lex'.token ≠ .ch '(') :
    ∃ c p', inputItem p = .ok () p' ∧ p'.lex = lex' ∧ Held1 fs p v c p' := by
  cases h with
  | var hb =>
    cases hs with
    | more hc hn hs =>
      cases hs
      obtain ⟨st', i, h1, h2, hi, h3, h4, h5⟩ := input_one hw hb hc hn hk
      exact ⟨[i], _, h1, rfl, rfl, by simp [emitInst], .var h2, h3, h4, h5, by simp [emitInst, hi]⟩
  | @elem l w is h =>
    obtain ⟨q, s1, c, p1, h1, h2, h3, h4, h5, h6, h7, h8, h9, h10, h11, h12, h13, h14⟩ := element_put h hw hd (hv w rfl) ht hp hs
    refine ⟨c ++ [inputInst (typeOf w) s1.id is.length], { p1 with bcode := emitInst p1.bcode (inputInst (typeOf w) s1.id is.length) }, ?_, h2, h3, by simp [emitInst, h4],
      .elem h5 ⟨q, s1, h6, h7, h8, h9, rfl⟩ h13 h14 (typeOf_type w), h10, h11, h12, ?_⟩
    · unfold inputItem
      refine (bind_ok h1).trans ?_
      refine (bind_ok (sym_ok h6)).trans ?_
      rw [h9, Nat.mod_eq_of_lt (by omega)]
      rfl
    · have : (inputInst (typeOf w) s1.id is.length).isData = false := by unfold inputInst; split <;> rfl
      simp [emitInst, this, h4]

theorem input_put {l : List Lexeme} {vs : List Src.Slot} (h : Src.Holders l vs) : ∀ {n : Nat} {p : Parser} {lex' : Lex} {text : CStr},
    WellNamed p.st → Apart fs p.st → (∀ v ∈ vs, ∀ w, v.array? = some w → ¬ Among fs w) → p.lex.text = some text → p.lex.pos ≤ text.length → Scans p.lex l lex' → EndTok lex'.token → l.length ≤ n →
    ∃ p1 p' c, inputItem p = .ok () p1 ∧ p1.lex.text = some text ∧ inputLoop n p1 = .ok () p' ∧ p'.lex = lex' ∧ p'.ifThen = p.ifThen ∧
      p'.bcode.inst = p.bcode.inst ++ c ∧ InputCode p'.st vs (c ++ [.inputEnd]) ∧ WellNamed p'.st ∧ Grows p.st p'.st ∧ Added fs (vs.map Src.Slot.vars).sum p.st p'.st ∧ p'.bcode.hasData = p.bcode.hasData := by
  induction h with
  | @one l v h =>
    intro n p lex' text hw hd hv ht hp hs hk hn
    obtain ⟨w0, l0, hl⟩ := holder_head h
    obtain ⟨n, rfl⟩ : ∃ k, n = k + 1 := ⟨n - 1, by simp only [hl, List.length_cons] at hn; omega⟩
    obtain ⟨c, p1, h1, h2, h3⟩ := holder_put h hw hd (hv _ (List.mem_singleton.2 rfl)) ht hp hs (by rcases hk with h | h | h <;> rw [h] <;> decide)
    refine ⟨p1, p1, c, h1, by rw [h2]; exact (scans_tame hs ht hp).1, ?_, h2, h3.ifThen, h3.inst, .one h3.code, h3.names, h3.grows, by simpa using h3.added, h3.data⟩
    unfold inputLoop
    refine (token_bind _ _).trans ?_
    rw [if_neg (by rw [h2]; rcases hk with h | h | h <;> rw [h] <;> decide)]
    rfl
  | @more l v l' vs h _ ih =>
    intro n p lex' text hw hd hv ht hp hs hk hn
    obtain ⟨n, rfl⟩ : ∃ k, n = k + 1 := ⟨n - 1, by simp only [List.length_append, List.length_cons] at hn; omega⟩
    simp only [List.length_append, List.length_cons] at hn
    obtain ⟨lex1, hs1, hs⟩ := hs.split
    have hT1 := scans_tame hs1 ht hp
    cases hs with
    | @more _ _ _ t2 lex2 _ hc2 hn2 hs =>
      have hT2 := scans_tame (.more hc2 hn2 .done) hT1.1 hT1.2
      have hc2 : lex1.token = .ch ',' := hc2
      obtain ⟨c0, p1, h1, h2, h3⟩ := holder_put h hw hd (hv _ (List.mem_cons_self ..)) ht hp hs1 (by rw [hc2]; decide)
      obtain ⟨p3, p2, c, k1, _, k1', k2, k3, k4, k5, k6, k7, k8, k9⟩ := ih (n := n) (p := { p1 with lex := lex2, bcode := emitInst p1.bcode .inputSep })
        h3.names (h3.added.apart hd) (fun v hm => hv v (List.mem_cons_of_mem _ hm)) hT2.1 hT2.2 hs hk (by omega)
      refine ⟨p1, p2, c0 ++ .inputSep :: c, h1, by rw [h2]; exact hT1.1, ?_, k2, k3.trans h3.ifThen, by rw [k4]; simp [emitInst, h3.inst],
        by rw [List.append_assoc]; exact .more (h3.code.grow k7) k5, k6, h3.grows.trans k7, ?_, by rw [k9, ← h3.data]; exact Bool.or_false _⟩
      · conv => lhs; unfold inputLoop
        refine (token_bind _ _).trans ?_
        rw [if_pos (by rw [h2]; exact hc2)]
        refine (bind_ok (next_ok (lex' := lex2) (t := t2) (by rw [h2]; exact hn2))).trans ?_
        refine (bind_ok (x := emit .inputSep) (p := { p1 with lex := lex2 }) rfl).trans ?_
        exact (bind_ok k1).trans k1'
      · rw [List.map_cons, List.sum_cons]; exact h3.added.trans k8

/-- The prompt. -/
theorem prompt_put {p : Parser} {l : List Lexeme} {pr : Option CStr} {w : CStr} {l' : List Lexeme} {lex' lex'' : Lex} (h : Src.Prompt l pr)
    (hs : Scans p.lex l lex') (hs' : Scans lex' (.name w :: l') lex'') :
    inputBuffer p = .ok () { p with lex := lex', bcode := emitInst p.bcode (.inputBuf pr) } := by
  have hc' : lex'.token = .id ∧ lex'.word = w := scans_current hs'
  unfold inputBuffer
  refine (token_bind _ p).trans ?_
  cases h with
  | none =>
    cases hs
    rw [if_neg (by rw [hc'.1]; decide)]
    rfl
  | @bare t =>
    cases hs with
    | @more _ _ _ t1 lex1 _ hc1 hn1 hs =>
      cases hs
      have hn1 : lexNext p.lex = .ok (t1, lex') := hn1
      rw [if_pos hc1.1]
      refine (bind_ok (x := word) (p := p) rfl).trans ?_
      refine (bind_ok (next_ok hn1)).trans ?_
      have : t1 = .id := (lexNext_token hn1).symm.trans hc'.1
      rw [if_neg (by rw [this]; decide)]
      show PRes.ok () _ = _
      rw [show p.lex.word = t from hc1.2]
  | @semicolon t | @comma t =>
    cases hs with
    | @more _ _ _ t1 lex1 _ hc1 hn1 hs =>
      cases hs with
      | @more _ _ _ t2 lex2 _ hc2 hn2 hs =>
        cases hs
        have hn1 : lexNext p.lex = .ok (t1, lex1) := hn1
        have hn2 : lexNext lex1 = .ok (t2, lex') := hn2
        rw [if_pos hc1.1]
        refine (bind_ok (x := word) (p := p) rfl).trans ?_
        refine (bind_ok (next_ok hn1)).trans ?_
        have : t1 = _ := (lexNext_token hn1).symm.trans hc2
        rw [if_pos (by rw [this]; decide)]
        refine (bind_ok (next_ok (p := { p with lex := lex1 }) hn2)).trans ?_
        show PRes.ok () _ = _
        rw [show p.lex.word = t from hc1.2]

theorem inputStatement_put {p : Parser} {l : List Lexeme} {pr : Option CStr} {l' : List Lexeme} {vs : List Src.Slot} {lex' : Lex} (h : Src.Prompt l pr) (h' : Src.Holders l' vs)
    (hw : WellNamed p.st) (hd : Proper fs p.st [.input pr vs]) {text : CStr} (ht : p.lex.text = some text) (hp : p.lex.pos ≤ text.length) (hs : Scans p.lex (Src.kw .INPUT :: (l ++ l')) lex') (hk : EndTok lex'.token) :
    ∃ p', inputStatement p = .ok () p' ∧ p'.lex = lex' ∧ PutS fs p [.input pr vs] p' := by
  cases hs with
  | @more _ _ _ t1 lex1 _ hc1 hn1 hs =>
    obtain ⟨lex2, hs1, hs2⟩ := hs.split
    have hT1 := scans_tame (.more hc1 hn1 .done) ht hp
    have hT2 := scans_tame hs1 hT1.1 hT1.2
    have hlen := (scans_length hs2 hT2.1 hT2.2 (vars_no_eol h')).1
    obtain ⟨w, l2, rfl⟩ := vars_head h'
    have hb := prompt_put (p := { p with lex := lex1 }) h hs1 hs2
    have hc1 : p.lex.token = .kw .INPUT := hc1
    obtain ⟨p1, p2, c, k1, k1', k1'', k2, k3, k4, k5, k6, k7, k8, k9⟩ := input_put h' (n := text.length + 2) (p := { p with lex := lex2, bcode := emitInst p.bcode (.inputBuf pr) })
      hw hd.1 (fun v hv w hw => (hd.2 _ (List.mem_singleton.2 rfl)).2 w (List.mem_filterMap.2 ⟨v, hv, hw⟩)) hT2.1 hT2.2 hs2 hk (by omega)
    refine ⟨{ p2 with bcode := emitInst p2.bcode .inputEnd }, ?_, k2, k3, ⟨.inputBuf pr :: (c ++ [.inputEnd]), by simp [emitInst, k4], .one (.input k5)⟩, k6, k7,
      by simpa [Src.lineVars, Src.Stmt.vars] using k8, fun hd => .inl (by simpa [emitInst, Inst.isData, k9] using hd)⟩
    unfold inputStatement
    refine (bind_ok (matchTok_ok hc1 hn1)).trans ?_
    refine (bind_ok hb).trans ?_
    refine (bind_ok k1).trans ?_
    refine (bind_ok (fuel_ok k1')).trans ?_
    exact (bind_ok k1'').trans rfl

theorem lineInputStatement_put {p : Parser} {l : List Lexeme} {pr : Option CStr} {w : CStr} {lex' : Lex} (h : Src.Prompt l pr) (hb : LB.builtin w = none)
    (hd : w.getLast? = some '$') (hw : WellNamed p.st)
    (hs : Scans p.lex (Src.kw .LINE :: Src.kw .INPUT :: (l ++ [.name w])) lex') (hk : EndTok lex'.token) :
    ∃ p', lineInputStatement p = .ok () p' ∧ p'.lex = lex' ∧ PutS fs p [.lineInput pr w] p' := by
  cases hs with
  | @more _ _ _ t1 lex1 _ hc1 hn1 hs =>
    cases hs with
    | @more _ _ _ t2 lex2 _ hc2 hn2 hs =>
      obtain ⟨lex3, hs1, hs2⟩ := hs.split
      have hb' := prompt_put (p := { p with lex := lex2 }) h hs1 hs2
      have hc1 : p.lex.token = .kw .LINE := hc1
      have hc2 : lex1.token = .kw .INPUT := hc2
      cases hs2 with
      | @more _ _ _ t3 lex4 _ hc3 hn3 hs =>
        cases hs
        obtain ⟨q, st', s, h1, h2, h3, h4, h5, h6⟩ := var_name (p := { p with lex := lex3, bcode := emitInst p.bcode (.inputBuf pr) }) hw hb hc3 hn3
          (by rcases hk with h | h | h <;> rw [h] <;> decide)
        rcases h6 with ⟨e1, _⟩ | ⟨_, e2, e3⟩
        · simp [Src.varOf, hd] at e1
        refine ⟨{ p with lex := lex', st := st', bcode := emitInst (emitInst p.bcode (.inputBuf pr)) (.inputLine s.id 0) }, ?_, rfl, rfl,
          ⟨[.inputBuf pr, .inputLine s.id 0], by simp [emitInst], .one (.lineInput e3)⟩, h3, h4, h5, fun hd => .inl (by simpa [emitInst, Inst.isData] using hd)⟩
        unfold lineInputStatement
        refine (bind_ok (matchTok_ok hc1 hn1)).trans ?_
        refine (bind_ok (matchTok_ok (p := { p with lex := lex1 }) hc2 hn2)).trans ?_
        refine (bind_ok hb').trans ?_
        refine (bind_ok h1).trans ?_
        refine (bind_ok (sym_ok (p := { p with lex := lex', st := st', bcode := emitInst p.bcode (.inputBuf pr) }) h2)).trans ?_
        rw [if_neg (by rw [e2]; simp)]
        rfl

theorem lineInputElem_put {p : Parser} {l : List Lexeme} {pr : Option CStr} {l' : List Lexeme} {w : CStr} {is : List (Expr .num)} {lex' : Lex} (h : Src.Prompt l pr) (hE : Src.Element l' w is)
    (hd : w.getLast? = some '$') (hw : WellNamed p.st) (hp : Proper fs p.st [.lineInputElem pr w is]) {text : CStr} (ht : p.lex.text = some text) (hpos : p.lex.pos ≤ text.length)
    (hs : Scans p.lex (Src.kw .LINE :: Src.kw .INPUT :: (l ++ l')) lex') :
    ∃ p', lineInputStatement p = .ok () p' ∧ p'.lex = lex' ∧ PutS fs p [.lineInputElem pr w is] p' := by
  cases hs with
  | @more _ _ _ t1 lex1 _ hc1 hn1 hs =>
    cases hs with
    | @more _ _ _ t2 lex2 _ hc2 hn2 hs =>
      obtain ⟨lex3, hs1, hs2⟩ := hs.split
      have hT1 := scans_tame (.more hc1 hn1 (.more hc2 hn2 .done)) ht hpos
      have hT2 := scans_tame hs1 hT1.1 hT1.2
      obtain ⟨l2, hl2⟩ := element_head hE
      have hb' := prompt_put (p := { p with lex := lex2 }) h hs1 (by rw [hl2] at hs2; exact hs2)
      have hc1 : p.lex.token = .kw .LINE := hc1
      have hc2 : lex1.token = .kw .INPUT := hc2
      obtain ⟨q, s1, c, p1, h1, h2, h3, h4, h5, h6, h7, h8, h9, h10, h11, h12, h13, h14⟩ := element_put (p := { p with lex := lex3, bcode := emitInst p.bcode (.inputBuf pr) }) hE hw hp.1
        ((hp.2 _ (List.mem_singleton.2 rfl)).2 w (List.mem_singleton.2 rfl)) hT2.1 hT2.2 hs2
      have hty : typeOf w = .str := by simp [typeOf, hd]
      rw [hty] at h9
      refine ⟨{ p1 with bcode := emitInst p1.bcode (.inputLine s1.id is.length) }, ?_, h2, h3,
        ⟨.inputBuf pr :: (c ++ [.inputLine s1.id is.length]), by simp [emitInst, h4], .one (.lineInputElem h5 ⟨q, s1, h6, h7, h8, h9, rfl⟩ h13 h14)⟩, h10, h11,
        by simpa [Src.lineVars, Src.Stmt.vars] using h12, fun hd => .inl (by simpa [emitInst, Inst.isData, h4] using hd)⟩
      unfold lineInputStatement
      refine (bind_ok (matchTok_ok hc1 hn1)).trans ?_
      refine (bind_ok (matchTok_ok (p := { p with lex := lex1 }) hc2 hn2)).trans ?_
      refine (bind_ok hb').trans ?_
      refine (bind_ok h1).trans ?_
      refine (bind_ok (sym_ok h6)).trans ?_
      rw [if_neg (by rw [h9]; simp), Nat.mod_eq_of_lt (by omega)]
      rfl

/-- The line numbers after ON … GOTO. -/
theorem lineNos_put {l : List Lexeme} {ns : List Nat} (h : Src.LineNos l ns) : ∀ {n k : Nat} {p : Parser} {lex' : Lex} {text : CStr},
    p.lex.text = some text → p.lex.pos ≤ text.length → Scans p.lex l lex' → EndTok lex'.token → l.length ≤ n →
    ∃ p1 p', onLine p = .ok () p1 ∧ p1.lex.text = some text ∧ onLoop n (k + 1) p1 = .ok (k + ns.length) p' ∧ p'.lex = lex' ∧ p'.ifThen = p.ifThen ∧
      p'.bcode.inst = p.bcode.inst ++ ns.map .onLine ∧ p'.st = p.st ∧ p'.bcode.hasData = p.bcode.hasData := by
  induction h with
  | @one m g1 g2 =>
    intro n k p lex' text ht hp hs hk hn
    obtain ⟨n, rfl⟩ : ∃ k, n = k + 1 := ⟨n - 1, by simp at hn; omega⟩
    cases hs with
    | @more _ _ _ t1 lex1 _ hc1 hn1 hs =>
      cases hs
      refine ⟨{ p with lex := lex', bcode := emitInst p.bcode (.onLine m) }, { p with lex := lex', bcode := emitInst p.bcode (.onLine m) },
        (bind_ok (lineNumber_ok g1 g2 hc1 hn1)).trans rfl, (scans_tame (.more hc1 hn1 .done) ht hp).1, ?_, rfl, rfl, by simp [emitInst], rfl, by simp [emitInst, Inst.isData]⟩
      unfold onLoop
      refine (token_bind _ _).trans ?_
      rw [if_neg (by show lex'.token ≠ _; rcases hk with h | h | h <;> rw [h] <;> decide)]
      rfl
  | @more m l ns g1 g2 _ ih =>
    intro n k p lex' text ht hp hs hk hn
    obtain ⟨n, rfl⟩ : ∃ k, n = k + 1 := ⟨n - 1, by simp at hn; omega⟩
    cases hs with
    | @more _ _ _ t1 lex1 _ hc1 hn1 hs =>
      cases hs with
      | @more _ _ _ t2 lex2 _ hc2 hn2 hs =>
        have hT := scans_tame (.more hc1 hn1 (.more hc2 hn2 .done)) ht hp
        have hc2 : lex1.token = .ch ',' := hc2
        obtain ⟨p3, p2, k1, _, k1', k2, k3, k4, k5, k6⟩ := ih (n := n) (k := k + 1) (p := { p with lex := lex2, bcode := emitInst p.bcode (.onLine m) }) hT.1 hT.2 hs hk
          (by simp only [List.length_cons] at hn; omega)
        refine ⟨{ p with lex := lex1, bcode := emitInst p.bcode (.onLine m) }, p2, (bind_ok (lineNumber_ok g1 g2 hc1 hn1)).trans rfl,
          (scans_tame (.more hc1 hn1 .done) ht hp).1, ?_, k2, k3, by rw [k4]; simp [emitInst], k5, by rw [k6]; simp [emitInst, Inst.isData]⟩
        conv => lhs; unfold onLoop
        refine (token_bind _ _).trans ?_
        rw [if_pos hc2]
        refine (bind_ok (next_ok (p := { p with lex := lex1, bcode := emitInst p.bcode (.onLine m) }) (lex' := lex2) (t := t2) hn2)).trans ?_
        refine (bind_ok k1).trans ?_
        rw [k1', List.length_cons]
        congr 1
        omega

theorem lineNos_no_eol {l : List Lexeme} {ns : List Nat} (h : Src.LineNos l ns) : ∀ a ∈ l, a ≠ opTok '\n' := by
  induction h with
  | one => intro a ha; simp at ha; subst ha; intro h; cases h
  | more _ _ _ ih =>
    intro a ha
    simp only [List.mem_cons] at ha
    rcases ha with rfl | rfl | ha
    · intro h; cases h
    · decide
    · exact ih a ha

theorem getElem_set_middle {α : Type} (a b : List α) (x y : α) : (a ++ x :: b).set a.length y = a ++ y :: b := by simp

theorem onStatement_put {p : Parser} {g : Bool} {l : List Lexeme} {e : Expr .num} {l' : List Lexeme} {ns : List Nat} {lex' : Lex} (h : Phrase .or l e) (h' : Src.LineNos l' ns)
    (hw : WellNamed p.st) {text : CStr} (ht : p.lex.text = some text) (hp : p.lex.pos ≤ text.length)
    (hs : Scans p.lex (Src.kw .ON :: (l ++ Src.kw (if g then .GOSUB else .GOTO) :: l')) lex') (hk : EndTok lex'.token) :
    ∃ p', onStatement p = .ok () p' ∧ p'.lex = lex' ∧ PutS fs p [.on g e ns] p' := by
  cases hs with
  | @more _ _ _ t1 lex1 _ hc1 hn1 hs =>
    obtain ⟨lex2, hs1, hs2⟩ := hs.split
    have hT1 := scans_tame (.more hc1 hn1 .done) ht hp
    have hT2 := scans_tame hs1 hT1.1 hT1.2
    cases hs2 with
    | @more _ _ _ t3 lex3 _ hc3 hn3 hs3 =>
      have hT3 := scans_tame (.more hc3 hn3 .done) hT2.1 hT2.2
      have hlen := (scans_length hs3 hT3.1 hT3.2 (lineNos_no_eol h')).1
      have hc1 : p.lex.token = .kw .ON := hc1
      have hc3 : lex2.token = .kw (if g then .GOSUB else .GOTO) := hc3
      obtain ⟨p1, k1, k2⟩ := numericExpression_put (p := { p with lex := lex1 }) hw h hT1.1 hT1.2 hs1 (by rw [hc3]; cases g <;> decide)
      obtain ⟨c, m1, m2⟩ := k2.code
      have m1' : p1.bcode.inst = p.bcode.inst ++ c := by rw [m1]
      obtain ⟨p2, p3, j1, j1', j1'', j2, j3, j4, j5, j6⟩ := lineNos_put h' (n := text.length + 2) (k := 0) (p := { p1 with lex := lex3, bcode := emitInst p1.bcode (onInst g 0) })
        hT3.1 hT3.2 hs3 hk (by omega)
      have hinst : p3.bcode.inst = (p.bcode.inst ++ c) ++ onInst g 0 :: ns.map .onLine := by rw [j4]; simp [emitInst, m1']
      have hused : p1.bcode.used = (p.bcode.inst ++ c).length := by rw [Bcode.used, m1']
      refine ⟨{ p3 with bcode := { p3.bcode with inst := (p.bcode.inst ++ c) ++ onInst g ns.length :: ns.map .onLine } }, ?_, j2, j3.trans k2.ifThen, ?_, ?_, ?_, ?_, ?_⟩
      · unfold onStatement
        refine (bind_ok (matchTok_ok hc1 hn1)).trans ?_
        refine (bind_ok k1).trans ?_
        refine (token_bind _ _).trans ?_
        have htok : p1.lex.token = .kw (if g then .GOSUB else .GOTO) := by rw [k2.lex]; exact hc3
        rw [if_pos (by rw [htok]; cases g <;> decide)]
        have hop : (if p1.lex.token = .kw .GOTO then Inst.onGoto else Inst.onGosub) = onInst g := by
          rw [htok]; cases g <;> rfl
        rw [hop]
        refine (bind_ok (x := here) (p := p1) rfl).trans ?_
        refine (bind_ok (x := emit (onInst g 0)) (p := p1) rfl).trans ?_
        refine (bind_ok (next_ok (p := { p1 with bcode := emitInst p1.bcode (onInst g 0) }) (lex' := lex3) (t := t3) (by show lexNext p1.lex = _; rw [k2.lex]; exact hn3))).trans ?_
        refine (bind_ok j1).trans ?_
        refine (bind_ok (fuel_ok j1')).trans ?_
        refine (bind_ok j1'').trans ?_
        unfold patch patchInst
        rw [if_pos (show p1.bcode.used < p3.bcode.used by rw [hused, Bcode.used, hinst]; simp), Nat.zero_add]
        show PRes.ok () { p3 with bcode := ⟨p3.bcode.inst.set p1.bcode.used _, p3.bcode.hasData⟩ } = _
        rw [hinst, hused, getElem_set_middle]
      · refine ⟨c ++ onInst g ns.length :: ns.map .onLine, by simp, ?_⟩
        show StmtsCode p3.st _ _
        rw [j5]
        exact .one (.on m2)
      · show WellNamed p3.st
        rw [j5]; exact k2.names
      · show Grows p.st p3.st
        rw [j5]; exact k2.grows
      · show Added fs _ p.st p3.st
        rw [j5]
        have := k2.added (fs := fs)
        simpa [Src.lineVars, Src.Stmt.vars] using this
      · intro hd
        left
        have hd : p3.bcode.hasData = true := hd
        rw [j6] at hd
        cases g <;> simpa [emitInst, Inst.isData, onInst, m1] using hd

/-- The name of a function in DEF. -/
theorem defSymbol_put {p : Parser} {w : CStr} (hw : WellNamed p.st) (hb : LB.builtin w = none) (ha : Apart fs p.st) (hf : Among fs w) :
    ∃ q st' s, defSymbol w (nameType w) p = .ok q { p with st := st' } ∧ st'.psym[q]? = some s ∧ SameIgnoringCase s.name w ∧ s.kind = .def_ ∧ s.type = nameType w ∧
      WellNamed st' ∧ Grows p.st st' ∧ Added fs 1 p.st st' := by
  cases hl : symLookup p.st w true with
  | some q =>
    obtain ⟨s, hs, hm, hsn⟩ := lookup_some hl
    have hb' : s.kind ≠ .builtin := by
      intro h
      have := builtin_found hw.tab hs hsn h
      rw [hb] at this
      cases this
    have ht : s.type = nameType w := by
      rw [hw.tab.type q s hs hb']
      simp only [nameType, stringName_same hsn]
    have hsame := (strcasecmp_eq_zero_iff ..).1 hsn
    have hfs : Among fs s.name := hf.same (Eq.symm hsame)
    by_cases hu : s.kind = .unknown
    · have hget : (symUpdate p.st q (fun s => { s with kind := .def_ })).psym[q]? = some { s with kind := .def_ } := by
        simp [symUpdate, hs]
      refine ⟨q, symUpdate p.st q (fun s => { s with kind := .def_ }), { s with kind := .def_ }, ?_, hget, hsame, rfl, ht,
        hw.setKind hs hu (.inr (.inr rfl)), (hw.tab.setKind hs hu .def_ (.inr (.inr rfl))).1.grows, ?_⟩
      · simp only [defSymbol, bind_apply, lookup, hl, sym, hs, if_true, hu, setKind, pure_apply]
      · refine ⟨by simp [symUpdate], by simp [symUpdate], fun q' s' hs' => ?_, fun q' s' hs' hq => ?_⟩
        · by_cases hq : q' = q
          · subst hq
            rw [hs] at hs'; cases hs'
            exact .inr ⟨hu, .def_, .inr rfl, hget, fun _ => hfs, fun h => by cases h⟩
          · left
            simp only [symUpdate, List.getElem?_modify, hs', Option.map_eq_map, Option.map_some]
            rw [if_neg (fun h => hq h.symm)]
        · rw [List.getElem?_eq_none (by simpa [symUpdate] using hq)] at hs'
          cases hs'
    · have hkind : s.kind = .def_ := by
        have : s.kind ≠ .array := fun h => (ha s (List.mem_of_getElem? hs)).2 h hfs
        revert hm hb' hu this
        cases s.kind <;> decide
      refine ⟨q, p.st, s, ?_, hs, hsame, hkind, ht, hw, Grows.refl _, Added.refl _⟩
      simp only [defSymbol, bind_apply, lookup, hl, sym, hs, hkind]
      rfl
  | none =>
    refine ⟨_, _, _, ?_, inserted p.st w .def_ (nameType w) false, rfl, rfl, rfl,
      hw.insert (b := true) (by decide) (by decide) hl false, (hw.tab.insert w .def_ (by decide) false).grows, added_insert (by simp) ⟨fun _ => hf, fun h => by cases h⟩⟩
    simp only [defSymbol, bind_apply, lookup, hl, insert]

theorem stringExpression_put {p : Parser} {l : List Lexeme} {e : Expr .str} {lex' : Lex} (hw : WellNamed p.st) (h : Phrase .or l e) {text : CStr}
    (ht : p.lex.text = some text) (hp : p.lex.pos ≤ text.length) (hs : Scans p.lex l lex') (hk : ¬ Continues lex'.token) :
    ∃ p', stringExpression expression p = .ok () p' ∧ Put p e lex' p' := by
  obtain ⟨p', h1, h2⟩ := expression_put hw h ht hp hs hk
  refine ⟨p', ?_, h2⟩
  unfold stringExpression
  rw [bind_ok h1]
  rfl

/-- An expression of the type that its place requires. -/
theorem typed_put {p : Parser} {l : List Lexeme} {t : Ty} {e : Expr t} {lex' : Lex} (hw : WellNamed p.st) (h : Phrase .or l e) {text : CStr}
    (ht : p.lex.text = some text) (hp : p.lex.pos ≤ text.length) (hs : Scans p.lex l lex') (hk : ¬ Continues lex'.token) :
    ∃ p', (if t = .str then stringExpression expression else numericExpression expression) p = .ok () p' ∧ Put p e lex' p' := by
  cases t with
  | num => exact numericExpression_put hw h ht hp hs hk
  | str => exact stringExpression_put hw h ht hp hs hk
  | err => exact absurd rfl h.type_ne

/-- DEF. -/
theorem defStatement_put {p : Parser} {w x : CStr} {l : List Lexeme} {e : Expr (typeOf w)} {lex' : Lex} (hb : LB.builtin w = none) (hb' : LB.builtin x = none)
    (hx : x.getLast? ≠ some '$') (h : Phrase .or l e) (hw : WellNamed p.st) (hd : Proper fs p.st [.def_ (typeOf w) w x e]) {text : CStr}
    (ht : p.lex.text = some text) (hp : p.lex.pos ≤ text.length)
    (hs : Scans p.lex (Src.kw .DEF :: .name w :: opTok '(' :: .name x :: opTok ')' :: opTok '=' :: l) lex') (hk : ¬ Continues lex'.token) :
    ∃ p', defStatement p = .ok () p' ∧ p'.lex = lex' ∧ PutS fs p [.def_ (typeOf w) w x e] p' := by
  cases hs with
  | @more _ _ _ t1 lex1 _ hc1 hn1 hs =>
    cases hs with
    | @more _ _ _ t2 lex2 _ hc2 hn2 hs =>
      cases hs with
      | @more _ _ _ t3 lex3 _ hc3 hn3 hs =>
        cases hs with
        | @more _ _ _ t4 lex4 _ hc4 hn4 hs =>
          cases hs with
          | @more _ _ _ t5 lex5 _ hc5 hn5 hs =>
            cases hs with
            | @more _ _ _ t6 lex6 _ hc6 hn6 hs =>
              have hT := scans_tame (.more hc1 hn1 (.more hc2 hn2 (.more hc3 hn3 (.more hc4 hn4 (.more hc5 hn5 (.more hc6 hn6 .done)))))) ht hp
              have hc1 : p.lex.token = .kw .DEF := hc1
              have hc3 : lex2.token = .ch '(' := hc3
              have hc5 : lex4.token = .ch ')' := hc5
              have hc6 : lex5.token = .ch '=' := hc6
              obtain ⟨hc2, rfl⟩ : lex1.token = .id ∧ lex1.word = w := hc2
              obtain ⟨q, st1, s1, i1, i2, i3, i4, i5, i6, i7, i8⟩ := defSymbol_put (p := { p with lex := lex1 }) hw hb hd.1 ((hd.2 _ (List.mem_singleton.2 rfl)).1 _ rfl)
              obtain ⟨q2, st2, s2, j1, j2, j3, j4, j5, j6, j7, j8⟩ := numericSimpleVariable_name (expr := expression)
                (p := { p with lex := lex3, st := st1, bcode := emitInst p.bcode (.def_ s1.id 1) }) i6 hb' hx hc4 hn4 (by rw [hc5]; decide)
              obtain ⟨p', k1, k2⟩ := typed_put (p := { p with lex := lex6, st := st2, bcode := emitInst (emitInst p.bcode (.def_ s1.id 1)) (.param s2.id) }) j6 h hT.1 hT.2 hs hk
              obtain ⟨c, m1, m2⟩ := k2.code
              have hN : nameType lex1.word = typeOf lex1.word := typeOf_name _
              have hF : Fnamed p'.st lex1.word (typeOf lex1.word) s1.id := Fnamed.grow ⟨q, s1, i2, i3, i4, i5.trans hN, rfl⟩ (j7.trans k2.grows)
              have hP : Numbered p'.st x .num s2.id := Numbered.grow ⟨q2, s2, j2, j3, j4, j5, rfl⟩ k2.grows
              refine ⟨{ p' with bcode := emitInst p'.bcode .endDef }, ?_, k2.lex, k2.ifThen,
                ⟨.def_ s1.id 1 :: .param s2.id :: (c ++ [.endDef]), by simp [emitInst, m1], .one (.def_ hF hP m2 (typeOf_type _))⟩, k2.names, (i7.trans j7).trans k2.grows, ?_,
                fun hd => .inl (by simpa [emitInst, Inst.isData, m1] using hd)⟩
              · unfold defStatement
                refine (bind_ok (matchTok_ok hc1 hn1)).trans ?_
                refine (token_bind _ { p with lex := lex1 }).trans ?_
                rw [if_neg (by simpa using hc2)]
                refine (bind_ok (x := word) (p := { p with lex := lex1 }) rfl).trans ?_
                refine (bind_ok i1).trans ?_
                refine (bind_ok (matchTok_ok (p := { p with lex := lex1, st := st1 }) hc2 hn2)).trans ?_
                refine (bind_ok (sym_ok (p := { p with lex := lex2, st := st1 }) i2)).trans ?_
                refine (bind_ok (x := emit (.def_ s1.id 1)) (p := { p with lex := lex2, st := st1 }) rfl).trans ?_
                refine (bind_ok (matchTok_ok (p := { p with lex := lex2, st := st1, bcode := emitInst p.bcode (.def_ s1.id 1) }) hc3 hn3)).trans ?_
                refine (bind_ok (x := defParameter) (a := ()) (p' := { p with lex := lex4, st := st2, bcode := emitInst (emitInst p.bcode (.def_ s1.id 1)) (.param s2.id) }) ?_).trans ?_
                · unfold defParameter
                  refine (bind_ok j1).trans ?_
                  refine (bind_ok (sym_ok (p := { p with lex := lex4, st := st2, bcode := emitInst p.bcode (.def_ s1.id 1) }) j2)).trans ?_
                  rfl
                refine (bind_ok (matchTok_ok (p := { p with lex := lex4, st := st2, bcode := emitInst (emitInst p.bcode (.def_ s1.id 1)) (.param s2.id) }) hc5 hn5)).trans ?_
                refine (bind_ok (matchTok_ok (p := { p with lex := lex5, st := st2, bcode := emitInst (emitInst p.bcode (.def_ s1.id 1)) (.param s2.id) }) hc6 hn6)).trans ?_
                have hN' : (if stringName lex1.word = true then Ty.str else Ty.num) = typeOf lex1.word := hN
                rw [hN']
                by_cases hty : typeOf lex1.word = .str
                · rw [if_pos hty] at k1 ⊢
                  exact (bind_ok k1).trans rfl
                · rw [if_neg hty] at k1 ⊢
                  exact (bind_ok k1).trans rfl
              · have := (i8.trans j8).trans k2.added
                simp only [Src.lineVars, List.map_cons, List.map_nil, List.sum_cons, List.sum_nil, Src.Stmt.vars]
                exact this.mono (by omega)

/-- The items of DATA. -/
theorem dataLoop_put {vs : List CStr} {lex : Lex} {tok : Tok} {lex' : Lex} (h : DataMoves vs lex tok lex') : ∀ {n : Nat} {p : Parser}, p.lex = lex → vs.length ≤ n →
    ∃ v vs' lex1, vs = v :: vs' ∧ lexNextData lex = .ok (v, lex1) ∧ ∀ p1 : Parser, p1.lex = lex1 →
      ∃ p', dataLoop n p1 = .ok () p' ∧ p'.lex = lex' ∧ p'.ifThen = p1.ifThen ∧ p'.bcode.inst = p1.bcode.inst ++ vs'.map .data ∧ p'.st = p1.st := by
  induction h with
  | @last v lex lex1 t lex' h1 h2 h3 =>
    intro n p hp hn
    obtain ⟨n, rfl⟩ : ∃ k, n = k + 1 := ⟨n - 1, by simp at hn; omega⟩
    refine ⟨v, [], lex1, rfl, h1, ?_⟩
    rintro p1 rfl
    refine ⟨{ p1 with lex := lex' }, ?_, rfl, rfl, by simp, rfl⟩
    unfold dataLoop
    refine (bind_ok (next_ok h2)).trans ?_
    rw [if_neg h3]
    rfl
  | @more v lex lex1 lex2 vs t lex' h1 h2 _ ih =>
    intro n p hp hn
    obtain ⟨n, rfl⟩ : ∃ k, n = k + 1 := ⟨n - 1, by simp at hn; omega⟩
    refine ⟨v, vs, lex1, rfl, h1, ?_⟩
    rintro p1 rfl
    obtain ⟨v', vs', lex3, rfl, k1, k2⟩ := ih (n := n) (p := { p1 with lex := lex2 }) rfl (by simp only [List.length_cons] at hn ⊢; omega)
    obtain ⟨p', j1, j2, j3, j4, j5⟩ := k2 { p1 with lex := lex3, bcode := emitInst p1.bcode (.data v') } rfl
    refine ⟨p', ?_, j2, j3, by rw [j4]; simp [emitInst], j5⟩
    unfold dataLoop
    refine (bind_ok (next_ok h2)).trans ?_
    rw [if_pos rfl]
    refine (bind_ok (x := nextData) (p := { p1 with lex := lex2 }) (p' := { p1 with lex := lex3 }) (a := v') (by simp only [nextData, k1])).trans ?_
    refine (bind_ok (x := emit (.data v')) (p := { p1 with lex := lex3 }) rfl).trans ?_
    exact j1

theorem dataStatement_put {p : Parser} {vs : List CStr} {tok : Tok} {lex' : Lex} (hw : WellNamed p.st) {text : CStr} (ht : p.lex.text = some text)
    (hp : p.lex.pos ≤ text.length) (h : DataMoves vs p.lex tok lex') :
    ∃ p', dataStatement p = .ok () p' ∧ p'.lex = lex' ∧ PutS fs p [.data vs] p' := by
  have hW : Within text p.lex.prefixes p.lex.pos p.lex := ⟨ht, hp, Nat.le_refl _, rfl⟩
  have hlen := (data_moves_tame h hW).2.2
  obtain ⟨v, vs', lex1, rfl, h1, h2⟩ := dataLoop_put h (n := text.length + 2) (p := p) rfl (by omega)
  have hT := lexNextData_tame hW
  rw [h1] at hT
  obtain ⟨p', j1, j2, j3, j4, j5⟩ := h2 { p with lex := lex1, bcode := emitInst p.bcode (.data v) } rfl
  refine ⟨p', ?_, j2, j3, ⟨(v :: vs').map .data, by rw [j4]; simp [emitInst], .one .data⟩, by rw [j5]; exact hw, by rw [j5]; exact Grows.refl _, by rw [j5]; exact Added.refl _, fun _ => .inr (by simp [Src.dataOf])⟩
  unfold dataStatement
  refine (bind_ok (x := nextData) (p := p) (p' := { p with lex := lex1 }) (a := v) (by simp only [nextData, h1])).trans ?_
  refine (bind_ok (x := emit (.data v)) (p := { p with lex := lex1 }) rfl).trans ?_
  refine (bind_ok (fuel_ok (p := { p with lex := lex1, bcode := emitInst p.bcode (.data v) }) hT.text)).trans ?_
  exact j1

end P
end LB
