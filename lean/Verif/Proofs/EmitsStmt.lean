import Verif.Proofs.EmitsExpr
/- The code of statements. -/
namespace LB
open Code

/-- The function with the identity `id` has the type `t`. -/
def FnTy (st : SymTab) (id : Nat) (t : Ty) : Prop := Ident st id (fun s => s.kind = .def_ ∧ s.type = t)

theorem FnTy.grow {st st' : SymTab} (hg : Grows st st') {id : Nat} {t : Ty} (h : FnTy st id t) : FnTy st' id t := by
  refine Ident.grow h hg ?_
  rintro s s' ht hk ⟨h1, h2⟩
  refine ⟨?_, by rw [ht]; exact h2⟩
  rcases hk with hk | ⟨hk, _⟩
  · rw [hk]; exact h1
  · rw [h1] at hk; cases hk

theorem pieces_grow {st st' : SymTab} (hg : Grows st st') {l : List Inst} (h : Pieces (FnTy st) l) : Pieces (FnTy st') l :=
  h.types fun _ _ => FnTy.grow hg

namespace P
variable {α : Type} {st0 : SymTab}

/-- The function appends whole pieces of code. -/
abbrev Whole {α : Type} (st : SymTab) (_ : α) (e : List Inst) : Prop := Pieces (FnTy st) e

/-- One whole piece after another. -/
theorem Emits.whole {β : Type} {x : P α} {f : α → P β} (hx : Emits st0 x Whole) (hf : ∀ a st1, Grown st0 st1 → Emits st1 (f a) Whole) :
    Emits st0 (x >>= f) Whole :=
  Emits.bind hx fun a _ st1 hg r => Emits.imp (hf a st1 hg) fun _ _ _ hg2 r2 => (pieces_grow hg2.grows r).append r2

/-- An instruction that is a piece of its own. -/
theorem Emits.single {i : Inst} (hf : ∀ st, Grown st0 st → Fits st i) (hi : inert i = true) (hp : Code.plain i = true)
    (hu : uses i = (0, 0)) : Emits st0 (P.emit i) Whole :=
  .emit fun st hs => ⟨hf st hs, hi, Pieces.one (Ready.plain (e := []) (by rw [hu]; exact Runs.nil _) hp)⟩

/-- An instruction ending a piece. -/
theorem Emits.ending {i : Inst} {e : List Inst} {h : Nat × Nat} (hr : Runs e (0, 0) h) (hf : ∀ st, Grown st0 st → Fits st i)
    (hi : inert i = true) (hp : Code.plain i = true) (h1 : (uses i).1 ≤ h.1) (h2 : (uses i).2 ≤ h.2) :
    Emits st0 (P.emit i) (fun st _ e2 => Pieces (FnTy st) (e ++ e2)) :=
  .emit fun st hs => ⟨hf st hs, hi, Pieces.simple (hr.less h1 h2) hp⟩

theorem Emits.wnil {a : α} : Emits st0 (Pure.pure a : P α) Whole := .pure fun _ _ => .nil

theorem emits_number : Emits st0 (numericExpression expression) (Leaves (1, 0)) := emits_numericExpression emits_expression

theorem emits_dataLoop (n : Nat) : Emits st0 (dataLoop n) Whole := by
  induction n generalizing st0 with
  | zero => exact .outOfFuel
  | succ n ih =>
    unfold dataLoop
    skip_quiet
    refine Emits.ite (fun _ => ?_) (fun _ => .wnil)
    skip_quiet
    exact Emits.whole (.single (fun _ _ => trivial) rfl rfl rfl) fun _ _ _ => ih

theorem emits_dataStatement : Emits st0 dataStatement Whole := by
  unfold dataStatement
  skip_quiet
  refine Emits.whole (.single (fun _ _ => trivial) rfl rfl rfl) fun _ _ _ => ?_
  skip_quiet
  exact emits_dataLoop _

/-- A symbol for a variable or an array element, by its number of subscripts. -/
def Place (s : Symbol) (n : Nat) : Prop :=
  (n = 0 → s.kind = .variable ∨ s.kind = .builtin) ∧ (n ≠ 0 → s.kind = .array)

/-- The symbol of an assignment, INPUT, READ or DIM. -/
theorem emits_place : Emits st0 (identifier expression .array)
    (fun st r e => (∃ s, st.psym[r.1]? = some s ∧ Place s r.2) ∧ Runs e (0, 0) (r.2, 0)) := by
  refine Emits.imp (emits_identifier emits_expression (.inr rfl)) ?_
  rintro st r e _ ⟨⟨name, s, hs, _, _, h1, h2⟩, hr, _⟩
  exact ⟨⟨s, hs, h1, fun h => (h2 h).1 rfl⟩, hr⟩

theorem Place.grow {st st' : SymTab} (hg : Grows st st') {q n : Nat} {s : Symbol} (hs : st.psym[q]? = some s) (hp : Place s n)
    {s' : Symbol} (hs' : st'.psym[q]? = some s') : Place s' n := by
  obtain ⟨s2, hs2, _, _, _, hk⟩ := hg q s hs
  rw [hs'] at hs2; cases hs2
  constructor
  · intro h0
    rcases hk with hk | ⟨hk, _⟩
    · rw [hk]; exact hp.1 h0
    · rcases hp.1 h0 with h | h <;> rw [h] at hk <;> cases hk
  · intro h0
    rcases hk with hk | ⟨hk, _⟩
    · rw [hk]; exact hp.2 h0
    · have := hp.2 h0; rw [this] at hk; cases hk

/-- What `Place` says for the operands of READ and INPUT. -/
theorem Place.operand {s : Symbol} {n : Nat} {t : Ty} (hp : Place s n) (ht : s.type = t ∨ s.kind = .builtin) :
    n % 256 = 0 ∧ IsVar t s ∨ IsBuiltin s ∨ IsArr t s := by
  by_cases h0 : n = 0
  · rcases hp.1 h0 with h | h
    · rcases ht with ht | ht
      · exact .inl ⟨by omega, h, ht⟩
      · exact .inr (.inl ht)
    · exact .inr (.inl h)
  · rcases ht with ht | ht
    · exact .inr (.inr ⟨hp.2 h0, ht⟩)
    · exact .inr (.inl ht)

theorem Tab.types {st : SymTab} (h : Tab st) {q : Nat} {s : Symbol} (hs : st.psym[q]? = some s) (hb : s.kind ≠ .builtin) :
    s.type = .num ∨ s.type = .str := by
  rw [h.type q s hs hb]; unfold nameType; split <;> simp

theorem emits_readItem : Emits st0 readItem Whole := by
  unfold readItem
  refine Emits.bind emits_place fun r e st1 hg1 h1 => ?_
  obtain ⟨⟨s0, hs0, hp0⟩, hr⟩ := h1
  refine Emits.sym fun s st2 hg2 hs => ?_
  have hp := hp0.grow hg2.grows hs0 hs
  refine Emits.ite (fun ht => ?_) (fun _ => Emits.ite (fun ht => ?_) fun _ => .assertFail)
  · refine .ending hr (fun st hg => Fits.grow hg.grows (i := .readStr s.id (r.2 % 256)) (ident_of hs ?_)) rfl rfl (Nat.mod_le _ _) (Nat.le_refl _)
    exact hp.operand (.inl ht)
  · refine .ending hr (fun st hg => Fits.grow hg.grows (i := .readNum s.id (r.2 % 256)) (ident_of hs ?_)) rfl rfl (Nat.mod_le _ _) (Nat.le_refl _)
    exact hp.operand (.inl ht)

theorem emits_commaLoop {item : P Unit} (hi : ∀ st0, Emits st0 item Whole) (n : Nat) : Emits st0 (commaLoop item n) Whole := by
  induction n generalizing st0 with
  | zero => exact .outOfFuel
  | succ n ih =>
    unfold commaLoop
    skip_quiet
    refine Emits.ite (fun _ => ?_) (fun _ => .wnil)
    skip_quiet
    exact Emits.whole (hi _) fun _ _ _ => ih

theorem emits_readStatement : Emits st0 readStatement Whole := by
  unfold readStatement
  skip_quiet
  refine Emits.whole emits_readItem fun _ _ _ => ?_
  skip_quiet
  exact emits_commaLoop (fun _ => emits_readItem) _

theorem emits_restoreStatement : Emits st0 restoreStatement Whole := by
  unfold restoreStatement
  skip_quiet
  skip_quiet
  refine Emits.ite (fun _ => ?_) (fun _ => .single (fun _ _ => trivial) rfl rfl rfl)
  skip_quiet
  exact .single (fun _ _ => trivial) rfl rfl rfl

theorem emits_defParameter : Emits st0 defParameter (fun _ _ e => ∃ pid, e = [.param pid]) := by
  unfold defParameter
  refine Emits.bind (emits_numericSimpleVariable emits_expression) fun q e st1 hg1 h1 => ?_
  obtain ⟨rfl, s0, hs0, hv⟩ := h1
  refine Emits.sym fun s st2 hg2 hs => ?_
  obtain ⟨s', hs', _, hv'⟩ := Grows.var hg2.grows hs0 hv
  rw [hs] at hs'; cases hs'
  exact .emit fun st hg => ⟨Fits.grow hg.grows (i := .param s.id) (ident_of hs hv'), rfl, _, rfl⟩

theorem emits_defSymbol (name : CStr) :
    Emits st0 (defSymbol name (nameType name))
      (fun st q e => e = [] ∧ ∃ s, st.psym[q]? = some s ∧ s.kind = .def_ ∧ s.type = nameType name) := by
  intro p hp
  have ht := hp.tab
  simp only [defSymbol, bind_apply, lookup]
  cases hf : symLookup p.st name true with
  | some q =>
    obtain ⟨s, hs, hm, hn⟩ := lookup_some hf
    simp only [bind_apply, sym, hs]
    have hty : s.kind ≠ .builtin → s.type = nameType name := by
      intro hb
      rw [ht.type q s hs hb]
      unfold nameType
      rw [stringName_same hn]
    by_cases hu : s.kind = .unknown
    · simp only [hu, if_true, bind_apply, setKind, pure_apply]
      obtain ⟨g, hq⟩ := ht.setKind hs hu .def_ (by simp)
      exact ⟨g, rfl, [], by simp, by simp, rfl, _, hq, rfl, hty (by rw [hu]; simp)⟩
    · simp only [hu, if_false]
      by_cases hd : s.kind = .def_
      · simp only [hd, ne_eq, not_true_eq_false, if_false, pure_apply]
        exact ⟨Grown.refl ht, rfl, [], by simp, by simp, rfl, s, hs, hd, hty (by rw [hd]; simp)⟩
      · simp only [hd, ne_eq, not_false_eq_true, if_true, fail]
        exact Grown.refl ht
  | none =>
    simp only [insert]
    exact ⟨ht.insert name .def_ (by simp) false, rfl, [], by simp, by simp, rfl, _, inserted _ _ _ _ _, rfl, rfl⟩

theorem emits_defStatement : Emits st0 defStatement Whole := by
  unfold defStatement
  skip_quiet
  skip_quiet
  refine Emits.ite (fun _ => .fail) fun _ => ?_
  refine Emits.silent (by quiet) fun name => ?_
  show Emits st0 (do
    let q ← defSymbol name (nameType name)
    matchTok .id
    let s ← sym q
    emit (.def_ s.id 1)
    matchTok (.ch '(')
    defParameter
    matchTok (.ch ')')
    matchTok (.ch '=')
    if nameType name = .str then do
      stringExpression expression
      emit .endDef
    else do
      numericExpression expression
      emit .endDef) _
  refine Emits.bind (emits_defSymbol name) fun q e0 st1 hg1 h1 => ?_
  obtain ⟨rfl, s0, hs0, hk0, ht0⟩ := h1
  skip_quiet
  refine Emits.sym fun s st2 hg2 hs => ?_
  obtain ⟨s', hs', hi, hty, _, hk⟩ := hg2.grows q s0 hs0
  rw [hs] at hs'; cases hs'
  have hk : s.kind = .def_ := by
    rcases hk with hk | ⟨hk, _⟩
    · rw [hk, hk0]
    · rw [hk0] at hk; cases hk
  rw [ht0] at hty
  refine Emits.bind (R1 := fun st _ e => e = [.def_ s.id 1] ∧ FnTy st s.id (nameType name)) (.emit fun st hg =>
    ⟨Fits.grow hg.grows (i := .def_ s.id 1) ⟨rfl, ident_of hs hk⟩, rfl, rfl, FnTy.grow hg.grows (ident_of hs ⟨hk, hty⟩)⟩)
    fun _ e1 st3 hg3 h3 => ?_
  obtain ⟨rfl, hT⟩ := h3
  skip_quiet
  refine Emits.bind emits_defParameter fun _ e2 st4 hg4 h4 => ?_
  obtain ⟨pid, rfl⟩ := h4
  skip_quiet
  skip_quiet
  refine Emits.ite (fun hstr => ?_) (fun hstr => ?_)
  · refine Emits.bind (emits_stringExpression emits_expression) fun _ e3 st5 hg5 r5 => ?_
    refine .emit fun st hg => ⟨trivial, rfl, Pieces.one ?_⟩
    have hT' := FnTy.grow (hg4.trans (hg5.trans hg)).grows hT
    exact Ready.def_ hT' (by rw [hstr]; simp) (by rw [hstr]; exact r5)
  · refine Emits.bind (emits_numericExpression emits_expression) fun _ e3 st5 hg5 r5 => ?_
    refine .emit fun st hg => ⟨trivial, rfl, Pieces.one ?_⟩
    have hT' := FnTy.grow (hg4.trans (hg5.trans hg)).grows hT
    have hnum : nameType name = .num := by
      revert hstr; unfold nameType; split <;> simp
    exact Ready.def_ hT' (by rw [hnum]; simp) (by rw [hnum]; exact r5)

theorem emits_dimArray : Emits st0 dimArray Whole := by
  unfold dimArray
  refine Emits.bind emits_place fun r e st1 hg1 h1 => ?_
  obtain ⟨_, hr⟩ := h1
  refine Emits.sym fun s st2 hg2 hs => ?_
  refine Emits.ite (fun _ => .fail) fun hk => ?_
  simp only [ne_eq, Classical.not_not] at hk
  refine Emits.ite (fun ht => ?_) (fun ht => ?_)
  · exact .ending hr (fun st hg => Fits.grow hg.grows (i := .dimStr s.id (r.2 % 256)) (ident_of hs ⟨hk, ht⟩)) rfl rfl (Nat.mod_le _ _) (Nat.le_refl _)
  · have ht' := (Tab.types hg2.tab hs (by rw [hk]; simp)).resolve_right ht
    exact .ending hr (fun st hg => Fits.grow hg.grows (i := .dimNum s.id (r.2 % 256)) (ident_of hs ⟨hk, ht'⟩)) rfl rfl (Nat.mod_le _ _) (Nat.le_refl _)

theorem emits_dimStatement : Emits st0 dimStatement Whole := by
  unfold dimStatement
  skip_quiet
  refine Emits.whole emits_dimArray fun _ _ _ => ?_
  skip_quiet
  exact emits_commaLoop (fun _ => emits_dimArray) _

theorem emits_forStatement : Emits st0 forStatement Whole := by
  have last : ∀ (q : Nat) (s0 : Symbol) (st1 : SymTab) (e : List Inst), st1.psym[q]? = some s0 → IsVar .num s0 → Runs e (0, 0) (3, 0) →
      Emits st1 (do let s ← sym q; emit (.for_ s.id)) (fun st _ e2 => Pieces (FnTy st) (e ++ e2)) := by
    intro q s0 st1 e hs0 hv hr
    refine Emits.sym fun s st2 hg2 hs => ?_
    obtain ⟨s', hs', _, hv'⟩ := Grows.var hg2.grows hs0 hv
    rw [hs] at hs'; cases hs'
    exact .ending hr (fun st hg => Fits.grow hg.grows (i := .for_ s.id) (ident_of hs hv')) rfl rfl (Nat.le_refl _) (Nat.le_refl _)
  unfold forStatement
  skip_quiet
  refine Emits.bind (emits_numericSimpleVariable emits_expression) fun q e st1 hg1 h1 => ?_
  obtain ⟨rfl, s0, hs0, hv⟩ := h1
  skip_quiet
  refine Emits.bind emits_number fun _ e1 st2 hg2 r1 => ?_
  skip_quiet
  refine Emits.bind emits_number fun _ e2 st3 hg3 r2 => ?_
  skip_quiet
  obtain ⟨s', hs', _, hv'⟩ := Grows.var (hg2.trans hg3).grows hs0 hv
  have h12 : Runs (e1 ++ e2) (0, 0) (2, 0) := Runs.append r1 (Runs.frame 1 0 r2)
  refine Emits.ite (fun _ => ?_) (fun _ => ?_)
  · skip_quiet
    refine Emits.bind emits_number fun _ e3 st4 hg4 r3 => ?_
    obtain ⟨s'', hs'', _, hv''⟩ := Grows.var hg4.grows hs' hv'
    refine Emits.imp (last q s'' st4 (e1 ++ (e2 ++ e3)) hs'' hv'' ?_) ?_
    · rw [← List.append_assoc]
      exact Runs.append h12 (Runs.frame 2 0 r3)
    · intro st _ e _ h
      simpa [List.append_assoc] using h
  · refine Emits.bind (R1 := fun _ _ e => e = [.pushNum (.fin 1)]) (.emit fun _ _ => ⟨trivial, rfl, rfl⟩) fun _ e3 st4 hg4 r3 => ?_
    subst r3
    obtain ⟨s'', hs'', _, hv''⟩ := Grows.var hg4.grows hs' hv'
    refine Emits.imp (last q s'' st4 (e1 ++ (e2 ++ [.pushNum (.fin 1)])) hs'' hv'' ?_) ?_
    · rw [← List.append_assoc]
      exact Runs.append h12 (Runs.one (i := .pushNum (.fin 1)) rfl (by simp [uses]) (by simp [uses]))
    · intro st _ e _ h
      simpa [List.append_assoc] using h

theorem emits_nextItem : Emits st0 nextItem Whole := by
  unfold nextItem
  refine Emits.bind (emits_numericSimpleVariable emits_expression) fun q e st1 hg1 h1 => ?_
  obtain ⟨rfl, s0, hs0, hv⟩ := h1
  refine Emits.sym fun s st2 hg2 hs => ?_
  obtain ⟨s', hs', _, hv'⟩ := Grows.var hg2.grows hs0 hv
  rw [hs] at hs'; cases hs'
  exact .single (fun st hg => Fits.grow hg.grows (i := .nextVar s.id) (ident_of hs hv')) rfl rfl rfl

theorem emits_nextStatement : Emits st0 nextStatement Whole := by
  unfold nextStatement
  skip_quiet
  skip_quiet
  refine Emits.ite (fun _ => ?_) (fun _ => .single (fun _ _ => trivial) rfl rfl rfl)
  refine Emits.whole emits_nextItem fun _ _ _ => ?_
  skip_quiet
  exact emits_commaLoop (fun _ => emits_nextItem) _

theorem emits_inputBuffer : Emits st0 inputBuffer (fun _ _ e => ∃ p, e = [.inputBuf p]) := by
  unfold inputBuffer
  skip_quiet
  refine Emits.ite (fun _ => ?_) (fun _ => .emit fun _ _ => ⟨trivial, rfl, _, rfl⟩)
  skip_quiet
  skip_quiet
  refine Emits.ite (fun _ => ?_) (fun _ => .emit fun _ _ => ⟨trivial, rfl, _, rfl⟩)
  skip_quiet
  exact .emit fun _ _ => ⟨trivial, rfl, _, rfl⟩

theorem emits_inputItem : Emits st0 inputItem (fun _ _ e => ∃ e0 i, e = e0 ++ [i] ∧ Runs e0 (0, 0) (uses i) ∧ Code.item i = true) := by
  unfold inputItem
  refine Emits.bind emits_place fun r e st1 hg1 h1 => ?_
  obtain ⟨⟨s0, hs0, hp0⟩, hr⟩ := h1
  refine Emits.sym fun s st2 hg2 hs => ?_
  have hp := hp0.grow hg2.grows hs0 hs
  by_cases ht : s.type = .num
  · rw [if_pos ht]
    refine .emit fun st hg => ⟨Fits.grow hg.grows (i := .inputNum s.id (r.2 % 256)) (ident_of hs (hp.operand (.inl ht))), rfl, e, _, rfl, ?_, rfl⟩
    exact hr.less (Nat.mod_le _ _) (Nat.le_refl _)
  · rw [if_neg ht]
    have ht' : s.type = .str ∨ s.kind = .builtin := by
      by_cases hb : s.kind = .builtin
      · exact .inr hb
      · exact .inl ((Tab.types hg2.tab hs hb).resolve_left ht)
    refine .emit fun st hg => ⟨Fits.grow hg.grows (i := .inputStr s.id (r.2 % 256)) (ident_of hs (hp.operand ht')), rfl, e, _, rfl, ?_, rfl⟩
    exact hr.less (Nat.mod_le _ _) (Nat.le_refl _)

theorem emits_inputLoop (n : Nat) : Emits st0 (inputLoop n)
    (fun _ _ e => ∀ e0 i, Runs e0 (0, 0) (uses i) → Code.item i = true → Items (e0 ++ i :: (e ++ [.inputEnd]))) := by
  induction n generalizing st0 with
  | zero => exact .outOfFuel
  | succ n ih =>
    unfold inputLoop
    skip_quiet
    refine Emits.ite (fun _ => ?_) (fun _ => .pure fun _ _ e0 i hr hi => .last hr hi)
    skip_quiet
    refine Emits.bind (R1 := fun _ _ e => e = [.inputSep]) (.emit fun _ _ => ⟨trivial, rfl, rfl⟩) fun _ e1 st1 _ h1 => ?_
    subst h1
    refine Emits.bind emits_inputItem fun _ e2 st2 _ h2 => ?_
    obtain ⟨e2, i2, rfl, hr2, hi2⟩ := h2
    refine Emits.imp ih fun _ _ e _ h e0 i hr hi => ?_
    have := Items.more hr hi (h e2 i2 hr2 hi2)
    simpa [List.append_assoc] using this

theorem emits_inputStatement : Emits st0 inputStatement Whole := by
  unfold inputStatement
  skip_quiet
  refine Emits.bind emits_inputBuffer fun _ e1 st1 _ h1 => ?_
  obtain ⟨pr, rfl⟩ := h1
  refine Emits.bind emits_inputItem fun _ e2 st2 _ h2 => ?_
  obtain ⟨e2, i2, rfl, hr2, hi2⟩ := h2
  skip_quiet
  refine Emits.bind (emits_inputLoop _) fun _ e3 st3 _ h3 => ?_
  refine .emit fun _ _ => ⟨trivial, rfl, ?_⟩
  have := Pieces.one (Ready.input (T := FnTy ‹_›) (ip := False) (p := pr) (h := (0, 0)) (h3 e2 i2 hr2 hi2))
  simpa [List.append_assoc] using this

theorem emits_lineInputStatement : Emits st0 lineInputStatement Whole := by
  unfold lineInputStatement
  skip_quiet
  skip_quiet
  refine Emits.whole (Emits.imp emits_inputBuffer ?_) fun _ st1 hg1 => ?_
  · rintro st _ e _ ⟨p, rfl⟩
    exact Pieces.one (Ready.plain (e := []) (Runs.nil _) rfl)
  · refine Emits.bind emits_place fun r e st1 hg1 h1 => ?_
    obtain ⟨⟨s0, hs0, hp0⟩, hr⟩ := h1
    refine Emits.sym fun s st2 hg2 hs => ?_
    have hp := hp0.grow hg2.grows hs0 hs
    refine Emits.ite (fun _ => .fail) fun ht => ?_
    simp only [ne_eq, Classical.not_not] at ht
    exact .ending hr (fun st hg => Fits.grow hg.grows (i := .inputLine s.id (r.2 % 256)) (ident_of hs (hp.operand (.inl ht)))) rfl rfl (Nat.mod_le _ _) (Nat.le_refl _)

theorem emits_assignment : Emits st0 assignment Whole := by
  unfold assignment
  refine Emits.bind emits_place fun r e1 st1 hg1 h1 => ?_
  obtain ⟨⟨s0, hs0, hp0⟩, hr⟩ := h1
  skip_quiet
  refine Emits.bind (emits_expression _) fun t e2 st2 hg2 r2 => ?_
  refine Emits.sym fun s st3 hg3 hs => ?_
  have hp := hp0.grow (hg2.trans hg3).grows hs0 hs
  refine Emits.ite (fun _ => .fail) fun ht => ?_
  simp only [ne_eq, Classical.not_not] at ht
  subst ht
  have hall : Runs (e1 ++ e2) (0, 0) (r.2 + (unit s.type).1, (unit s.type).2) := by
    have := Runs.append hr (Runs.more (Runs.frame r.2 0 r2) (by simp) (by simp))
    rw [Nat.add_comm]; exact this
  have fin : ∀ i, (∀ st, Grown st3 st → Fits st i) → inert i = true → Code.plain i = true → (uses i).1 ≤ r.2 + (unit s.type).1 →
      (uses i).2 ≤ (unit s.type).2 → Emits st3 (emit i) (fun st _ e3 => Pieces (FnTy st) (e1 ++ (e2 ++ e3))) := by
    intro i h1 h2 h3 h4 h5
    refine Emits.imp (.ending hall h1 h2 h3 h4 h5) fun st _ e _ h => ?_
    rw [← List.append_assoc]; exact h
  refine Emits.ite (fun hn => ?_) (fun hn => ?_)
  · have hk := hp.2 hn
    by_cases ht : s.type = .str
    · rw [if_pos ht]
      refine fin (.setArrayStr s.id (r.2 % 256)) (fun st hg => Fits.grow hg.grows (i := .setArrayStr s.id (r.2 % 256)) (ident_of hs ⟨hk, ht⟩)) rfl rfl ?_ ?_
      · simp only [uses]; have := Nat.mod_le r.2 256; omega
      · rw [ht]; simp [uses, unit]
    · rw [if_neg ht]
      have ht' := (Tab.types hg3.tab hs (by rw [hk]; simp)).resolve_right ht
      refine fin (.setArrayNum s.id (r.2 % 256)) (fun st hg => Fits.grow hg.grows (i := .setArrayNum s.id (r.2 % 256)) (ident_of hs ⟨hk, ht'⟩)) rfl rfl ?_ ?_
      · simp only [uses, ht', unit]; have := Nat.mod_le r.2 256; omega
      · simp [uses]
  · simp only [ne_eq, Classical.not_not] at hn
    have hk := hp.1 hn
    by_cases ht : s.type = .str
    · rw [if_pos ht]
      refine fin (.setSimpleStr s.id) (fun st hg => Fits.grow hg.grows (i := .setSimpleStr s.id) (ident_of hs ?_)) rfl rfl ?_ ?_
      · rcases hk with hk | hk
        · exact .inl ⟨hk, ht⟩
        · exact .inr hk
      · simp [uses]
      · rw [ht]; simp [uses, unit]
    · rw [if_neg ht]
      refine fin (.setSimpleNum s.id) (fun st hg => Fits.grow hg.grows (i := .setSimpleNum s.id) (ident_of hs ?_)) rfl rfl ?_ ?_
      · rcases hk with hk | hk
        · exact .inl ⟨hk, (Tab.types hg3.tab hs (by rw [hk]; simp)).resolve_right ht⟩
        · exact .inr hk
      · have : (unit s.type).1 = 1 := by revert ht; cases s.type <;> simp [unit]
        rw [this]; simp [uses]
      · simp [uses]

theorem emits_onLine : Emits st0 onLine (fun _ _ e => e.length = 1 ∧ ∀ x ∈ e, isOnLine x = true) := by
  unfold onLine
  skip_quiet
  exact .emit fun _ _ => ⟨trivial, rfl, rfl, by simp [isOnLine]⟩

theorem emits_onLoop (n count : Nat) : Emits st0 (onLoop n count) (fun _ k e => k = count + e.length ∧ ∀ x ∈ e, isOnLine x = true) := by
  induction n generalizing st0 count with
  | zero => exact .outOfFuel
  | succ n ih =>
    unfold onLoop
    skip_quiet
    refine Emits.ite (fun _ => ?_) (fun _ => .pure fun _ _ => ⟨rfl, by simp⟩)
    skip_quiet
    refine Emits.bind emits_onLine fun _ e1 st1 _ h1 => ?_
    refine Emits.imp (ih (count + 1)) fun _ k e2 _ h2 => ⟨?_, ?_⟩
    · rw [List.length_append, h2.1, h1.1]; omega
    · intro x hx
      rcases List.mem_append.1 hx with hx | hx
      · exact h1.2 x hx
      · exact h2.2 x hx

theorem bind_assoc {α β γ : Type} (x : P α) (f : α → P β) (g : β → P γ) : (x >>= f) >>= g = x >>= fun a => f a >>= g := by
  funext p
  simp only [bind_apply]
  cases x p <;> rfl

theorem emits_onLines (op : Nat → Inst) (hop : op = .onGoto ∨ op = .onGosub) :
    Emits st0 (do
      let i ← here
      emit (op 0)
      let _ ← next
      onLine
      let n ← fuel
      let count ← onLoop n 1
      patch i (op count)) (fun _ _ e => ∃ ls : List Inst, e = op ls.length :: ls ∧ ∀ x ∈ ls, isOnLine x = true) := by
  have mid : ∀ st1, Emits st1 (do
      let _ ← next
      onLine
      let n ← fuel
      onLoop n 1) (fun _ k e => k = e.length ∧ ∀ x ∈ e, isOnLine x = true) := by
    intro st1
    skip_quiet
    refine Emits.bind emits_onLine fun _ e1 st2 _ h1 => ?_
    skip_quiet
    refine Emits.imp (emits_onLoop _ 1) fun _ k e2 _ h2 => ⟨?_, ?_⟩
    · rw [List.length_append, h2.1, h1.1]
    · intro x hx
      rcases List.mem_append.1 hx with hx | hx
      · exact h1.2 x hx
      · exact h2.2 x hx
  have hfit : ∀ st n, Fits st (op n) ∧ inert (op n) = true := by
    intro st n; rcases hop with h | h <;> rw [h] <;> exact ⟨trivial, rfl⟩
  intro p hp
  have h1 := mid p.st { p with bcode := emitInst p.bcode (op 0) } (Grown.refl hp.tab)
  have heq : (do
      let _ ← next
      onLine
      let n ← fuel
      let count ← onLoop n 1
      patch p.bcode.used (op count) : P Unit) = ((do
      let _ ← next
      onLine
      let n ← fuel
      onLoop n 1 : P Nat) >>= fun count => patch p.bcode.used (op count)) := by
    simp only [bind_assoc]
  show EmitsAt p ((do
      let _ ← next
      onLine
      let n ← fuel
      let count ← onLoop n 1
      patch p.bcode.used (op count) : P Unit) { p with bcode := emitInst p.bcode (op 0) }) _
  rw [heq, bind_apply]
  revert h1
  generalize ((do
      let _ ← next
      onLine
      let n ← fuel
      onLoop n 1 : P Nat) { p with bcode := emitInst p.bcode (op 0) }) = r
  cases r with
  | halt h => intro _; trivial
  | err m p' => intro h; exact h
  | ok k p' =>
    rintro ⟨hg, hit, e, hb, hf, hk, hl⟩
    simp only [patch, patchInst]
    simp only [emitInst] at hb
    have hlt : p.bcode.used < p'.bcode.used := by
      simp only [Bcode.used, hb, List.length_append, List.length_singleton]; omega
    rw [if_pos hlt]
    refine ⟨hg, hit, op k :: e, ?_, ?_, e, by rw [hk], hl⟩
    · simp only [Bcode.used, hb]
      rw [List.append_assoc, List.set_append_right _ _ (Nat.le_refl _)]
      simp
    · intro i hi
      rcases List.mem_cons.1 hi with rfl | hi
      · exact hfit _ _
      · exact hf i hi

theorem emits_onStatement : Emits st0 onStatement Whole := by
  unfold onStatement
  skip_quiet
  refine Emits.bind emits_number fun _ e1 st1 _ r1 => ?_
  refine Emits.silent (by quiet) fun t => ?_
  refine Emits.ite (fun _ => ?_) (fun _ => .fail)
  have hop : (if t = .kw .GOTO then Inst.onGoto else Inst.onGosub) = .onGoto ∨ (if t = .kw .GOTO then Inst.onGoto else Inst.onGosub) = .onGosub := by
    split <;> simp
  refine Emits.imp (emits_onLines _ hop) ?_
  rintro st _ e _ ⟨ls, rfl, hl⟩
  refine Pieces.one (Ready.on r1 ?_ hl)
  rcases hop with h | h <;> rw [h]
  · exact .inl rfl
  · exact .inr rfl

theorem emits_printBuiltin {i : Inst} (hi : i = .printSpc ∨ i = .printTab) : Emits st0 (printBuiltin i) Whole := by
  unfold printBuiltin
  skip_quiet
  skip_quiet
  refine Emits.bind emits_number fun _ e1 st1 _ r1 => ?_
  skip_quiet
  rcases hi with rfl | rfl
  · exact .ending r1 (fun _ _ => trivial) rfl rfl (Nat.le_refl _) (Nat.le_refl _)
  · exact .ending r1 (fun _ _ => trivial) rfl rfl (Nat.le_refl _) (Nat.le_refl _)

theorem emits_printLoop (n : Nat) (sep : Bool) : Emits st0 (printLoop n sep) Whole := by
  induction n generalizing st0 sep with
  | zero => exact .outOfFuel
  | succ n ih =>
    unfold printLoop
    skip_quiet
    refine Emits.ite (fun _ => .wnil) (fun _ => ?_)
    skip_quiet
    skip_quiet
    refine Emits.ite (fun _ => ?_) fun _ => Emits.ite (fun _ => ?_) fun _ => Emits.ite (fun _ => ?_) fun _ => Emits.ite (fun _ => ?_) fun _ => ?_
    · exact Emits.whole (emits_printBuiltin (.inl rfl)) fun _ _ _ => ih _
    · exact Emits.whole (emits_printBuiltin (.inr rfl)) fun _ _ _ => ih _
    · skip_quiet
      exact ih _
    · skip_quiet
      exact Emits.whole (.single (fun _ _ => trivial) rfl rfl rfl) fun _ _ _ => ih _
    · refine Emits.bind (emits_expression _) fun t e1 st1 _ r1 => ?_
      have : ∀ i, (∀ st, Fits st i) → inert i = true → Code.plain i = true → uses i = unit t →
          Emits st1 (do emit i; printLoop n false) (fun st _ e2 => Pieces (FnTy st) (e1 ++ e2)) := by
        intro i h1 h2 h3 h4
        refine Emits.bind (.ending (r1.less (k' := uses i) (by rw [h4]; exact Nat.le_refl _) (by rw [h4]; exact Nat.le_refl _)) (fun st _ => h1 st) h2 h3 (Nat.le_refl _) (Nat.le_refl _)) fun _ e2 st2 _ r2 => ?_
        refine Emits.imp (ih false) fun st _ e3 hg r3 => ?_
        rw [← List.append_assoc]
        exact (pieces_grow hg.grows r2).append r3
      cases t with
      | num => exact this .printNum (fun _ => trivial) rfl rfl rfl
      | str => exact this .printStr (fun _ => trivial) rfl rfl rfl
      | err => exact .fail

theorem emits_printStatement : Emits st0 printStatement Whole := by
  have last : ∀ st1, Emits st1 (do
      let n ← fuel
      let sep ← printLoop n false
      if sep then pure () else emit .printLn) Whole := by
    intro st1
    skip_quiet
    refine Emits.whole (emits_printLoop _ _) fun _ _ _ => ?_
    exact Emits.ite (fun _ => .wnil) (fun _ => .single (fun _ _ => trivial) rfl rfl rfl)
  unfold printStatement
  skip_quiet
  refine Emits.ite (fun _ => ?_) (fun _ => ?_)
  · skip_quiet
    exact last _
  · skip_quiet
    exact last _

theorem emits_randomizeStatement : Emits st0 randomizeStatement Whole := by
  unfold randomizeStatement
  skip_quiet
  skip_quiet
  refine Emits.ite (fun _ => .single (fun _ _ => trivial) rfl rfl rfl) (fun _ => ?_)
  refine Emits.bind emits_number fun _ e1 st1 _ r1 => ?_
  exact .ending r1 (fun _ _ => trivial) rfl rfl (Nat.le_refl _) (Nat.le_refl _)

theorem emits_plain {x : P Unit} (hx : Emits st0 x Whole) : Emits st0 (plain x) Whole :=
  Emits.whole hx fun _ _ _ => .wnil

/-- Every statement but IF appends whole pieces. -/
theorem emits_statementBody {t : Tok} (ht : t ≠ .kw .IF) : Emits st0 (statementBody t) Whole := by
  have one : ∀ (t : Tok) (i : Inst), (∀ st, Fits st i) → inert i = true → Code.plain i = true → uses i = (0, 0) →
      Emits st0 (do matchTok t; emit i) Whole := by
    intro t i h1 h2 h3 h4
    skip_quiet
    exact .single (fun st _ => h1 st) h2 h3 h4
  have line : ∀ (t : Tok) (f : Nat → Inst), (∀ n st, Fits st (f n)) → (∀ n, inert (f n) = true) → (∀ n, Code.plain (f n) = true) →
      (∀ n, uses (f n) = (0, 0)) → Emits st0 (do matchTok t; let l ← lineNumber; emit (f l)) Whole := by
    intro t f h1 h2 h3 h4
    skip_quiet
    skip_quiet
    exact .single (fun st _ => h1 _ st) (h2 _) (h3 _) (h4 _)
  unfold statementBody
  split
  · exact emits_plain (one _ .clear (fun _ => trivial) rfl rfl rfl)
  · exact emits_plain (one _ .cls (fun _ => trivial) rfl rfl rfl)
  · exact emits_plain emits_dataStatement
  · exact emits_plain emits_defStatement
  · exact emits_plain emits_dimStatement
  · exact emits_plain (one _ .end_ (fun _ => trivial) rfl rfl rfl)
  · exact emits_plain emits_forStatement
  · exact emits_plain (line _ .gosub (fun _ _ => trivial) (fun _ => rfl) (fun _ => rfl) (fun _ => rfl))
  · exact emits_plain (line _ .goto_ (fun _ _ => trivial) (fun _ => rfl) (fun _ => rfl) (fun _ => rfl))
  · exact absurd rfl ht
  · exact emits_plain emits_inputStatement
  · refine emits_plain ?_
    unfold letStatement
    skip_quiet
    exact emits_assignment
  · exact emits_plain emits_lineInputStatement
  · exact emits_plain emits_nextStatement
  · exact emits_plain emits_onStatement
  · exact emits_plain emits_printStatement
  · exact emits_plain emits_printStatement
  · exact emits_plain emits_randomizeStatement
  · exact emits_plain emits_readStatement
  · exact emits_plain (.quiet Silent.remStatement fun _ _ _ => .nil)
  · exact emits_plain emits_restoreStatement
  · exact emits_plain (one _ .return_ (fun _ => trivial) rfl rfl rfl)
  · exact emits_plain (one _ .stop (fun _ => trivial) rfl rfl rfl)
  · exact emits_plain emits_assignment
  · exact .wnil
  · exact .wnil
  · exact .fail

end P
end LB
