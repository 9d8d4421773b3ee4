import Verif.Proofs.Simulate
import Verif.Props.Loops
/- Conditions, loops and PRINT. -/
namespace LB
open LB.Spec _root_.Spec

/- ### Looking for the end of the line and for ELSE -/

theorem postfix_no {st : SymTab} {t : Ty} {e : Expr t} {c : List Inst} (h : Postfix st e c) : ∀ i ∈ c, i.isSourceLine = false ∧ V.isElse i = false := by
  intro i hi
  rcases postfix_inst h i hi with hp | rfl | rfl | ⟨t, rfl⟩ | ⟨t, w, q, s, n, rfl, _⟩
  · cases i <;> simp_all [plainOp, Inst.isSourceLine, V.isElse]
  · exact ⟨rfl, rfl⟩
  · exact ⟨rfl, rfl⟩
  · cases t <;> exact ⟨rfl, rfl⟩
  · cases t <;> exact ⟨rfl, rfl⟩

theorem items_no {st : SymTab} {l : List Src.Item} {c : List Inst} (h : ItemsCode st l c) : ∀ i ∈ c, i.isSourceLine = false ∧ V.isElse i = false := by
  induction h with
  | nil => intro i hi; cases hi
  | cons h _ ih =>
    intro i hi
    rcases List.mem_append.1 hi with hi | hi
    · cases h with
      | @value t e c he =>
        rcases List.mem_append.1 hi with hi | hi
        · exact postfix_no he i hi
        · simp only [List.mem_singleton] at hi
          subst hi
          cases t <;> exact ⟨rfl, rfl⟩
      | tab he | spc he =>
        rcases List.mem_append.1 hi with hi | hi
        · exact postfix_no he i hi
        · simp only [List.mem_singleton] at hi
          subst hi
          exact ⟨rfl, rfl⟩
      | comma => simp only [List.mem_singleton] at hi; subst hi; exact ⟨rfl, rfl⟩
      | semicolon => cases hi
    · exact ih i hi

theorem subs_no {st : SymTab} {is : List (Expr .num)} {c : List Inst} (h : SubsCode st is c) : ∀ i ∈ c, i.isSourceLine = false ∧ V.isElse i = false := by
  induction h with
  | nil => intro i hi; cases hi
  | cons h _ ih =>
    intro i hi
    rcases List.mem_append.1 hi with hi | hi
    · exact postfix_no h i hi
    · exact ih i hi

theorem slot_no {st : SymTab} {v : Src.Slot} {c : List Inst} (h : SlotCode st v c) : ∀ i ∈ c, i.isSourceLine = false ∧ V.isElse i = false := by
  cases h with
  | var h => intro i hi; rw [List.mem_singleton.1 hi]; cases h <;> exact ⟨rfl, rfl⟩
  | elem h =>
    intro i hi
    rcases List.mem_append.1 hi with hi | hi
    · exact subs_no h i hi
    · rw [List.mem_singleton.1 hi]; unfold inputInst; split <;> exact ⟨rfl, rfl⟩

theorem inputCode_no {st : SymTab} {vs : List Src.Slot} {c : List Inst} (h : InputCode st vs c) : ∀ i ∈ c, i.isSourceLine = false ∧ V.isElse i = false := by
  induction h with
  | one h =>
    intro i hi
    rcases List.mem_append.1 hi with hi | hi
    · exact slot_no h i hi
    · rw [List.mem_singleton.1 hi]; exact ⟨rfl, rfl⟩
  | more h _ ih =>
    intro i hi
    simp only [List.mem_append, List.mem_cons] at hi
    rcases hi with hi | rfl | hi
    · exact slot_no h i hi
    · exact ⟨rfl, rfl⟩
    · exact ih i hi

theorem stmt_no {st : SymTab} {s : Src.Stmt} {c : List Inst} (h : StmtCode st s c) : ∀ i ∈ c, i.isSourceLine = false ∧ (s.isElse = false → V.isElse i = false) := by
  have last : ∀ {c : List Inst} {j : Inst}, (∀ i ∈ c, i.isSourceLine = false ∧ V.isElse i = false) → j.isSourceLine = false ∧ V.isElse j = false →
      ∀ i ∈ c ++ [j], i.isSourceLine = false ∧ V.isElse i = false := by
    intro c j h hj i hi
    rcases List.mem_append.1 hi with hi | hi
    · exact h i hi
    · rw [List.mem_singleton.1 hi]; exact hj
  have weak : ∀ {c : List Inst}, (∀ i ∈ c, i.isSourceLine = false ∧ V.isElse i = false) → ∀ i ∈ c, i.isSourceLine = false ∧ (s.isElse = false → V.isElse i = false) :=
    fun h i hi => ⟨(h i hi).1, fun _ => (h i hi).2⟩
  cases h with
  | letNum he | letStr he | ifGoto he | ifThen he | ifElse he | seed he => exact weak (last (postfix_no he) ⟨rfl, rfl⟩)
  | @letElem t w is e c d id h1 h2 =>
    refine weak (last (fun i hi => ?_) (by unfold setInst; split <;> exact ⟨rfl, rfl⟩))
    rcases List.mem_append.1 hi with hi | hi
    · exact subs_no h1 i hi
    · exact postfix_no h2 i hi
  | @dim t w is c id h => exact weak (last (subs_no h) (by unfold dimInst; split <;> exact ⟨rfl, rfl⟩))
  | @readElem t w is c id h => exact weak (last (subs_no h) (by unfold readInst; split <;> exact ⟨rfl, rfl⟩))
  | @print l c he =>
    refine weak fun i hi => ?_
    rcases List.mem_append.1 hi with hi | hi
    · exact items_no he i hi
    · simp only [lineEnd] at hi
      split at hi
      · cases hi
      · rw [List.mem_singleton.1 hi]; exact ⟨rfl, rfl⟩
  | for_ h1 h2 h3 =>
    refine weak (last (fun i hi => ?_) ⟨rfl, rfl⟩)
    rcases List.mem_append.1 hi with hi | hi
    · rcases List.mem_append.1 hi with hi | hi
      · exact postfix_no h1 i hi
      · exact postfix_no h2 i hi
    · exact postfix_no h3 i hi
  | else_ =>
    intro i hi
    rw [List.mem_singleton.1 hi]
    exact ⟨rfl, fun h => by cases h⟩
  | goto | gosub | ret | next | nextAny | end_ | stop | readNum | readStr | restore | restoreLine | cls | clear | randomize =>
    intro i hi
    rw [List.mem_singleton.1 hi]
    exact ⟨rfl, fun _ => rfl⟩
  | @on g e c ns he =>
    refine weak fun i hi => ?_
    rcases List.mem_append.1 hi with hi | hi
    · exact postfix_no he i hi
    · rcases List.mem_cons.1 hi with rfl | hi
      · cases g <;> exact ⟨rfl, rfl⟩
      · obtain ⟨n, _, rfl⟩ := List.mem_map.1 hi
        exact ⟨rfl, rfl⟩
  | data =>
    refine weak fun i hi => ?_
    obtain ⟨v, _, rfl⟩ := List.mem_map.1 hi
    exact ⟨rfl, rfl⟩
  | def_ _ _ he =>
    refine weak fun i hi => ?_
    rcases List.mem_cons.1 hi with rfl | hi
    · exact ⟨rfl, rfl⟩
    · rcases List.mem_cons.1 hi with rfl | hi
      · exact ⟨rfl, rfl⟩
      · exact last (postfix_no he) ⟨rfl, rfl⟩ i hi
  | input he =>
    refine weak fun i hi => ?_
    rcases List.mem_cons.1 hi with rfl | hi
    · exact ⟨rfl, rfl⟩
    · exact inputCode_no he i hi
  | lineInput =>
    refine weak fun i hi => ?_
    simp only [List.mem_cons, List.not_mem_nil, or_false] at hi
    rcases hi with rfl | rfl <;> exact ⟨rfl, rfl⟩
  | lineInputElem h =>
    refine weak fun i hi => ?_
    rcases List.mem_cons.1 hi with rfl | hi
    · exact ⟨rfl, rfl⟩
    · exact last (subs_no h) ⟨rfl, rfl⟩ i hi

theorem stmts_no {st : SymTab} {ss : List Src.Stmt} {c : List Inst} (h : StmtsCode st ss c) : ∀ i ∈ c, i.isSourceLine = false := by
  induction h with
  | nil => intro i hi; cases hi
  | cons h _ ih =>
    intro i hi
    rcases List.mem_append.1 hi with hi | hi
    · exact (stmt_no h i hi).1
    · exact ih i hi

theorem lines_takeWhile {st : SymTab} {i : Nat} {prog : Src.Program} {d : List Inst} (h : LinesCode st i prog d) : d.takeWhile (fun i => !i.isSourceLine) = [] := by
  cases h with
  | nil => rfl
  | cons => rfl

/-- The end of the line is found. -/
theorem scan_line {I : Image} {p : Src.Place} {ss : List Src.Stmt} {tail : List Inst} (h : Tail I p ss tail) {k : Nat} (hk : I.code.drop k = tail) :
    Stands I (p.1 + 1, 0) (V.scan Inst.isSourceLine I.code k) := by
  obtain ⟨c, d, h2, h3, rfl⟩ := h.code
  have hs : V.scan Inst.isSourceLine I.code k = k + c.length := by
    simp only [V.scan, hk]
    rw [takeWhile_append_all _ _ _ (fun i hi => by rw [stmts_no h2 i hi]; rfl), lines_takeWhile h3, List.append_nil]
  have hd : I.code.drop (k + c.length) = d := by
    rw [← List.drop_drop, hk, List.drop_append_of_le_length (Nat.le_refl _), List.drop_length, List.nil_append]
  simp only [Stands, if_true, hs, hd]
  exact h3

theorem stmts_split {st : SymTab} : ∀ {ss : List Src.Stmt} {c : List Inst} {k : Nat}, StmtsCode st ss c → ss.findIdx? Src.Stmt.isElse = some k →
    ∃ c1 c2, c = c1 ++ .else_ :: c2 ∧ (∀ i ∈ c1, V.isElse i = false) ∧ StmtsCode st (ss.drop (k + 1)) c2 := by
  intro ss c k h
  induction h generalizing k with
  | nil => intro h; cases h
  | @cons s l c d hs hl ih =>
    intro hf
    rw [List.findIdx?_cons] at hf
    cases he : s.isElse with
    | true =>
      rw [he] at hf
      cases hf
      cases s with
      | else_ =>
        cases hs
        exact ⟨[], d, rfl, by simp, hl⟩
      | _ => cases he
    | false =>
      rw [he] at hf
      simp only [Bool.false_eq_true, if_false, Option.map_eq_some_iff] at hf
      obtain ⟨k, hk, rfl⟩ := hf
      obtain ⟨c1, c2, rfl, h1, h2⟩ := ih hk
      refine ⟨c ++ c1, c2, by simp, fun i hi => ?_, h2⟩
      rcases List.mem_append.1 hi with hi | hi
      · exact (stmt_no hs i hi).2 he
      · exact h1 i hi

/-- ELSE is found. -/
theorem scan_else {I : Image} {p : Src.Place} {ss : List Src.Stmt} {tail : List Inst} (h : Tail I p ss tail) (he : ∃ s ∈ ss.drop (p.2 + 1), s.isElse = true)
    {k : Nat} (hk : I.code.drop k = tail) : Stands I (Src.afterElse ss p) (V.scan V.isElse I.code k + 1) ∧ ((Src.afterElse ss p).2 ≠ 0 → (Src.afterElse ss p).1 = p.1) := by
  obtain ⟨n, h1⟩ := h.line
  obtain ⟨c, d, h2, h3, rfl⟩ := h.code
  obtain ⟨j, hj⟩ : ∃ j, (ss.drop (p.2 + 1)).findIdx? Src.Stmt.isElse = some j := by
    cases hf : (ss.drop (p.2 + 1)).findIdx? Src.Stmt.isElse with
    | some j => exact ⟨j, rfl⟩
    | none =>
      obtain ⟨s, m1, m2⟩ := he
      rw [List.findIdx?_eq_none_iff] at hf
      rw [hf s m1] at m2
      cases m2
  obtain ⟨c1, c2, rfl, k1, k2⟩ := stmts_split h2 hj
  have hs : V.scan V.isElse I.code k = k + c1.length := by
    simp only [V.scan, hk, List.append_assoc]
    rw [takeWhile_append_all _ _ _ (fun i hi => by rw [k1 i hi]; rfl)]
    simp [V.isElse]
  have hd : I.code.drop (k + c1.length + 1) = c2 ++ d := by
    refine drop_next (a := .else_) ?_
    rw [← List.drop_drop, hk, List.append_assoc, List.drop_append_of_le_length (Nat.le_refl _), List.drop_length]
    rfl
  rw [hs]
  simp only [Src.afterElse, hj]
  rw [List.drop_drop] at k2
  refine ⟨stands_after h1 (by rwa [show p.2 + 1 + j + 1 = p.2 + 1 + (j + 1) by omega]) h3 hd, fun hn => ?_⟩
  exact after_line hn

theorem truth_isTrue (x : Dbl) : V.truth x = Src.isTrue x := by cases x <;> simp [V.truth, Dbl.isZero, Src.isTrue]

section
variable {env : Env} {I : Image} {c : Src.Config} {vm : VM} {ss : List Src.Stmt} {tail : List Inst}

theorem curBcode_stored (hI : I.Ok) (h : Midst I c vm) : ∃ d, V.curBcode vm = .ok ⟨I.code, d⟩ vm := by
  obtain ⟨d, hd, _⟩ := hI.bcode
  exact ⟨d, by simp only [V.curBcode, h.code, V.codeOf, h.base.stored, hd]⟩

theorem skipTo_apply (hI : I.Ok) (h : Midst I c vm) (p : Inst → Bool) :
    V.skipTo p vm = .ok () { vm with cs := { vm.cs with pc := V.scan p I.code (vm.cs.pc + 1) } } := by
  obtain ⟨d, hd⟩ := curBcode_stored hI h
  simp only [V.skipTo, V.bind_apply, hd, V.get_apply, V.setPc, V.modify_apply]

theorem Midst.popped (h : Midst I c vm) (l : List Dbl) : Midst I c { vm with stack := l } := ⟨h.base.move (p := c.place), h.code, h.line, h.going⟩

theorem ifGoto_mimics (hI : I.Ok) (h : Midst I c vm) (h1 : vm.stack = []) (h2 : vm.strstack = []) (ht : Tail I c.place ss tail) {e : Expr .num} {n : Nat} {cd : List Inst}
    (he : Postfix I.st e cd) (hfit : Src.Fits I.prog.room 0 e) (hk : I.code.drop vm.cs.pc = cd ++ .gotrue n :: tail) :
    Mimics env I (Src.after ss c.place) vm (Src.perform env I.prog ss c (.ifGoto e n)) := by
  simp only [Src.perform]
  refine h.value hI he (by rw [h1]; exact hfit.1) (by rw [h2]; simpa using hfit.2) hk fun x s' vm' h' hk' hst => ?_
  simp only [pushed, h1, h2, Prod.mk.injEq] at hst
  have hx := V.execute_at env (h'.base.at_inst hI h'.code hk')
  simp only [V.exec, V.bind_apply, V.pop, hst.1, V.ite_apply, truth_isTrue] at hx
  cases hb : Src.isTrue x with
  | true =>
    simp only [if_true]
    refine jump_mimics hI h'.going (u := { vm' with stack := [] }) ?_ (h'.popped []).base rfl hst.2 h'.going
    rw [hx]
    simp only [hb, if_true, V.ret_apply]
    cases V.goToBasicLine n _ <;> rfl
  | false =>
    simp only [Bool.false_eq_true, if_false]
    refine Mimics.went h'.going (b := { vm' with stack := [], cs := following vm'.cs }) ?_
      (ht.done (h'.base.move (p := Src.after ss c.place)) rfl rfl hst.2 h'.code h'.line h'.going (drop_next hk'))
    rw [hx]
    simp only [hb, Bool.false_eq_true, if_false, V.pure_apply]

theorem ifThen_mimics (hI : I.Ok) (h : Midst I c vm) (h1 : vm.stack = []) (h2 : vm.strstack = []) (ht : Tail I c.place ss tail) {e : Expr .num} {cd : List Inst}
    (he : Postfix I.st e cd) (hfit : Src.Fits I.prog.room 0 e) (hk : I.code.drop vm.cs.pc = cd ++ .ifThen :: tail) :
    Mimics env I (Src.after ss c.place) vm (Src.perform env I.prog ss c (.ifThen e)) := by
  simp only [Src.perform]
  refine h.value hI he (by rw [h1]; exact hfit.1) (by rw [h2]; simpa using hfit.2) hk fun x s' vm' h' hk' hst => ?_
  simp only [pushed, h1, h2, Prod.mk.injEq] at hst
  have hx := V.execute_at env (h'.base.at_inst hI h'.code hk')
  simp only [V.exec, V.bind_apply, V.pop, hst.1, V.ite_apply, truth_isTrue, V.ret_apply, skipTo_apply hI (h'.popped [])] at hx
  cases hb : Src.isTrue x with
  | false =>
    simp only [Bool.false_eq_true, if_false]
    refine Mimics.went h'.going (b := { vm' with stack := [], cs := { vm'.cs with pc := V.scan Inst.isSourceLine I.code (vm'.cs.pc + 1) } }) ?_
      (Matches.start (h'.base.move (p := (c.place.1 + 1, 0))) rfl rfl hst.2 h'.code h'.going (scan_line ht (drop_next hk')))
    rw [hx]
    simp only [hb, Bool.not_false, if_true]
  | true =>
    simp only [if_true]
    refine Mimics.went h'.going (b := { vm' with stack := [], cs := following vm'.cs }) ?_
      (ht.done (h'.base.move (p := Src.after ss c.place)) rfl rfl hst.2 h'.code h'.line h'.going (drop_next hk'))
    rw [hx]
    simp only [hb, Bool.not_true, Bool.false_eq_true, if_false, V.pure_apply]

theorem ifElse_mimics (hI : I.Ok) (h : Midst I c vm) (h1 : vm.stack = []) (h2 : vm.strstack = []) (ht : Tail I c.place ss tail) {e : Expr .num} {cd : List Inst}
    (hel : ∃ s ∈ ss.drop (c.place.2 + 1), s.isElse = true) (he : Postfix I.st e cd) (hfit : Src.Fits I.prog.room 0 e) (hk : I.code.drop vm.cs.pc = cd ++ .ifElse :: tail) :
    Mimics env I (Src.after ss c.place) vm (Src.perform env I.prog ss c (.ifElse e)) := by
  simp only [Src.perform]
  refine h.value hI he (by rw [h1]; exact hfit.1) (by rw [h2]; simpa using hfit.2) hk fun x s' vm' h' hk' hst => ?_
  simp only [pushed, h1, h2, Prod.mk.injEq] at hst
  have hx := V.execute_at env (h'.base.at_inst hI h'.code hk')
  simp only [V.exec, V.bind_apply, V.pop, hst.1, V.ite_apply, truth_isTrue, V.brk_apply, skipTo_apply hI (h'.popped [])] at hx
  cases hb : Src.isTrue x with
  | false =>
    simp only [Bool.false_eq_true, if_false]
    obtain ⟨k1, k2⟩ := scan_else ht hel (drop_next hk')
    refine Mimics.went h'.going (b := { vm' with stack := [], cs := { vm'.cs with pc := V.scan V.isElse I.code (vm'.cs.pc + 1) + 1 } }) ?_
      ⟨h'.base.move (p := Src.afterElse ss c.place), rfl, hst.2, .inl ⟨h'.code, k1, fun hn => (k2 hn).symm ▸ h'.line⟩, h'.going⟩
    rw [hx]
    simp only [hb, Bool.not_false, if_true, following]
  | true =>
    simp only [if_true]
    refine Mimics.went h'.going (b := { vm' with stack := [], cs := following vm'.cs }) ?_
      (ht.done (h'.base.move (p := Src.after ss c.place)) rfl rfl hst.2 h'.code h'.line h'.going (drop_next hk'))
    rw [hx]
    simp only [hb, Bool.not_true, Bool.false_eq_true, if_false, V.pure_apply]

theorem else_mimics (hI : I.Ok) (h : Midst I c vm) (h1 : vm.stack = []) (h2 : vm.strstack = []) (ht : Tail I c.place ss tail) {q : Src.Place}
    (hk : I.code.drop vm.cs.pc = .else_ :: tail) : Mimics env I q vm (Src.perform env I.prog ss c .else_) := by
  refine Mimics.went h.going (b := { vm with cs := { vm.cs with pc := V.scan Inst.isSourceLine I.code (vm.cs.pc + 1) } }) ?_
    (Matches.start (h.base.move (p := (c.place.1 + 1, 0))) rfl h1 h2 h.code h.going (scan_line ht (drop_next hk)))
  rw [V.execute_at env (h.base.at_inst hI h.code hk)]
  simp only [V.exec, V.ret_apply, skipTo_apply hI h]

/- ### Loops -/

theorem numbered_same (h : Standing I c vm) {w w' : CStr} {id id' : Nat} (hv : Numbered I.st w .num id) (hv' : Numbered I.st w' .num id') : id = id' ↔ SameIgnoringCase w w' := by
  obtain ⟨s, k1, k2, k3, _⟩ := h.var hv
  obtain ⟨s', m1, m2, m3, _⟩ := h.var hv'
  constructor
  · rintro rfl
    rw [k1] at m1
    cases m1
    exact Eq.trans (Eq.symm k2) m2
  · intro he
    have e1 := find_entry h.named k1 k2 k3
    have e2 := find_entry h.named m1 (Eq.trans m2 (Eq.symm he)) m3
    rw [e1] at e2
    cases e2
    have n1 := symbol_id h.named h.small k1
    have n2 := symbol_id h.named h.small m1
    omega

theorem loops_same (h : Standing I c vm) {w : CStr} {id : Nat} (hv : Numbered I.st w .num id) (l : Src.Loop) (f : ForLoop) (hl : LoopOk I l f) :
    decide (SameIgnoringCase l.var w) = (f.symbolId == id) := by
  have := numbered_same h hl.var hv
  by_cases he : f.symbolId = id
  · simp [he, this.1 he]
  · have hn : ¬ SameIgnoringCase l.var w := fun hs => he (this.2 hs)
    simp [he, hn]

theorem others_length {fs : List ForLoop} {id : Nat} (hf : ∃ f ∈ fs, f.symbolId = id) : (loopsBut id fs).length < fs.length := by
  obtain ⟨f, hf, rfl⟩ := hf
  simp only [loopsBut]
  rcases Nat.lt_or_ge (fs.filter (·.symbolId ≠ f.symbolId)).length fs.length with h | h
  · exact h
  · exfalso
    have := List.length_filter_eq_length_iff.1 (Nat.le_antisymm (List.length_filter_le _ _) h) f hf
    simp at this

theorem one_more {fs : List ForLoop} {f : ForLoop} (h : OnePerVariable fs) : OnePerVariable (loopsBut f.symbolId fs ++ [f]) := by
  simp only [OnePerVariable, loopsBut, List.map_append, List.map_cons, List.map_nil] at h ⊢
  rw [List.nodup_append]
  refine ⟨(List.filter_sublist.map _).nodup h, by simp, fun a ha b hb => ?_⟩
  simp only [List.mem_map, List.mem_filter] at ha
  obtain ⟨g, ⟨_, hg⟩, rfl⟩ := ha
  rw [List.mem_singleton.1 hb]
  simpa using hg

theorem for_mimics (hI : I.Ok) (h : Midst I c vm) (h1 : vm.stack = []) (h2 : vm.strstack = []) (ht : Tail I c.place ss tail) {w : CStr} {a b s : Expr .num} {cd ce cf : List Inst} {id : Nat}
    (ha : Postfix I.st a cd) (hb : Postfix I.st b ce) (hs : Postfix I.st s cf) (hv : Numbered I.st w .num id) (hfit : (Src.Stmt.for_ w a b s).Fits I.prog.room)
    (hk : I.code.drop vm.cs.pc = cd ++ (ce ++ (cf ++ .for_ id :: tail))) :
    Mimics env I (Src.after ss c.place) vm (Src.perform env I.prog ss c (.for_ w a b s)) := by
  obtain ⟨f1, f2, f3⟩ := hfit
  simp only [Src.perform]
  refine h.value hI ha (by rw [h1]; exact f1.1) (by rw [h2]; simpa using f1.2) hk fun x s1 vm1 hm1 hk1 hst1 => ?_
  simp only [pushed, h1, h2, Prod.mk.injEq] at hst1
  refine hm1.value hI hb (by rw [hst1.1]; exact f2.1) (by rw [hst1.2]; simpa using f2.2) hk1 fun y s2 vm2 hm2 hk2 hst2 => ?_
  simp only [pushed, hst1.1, hst1.2, Prod.mk.injEq] at hst2
  refine hm2.value hI hs (by rw [hst2.1]; exact f3.1) (by rw [hst2.2]; simpa using f3.2) hk2 fun z s3 vm3 hm3 hk3 hst3 => ?_
  simp only [pushed, hst2.1, hst2.2, Prod.mk.injEq] at hst3
  clear h h1 h2 hk hm1 hk1 hst1 hm2 hk2 hst2
  obtain ⟨t, m1, m2, m3, m4⟩ := hm3.base.var hv
  have hnv : NumVar vm3.st id := ⟨t, m1, m3, m4⟩
  have hat := hm3.base.at_inst hI hm3.code hk3
  have hpairs : Beside (LoopOk I) (c.loops.filter (fun f => ¬ SameIgnoringCase f.var w)) (loopsBut id vm3.forStack) := by
    refine hm3.base.loops.filter fun l f hl => ?_
    have := loops_same hm3.base hv l f hl
    by_cases he : f.symbolId = id <;> simp_all
  have hlen := hpairs.length
  simp only
  by_cases hd : 8 ≤ (c.loops.filter (fun f => ¬ SameIgnoringCase f.var w)).length
  · rw [if_pos hd]
    have hdeep := hm3.base.deep
    have hnew : ∀ f ∈ vm3.forStack, f.symbolId ≠ id := by
      intro f hf he
      have := others_length ⟨f, hf, he⟩
      omega
    have hfull : vm3.forStack.length = 8 := by
      have : (loopsBut id vm3.forStack).length ≤ vm3.forStack.length := List.length_filter_le _ _
      omega
    obtain ⟨text, hx⟩ := C18_ninth_loop env vm3 id hat hnv hm3.base.traceFor hfull hnew (fun f hf => by obtain ⟨s, h, _⟩ := hm3.base.begun f hf; exact ⟨s, h⟩)
    exact Fails.now hm3.going hx ⟨hm3.base.stored, hm3.base.store, hm3.going, fun h => absurd rfl h, hm3.base.io.stdin, hm3.base.io.line⟩
  · rw [if_neg hd]
    have hroom : vm3.forStack.length < 8 ∨ ∃ f ∈ vm3.forStack, f.symbolId = id := by
      by_cases he : ∃ f ∈ vm3.forStack, f.symbolId = id
      · exact .inr he
      · left
        have : loopsBut id vm3.forStack = vm3.forStack := V.loopsBut_none fun f hf he' => he ⟨f, hf, he'⟩
        rw [this] at hlen
        omega
    have hx := V.for_ok hnv hm3.base.one hroom hm3.base.traceFor hst3.1
    have ha := hm3.base.assignNum hv x
    refine Mimics.went hm3.going (b := { vm3 with st := symUpdate vm3.st id (fun s => { s with num := x, defined := true }), stack := [], forStack := loopsBut id vm3.forStack ++ [⟨vm3.cs, id, z, y⟩], cs := following vm3.cs }) ?_ (ht.done ?_ rfl rfl hst3.2 hm3.code hm3.line hm3.going (drop_next hk3))
    · rw [V.execute_at env hat]
      simp only [V.exec, V.brk_apply, hx]
    · refine ⟨ha.stored, ha.named, ha.small, ha.grows, ha.tidy, ha.kinds, ha.store, ha.calls, hpairs.append (.cons ⟨⟨hm3.code, ht.stands (drop_next hk3), ?_⟩, hv, rfl, rfl⟩ .nil), ?_,
        one_more (f := ⟨vm3.cs, id, z, y⟩) hm3.base.one, ha.col, ha.width, ha.out, ha.traceBasic, ha.traceFor, ?_,
        ⟨ha.io.data, ha.io.stdin, ha.io.line, ha.io.mark⟩⟩
      · intro hn
        rw [after_line hn]
        exact hm3.line
      · intro f hf
        rcases List.mem_append.1 hf with hf | hf
        · exact ha.begun f (List.mem_filter.1 hf).1
        · rw [List.mem_singleton.1 hf]
          exact ⟨_, symUpdate_same m1, rfl⟩
      · rw [List.length_append, hlen]
        simp only [List.length_cons, List.length_nil]
        omega

theorem symUpdate_congr {st : SymTab} {q : Nat} {s : Symbol} {f g : Symbol → Symbol} (hs : st.psym[q]? = some s) (h : f s = g s) : symUpdate st q f = symUpdate st q g := by
  simp only [symUpdate]
  congr 1
  refine List.ext_getElem? fun i => ?_
  simp only [List.getElem?_modify]
  by_cases he : q = i
  · subst he; simp [hs, h]
  · simp [he]

theorem passed_pastLimit (s l x : Dbl) : V.pastLimit s x l = Src.passed s l x := by simp [V.pastLimit, Src.passed]

theorem nextLoop_mimics (hI : I.Ok) (h : Midst I c vm) (h1 : vm.stack = []) (h2 : vm.strstack = []) (ht : Tail I c.place ss tail) {q : Src.Place} {i : Nat} {inst : Inst}
    (hk : I.code.drop vm.cs.pc = inst :: tail) (hx : V.exec env inst vm = V.brk (V.next i) vm) (hi : i < c.loops.length) :
    Mimics env I q vm (Src.nextLoop i c (Src.after ss c.place)) := by
  obtain ⟨l, hl⟩ : ∃ l, c.loops[i]? = some l := ⟨_, List.getElem?_eq_getElem hi⟩
  obtain ⟨f, hf, hlf⟩ := h.base.loops.get hl
  obtain ⟨s, hs, hd⟩ := h.base.begun f (List.mem_of_getElem? hf)
  have hnext := V.nextAt_ok hf hs h.base.traceFor
  have hval : s.num = c.nums l.var := by
    obtain ⟨s', m1, m2, m3, m4⟩ := h.base.var hlf.var
    rw [hs] at m1
    cases m1
    have hst := congrArg Store.nums h.base.store
    rw [← hst]
    show _ = numNamed vm.st l.var
    simp [numNamed, find_entry h.base.named hs m2 m3, hd, m4]
  have hex := V.execute_at env (h.base.at_inst hI h.code hk)
  rw [hx, V.brk_apply, hnext, passed_pastLimit, hlf.step, hlf.limit, hval] at hex
  simp only [Src.nextLoop, hl]
  cases hp : Src.passed l.step l.limit (Dbl.add (c.nums l.var) l.step) with
  | true =>
    simp only [if_true]
    rw [hp] at hex
    simp only [if_true] at hex
    refine Mimics.went h.going hex (ht.done ?_ rfl h1 h2 h.code h.line h.going (drop_next hk))
    have hb := h.base
    have hsub : ∀ g ∈ vm.forStack.eraseIdx i, g ∈ vm.forStack := fun g hg => (List.eraseIdx_sublist _ _).subset hg
    refine ⟨hb.stored, hb.named, hb.small, hb.grows, hb.tidy, hb.kinds, hb.store, hb.calls, hb.loops.eraseIdx i, fun g hg => hb.begun g (hsub g hg),
      ((List.eraseIdx_sublist _ _).map _).nodup hb.one, hb.col, hb.width, hb.out, hb.traceBasic, hb.traceFor, Nat.le_trans (List.eraseIdx_sublist _ _).length_le hb.deep,
      ⟨hb.io.data, hb.io.stdin, hb.io.line, hb.io.mark⟩⟩
  | false =>
    simp only [Bool.false_eq_true, if_false]
    rw [hp] at hex
    simp only [Bool.false_eq_true, if_false] at hex
    rw [symUpdate_congr (g := fun s' => { s' with num := Dbl.add (c.nums l.var) l.step, defined := true }) hs (by simp [← hd])] at hex
    obtain ⟨b1, b2, b3⟩ := hlf.body
    exact Mimics.went h.going hex ⟨(h.base.assignNum hlf.var _).move (p := l.body), h1, h2, .inl ⟨b1, b2, b3⟩, h.going⟩

theorem nextAny_mimics (hI : I.Ok) (h : Midst I c vm) (h1 : vm.stack = []) (h2 : vm.strstack = []) (ht : Tail I c.place ss tail) {q : Src.Place}
    (hk : I.code.drop vm.cs.pc = .nextImp :: tail) : Mimics env I q vm (Src.perform env I.prog ss c .nextAny) := by
  have hlen := h.base.loops.length
  simp only [Src.perform]
  by_cases he : c.loops.length = 0
  · have hc : c.loops = [] := List.length_eq_zero_iff.1 he
    have hv : vm.forStack = [] := List.length_eq_zero_iff.1 (by omega)
    simp only [Src.nextLoop, hc, List.getElem?_nil]
    refine Fails.now h.going (b := vm) ?_ (h.base.left h.going _)
    rw [V.execute_at env (h.base.at_inst hI h.code hk)]
    simp [V.exec, V.nextImplicit, h.base.traceFor, hv]
  · refine nextLoop_mimics hI h h1 h2 ht hk ?_ (by omega)
    have hv : vm.forStack.isEmpty = false := by
      cases hf : vm.forStack with
      | nil => rw [hf] at hlen; simp at hlen; omega
      | cons => rfl
    simp only [V.exec, V.brk_apply, V.nextImplicit, V.bind_apply, V.traced_apply, h.base.traceFor, Bool.false_eq_true, if_false, V.get_apply, hv, V.ite_apply, hlen]

theorem next_mimics (hI : I.Ok) (h : Midst I c vm) (h1 : vm.stack = []) (h2 : vm.strstack = []) (ht : Tail I c.place ss tail) {q : Src.Place} {w : CStr} {id : Nat}
    (hv : Numbered I.st w .num id) (hk : I.code.drop vm.cs.pc = .nextVar id :: tail) : Mimics env I q vm (Src.perform env I.prog ss c (.next w)) := by
  have hfind := h.base.loops.findIdx? (loops_same h.base hv)
  have hat := h.base.at_inst hI h.code hk
  have hlen := h.base.loops.length
  simp only [Src.perform]
  cases hf : c.loops.findIdx? (fun f => decide (SameIgnoringCase f.var w)) with
  | none =>
    rw [hf, List.findIdx?_eq_none_iff] at hfind
    have hne : ∀ f ∈ vm.forStack, f.symbolId ≠ id := fun f hm => by simpa using hfind f hm
    simp only
    by_cases hc : c.loops = []
    · have hv : vm.forStack = [] := List.length_eq_zero_iff.1 (by rw [hlen, hc]; rfl)
      rw [if_pos hc]
      refine Fails.now h.going (b := vm) ?_ (h.base.left h.going _)
      rw [V.execute_at env hat]
      simp [V.exec, V.nextVariable, h.base.traceFor, hv]
    · rw [if_neg hc]
      refine Fails.now h.going (b := vm) ?_ (h.base.left h.going _)
      rw [V.execute_at env hat]
      cases hl : vm.forStack.getLast? with
      | none =>
        rw [List.getLast?_eq_none_iff] at hl
        rw [hl] at hlen
        exact absurd (List.length_eq_zero_iff.1 hlen.symm) hc
      | some g =>
        have : g.symbolId ≠ id := hne g (List.mem_of_getLast? hl)
        simp [V.exec, V.nextVariable, h.base.traceFor, hl, this, V.findFor_none hne]
  | some i =>
    rw [hf] at hfind
    simp only
    have hi : i < c.loops.length := (List.findIdx?_eq_some_iff_getElem.1 hf).1
    refine nextLoop_mimics hI h h1 h2 ht hk ?_ hi
    obtain ⟨hi', hid, _⟩ := List.findIdx?_eq_some_iff_getElem.1 hfind
    have hid' : vm.forStack[i].symbolId = id := by simpa using hid
    have hmem : vm.forStack[i] ∈ vm.forStack := List.getElem_mem _
    obtain ⟨j, hj, hx⟩ := V.next_select (i := .nextVar id) env (by rw [← hid']; exact NextOf.named hmem) h.base.one h.base.traceFor
    have hij : j = i := by
      have hn := h.base.one
      unfold OnePerVariable at hn
      refine (List.getElem?_inj (by rw [List.length_map]; exact (List.getElem?_eq_some_iff.1 hj).1) hn).1 ?_
      rw [List.getElem?_map, List.getElem?_map, hj, List.getElem?_eq_getElem hi']
    rw [← hij]
    exact hx

end
end LB
