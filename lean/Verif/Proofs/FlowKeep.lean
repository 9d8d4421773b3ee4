import Verif.Proofs.FlowStep
/- Execution stays within the structure of the compiled code: what an instruction leaves behind. -/
namespace LB
open LB.Spec Code

namespace V

variable {ph : Phase} {vm : VM} {r : CodeRef} {b : Bcode}

/-- Where an instruction of a statement is. -/
structure Standing (ph : Phase) (vm : VM) (i : Inst) (r : CodeRef) (b : Bcode) (l rest : List Inst) : Prop where
  code : InCode ph vm r b
  inst : b.inst[vm.cs.pc]? = some i
  whole : b.inst.drop vm.cs.pc = i :: (l ++ rest)
  next : b.inst.drop (vm.cs.pc + 1) = l ++ rest
  head : Head (FnTy vm.st) (Asked (FnTy vm.st) b.inst (ipOf vm)) i l (hgt vm)
  rest : Pieces (FnTy vm.st) rest

theorem standing {i : Inst} (hr : Running ph vm) (hat : At vm i) (h1 : isExpr i = false) (h2 : i ≠ .endDef) :
    ∃ r b l rest, Standing ph vm i r b l rest := by
  obtain ⟨c, b, hc, hb, hi⟩ := hat
  rcases hr with ⟨r, b', h3, h4, hb', h5⟩ | ⟨h0, d, e, hh, r, -, h3, h4, h5, h6, -⟩
  · rw [hc] at h3; cases h3
    rw [hb] at hb'; cases hb'
    obtain ⟨l, rest, h6, h7, h8, h9⟩ := h5.head hi
    exact ⟨c, b, l, rest, ⟨hc, h4, hb⟩, hi, h6, h7, h8, h9⟩
  · rw [hc] at h0; cases h0
    have hbd : b = d := by
      have : vm.defCode.bcode = some b := hb
      rw [this] at h3; exact Option.some.inj h3
    subst hbd
    obtain ⟨hlt, he⟩ := List.getElem?_eq_some_iff.1 hi
    rw [List.drop_eq_getElem_cons hlt, he] at h5
    cases e with
    | nil =>
      simp only [List.nil_append, List.cons.injEq] at h5
      exact absurd h5.1 h2
    | cons x e =>
      simp only [List.cons_append, List.cons.injEq] at h5
      obtain ⟨rfl, h5⟩ := h5
      simp only [sizes] at h6
      cases hk : eff i (hgt vm) with
      | none => rw [hk] at h6; cases h6
      | some k => rw [(eff_some hk).1] at h1; cases h1

/-- After an instruction at the end of a piece, a piece starts. -/
theorem Standing.after {i : Inst} {l rest : List Inst} (s : Standing ph vm i r b l rest) (hi : closes i = true) :
    Pieces (FnTy vm.st) (b.inst.drop (vm.cs.pc + 1)) := by
  have hh := s.head
  have hn := s.next
  generalize hgt vm = g at hh
  cases hh with
  | expr h => rw [expr_not_closes (eff_some h).1] at hi; cases hi
  | plain => rw [hn]; exact s.rest
  | on h => rcases h with rfl | rfl <;> cases hi
  | def_ => cases hi
  | input h => cases hi
  | item _ h => cases i <;> first | (exact (Bool.false_ne_true h).elim) | (exact (Bool.false_ne_true hi).elim)
  | sep => cases hi
  | inputEnd => cases hi

/-- After ON and its line numbers, a piece starts. -/
theorem Standing.afterOn {i : Inst} {l rest : List Inst} (s : Standing ph vm i r b l rest) {n : Nat} (hi : isOn i n) :
    Pieces (FnTy vm.st) (b.inst.drop (vm.cs.pc + n + 1)) := by
  have hh := s.head
  have hn := s.next
  generalize hgt vm = g at hh
  cases hh with
  | expr h => have := (eff_some h).1; rcases hi with rfl | rfl <;> cases this
  | plain h => rcases hi with rfl | rfl <;> cases h
  | on h =>
    have hl : n = l.length := by
      rcases hi with rfl | rfl <;> rcases h with h | h <;> cases h <;> rfl
    subst hl
    have h2 : vm.cs.pc + l.length + 1 = (vm.cs.pc + 1) + l.length := by omega
    rw [h2, ← List.drop_drop, hn, List.drop_left]
    exact s.rest
  | def_ => rcases hi with hi | hi <;> cases hi
  | input h => rcases hi with hi | hi <;> cases hi
  | item _ h => rcases hi with rfl | rfl <;> cases h
  | sep => rcases hi with hi | hi <;> cases hi
  | inputEnd => rcases hi with hi | hi <;> cases hi

/-! The stack of returns. -/

theorem ret_line {vm : VM} {l : Nat} {I : VM → Prop} (hI : ∀ (vm : VM) cs, I vm → I { vm with cs := cs }) (h : I vm) : (V.ret (goToBasicLine l) vm).All I := by
  have : Keeps I (V.ret (goToBasicLine l)) := by
    unfold V.ret goToBasicLine
    keeps
    exact Keeps.modify (fun vm => hI vm _)
  exact this vm h

theorem exec_rets (env : Env) {i : Inst} (o : Ordered ph vm) (hr : Running ph vm) (hat : At vm i) :
    (exec env i vm).All (fun vm' => ∀ cs ∈ vm'.retstack, Place ph vm cs.code cs.pc) := by
  cases ht : touches i .ret with
  | false =>
    have h := keeps_exec (closed_retstack vm.retstack) env i (fun a ha => by rintro rfl; rw [ht] at ha; cases ha) vm rfl
    exact Res.All.imp h (fun vm' h => by rw [h]; exact o.rets)
  | true =>
    cases i <;> first | (exact (Bool.false_ne_true ht).elim) | skip
    case bi f => cases f <;> exact (Bool.false_ne_true ht).elim
    case gosub l =>
      obtain ⟨r, b, l', rest, s⟩ := standing hr hat rfl (by simp)
      simp only [exec, ret_apply, bind_apply, get_apply, pushReturn]
      by_cases hd : vm.retstack.length ≥ maxReturnStack
      · simp only [if_pos hd]; exact o.rets
      · simp only [if_neg hd]
        have h1 := ret_line (l := l) (vm := { vm with retstack := { vm.cs with pc := vm.cs.pc + 1 } :: vm.retstack })
          (I := fun vm' => ∀ cs ∈ vm'.retstack, Place ph vm cs.code cs.pc) (fun _ _ h => h) (by
            intro cs hcs
            rcases List.mem_cons.1 hcs with rfl | hcs
            · simp only [s.code.ref]; exact s.code.place (s.after rfl)
            · exact o.rets cs hcs)
        rw [ret_apply] at h1
        exact h1
    case return_ =>
      simp only [exec, ret_apply, popReturn]
      cases hrs : vm.retstack with
      | nil => simp only [Res.All, hrs]; exact (fun _ h => by cases h)
      | cons c rs => exact fun cs hcs => o.rets cs (by rw [hrs]; exact .tail _ hcs)
    case onGosub n =>
      obtain ⟨r, b, l', rest, s⟩ := standing hr hat rfl (by simp)
      have hpl : Place ph vm vm.cs.code (vm.cs.pc + n + 1) := by
        rw [s.code.ref]; exact s.code.place (s.afterOn (.inr rfl))
      simp only [exec, ret_apply, onStatement, bind_apply, pop]
      cases hst : vm.stack with
      | nil => exact o.rets
      | cons x st =>
        simp only [check_apply]
        cases Dbl.ne x (Dbl.floor x) with
        | true => exact o.rets
        | false =>
          simp only [Bool.false_eq_true, if_false, get_apply]
          cases onOutside x n with
          | true => exact o.rets
          | false =>
            simp only [bind_apply, s.code.cur (vm' := { vm with stack := st }) rfl (codeOf_stack _ _ _), Bool.false_eq_true, if_false]
            cases hl : b.inst[vm.cs.pc + Dbl.toNat x]? with
            | none => exact o.rets
            | some j =>
              cases j with
              | onLine m =>
                simp only [bind_apply, when_, if_true, pushReturn]
                by_cases hd : vm.retstack.length ≥ maxReturnStack
                · simp only [if_pos hd]; exact o.rets
                · simp only [if_neg hd]
                  have h1 := ret_line (l := m)
                    (vm := { vm with stack := st, retstack := { vm.cs with pc := vm.cs.pc + n + 1 } :: vm.retstack })
                    (I := fun vm' => ∀ cs ∈ vm'.retstack, Place ph vm cs.code cs.pc) (fun _ _ h => h) (by
                      intro cs hcs
                      rcases List.mem_cons.1 hcs with rfl | hcs
                      · exact hpl
                      · exact o.rets cs hcs)
                  rw [ret_apply] at h1
                  exact h1
              | _ => exact o.rets

/-! The stack of loops. -/

/-- `P` holds for the places of all loops, and for the place of the instruction. -/
def AllFor (c : CodeState) (P : CodeState → Prop) (vm : VM) : Prop := vm.cs = c ∧ ∀ f ∈ vm.forStack, P f.codeState

theorem keeps_forTop_all {c : CodeState} {P : CodeState → Prop} (hc : P c) (id : Nat)
    (hd : Keeps (AllFor c P) (dumpForStack "overflow")) : Keeps (AllFor c P) (forTop id) := by
  have key : ∀ (l : List ForLoop) (x : ForLoop), (∀ f ∈ l, P f.codeState) → ∀ f ∈ (l ++ [x]).modify ((l ++ [x]).length - 1)
      (fun f => { f with codeState := c, symbolId := id }), P f.codeState := by
    intro l x h f hf
    simp only [List.length_append, List.length_singleton, Nat.add_sub_cancel] at hf
    obtain ⟨k, hk⟩ := List.mem_iff_getElem?.1 hf
    rw [List.getElem?_modify] at hk
    by_cases hkl : k < l.length
    · rw [List.getElem?_append_left hkl] at hk
      rw [List.getElem?_eq_getElem hkl] at hk
      simp only [Option.map_eq_map, Option.map_some] at hk
      rw [if_neg (by omega)] at hk
      simp only [Option.some.injEq] at hk
      rw [← hk]; exact h _ (List.getElem_mem hkl)
    · rw [List.getElem?_append_right (by omega)] at hk
      cases hj : k - l.length with
      | zero =>
        rw [hj] at hk
        simp only [List.getElem?_cons_zero, Option.map_eq_map, Option.map_some] at hk
        rw [if_pos (by omega)] at hk
        cases hk; exact hc
      | succ j => rw [hj] at hk; simp at hk
  intro vm hvm
  obtain ⟨h1, h2⟩ := hvm
  simp only [forTop, forEntry, bind_apply, get_apply]
  cases hf : findFor vm id with
  | some si =>
    cases hs : vm.forStack[si]? with
    | none => simp only [hs]; trivial
    | some f =>
      simp only [hs, modify_apply, setTopFor]
      refine ⟨h1, ?_⟩
      rw [h1]
      exact key _ _ (fun g hg => h2 g (List.mem_of_mem_eraseIdx hg))
  | none =>
    simp only
    by_cases hm : vm.forStack.length ≥ maxFor
    · simp only [if_pos hm, bind_apply]
      have := hd vm ⟨h1, h2⟩
      cases hx : dumpForStack "overflow" vm with
      | ok a v => rw [hx] at this; exact this
      | err e v => rw [hx] at this; exact this
      | halt h => trivial
    · simp only [if_neg hm, modify_apply, setTopFor]
      refine ⟨h1, ?_⟩
      rw [h1]
      exact key _ _ h2

theorem keeps_out_of {I : VM → Prop} (hw : ∀ (vm : VM) w, I vm → I { vm with world := w }) (t : CStr) : Keeps I (out t) :=
  Keeps.modify (fun vm => hw vm _)

theorem keeps_dumpForStack_of {I : VM → Prop} (hw : ∀ (vm : VM) w, I vm → I { vm with world := w }) (t : String) :
    Keeps I (dumpForStack t) := by
  have hd : ∀ fs, Keeps I (dumpEntries fs) := by
    intro fs
    induction fs with
    | nil => exact Keeps.pure _
    | cons f fs ih =>
      unfold dumpEntries dumpEntry
      keeps
  unfold dumpForStack
  keeps
  all_goals first | exact keeps_out_of hw _ | exact hd _

theorem keeps_dumpFor_of {I : VM → Prop} (hw : ∀ (vm : VM) w, I vm → I { vm with world := w }) (t : String) :
    Keeps I (dumpFor t) := by
  unfold dumpFor
  keeps
  · exact keeps_out_of hw _
  · exact keeps_dumpForStack_of hw _

theorem keeps_traced_of {I : VM → Prop} {x : VmM Unit} (hx : Keeps I x) : Keeps I (traced x) := by
  unfold traced
  keeps

theorem mem_modify_code {l : List ForLoop} {n : Nat} {g : ForLoop → ForLoop} (hg : ∀ f, (g f).codeState = f.codeState)
    {P : CodeState → Prop} (h : ∀ f ∈ l, P f.codeState) : ∀ f ∈ l.modify n g, P f.codeState := by
  intro f hf
  obtain ⟨k, hk⟩ := List.mem_iff_getElem?.1 hf
  rw [List.getElem?_modify] at hk
  cases hl : l[k]? with
  | none => rw [hl] at hk; simp at hk
  | some x =>
    rw [hl] at hk
    simp only [Option.map_eq_map, Option.map_some, Option.some.injEq] at hk
    rw [← hk]
    split
    · rw [hg]; exact h x (List.mem_of_getElem? hl)
    · exact h x (List.mem_of_getElem? hl)

theorem keeps_for_all {c : CodeState} {P : CodeState → Prop} (hc : P c) (id : Nat) : Keeps (AllFor c P) (forStatement id) := by
  have hw : ∀ (vm : VM) w, AllFor c P vm → AllFor c P { vm with world := w } := fun _ _ h => h
  have hp : Keeps (AllFor c P) pop := by
    intro vm h; simp only [pop]; split <;> exact h
  unfold forStatement
  keeps
  all_goals first
    | exact hp
    | exact keeps_traced_of (keeps_dumpFor_of hw _)
    | exact keeps_traced_of (keeps_dumpForStack_of hw _)
    | exact keeps_forTop_all hc id (keeps_dumpForStack_of hw _)
    | (refine Keeps.modify (fun vm h => ⟨h.1, ?_⟩); exact mem_modify_code (fun _ => by rfl) h.2)
    | exact Keeps.modify (fun vm h => h)

theorem keeps_next_all {P : CodeState → Prop} (si : Nat) : Keeps (fun vm => ∀ f ∈ vm.forStack, P f.codeState) (next si) := by
  have hw : ∀ (vm : VM) (w : World), (∀ f ∈ vm.forStack, P f.codeState) → (∀ f ∈ ({ vm with world := w } : VM).forStack, P f.codeState) :=
    fun _ _ h => h
  unfold next
  keeps
  all_goals first
    | exact keeps_traced_of (keeps_dumpForStack_of hw _)
    | exact Keeps.modify (fun vm h f hf => h f (List.mem_of_mem_eraseIdx hf))
    | exact Keeps.modify (fun vm h => h)

theorem exec_fors (env : Env) {i : Inst} (o : Ordered ph vm) (hr : Running ph vm) (hat : At vm i) :
    (exec env i vm).All (fun vm' => ∀ f ∈ vm'.forStack, Place ph vm f.codeState.code (f.codeState.pc + 1)) := by
  cases ht : touches i .loop with
  | false =>
    have h := keeps_exec (closed_forStack vm.forStack) env i (fun a ha => by rintro rfl; rw [ht] at ha; cases ha) vm rfl
    exact Res.All.imp h (fun vm' h => by rw [h]; exact o.fors)
  | true =>
    have hkn : ∀ x : VmM Unit, (∀ P : CodeState → Prop, Keeps (fun vm : VM => ∀ f ∈ vm.forStack, P f.codeState) x) →
        (V.brk x vm).All (fun vm' => ∀ f ∈ vm'.forStack, Place ph vm f.codeState.code (f.codeState.pc + 1)) := by
      intro x hx
      exact ((hx (fun c => Place ph vm c.code (c.pc + 1))).bind (fun _ => Keeps.pure _)) vm o.fors
    cases i <;> first | (exact (Bool.false_ne_true ht).elim) | skip
    case bi f => cases f <;> exact (Bool.false_ne_true ht).elim
    case for_ id =>
      obtain ⟨r, b, l', rest, s⟩ := standing hr hat rfl (by simp)
      have h1 := keeps_for_all (c := vm.cs) (P := fun c => Place ph vm c.code (c.pc + 1))
        (by simp only [s.code.ref]; exact s.code.place (s.after rfl)) id
      exact Res.All.imp ((h1.bind (fun _ => Keeps.pure V.Flow.brk)) vm ⟨rfl, o.fors⟩) (fun vm' h => h.2)
    case nextVar id =>
      refine hkn _ (fun P => ?_)
      unfold nextVariable
      keeps
      all_goals first
        | exact keeps_traced_of (keeps_dumpFor_of (I := fun vm => ∀ f ∈ vm.forStack, P f.codeState) (fun _ _ h => h) _)
        | exact keeps_next_all _
    case nextImp =>
      refine hkn _ (fun P => ?_)
      unfold nextImplicit
      keeps
      all_goals first
        | exact keeps_traced_of (keeps_dumpFor_of (I := fun vm => ∀ f ∈ vm.forStack, P f.codeState) (fun _ _ h => h) _)
        | exact keeps_next_all _

/-! Definitions. -/

/-- Every definition in a table is in this set. -/
def DefsIn (S : Ty → Def → Prop) (st : SymTab) : Prop := ∀ (q : Nat) s d, st.psym[q]? = some s → s.def_ = some d → S s.type d

theorem DefsIn.update {S : Ty → Def → Prop} {st : SymTab} (h : DefsIn S st) (id : Nat) {f : Symbol → Symbol}
    (hf : ∀ s, (f s).type = s.type) (hd : ∀ s d, st.psym[id]? = some s → (f s).def_ = some d → S s.type d) : DefsIn S (symUpdate st id f) := by
  intro q s d hs he
  simp only [symUpdate] at hs
  rw [List.getElem?_modify] at hs
  cases hl : st.psym[q]? with
  | none => rw [hl] at hs; simp at hs
  | some x =>
    rw [hl] at hs
    simp only [Option.map_eq_map, Option.map_some, Option.some.injEq] at hs
    by_cases hq : id = q
    · subst hq
      simp only [if_true] at hs
      rw [← hs] at he ⊢
      rw [hf]
      exact hd x d hl he
    · simp only [hq, if_false] at hs
      subst hs
      exact h q x d hl he

theorem DefsIn.clear {S : Ty → Def → Prop} {st : SymTab} (h : DefsIn S st) : DefsIn S (clearSymbolTableValues st) := by
  intro q s d hs he
  unfold clearSymbolTableValues at hs
  simp only [List.getElem?_map] at hs
  cases hl : st.psym[q]? with
  | none => rw [hl] at hs; simp at hs
  | some x =>
    rw [hl] at hs
    simp only [Option.map_some, Option.some.injEq] at hs
    split at hs
    · subst hs
      have hx : x.def_ = some d ∧ (undefineValue x).type = x.type := by
        revert he
        unfold undefineValue
        split
        · exact fun h => ⟨h, rfl⟩
        · split <;> exact fun h => ⟨h, rfl⟩
        · split <;> exact fun h => ⟨h, rfl⟩
        · intro h; cases h
        · exact fun h => ⟨h, rfl⟩
      rw [hx.2]
      exact h q x d hl hx.1
    · subst hs
      exact h q x d hl he

theorem closed_defs (S : Ty → Def → Prop) : Closed (· ≠ .def_) (fun vm => DefsIn S vm.st) where
  push _ x := by intro vm h; simp only [push]; split <;> exact h
  pop := by intro vm h; simp only [pop]; split <;> exact h
  pushStr _ x := by intro vm h; simp only [pushStr]; split <;> exact h
  popStr := by intro vm h; simp only [popStr]; split <;> exact h
  pushReturn _ pc := by intro vm h; simp only [pushReturn]; split <;> exact h
  popReturn _ := by intro vm h; simp only [popReturn]; split <;> exact h
  updSym _ id f hf _ hd _ := Keeps.modify (fun vm h => by
    rcases hd with hd | hd
    · exact absurd rfl hd
    · exact DefsIn.update h id (fun s => (hf s).2.2.2) (fun s d hs he => by rw [hd s] at he; exact h _ s d hs he))
  clear _ vm h := DefsIn.clear h
  world _ vm w h := h
  col _ vm c h := h
  cs vm c _ _ h := h
  stopped _ vm c h := h
  fn _ vm c h := h
  defCode _ vm c h := h
  input _ vm c _ h := h
  inp _ vm c h := h
  inputPc _ vm c h := h
  trace := .inl (by decide)
  programData _ vm n h := h
  immediateData _ vm n h := h
  forTop _ id hd := by
    unfold forTop forEntry
    keeps <;> exact Keeps.modify (fun vm h => h)
  setTopFor _ f _ := Keeps.modify (fun vm h => h)
  erase _ vm si h := h

/-- A definition that has been executed is well formed. -/
theorem exec_defs (env : Env) {i : Inst} (o : Ordered ph vm) (hr : Running ph vm) (hat : At vm i) (ht : Tab vm.st)
    (hl : vm.st.psym.length ≤ 65536) :
    (exec env i vm).All (fun vm' => DefsIn (WellDef vm.st) vm'.st) := by
  cases htd : touches i .def_ with
  | false =>
    exact keeps_exec (closed_defs (WellDef vm.st)) env i (fun a ha => by rintro rfl; rw [htd] at ha; cases ha) vm o.defs
  | true =>
    cases i <;> first | (exact (Bool.false_ne_true htd).elim) | skip
    case bi f => cases f <;> exact (Bool.false_ne_true htd).elim
    case def_ id n =>
      obtain ⟨r, b, l', rest, s⟩ := standing hr hat rfl (by simp)
      have hh := s.head
      have hnext := s.next
      have hwhole := s.whole
      have hlt : vm.cs.pc < b.used := (List.getElem?_eq_some_iff.1 s.inst).1
      generalize hgt vm = g at hh
      cases hh with
      | expr h => cases (eff_some h).1
      | plain h => cases h
      | on h => rcases h with h | h <;> cases h
      | item _ h => cases h
      | @def_ _ pid t e _ h1 h2 h3 =>
        simp only [exec, brk_apply]
        rcases defStatement_result s.code hlt with ⟨h, hx⟩ | ⟨vm', hx, -, line, st1, hst, hst'⟩
        · rw [hx]; trivial
        rw [hx]
        change DefsIn (WellDef vm.st) vm'.st
        rw [hst']
        have hbody : (b.inst.drop vm.cs.pc).takeWhile (fun i => !i.isEndDef) ++ [.endDef] = .def_ id 1 :: .param pid :: (e ++ [.endDef]) := by
          rw [hwhole, List.takeWhile_cons, if_pos (by rfl), takeWhile_def h3.isExpr]; rfl
        have hty : ∀ q, vm.st.psym[id]? = some q → q.type = t := by
          intro q hq
          obtain ⟨k, s', hk, hid, -, hs'⟩ := h1
          have hklt : k < vm.st.psym.length := (List.getElem?_eq_some_iff.1 hk).1
          have := ht.ids k s' hk
          rw [hid, Nat.mod_eq_of_lt (by omega)] at this
          subst this
          rw [hk] at hq; cases hq; exact hs'
        have hwd : WellDef vm.st t ⟨⟨(b.inst.drop vm.cs.pc).takeWhile (fun i => !i.isEndDef) ++ [.endDef], false⟩, line⟩ := by
          refine ⟨⟨id, pid, e, hbody, h3⟩, ?_⟩
          intro j hj
          have hw : WellCode vm.st b := by
            rcases s.code.home with h | ⟨hph, h⟩
            · exact o.stored b (by have := s.code.bcode; rw [h] at this; exact this)
            · exact o.imm hph b (by have := s.code.bcode; rw [h] at this; exact this)
          refine hw.2 j ?_
          simp only [hbody] at hj
          have hmem : j ∈ b.inst.drop vm.cs.pc := by
            rw [hwhole]
            simp only [List.mem_cons, List.mem_append, List.cons_append] at hj ⊢
            rcases hj with hj | hj | hj
            · exact .inl hj
            · exact .inr (.inl hj)
            · exact .inr (.inr (.inl hj))
          exact List.mem_of_mem_drop hmem
        have h1 : DefsIn (WellDef vm.st) st1 ∧ ∀ q, st1.psym[id]? = some q → q.type = t := by
          rcases hst with rfl | rfl
          · exact ⟨o.defs, hty⟩
          · refine ⟨DefsIn.update o.defs id (fun _ => rfl) (fun _ _ _ h => by cases h), ?_⟩
            intro q hq
            simp only [symUpdate] at hq
            rw [List.getElem?_modify] at hq
            cases hl : vm.st.psym[id]? with
            | none => rw [hl] at hq; simp at hq
            | some x =>
              rw [hl] at hq
              simp only [Option.map_eq_map, Option.map_some, Option.some.injEq, if_true] at hq
              rw [← hq]
              exact hty x hl
        refine DefsIn.update h1.1 id (fun _ => rfl) ?_
        intro s' d hs' hd
        simp only [Option.some.injEq] at hd
        rw [← hd, h1.2 s' hs']
        exact hwd

end V

theorem Ordered.move {ph : Phase} {vm vm' : VM} (o : Ordered ph vm) (m : Moved vm vm')
    (hr : ∀ cs ∈ vm'.retstack, Place ph vm cs.code cs.pc)
    (hf : ∀ f ∈ vm'.forStack, Place ph vm f.codeState.code (f.codeState.pc + 1))
    (hd : V.DefsIn (WellDef vm.st) vm'.st) : Ordered ph vm' where
  stored b hb := (o.stored b (by rw [← m.stored]; exact hb)).grow m.grows
  index idx n pc h1 h2 := by
    rw [m.stored] at h1 ⊢
    exact o.index idx n pc h1 h2
  imm hp b hb := (o.imm hp b (by rw [← m.immediate]; exact hb)).grow m.grows
  defs q s d hs he := (hd q s d hs he).grow m.grows
  rets cs hc := (hr cs hc).move m
  fors f h := (hf f h).move m

/-- One instruction keeps everything in order, and its error is not about the form of the code. -/
theorem execute_flow (env : Env) {ph : Phase} {vm : VM} (o : Ordered ph vm) (hr : Running ph vm) (ht : Tab vm.st)
    (hl : vm.st.psym.length ≤ 65536) :
    (V.execute env vm).All (fun vm' => Ordered ph vm' ∧ Moved vm vm') ∧ (V.execute env vm).Wp (fun _ vm' => Running ph vm') := by
  cases hc : V.curBcode vm with
  | halt h => simp only [V.execute, V.bind_apply, hc]; exact ⟨trivial, trivial⟩
  | err e v =>
    exfalso
    simp only [V.curBcode] at hc
    split at hc
    · cases hc
    · split at hc <;> cases hc
  | ok b v =>
    have hv : v = vm ∧ ∃ r, vm.cs.code = some r ∧ (V.codeOf vm r).bcode = some b := by
      simp only [V.curBcode] at hc
      split at hc
      · cases hc
      · split at hc
        · cases hc
        · cases hc; exact ⟨rfl, _, by assumption, by assumption⟩
    obtain ⟨hv, r, h1, h2⟩ := hv
    subst hv
    cases hi : b.inst[v.cs.pc]? with
    | none => simp only [V.execute, V.bind_apply, hc, V.get_apply, hi]; exact ⟨trivial, trivial⟩
    | some i =>
      have hat : At v i := ⟨r, b, h1, h2, hi⟩
      have hm := exec_moved env i v
      have hrets := V.exec_rets env o hr hat
      have hfors := V.exec_fors env o hr hat
      have hdefs := V.exec_defs env o hr hat ht hl
      have hrun := V.step_running env o hr hat
      rw [V.execute_at env hat]
      cases hx : V.exec env i v with
      | halt h => exact ⟨trivial, trivial⟩
      | err e w =>
        rw [hx] at hm hrets hfors hdefs hrun
        exact ⟨⟨o.move hm hrets hfors hdefs, hm⟩, hrun⟩
      | ok f w =>
        rw [hx] at hm hrets hfors hdefs hrun
        cases f with
        | ret => exact ⟨⟨o.move hm hrets hfors hdefs, hm⟩, RunAt.move hrun hm⟩
        | brk =>
          have hm2 : Moved v { w with cs := following w.cs } := ⟨hm.stored, hm.immediate, hm.grows, hm.length, hm.tab⟩
          exact ⟨⟨o.move hm2 hrets hfors hdefs, hm2⟩, RunAt.move hrun hm2⟩

end LB
