import Verif.Proofs.Frame
/- The lines that execution refers to. -/
namespace LB
namespace V

/-- What holds of the code and the line of every place that execution can go to.  With `b`, execution can go to the program. -/
structure Lines (G : Option CodeRef → Nat → Prop) (b : Bool) (vm : VM) : Prop where
  cs : G vm.cs.code vm.cs.sourceLine
  fn : G vm.fn.codeState.code vm.fn.codeState.sourceLine
  rets : ∀ c ∈ vm.retstack, G c.code c.sourceLine
  fors : ∀ f ∈ vm.forStack, G f.codeState.code f.codeState.sourceLine
  home : b = true → G (some .stored) vm.cs.sourceLine

/-- It holds where there is no code and in functions. -/
structure Allows (G : Option CodeRef → Nat → Prop) : Prop where
  nil : ∀ l, G none l
  def_ : ∀ l, G (some .def_) l

variable {G : Option CodeRef → Nat → Prop} {b : Bool}

theorem Lines.same {vm vm' : VM} (h : Lines G b vm) (h1 : vm'.cs.sourceLine = vm.cs.sourceLine) (h2 : vm'.cs.code = vm.cs.code) (h3 : vm'.fn.codeState = vm.fn.codeState)
    (h4 : vm'.retstack = vm.retstack) (h5 : vm'.forStack = vm.forStack) : Lines G b vm' :=
  ⟨by rw [h1, h2]; exact h.cs, by rw [h3]; exact h.fn, by rw [h4]; exact h.rets, by rw [h5]; exact h.fors, by rw [h1]; exact h.home⟩

theorem Lines.any {vm : VM} (h : Lines G b vm) : Lines G false vm := ⟨h.cs, h.fn, h.rets, h.fors, fun k => by cases k⟩

theorem keeps_forTop_lines (hG : Allows G) (id : Nat) (hd : Keeps (Lines G b) (dumpForStack "overflow")) : Keeps (Lines G b) (forTop id) := by
  unfold forTop
  refine Keeps.bind ?_ (fun _ => ?_)
  · intro vm h
    unfold forEntry
    simp only [bind_apply, get_apply]
    cases hff : findFor vm id with
    | some si =>
      simp only
      cases hf : vm.forStack[si]? with
      | none => exact trivial
      | some f =>
        refine ⟨h.cs, h.fn, h.rets, fun g hg => ?_, h.home⟩
        rcases List.mem_append.1 hg with hg | hg
        · exact h.fors g ((List.eraseIdx_sublist _ _).mem hg)
        · rw [List.mem_singleton] at hg
          subst hg
          exact h.fors _ (List.mem_of_getElem? hf)
    | none =>
      by_cases hm : vm.forStack.length ≥ maxFor
      · simp only [if_pos hm]; exact (hd.bind (fun _ => Keeps.fail _)) vm h
      · simp only [if_neg hm]
        refine ⟨h.cs, h.fn, h.rets, fun g hg => ?_, h.home⟩
        rcases List.mem_append.1 hg with hg | hg
        · exact h.fors g hg
        · rw [List.mem_singleton] at hg
          subst hg
          exact hG.nil _
  · intro vm h
    simp only [bind_apply, get_apply, setTopFor, modify_apply]
    refine ⟨h.cs, h.fn, h.rets, fun g hg => ?_, h.home⟩
    obtain ⟨k, hk⟩ := List.getElem?_of_mem hg
    simp only [List.getElem?_modify] at hk
    cases hx : vm.forStack[k]? with
    | none => rw [hx] at hk; cases hk
    | some x =>
      rw [hx] at hk
      simp only [Option.map_eq_map, Option.map_some, Option.some.injEq] at hk
      rw [← hk]
      split
      · exact h.cs
      · exact h.fors _ (List.mem_of_getElem? hx)

theorem closed_lines (hG : Allows G) : Closed (fun a => a ≠ .jump ∧ a ≠ .fn ∧ a ≠ .line ∧ (b = true → a ≠ .ret)) (Lines G b) where
  push _ x := by
    intro vm h; simp only [push]; split
    · exact h
    · exact h.same rfl rfl rfl rfl rfl
  pop := by
    intro vm h; simp only [pop]; split
    · exact h
    · exact h.same rfl rfl rfl rfl rfl
  pushStr _ x := by
    intro vm h; simp only [pushStr]; split
    · exact h
    · exact h.same rfl rfl rfl rfl rfl
  popStr := by
    intro vm h; simp only [popStr]; split
    · exact h
    · exact h.same rfl rfl rfl rfl rfl
  pushReturn _ pc := by
    intro vm h; simp only [pushReturn]; split
    · exact h
    · refine ⟨h.cs, h.fn, fun c hc => ?_, h.fors, h.home⟩
      rcases List.mem_cons.1 hc with rfl | hc
      · exact h.cs
      · exact h.rets c hc
  popReturn hr := by
    intro vm h; simp only [popReturn]; split
    · exact h
    · rename_i c r hr'
      exact ⟨h.rets c (by rw [hr']; exact List.mem_cons_self), h.fn,
        fun x hx => h.rets x (by rw [hr']; exact List.mem_cons_of_mem _ hx), h.fors, fun k => absurd rfl (hr.2.2.2 k)⟩
  updSym _ id f _ _ _ _ := Keeps.modify (fun vm h => h.same rfl rfl rfl rfl rfl)
  clear _ vm h := h.same rfl rfl rfl rfl rfl
  world _ vm w h := h.same rfl rfl rfl rfl rfl
  col _ vm c h := h.same rfl rfl rfl rfl rfl
  cs vm c hj hl h := h.same ((hl.resolve_left (fun h => h.1 rfl)).resolve_left (fun h => h.2.2.1 rfl)) (hj.resolve_left (fun h => h.1 rfl)) rfl rfl rfl
  stopped _ vm c h := h.same rfl rfl rfl rfl rfl
  fn hf := absurd rfl hf.2.1
  defCode hf := absurd rfl hf.2.1
  input _ vm c _ h := h.same rfl rfl rfl rfl rfl
  inp _ vm c h := h.same rfl rfl rfl rfl rfl
  inputPc _ vm c h := h.same rfl rfl rfl rfl rfl
  trace := .inl ⟨by decide, by decide, by decide, fun _ => by decide⟩
  programData _ vm n h := h.same rfl rfl rfl rfl rfl
  immediateData _ vm n h := h.same rfl rfl rfl rfl rfl
  forTop _ id hd := keeps_forTop_lines hG id hd
  setTopFor _ f hf := by
    refine Keeps.modify (fun vm h => ⟨h.cs, h.fn, h.rets, fun g hg => ?_, h.home⟩)
    obtain ⟨k, hk⟩ := List.getElem?_of_mem hg
    simp only [List.getElem?_modify] at hk
    cases hx : vm.forStack[k]? with
    | none => rw [hx] at hk; cases hk
    | some x =>
      rw [hx] at hk
      simp only [Option.map_eq_map, Option.map_some, Option.some.injEq] at hk
      rw [← hk]
      split
      · rw [(hf x).2]; exact h.fors _ (List.mem_of_getElem? hx)
      · exact h.fors _ (List.mem_of_getElem? hx)
  erase _ vm si h := ⟨h.cs, h.fn, h.rets, fun g hg => h.fors g ((List.eraseIdx_sublist _ _).mem hg), h.home⟩

theorem lines_goTo (n : Nat) {vm : VM} (h : Lines G true vm) : (goToBasicLine n vm).All (Lines G false) := by
  cases hl : vm.stored.index.bind (lookupLineMapping · n) with
  | none => simp only [goToBasicLine, findBasicLine, bind_apply, hl]; exact h.any
  | some pc =>
      simp only [goToBasicLine, findBasicLine, bind_apply, hl, modify_apply]
      exact ⟨h.home rfl, h.fn, h.rets, h.fors, fun k => by cases k⟩

theorem lines_pushReturn (pc : Nat) : Keeps (Lines G b) (pushReturn pc) := by
  intro vm h; simp only [pushReturn]; split
  · exact h
  · refine ⟨h.cs, h.fn, fun c hc => ?_, h.fors, h.home⟩
    rcases List.mem_cons.1 hc with rfl | hc
    · exact h.cs
    · exact h.rets c hc

theorem lines_next (hG : Allows G) (si : Nat) : Keeps (Lines G false) (next si) := by
  intro vm h
  unfold next
  simp only [bind_apply, get_apply]
  cases hf : vm.forStack[si]? with
  | none => trivial
  | some f =>
    simp only [bind_apply]
    have ht : Keeps (Lines G false) (traced (dumpForStack "final stack")) :=
      keeps_traced (closed_lines (b := false) hG) (fun hi => keeps_dumpForStack (closed_lines (b := false) hG) hi _)
    have hs := Keeps.sym (I := Lines G false) f.symbolId vm h
    have hfix := Keeps.sym (I := fun w => w.forStack = vm.forStack) f.symbolId vm rfl
    generalize V.sym f.symbolId vm = r at hs hfix ⊢
    cases r with
    | halt _ => trivial
    | err _ _ => exact hs
    | ok s w =>
      have hs : Lines G false w := hs
      have hfix : w.forStack = vm.forStack := hfix
      by_cases hp : pastLimit f.step (s.num.add f.step) f.limit = true
      · simp only [if_pos hp, modify_apply]
        exact ht _ ⟨hs.cs, hs.fn, hs.rets, fun g hg => hs.fors g ((List.eraseIdx_sublist _ _).mem hg), hs.home⟩
      · simp only [if_neg hp, modify_apply]
        exact ht _ ⟨h.fors f (List.mem_of_getElem? hf), hs.fn, hs.rets, hs.fors, fun k => by cases k⟩

theorem lines_callDef (hG : Allows G) (id n : Nat) : Keeps (Lines G false) (callDef id n) := by
  have hc := (closed_lines (b := false) hG)
  unfold callDef
  keeps
  · exact Keeps.modify (fun vm h => ⟨h.cs, h.cs, h.rets, h.fors, h.home⟩)
  · exact Keeps.modify (fun vm h => h.same rfl rfl rfl rfl rfl)
  · exact Keeps.modify (fun vm h => ⟨hG.def_ _, h.fn, h.rets, h.fors, fun k => by cases k⟩)
  · exact Keeps.modify (fun vm h => ⟨h.cs, h.fn, h.rets, h.fors, h.home⟩)
  · exact hc.pop
  · exact Keeps.modify (fun vm h => h.same rfl rfl rfl rfl rfl)
  · exact Keeps.modify (fun vm h => h.same rfl rfl rfl rfl rfl)

theorem lines_endDef (hG : Allows G) : Keeps (Lines G false) endDef := by
  unfold endDef
  keeps
  · exact Keeps.modify (fun w hw => ⟨hw.fn, hw.fn, hw.rets, hw.fors, fun k => by cases k⟩)
  · exact Keeps.modify (fun w hw => ⟨hw.cs, hG.nil _, hw.rets, hw.fors, hw.home⟩)
  · exact Keeps.modify (fun vm h => h.same rfl rfl rfl rfl rfl)


/-- The instructions that go to a line of the program. -/
def jumps : Inst → Bool
  | .goto_ _ | .gotrue _ | .gosub _ | .onGoto _ | .onGosub _ => true
  | _ => false

theorem lines_then {α β : Type} {x : VmM α} {f : α → VmM β} {vm : VM} (hx : Keeps (Lines G true) x) (h : Lines G true vm)
    (hf : ∀ a w, Lines G true w → (f a w).All (Lines G false)) : ((x >>= f) vm).All (Lines G false) := by
  have := hx vm h
  simp only [bind_apply]
  cases he : x vm with
  | ok a w => rw [he] at this; exact hf a w this
  | err e w => rw [he] at this; exact Lines.any this
  | halt _ => trivial

theorem lines_on (hG : Allows G) (n : Nat) (g : Bool) {vm : VM} (h : Lines G true vm) : (onStatement n g vm).All (Lines G false) := by
  have hc := closed_lines (b := true) hG
  unfold onStatement
  refine lines_then hc.pop h (fun x w hw => ?_)
  refine lines_then (Keeps.check _ _) hw (fun _ w hw => ?_)
  refine lines_then Keeps.get hw (fun v w hw => ?_)
  split
  · exact (keeps_setPc (closed_lines (b := false) hG) _) w hw.any
  · refine lines_then (fun w hw => ?_) hw (fun b w hw => ?_)
    · unfold curBcode; split
      · trivial
      · split
        · trivial
        · exact hw
    · have key : ∀ o : Option Inst, ((match o with
          | some (.onLine l) => do
            when_ g (pushReturn (v.cs.pc + n + 1))
            goToBasicLine l
          | _ => fail RunError.onLineExpected : VmM Unit) w).All (Lines G false) := by
        intro o
        split
        · refine lines_then ?_ hw (fun _ w hw => lines_goTo _ hw)
          exact Keeps.when (lines_pushReturn _)
        · exact hw.any
      exact key _

theorem lines_sourceLine (hG : Allows G) {l : Nat} {vm : VM} (h : Lines G false vm) (hl : G vm.cs.code l) : (sourceLineInst l vm).All (Lines G false) := by
  have hk : Lines G false { vm with cs := { vm.cs with sourceLine := l } } := ⟨hl, h.fn, h.rets, h.fors, fun k => by cases k⟩
  have hc := closed_lines (b := false) hG
  unfold sourceLineInst
  simp only [bind_apply, modify_apply, get_apply]
  revert hk
  generalize ({ vm with cs := { vm.cs with sourceLine := l } } : VM) = v
  revert v
  suffices hh : Keeps (Lines G false) (when_ vm.traceBasic (do
    match ← curSource with
    | none => halt (.outOfBounds "source is NULL")
    | some src => do
      let n ← lift (sourceLinenum src l)
      out ('[' :: fmtU n ++ [']']))) from fun v hk => hh v hk
  keeps
  exact keeps_out hc ⟨by decide, by decide, by decide, fun _ => by decide⟩ _

theorem exec_lines (hG : Allows G) (env : Env) {i : Inst} {vm : VM} (h : Lines G b vm) (hb : jumps i = true → b = true)
    (hl : ∀ l, i = .sourceLine l → G vm.cs.code l) : (exec env i vm).All (Lines G false) := by
  have hc := closed_lines (b := false) hG
  cases hj : jumps i with
  | true =>
    obtain rfl := hb hj
    cases i with
    | goto_ l => 
      have := lines_goTo l h
      simp only [exec, ret_apply]
      cases he : goToBasicLine l vm <;> rw [he] at this <;> exact this
    | gotrue l =>
      simp only [exec]
      refine lines_then (closed_lines hG).pop h (fun x w hw => ?_)
      split
      · have := lines_goTo l hw
        simp only [ret_apply]
        cases he : goToBasicLine l w <;> rw [he] at this <;> exact this
      · exact hw.any
    | gosub l =>
      have : ((do let vm ← get; pushReturn (vm.cs.pc + 1); goToBasicLine l : VmM Unit) vm).All (Lines G false) :=
        lines_then Keeps.get h (fun v w hw => lines_then (lines_pushReturn _) hw (fun _ w hw => lines_goTo _ hw))
      simp only [exec, ret_apply]
      revert this
      cases (do let vm ← get; pushReturn (vm.cs.pc + 1); goToBasicLine l : VmM Unit) vm <;> exact fun h => h
    | onGoto n =>
      have := lines_on hG n false h
      simp only [exec, ret_apply]
      revert this
      cases onStatement n false vm <;> exact fun h => h
    | onGosub n =>
      have := lines_on hG n true h
      simp only [exec, ret_apply]
      revert this
      cases onStatement n true vm <;> exact fun h => h
    | bi f => cases hj
    | _ => cases hj
  | false =>
    replace h := h.any
    by_cases hsl : ∃ l, i = .sourceLine l
    · obtain ⟨l, rfl⟩ := hsl
      have := lines_sourceLine hG h (hl l rfl)
      simp only [exec, brk_apply]
      revert this
      cases sourceLineInst l vm <;> exact fun h => h
    refine (?_ : Keeps (Lines G false) (exec env i)) vm h
    cases hj' : touches i .jump with
    | false =>
      cases hf : touches i .fn with
      | false =>
        refine keeps_exec hc env i (fun a ha => ⟨?_, ?_, ?_, fun k => by cases k⟩)
        · rintro rfl; rw [hj'] at ha; cases ha
        · rintro rfl; rw [hf] at ha; cases ha
        · rintro rfl
          cases i with
          | bi f => cases f <;> cases ha
          | sourceLine l => exact hsl ⟨l, rfl⟩
          | _ => cases ha
      | true =>
        cases i with
        | bi f => cases f <;> exact (Bool.false_ne_true hf).elim
        | _ => first | exact (Bool.false_ne_true hf).elim | exact (Bool.false_ne_true hj'.symm).elim
    | true =>
      cases i with
      | return_ => exact Keeps.ret (hc.popReturn ⟨by decide, by decide, by decide, fun k => by cases k⟩)
      | nextVar id =>
        refine Keeps.brk ?_
        unfold nextVariable
        keeps
        · exact keeps_traced hc (fun hi => keeps_dumpFor hc hi _)
        · exact lines_next hG _
        · exact lines_next hG _
      | nextImp =>
        refine Keeps.brk ?_
        unfold nextImplicit
        keeps
        · exact keeps_traced hc (fun hi => keeps_dumpFor hc hi _)
        · exact lines_next hG _
      | getParenNum id n =>
        refine Keeps.brk ?_
        unfold getParenNum
        keeps
        · exact keeps_getElement hc ⟨by decide, by decide, by decide, fun k => by cases k⟩ (numField_ok ⟨by decide, by decide, by decide, fun k => by cases k⟩) _ _
        · exact hc.push ⟨by decide, by decide, by decide, fun k => by cases k⟩ _
        · exact lines_callDef hG _ _
      | getParenStr id n =>
        refine Keeps.brk ?_
        unfold getParenStr
        keeps
        · exact keeps_getElement hc ⟨by decide, by decide, by decide, fun k => by cases k⟩ (strField_ok ⟨by decide, by decide, by decide, fun k => by cases k⟩) _ _
        · exact hc.pushStr ⟨by decide, by decide, by decide, fun k => by cases k⟩ _
        · exact lines_callDef hG _ _
      | endDef => exact Keeps.brk (lines_endDef hG)
      | bi f => cases f <;> exact (Bool.false_ne_true hj').elim
      | _ => first | exact (Bool.false_ne_true hj').elim | exact (Bool.false_ne_true hj.symm).elim

end V
end LB
