import Verif.Proofs.Lines
import Verif.Proofs.RunEnds
import Verif.Proofs.Current
import Verif.Proofs.HeldStep
/- The line that is being executed exists. -/
namespace LB
open LB.Spec Code

/-- The line is one of the program, or the first, if the code is that of the program; it is the first in a typed statement. -/
def LineOk (names : Prop) (prog : Code) (c : Option CodeRef) (l : Nat) : Prop :=
  (c = some .immediate → l = 0) ∧
  (c = some .stored → names → ∀ b src, prog.bcode = some b → prog.source = some src → l = 0 ∨ l < src.lines.length)

theorem lineOk_allows (n : Prop) (p : Code) : V.Allows (LineOk n p) :=
  ⟨fun _ => ⟨fun h => (by cases h), fun h => (by cases h)⟩, fun _ => ⟨fun h => (by cases h), fun h => (by cases h)⟩⟩

/-- The instructions that mark lines mark lines of the source. -/
def Marks (p : Code) : Prop :=
  ∀ b, p.bcode = some b → ∃ src, p.source = some src ∧ ∀ i ∈ b.inst, 0 < src.lines.length ∧ ∀ l, i = .sourceLine l → l < src.lines.length

structure LineState (vm : VM) : Prop where
  lines : V.Lines (LineOk (vm.st.psym.length ≤ 65536) vm.stored) false vm
  stop : LineOk (vm.st.psym.length ≤ 65536) vm.stored vm.stoppedProgram.code vm.stoppedProgram.sourceLine
  stored : Marks vm.stored
  imm : Marks vm.immediate
  one : ∀ src, vm.immediate.source = some src → src.lines.length = 1

theorem LineState.same {vm vm' : VM} (h : LineState vm) (h1 : vm'.cs = vm.cs) (h2 : vm'.fn = vm.fn) (h3 : vm'.retstack = vm.retstack)
    (h4 : vm'.forStack = vm.forStack) (h5 : vm'.stoppedProgram = vm.stoppedProgram)
    (hg : ∀ c l, LineOk (vm.st.psym.length ≤ 65536) vm.stored c l → LineOk (vm'.st.psym.length ≤ 65536) vm'.stored c l)
    (hs : Marks vm'.stored) (hi : vm'.immediate = vm.immediate) : LineState vm' := by
  refine ⟨⟨?_, ?_, ?_, ?_, fun k => by cases k⟩, ?_, hs, ?_, ?_⟩
  · rw [h1]; exact hg _ _ h.lines.cs
  · rw [h2]; exact hg _ _ h.lines.fn
  · rw [h3]; exact fun c hc => hg _ _ (h.lines.rets c hc)
  · rw [h4]; exact fun c hc => hg _ _ (h.lines.fors c hc)
  · rw [h5]; exact hg _ _ h.stop
  · rw [hi]; exact h.imm
  · rw [hi]; exact h.one

theorem lineOk_uncompiled {n m : Prop} {p q : Code} (hq : q.bcode = none) {c : Option CodeRef} {l : Nat} (h : LineOk n p c l) : LineOk m q c l :=
  ⟨h.1, fun _ _ b src hb => by rw [hq] at hb; cases hb⟩

theorem lineOk_grows {n m : Nat} {p : Code} (hq : n ≤ m) {c : Option CodeRef} {l : Nat} (h : LineOk (n ≤ 65536) p c l) : LineOk (m ≤ 65536) p c l :=
  ⟨h.1, fun hc hm => h.2 hc (Nat.le_trans hq hm)⟩

theorem marks_uncompiled {q : Code} (hq : q.bcode = none) : Marks q := fun b hb => by rw [hq] at hb; cases hb

theorem LineState.uncompiled {vm vm' : VM} (h : LineState vm) (h1 : vm'.cs = vm.cs) (h2 : vm'.fn = vm.fn) (h3 : vm'.retstack = vm.retstack)
    (h4 : vm'.forStack = vm.forStack) (h5 : vm'.stoppedProgram = vm.stoppedProgram) (h6 : vm'.stored.bcode = none)
    (hi : vm'.immediate = vm.immediate) : LineState vm' :=
  h.same h1 h2 h3 h4 h5 (fun _ _ => lineOk_uncompiled h6) (marks_uncompiled h6) hi

theorem LineState.reset {vm : VM} (hs : Marks vm.stored) (hi : Marks vm.immediate) (ho : ∀ src, vm.immediate.source = some src → src.lines.length = 1) :
    LineState (resetControlState vm) := by
  have hn : ∀ l, LineOk (vm.st.psym.length ≤ 65536) vm.stored none l := (lineOk_allows _ _).nil
  exact ⟨⟨hn _, hn _, fun c hc => (by cases hc), fun c hc => (by cases hc), fun k => by cases k⟩, hn _, hs, hi, ho⟩

theorem LineState.start {vm : VM} (h : LineState vm) {cs : CodeState} (hc : LineOk (vm.st.psym.length ≤ 65536) vm.stored cs.code cs.sourceLine) :
    LineState (startAt cs vm) :=
  ⟨⟨hc, h.lines.fn, h.lines.rets, h.lines.fors, fun k => by cases k⟩, h.stop, h.stored, h.imm, h.one⟩

theorem LineState.finish {ph : Phase} {vm : VM} (h : LineState vm) (e : RunEnd) : LineState (Spec.finish ph e vm) := by
  have hr : LineState (recordStopped e (runMessages e vm)) := by
    obtain ⟨w, hw⟩ := runMessages_frame e vm
    rw [hw]
    have h0 : LineState { vm with world := w } := h.same rfl rfl rfl rfl rfl (fun _ _ h => h) h.stored rfl
    unfold recordStopped
    split
    · split
      · exact ⟨h0.lines.same rfl rfl rfl rfl rfl, h0.lines.cs, h0.stored, h0.imm, h0.one⟩
      · exact ⟨h0.lines.same rfl rfl rfl rfl rfl, (lineOk_allows _ _).nil _, h0.stored, h0.imm, h0.one⟩
    · exact h0
  unfold Spec.finish
  simp only
  split
  · exact .reset hr.stored hr.imm hr.one
  · exact hr

/-! Renumbering keeps the number of lines. -/

theorem renumLoop_length {old inc : Nat} {ls : List SrcLine} {new prev : Nat} {m m' : LineMap} {ls' : List SrcLine} {e : Option CStr}
    (h : renumLoop old inc ls new prev m = .ok (ls', m', e)) : ls'.length = ls.length := by
  induction ls generalizing new prev m m' ls' e with
  | nil => cases h; rfl
  | cons l ls ih =>
    unfold renumLoop at h
    split at h
    · split at h
      · cases h; rfl
      · split at h
        · cases h
        · split at h
          · cases h
          · rename_i hr; cases h; simp [ih hr]
    · split at h
      · cases h
      · split at h
        · cases h
        · rename_i hr; cases h; simp [ih hr]

theorem sourceReplace_length {src src' : Source} {line pos : Nat} {a b : CStr} (h : sourceReplace src line pos a b = some src') :
    src'.lines.length = src.lines.length := by
  unfold sourceReplace at h
  split at h
  · cases h
  · simp only at h
    split at h
    · cases h; simp
    · cases h

/-- The program a line's retargeting leaves. -/
def leftSource : RenumRes → Source
  | .done s _ => s
  | .bail s _ => s

theorem renumTokens_length {m : LineMap} {line n : Nat} {src : Source} {tok : Tok} {lex : Lex} {r : RenumRes}
    (h : renumTokens m line n src tok lex = .ok r) : (leftSource r).lines.length = src.lines.length := by
  induction n generalizing src tok lex with
  | zero => cases h
  | succ n ih =>
    unfold renumTokens at h
    split at h
    · cases h; rfl
    · split at h
      · split at h
        · cases h
        · split at h
          · split at h
            · cases h
            · exact ih h
          · split at h
            · cases h; rfl
            · rename_i hs
              split at h
              · cases h
              · split at h
                · cases h
                · split at h
                  · cases h; exact sourceReplace_length hs
                  · split at h
                    · cases h
                    · exact (ih h).trans (sourceReplace_length hs)
      · split at h
        · cases h
        · exact ih h

theorem renumLines_length {m : LineMap} {todo line : Nat} {src src' : Source} {lex : Lex} {msg : Option String}
    (h : renumLines m todo line src lex = .ok (src', msg)) : src'.lines.length = src.lines.length := by
  induction todo generalizing line src lex with
  | zero => cases h; rfl
  | succ n ih =>
    unfold renumLines at h
    split at h
    · cases h
    · split at h
      · cases h
      · split at h
        · cases h
        · rename_i hr; cases h; exact renumTokens_length hr
        · rename_i hr; exact (ih h).trans (renumTokens_length hr)

theorem LineState.resized {vm : VM} (h : LineState vm) {src src' : Source} (hs : vm.stored.source = some src) (hl : src'.lines.length = src.lines.length) (w : World) :
    LineState { vm with stored := { vm.stored with source := some src' }, world := w } := by
  refine h.same rfl rfl rfl rfl rfl (fun c l hc => ⟨hc.1, fun k1 k2 b s hb hs' => ?_⟩) (fun b hb => ?_) rfl
  · cases hs'
    rw [hl]; exact hc.2 k1 k2 b src hb hs
  · obtain ⟨s, h1, h2⟩ := h.stored b hb
    rw [hs] at h1; cases h1
    exact ⟨src', rfl, fun i hi => by rw [hl]; exact h2 i hi⟩

/-! Compiling. -/

theorem marks_compiled {src : Source} {st st' : SymTab} {pre : Bool} {bc : Bcode} (ht : Tab st) (hp : parseSource src st pre = .ok (some bc, st')) :
    ∀ i ∈ bc.inst, 0 < src.lines.length ∧ ∀ l, i = .sourceLine l → l < src.lines.length := by
  intro i hi
  refine ⟨?_, ?_⟩
  · refine Nat.pos_of_ne_zero (fun h0 => ?_)
    have h0 : src.lines = [] := List.length_eq_zero_iff.1 h0
    unfold parseSource at hp
    rw [h0] at hp
    simp only [P.parseLines] at hp
    cases hp
    cases hi
  · rintro l rfl
    have h1 := ((parseSource_compiled ht hp).2.2 bc rfl).lines
    have h2 : l ∈ bc.inst.filterMap lineOf := List.mem_filterMap.2 ⟨_, hi, rfl⟩
    rw [h1] at h2
    exact List.mem_range.1 h2

theorem LineState.compile {vm vm' : VM} {b : Bool} (h : LineState vm) (hc : ensureProgramCompiled vm = .ok (b, vm')) : LineState vm' := by
  unfold ensureProgramCompiled at hc
  split at hc
  · rename_i src hs hb
    split at hc
    · simp at hc
    · split at hc
      · simp at hc
      · simp only [Outcome.ok.injEq, Prod.mk.injEq] at hc
        obtain ⟨-, rfl⟩ := hc
        exact h.uncompiled rfl rfl rfl rfl rfl hb rfl
      · rename_i bc st hp
        split at hc
        · simp at hc
        · rename_i idx hi
          simp only [Outcome.ok.injEq, Prod.mk.injEq] at hc
          obtain ⟨-, rfl⟩ := hc
          refine .reset (fun b hb => ?_) h.imm h.one
          cases hb
          exact ⟨src, hs, marks_compiled (wellNamed_fresh vm.st).tab hp⟩
  · simp only [Outcome.ok.injEq, Prod.mk.injEq] at hc
    obtain ⟨-, rfl⟩ := hc
    exact h

/-! Running. -/

/-- The same, where the typed statement may not matter. -/
structure LineIn (f : Prop) (vm : VM) : Prop where
  lines : V.Lines (LineOk (vm.st.psym.length ≤ 65536) vm.stored) false vm
  stop : LineOk (vm.st.psym.length ≤ 65536) vm.stored vm.stoppedProgram.code vm.stoppedProgram.sourceLine
  stored : Marks vm.stored
  imm : f → Marks vm.immediate
  one : f → ∀ src, vm.immediate.source = some src → src.lines.length = 1

theorem LineIn.exec {f : Prop} {vm vm' : VM} {ph : Phase} (h : LineIn f vm) (hf : vm.st.psym.length ≤ 65536 → Running ph vm) {env : Env} {i : Inst} (hat : At vm i)
    (hi : ∀ l, i = .sourceLine l → vm.cs.code = some .immediate → f)
    (he : V.execute env vm = .ok () vm' ∨ ∃ e, V.execute env vm = .err e vm') : LineIn f vm' := by
  have hm := execute_moved hat he
  have hstop : vm'.stoppedProgram = vm.stoppedProgram := by
    rcases he with he | ⟨e, he⟩
    · exact (execute_fixed _ he (.inl rfl)).2.2.1
    · exact (execute_fixed _ he (.inr ⟨_, rfl⟩)).2.2.1
  generalize hG : LineOk (vm.st.psym.length ≤ 65536) vm.stored = G at h
  have hl : V.Lines G false vm := hG ▸ h.lines
  have ha : V.Allows G := hG ▸ lineOk_allows _ _
  have hx : (V.exec env i vm).All (V.Lines G false) := by
    cases hj : V.jumps i with
    | true =>
      have hb : V.Lines G true vm := by
        refine ⟨hl.cs, hl.fn, hl.rets, hl.fors, fun _ => ?_⟩
        subst hG
        refine ⟨fun k => (by cases k), fun _ hn b src hb hs => ?_⟩
        obtain ⟨r, b', l, rest, ⟨⟨h1, h2, h3⟩, -⟩⟩ := V.standing (hf hn) hat (by cases i <;> first | rfl | cases hj) (by rintro rfl; cases hj)
        rcases h2 with rfl | ⟨-, rfl⟩
        · exact hl.cs.2 h1 hn b src hb hs
        · exact .inl (hl.cs.1 h1)
      exact V.exec_lines ha env hb (fun _ => rfl) (fun l k => by subst k; cases hj)
    | false =>
      refine V.exec_lines ha env hl (fun k => by rw [hj] at k; cases k) (fun l k => ?_)
      subst hG
      subst k
      obtain ⟨r, b, h1, h2, h3⟩ := hat
      rw [h1]
      refine ⟨fun k => ?_, fun k _ b' src hb' hs => ?_⟩
      · cases k
        have hi := hi l rfl h1
        obtain ⟨src, k1, k2⟩ := h.imm hi b h2
        have := (k2 _ (List.mem_of_getElem? h3)).2 l rfl
        rw [h.one hi src k1] at this; omega
      · cases k
        obtain ⟨src', k1, k2⟩ := h.stored b h2
        rw [hs] at k1; cases k1
        exact .inr ((k2 _ (List.mem_of_getElem? h3)).2 l rfl)
  have hend : V.Lines G false vm' := by
    rw [V.execute_at env hat] at he
    revert hx
    generalize V.exec env i vm = r at he
    intro hx
    cases r with
    | ok f w =>
      cases f with
      | ret => rcases he with he | ⟨e, he⟩ <;> cases he; exact hx
      | brk => rcases he with he | ⟨e, he⟩ <;> cases he; exact V.Lines.same (vm := w) hx rfl rfl rfl rfl rfl
    | err e w => rcases he with he | ⟨e, he⟩ <;> cases he; exact hx
    | halt x => rcases he with he | ⟨e, he⟩ <;> cases he
  subst hG
  refine ⟨?_, ?_, ?_, ?_, ?_⟩
  · rw [hm.length, hm.stored]; exact hend
  · rw [hm.length, hm.stored, hstop]; exact h.stop
  · rw [hm.stored]; exact h.stored
  · rw [hm.immediate]; exact h.imm
  · rw [hm.immediate]; exact h.one

theorem LineState.exec {vm vm' : VM} {ph : Phase} (h : LineState vm) (hf : vm.st.psym.length ≤ 65536 → Running ph vm) {env : Env} {i : Inst} (hat : At vm i)
    (he : V.execute env vm = .ok () vm' ∨ ∃ e, V.execute env vm = .err e vm') : LineState vm' :=
  let k := LineIn.exec (f := True) ⟨h.lines, h.stop, h.stored, fun _ => h.imm, fun _ => h.one⟩ hf hat (fun _ _ _ => trivial) he
  ⟨k.lines, k.stop, k.stored, k.imm trivial, k.one trivial⟩

theorem state_lines {may : Cmd → VM → Prop} (hc : ∀ vm, may .cont vm → StoppedBetween vm) {ph : Phase} {vm : VM} (h : State may ph vm) : LineState vm := by
  have running : ∀ {ph : Phase} {vm : VM}, ph ≠ .idle → State may ph vm → vm.st.psym.length ≤ 65536 → Running ph vm := by
    intro ph vm hp h hn
    have hfl := state_flow hc h
    have hc : Comp vm := by
      by_cases hs : vm.stored.source = none
      · exact .inl hs
      · exact .inr (hfl.base.ready hp hs)
    exact (hfl.ordered trivial hc hn).2 hp
  induction h with
  | start kw tb tf world =>
    have hn := (lineOk_allows ((newVm kw tb tf world).st.psym.length ≤ 65536) (newVm kw tb tf world).stored).nil
    exact ⟨⟨hn _, hn _, fun c hc => (by cases hc), fun c hc => (by cases hc), fun k => by cases k⟩, hn _, marks_uncompiled rfl, marks_uncompiled rfl, fun _ h => by cases h⟩
  | world w _ ih => exact ih.same rfl rfl rfl rfl rfl (fun _ _ h => h) ih.stored rfl
  | enter num text _ _ he ih =>
    unfold vmEnterSourceLine at he
    split at he
    · simp at he
    · simp only [Outcome.ok.injEq] at he
      subst he
      exact ih.uncompiled rfl rfl rfl rfl rfl rfl rfl
  | delete num _ ih =>
    unfold vmDeleteSourceLine
    split
    · exact ih
    · split
      · exact ih
      · exact ih.uncompiled rfl rfl rfl rfl rfl rfl rfl
  | new _ ih => exact ih.uncompiled rfl rfl rfl rfl rfl rfl rfl
  | load name c b _ hl ih =>
    unfold vmLoadSource at hl
    split at hl
    · simp at hl
    · simp only [Outcome.ok.injEq, Prod.mk.injEq] at hl
      obtain ⟨-, rfl⟩ := hl
      exact ih
    · simp only [Outcome.ok.injEq, Prod.mk.injEq] at hl
      obtain ⟨-, rfl⟩ := hl
      exact ih.uncompiled rfl rfl rfl rfl rfl rfl rfl
  | @renum vm vm' new old inc _ _ hr ih =>
    unfold renumber at hr
    split at hr
    · simp only [Outcome.ok.injEq] at hr; subst hr; exact ih
    · rename_i src hs
      split at hr
      · simp at hr
      · rename_i hl
        simp only [Outcome.ok.injEq] at hr; subst hr
        exact ih.resized hs (renumLoop_length hl) _
      · rename_i hl
        split at hr
        · simp at hr
        · rename_i hl2
          simp only [Outcome.ok.injEq] at hr; subst hr
          have := (renumLines_length hl2).trans (renumLoop_length hl)
          split
          · exact ih.resized hs this vm.world
          · exact ih.resized hs this _
  | compile b _ hc ih => exact ih.compile hc
  | clearValues _ ih => exact ih.same rfl rfl rfl rfl rfl (fun c l h => lineOk_grows (by simp [vmClearValues, clearSymbolTableValues]) h) ih.stored rfl
  | noImmediate _ ih => exact ⟨ih.lines.same rfl rfl rfl rfl rfl, ih.stop, ih.stored, marks_uncompiled rfl, fun _ h => by cases h⟩
  | run _ hc hs ih => exact (LineState.reset ih.stored ih.imm ih.one).start ⟨fun k => (by cases k), fun _ _ _ _ _ _ => .inl rfl⟩
  | failed line hst _ hc hp ih =>
    exact ih.same rfl rfl rfl rfl rfl (fun c l h => lineOk_grows (parseSource_compiled (state_base hst).tab hp).1.grows.length h) ih.stored rfl
  | @typed vm st bc idx line hst _ hc hp hi ih =>
    have hg := (parseSource_compiled (state_base hst).tab hp).1.grows.length
    have h0 : LineState { vm with st := st } := ih.same rfl rfl rfl rfl rfl (fun c l h => lineOk_grows hg h) ih.stored rfl
    refine LineState.start (cs := { code := some .immediate, sourceLine := 0, pc := 0 })
      (vm := { vm with st := st, immediate := ⟨some (wrapSourceText line), some bc, some idx⟩, immediateData := 0 })
      ⟨h0.lines.same rfl rfl rfl rfl rfl, h0.stop, h0.stored, fun b hb => ?_, fun src hs => ?_⟩ ⟨fun _ => rfl, fun _ _ _ _ _ _ => .inl rfl⟩
    · cases hb
      exact ⟨_, rfl, marks_compiled (state_base hst).tab hp⟩
    · cases hs; rfl
  | @cont vm r b _ _ hr hb _ ih =>
    refine ih.start ?_
    unfold resumeAt
    split <;> exact ih.stop
  | @resume vm b _ hcs hb hu _ ih =>
    have h2 : LineState (Spec.finish .program ⟨none, true⟩ vm) := ih.finish ⟨none, true⟩
    refine h2.start ?_
    have e : (Spec.finish .program ⟨none, true⟩ vm).st = vm.st ∧ (Spec.finish .program ⟨none, true⟩ vm).stored = vm.stored := by
      obtain ⟨w, s, hw⟩ := recordStopped_frame ⟨none, true⟩ vm
      unfold Spec.finish
      simp only [hw]
      split <;> exact ⟨rfl, rfl⟩
    rw [e.1, e.2]
    unfold resumeAt
    split <;> exact ih.lines.cs
  | @step ph vm vm' env hp hst hat _ he ih =>
    obtain ⟨i, hat⟩ := hat
    exact ih.exec (running hp hst) hat (.inl he)
  | @error ph vm vm' e env i hp hst hat _ he ih =>
    obtain ⟨j, hat⟩ := hat
    exact (ih.exec (running hp hst) hat (.inr ⟨e, he⟩)).finish _
  | finish i hp _ _ ih => exact ih.finish _

/-- The code that is being executed has the line that is being executed. -/
theorem LineState.online {ph : Phase} {vm : VM} (h : LineState vm) (hn : vm.st.psym.length ≤ 65536) (hr : Running ph vm) {i : Inst} (hat : At vm i)
    (h1 : isExpr i = false) (h2 : i ≠ .endDef) : V.OnLine vm := by
  obtain ⟨r, b, l, rest, ⟨⟨h3, h4, h5⟩, h6, -⟩⟩ := V.standing hr hat h1 h2
  rcases h4 with rfl | ⟨-, rfl⟩
  · obtain ⟨src, k1, k2⟩ := h.stored b h5
    refine ⟨_, src, h3, k1, ?_⟩
    rcases h.lines.cs.2 h3 hn b src h5 k1 with k | k
    · rw [k]; exact (k2 i (List.mem_of_getElem? h6)).1
    · exact k
  · obtain ⟨src, k1, k2⟩ := h.imm b h5
    refine ⟨_, src, h3, k1, ?_⟩
    rw [h.lines.cs.1 h3]; exact (k2 i (List.mem_of_getElem? h6)).1

/-- The line that is reached exists. -/
theorem LineState.reached {ph : Phase} {vm : VM} (h : LineState vm) (hr : Running ph vm) {l : Nat} (hat : At vm (.sourceLine l)) :
    ∃ r src, vm.cs.code = some r ∧ (V.codeOf vm r).source = some src ∧ l < src.lines.length := by
  obtain ⟨r, b, l', rest, ⟨⟨h3, h4, h5⟩, h6, -⟩⟩ := V.standing hr hat rfl (by simp)
  rcases h4 with rfl | ⟨-, rfl⟩
  · obtain ⟨src, k1, k2⟩ := h.stored b h5
    exact ⟨_, src, h3, k1, (k2 _ (List.mem_of_getElem? h6)).2 l rfl⟩
  · obtain ⟨src, k1, k2⟩ := h.imm b h5
    exact ⟨_, src, h3, k1, (k2 _ (List.mem_of_getElem? h6)).2 l rfl⟩

end LB
