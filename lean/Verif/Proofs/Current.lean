import Verif.Proofs.Running
import Verif.Proofs.Frame
/- The compiled code belongs to the stored lines; CONT. -/
namespace LB
open LB.Spec

/-- Compiled code, if there is any, comes from the stored lines; a stopped program is the stored one. -/
structure Current (ph : Phase) (vm : VM) : Prop where
  code : ∀ b, vm.stored.bcode = some b → ∃ src idx st, vm.stored.source = some src ∧ vm.stored.index = some idx ∧
    parseSource src (initBuiltins newSymbolTable) vm.keywordsAnywhere = .ok (some b, st) ∧ bcodeIndex b src = .ok idx
  running : ph ≠ .idle → ∀ src, vm.stored.source = some src → vm.stored.bcode ≠ none
  stopped : vm.stoppedProgram.code = none ∨ vm.stoppedProgram.code = some .stored

theorem execute_fixed {env : Env} {vm vm' : VM} (r : Res Unit) (hr : V.execute env vm = r)
    (hv : r = .ok () vm' ∨ ∃ e, r = .err e vm') :
    vm'.stored = vm.stored ∧ vm'.immediate = vm.immediate ∧ vm'.stoppedProgram = vm.stoppedProgram ∧
      vm'.keywordsAnywhere = vm.keywordsAnywhere := by
  have h := V.keeps_execute (V.closed_fixed (fun a b c d _ _ _ => (a, b, c, d))
    (vm.stored, vm.immediate, vm.stoppedProgram, vm.keywordsAnywhere)) env vm rfl
  rw [hr] at h
  rcases hv with rfl | ⟨e, rfl⟩ <;>
  · simp only [Res.All, Prod.mk.injEq] at h
    exact h

theorem Current.same {ph ph' : Phase} {vm vm' : VM} (h : Current ph vm) (h1 : vm'.stored = vm.stored)
    (h2 : vm'.stoppedProgram = vm.stoppedProgram) (h3 : vm'.keywordsAnywhere = vm.keywordsAnywhere)
    (hp : ph' ≠ .idle → ph ≠ .idle) : Current ph' vm' :=
  ⟨by rw [h1, h3]; exact h.code, fun hi => by rw [h1]; exact h.running (hp hi), by rw [h2]; exact h.stopped⟩

theorem Current.uncompiled {vm : VM} (h1 : vm.stored.bcode = none)
    (h : vm.stoppedProgram.code = none ∨ vm.stoppedProgram.code = some .stored) : Current .idle vm :=
  ⟨fun b hb => by rw [h1] at hb; simp at hb, fun hi => absurd rfl hi, h⟩

theorem runMessages_same (e : RunEnd) (vm : VM) :
    (runMessages e vm).stored = vm.stored ∧ (runMessages e vm).stoppedProgram = vm.stoppedProgram ∧
    (runMessages e vm).keywordsAnywhere = vm.keywordsAnywhere ∧ (runMessages e vm).cs = vm.cs := by
  unfold runMessages
  split
  · exact ⟨rfl, rfl, rfl, rfl⟩
  · split <;> exact ⟨rfl, rfl, rfl, rfl⟩

theorem finish_stored (ph : Phase) (vm : VM) (e : RunEnd) : (Spec.finish ph e vm).stored = vm.stored := by
  have hr : (recordStopped e (runMessages e vm)).stored = vm.stored := by
    unfold recordStopped
    split
    · split <;> exact (runMessages_same e vm).1
    · exact (runMessages_same e vm).1
  unfold Spec.finish
  simp only
  split
  · exact hr
  · exact hr

theorem finish_stopped (ph : Phase) (vm : VM) (e : RunEnd)
    (h : vm.stoppedProgram.code = none ∨ vm.stoppedProgram.code = some .stored) :
    (Spec.finish ph e vm).stoppedProgram.code = none ∨ (Spec.finish ph e vm).stoppedProgram.code = some .stored := by
  have hr : (recordStopped e (runMessages e vm)).stoppedProgram.code = none ∨
      (recordStopped e (runMessages e vm)).stoppedProgram.code = some .stored := by
    obtain ⟨m1, m2, m3, m4⟩ := runMessages_same e vm
    unfold recordStopped
    split
    · rename_i hc
      split
      · exact .inr hc
      · exact .inl rfl
    · rw [m2]; exact h
  unfold Spec.finish
  simp only
  split
  · exact .inl rfl
  · exact hr

theorem Current.finish {ph : Phase} {vm : VM} (e : RunEnd) (h : Current ph vm) :
    Current .idle (Spec.finish ph e vm) := by
  obtain ⟨m1, m2, m3, m4⟩ := runMessages_same e vm
  have hr : Current .idle (recordStopped e (runMessages e vm)) := by
    unfold recordStopped
    have hb : Current .idle (runMessages e vm) := h.same m1 m2 m3 (fun hi => absurd rfl hi)
    split
    · rename_i hc
      split
      · exact ⟨hb.code, hb.running, .inr hc⟩
      · exact ⟨hb.code, hb.running, .inl rfl⟩
    · exact hb
  unfold Spec.finish
  simp only
  split
  · exact ⟨hr.code, hr.running, .inl rfl⟩
  · exact hr

theorem current_compile {vm vm' : VM} {b : Bool} (h : Current .idle vm) (hc : ensureProgramCompiled vm = .ok (b, vm')) :
    Current .idle vm' := by
  unfold ensureProgramCompiled at hc
  split at hc
  · rename_i src hs hb
    split at hc
    · simp at hc
    · split at hc
      · simp at hc
      · simp only [Outcome.ok.injEq, Prod.mk.injEq] at hc
        obtain ⟨-, rfl⟩ := hc
        exact h.same rfl rfl rfl id
      · rename_i bc st hp
        split at hc
        · simp at hc
        · rename_i idx hi
          simp only [Outcome.ok.injEq, Prod.mk.injEq] at hc
          obtain ⟨-, rfl⟩ := hc
          refine ⟨fun b hb => ?_, fun hi => absurd rfl hi, .inl rfl⟩
          simp only [resetControlState, Option.some.injEq] at hb
          subst hb
          exact ⟨src, idx, st, hs, rfl, hp, hi⟩
  · simp only [Outcome.ok.injEq, Prod.mk.injEq] at hc
    obtain ⟨-, rfl⟩ := hc
    exact h

theorem compiled_has_code {vm : VM} {src : Source} (hc : ensureProgramCompiled vm = .ok (true, vm))
    (hs : vm.stored.source = some src) : vm.stored.bcode ≠ none := by
  intro hn
  unfold ensureProgramCompiled at hc
  rw [hs, hn] at hc
  simp only at hc
  split at hc
  · simp at hc
  · split at hc
    · simp at hc
    · simp at hc
    · split at hc
      · simp at hc
      · simp only [Outcome.ok.injEq, Prod.mk.injEq, true_and] at hc
        rw [← hc] at hn
        simp [resetControlState] at hn

/-- As long as RENUM is not used, compiled code comes from the stored lines. -/
theorem state_current {may : Cmd → VM → Prop} (hm : ∀ vm, ¬ may .renum vm) {ph : Phase} {vm : VM} (h : State may ph vm) :
    Current ph vm := by
  induction h with
  | start => exact Current.uncompiled rfl (.inl rfl)
  | world w _ ih => exact ih.same rfl rfl rfl id
  | enter num text _ _ he ih =>
    unfold vmEnterSourceLine at he
    split at he
    · simp at he
    · simp only [Outcome.ok.injEq] at he
      subst he
      exact Current.uncompiled rfl ih.stopped
  | delete num _ ih =>
    unfold vmDeleteSourceLine
    split
    · exact ih
    · split
      · exact ih
      · exact Current.uncompiled rfl ih.stopped
  | new _ ih => exact Current.uncompiled rfl ih.stopped
  | load name c b _ hl ih =>
    unfold vmLoadSource at hl
    split at hl
    · simp at hl
    · simp only [Outcome.ok.injEq, Prod.mk.injEq] at hl
      obtain ⟨-, rfl⟩ := hl
      exact ih
    · simp only [Outcome.ok.injEq, Prod.mk.injEq] at hl
      obtain ⟨-, rfl⟩ := hl
      exact Current.uncompiled rfl ih.stopped
  | renum new old inc _ h1 => exact absurd h1 (hm _)
  | compile b _ hc ih => exact current_compile ih hc
  | clearValues _ ih => exact ih.same rfl rfl rfl id
  | noImmediate _ ih => exact ih.same rfl rfl rfl id
  | run _ hc hs ih =>
    exact ⟨ih.code, fun _ src h => by have h2 := compiled_has_code hc h; exact h2, .inl rfl⟩
  | failed line _ _ hc hp ih => exact ih.same rfl rfl rfl id
  | typed line _ _ hc hp hi ih => exact ⟨ih.code, fun _ src h => by have h2 := compiled_has_code hc h; exact h2, ih.stopped⟩
  | @cont vm r b _ _ hr hb _ ih =>
    refine ⟨ih.code, fun _ src h => ?_, ih.stopped⟩
    have : r = .stored := by
      rcases ih.stopped with h0 | h0
      · rw [h0] at hr; simp at hr
      · rw [h0] at hr; simpa using hr.symm
    subst this
    simp only [V.codeOf] at hb
    simp [startAt, hb]
  | @resume vm b _ _ hb _ _ ih =>
    have h2 : Current .idle (Spec.finish .program ⟨none, true⟩ vm) := ih.finish ⟨none, true⟩
    have h3 : (Spec.finish .program ⟨none, true⟩ vm).stored = vm.stored := finish_stored _ _ _
    exact ⟨h2.code, fun _ src _ => by show (Spec.finish .program ⟨none, true⟩ vm).stored.bcode ≠ none; rw [h3, hb]; simp, h2.stopped⟩
  | step env _ _ _ _ he ih =>
    obtain ⟨h1, -, h2, h3⟩ := execute_fixed _ he (.inl rfl)
    exact ih.same h1 h2 h3 id
  | error env i _ _ _ _ he ih =>
    obtain ⟨h1, -, h2, h3⟩ := execute_fixed _ he (.inr ⟨_, rfl⟩)
    exact (ih.same h1 h2 h3 id).finish _
  | finish i _ _ _ ih => exact ih.finish _

/-- A stopped program is always the stored one. -/
theorem state_stopped {may : Cmd → VM → Prop} {ph : Phase} {vm : VM} (h : State may ph vm) :
    vm.stoppedProgram.code = none ∨ vm.stoppedProgram.code = some .stored := by
  have hfin := finish_stopped
  induction h with
  | start => exact .inl rfl
  | world w _ ih => exact ih
  | enter num text _ _ he ih =>
    unfold vmEnterSourceLine at he
    split at he
    · simp at he
    · simp only [Outcome.ok.injEq] at he
      subst he
      exact ih
  | delete num _ ih =>
    unfold vmDeleteSourceLine
    split
    · exact ih
    · split <;> exact ih
  | new _ ih => exact ih
  | load name c b _ hl ih =>
    unfold vmLoadSource at hl
    split at hl
    · simp at hl
    · simp only [Outcome.ok.injEq, Prod.mk.injEq] at hl
      obtain ⟨-, rfl⟩ := hl
      exact ih
    · simp only [Outcome.ok.injEq, Prod.mk.injEq] at hl
      obtain ⟨-, rfl⟩ := hl
      exact ih
  | renum new old inc _ _ hr ih =>
    unfold renumber at hr
    split at hr
    · simp only [Outcome.ok.injEq] at hr; subst hr; exact ih
    · split at hr
      · simp at hr
      · simp only [Outcome.ok.injEq] at hr; subst hr; exact ih
      · split at hr
        · simp at hr
        · simp only [Outcome.ok.injEq] at hr; subst hr
          split <;> exact ih
  | compile b _ hc ih =>
    unfold ensureProgramCompiled at hc
    split at hc
    · split at hc
      · simp at hc
      · split at hc
        · simp at hc
        · simp only [Outcome.ok.injEq, Prod.mk.injEq] at hc
          obtain ⟨-, rfl⟩ := hc
          exact ih
        · split at hc
          · simp at hc
          · simp only [Outcome.ok.injEq, Prod.mk.injEq] at hc
            obtain ⟨-, rfl⟩ := hc
            exact .inl rfl
    · simp only [Outcome.ok.injEq, Prod.mk.injEq] at hc
      obtain ⟨-, rfl⟩ := hc
      exact ih
  | clearValues _ ih => exact ih
  | noImmediate _ ih => exact ih
  | run _ hc hs ih => exact .inl rfl
  | failed line _ _ hc hp ih => exact ih
  | typed line _ _ hc hp hi ih => exact ih
  | cont _ _ hr hb _ ih => exact ih
  | @resume vm b _ _ _ _ _ ih => exact hfin .program vm ⟨none, true⟩ ih
  | step env _ _ _ _ he ih =>
    obtain ⟨-, -, h2, -⟩ := execute_fixed _ he (.inl rfl)
    rw [h2]; exact ih
  | error env i _ _ _ _ he ih =>
    obtain ⟨-, -, h2, -⟩ := execute_fixed _ he (.inr ⟨_, rfl⟩)
    exact hfin _ _ _ (by rw [h2]; exact ih)
  | finish i _ _ _ ih => exact hfin _ _ _ ih

end LB
