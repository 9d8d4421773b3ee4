import Verif.Proofs.FlowState
/- Where the code and the names of a session come from. -/
namespace LB
open LB.Spec

/-- Compiled code comes from the stored lines, the names were added to those the compiler found there. -/
structure Rooted (vm : VM) : Prop where
  code : ∀ b, vm.stored.bcode = some b → ∃ src idx st, vm.stored.source = some src ∧ vm.stored.index = some idx ∧
    parseSource src (initBuiltins newSymbolTable) vm.keywordsAnywhere = .ok (some b, st) ∧ bcodeIndex b src = .ok idx ∧ Grows st vm.st
  defCode : vm.defCode.source = none ∧ vm.defCode.index = none
  prompt : vm.inputPrompt = true

theorem Rooted.same {vm vm' : VM} (h : Rooted vm) (h1 : vm'.stored = vm.stored) (h2 : Grows vm.st vm'.st)
    (h3 : vm'.keywordsAnywhere = vm.keywordsAnywhere) (h4 : vm'.defCode.source = vm.defCode.source ∧ vm'.defCode.index = vm.defCode.index)
    (h5 : vm'.inputPrompt = vm.inputPrompt) : Rooted vm' := by
  refine ⟨fun b hb => ?_, by rw [h4.1, h4.2]; exact h.defCode, by rw [h5]; exact h.prompt⟩
  rw [h1] at hb
  obtain ⟨src, idx, st, k1, k2, k3, k4, k5⟩ := h.code b hb
  exact ⟨src, idx, st, by rw [h1]; exact k1, by rw [h1]; exact k2, by rw [h3]; exact k3, k4, k5.trans h2⟩

theorem Rooted.uncompiled {vm vm' : VM} (h : Rooted vm) (h1 : vm'.stored.bcode = none) (h4 : vm'.defCode = vm.defCode)
    (h5 : vm'.inputPrompt = vm.inputPrompt) : Rooted vm' :=
  ⟨fun b hb => (by rw [h1] at hb; cases hb), by rw [h4]; exact h.defCode, by rw [h5]; exact h.prompt⟩

theorem execute_rooted {env : Env} {vm vm' : VM} (r : Res Unit) (hr : V.execute env vm = r) (hv : r = .ok () vm' ∨ ∃ e, r = .err e vm') :
    vm'.keywordsAnywhere = vm.keywordsAnywhere ∧ vm'.defCode.source = vm.defCode.source ∧ vm'.defCode.index = vm.defCode.index ∧
      vm'.inputPrompt = vm.inputPrompt := by
  have hcl : V.Closed (fun _ => True) (fun w => (w.keywordsAnywhere, w.defCode.source, w.defCode.index, w.inputPrompt) =
      (vm.keywordsAnywhere, vm.defCode.source, vm.defCode.index, vm.inputPrompt)) := by
    refine V.closed_of_field _ (fun w => (w.keywordsAnywhere, w.defCode.source, w.defCode.index, w.inputPrompt)) _ ?_ ?_ ?_ ?_ ?_ ?_ ?_ ?_
      (.inl trivial) ?_ ?_ ?_ <;> intros <;> rfl
  have h := V.keeps_execute hcl env vm rfl
  rw [hr] at h
  rcases hv with rfl | ⟨e, rfl⟩ <;>
  · simp only [Res.All, Prod.mk.injEq] at h
    exact h

theorem Rooted.finish {vm : VM} (h : Rooted vm) (ph : Phase) (e : RunEnd) : Rooted (Spec.finish ph e vm) := by
  obtain ⟨w, s, hw⟩ := recordStopped_frame e vm
  unfold Spec.finish
  simp only [hw]
  split
  · exact h.same rfl (Grows.refl _) rfl ⟨rfl, rfl⟩ rfl
  · exact h.same rfl (Grows.refl _) rfl ⟨rfl, rfl⟩ rfl

theorem rooted_compile {vm vm' : VM} {b : Bool} (h : Rooted vm) (hc : ensureProgramCompiled vm = .ok (b, vm')) : Rooted vm' := by
  unfold ensureProgramCompiled at hc
  split at hc
  · rename_i src hs hb
    split at hc
    · simp at hc
    · split at hc
      · simp at hc
      · simp only [Outcome.ok.injEq, Prod.mk.injEq] at hc
        obtain ⟨-, rfl⟩ := hc
        exact h.uncompiled hb rfl rfl
      · rename_i bc st hp
        split at hc
        · simp at hc
        · rename_i idx hi
          simp only [Outcome.ok.injEq, Prod.mk.injEq] at hc
          obtain ⟨-, rfl⟩ := hc
          refine ⟨fun b hb => ?_, h.defCode, h.prompt⟩
          simp only [resetControlState, Option.some.injEq] at hb
          subst hb
          exact ⟨src, idx, st, hs, rfl, hp, hi, Grows.refl _⟩
  · simp only [Outcome.ok.injEq, Prod.mk.injEq] at hc
    obtain ⟨-, rfl⟩ := hc
    exact h

/-- As long as RENUM is not used, compiled code comes from the stored lines and names are only added to theirs. -/
theorem state_rooted {may : Cmd → VM → Prop} (hm : ∀ vm, ¬ may .renum vm) {ph : Phase} {vm : VM} (h : State may ph vm) :
    Rooted vm := by
  induction h with
  | start => exact ⟨fun b hb => (by cases hb), ⟨rfl, rfl⟩, rfl⟩
  | world w _ ih => exact ih.same rfl (Grows.refl _) rfl ⟨rfl, rfl⟩ rfl
  | enter num text _ _ he ih =>
    unfold vmEnterSourceLine at he
    split at he
    · simp at he
    · simp only [Outcome.ok.injEq] at he
      subst he
      exact ih.uncompiled rfl rfl rfl
  | delete num _ ih =>
    unfold vmDeleteSourceLine
    split
    · exact ih
    · split
      · exact ih
      · exact ih.uncompiled rfl rfl rfl
  | new _ ih => exact ih.uncompiled rfl rfl rfl
  | load name c b _ hl ih =>
    unfold vmLoadSource at hl
    split at hl
    · simp at hl
    · simp only [Outcome.ok.injEq, Prod.mk.injEq] at hl
      obtain ⟨-, rfl⟩ := hl
      exact ih
    · simp only [Outcome.ok.injEq, Prod.mk.injEq] at hl
      obtain ⟨-, rfl⟩ := hl
      exact ih.uncompiled rfl rfl rfl
  | renum new old inc _ h1 => exact absurd h1 (hm _)
  | compile b _ hc ih => exact rooted_compile ih hc
  | @clearValues vm _ ih => exact ih.same rfl (grows_of_values (heads_clear vm.st)) rfl ⟨rfl, rfl⟩ rfl
  | noImmediate _ ih => exact ih.same rfl (Grows.refl _) rfl ⟨rfl, rfl⟩ rfl
  | run _ hc hs ih => exact ih.same rfl (Grows.refl _) rfl ⟨rfl, rfl⟩ rfl
  | failed line hst _ hc hp ih => exact ih.same rfl (parseSource_compiled (state_base hst).tab hp).1.grows rfl ⟨rfl, rfl⟩ rfl
  | typed line hst _ hc hp hi ih => exact ih.same rfl (parseSource_compiled (state_base hst).tab hp).1.grows rfl ⟨rfl, rfl⟩ rfl
  | cont _ _ hr hb _ ih => exact ih.same rfl (Grows.refl _) rfl ⟨rfl, rfl⟩ rfl
  | resume _ _ hb _ _ ih => exact (ih.finish .program ⟨none, true⟩).same rfl (Grows.refl _) rfl ⟨rfl, rfl⟩ rfl
  | @step ph vm vm' env hp _ hat _ he ih =>
    obtain ⟨i, hat⟩ := hat
    have hmv : Moved vm vm' := by
      have h := exec_moved env i vm
      rw [V.execute_at env hat] at he
      cases hx : V.exec env i vm with
      | halt h => rw [hx] at he; cases he
      | err e w => rw [hx] at he; cases he
      | ok f w =>
        rw [hx] at he h
        cases f <;> cases he
        · exact ⟨h.stored, h.immediate, h.grows, h.length, h.tab⟩
        · exact h
    obtain ⟨h1, h2, h3, h4⟩ := execute_rooted _ he (.inl rfl)
    exact ih.same hmv.stored hmv.grows h1 ⟨h2, h3⟩ h4
  | @error ph vm vm' e env i hp _ hat _ he ih =>
    obtain ⟨i, hat⟩ := hat
    have hmv : Moved vm vm' := by
      have h := exec_moved env i vm
      rw [V.execute_at env hat] at he
      cases hx : V.exec env i vm with
      | halt h => rw [hx] at he; cases he
      | err e w => rw [hx] at he h; cases he; exact h
      | ok f w =>
        rw [hx] at he
        cases f <;> cases he
    obtain ⟨h1, h2, h3, h4⟩ := execute_rooted _ he (.inr ⟨_, rfl⟩)
    exact (ih.same hmv.stored hmv.grows h1 ⟨h2, h3⟩ h4).finish _ _
  | finish i _ _ _ ih => exact ih.finish _ _

end LB
