import Verif.Proofs.HeldStep
/- What the symbols hold throughout sessions. -/
namespace LB
open LB.Spec Code

theorem compiled_defParam {src : Source} {st st' : SymTab} {pre : Bool} {bc : Bcode} (ht : Tab st)
    (hp : parseSource src st pre = .ok (some bc, st')) : DefParam bc.inst :=
  Pieces.defParam ((parseSource_compiled ht hp).2.2 bc rfl).pieces

theorem heldSym_builtin : ∀ s ∈ builtinSymbols, HeldSym s := by
  intro s hs
  have h : ∀ s ∈ builtinSymbols, s.kind = .builtin ∧ s.str = none ∧ s.numarr = none ∧ s.strarr = none ∧ s.def_ = none ∧ s.defined = true := by decide
  obtain ⟨h1, h2, h3, h4, h5, h6⟩ := h s hs
  refine ⟨fun h => ?_, fun a h => ?_, fun a h => ?_, fun d h => ?_, fun h => ?_, fun h => ?_, fun h => ?_, fun h => ?_, fun _ => h6⟩
  · rw [h2] at h; cases h
  · rw [h3] at h; cases h
  · rw [h4] at h; cases h
  · rw [h5] at h; cases h
  all_goals (rw [h1] at h; cases h)

/-- What the symbols hold, whether or not the program is compiled. -/
structure HeldIn (vm : VM) : Prop where
  syms : AllSym HeldSym vm.st
  defc : ∀ b, vm.defCode.bcode = some b → DefParam b.inst
  refs : Comp vm → (vm.fn.codeState.code.isSome = true → NumVar vm.st vm.fn.paramId) ∧ ∀ f ∈ vm.forStack, NumVar vm.st f.symbolId

theorem HeldIn.kept {vm : VM} (h : HeldIn vm) (hm : Spec.Moment vm) (hc : Comp vm) : Kept vm := by
  have hcs := moment_codes (Q := fun b => DefParam b.inst) (fun _ _ _ _ _ ht hp => compiled_defParam ht hp) hm
  refine ⟨h.syms, fun r b hb => ?_, (h.refs hc).1, (h.refs hc).2⟩
  cases r with
  | stored => exact hcs.stored b hb
  | immediate => exact hcs.immediate b hb
  | def_ => exact h.defc b hb

theorem Kept.heldIn {vm : VM} (h : Kept vm) : HeldIn vm :=
  ⟨h.syms, fun b hb => h.codes .def_ b hb, fun _ => ⟨h.param, h.loops⟩⟩

theorem HeldIn.uncompiled {vm : VM} (h1 : AllSym HeldSym vm.st) (h2 : ∀ b, vm.defCode.bcode = some b → DefParam b.inst)
    (h3 : vm.stored.source ≠ none) (h4 : vm.stored.bcode = none) : HeldIn vm := by
  refine ⟨h1, h2, fun hc => ?_⟩
  rcases hc with hc | hc
  · exact absurd hc h3
  · exact absurd h4 hc

theorem HeldIn.same {vm vm' : VM} (h : HeldIn vm) (h1 : Comp vm' → Comp vm) (h2 : Grows vm.st vm'.st) (h3 : AllSym HeldSym vm'.st)
    (h4 : vm'.forStack = vm.forStack ∨ vm'.forStack = []) (h5 : vm'.fn = vm.fn ∨ vm'.fn.codeState.code = none) (h6 : vm'.defCode = vm.defCode) : HeldIn vm' := by
  refine ⟨h3, by rw [h6]; exact h.defc, fun hc => ?_⟩
  obtain ⟨k1, k2⟩ := h.refs (h1 hc)
  refine ⟨fun hf => ?_, fun f hf => ?_⟩
  · rcases h5 with h5 | h5
    · rw [h5] at hf ⊢; exact NumVar.grow (k1 hf) h2
    · rw [h5] at hf; cases hf
  · rcases h4 with h4 | h4
    · rw [h4] at hf; exact NumVar.grow (k2 f hf) h2
    · rw [h4] at hf; cases hf

theorem HeldIn.finish {vm : VM} (h : HeldIn vm) (ph : Phase) (e : RunEnd) : HeldIn (Spec.finish ph e vm) := by
  obtain ⟨w, s, hw⟩ := recordStopped_frame e vm
  unfold Spec.finish
  simp only [hw]
  split
  · exact h.same (fun h => h) (Grows.refl _) h.syms (.inr rfl) (.inr rfl) rfl
  · exact h.same (fun h => h) (Grows.refl _) h.syms (.inl rfl) (.inl rfl) rfl

theorem heldIn_compile {vm vm' : VM} {b : Bool} (h : HeldIn vm) (hc : ensureProgramCompiled vm = .ok (b, vm')) : HeldIn vm' := by
  unfold ensureProgramCompiled at hc
  split at hc
  · rename_i src hs hb
    split at hc
    · simp at hc
    · split at hc
      · simp at hc
      · rename_i st hp
        simp only [Outcome.ok.injEq, Prod.mk.injEq] at hc
        obtain ⟨-, rfl⟩ := hc
        exact HeldIn.uncompiled (parseSource_all heldSym_new (allSym_fresh heldSym_builtin vm.st) hp) h.defc (by simp [hs]) hb
      · rename_i bc st hp
        split at hc
        · simp at hc
        · rename_i idx hi
          simp only [Outcome.ok.injEq, Prod.mk.injEq] at hc
          obtain ⟨-, rfl⟩ := hc
          exact ⟨parseSource_all heldSym_new (allSym_fresh heldSym_builtin vm.st) hp, h.defc,
            fun _ => ⟨fun h => (by cases h), fun f hf => (by cases hf)⟩⟩
  · simp only [Outcome.ok.injEq, Prod.mk.injEq] at hc
    obtain ⟨-, rfl⟩ := hc
    exact h

theorem state_held {may : Cmd → VM → Prop} {ph : Phase} {vm : VM} (h : State may ph vm) : HeldIn vm := by
  induction h with
  | start kw tb tf world =>
    exact ⟨allSym_start heldSym_builtin, fun b hb => (by cases hb), fun _ => ⟨fun h => (by cases h), fun f hf => (by cases hf)⟩⟩
  | world w _ ih => exact ih.same (fun h => h) (Grows.refl _) ih.syms (.inl rfl) (.inl rfl) rfl
  | enter num text _ _ he ih =>
    unfold vmEnterSourceLine at he
    split at he
    · simp at he
    · simp only [Outcome.ok.injEq] at he
      subst he
      exact HeldIn.uncompiled ih.syms ih.defc (by simp [storedProgramChanged]) rfl
  | delete num _ ih =>
    unfold vmDeleteSourceLine
    split
    · exact ih
    · split
      · exact ih
      · exact HeldIn.uncompiled ih.syms ih.defc (by simp [storedProgramChanged]) rfl
  | @new vm hst ih =>
    cases hs : vm.stored.source with
    | some src =>
      exact HeldIn.uncompiled (allSym_fresh heldSym_builtin vm.st) ih.defc (by simp [vmClearNames, vmNewProgram, storedProgramChanged, hs]) rfl
    | none =>
      obtain ⟨_, hr, -⟩ := (state_base hst).refs hs
      obtain ⟨_, hr2, hr3⟩ := hr rfl
      refine ⟨allSym_fresh heldSym_builtin vm.st, ih.defc, fun _ => ⟨fun h => ?_, fun f hf => ?_⟩⟩
      · have : vm.fn.codeState.code.isSome = true := h
        rw [hr3] at this; cases this
      · have : f ∈ vm.forStack := hf
        rw [hr2] at this; cases this
  | load name c b _ hl ih =>
    unfold vmLoadSource at hl
    split at hl
    · simp at hl
    · simp only [Outcome.ok.injEq, Prod.mk.injEq] at hl
      obtain ⟨-, rfl⟩ := hl
      exact ih
    · simp only [Outcome.ok.injEq, Prod.mk.injEq] at hl
      obtain ⟨-, rfl⟩ := hl
      exact HeldIn.uncompiled ih.syms ih.defc (by simp [storedProgramChanged]) rfl
  | @renum vm vm' new old inc _ _ hr ih =>
    have key : ∀ (src : Source) (s : Option Source) (w : World), vm.stored.source = some src → s ≠ none →
        HeldIn { vm with stored := { vm.stored with source := s }, world := w } := by
      intro src s w hs hn
      refine ih.same (fun hc => ?_) (Grows.refl _) ih.syms (.inl rfl) (.inl rfl) rfl
      rcases hc with hc | hc
      · exact absurd hc hn
      · exact .inr hc
    unfold renumber at hr
    split at hr
    · simp only [Outcome.ok.injEq] at hr; subst hr; exact ih
    · rename_i src hs
      split at hr
      · simp at hr
      · simp only [Outcome.ok.injEq] at hr; subst hr
        exact key src (some _) _ hs (by simp)
      · split at hr
        · simp at hr
        · simp only [Outcome.ok.injEq] at hr; subst hr
          split
          · exact key src (some _) vm.world hs (by simp)
          · exact key src (some _) _ hs (by simp)
  | compile b _ hc ih => exact heldIn_compile ih hc
  | @clearValues vm _ ih =>
    exact ih.same (fun h => h) (grows_of_values (heads_clear vm.st)) (ih.syms.cleared heldSym_undefine) (.inl rfl) (.inl rfl) rfl
  | noImmediate _ ih => exact ih.same (fun h => h) (Grows.refl _) ih.syms (.inl rfl) (.inl rfl) rfl
  | run _ hc hs ih => exact ih.same (fun h => h) (Grows.refl _) ih.syms (.inr rfl) (.inr rfl) rfl
  | failed line hst _ hc hp ih =>
    exact ih.same (fun h => h) (parseSource_compiled (state_base hst).tab hp).1.grows (parseSource_all heldSym_new ih.syms hp) (.inl rfl) (.inl rfl) rfl
  | typed line hst _ hc hp hi ih =>
    exact ih.same (fun h => h) (parseSource_compiled (state_base hst).tab hp).1.grows (parseSource_all heldSym_new ih.syms hp) (.inl rfl) (.inl rfl) rfl
  | cont _ _ hr hb _ ih => exact ih.same (fun h => h) (Grows.refl _) ih.syms (.inl rfl) (.inl rfl) rfl
  | @resume vm b _ hcs hb hu _ ih =>
    have hf := ih.finish .program ⟨none, true⟩
    exact hf.same (fun h => h) (Grows.refl _) hf.syms (.inl rfl) (.inl rfl) rfl
  | @step ph vm vm' env hp hst _ _ he ih =>
    have hc : Comp vm := by
      cases hs : vm.stored.source with
      | none => exact .inl hs
      | some src => exact .inr ((state_base hst).ready hp (by simp [hs]))
    have hk := V.execute_kept env (ih.kept (state_moment hst) hc)
    rw [he] at hk
    exact Kept.heldIn hk
  | @error ph vm vm' e env i hp hst _ _ he ih =>
    have hc : Comp vm := by
      cases hs : vm.stored.source with
      | none => exact .inl hs
      | some src => exact .inr ((state_base hst).ready hp (by simp [hs]))
    have hk := V.execute_kept env (ih.kept (state_moment hst) hc)
    rw [he] at hk
    exact (Kept.heldIn hk).finish ph _
  | finish i hp _ _ ih => exact ih.finish _ _

/-- While a program or a typed statement runs. -/
theorem state_kept {may : Cmd → VM → Prop} {ph : Phase} {vm : VM} (h : State may ph vm) (hp : ph ≠ .idle) : Kept vm := by
  refine (state_held h).kept (state_moment h) ?_
  cases hs : vm.stored.source with
  | none => exact .inl hs
  | some src => exact .inr ((state_base h).ready hp (by simp [hs]))

end LB
