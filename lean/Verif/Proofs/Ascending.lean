import Verif.Proofs.FlowState
import Verif.Proofs.Source
import Verif.Props.Program
/- The stored lines stay in order; where lines start. -/
namespace LB
open LB.Spec _root_.Spec

/-- The numbers of the stored lines are strictly ascending. -/
def Sorted (vm : VM) : Prop := ∀ src, vm.stored.source = some src → (nums src.lines).Pairwise (· < ·)

theorem sorted_lines {vm : VM} (h : Sorted vm) : Ascending ((lines vm).map (·.1)) := by
  unfold lines Ascending
  split
  · exact List.Pairwise.nil
  · rename_i src hs
    have := h src hs
    rw [List.map_map]
    exact this

theorem Sorted.same {vm vm' : VM} (h : Sorted vm) (hs : vm'.stored.source = vm.stored.source) : Sorted vm' := by
  unfold Sorted; rw [hs]; exact h

theorem sorted_compile {vm vm' : VM} {b : Bool} (h : Sorted vm) (hc : ensureProgramCompiled vm = .ok (b, vm')) : Sorted vm' := by
  refine h.same ?_
  unfold ensureProgramCompiled at hc
  split at hc
  · split at hc
    · simp at hc
    · split at hc
      · simp at hc
      · simp at hc; rw [← hc.2]
      · split at hc
        · simp at hc
        · simp at hc; rw [← hc.2]; simp [resetControlState]
  · simp at hc; rw [hc.2]

theorem state_sorted {may : Cmd → VM → Prop} (hm : ∀ vm, ¬ may .renum vm) {ph : Phase} {vm : VM} (h : State may ph vm) : Sorted vm := by
  induction h with
  | start => intro src hs; cases hs
  | world w _ ih => exact ih
  | @enter vm vm' num text _ _ he ih =>
    unfold vmEnterSourceLine at he
    split at he
    · simp at he
    · rename_i src hsrc
      simp only [Outcome.ok.injEq] at he
      subst he
      intro src' hs'
      simp only [storedProgramChanged, Option.some.injEq] at hs'
      subst hs'
      have hb : (nums (vm.stored.source.getD (newSource none)).lines).Pairwise (· < ·) := by
        cases hx : vm.stored.source with
        | none => exact List.Pairwise.nil
        | some s => exact ih s hx
      by_cases h0 : num = 0 ∧ (vm.stored.source.getD (newSource none)).lines = []
      · obtain ⟨h1, h2⟩ := h0
        unfold enterSourceLine at hsrc
        rw [h2, h1] at hsrc
        simp [enterLoop, appendLine] at hsrc
      · rw [enterSourceLine_eq _ num text (fun h1 h2 => h0 ⟨h1, h2⟩)] at hsrc
        simp only [Outcome.ok.injEq] at hsrc
        subst hsrc
        exact ins_sorted num text _ hb
  | delete num _ ih =>
    unfold vmDeleteSourceLine
    split
    · exact ih
    · rename_i src hsrc
      split
      · exact ih
      · rename_i i hi
        intro src' hs'
        simp only [storedProgramChanged, Option.some.injEq] at hs'
        subst hs'
        unfold deleteSourceLine
        split
        · simp only [eraseIdx_eq]
          exact (ih src hsrc).sublist ((List.eraseIdx_sublist _ _).map _)
        · exact ih src hsrc
  | @new vm _ ih =>
    intro src hs
    simp only [vmClearNames, vmNewProgram, storedProgramChanged] at hs
    cases hx : vm.stored.source with
    | none => rw [hx] at hs; cases hs
    | some s =>
      rw [hx] at hs
      simp only [Option.map_some, Option.some.injEq, clearSource] at hs
      subst hs
      exact List.Pairwise.nil
  | load name c b _ hl ih =>
    unfold vmLoadSource at hl
    split at hl
    · simp at hl
    · simp only [Outcome.ok.injEq, Prod.mk.injEq] at hl
      obtain ⟨-, rfl⟩ := hl
      exact ih
    · rename_i src hsrc
      simp only [Outcome.ok.injEq, Prod.mk.injEq] at hl
      obtain ⟨-, rfl⟩ := hl
      intro src' hs'
      simp only [storedProgramChanged, Option.some.injEq] at hs'
      subst hs'
      cases c with
      | none => simp [loadSourceFile] at hsrc
      | some c => exact (ascending_nums _).1 ((C03_load_iff name c src).1 hsrc).2.2.1
  | renum new old inc _ h1 => exact absurd h1 (hm _)
  | compile b _ hc ih => exact sorted_compile ih hc
  | clearValues _ ih => exact ih
  | noImmediate _ ih => exact ih
  | run _ hc hs ih => exact ih
  | failed line _ _ hc hp ih => exact ih
  | typed line _ _ hc hp hi ih => exact ih
  | cont _ _ _ _ _ ih => exact ih
  | @resume vm b _ _ hb _ _ ih =>
    refine ih.same ?_
    show (Spec.finish .program ⟨none, true⟩ vm).stored.source = _
    rw [finish_stored]
  | step env _ _ _ _ he ih =>
    obtain ⟨h1, -⟩ := execute_fixed _ he (.inl rfl)
    exact ih.same (by rw [h1])
  | error env i _ _ _ _ he ih =>
    obtain ⟨h1, -⟩ := execute_fixed _ he (.inr ⟨_, rfl⟩)
    exact ih.same (by rw [finish_stored, h1])
  | finish i _ _ _ ih => exact ih.same (by rw [finish_stored])

end LB
