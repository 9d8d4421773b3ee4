import Verif.Proofs.FlowState
/- Every state of a session is a moment; what holds for all compiled code. -/
namespace LB
open LB.Spec _root_.Spec

theorem moment_finish {vm : VM} (h : Moment vm) (ph : Phase) (e : RunEnd) : Moment (Spec.finish ph e vm) := by
  obtain ⟨w, s, hw⟩ := recordStopped_frame e vm
  have h1 : Moment (recordStopped e (runMessages e vm)) := by
    rw [hw]
    exact (h.world w).stopped vm.stopped s
  unfold Spec.finish
  simp only
  split
  · exact h1.reset
  · exact h1

theorem moment_startAt {vm : VM} (h : Moment vm) (cs : CodeState) : Moment (startAt cs vm) :=
  (h.at_ cs).stopped false vm.stoppedProgram

theorem state_moment {may : Cmd → VM → Prop} {ph : Phase} {vm : VM} (h : State may ph vm) : Moment vm := by
  induction h with
  | start kw tb tf world => exact .start _ _ _ _
  | world w _ ih => exact ih.world w
  | enter num text _ hl he ih => exact ih.enter num text hl he
  | delete num _ ih => exact ih.delete num
  | new _ ih => exact ih.new.clearNames
  | load name c b _ hl ih => exact ih.load name c b hl
  | renum new old inc _ _ hr ih => exact ih.renum new old inc hr
  | compile b _ hc ih => exact ih.compile b hc
  | clearValues _ ih => exact ih.clearValues
  | noImmediate _ ih => exact ih.noImmediate
  | run _ hc hs ih => exact moment_startAt ih.reset _
  | failed line _ hl hc hp ih => exact ih.immediateFailed line hl hp
  | typed line _ hl hc hp hi ih => exact moment_startAt (ih.immediate line hl hp hi) _
  | cont _ _ hr hb _ ih => exact moment_startAt ih _
  | resume _ _ _ _ _ ih => exact moment_startAt (moment_finish ih _ _) _
  | step env _ _ _ _ he ih => exact ih.step env he
  | error env i _ _ _ _ he ih => exact moment_finish (ih.error env he) _ _
  | finish i _ _ _ ih => exact moment_finish ih _ _

/-- What the compiler ensures of its code holds of the stored code at all times, and of the code of a typed statement
while it runs. -/
structure Codes (Q : Bcode → Prop) (vm : VM) : Prop where
  stored : ∀ b, vm.stored.bcode = some b → Q b
  immediate : ∀ b, vm.immediate.bcode = some b → Q b

theorem moment_codes {Q : Bcode → Prop}
    (hq : ∀ src st pre bc st', Tab st → parseSource src st pre = .ok (some bc, st') → Q bc) {vm : VM} (h : Moment vm) : Codes Q vm := by
  have no : ∀ {b : Bcode}, (none : Option Bcode) = some b → Q b := fun h => by cases h
  induction h with
  | start => exact ⟨fun _ => no, fun _ => no⟩
  | world w _ ih => exact ⟨ih.stored, ih.immediate⟩
  | enter num text _ _ he ih =>
    unfold vmEnterSourceLine at he
    split at he
    · simp at he
    · simp only [Outcome.ok.injEq] at he
      subst he
      exact ⟨fun _ => no, ih.immediate⟩
  | delete num _ ih =>
    unfold vmDeleteSourceLine
    split
    · exact ih
    · split
      · exact ih
      · exact ⟨fun _ => no, ih.immediate⟩
  | new _ ih => exact ⟨fun _ => no, ih.immediate⟩
  | clearNames _ ih => exact ⟨ih.stored, ih.immediate⟩
  | clearValues _ ih => exact ⟨ih.stored, ih.immediate⟩
  | load name c b _ hl ih =>
    unfold vmLoadSource at hl
    split at hl
    · simp at hl
    · simp only [Outcome.ok.injEq, Prod.mk.injEq] at hl
      obtain ⟨-, rfl⟩ := hl
      exact ⟨ih.stored, ih.immediate⟩
    · simp only [Outcome.ok.injEq, Prod.mk.injEq] at hl
      obtain ⟨-, rfl⟩ := hl
      exact ⟨fun _ => no, ih.immediate⟩
  | renum new old inc _ hr ih =>
    obtain ⟨src, w, rfl⟩ := V.renumber_frame hr
    exact ⟨ih.stored, ih.immediate⟩
  | @compile vm vm' b _ hc ih =>
    unfold ensureProgramCompiled at hc
    split at hc
    · split at hc
      · simp at hc
      · split at hc
        · simp at hc
        · simp only [Outcome.ok.injEq, Prod.mk.injEq] at hc
          obtain ⟨-, rfl⟩ := hc
          exact ⟨ih.stored, ih.immediate⟩
        · rename_i bc st hp
          split at hc
          · simp at hc
          · simp only [Outcome.ok.injEq, Prod.mk.injEq] at hc
            obtain ⟨-, rfl⟩ := hc
            refine ⟨fun b hb => ?_, ih.immediate⟩
            cases hb
            exact hq _ _ _ _ _ (wellNamed_fresh vm.st).tab hp
    · simp only [Outcome.ok.injEq, Prod.mk.injEq] at hc
      obtain ⟨-, rfl⟩ := hc
      exact ⟨ih.stored, ih.immediate⟩
  | reset _ ih => exact ⟨ih.stored, ih.immediate⟩
  | at_ _ _ ih => exact ⟨ih.stored, ih.immediate⟩
  | stopped _ _ _ ih => exact ⟨ih.stored, ih.immediate⟩
  | noImmediate _ ih => exact ⟨ih.stored, fun _ => no⟩
  | immediateFailed _ _ _ _ ih => exact ⟨ih.stored, ih.immediate⟩
  | immediate line hm _ hp hi ih =>
    refine ⟨ih.stored, fun b hb => ?_⟩
    cases hb
    exact hq _ _ _ _ _ (moment_names hm).tab hp
  | step env _ he ih =>
    obtain ⟨h1, h2, -⟩ := execute_fixed _ he (.inl rfl)
    exact ⟨by rw [h1]; exact ih.stored, by rw [h2]; exact ih.immediate⟩
  | error env _ he ih =>
    obtain ⟨h1, h2, -⟩ := execute_fixed _ he (.inr ⟨_, rfl⟩)
    exact ⟨by rw [h1]; exact ih.stored, by rw [h2]; exact ih.immediate⟩

/-! Compiled code knows whether it has DATA. -/

namespace P

/-- While compiling: without DATA the flag is off. -/
structure Noting (p : Parser) : Prop where
  fits : p.lex.Sound
  data : p.bcode.hasData = false → ∀ i ∈ p.bcode.inst, i.isData = false

theorem noting_of {α} {x : P α} (h : ∀ p, (x p).All (fun p' => p'.bcode = p.bcode ∧ p'.lex = p.lex)) : Keeps Noting x := by
  intro p hp
  have := h p
  cases hx : x p with
  | halt => trivial
  | ok a p' => rw [hx] at this; exact ⟨by rw [this.2]; exact hp.fits, by rw [this.1]; exact hp.data⟩
  | err a p' => rw [hx] at this; exact ⟨by rw [this.2]; exact hp.fits, by rw [this.1]; exact hp.data⟩

theorem closed_noting : Closed Noting where
  lex p lex h hl := ⟨hl, h.data⟩
  fits p h := h.fits
  emit i hi p h := by
    refine ⟨h.fits, fun hf j hj => ?_⟩
    simp only [emitInst, Bool.or_eq_false_iff] at hf
    simp only [emitInst, List.mem_append, List.mem_singleton] at hj
    rcases hj with hj | rfl
    · exact h.data hf.1 j hj
    · exact hf.2
  patch n i hi p h := by
    simp only [patch, patchInst]
    split
    · trivial
    · rename_i bc hb
      split at hb
      · simp only [Outcome.ok.injEq] at hb
        subst hb
        refine ⟨h.fits, fun hf j hj => ?_⟩
        rcases List.mem_or_eq_of_mem_set hj with hj | rfl
        · exact h.data hf j hj
        · cases j <;> first | rfl | exact hi.elim
      · cases hb
  ifThen p n h := ⟨h.fits, h.data⟩
  resolve name params kind _ := by
    unfold resolve
    pkeeps
    all_goals first | exact Keeps.lookup _ _ | exact noting_of (fun _ => ⟨rfl, rfl⟩)
  defSymbol name := by
    unfold defSymbol
    pkeeps
    all_goals first | exact Keeps.lookup _ _ | exact noting_of (fun _ => ⟨rfl, rfl⟩)

end P

theorem parseSource_data {src : Source} {st st' : SymTab} {pre : Bool} {bc : Bcode}
    (hp : parseSource src st pre = .ok (some bc, st')) : bc.hasData = false → ∀ i ∈ bc.inst, i.isData = false := by
  have key := P.keeps_parseLines P.closed_noting src.lines 0 { lex := newLex pre, bcode := newBcode, st := st, ifThen := 0 }
    ⟨sound_new _, fun _ i hi => by cases hi⟩
  unfold parseSource at hp
  split at hp
  · rename_i p hl
    rw [hl] at key
    simp only [Outcome.ok.injEq, Prod.mk.injEq, Option.some.injEq] at hp
    rw [← hp.1]
    exact key.data
  · simp at hp
  · cases hp

end LB
