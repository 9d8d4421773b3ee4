import Verif.Proofs.FlowState
/- How runs end. -/
namespace LB
open LB.Spec

variable {may : Cmd → VM → Prop}

theorem curUsed_at {vm : VM} {used : Nat} (hu : curUsed vm = .ok used) (h1 : vm.cs.pc < used) : ∃ i, At vm i := by
  unfold curUsed at hu
  split at hu
  · rename_i b w hb
    simp only [Outcome.ok.injEq] at hu
    subst hu
    unfold V.curBcode at hb
    split at hb
    · simp at hb
    · rename_i r hr'
      split at hb
      · simp at hb
      · rename_i b' hb'
        simp only [Res.ok.injEq] at hb
        obtain ⟨rfl, -⟩ := hb
        exact ⟨_, r, b', hr', hb', List.getElem?_eq_getElem h1⟩
  · simp at hu
  · simp at hu

/-- What is kept by a run. -/
theorem execute_moved {env : Env} {vm vm' : VM} {i : Inst} (hat : At vm i) (h : V.execute env vm = .ok () vm' ∨ ∃ e, V.execute env vm = .err e vm') :
    Moved vm vm' := by
  have hm := exec_moved env i vm
  rw [V.execute_at env hat] at h
  cases hx : V.exec env i vm with
  | halt h' => rw [hx] at h; rcases h with h | ⟨e, h⟩ <;> cases h
  | err e w =>
    rw [hx] at h hm
    rcases h with h | ⟨e', h⟩
    · cases h
    · cases h; exact hm
  | ok f w =>
    rw [hx] at h hm
    rcases h with h | ⟨e, h⟩
    · cases f <;> cases h
      · exact ⟨hm.stored, hm.immediate, hm.grows, hm.length, hm.tab⟩
      · exact hm
    · cases f <;> cases h

/-- A run that ends with an error ends at an instruction that reports it. -/
theorem loop_error {env : Env} {brk : Nat → Bool} {ph : Phase} (hp : ph ≠ .idle) {n k : Nat} {vm vm' : VM} {e : RunError} {i : Bool}
    (h : State may ph vm) (hr : vmLoop env brk n k vm = .ok (⟨some e, i⟩, vm')) :
    ∃ w, State may ph w ∧ (∃ i, At w i) ∧ w.stopped = false ∧ V.execute env w = .err e vm' := by
  induction n generalizing k vm with
  | zero => simp [vmLoop] at hr
  | succ n ih =>
    simp only [vmLoop] at hr
    split at hr
    · simp at hr
    · rename_i used hu
      split at hr
      · rename_i hc
        obtain ⟨h1, h2, h3⟩ := hc
        have hat := curUsed_at hu h1
        have hs : vm.stopped = false := by simpa using h2
        split at hr
        · rename_i he; exact ih (h.step env hp hat hs he) hr
        · rename_i he
          simp only [Outcome.ok.injEq, Prod.mk.injEq, RunEnd.mk.injEq, Option.some.injEq] at hr
          obtain ⟨⟨rfl, -⟩, rfl⟩ := hr
          exact ⟨vm, h, hat, hs, he⟩
        · simp at hr
      · simp at hr

/-- A run that ends the process does so at an instruction, or has lost its code. -/
theorem loop_halt {env : Env} {brk : Nat → Bool} {ph : Phase} (hp : ph ≠ .idle) {n k : Nat} {vm : VM} {x : Halt}
    (h : State may ph vm) (hr : vmLoop env brk n k vm = .halt x) :
    x = .fuel ∨ ∃ w, State may ph w ∧ (curUsed w = .halt x ∨ (∃ i, At w i) ∧ w.stopped = false ∧ V.execute env w = .halt x) := by
  induction n generalizing k vm with
  | zero => simp [vmLoop] at hr; exact .inl hr.symm
  | succ n ih =>
    simp only [vmLoop] at hr
    split at hr
    · rename_i hu
      simp only [Outcome.halt.injEq] at hr
      subst hr
      exact .inr ⟨vm, h, .inl hu⟩
    · rename_i used hu
      split at hr
      · rename_i hc
        obtain ⟨h1, h2, h3⟩ := hc
        have hat := curUsed_at hu h1
        have hs : vm.stopped = false := by simpa using h2
        split at hr
        · rename_i he; exact ih (h.step env hp hat hs he) hr
        · simp at hr
        · rename_i he
          simp only [Outcome.halt.injEq] at hr
          subst hr
          exact .inr ⟨vm, h, .inr ⟨hat, hs, he⟩⟩
      · simp at hr

/-- A run of the loop starts in a state of a session. -/
def Starts (may : Cmd → VM → Prop) (vm : VM) : Prop := ∃ ph, ph ≠ .idle ∧ State may ph vm ∧ vm.cs.code ≠ none

theorem run_loop {env : Env} {brk : Nat → Bool} {n : Nat} {vm : VM} (hc : vm.cs.code ≠ none) :
    run env brk n vm = match vmLoop env brk n 0 { vm with stopped := false } with
      | .halt h => .halt h
      | .ok (e, vm') => .ok (e, recordStopped e (runMessages e vm')) := by
  unfold run
  rw [if_neg (by simpa using hc)]
  rfl

/-- RUN is a run of the loop. -/
theorem runProgram_loop {env : Env} {brk : Nat → Bool} {n : Nat} {vm : VM} (h : State may .idle vm) :
    (∃ vm', runProgram env brk n vm = .ok (none, vm')) ∨ (∃ x, runProgram env brk n vm = .halt x ∧ ensureProgramCompiled vm = .halt x) ∨
    ∃ v, Starts may v ∧ ((∃ x, vmLoop env brk n 0 v = .halt x ∧ runProgram env brk n vm = .halt x) ∨
      ∃ e w w', vmLoop env brk n 0 v = .ok (e, w) ∧ runProgram env brk n vm = .ok (some e, w') ∧ w'.st = w.st) := by
  unfold runProgram
  split
  · exact .inl ⟨_, rfl⟩
  · rename_i hs
    split
    · rename_i hx; exact .inr (.inl ⟨_, rfl, hx⟩)
    · exact .inl ⟨_, rfl⟩
    · rename_i vm' hc
      refine .inr (.inr ⟨startAt { code := some .stored, sourceLine := 0, pc := 0 } (resetControlState vm'), ⟨.program, by simp, ?_, by simp [startAt]⟩, ?_⟩)
      · refine State.run (.compile true h hc) (compiled_again hc) ?_
        intro hn
        have hw : vm'.stored.source = vm.stored.source := by
          unfold ensureProgramCompiled at hc
          split at hc
          · split at hc
            · simp at hc
            · split at hc
              · simp at hc
              · simp at hc
              · split at hc
                · simp at hc
                · simp at hc; subst hc; simp [resetControlState]
          · simp at hc; rw [hc]
        rw [hw] at hn; simp [hn] at hs
      · rw [run_loop (by simp)]
        cases hl : vmLoop env brk n 0 (startAt { code := some .stored, sourceLine := 0, pc := 0 } (resetControlState vm')) with
        | halt x =>
          refine .inl ⟨x, rfl, ?_⟩
          simp only [startAt] at hl
          simp only [hl]
        | ok p =>
          obtain ⟨e, w⟩ := p
          refine .inr ⟨e, w, recordStopped e (runMessages e w), rfl, ?_, ?_⟩
          · simp only [startAt] at hl
            simp only [hl]
          · obtain ⟨a, b, hab⟩ := recordStopped_frame e w
            rw [hab]

/-- A statement typed is a run of the loop. -/
theorem runImmediate_loop {env : Env} {brk : Nat → Bool} {n : Nat} {vm : VM} {line : CStr} (hlen : line.length < cmdSize) (h : State may .idle vm) :
    (∃ vm', runImmediate env brk n vm line = .ok (none, vm')) ∨
    (∃ x, runImmediate env brk n vm line = .halt x ∧ (ensureProgramCompiled { vm with immediate := {} } = .halt x ∨
      ∃ vm' st, Tab st ∧ (parseSource (wrapSourceText line) st false = .halt x ∨ ∃ bc, parseSource (wrapSourceText line) st false = .ok (some bc, vm') ∧
        bcodeIndex bc (wrapSourceText line) = .halt x))) ∨
    ∃ v, Starts may v ∧ ((∃ x, vmLoop env brk n 0 v = .halt x ∧ runImmediate env brk n vm line = .halt x) ∨
      ∃ e w w', vmLoop env brk n 0 v = .ok (e, w) ∧ runImmediate env brk n vm line = .ok (some e, w') ∧ w'.st = w.st) := by
  unfold runImmediate
  split
  · rename_i hx; exact .inr (.inl ⟨_, rfl, .inl hx⟩)
  · exact .inl ⟨_, rfl⟩
  · rename_i vm' hc
    have ht : Tab vm'.st := (state_base (State.compile true h.noImmediate hc)).tab
    simp only
    split
    · rename_i hx; exact .inr (.inl ⟨_, rfl, .inr ⟨vm'.st, vm'.st, ht, .inl hx⟩⟩)
    · exact .inl ⟨_, rfl⟩
    · rename_i bc st hp
      split
      · rename_i hx; exact .inr (.inl ⟨_, rfl, .inr ⟨st, vm'.st, ht, .inr ⟨bc, hp, hx⟩⟩⟩)
      · rename_i idx hi
        refine .inr (.inr ⟨startAt { code := some .immediate, sourceLine := 0, pc := 0 }
          { vm' with st := st, immediate := ⟨some (wrapSourceText line), some bc, some idx⟩, immediateData := 0 }, ⟨.typed, by simp, ?_, by simp [startAt]⟩, ?_⟩)
        · exact State.typed line (.compile true h.noImmediate hc) hlen (compiled_again hc) hp hi
        · rw [run_loop (by simp)]
          cases hl : vmLoop env brk n 0 (startAt { code := some .immediate, sourceLine := 0, pc := 0 }
            { vm' with st := st, immediate := ⟨some (wrapSourceText line), some bc, some idx⟩, immediateData := 0 }) with
          | halt x =>
            refine .inl ⟨x, rfl, ?_⟩
            simp only [startAt] at hl
            simp only [hl]
          | ok p =>
            obtain ⟨e, w⟩ := p
            refine .inr ⟨e, w, if immediateState (recordStopped e (runMessages e w)) then resetControlState (recordStopped e (runMessages e w)) else recordStopped e (runMessages e w), rfl, ?_, ?_⟩
            · simp only [startAt] at hl
              simp only [hl]
            · obtain ⟨a, b, hab⟩ := recordStopped_frame e w
              rw [hab]
              split <;> rfl

/-- CONT is a run of the loop. -/
theorem vmContinue_loop {env : Env} {brk : Nat → Bool} {n : Nat} {vm : VM} (h : State may .idle vm) (hm : may .cont vm) :
    (∃ vm', vmContinue env brk n vm = .ok (none, vm')) ∨
    (vmContinue env brk n vm = .halt (.outOfBounds "vm_continue") ∧ ∃ b, vm.stored.bcode = some b ∧ b.used ≤ vm.stoppedProgram.pc) ∨
    ∃ v, Starts may v ∧ ((∃ x, vmLoop env brk n 0 v = .halt x ∧ vmContinue env brk n vm = .halt x) ∨
      ∃ e w w', vmLoop env brk n 0 v = .ok (e, w) ∧ vmContinue env brk n vm = .ok (some e, w') ∧ w'.st = w.st) := by
  unfold vmContinue
  split
  · exact .inl ⟨_, rfl⟩
  · rename_i r hcode
    split
    · exact .inl ⟨_, rfl⟩
    · rename_i bc hbc
      split
      · rename_i hi
        have hrs : r = .stored := by
          rcases state_stopped h with h0 | h0
          · rw [h0] at hcode; cases hcode
          · rw [h0] at hcode; exact (Option.some.inj hcode).symm
        subst hrs
        exact .inr (.inl ⟨rfl, bc, hbc, by simpa [Bcode.used] using hi⟩)
      · rename_i i hi
        have hlt : vm.stoppedProgram.pc < bc.used := by
          simp only [Bcode.used]
          exact (List.getElem?_eq_some_iff.1 hi).1
        have heq : resumeAt bc vm.stoppedProgram =
            (if isStop i = true then { vm.stoppedProgram with pc := vm.stoppedProgram.pc + 1 } else vm.stoppedProgram) := by
          unfold resumeAt
          rw [hi]
          cases i <;> simp [isStop]
        have hcode' : (resumeAt bc vm.stoppedProgram).code ≠ none := by
          rw [heq]; split <;> simp [hcode]
        refine .inr (.inr ⟨startAt (resumeAt bc vm.stoppedProgram) vm, ⟨.program, by simp, h.cont hm hcode hbc hlt, hcode'⟩, ?_⟩)
        simp only [← heq]
        rw [run_loop hcode']
        cases hl : vmLoop env brk n 0 (startAt (resumeAt bc vm.stoppedProgram) vm) with
        | halt x =>
          refine .inl ⟨x, rfl, ?_⟩
          simp only [startAt] at hl
          simp only [hl]
        | ok p =>
          obtain ⟨e, w⟩ := p
          refine .inr ⟨e, w, recordStopped e (runMessages e w), rfl, ?_, ?_⟩
          · simp only [startAt] at hl
            simp only [hl]
          · obtain ⟨a, b, hab⟩ := recordStopped_frame e w
            rw [hab]

end LB
