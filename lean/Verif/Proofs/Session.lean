import Verif.Spec.Session
import Verif.Proofs.Vm
/- Every state of a session is a `Moment`. -/
namespace LB
open Spec (Moment)

theorem skipSpace_length (s : CStr) : (skipSpace s).length ≤ s.length := by
  simpa [skipSpace] using (List.dropWhile_suffix _).length_le

theorem getLine_length (n : Nat) (stdin o r line : CStr) (h : getLine n stdin = (o, some line, r)) :
    line.length < cmdSize := by
  induction n generalizing stdin o r with
  | zero => simp [getLine] at h
  | succ n ih =>
    simp only [getLine] at h
    split at h
    · simp at h
    · rename_i buf rest hf
      split at h
      · cases hg : getLine n rest with
        | mk o' p => obtain ⟨l', r'⟩ := p
                     rw [hg] at h; simp at h; exact ih rest o' r' (by rw [hg, h.2.1])
      · split at h
        · simp only [Prod.mk.injEq, Option.some.injEq] at h
          have h1 := h.2.1
          subst h1
          have : buf.length ≤ cmdSize - 1 := by
            unfold fgets at hf
            split at hf
            · simp at hf
            · simp only [Option.some.injEq] at hf
              have := fgetsGo_length (cmdSize - 1) stdin
              rw [hf] at this; exact this
          have := cstr_length buf
          simp [cmdSize] at *
          omega
        · cases hg : getLine n (awaitNewline rest) with
          | mk o' p => obtain ⟨l', r'⟩ := p
                       rw [hg] at h; simp at h; exact ih _ o' r' (by rw [hg, h.2.1])

theorem readNumGo_length (n : Nat) (s : CStr) : (readNumGo n s).2.length ≤ s.length := by
  induction s generalizing n with
  | nil => simp [readNumGo]
  | cons c s ih =>
    simp only [readNumGo]
    split
    · have := ih (u32 (10 * n + digitVal c)); simp; omega
    · simp

theorem moment_out {vm : VM} (h : Moment vm) (s : CStr) : Moment (putOut vm s) := Moment.world _ h

theorem moment_vmLoop (env : Env) (brk : Nat → Bool) (n k : Nat) (vm vm' : VM) (e : RunEnd)
    (h : Moment vm) (hr : vmLoop env brk n k vm = .ok (e, vm')) : Moment vm' := by
  induction n generalizing k vm with
  | zero => simp [vmLoop] at hr
  | succ n ih =>
    simp only [vmLoop] at hr
    split at hr
    · simp at hr
    · split at hr
      · split at hr
        · rename_i he; exact ih _ _ (h.step env he) hr
        · rename_i he
          simp at hr
          exact hr.2 ▸ h.error env he
        · simp at hr
      · simp at hr
        exact hr.2 ▸ h

theorem moment_runMessages {e : RunEnd} {vm : VM} (h : Moment vm) : Moment (runMessages e vm) := by
  unfold runMessages
  split
  · exact moment_out h _
  · split
    · exact moment_out h _
    · exact h

theorem moment_recordStopped {e : RunEnd} {vm : VM} (h : Moment vm) : Moment (recordStopped e vm) := by
  unfold recordStopped
  split
  · split
    · exact h.stopped vm.stopped vm.cs
    · exact h.stopped vm.stopped clearCodeState
  · exact h

theorem moment_run {env : Env} {brk : Nat → Bool} {n : Nat} {vm vm' : VM} {e : RunEnd}
    (h : Moment vm) (hr : run env brk n vm = .ok (e, vm')) : Moment vm' := by
  unfold run at hr
  split at hr
  · simp at hr
  · split at hr
    · simp at hr
    · rename_i e' w hl
      simp at hr
      rw [← hr.2]
      exact moment_recordStopped (moment_runMessages
        (moment_vmLoop env brk n 0 _ w e' (h.stopped false vm.stoppedProgram) hl))

theorem moment_runProgram {env : Env} {brk : Nat → Bool} {n : Nat} {vm vm' : VM} {e : Option RunEnd}
    (h : Moment vm) (hr : runProgram env brk n vm = .ok (e, vm')) : Moment vm' := by
  unfold runProgram at hr
  split at hr
  · simp at hr; exact hr.2 ▸ h
  · split at hr
    · simp at hr
    · rename_i hc
      simp at hr; exact hr.2 ▸ h.compile _ hc
    · rename_i w hc
      split at hr
      · simp at hr
      · rename_i hrun
        simp at hr
        rw [← hr.2]
        exact moment_run ((h.compile _ hc).reset.at_ _) hrun

theorem moment_runImmediate {env : Env} {brk : Nat → Bool} {n : Nat} {vm vm' : VM} {e : Option RunEnd}
    {line : CStr} (hl : line.length < cmdSize)
    (h : Moment vm) (hr : runImmediate env brk n vm line = .ok (e, vm')) : Moment vm' := by
  unfold runImmediate at hr
  split at hr
  · simp at hr
  · rename_i hc
    simp at hr; exact hr.2 ▸ h.noImmediate.compile _ hc
  · rename_i w hc
    have hw := h.noImmediate.compile _ hc
    simp only at hr
    split at hr
    · simp at hr
    · rename_i hp
      simp at hr
      exact hr.2 ▸ hw.immediateFailed line hl hp
    · rename_i bc st hp
      split at hr
      · simp at hr
      · rename_i idx hi
        split at hr
        · simp at hr
        · rename_i e'' vm'' hrun
          simp at hr
          have := moment_run ((hw.immediate line hl hp hi).at_ _) hrun
          rw [← hr.2]
          split
          · exact this.reset
          · exact this

theorem moment_vmContinue {env : Env} {brk : Nat → Bool} {n : Nat} {vm vm' : VM} {e : Option RunEnd}
    (h : Moment vm) (hr : vmContinue env brk n vm = .ok (e, vm')) : Moment vm' := by
  unfold vmContinue at hr
  split at hr
  · simp at hr; exact hr.2 ▸ h
  · split at hr
    · simp at hr; exact hr.2 ▸ h
    · split at hr
      · simp at hr
      · simp only at hr
        split at hr
        · simp at hr
        · rename_i hrun
          simp at hr
          rw [← hr.2]
          exact moment_run (h.at_ _) hrun

theorem moment_listProgram {vm : VM} (brk : Nat → Bool) (a b : Nat) (p : Bool) (h : Moment vm) :
    Moment (listProgram brk vm a b p) := by
  unfold listProgram
  split
  · exact h
  · exact Moment.world _ (moment_out h _)

theorem moment_command {ctx : Ctx} {s s' : Session} {cmd : Cmd} {line : CStr}
    (h : Moment s.vm) (hr : command ctx s cmd line = .ok s') : Moment s'.vm := by
  have herr : ∀ m : CStr, Moment (s.error m).vm := fun m => moment_out h _
  cases cmd with
  | bye =>
    simp only [command, Session.ifEol] at hr
    split at hr <;> simp at hr <;> subst hr
    · exact h
    · exact herr _
  | compile =>
    simp only [command] at hr
    split at hr
    · simp at hr
    · rename_i hc; simp at hr; subst hr; exact h.compile _ hc
  | cont =>
    simp only [command] at hr
    split at hr
    · simp at hr
    · rename_i hc; simp at hr; subst hr; exact moment_out (moment_vmContinue h hc) _
    · rename_i hc; simp at hr; subst hr; exact moment_vmContinue h hc
  | help => simp only [command, Outcome.ok.injEq] at hr; subst hr; exact moment_out h _
  | new =>
    simp only [command, Session.ifEol] at hr
    split at hr <;> simp at hr <;> subst hr
    · exact h.new.clearNames
    · exact herr _
  | list =>
    simp only [command, Session.ifEol] at hr
    split at hr <;> simp at hr <;> subst hr
    · exact moment_listProgram _ _ _ _ h
    · exact herr _
  | load =>
    simp only [command, loadCommand] at hr
    split at hr
    · split at hr
      · split at hr
        · simp at hr
        · rename_i hl; simp at hr; subst hr; exact h.load _ _ _ hl
      · simp at hr; subst hr; exact moment_out (herr _) _
    · simp at hr; subst hr; exact herr _
  | save =>
    simp only [command, saveCommand] at hr
    split at hr
    · split at hr
      · split at hr
        · simp at hr; subst hr; exact h
        · split at hr <;> simp at hr <;> subst hr <;> exact h
      · simp at hr; subst hr; exact moment_out (herr _) _
    · simp at hr; subst hr; exact herr _
  | renum =>
    simp only [command, Session.ifEol] at hr
    split at hr
    · split at hr
      · simp at hr
      · rename_i hl; simp at hr; subst hr; exact h.renum _ _ _ hl
    · simp at hr; subst hr; exact herr _
  | run =>
    simp only [command, Session.withVm] at hr
    split at hr
    · simp at hr
    · rename_i hl; simp at hr; subst hr; exact moment_runProgram h.clearValues hl

theorem moment_interpret {ctx : Ctx} {s s' : Session} {line : CStr} (hl : line.length < cmdSize)
    (h : Moment s.vm) (hr : interpret ctx s line = .ok s') : Moment s'.vm := by
  unfold interpret at hr
  have hsk := skipSpace_length line
  split at hr
  · simp at hr; subst hr; exact h
  · rename_i c p hs
    rw [hs] at hsk
    split at hr
    · rename_i hd
      unfold programLine at hr
      simp only [readNum, hd, if_true] at hr
      split at hr
      · simp at hr; subst hr; exact h.delete _
      · have h1 := readNumGo_length 0 (c :: p)
        split at hr
        · simp at hr
        · rename_i he
          simp at hr; subst hr
          refine h.enter _ _ ?_ he
          split
          · rename_i q hq; rw [hq] at h1; simp at *; omega
          · omega
    · split at hr
      · simp at hr; subst hr; exact h
      · split at hr
        · simp at hr; subst hr; exact h
        · simp only [immediateLine] at hr
          split at hr
          · exact moment_command h hr
          · simp only [Session.withVm] at hr
            split at hr
            · simp at hr
            · rename_i hi; simp at hr; subst hr
              exact moment_runImmediate (by omega) h hi

theorem session_moment {s : Session} (h : Spec.Session s) : Moment s.vm := by
  induction h with
  | start => exact Moment.start _ _ _ _
  | line ctx _ hs ih =>
    rename_i s s' _
    unfold interactStep at hs
    split at hs
    · simp at hs
    · simp only at hs
      split at hs
      · simp at hs
      · rename_i line hline
        split at hs
        · simp at hs
        · rename_i s'' hi
          simp at hs; subst hs
          refine moment_interpret (getLine_length _ _ _ _ line (Prod.ext rfl (Prod.ext hline rfl))) ?_ hi
          exact Moment.world _ (moment_out ih _)

end LB
