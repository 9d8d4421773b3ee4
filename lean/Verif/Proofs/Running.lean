import Verif.Proofs.Session
import Verif.Proofs.Exec
import Verif.Spec.Running
import Verif.Proofs.Monitor
/- Every state of a session is a `State`. -/
namespace LB
open LB.Spec

variable {may : Cmd → VM → Prop}

theorem compiled_again {vm vm' : VM} (h : ensureProgramCompiled vm = .ok (true, vm')) :
    ensureProgramCompiled vm' = .ok (true, vm') := by
  unfold ensureProgramCompiled at h
  split at h
  · rename_i src hs hb
    split at h
    · simp at h
    · split at h
      · simp at h
      · simp at h
      · split at h
        · simp at h
        · simp only [Outcome.ok.injEq, Prod.mk.injEq, true_and] at h
          subst h
          simp [ensureProgramCompiled, resetControlState, hs]
  · rename_i hn
    simp only [Outcome.ok.injEq, Prod.mk.injEq, true_and] at h
    subst h
    unfold ensureProgramCompiled
    split
    · rename_i h1 h2; exact absurd h2 (hn _ h1)
    · rfl

theorem state_loop (env : Env) (brk : Nat → Bool) (ph : Phase) (hph : ph ≠ .idle) (n k : Nat) (vm vm' : VM) (e : RunEnd)
    (h : State may ph vm) (hr : vmLoop env brk n k vm = .ok (e, vm')) : State may .idle (Spec.finish ph e vm') := by
  induction n generalizing k vm with
  | zero => simp [vmLoop] at hr
  | succ n ih =>
    simp only [vmLoop] at hr
    split at hr
    · simp at hr
    · rename_i used hu
      split at hr
      · rename_i hc
        obtain ⟨h1, h2, h3⟩ := hc
        have hat : ∃ i, At vm i := by
          unfold curUsed at hu
          split at hu
          · rename_i b w hb
            simp only [Outcome.ok.injEq] at hu
            subst hu
            unfold V.curBcode at hb
            split at hb
            · simp at hb
            · rename_i r hr'
              split at hb
              · simp at hb
              · rename_i b' hb'
                simp only [Res.ok.injEq] at hb
                obtain ⟨rfl, -⟩ := hb
                exact ⟨_, r, b', hr', hb', List.getElem?_eq_getElem h1⟩
          · simp at hu
          · simp at hu
        have hs : vm.stopped = false := by simpa using h2
        split at hr
        · rename_i he; exact ih _ _ (h.step env hph hat hs he) hr
        · rename_i he
          simp only [Outcome.ok.injEq, Prod.mk.injEq] at hr
          obtain ⟨rfl, rfl⟩ := hr
          exact h.error env _ hph hat hs he
        · simp at hr
      · rename_i hc
        simp only [Outcome.ok.injEq, Prod.mk.injEq] at hr
        obtain ⟨rfl, rfl⟩ := hr
        refine h.finish _ hph ?_
        by_cases hb : brk k = true
        · exact .inl hb
        · by_cases hs : vm.stopped = true
          · exact .inr (.inl hs)
          · refine .inr (.inr ⟨used, hu, ?_⟩)
            simp only [Bool.not_eq_true] at hb hs
            simp [hb, hs] at hc
            exact hc

theorem state_run {env : Env} {brk : Nat → Bool} {n : Nat} {ph : Phase} (hph : ph ≠ .idle) {vm vm' : VM} {e : RunEnd}
    (h : State may ph { vm with stopped := false }) (hr : LB.run env brk n vm = .ok (e, vm')) :
    ∃ w, vm' = recordStopped e (runMessages e w) ∧ State may .idle (Spec.finish ph e w) := by
  unfold LB.run at hr
  split at hr
  · simp at hr
  · split at hr
    · simp at hr
    · rename_i e' w hl
      simp only [Outcome.ok.injEq, Prod.mk.injEq] at hr
      obtain ⟨rfl, rfl⟩ := hr
      exact ⟨w, rfl, state_loop env brk ph hph n 0 _ w e' h hl⟩

theorem state_runProgram {env : Env} {brk : Nat → Bool} {n : Nat} {vm vm' : VM} {e : Option RunEnd}
    (h : State may .idle vm) (hr : runProgram env brk n vm = .ok (e, vm')) : State may .idle vm' := by
  unfold runProgram at hr
  split at hr
  · simp at hr; exact hr.2 ▸ h
  · rename_i hsrc
    split at hr
    · simp at hr
    · rename_i hc
      simp at hr; exact hr.2 ▸ h.compile _ hc
    · rename_i w hc
      split at hr
      · simp at hr
      · rename_i hrun
        simp at hr
        rw [← hr.2]
        have hsrc' : w.stored.source ≠ none := by
          intro hn
          have hw : w.stored.source = vm.stored.source := by
            unfold ensureProgramCompiled at hc
            split at hc
            · split at hc
              · simp at hc
              · split at hc
                · simp at hc
                · simp at hc
                · split at hc
                  · simp at hc
                  · simp at hc; subst hc; simp [resetControlState]
            · simp at hc; rw [hc]
          rw [hw] at hn; simp [hn] at hsrc
        obtain ⟨w', h1, h2⟩ := state_run (ph := .program) (by simp) ((h.compile _ hc).run (compiled_again hc) hsrc') hrun
        rw [h1]
        simpa [Spec.finish] using h2

theorem state_runImmediate {env : Env} {brk : Nat → Bool} {n : Nat} {vm vm' : VM} {e : Option RunEnd}
    {line : CStr} (hl : line.length < cmdSize) (h : State may .idle vm)
    (hr : runImmediate env brk n vm line = .ok (e, vm')) : State may .idle vm' := by
  unfold runImmediate at hr
  split at hr
  · simp at hr
  · rename_i hc
    simp at hr; exact hr.2 ▸ h.noImmediate.compile _ hc
  · rename_i w hc
    have hw := h.noImmediate.compile _ hc
    simp only at hr
    split at hr
    · simp at hr
    · rename_i hp
      simp at hr
      exact hr.2 ▸ hw.failed line hl (compiled_again hc) hp
    · rename_i bc st hp
      split at hr
      · simp at hr
      · rename_i idx hi
        split at hr
        · simp at hr
        · rename_i e'' vm'' hrun
          simp at hr
          obtain ⟨w', h1, h2⟩ := state_run (ph := .typed) (by simp) (hw.typed line hl (compiled_again hc) hp hi) hrun
          rw [← hr.2]
          unfold Spec.finish at h2
          simp only [← h1, true_and] at h2
          exact h2

theorem state_vmContinue {env : Env} {brk : Nat → Bool} {n : Nat} {vm vm' : VM} {e : Option RunEnd}
    (h : State may .idle vm) (hm : may .cont vm) (hr : vmContinue env brk n vm = .ok (e, vm')) :
    State may .idle vm' := by
  unfold vmContinue at hr
  split at hr
  · simp at hr; exact hr.2 ▸ h
  · rename_i r hcode
    split at hr
    · simp at hr; exact hr.2 ▸ h
    · rename_i bc hbc
      split at hr
      · simp at hr
      · rename_i i hi
        simp only at hr
        split at hr
        · simp at hr
        · rename_i hrun
          simp at hr
          rw [← hr.2]
          have hlt : vm.stoppedProgram.pc < bc.used := by
            simp only [Bcode.used]
            exact (List.getElem?_eq_some_iff.1 hi).1
          have heq : resumeAt bc vm.stoppedProgram =
              (if isStop i = true then { vm.stoppedProgram with pc := vm.stoppedProgram.pc + 1 } else vm.stoppedProgram) := by
            unfold resumeAt
            rw [hi]
            cases i <;> simp [isStop]
          rw [← heq] at hrun
          obtain ⟨w', h1, h2⟩ := state_run (ph := .program) (by simp) (h.cont hm hcode hbc hlt) hrun
          rw [h1]
          simpa [Spec.finish] using h2

theorem state_out {vm : VM} (h : State may .idle vm) (s : CStr) : State may .idle (putOut vm s) := h.world _

theorem state_list {vm : VM} (brk : Nat → Bool) (a b : Nat) (p : Bool) (h : State may .idle vm) :
    State may .idle (listProgram brk vm a b p) := by
  unfold listProgram
  split
  · exact h
  · exact State.world _ (state_out h _)

theorem state_command {ctx : Ctx} {s s' : Session} {cmd : Cmd} {line : CStr}
    (h : State may .idle s.vm) (hm : may cmd s.vm) (hr : command ctx s cmd line = .ok s') :
    State may .idle s'.vm := by
  have herr : ∀ m : CStr, State may .idle (s.error m).vm := fun m => state_out h _
  cases cmd with
  | bye =>
    simp only [command, Session.ifEol] at hr
    split at hr <;> simp at hr <;> subst hr
    · exact h
    · exact herr _
  | compile =>
    simp only [command] at hr
    split at hr
    · simp at hr
    · rename_i hc; simp at hr; subst hr; exact h.compile _ hc
  | cont =>
    simp only [command] at hr
    split at hr
    · simp at hr
    · rename_i hc; simp at hr; subst hr; exact state_out (state_vmContinue h hm hc) _
    · rename_i hc; simp at hr; subst hr; exact state_vmContinue h hm hc
  | help => simp only [command, Outcome.ok.injEq] at hr; subst hr; exact state_out h _
  | new =>
    simp only [command, Session.ifEol] at hr
    split at hr <;> simp at hr <;> subst hr
    · exact h.new
    · exact herr _
  | list =>
    simp only [command, Session.ifEol] at hr
    split at hr <;> simp at hr <;> subst hr
    · exact state_list _ _ _ _ h
    · exact herr _
  | load =>
    simp only [command, loadCommand] at hr
    split at hr
    · split at hr
      · split at hr
        · simp at hr
        · rename_i hl; simp at hr; subst hr; exact h.load _ _ _ hl
      · simp at hr; subst hr; exact state_out (herr _) _
    · simp at hr; subst hr; exact herr _
  | save =>
    simp only [command, saveCommand] at hr
    split at hr
    · split at hr
      · split at hr
        · simp at hr; subst hr; exact h
        · split at hr <;> simp at hr <;> subst hr <;> exact h
      · simp at hr; subst hr; exact state_out (herr _) _
    · simp at hr; subst hr; exact herr _
  | renum =>
    simp only [command, Session.ifEol] at hr
    split at hr
    · split at hr
      · simp at hr
      · rename_i hl; simp at hr; subst hr; exact h.renum _ _ _ hm hl
    · simp at hr; subst hr; exact herr _
  | run =>
    simp only [command, Session.withVm] at hr
    split at hr
    · simp at hr
    · rename_i hl; simp at hr; subst hr; exact state_runProgram h.clearValues hl

theorem isCommand_of {line p : CStr} {c : Char} {k : Cmd} (hs : skipSpace line = c :: p)
    (hk : findCommand (c :: p) ((c :: p).takeWhile isalpha).length = some k) : IsCommand line k := by
  have hsplit : c :: p = (c :: p).takeWhile isalpha ++ (c :: p).dropWhile isalpha := List.takeWhile_append_dropWhile.symm
  rw [hsplit] at hk
  have hw : ((c :: p).takeWhile isalpha ++ (c :: p).dropWhile isalpha).takeWhile isalpha = (c :: p).takeWhile isalpha := by
    rw [← hsplit]
  rw [hw] at hk
  refine ⟨line.takeWhile V.isSpTab, (c :: p).takeWhile isalpha, (c :: p).dropWhile isalpha, ?_⟩
  unfold findCommand at hk
  rw [Option.map_eq_some_iff] at hk
  obtain ⟨x, hx, hxk⟩ := hk
  have h1 := List.find?_some hx
  simp only [findCommand_test] at h1
  have h2 := List.mem_of_find?_eq_some hx
  have hc : commands = commandNames.map (fun x => (x.1.toList, x.2)) := by decide
  rw [hc] at h2
  obtain ⟨y, hy, rfl⟩ := List.mem_map.1 h2
  refine ⟨y.1, ?_, ?_, ?_, ?_, ?_, h1⟩
  · rw [List.append_assoc, ← hsplit, ← hs]
    exact List.takeWhile_append_dropWhile.symm
  · intro d hd
    have := List.all_takeWhile (l := line) (p := V.isSpTab)
    rw [List.all_eq_true] at this
    exact (isSpTab_iff d).1 (this d hd)
  · intro d hd
    have := List.all_takeWhile (l := c :: p) (p := isalpha)
    rw [List.all_eq_true] at this
    exact (isalpha_iff d).1 (this d hd)
  · intro d hd
    rw [← isalpha_iff]
    have := List.head?_dropWhile_not (p := isalpha) (l := c :: p)
    rw [hd] at this
    simpa using this
  · rw [← hxk]
    exact hy

theorem state_interpret {ctx : Ctx} {s s' : Session} {line : CStr} (hl : line.length < cmdSize)
    (h : State may .idle s.vm) (hm : ∀ k, IsCommand line k → may k s.vm) (hr : interpret ctx s line = .ok s') :
    State may .idle s'.vm := by
  unfold interpret at hr
  have hsk := skipSpace_length line
  split at hr
  · simp at hr; subst hr; exact h
  · rename_i c p hs
    rw [hs] at hsk
    split at hr
    · rename_i hd
      unfold programLine at hr
      simp only [readNum, hd, if_true] at hr
      split at hr
      · simp at hr; subst hr; exact h.delete _
      · have h1 := readNumGo_length 0 (c :: p)
        split at hr
        · simp at hr
        · rename_i he
          simp at hr; subst hr
          refine h.enter _ _ ?_ he
          split
          · rename_i q hq; rw [hq] at h1; simp at *; omega
          · omega
    · split at hr
      · simp at hr; subst hr; exact h
      · split at hr
        · simp at hr; subst hr; exact h
        · simp only [immediateLine] at hr
          split at hr
          · rename_i k hk
            refine state_command h (hm k ?_) hr
            split at hk
            · simp at hk
            · exact isCommand_of hs hk
          · simp only [Session.withVm] at hr
            split at hr
            · simp at hr
            · rename_i hi; simp at hr; subst hr
              exact state_runImmediate (by omega) h hi

/-- Between commands every session is an idle `State`. -/
theorem sessionWhere_state {s : Session} (h : SessionWhere may s) : State may .idle s.vm := by
  induction h with
  | start => exact State.start _ _ _ _
  | line ctx _ hw hs ih =>
    rename_i s s' _
    unfold interactStep at hs
    split at hs
    · simp at hs
    · simp only at hs
      split at hs
      · simp at hs
      · rename_i line hline
        split at hs
        · simp at hs
        · rename_i s'' hi
          simp at hs; subst hs
          have hg : getLine (s.vm.world.stdin.length + 1) s.vm.world.stdin =
              ((getLine (s.vm.world.stdin.length + 1) s.vm.world.stdin).1, some line,
                (getLine (s.vm.world.stdin.length + 1) s.vm.world.stdin).2.2) :=
            Prod.ext rfl (Prod.ext hline rfl)
          refine state_interpret (getLine_length _ _ _ _ line hg) ?_ ?_ hi
          · exact State.world _ (state_out ih _)
          · intro k hk
            exact hw line k _ ⟨_, _, hg⟩ hk

theorem session_where {s : Session} (h : Spec.Session s) : SessionWhere (fun _ _ => True) s := by
  induction h with
  | start => exact SessionWhere.start _ _ _ _ _
  | line ctx _ hs ih => exact ih.line ctx (fun _ _ _ _ _ => trivial) hs

/-- Between commands every session is an idle `State`. -/
theorem session_state {s : Session} (h : Spec.Session s) : State (fun _ _ => True) .idle s.vm :=
  sessionWhere_state (session_where h)

end LB
