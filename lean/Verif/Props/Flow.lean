import Verif.Spec.Flow
import Verif.Proofs.RunEnds
import Verif.Proofs.DemoState
import Verif.Proofs.Commands
import Verif.Props.Commands
/-
C40: compiled code is in order.
-/
namespace LB
open LB.Spec _root_.Spec

/-- C40.  In every session, whatever is compiled and run, whatever the input and whenever interrupts arrive, no
instruction reports an empty stack, an unknown instruction, a missing line of ON, a parameter or the end of a function
that was run into, or a malformed function.
Missing: CONT is only used after a STOP, after an interrupt that arrived between two instructions of the run before it,
or at the start of a line; there are at most 65536 names.  See `C40_violated`. -/
theorem C40_partial {may : Cmd → VM → Prop} (hm : ∀ vm, may .cont vm → StoppedBetween vm) {ph : Phase} {vm vm' : VM}
    (h : State may ph vm) (hp : ph ≠ .idle) (hn : vm.st.psym.length ≤ 65536) {env : Env} {e : RunError}
    (he : V.execute env vm = .err e vm') : ¬ Malformed e := by
  have hf := state_flow hm h
  have hc : Comp vm := by
    by_cases hs : vm.stored.source = none
    · exact .inl hs
    · exact .inr (hf.base.ready hp hs)
  obtain ⟨o, hr⟩ := hf.ordered trivial hc hn
  have := (execute_flow env o (hr hp) hf.base.tab hn).2
  rw [he] at this
  exact this

set_option maxRecDepth 100000 in
/-- A run-time error: a function is called inside an expression, and its body takes the logarithm of zero. -/
example : ∃ vm vm' : VM, State (fun k _ => k ≠ .cont) .program vm ∧ vm.st.psym.length ≤ 65536 ∧
    V.execute Demo.env vm = .err .invalidLog vm' := by
  obtain ⟨vm, h1, h2⟩ := Demo.state (may := fun k _ => k ≠ .cont) (lines := [(10, "DEF FNA(X)=LOG(X)"), (20, "PRINT 1+FNA(0)")]) (n := 7)
    (P := fun vm => decide (vm.st.psym.length ≤ 65536) && match V.execute Demo.env vm with
      | .err e _ => e == .invalidLog
      | _ => false) (by decide +kernel)
  simp only [Bool.and_eq_true, decide_eq_true_eq] at h2
  obtain ⟨h2, h3⟩ := h2
  split at h3
  · rename_i e vm' he
    simp only [beq_iff_eq] at h3
    subst h3
    exact ⟨vm, vm', h1, h2, he⟩
  · cases h3

/-- C40 for a whole run: RUN, a typed statement, CONT. -/
theorem C40_run_partial {may : Cmd → VM → Prop} (hm : ∀ vm, may .cont vm → StoppedBetween vm) {vm vm' : VM} (h : State may .idle vm)
    (hn : vm'.st.psym.length ≤ 65536) {env : Env} {brk : Nat → Bool} {n : Nat} {e : RunError} {i : Bool}
    (hr : runProgram env brk n vm = .ok (some ⟨some e, i⟩, vm') ∨
      (∃ line, line.length < cmdSize ∧ runImmediate env brk n vm line = .ok (some ⟨some e, i⟩, vm')) ∨
      may .cont vm ∧ vmContinue env brk n vm = .ok (some ⟨some e, i⟩, vm')) : ¬ Malformed e := by
  have key : ∀ {v w w' : VM}, Starts may v → vmLoop env brk n 0 v = .ok (⟨some e, i⟩, w) → vm' = w' → w'.st = w.st → ¬ Malformed e := by
    rintro v w w' ⟨ph, hp, hs, -⟩ hl rfl hst
    obtain ⟨u, h1, ⟨j, hat⟩, -, h2⟩ := loop_error hp hs hl
    refine C40_partial hm h1 hp ?_ h2
    rw [← (execute_moved hat (.inr ⟨e, h2⟩)).length, ← hst]
    exact hn
  rcases hr with hr | ⟨line, hl, hr⟩ | ⟨hc, hr⟩
  · rcases runProgram_loop (env := env) (brk := brk) (n := n) h with ⟨x, hx⟩ | ⟨x, hx, -⟩ | ⟨v, hv, ⟨x, -, hx⟩ | ⟨e', w, w', h1, h2, h3⟩⟩
    · rw [hr] at hx; simp at hx
    · rw [hr] at hx; simp at hx
    · rw [hr] at hx; simp at hx
    · rw [hr] at h2
      simp only [Outcome.ok.injEq, Prod.mk.injEq, Option.some.injEq] at h2
      obtain ⟨rfl, h4⟩ := h2
      exact key hv h1 h4 h3
  · rcases runImmediate_loop (env := env) (brk := brk) (n := n) hl h with ⟨x, hx⟩ | ⟨x, hx, -⟩ | ⟨v, hv, ⟨x, -, hx⟩ | ⟨e', w, w', h1, h2, h3⟩⟩
    · rw [hr] at hx; simp at hx
    · rw [hr] at hx; simp at hx
    · rw [hr] at hx; simp at hx
    · rw [hr] at h2
      simp only [Outcome.ok.injEq, Prod.mk.injEq, Option.some.injEq] at h2
      obtain ⟨rfl, h4⟩ := h2
      exact key hv h1 h4 h3
  · rcases vmContinue_loop (env := env) (brk := brk) (n := n) h hc with ⟨x, hx⟩ | ⟨hx, -⟩ | ⟨v, hv, ⟨x, -, hx⟩ | ⟨e', w, w', h1, h2, h3⟩⟩
    · rw [hr] at hx; simp at hx
    · rw [hr] at hx; simp at hx
    · rw [hr] at hx; simp at hx
    · rw [hr] at h2
      simp only [Outcome.ok.injEq, Prod.mk.injEq, Option.some.injEq] at h2
      obtain ⟨rfl, h4⟩ := h2
      exact key hv h1 h4 h3

set_option maxRecDepth 100000 in
/-- A run that ends with an error. -/
example : ∃ vm vm' : VM, State (fun k _ => k ≠ .cont) .idle vm ∧ vm'.st.psym.length ≤ 65536 ∧
    runProgram Demo.env (fun _ => false) 100 vm = .ok (some ⟨some .nextWithoutFor, false⟩, vm') := by
  have h : ((Demo.entered [(10, "GOSUB 20"), (20, "NEXT")] (some (newVm false false false {}))).any (fun vm =>
    match runProgram Demo.env (fun _ => false) 100 vm with
      | .ok (some e, vm') => e == ⟨some .nextWithoutFor, false⟩ && decide (vm'.st.psym.length ≤ 65536)
      | _ => false)) = true := by decide +kernel
  cases he : Demo.entered [(10, "GOSUB 20"), (20, "NEXT")] (some (newVm false false false {})) with
  | none => rw [he] at h; cases h
  | some vm =>
    rw [he] at h
    simp only [Option.any_some] at h
    split at h
    · rename_i e vm' hr
      simp only [Bool.and_eq_true, beq_iff_eq, decide_eq_true_eq] at h
      exact ⟨vm, vm', Demo.entered_state (.start ..) he, h.2, by rw [hr, h.1]⟩
    · cases h

set_option maxRecDepth 100000 in
/-- C40 fails for an error at the very instruction during which an interrupt arrives: LOG has taken its operand, the
position is remembered, and CONT does LOG again with the operand of the addition. -/
theorem C40_violated : ∃ s vm', Spec.Session s ∧
    vmContinue Demo.env (fun _ => false) 100 s.vm = .ok (some ⟨some .numEmpty, false⟩, vm') := by
  obtain ⟨s, hs, h⟩ := Demo.reached (c := { Demo.ctx with brk := fun j => j == 4 }) (text := "10 PRINT 1+LOG(0)\nRUN\n")
    (P := fun s => match vmContinue Demo.env (fun _ => false) 100 s.vm with
      | .ok (some e, _) => e == ⟨some .numEmpty, false⟩
      | _ => false) (by decide +kernel)
  split at h
  · rename_i e vm' hc
    simp only [beq_iff_eq] at h
    subst h
    exact ⟨s, vm', hs, hc⟩
  · cases h

end LB
