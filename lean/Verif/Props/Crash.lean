import Verif.Spec.Crash
import Verif.Proofs.Crash
import Verif.Proofs.DemoState
import Verif.Proofs.Demo
import Verif.Props.Compiling
/-
C42: statements that compile do not crash the interpreter.
-/
namespace LB
open LB.Spec _root_.Spec

/-- C42.  In every session, whatever is compiled and run, whatever the input and whenever interrupts arrive, an
instruction either completes or reports a run-time error.
Missing: the instructions of `Misuse` (a built-in function as the target of an assignment, an array with more than two
subscripts, the subscript 4294967295), as `C42_builtin_violated` and the theorems after it show; CONT is
only used as in C40; there are at most 65536 names. -/
theorem C42_partial {may : Cmd → VM → Prop} (hm : ∀ vm, may .cont vm → StoppedBetween vm) {ph : Phase} {vm : VM}
    (h : State may ph vm) (hp : ph ≠ .idle) (hn : vm.st.psym.length ≤ 65536)
    (env : Env) {i : Inst} (hat : At vm i) (hi : ¬ Misuse vm i) :
    (∃ vm', V.execute env vm = .ok () vm') ∨ ∃ e vm', V.execute env vm = .err e vm' := by
  obtain ⟨o, hr⟩ := state_running hm h hp hn
  cases he : V.execute env vm with
  | ok u vm' => exact .inl ⟨vm', rfl⟩
  | err e vm' => exact .inr ⟨e, vm', rfl⟩
  | halt x => exact absurd (V.execute_halts o hr (state_base h).tab hn (state_known h) (state_kept h hp) (state_lines hm h) hat he) hi

set_option maxRecDepth 100000 in
/-- An element of an array with two subscripts, in a program that also calls a function. -/
example : ∃ (vm : VM) (id : Nat), State (fun k _ => k ≠ .cont) .program vm ∧ vm.st.psym.length ≤ 65536 ∧
    At vm (.getParenNum id 2) ∧ ¬ Misuse vm (.getParenNum id 2) := by
  obtain ⟨vm, h1, h2⟩ := Demo.state (may := fun k _ => k ≠ .cont) (lines := [(10, "DEF FNA(X)=X*2"), (20, "PRINT FNA(2)+B(3,4)")]) (n := 11)
    (P := fun vm => decide (vm.st.psym.length ≤ 65536) && Demo.nextIs (.getParenNum 28 2) vm &&
      match vm.st.psym[28]? with
      | some s => s.kind == .array && s.numarr.isNone && s.strarr.isNone && (vm.stack.take 2 == [.fin 4, .fin 3])
      | none => false) (by decide +kernel)
  simp only [Bool.and_eq_true, decide_eq_true_eq] at h2
  obtain ⟨⟨h2, h5⟩, h6⟩ := h2
  refine ⟨vm, 28, h1, h2, Demo.at_of_nextIs h5, ?_⟩
  split at h6
  · rename_i s hs
    simp only [Bool.and_eq_true, beq_iff_eq, Option.isNone_iff_eq_none] at h6
    obtain ⟨⟨⟨k1, k2⟩, k3⟩, k4⟩ := h6
    rintro (⟨id, s', k, -⟩ | ⟨id, n, s', k, -, -, k5⟩ | ⟨id, n, s', k, k5, -, k6⟩)
    · cases k
    · simp only [indexes, Option.some.injEq, Prod.mk.injEq] at k
      omega
    · simp only [indexes, Option.some.injEq, Prod.mk.injEq] at k
      obtain ⟨rfl, rfl⟩ := k
      rw [hs] at k5; cases k5
      rcases k6 with ⟨x, k6, k7⟩ | ⟨a, k6, -⟩ | ⟨a, k6, -⟩
      · simp only [subscriptsOf, k4, List.mem_cons, List.not_mem_nil, or_false] at k6
        obtain ⟨k7, -⟩ := k7
        rcases k6 with rfl | rfl <;> simp [IsInt] at k7 <;> revert k7 <;> decide
      · rw [k2] at k6; cases k6
      · rw [k3] at k6; cases k6
  · cases h6

/-- C42 for a whole run: RUN, a typed statement, CONT.  If the process ends, then because of a line of C41 that cannot be
compiled, or at an instruction of `Misuse`.  (`x = .fuel` stands for a run that is longer than `n` instructions.) -/
theorem C42_run_partial {may : Cmd → VM → Prop} (hm : ∀ vm, may .cont vm → StoppedBetween vm) {vm : VM} (h : State may .idle vm)
    {env : Env} {brk : Nat → Bool} {n : Nat} {x : Halt} (hx : x ≠ .fuel) {line : CStr} (hl : line.length < cmdSize)
    (hr : runProgram env brk n vm = .halt x ∨ runImmediate env brk n vm line = .halt x ∨
      may .cont vm ∧ vmContinue env brk n vm = .halt x ∧ ∀ b, vm.stored.bcode = some b → vm.stoppedProgram.pc < b.used) :
    EndsProcess line x ∨ (∃ src, vm.stored.source = some src ∧ ∃ l ∈ src.lines, EndsProcess l.text x) ∨
    ∃ ph w, ph ≠ .idle ∧ State may ph w ∧ (w.st.psym.length ≤ 65536 →
      ∃ i, At w i ∧ V.execute env w = .halt x ∧ Misuse w i) := by
  have key : ∀ {v : VM}, Starts may v → vmLoop env brk n 0 v = .halt x → ∃ ph w, ph ≠ .idle ∧ State may ph w ∧
      (w.st.psym.length ≤ 65536 → ∃ i, At w i ∧ V.execute env w = .halt x ∧ Misuse w i) := by
    rintro v ⟨ph, hp, hs, -⟩ hl
    rcases loop_halt hp hs hl with h1 | ⟨w, h1, h2 | ⟨⟨i, hat⟩, -, h2⟩⟩
    · exact absurd h1 hx
    · refine ⟨ph, w, hp, h1, fun k1 => ?_⟩
      exact absurd h2 (curUsed_runs (state_running hm h1 hp k1).2 x)
    · refine ⟨ph, w, hp, h1, fun k1 => ⟨i, hat, h2, ?_⟩⟩
      by_cases hi : Misuse w i
      · exact hi
      · rcases C42_partial hm h1 hp k1 env hat hi with ⟨w', h3⟩ | ⟨e, w', h3⟩ <;> rw [h2] at h3 <;> cases h3
  have comp : ∀ {v : VM}, State may .idle v → v.stored = vm.stored → ensureProgramCompiled v = .halt x →
      ∃ src, vm.stored.source = some src ∧ ∃ l ∈ src.lines, EndsProcess l.text x := by
    intro v hv hs hc
    obtain ⟨src, h1, st, pre, ht, h2⟩ := compile_halts hv hc
    refine ⟨src, by rw [← hs]; exact h1, ?_⟩
    rcases h2 with h2 | ⟨bc, st', h2, h3⟩
    · rcases C41_compile_partial src st pre with ⟨c, st', h4⟩ | ⟨l, hl, y, h4, h5⟩
      · rw [h2] at h4; cases h4
      · rw [h2] at h4; cases h4; exact ⟨l, hl, h5⟩
    · obtain ⟨idx, h4⟩ := index_total ht h2
      rw [h3] at h4; cases h4
  rcases hr with hr | hr | ⟨hc, hr, hb⟩
  · rcases runProgram_loop (env := env) (brk := brk) (n := n) h with ⟨y, hy⟩ | ⟨y, hy, hy'⟩ | ⟨v, hv, ⟨y, hl, hy⟩ | ⟨e', w, w', h1, h2, h3⟩⟩
    · rw [hr] at hy; cases hy
    · rw [hr] at hy; cases hy; exact .inr (.inl (comp h rfl hy'))
    · rw [hr] at hy; cases hy; exact .inr (.inr (key hv hl))
    · rw [hr] at h2; cases h2
  · rcases runImmediate_loop (env := env) (brk := brk) (n := n) hl h with ⟨y, hy⟩ | ⟨y, hy, hy' | ⟨st', st, ht, hy' | ⟨bc, h2, h3⟩⟩⟩ |
        ⟨v, hv, ⟨y, hl, hy⟩ | ⟨e', w, w', h1, h2, h3⟩⟩
    · rw [hr] at hy; cases hy
    · rw [hr] at hy; cases hy; exact .inr (.inl (comp h.noImmediate rfl hy'))
    · rw [hr] at hy; cases hy
      rcases C41_compile_partial (wrapSourceText line) st false with ⟨c, st', h4⟩ | ⟨l, hl, y, h4, h5⟩
      · rw [hy'] at h4; cases h4
      · rw [hy'] at h4; cases h4
        simp only [wrapSourceText, List.mem_cons, List.not_mem_nil, or_false] at hl
        subst hl
        exact .inl h5
    · obtain ⟨idx, h4⟩ := index_total ht h2
      rw [hr] at hy; cases hy
      rw [h3] at h4; cases h4
    · rw [hr] at hy; cases hy; exact .inr (.inr (key hv hl))
    · rw [hr] at h2; cases h2
  · rcases vmContinue_loop (env := env) (brk := brk) (n := n) h hc with ⟨y, hy⟩ | ⟨hy, b, hy', hle⟩ | ⟨v, hv, ⟨y, hl, hy⟩ | ⟨e', w, w', h1, h2, h3⟩⟩
    · rw [hr] at hy; cases hy
    · exact absurd (hb b hy') (by omega)
    · rw [hr] at hy; cases hy; exact .inr (.inr (key hv hl))
    · rw [hr] at h2; cases h2

set_option maxRecDepth 100000 in
/-- A run that ends the process, at an instruction of `Misuse`. -/
example : ∃ vm : VM, State (fun k _ => k ≠ .cont) .idle vm ∧
    runProgram Demo.env (fun _ => false) 100 vm = .halt (.assertFail "pop_indexes") := by
  have h : ((Demo.entered [(10, "FOR I=1 TO 3"), (20, "PRINT A(1,2,I)")] (some (newVm false false false {}))).any (fun vm =>
    match runProgram Demo.env (fun _ => false) 100 vm with
      | .halt x => x == .assertFail "pop_indexes"
      | _ => false)) = true := by decide +kernel
  cases he : Demo.entered [(10, "FOR I=1 TO 3"), (20, "PRINT A(1,2,I)")] (some (newVm false false false {})) with
  | none => rw [he] at h; cases h
  | some vm =>
    rw [he] at h
    simp only [Option.any_some] at h
    split at h
    · rename_i x hr
      simp only [beq_iff_eq] at h
      exact ⟨vm, Demo.entered_state (.start ..) he, by rw [hr, h]⟩
    · cases h

set_option maxRecDepth 100000 in
/-- C42 fails when the name of a built-in function is assigned to. -/
theorem C42_builtin_violated : Demo.shows "10 SIN=1\nRUN\n" = .halt (.assertFail "set_numeric_simple") := by decide +kernel

set_option maxRecDepth 100000 in
/-- C42 fails when an array has three subscripts. -/
theorem C42_subscripts_violated : Demo.shows "PRINT A(1,2,3)\n" = .halt (.assertFail "pop_indexes") := by decide +kernel

set_option maxRecDepth 100000 in
/-- C42 fails after an array was given a size that does not fit into 32 bits: the element that is written does not exist. -/
theorem C42_size_violated : Demo.shows "DIM A(4294967295)\nA(0)=1\n" = .halt (.outOfBounds "array element write") := by decide +kernel

set_option maxRecDepth 100000 in
/-- C42 fails when such a size is the second of two: the check for overflow divides by zero. -/
theorem C42_divide_violated : Demo.shows "DIM A(1,4294967295)\n" = .halt (.divByZero "compute_total_elements") := by decide +kernel

end LB
