import Verif.Spec.Tracing
import Verif.Props.LoadRun
/- C61: tracing changes nothing but what is printed. -/
namespace LB
open LB.Spec _root_.Spec

/-- C61.  Take any two sessions with the same stored program in the same surroundings, of which the second does not trace: RUN ends in
the same way in both, or both halt in the same way, with the same effects outside, and what the first prints is what the
second prints with the texts of the tracing put in: numbers of lines of the program in brackets, only if lines are traced; lines
of the program and open loops, only if loops are traced.
Missing: as for `C34_partial`, RENUM must not have been used, the buffers of the last input line are the same, and there are at
most 65536 names. -/
theorem C61_run_partial {may : Cmd → VM → Prop} (hm : ∀ vm, ¬ may .renum vm) {a b : VM} (ha : State may .idle a) (hb : State may .idle b) {src : Source}
    (hsa : a.stored.source = some src) (hsb : b.stored.source = some src) (hk : a.keywordsAnywhere = b.keywordsAnywhere)
    (h1 : b.traceBasic = false) (h2 : b.traceFor = false)
    (hw : a.world.stdin = b.world.stdin ∧ a.world.rng = b.world.rng ∧ a.world.ticks = b.world.ticks) (hi : a.input = b.input)
    (hn : ∀ vm', ensureProgramCompiled (vmClearValues a) = .ok (true, vm') → vm'.st.psym.length ≤ 65536)
    (env : Env) (brk : Nat → Bool) (n : Nat) :
    (∃ e a' b', runProgram env brk n (vmClearValues a) = .ok (e, a') ∧ runProgram env brk n (vmClearValues b) = .ok (e, b') ∧
      AlikeTraced a.traceBasic a.traceFor src.lines a.world b.world a'.world b'.world) ∨
    ∃ x, runProgram env brk n (vmClearValues a) = .halt x ∧ runProgram env brk n (vmClearValues b) = .halt x := by
  rcases readies_traced (basic := a.traceBasic) (loops := a.traceFor) hsa hsb (ready hm ha hsa) (ready hm hb hsb) hk (by simp [h1]) (by simp [h2]) hw hi hn env brk n with
    ⟨e, a', b', q1, q2, q3, -⟩ | q
  · exact .inl ⟨e, a', b', q1, q2, q3⟩
  · exact .inr q

/-- C61 for the process.  With the same file, switches for tracing (and those for quietness and memory) change nothing but
what is printed: the process with `args` halts as the one with `args'` does, or both end with the same status and leave the same
input, and the first prints what the second prints with the texts of the tracing put in.
Missing: the file has at most 65536 names. -/
theorem C61_partial (h : Host) {args args' : List CStr} {f : CStr} (ha : RunsFile args f) (ha' : RunsFile args' f) (w : World) {kw basic loops : Bool}
    (hk : kw = true ↔ ∃ a ∈ args, Says a .keywords) (hk' : kw = true ↔ ∃ a ∈ args', Says a .keywords)
    (hb : basic = true ↔ ∃ a ∈ args, Says a .traceBasic) (hl : loops = true ↔ ∃ a ∈ args, Says a .traceFor)
    (hno : ∀ a ∈ args', ¬ Says a .traceBasic ∧ ¬ Says a .traceFor) (hs : seedings args = seedings args')
    (hn : ∀ src b st, loadSourceFile f (h.files f) = .ok (some src) → parseSource src (initBuiltins newSymbolTable) kw = .ok (some b, st) → st.psym.length ≤ 65536) :
    (∃ x, lbasic h args w = .halt x ∧ lbasic h args' w = .halt x) ∨
    ∃ lines w1 w2 t u, (∀ src, loadSourceFile f (h.files f) = .ok (some src) → lines = src.lines) ∧
      lbasic h args w = .ok (0, w1) ∧ lbasic h args' w = .ok (0, w2) ∧ w1.stdin = w2.stdin ∧ Marked basic loops lines t u ∧
      w1.out = w.out ++ banner args ++ t ++ report args h.memory ∧ w2.out = w.out ++ banner args' ++ u ++ report args' h.memory := by
  have hwo : ∀ n, (seeded h.ctx.env w n).out = w.out := by intro n; cases n <;> rfl
  have hc : ∀ p, ¬ p → (false = true ↔ p) := by intro p h; simp [h]
  rw [lbasic_file h w ha (vm := newVm kw basic loops w) ⟨hk, hb, hl⟩,
    lbasic_file h w ha' (vm := newVm kw false false w) ⟨hk', hc _ (fun ⟨a, h1, h2⟩ => (hno a h1).1 h2), hc _ (fun ⟨a, h1, h2⟩ => (hno a h1).2 h2)⟩, ← hs]
  generalize hsd : seeded h.ctx.env w (seedings args) = sd
  have hso : sd.out = w.out := by rw [← hsd]; exact hwo _
  have p1 : ∀ a b c w, (newVm a b c w).keywordsAnywhere = a := fun _ _ _ _ => rfl
  have p2 : ∀ a b c w, (newVm a b c w).traceBasic = b := fun _ _ _ _ => rfl
  have p3 : ∀ a b c w, (newVm a b c w).traceFor = c := fun _ _ _ _ => rfl
  simp only [p1, p2, p3]
  generalize hna : newVm kw basic loops (sd.put (banner args)) = na
  generalize hnb : newVm kw false false (sd.put (banner args')) = nb
  cases hload : loadSourceFile f (h.files f) with
  | halt x => exact .inl ⟨x, by simp only [vmLoadSource, hload], by simp only [vmLoadSource, hload]⟩
  | ok r =>
    cases r with
    | none =>
      right
      refine ⟨[], na.world.put (report args h.memory), nb.world.put (report args' h.memory), [], [], fun _ h => (by cases h), by simp only [vmLoadSource, hload],
        by simp only [vmLoadSource, hload], ?_, .nil, ?_, ?_⟩
      · subst hna hnb; rfl
      · subst hna; simp [newVm, World.put, hso]
      · subst hnb; simp [newVm, World.put, hso]
    | some src =>
      have hva : ∀ vm : VM, vmLoadSource vm f (h.files f) = .ok (true, storedProgramChanged { vm with stored := { vm.stored with source := some src } }) := by
        intro vm; simp only [vmLoadSource, hload]
      rw [hva, hva]
      simp only
      have hcl : ∀ vm : VM, clearSymbolTableValues vm.st = vm.st → vmClearValues (storedProgramChanged { vm with stored := { vm.stored with source := some src } }) =
          storedProgramChanged { vm with stored := { vm.stored with source := some src } } := by
        intro vm h
        show { storedProgramChanged { vm with stored := { vm.stored with source := some src } } with st := clearSymbolTableValues vm.st } = _
        rw [h]
        rfl
      have hca := hcl na (by subst hna; show clearSymbolTableValues (initBuiltins newSymbolTable) = initBuiltins newSymbolTable; rfl)
      have hcb := hcl nb (by subst hnb; show clearSymbolTableValues (initBuiltins newSymbolTable) = initBuiltins newSymbolTable; rfl)
      have sa : State (fun _ _ => False) .idle (storedProgramChanged { na with stored := { na.stored with source := some src } }) :=
        State.load f _ _ (hna ▸ .start _ _ _ _) (hva na)
      have sb : State (fun _ _ => False) .idle (storedProgramChanged { nb with stored := { nb.stored with source := some src } }) :=
        State.load f _ _ (hnb ▸ .start _ _ _ _) (hva nb)
      have hsame := C61_run_partial (fun _ h => h) sa sb (src := src) rfl rfl (by subst hna hnb; rfl) (by subst hnb; rfl) (by subst hnb; rfl)
        (by subst hna hnb; exact ⟨rfl, rfl, rfl⟩) (by subst hna hnb; rfl) ?_ h.ctx.env h.ctx.brk h.ctx.fuel
      · rw [hca, hcb] at hsame
        rcases hsame with ⟨e, a', b', q1, q2, q3⟩ | ⟨x, q1, q2⟩
        · rw [q1, q2]
          obtain ⟨t, u, t1, t2, t3⟩ := q3.out
          refine .inr ⟨src.lines, _, _, t, u, fun s hs => (by cases hs; rfl), rfl, rfl, q3.stdin, ?_, ?_, ?_⟩
          · subst hna; exact t3
          · simp only [World.put, t1]
            subst hna
            simp only [storedProgramChanged, newVm, World.put, hso]
          · simp only [World.put, t2]
            subst hnb
            simp only [storedProgramChanged, newVm, World.put, hso]
        · rw [q1, q2]
          exact .inl ⟨x, rfl, rfl⟩
      · intro vm' hc
        rw [hca] at hc
        subst hna
        have hx : ∀ st, initBuiltins (clearSymbolTableNames st) = initBuiltins newSymbolTable := fun _ => rfl
        simp only [ensureProgramCompiled, storedProgramChanged, newVm, hx] at hc
        generalize hp : parseSource src (initBuiltins newSymbolTable) kw = r at hc
        cases r with
        | halt _ => cases hc
        | ok r =>
          obtain ⟨b, st⟩ := r
          cases b with
          | none => cases hc
          | some b =>
            simp only [Option.isSome_none, Bool.false_eq_true, if_false] at hc
            generalize bcodeIndex b src = x at hc
            cases x with
            | halt _ => cases hc
            | ok x =>
              injection hc with hc
              injection hc with _ hc
              subst hc
              exact hn src b st hload hp

/-- Reaching a line shows its number if lines are traced, and nothing otherwise; in every session, the line is one of the
text from which the code was made, and it is the one that is now executed.
Missing: CONT is only used as in C40; there are at most 65536 names. -/
theorem C61_line_partial {may : Cmd → VM → Prop} (hm : ∀ vm, may .cont vm → StoppedBetween vm) {ph : Phase} {vm : VM} (h : State may ph vm) (hp : ph ≠ .idle)
    (hn : vm.st.psym.length ≤ 65536) (env : Env) {l : Nat} (hat : At vm (.sourceLine l)) :
    ∃ (r : CodeRef) (src : Source) (ln : SrcLine) (vm' : VM), vm.cs.code = some r ∧ (V.codeOf vm r).source = some src ∧ src.lines[l]? = some ln ∧
      V.execute env vm = .ok () vm' ∧ vm'.cs.code = some r ∧ vm'.cs.sourceLine = l ∧
      vm'.world.out = vm.world.out ++ (if vm.traceBasic = true then '[' :: Nat.toDigits 10 ln.num ++ [']'] else []) := by
  obtain ⟨r, src, h1, h2, h3⟩ := (state_lines hm h).reached (state_running hm h hp hn).2 hat
  rw [V.execute_at env hat]
  refine ⟨r, src, src.lines[l], { vm with cs := { vm.cs with sourceLine := l, pc := vm.cs.pc + 1 }, world := { vm.world with out := vm.world.out ++
    (if vm.traceBasic = true then '[' :: Nat.toDigits 10 src.lines[l].num ++ [']'] else []) } }, h1, h2, List.getElem?_eq_getElem h3, ?_, h1, rfl, rfl⟩
  cases ht : vm.traceBasic with
  | false =>
    simp [V.exec, V.brk_apply, V.sourceLineInst, V.bind_apply, V.modify_apply, V.get_apply, ht, V.when_, V.pure_apply, following]
  | true =>
    cases r <;> (simp only [V.codeOf] at h2; simp [V.exec, V.brk_apply, V.sourceLineInst, V.bind_apply, V.modify_apply, V.get_apply, ht, V.when_, V.pure_apply,
      V.curSource, h1, V.codeOf, h2, V.lift, sourceLinenum, List.getElem?_eq_getElem h3, V.out, fmtU, following])

namespace Demo

/-- A program with a loop that ends with an error. -/
def loopText : CStr := "10 FOR I=1 TO 2\n20 PRINT I\n30 NEXT\n40 GOTO 10000\n".toList

/-- A process that finds the file. -/
def loopHost : Host where
  ctx := ⟨Demo.env, fun _ => false, 100, fun _ => true⟩
  files := fun f => if f = "z".toList then some loopText else none
  turns := 10
  memory := []

/-- How many names the file has. -/
def loopNames : Nat :=
  match loadSourceFile "z".toList (some loopText) with
  | .ok (some src) =>
    match parseSource src (initBuiltins newSymbolTable) false with
    | .ok (_, st) => st.psym.length
    | .halt _ => 0
  | _ => 0

/-- What the process prints. -/
def prints (args : List CStr) : Option CStr :=
  match lbasic loopHost args {} with
  | .ok (_, w) => some w.out
  | .halt _ => none

/-- The machine that traces, after `n` instructions of the program with the given lines. -/
def tracing (lines : List (Nat × String)) (n : Nat) : Option VM :=
  match entered lines (some (newVm false true true {})) with
  | none => none
  | some vm =>
    match ensureProgramCompiled vm with
    | .ok (true, vm') =>
      if vm'.stored.source.isSome then
        stepping n (startAt { code := some .stored, sourceLine := 0, pc := 0 } (resetControlState vm'))
      else none
    | _ => none

theorem tracing_state {may : Cmd → VM → Prop} {lines : List (Nat × String)} {n : Nat} {P : VM → Bool} (h : (tracing lines n).any P = true) :
    ∃ vm, State may .program vm ∧ P vm = true := by
  cases hr : tracing lines n with
  | none => rw [hr] at h; cases h
  | some vm =>
    rw [hr] at h
    refine ⟨vm, ?_, h⟩
    unfold tracing at hr
    split at hr
    · cases hr
    · rename_i he
      split at hr
      · rename_i vm' hc
        split at hr
        · rename_i hs
          have h1 := entered_state (may := may) (.start _ _ _ _) he
          have h2 := State.run (.compile true h1 hc) (compiled_again hc) (by intro h; rw [h] at hs; cases hs)
          exact stepping_state (by simp) h2 hr
        · cases hr
      · cases hr

end Demo

-- Both kinds of tracing, of a program with a loop.
set_option maxRecDepth 100000 in
example : ∃ args args' : List CStr, RunsFile args "z".toList ∧ RunsFile args' "z".toList ∧
    (false = true ↔ ∃ a ∈ args, Says a .keywords) ∧ (false = true ↔ ∃ a ∈ args', Says a .keywords) ∧
    (true = true ↔ ∃ a ∈ args, Says a .traceBasic) ∧ (true = true ↔ ∃ a ∈ args, Says a .traceFor) ∧
    (∀ a ∈ args', ¬ Says a .traceBasic ∧ ¬ Says a .traceFor) ∧ seedings args = seedings args' ∧
    (∀ src b st, loadSourceFile "z".toList (Demo.loopHost.files "z".toList) = .ok (some src) →
      parseSource src (initBuiltins newSymbolTable) false = .ok (some b, st) → st.psym.length ≤ 65536) ∧
    Demo.prints args = some ("[10][FOR]\n-- line: 10 FOR I=1 TO 2\n-- initial stack: empty\n-- final stack: I = 1, 2; \n[20] 1 \n" ++
      "[30][NEXT-IMPLICIT]\n-- line: 30 NEXT\n-- initial stack: I = 1, 2; \n-- final stack: I = 2, 2; \n[20] 2 \n" ++
      "[30][NEXT-IMPLICIT]\n-- line: 30 NEXT\n-- initial stack: I = 2, 2; \n-- final stack: empty\n[40]").toList ∧
    Demo.prints args' = some " 1 \n 2 \n".toList := by
  refine ⟨["-q".toList, "--trace-basic".toList, "-f".toList, "z".toList], ["-q".toList, "z".toList], ?_, ?_, by decide, by decide, by decide, by decide, by decide, by decide,
    fun src b st h1 h2 => ?_, by decide +kernel, by decide +kernel⟩
  · refine ⟨?_, by decide, by decide, by decide, ?_, by decide⟩
    · intro a ha
      simp only [List.mem_cons, List.not_mem_nil, or_false] at ha
      rcases ha with rfl | rfl | rfl | rfl
      · exact .inr ⟨.quiet, by decide, by decide, by decide⟩
      · exact .inr ⟨.traceBasic, by decide, by decide, by decide⟩
      · exact .inr ⟨.traceFor, by decide, by decide, by decide⟩
      · exact .inl (by decide)
    · intro a ha m
      simp only [List.mem_cons, List.not_mem_nil, or_false] at ha
      rcases ha with rfl | rfl | rfl | rfl <;> cases m <;> decide
  · refine ⟨?_, by decide, by decide, by decide, ?_, by decide⟩
    · intro a ha
      simp only [List.mem_cons, List.not_mem_nil, or_false] at ha
      rcases ha with rfl | rfl
      · exact .inr ⟨.quiet, by decide, by decide, by decide⟩
      · exact .inl (by decide)
    · intro a ha m
      simp only [List.mem_cons, List.not_mem_nil, or_false] at ha
      rcases ha with rfl | rfl <;> cases m <;> decide
  · have h : Demo.loopNames ≤ 65536 := by decide +kernel
    rw [show Demo.loopHost.files "z".toList = some Demo.loopText by simp only [Demo.loopHost, if_true]] at h1
    unfold Demo.loopNames at h
    rw [h1] at h
    simp only [h2] at h
    exact h

-- One machine that traces, and one that was stopped in a loop of the same program.
set_option maxRecDepth 100000 in
example : ∃ a b : VM, State (fun k _ => k ≠ .renum) .idle a ∧ State (fun k _ => k ≠ .renum) .idle b ∧
    (a.stored.source == b.stored.source && a.stored.source.isSome && a.keywordsAnywhere == b.keywordsAnywhere && a.traceBasic && a.traceFor &&
      !b.traceBasic && !b.traceFor && decide (a.world = b.world) && a.input == b.input &&
      (match ensureProgramCompiled (vmClearValues a) with
        | .ok (true, vm') => decide (vm'.st.psym.length ≤ 65536)
        | _ => false) && b.forStack.length == 1 && b.stopped) = true := by
  have h : (match Demo.entered [(10, "FOR I=1 TO 3"), (20, "STOP")] (some (newVm false true true {})), Demo.left [(10, "FOR I=1 TO 3"), (20, "STOP")] "" (fun _ => false) with
      | some a, some b => (a.stored.source == b.stored.source && a.stored.source.isSome && a.keywordsAnywhere == b.keywordsAnywhere && a.traceBasic && a.traceFor &&
        !b.traceBasic && !b.traceFor && decide (a.world = b.world) && a.input == b.input &&
        (match ensureProgramCompiled (vmClearValues a) with
          | .ok (true, vm') => decide (vm'.st.psym.length ≤ 65536)
          | _ => false) && b.forStack.length == 1 && b.stopped)
      | _, _ => false) = true := by decide +kernel
  split at h
  · rename_i a b ha hb
    exact ⟨a, b, Demo.entered_state (.start ..) ha, Demo.left_state hb, h⟩
  · cases h

-- The second line is reached in a session that traces.
set_option maxRecDepth 100000 in
example : ∃ vm : VM, State (fun k _ => k ≠ .cont) .program vm ∧ vm.st.psym.length ≤ 65536 ∧ At vm (.sourceLine 1) ∧ vm.traceBasic = true := by
  obtain ⟨vm, h1, h2⟩ := Demo.tracing_state (may := fun k _ => k ≠ .cont) (lines := [(10, "FOR I=1 TO 3"), (20, "NEXT")]) (n := 5)
    (P := fun vm => decide (vm.st.psym.length ≤ 65536) && Demo.nextIs (.sourceLine 1) vm && vm.traceBasic) (by decide +kernel)
  simp only [Bool.and_eq_true, decide_eq_true_eq] at h2
  exact ⟨vm, h1, h2.1.1, Demo.at_of_nextIs h2.1.2, h2.2⟩

end LB
