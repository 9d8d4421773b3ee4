import Verif.Proofs.SameRun
import Verif.Proofs.DemoState
/-
C34: RUN does not depend on what happened before.
-/
namespace LB
open LB.Spec _root_.Spec

/-- C34.  Take any two sessions with the same stored program, started with the same options, in the same surroundings
(the input still to be read, the random numbers, the clock): whatever either of them did before, whether
the program is compiled or not, whatever variables, arrays, functions, open loops, pending returns and subroutines, DATA
position, cursor position and stopped program they were left with, RUN ends in the same way in both (normally, with the
same error, interrupted, or by halting the interpreter in the same way), prints the same and has the same effects outside.
Missing: RENUM must not have been used (see `C38_violated`), the buffer of the last input line must be the same in both
(see `C34_violated`), and one of them has at most 65536 names. -/
theorem C34_partial {may : Cmd → VM → Prop} (hm : ∀ vm, ¬ may .renum vm) {a b : VM} (ha : State may .idle a) (hb : State may .idle b)
    (hs : a.stored.source = b.stored.source) (hk : a.keywordsAnywhere = b.keywordsAnywhere) (h1 : a.traceBasic = b.traceBasic)
    (h2 : a.traceFor = b.traceFor) (hw : a.world.stdin = b.world.stdin ∧ a.world.rng = b.world.rng ∧ a.world.ticks = b.world.ticks) (hi : a.input = b.input)
    (hn : ∀ vm', ensureProgramCompiled (vmClearValues a) = .ok (true, vm') → vm'.st.psym.length ≤ 65536)
    (env : Env) (brk : Nat → Bool) (n : Nat) :
    (∃ e a' b', runProgram env brk n (vmClearValues a) = .ok (e, a') ∧ runProgram env brk n (vmClearValues b) = .ok (e, b') ∧
      Alike a.world b.world a'.world b'.world) ∨
    ∃ x, runProgram env brk n (vmClearValues a) = .halt x ∧ runProgram env brk n (vmClearValues b) = .halt x :=
  same_run hm ha hb hs hk h1 h2 hw hi hn env brk n

/-- What a run of a program with some input and an interrupt leaves behind. -/
def Demo.left (lines : List (Nat × String)) (stdin : String) (brk : Nat → Bool) : Option VM :=
  match Demo.entered lines (some (newVm false false false { stdin := stdin.toList })) with
  | none => none
  | some vm =>
    match runProgram Demo.env brk 100 vm with
    | .ok (_, vm') => some { vm' with world := {} }
    | .halt _ => none

theorem Demo.left_state {may : Cmd → VM → Prop} {lines : List (Nat × String)} {stdin : String} {brk : Nat → Bool} {vm : VM}
    (h : Demo.left lines stdin brk = some vm) : State may .idle vm := by
  unfold Demo.left at h
  split at h
  · cases h
  · rename_i he
    split at h
    · rename_i hr
      cases h
      exact .world _ (state_runProgram (Demo.entered_state (.start ..) he) hr)
    · cases h

theorem Demo.left_with {may : Cmd → VM → Prop} {lines : List (Nat × String)} {stdin : String} {brk : Nat → Bool} {P : VM → Bool}
    (h : (Demo.left lines stdin brk).any P = true) : ∃ vm, State may .idle vm ∧ P vm = true := by
  cases hl : Demo.left lines stdin brk with
  | none => rw [hl] at h; cases h
  | some vm => rw [hl] at h; exact ⟨vm, Demo.left_state hl, h⟩

/-- Two machines reached by commands other than RENUM, if they are as tested. -/
theorem Demo.both {lines : List (Nat × String)} {stdin : String} {brk : Nat → Bool} {P : VM → VM → Bool}
    (h : (match Demo.left lines stdin brk, Demo.entered lines (some (newVm false false false {})) with
      | some a, some b => P a b
      | _, _ => false) = true) :
    ∃ a b, State (fun k _ => k ≠ .renum) .idle a ∧ State (fun k _ => k ≠ .renum) .idle b ∧ P a b = true := by
  split at h
  · rename_i a b ha hb
    exact ⟨a, b, Demo.left_state ha, Demo.entered_state (.start ..) hb, h⟩
  · cases h

-- One machine stopped inside a loop in a subroutine with a variable set, DATA read and a function defined; the other is
-- not even compiled.
set_option maxRecDepth 100000 in
example : ∃ a b : VM, State (fun k _ => k ≠ .renum) .idle a ∧ State (fun k _ => k ≠ .renum) .idle b ∧
    (a.stored.source == b.stored.source && a.keywordsAnywhere == b.keywordsAnywhere && a.traceBasic == b.traceBasic &&
      a.traceFor == b.traceFor && decide (a.world = b.world) && a.input == b.input &&
      (match ensureProgramCompiled (vmClearValues a) with
        | .ok (true, vm') => decide (vm'.st.psym.length ≤ 65536)
        | _ => false) &&
      a.forStack.length == 1 && a.retstack.length == 1 && a.programData != 0 && a.stopped && b.stored.bcode.isNone) = true :=
  Demo.both (lines := [(10, "DEF FNA(X)=X+1"), (20, "READ B"), (30, "GOSUB 50"), (40, "DATA 7"), (50, "FOR I=1 TO 3"), (60, "STOP")])
    (stdin := "") (brk := fun _ => false) (by decide +kernel)

/-- What the run of the program printed. -/
def Demo.printed (vm : VM) : Option CStr :=
  match runProgram Demo.env (fun _ => false) 100 (vmClearValues vm) with
  | .ok (_, vm') => some vm'.world.out
  | _ => none

set_option maxRecDepth 100000 in
/-- C34 does not hold of the line last read by INPUT: at the end of the input, INPUT finds what the line was before, so
the same program in the same surroundings prints what an earlier run was given. -/
theorem C34_violated : ∃ a b : VM, State (fun k _ => k ≠ .renum) .idle a ∧ State (fun k _ => k ≠ .renum) .idle b ∧
    (a.stored.source == b.stored.source && a.keywordsAnywhere == b.keywordsAnywhere && a.traceBasic == b.traceBasic &&
      a.traceFor == b.traceFor && decide (a.world = b.world) && a.world.stdin.isEmpty &&
      Demo.printed a == some "? X\n".toList && Demo.printed b == some "? \n".toList) = true :=
  Demo.both (lines := [(10, "INPUT A$"), (20, "PRINT A$")]) (stdin := "X\n") (brk := fun _ => false) (by decide +kernel)

end LB
