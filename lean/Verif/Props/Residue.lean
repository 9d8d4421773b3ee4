import Verif.Proofs.OverRun
import Verif.Props.Fresh
/-
C43: what a run-time error leaves behind for the statements typed after it.
-/
namespace LB
open LB.Spec _root_.Spec

/-- C43.  Whatever happened before, a statement typed at the prompt does the same as if the evaluation stacks were empty:
it ends in the same way and leaves everything the same but these stacks, or halts the interpreter in the same way.
Missing: it may also report that an evaluation stack is full (see `C43_violated`); there are at most 65536 names; CONT was
not used after an interrupt within a statement in a way that C35 excludes. -/
theorem C43_partial {may : Cmd → VM → Prop} (hm : ∀ vm, may .cont vm → StoppedBetween vm) {vm : VM} (h : State may .idle vm) {line : CStr}
    (hl : line.length < cmdSize) (hn : FewNames vm line) (env : Env) (brk : Nat → Bool) (n : Nat) :
    (∃ x, runImmediate env brk n (emptied vm) line = .halt x ∧ runImmediate env brk n vm line = .halt x) ∨
    (∃ e a b, runImmediate env brk n (emptied vm) line = .ok (e, a) ∧ runImmediate env brk n vm line = .ok (e, b) ∧ emptied a = emptied b) ∨
    ∃ e b, runImmediate env brk n vm line = .ok (e, b) ∧ StackFull e :=
  typed_over hm h hl hn env brk n

theorem statements_emptied {env : Env} {brk : Nat → Bool} {n : Nat} {lines : List CStr} {a b : VM} (h : emptied a = emptied b) :
    (∃ x, statements emptied env brk n lines a = .halt x ∧ statements emptied env brk n lines b = .halt x) ∨
    ∃ es a' b', statements emptied env brk n lines a = .ok (es, a') ∧ statements emptied env brk n lines b = .ok (es, b') ∧ emptied a' = emptied b' := by
  cases lines with
  | nil => exact .inr ⟨[], a, b, rfl, rfl, h⟩
  | cons l ls =>
    have : statements emptied env brk n (l :: ls) a = statements emptied env brk n (l :: ls) b := by simp only [statements, h]
    rw [this]
    cases statements emptied env brk n (l :: ls) b with
    | halt x => exact .inl ⟨x, rfl, rfl⟩
    | ok r => exact .inr ⟨r.1, r.2, r.2, rfl, rfl, rfl⟩

/-- C43 for any number of statements typed one after the other: they do the same as if the evaluation stacks were emptied
before each, unless one of them reports that an evaluation stack is full.  Missing as in `C43_partial`. -/
theorem C43_statements_partial {may : Cmd → VM → Prop} (hm : ∀ vm, may .cont vm → StoppedBetween vm) {vm : VM} (h : State may .idle vm)
    {lines : List CStr} (hl : ∀ line ∈ lines, line.length < cmdSize) (env : Env) (brk : Nat → Bool) (n : Nat)
    (hn : ∀ k es vm', statements (fun v => v) env brk n (lines.take k) vm = .ok (es, vm') → ∀ line, lines[k]? = some line → FewNames vm' line) :
    (∃ x, statements emptied env brk n lines vm = .halt x ∧ statements (fun v => v) env brk n lines vm = .halt x) ∨
    (∃ es a b, statements emptied env brk n lines vm = .ok (es, a) ∧ statements (fun v => v) env brk n lines vm = .ok (es, b) ∧ emptied a = emptied b) ∨
    ∃ k es b e, statements (fun v => v) env brk n (lines.take k) vm = .ok (es, b) ∧ e ∈ es ∧ StackFull e := by
  induction lines generalizing vm with
  | nil => exact .inr (.inl ⟨[], vm, vm, rfl, rfl, rfl⟩)
  | cons l ls ih =>
    rcases C43_partial hm h (hl l List.mem_cons_self) (hn 0 [] vm rfl l rfl) env brk n with ⟨x, h1, h2⟩ | ⟨e, a, b, h1, h2, h3⟩ | ⟨e, b, h1, h2⟩
    · exact .inl ⟨x, by simp only [statements, h1], by simp only [statements, h2]⟩
    · have hb : State may .idle b := state_runImmediate (hl l List.mem_cons_self) h h2
      have hn' : ∀ k es vm', statements (fun v => v) env brk n (ls.take k) b = .ok (es, vm') → ∀ line, ls[k]? = some line → FewNames vm' line := by
        intro k es vm' hs line hk
        refine hn (k + 1) (e :: es) vm' ?_ line (by simpa using hk)
        simp only [List.take_succ_cons, statements, h2, hs]
      simp only [statements, h1, h2]
      rcases ih hb (fun line hx => hl line (List.mem_cons_of_mem _ hx)) hn' with ⟨x, k1, k2⟩ | ⟨es, a', b', k1, k2, k3⟩ | ⟨k, es, b', e', k1, k2, k3⟩
      · rcases statements_emptied (env := env) (brk := brk) (n := n) (lines := ls) h3 with ⟨y, j1, j2⟩ | ⟨es', a2, b2, j1, j2, j3⟩
        · rw [j2] at k1; cases k1
          exact .inl ⟨x, by rw [j1], by rw [k2]⟩
        · rw [j2] at k1; cases k1
      · rcases statements_emptied (env := env) (brk := brk) (n := n) (lines := ls) h3 with ⟨y, j1, j2⟩ | ⟨es', a2, b2, j1, j2, j3⟩
        · rw [j2] at k1; cases k1
        · rw [j2] at k1; cases k1
          exact .inr (.inl ⟨e :: es, a2, b', by rw [j1], by rw [k2], j3.trans k3⟩)
      · exact .inr (.inr ⟨k + 1, e :: es, b', e', by simp only [List.take_succ_cons, statements, h2, k1], List.mem_cons_of_mem _ k2, k3⟩)
    · exact .inr (.inr ⟨1, [e], b, e, by simp only [List.take_succ_cons, List.take_zero, statements, h1], List.mem_singleton_self _, h2⟩)

/-- The compiled statement leaves few names, as a computation. -/
def Demo.fewNames (vm : VM) (line : CStr) : Bool :=
  match ensureProgramCompiled { vm with immediate := {} } with
  | .ok (true, vm') => match parseSource (wrapSourceText line) vm'.st false with
    | .ok (_, st) => decide (st.psym.length ≤ 65536)
    | _ => false
  | _ => false

theorem Demo.fewNames_spec {vm : VM} {line : CStr} (h : Demo.fewNames vm line = true) : FewNames vm line := by
  intro vm' st bc h1 h2
  simp only [Demo.fewNames, h1, h2, decide_eq_true_eq] at h
  exact h

set_option maxRecDepth 100000 in
/-- An error inside an expression has left values on both stacks; a function, a variable and an open loop are there. -/
example : ∃ vm, State (fun k _ => k ≠ .cont) .idle vm ∧ vm.stack.length = 1 ∧ vm.strstack.length = 2 ∧ vm.forStack.length = 1 ∧
    FewNames vm "PRINT FNA(2)+B".toList ∧ "PRINT FNA(2)+B".toList.length < cmdSize ∧
    ∃ b, runImmediate Demo.env (fun _ => false) 100 vm "PRINT FNA(2)+B".toList = .ok (some ⟨none, false⟩, b) := by
  obtain ⟨vm, h1, h2⟩ := Demo.left_with (may := fun k _ => k ≠ .cont)
    (lines := [(10, "DEF FNA(X)=X*2"), (20, "B=5"), (30, "FOR I=1 TO 2"), (40, "PRINT \"A\"+LEFT$(\"B\",1+LOG(0))")]) (stdin := "") (brk := fun _ => false)
    (P := fun w => w.stack.length == 1 && w.strstack.length == 2 && w.forStack.length == 1 && Demo.fewNames w "PRINT FNA(2)+B".toList &&
      match runImmediate Demo.env (fun _ => false) 100 w "PRINT FNA(2)+B".toList with
        | .ok (e, _) => e == some ⟨none, false⟩
        | .halt _ => false) (by decide +kernel)
  simp only [Bool.and_eq_true, beq_iff_eq] at h2
  obtain ⟨⟨⟨⟨k1, k2⟩, k3⟩, k4⟩, k5⟩ := h2
  refine ⟨vm, h1, k1, k2, k3, Demo.fewNames_spec k4, by decide, ?_⟩
  split at k5
  · rename_i e b hb
    simp only [beq_iff_eq] at k5
    exact ⟨b, by rw [hb, k5]⟩
  · cases k5

/-- How the last of some statements ended, and what was printed. -/
def Demo.last (before : VM → VM) (lines : List CStr) (vm : VM) : Option (Option RunEnd × CStr) :=
  match statements before Demo.env (fun _ => false) 100 lines vm with
  | .ok (es, b) => es.getLast?.map (fun e => (e, b.world.out))
  | .halt _ => none

set_option maxRecDepth 100000 in
/-- C43 does not hold without this exception: sixteen erroneous statements fill the stack of numbers, and every later
statement that needs it fails. -/
theorem C43_violated : ∃ vm, State (fun k _ => k ≠ .cont) .idle vm ∧
    Demo.last (fun v => v) (List.replicate 16 "PRINT 1+LOG(0)".toList ++ ["PRINT 1".toList]) vm = some (some ⟨some .numOverflow, false⟩, []) ∧
    Demo.last emptied (List.replicate 16 "PRINT 1+LOG(0)".toList ++ ["PRINT 1".toList]) vm = some (some ⟨none, false⟩, " 1 \n".toList) :=
  ⟨newVm false false false {}, .start .., by decide +kernel, by decide +kernel⟩

/-- Every statement leaves few names, as a computation. -/
def Demo.fewAll : List CStr → VM → Bool
  | [], _ => true
  | line :: lines, vm => Demo.fewNames vm line &&
    match runImmediate Demo.env (fun _ => false) 100 vm line with
    | .ok (_, vm') => Demo.fewAll lines vm'
    | .halt _ => false

theorem Demo.fewAll_spec {lines : List CStr} {vm : VM} (h : Demo.fewAll lines vm = true) (k : Nat) (es : List (Option RunEnd)) (vm' : VM)
    (hs : statements (fun v => v) Demo.env (fun _ => false) 100 (lines.take k) vm = .ok (es, vm')) (line : CStr) (hk : lines[k]? = some line) :
    FewNames vm' line := by
  induction lines generalizing k es vm with
  | nil => cases hk
  | cons l ls ih =>
    simp only [Demo.fewAll, Bool.and_eq_true] at h
    cases k with
    | zero =>
      simp only [List.take_zero, statements] at hs
      cases hs
      simp only [List.getElem?_cons_zero] at hk
      cases hk
      exact Demo.fewNames_spec h.1
    | succ k =>
      simp only [List.take_succ_cons, statements] at hs
      cases hr : runImmediate Demo.env (fun _ => false) 100 vm l with
      | halt x => rw [hr] at hs; cases hs
      | ok r =>
        obtain ⟨e, w⟩ := r
        rw [hr] at hs h
        simp only at hs h
        cases hq : statements (fun v => v) Demo.env (fun _ => false) 100 (ls.take k) w with
        | halt x => rw [hq] at hs; cases hs
        | ok q =>
          obtain ⟨q1, q2⟩ := q
          rw [hq] at hs
          cases hs
          exact ih h.2 k q1 hq (by simpa using hk)

set_option maxRecDepth 100000 in
/-- Statements with errors and without. -/
example : ∃ vm, State (fun k _ => k ≠ .cont) .idle vm ∧
    (∀ line ∈ ["A=1".toList, "PRINT A+LOG(0)".toList, "PRINT A+1".toList], line.length < cmdSize) ∧
    (∀ k es vm', statements (fun v => v) Demo.env (fun _ => false) 100 (["A=1".toList, "PRINT A+LOG(0)".toList, "PRINT A+1".toList].take k) vm = .ok (es, vm') →
      ∀ line, ["A=1".toList, "PRINT A+LOG(0)".toList, "PRINT A+1".toList][k]? = some line → FewNames vm' line) ∧
    Demo.last (fun v => v) ["A=1".toList, "PRINT A+LOG(0)".toList, "PRINT A+1".toList] vm = some (some ⟨none, false⟩, " 2 \n".toList) :=
  ⟨newVm false false false {}, .start .., by decide, Demo.fewAll_spec (by decide +kernel), by decide +kernel⟩

end LB
