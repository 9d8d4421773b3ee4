import Verif.Proofs.Loops
import Verif.Proofs.Demo
/- C17, C18: FOR and NEXT. -/
namespace LB
open Spec

/-- A machine inside `FOR I = 1 TO 5 STEP 2`, about to execute what the parameter says. -/
private def demo (i : Inst) (fs : List ForLoop) : VM :=
  { Demo.machine [.for_ 0, i] [Demo.numSym "I" 0 (.fin 3), Demo.numSym "J" 1 (.fin 7)] with
    cs := ⟨some .stored, 0, 1⟩, forStack := fs, stack := [.fin 2, .fin 5, .fin 1, .fin 9] }

private def loopI : ForLoop := ⟨⟨some .stored, 0, 0⟩, 0, .fin 2, .fin 5⟩
private def loopJ : ForLoop := ⟨⟨some .stored, 0, 0⟩, 1, .fin 1, .fin 9⟩

/-- C17.  FOR gives its variable the start value, opens the loop as the innermost one in place of any
earlier loop of that variable, and goes on with the body whatever the limit is.  Nothing else changes. -/
theorem C17_for (env : Env) (vm : VM) (id : Nat) (step limit x : Dbl) (rest : List Dbl)
    (hat : At vm (.for_ id)) (hv : NumVar vm.st id) (hone : OnePerVariable vm.forStack)
    (hroom : vm.forStack.length < 8 ∨ ∃ f ∈ vm.forStack, f.symbolId = id)
    (htr : vm.traceFor = false) (hs : vm.stack = step :: limit :: x :: rest) :
    ∃ st', V.execute env vm = .ok () { vm with
        st := st'
        stack := rest
        forStack := loopsBut id vm.forStack ++ [⟨vm.cs, id, step, limit⟩]
        cs := following vm.cs } ∧
      num st' id = x ∧ SameBut id vm.st st' ∧ NumVar st' id := by
  refine ⟨symUpdate vm.st id (fun s => { s with num := x, defined := true }), ?_, ?_, symUpdate_sameBut _ _ _, ?_⟩
  · rw [V.execute_at env hat]
    simp only [V.exec, V.brk_apply, V.for_ok hv hone hroom htr hs]
  · obtain ⟨s, h1, _⟩ := hv
    simp [num, symUpdate_same h1]
  · obtain ⟨s, h1, h2, h3⟩ := hv
    exact ⟨_, symUpdate_same h1, h2, h3⟩

example : At (demo (.for_ 0) [loopI, loopJ]) (.for_ 0) ∧ NumVar (demo (.for_ 0) [loopI, loopJ]).st 0 ∧
    OnePerVariable (demo (.for_ 0) [loopI, loopJ]).forStack ∧
    (∃ f ∈ (demo (.for_ 0) [loopI, loopJ]).forStack, f.symbolId = 0) ∧
    (demo (.for_ 0) [loopI, loopJ]).stack = .fin 2 :: .fin 5 :: .fin 1 :: [.fin 9] :=
  ⟨⟨.stored, _, rfl, rfl, rfl⟩, ⟨_, rfl, rfl, rfl⟩, by unfold OnePerVariable; decide, ⟨loopI, by decide, rfl⟩, rfl⟩

/-- C17.  NEXT when the variable plus the step has passed the limit: the loop is closed, the variable
keeps its value and the program goes on after the NEXT. -/
theorem C17_next_exit (env : Env) (vm : VM) (i : Inst) (f : ForLoop) (s : Symbol)
    (hat : At vm i) (hf : NextOf i vm.forStack f) (hone : OnePerVariable vm.forStack)
    (hs : vm.st.psym[f.symbolId]? = some s) (hd : s.defined = true) (htr : vm.traceFor = false)
    (hb : Beyond f.step f.limit (Dbl.add (num vm.st f.symbolId) f.step)) :
    V.execute env vm = .ok () { vm with
      forStack := loopsBut f.symbolId vm.forStack
      cs := following vm.cs } := by
  have hx : num vm.st f.symbolId = s.num := by simp [num, hs, hd]
  rw [hx, ← V.pastLimit_iff] at hb
  obtain ⟨j, hj, he⟩ := V.next_select env hf hone htr
  rw [V.execute_at env hat, he]
  simp only [V.brk_apply, V.nextAt_ok hj hs htr, hb, if_true, V.eraseIdx_eq_filter hone hj]

example : At (demo .nextImp [loopI, loopJ]) .nextImp ∧ NextOf .nextImp (demo .nextImp [loopJ, loopI]).forStack loopI ∧
    ¬ Beyond loopI.step loopI.limit (Dbl.add (num (demo .nextImp [loopI]).st 0) loopI.step) ∧
    Beyond loopJ.step (.fin 7) (Dbl.add (num (demo .nextImp [loopI]).st 1) loopJ.step) :=
  ⟨⟨.stored, _, rfl, rfl, rfl⟩, .implicit rfl, by unfold Beyond; decide +kernel, by unfold Beyond; decide +kernel⟩

/-- C17.  NEXT when the variable plus the step has not passed the limit: the variable gets that value and
the program goes on after the FOR.  Nothing else changes. -/
theorem C17_next_again (env : Env) (vm : VM) (i : Inst) (f : ForLoop) (s : Symbol)
    (hat : At vm i) (hf : NextOf i vm.forStack f) (hone : OnePerVariable vm.forStack)
    (hs : vm.st.psym[f.symbolId]? = some s) (hd : s.defined = true) (htr : vm.traceFor = false)
    (hb : ¬ Beyond f.step f.limit (Dbl.add (num vm.st f.symbolId) f.step)) :
    ∃ st', V.execute env vm = .ok () { vm with st := st', cs := following f.codeState } ∧
      num st' f.symbolId = Dbl.add (num vm.st f.symbolId) f.step ∧ SameBut f.symbolId vm.st st' := by
  have hx : num vm.st f.symbolId = s.num := by simp [num, hs, hd]
  rw [hx, ← V.pastLimit_iff] at hb
  rw [hx]
  obtain ⟨j, hj, he⟩ := V.next_select env hf hone htr
  refine ⟨symUpdate vm.st f.symbolId (fun s' => { s' with num := Dbl.add s.num f.step }), ?_, ?_,
    symUpdate_sameBut _ _ _⟩
  · rw [V.execute_at env hat, he]
    simp only [V.brk_apply, V.nextAt_ok hj hs htr, if_neg hb]
  · simp [num, symUpdate_same hs, hd]

example : At (demo (.nextVar 0) [loopI, loopJ]) (.nextVar 0) ∧
    NextOf (.nextVar 0) (demo (.nextVar 0) [loopI, loopJ]).forStack loopI :=
  ⟨⟨.stored, _, rfl, rfl, rfl⟩, .named (f := loopI) (by decide)⟩

/-- C17.  Counting loops.  `vm k` is the machine at the start of the `k`-th pass through the body (from 0),
`w k` the machine at the NEXT that ends this pass; the body may do anything that keeps the loop open and
leaves its variable alone.  Then the variable is `a + k * s` in the `k`-th pass, the program goes back to
the body after each pass but the last, and the number of passes is `passes a b s`: one, plus one for each
further value up to the limit.  After the last pass the variable keeps its last value. -/
theorem C17_iterations (env : Env) (id : Nat) (start : CodeState) (a b s : Int) (vm w : Nat → VM)
    (next : Nat → Inst) (hs0 : s ≠ 0)
    (ha : a.natAbs ≤ 2 ^ 52) (hb : b.natAbs ≤ 2 ^ 52) (hs : s.natAbs ≤ 2 ^ 52)
    (h0 : num (vm 0).st id = .fin a)
    (hbody : ∀ k, k < passes a b s →
      At (w k) (next k) ∧ NextOf (next k) (w k).forStack ⟨start, id, .fin s, .fin b⟩ ∧
      OnePerVariable (w k).forStack ∧ (w k).traceFor = false ∧ num (w k).st id = num (vm k).st id ∧
      (∃ y, (w k).st.psym[id]? = some y ∧ y.defined = true) ∧
      V.execute env (w k) = .ok () (vm (k + 1))) :
    ∀ k, k < passes a b s →
      num (w k).st id = .fin (a + k * s : Int) ∧
      (k + 1 < passes a b s → (vm (k + 1)).cs = following start ∧ (vm (k + 1)).forStack = (w k).forStack) ∧
      (k + 1 = passes a b s → (vm (k + 1)).cs = following (w k).cs ∧ num (vm (k + 1)).st id = .fin (a + k * s : Int) ∧
        (vm (k + 1)).forStack = loopsBut id (w k).forStack) := by
  intro k hk
  have key : num (vm k).st id = .fin (a + k * s : Int) := by
    induction k with
    | zero => simpa using h0
    | succ k ih =>
      have ihk := ih (by omega)
      obtain ⟨hat, hn, hone, htr, hnum, ⟨y, hy, hd⟩, hex⟩ := hbody k (by omega)
      have hadd : Dbl.add (num (w k).st id) (.fin s) = .fin (a + (k + 1 : Nat) * s : Int) := by
        rw [hnum, ihk]; exact Loops.add_next ha hb hs0 hs (by omega)
      have hnb : ¬ Beyond (.fin s) (.fin b) (Dbl.add (num (w k).st id) (.fin s)) := by
        rw [hadd, Loops.beyond_int]; exact (Loops.passes_lt hs0 (by omega)).1 hk
      obtain ⟨st', h1, h2, h3⟩ := C17_next_again env (w k) (next k) ⟨start, id, .fin s, .fin b⟩ y hat hn hone hy hd htr hnb
      rw [h1] at hex
      simp only [Res.ok.injEq, true_and] at hex
      rw [← hex]
      simp only at h2 ⊢
      rw [h2, hadd]
  obtain ⟨hat, hn, hone, htr, hnum, ⟨y, hy, hd⟩, hex⟩ := hbody k hk
  have hadd : Dbl.add (num (w k).st id) (.fin s) = .fin (a + (k + 1 : Nat) * s : Int) := by
    rw [hnum, key]; exact Loops.add_next ha hb hs0 hs hk
  refine ⟨hnum.trans key, ?_, ?_⟩
  · intro hlt
    have hnb : ¬ Beyond (.fin s) (.fin b) (Dbl.add (num (w k).st id) (.fin s)) := by
      rw [hadd, Loops.beyond_int]; exact (Loops.passes_lt hs0 hk).1 hlt
    obtain ⟨st', h1, h2, h3⟩ := C17_next_again env (w k) (next k) ⟨start, id, .fin s, .fin b⟩ y hat hn hone hy hd htr hnb
    rw [h1] at hex
    simp only [Res.ok.injEq, true_and] at hex
    rw [← hex]
    exact ⟨rfl, rfl⟩
  · intro heq
    have hnb : Beyond (.fin s) (.fin b) (Dbl.add (num (w k).st id) (.fin s)) := by
      rw [hadd, Loops.beyond_int]
      apply Decidable.byContradiction
      intro hh
      have := (Loops.passes_lt hs0 hk).2 hh
      omega
    have h1 := C17_next_exit env (w k) (next k) ⟨start, id, .fin s, .fin b⟩ y hat hn hone hy hd htr hnb
    rw [h1] at hex
    simp only [Res.ok.injEq, true_and] at hex
    rw [← hex]
    exact ⟨rfl, hnum.trans key, rfl⟩

example : passes 1 10 3 = 4 ∧ passes 5 1 1 = 1 ∧ passes 5 1 (-1) = 5 ∧ passes 1 5 (-1) = 1 := by decide

set_option maxRecDepth 100000 in
/-- The conclusion of `C17_iterations` on a typed program, with the body's own effects. -/
example : Demo.shows "10 FOR I=1 TO 10 STEP 3\n20 PRINT I;\n30 NEXT\n40 PRINT I\nRUN\n"
    = .ok "> > > > >  1  4  7  10  10 \n".toList := by decide +kernel

set_option maxRecDepth 100000 in
/-- C17.  What the theorems above do not cover: CLEAR inside a loop.  NEXT goes on counting (three passes
here), but the variable shows 0 afterwards, because NEXT does not mark it as having a value. -/
theorem C17_clear_in_loop :
    Demo.shows "10 FOR I=1 TO 2\n20 CLEAR\n30 PRINT \"*\";\n40 NEXT\n50 PRINT I\nRUN\n"
      = .ok "> > > > > > *** 0 \n".toList := by decide +kernel

/-- C18.  At every moment of every session at most eight loops are open and no variable controls two
of them. -/
theorem C18_open_loops (vm : VM) (h : Moment vm) : vm.forStack.length ≤ 8 ∧ OnePerVariable vm.forStack :=
  ⟨(V.moment_bounds h).2.2.2.1, (V.moment_bounds h).2.2.2.2⟩

/-- C18.  The machines of a session between two typed lines are among these moments. -/
theorem C18_session_moment (s : LB.Session) (h : Spec.Session s) : Moment s.vm := session_moment h

/-- C18.  A ninth loop is refused with an error.  Only the list of open loops is written out; all the open
loops, the variables and the rest of the machine stay as they are. -/
theorem C18_ninth_loop (env : Env) (vm : VM) (id : Nat)
    (hat : At vm (.for_ id)) (hv : NumVar vm.st id) (htr : vm.traceFor = false)
    (hfull : vm.forStack.length = 8) (hnew : ∀ f ∈ vm.forStack, f.symbolId ≠ id)
    (hsym : ∀ f ∈ vm.forStack, ∃ s, vm.st.psym[f.symbolId]? = some s) :
    ∃ text, V.execute env vm = .err .forTooDeep
      { vm with world := { vm.world with out := vm.world.out ++ text } } := by
  obtain ⟨s, h1, h2, h3⟩ := hv
  have hvar : V.isVar s .num = true := by simp [V.isVar, h2, h3]
  have hne : vm.forStack.isEmpty = false := by
    cases h : vm.forStack with
    | nil => rw [h] at hfull; simp at hfull
    | cons => rfl
  obtain ⟨body, hb⟩ := V.dumpEntries_ok (fs := vm.forStack.reverse) (vm := vm) (by simpa using hsym)
  refine ⟨"-- ".toList ++ "overflow".toList ++ ": ".toList ++ body ++ ['\n'], ?_⟩
  rw [V.execute_at env hat]
  have hlen : vm.forStack.length ≥ maxFor := by simp [maxFor]; omega
  simp only [V.exec, V.brk_apply, V.forStatement, V.bind_apply, V.traced_apply, htr, Bool.false_eq_true, if_false,
    V.sym_ok h1, V.assert_apply, hvar, if_true, V.forTop, V.forEntry, V.get_apply, V.findFor_none hnew,
    V.ite_apply, if_pos hlen, V.dumpForStack, hne, hb, V.out, V.modify_apply, V.fail_apply]

private def eight : List ForLoop := (List.range 8).map (fun i => ⟨⟨some .stored, 0, 0⟩, i + 1, .fin 1, .fin 9⟩)
private def full : VM :=
  { Demo.machine [.for_ 0] ((List.range 9).map (fun i => Demo.numSym "A" i (.fin 0))) with forStack := eight }

example : At full (.for_ 0) ∧ NumVar full.st 0 ∧ full.forStack.length = 8 ∧
    (∀ f ∈ full.forStack, f.symbolId ≠ 0) ∧ ∀ f ∈ full.forStack, ∃ s, full.st.psym[f.symbolId]? = some s := by
  refine ⟨⟨.stored, _, rfl, rfl, rfl⟩, ⟨_, rfl, rfl, rfl⟩, rfl, by decide, ?_⟩
  have h : ∀ f ∈ full.forStack, (full.st.psym[f.symbolId]?).isSome = true := by decide
  intro f hf
  exact Option.isSome_iff_exists.1 (h f hf)

/-- C18.  NEXT when no loop is open, and NEXT of a variable that controls no open loop, stop with an error
and change nothing. -/
theorem C18_next_without_for (env : Env) (vm : VM) (htr : vm.traceFor = false) :
    (At vm .nextImp → vm.forStack = [] → V.execute env vm = .err .nextWithoutFor vm) ∧
    (∀ id, At vm (.nextVar id) → vm.forStack = [] → V.execute env vm = .err .nextWithoutFor vm) ∧
    (∀ id, At vm (.nextVar id) → vm.forStack ≠ [] → (∀ f ∈ vm.forStack, f.symbolId ≠ id) →
      V.execute env vm = .err .nextWithoutForVar vm) := by
  refine ⟨?_, ?_, ?_⟩
  · intro hat h
    rw [V.execute_at env hat]
    simp [V.exec, V.nextImplicit, htr, h]
  · intro id hat h
    rw [V.execute_at env hat]
    simp [V.exec, V.nextVariable, htr, h]
  · intro id hat h hne
    rw [V.execute_at env hat]
    cases hl : vm.forStack.getLast? with
    | none => rw [List.getLast?_eq_none_iff] at hl; exact absurd hl h
    | some g =>
      have : g.symbolId ≠ id := hne g (List.mem_of_getLast? hl)
      simp [V.exec, V.nextVariable, htr, hl, this, V.findFor_none hne]

example : At (demo (.nextVar 1) [loopI]) (.nextVar 1) ∧ ∀ f ∈ (demo (.nextVar 1) [loopI]).forStack, f.symbolId ≠ 1 :=
  ⟨⟨.stored, _, rfl, rfl, rfl⟩, by decide⟩

end LB
