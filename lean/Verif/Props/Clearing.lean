import Verif.Proofs.Clearing
import Verif.Proofs.DemoState
import Verif.Props.Monitor
import Verif.Props.Commands
/-
C44: CLEAR, RUN and NEW forget values.
C15: DIM, and arrays used without DIM.
-/
namespace LB
open LB.Spec _root_.Spec

/-- C44.  CLEAR succeeds, wherever it stands and whatever was done before: afterwards nothing has a value, all names keep
their meaning, and nothing else has changed. -/
theorem C44_clear {may : Cmd → VM → Prop} {ph : Phase} {vm : VM} (h : State may ph vm) (hat : At vm .clear) (env : Env) :
    ∃ st', V.execute env vm = .ok () { vm with st := st', cs := following vm.cs } ∧ Unused st' ∧ SameNames vm.st st' := by
  refine ⟨clearSymbolTableValues vm.st, ?_, unused_clear (state_held h).syms, sameNames_clear vm.st⟩
  rw [V.execute_at env hat]
  simp only [V.exec, V.brk_apply, V.modify_apply]

set_option maxRecDepth 100000 in
/-- CLEAR with a number, a string, both kinds of arrays and a function. -/
example : ∃ vm, State (fun _ _ => True) .program vm ∧ (Demo.nextIs .clear vm &&
    (vm.st.psym.filter (fun s => s.defined && s.kind != .builtin)).length == 5) = true :=
  Demo.state (lines := [(10, "A=1"), (20, "B$=\"X\""), (30, "C(2)=3"), (40, "D$(2,3)=B$"), (50, "DEF FNE(X)=X+1"), (60, "CLEAR")]) (n := 18)
    (by decide +kernel)

/-- C44.  When nothing has a value, every scalar reads 0 or the empty string. -/
theorem C44_scalars {st : SymTab} (h : Unused st) (j : Nat) (hj : Scalar st j) :
    num st j = .fin 0 ∧ str st j = [] ∧ (value st j = some (.num (.fin 0)) ∨ value st j = some (.str []) ∨ value st j = none) := by
  obtain ⟨s, hs, hk⟩ := hj
  obtain ⟨h1, h2, -⟩ := h j s hs (by rw [hk]; simp)
  have hn : num st j = .fin 0 := by simp [num, hs, h1]
  have ht : str st j = [] := by simp [str, hs, h1]
  refine ⟨hn, ht, ?_⟩
  simp only [value, hs, hn, ht]
  split <;> simp

example : Unused { newSymbolTable with psym := [{ name := "A".toList, id := 0, kind := .variable, type := .num, defined := false, num := .fin 3 }] } := by
  intro j s hs _
  cases j with
  | zero => cases hs; exact ⟨rfl, rfl, rfl, rfl, rfl⟩
  | succ j => cases hs

/-- C44.  When nothing has a value, every array is undimensioned. -/
theorem C44_arrays {st : SymTab} (h : Unused st) (j : Nat) (s : Symbol) (hs : st.psym[j]? = some s) (hk : s.kind = .array) :
    Undimensioned st j s.type := by
  obtain ⟨h1, h2, h3, h4, -⟩ := h j s hs (by rw [hk]; simp)
  exact ⟨s, hs, hk, rfl, h1, h3, h4⟩

/-- C44.  When nothing has a value, calling a user-defined function is refused because it is not defined. -/
theorem C44_functions (env : Env) {vm : VM} (h : Unused vm.st) (id n : Nat) (s : Symbol) (hs : vm.st.psym[id]? = some s)
    (hk : s.kind = .def_) (hat : At vm (.getParenNum id n) ∧ s.type = .num ∨ At vm (.getParenStr id n) ∧ s.type = .str) :
    V.execute env vm = .err .notDefined vm := by
  obtain ⟨h1, -⟩ := h id s hs (by rw [hk]; simp)
  have hsy : V.sym id vm = .ok s vm := V.sym_ok hs
  rcases hat with ⟨hat, ht⟩ | ⟨hat, ht⟩ <;>
  · rw [V.execute_at env hat]
    simp [V.exec, V.getParenNum, V.getParenStr, V.callDef, hsy, ht, hk, h1]

set_option maxRecDepth 100000 in
/-- A function is called after CLEAR. -/
example : ∃ vm, State (fun _ _ => True) .program vm ∧ (Demo.nextIs (.getParenNum 26 1) vm &&
    match V.execute Demo.env vm with
    | .err e _ => e == .notDefined
    | _ => false) = true :=
  Demo.state (lines := [(10, "DEF FNE(X)=X+1"), (20, "CLEAR:PRINT FNE(2)")]) (n := 5) (by decide +kernel)

/-- C44.  RUN starts with nothing having a value, with empty stacks, no pending loops, subroutines and functions, the
DATA of the program unread and the cursor at the left margin: what RUN does is what running from that state does. -/
theorem C44_run {may : Cmd → VM → Prop} {vm vm1 : VM} (h : State may .idle vm) (hs : vm.stored.source ≠ none)
    (hc : ensureProgramCompiled (vmClearValues vm) = .ok (true, vm1)) (env : Env) (brk : Nat → Bool) (n : Nat) :
    ∃ vm0 : VM, Unused vm0.st ∧ vm0.stored = vm1.stored ∧ vm0.world = vm.world ∧
      vm0.cs = { code := some .stored, sourceLine := 0, pc := 0 } ∧ vm0.stack = [] ∧ vm0.strstack = [] ∧ vm0.retstack = [] ∧
      vm0.forStack = [] ∧ vm0.programData = 0 ∧ vm0.col = 1 ∧ vm0.fn.codeState.code = none ∧
      runProgram env brk n (vmClearValues vm) = match run env brk n vm0 with
        | .halt e => .halt e
        | .ok (e, vm') => .ok (some e, vm') := by
  refine ⟨{ resetControlState vm1 with cs := { code := some .stored, sourceLine := 0, pc := 0 } }, ?_, rfl, ?_, rfl, rfl, rfl, rfl, rfl, rfl, rfl, rfl, ?_⟩
  · show Unused vm1.st
    have hh : Unused (vmClearValues vm).st := unused_clear (state_held h).syms
    unfold ensureProgramCompiled at hc
    split at hc
    · split at hc
      · simp at hc
      · split at hc
        · simp at hc
        · simp only [Outcome.ok.injEq, Prod.mk.injEq, Bool.false_eq_true, false_and] at hc
        · rename_i bc st hp
          split at hc
          · simp at hc
          · simp only [Outcome.ok.injEq, Prod.mk.injEq, true_and] at hc
            subst hc
            exact parseSource_all empty_new (allSym_fresh empty_builtin _) hp
    · simp only [Outcome.ok.injEq, Prod.mk.injEq, true_and] at hc
      subst hc
      exact hh
  · show vm1.world = vm.world
    unfold ensureProgramCompiled at hc
    split at hc
    · split at hc
      · simp at hc
      · split at hc
        · simp at hc
        · simp only [Outcome.ok.injEq, Prod.mk.injEq, Bool.false_eq_true, false_and] at hc
        · split at hc
          · simp at hc
          · simp only [Outcome.ok.injEq, Prod.mk.injEq, true_and] at hc
            subst hc
            rfl
    · simp only [Outcome.ok.injEq, Prod.mk.injEq, true_and] at hc
      subst hc
      rfl
  · unfold runProgram
    have : ¬ (vmClearValues vm).stored.source.isNone = true := by
      show ¬ vm.stored.source.isNone = true
      cases hx : vm.stored.source with
      | none => exact absurd hx hs
      | some x => simp
    rw [if_neg this, hc]
    simp only
    cases hr : run env brk n { resetControlState vm1 with cs := { code := some .stored, sourceLine := 0, pc := 0 } } with
    | halt e => rfl
    | ok p => rfl

/-- C44.  The command RUN is this run. -/
theorem C44_run_command (ctx : Ctx) (s : LB.Session) (pre w rest : List Char) (hp : Blanks pre) (hw : ∀ c ∈ w, IsLetter c)
    (hr : ∀ c, rest.head? = some c → ¬ IsLetter c) (h : SameIgnoringCase "RUN".toList w) :
    interpret ctx s (pre ++ w ++ rest) = s.withVm (runProgram ctx.env ctx.brk ctx.fuel (vmClearValues s.vm)) :=
  C46_command ctx s pre w rest "RUN" .run hp hw hr (by decide) h

/-- C44.  After NEW no line is left, and no name but those of the built-in functions. -/
theorem C44_new (ctx : Ctx) (s : LB.Session) (pre w rest : List Char) (hp : Blanks pre) (hw : ∀ c ∈ w, IsLetter c)
    (hr : Blanks rest) (h : SameIgnoringCase "NEW".toList w) :
    ∃ s', interpret ctx s (pre ++ w ++ rest ++ ['\n']) = .ok s' ∧ lines s'.vm = [] ∧ s'.vm.st.psym = builtinSymbols ∧
      (∀ x ∈ s'.vm.st.psym, x.kind = .builtin) ∧ s'.vm.world = s.vm.world := by
  rw [show pre ++ w ++ rest ++ ['\n'] = pre ++ w ++ (rest ++ ['\n']) by simp,
    C46_command ctx s pre w (rest ++ ['\n']) "NEW" .new hp hw ?_ (by decide) h]
  · have he : checkEol (rest ++ ['\n']) = true := by
      unfold checkEol
      rw [skipSpace_blanks hr, skipSpace_stays (by decide)]
      rfl
    refine ⟨{ s with vm := vmClearNames (vmNewProgram s.vm) }, ?_, ?_, ?_⟩
    · simp only [command, Session.ifEol, he, if_true]
    · show lines (vmClearNames (vmNewProgram s.vm)) = []
      unfold lines
      simp only [vmClearNames, vmNewProgram, storedProgramChanged]
      cases s.vm.stored.source with
      | none => rfl
      | some src => rfl
    · have hp : (vmClearNames (vmNewProgram s.vm)).st.psym = builtinSymbols := initBuiltins_psym
      refine ⟨hp, ?_, ?_⟩
      · show ∀ x ∈ (vmClearNames (vmNewProgram s.vm)).st.psym, x.kind = .builtin
        rw [hp]; decide
      · rfl
  · intro c hc
    cases rest with
    | nil => cases hc; decide
    | cons d r =>
      cases hc
      rcases hr _ List.mem_cons_self with rfl | rfl <;> decide

set_option maxRecDepth 100000 in
/-- After a program was entered and run, and NEW. -/
example : Demo.shows "10 A=5:DIM B(3):PRINT A\nRUN\nPRINT A\nNEW\nLIST\nPRINT A;B(9)\n" = .ok "> >  5 \n>  5 \n> > >  0  0 \n".toList := by
  decide +kernel

/-- C15.  DIM of one or two dimensions with largest subscripts below 2^32-1, whether the array was dimensioned before
or not: it is accepted exactly if there are at most 65536 elements, and then every element is 0; otherwise the array is
undimensioned.  `ns` are the subscripts, the last one first.
Missing: the largest subscript 2^32-1 (`C15_dim_wraps`, `C15_dim_divides_by_zero`), more than two dimensions. -/
theorem C15_dim_number_partial {may : Cmd → VM → Prop} {ph : Phase} {vm : VM} (h : State may ph vm) (env : Env)
    {xs rest : List Dbl} {ns : List Nat} {id : Nat} {s : Symbol} (hat : At vm (.dimNum id xs.length))
    (hs : vm.st.psym[id]? = some s) (hk : s.kind = .array) (ht : s.type = .num) (hst : vm.stack = xs ++ rest)
    (h2 : xs.length ≤ 2) (hx : AreCounts xs ns) (hlt : ∀ m ∈ ns, m < 2 ^ 32 - 1) :
    ∃ st', SameBut id vm.st st' ∧
      (Shape ns → V.execute env vm = .ok () { vm with stack := rest, st := st', cs := following vm.cs } ∧
        ∃ a, NumArray st' id a ∧ Dimensioned a ns ∧ FilledWith a ns (.fin 0)) ∧
      (¬ Shape ns → V.execute env vm = .err .invalidDimensions { vm with stack := rest, st := st' } ∧
        Undimensioned st' id .num) := by
  obtain ⟨st', h1, h3, h4⟩ := V.dimStatement_eq V.field_num numField_held (state_held h).syms hs
    (isArr_iff.2 ⟨hk, ht⟩) hst rfl h2 hx hlt
  refine ⟨st', h1, fun hsh => ?_, fun hsh => ?_⟩
  · obtain ⟨h5, h6⟩ := h3 hsh
    refine ⟨?_, V.fresh V.numField ns, ⟨_, h6, hk, ht, rfl, rfl⟩, V.fresh_dim V.numField hsh, V.fresh_filled V.numField hsh⟩
    rw [V.execute_at env hat]
    simp only [V.exec, V.brk_apply, h5]
  · obtain ⟨h5, h6⟩ := h4 hsh
    refine ⟨?_, _, h6, hk, ht, rfl, rfl, ((state_held h).syms id s hs |>.arr hk).2.2.1 ht⟩
    rw [V.execute_at env hat]
    simp only [V.exec, V.brk_apply, h5]

set_option maxRecDepth 100000 in
/-- C15 fails for three dimensions: DIM is not refused, the process ends with a failed assertion. -/
theorem C15_three_violated : Demo.shows "DIM A(1,2,3)\n" = .halt (.assertFail "pop_indexes") := by decide +kernel

/-- C15.  The same for arrays of strings: all elements are empty. -/
theorem C15_dim_string_partial {may : Cmd → VM → Prop} {ph : Phase} {vm : VM} (h : State may ph vm) (env : Env)
    {xs rest : List Dbl} {ns : List Nat} {id : Nat} {s : Symbol} (hat : At vm (.dimStr id xs.length))
    (hs : vm.st.psym[id]? = some s) (hk : s.kind = .array) (ht : s.type = .str) (hst : vm.stack = xs ++ rest)
    (h2 : xs.length ≤ 2) (hx : AreCounts xs ns) (hlt : ∀ m ∈ ns, m < 2 ^ 32 - 1) :
    ∃ st', SameBut id vm.st st' ∧
      (Shape ns → V.execute env vm = .ok () { vm with stack := rest, st := st', cs := following vm.cs } ∧
        ∃ a, StrArray st' id a ∧ Dimensioned a ns ∧ FilledWith a ns none) ∧
      (¬ Shape ns → V.execute env vm = .err .invalidDimensions { vm with stack := rest, st := st' } ∧
        Undimensioned st' id .str) := by
  obtain ⟨st', h1, h3, h4⟩ := V.dimStatement_eq V.field_str strField_held (state_held h).syms hs
    (isArr_iff.2 ⟨hk, ht⟩) hst rfl h2 hx hlt
  refine ⟨st', h1, fun hsh => ?_, fun hsh => ?_⟩
  · obtain ⟨h5, h6⟩ := h3 hsh
    refine ⟨?_, V.fresh V.strField ns, ⟨_, h6, hk, ht, rfl, rfl⟩, V.fresh_dim V.strField hsh, V.fresh_filled V.strField hsh⟩
    rw [V.execute_at env hat]
    simp only [V.exec, V.brk_apply, h5]
  · obtain ⟨h5, h6⟩ := h4 hsh
    refine ⟨?_, _, h6, hk, ht, rfl, ((state_held h).syms id s hs |>.arr hk).2.2.2 ht, rfl⟩
    rw [V.execute_at env hat]
    simp only [V.exec, V.brk_apply, h5]

set_option maxRecDepth 100000 in
/-- An array of two dimensions is dimensioned again. -/
example : ∃ vm, State (fun _ _ => True) .program vm ∧ (Demo.nextIs (.dimNum 26 2) vm && vm.stack == [.fin 2, .fin 3] &&
    (vm.st.psym[26]?.any (fun s => s.kind == .array && s.type == .num && s.defined))) = true :=
  Demo.state (lines := [(10, "A(5,20)=1"), (20, "DIM A(3,2)")]) (n := 8) (by decide +kernel)

/-- C15.  Reading an element of an array of numbers without dimensions: the array is dimensioned with the largest
subscript 10 or the one used, whichever is larger, in each dimension, and the element is 0; unless it would have more
than 65536 elements, which is refused.
Missing: the subscript 2^32-1, more than two dimensions. -/
theorem C15_auto_number_partial (env : Env) {vm : VM} {xs rest : List Dbl} {ns : List Nat} {id : Nat}
    (hat : At vm (.getParenNum id xs.length)) (hu : Undimensioned vm.st id .num) (hst : vm.stack = xs ++ rest)
    (h2 : xs.length ≤ 2) (hx : AreCounts xs ns) (hlt : ∀ m ∈ ns, m < 2 ^ 32 - 1) (hroom : rest.length < 16) :
    (Shape (autoShape ns) → ∃ st', V.execute env vm = .ok () { vm with stack := .fin 0 :: rest, st := st', cs := following vm.cs } ∧
      SameBut id vm.st st' ∧ ∃ a, NumArray st' id a ∧ Dimensioned a (autoShape ns) ∧ FilledWith a (autoShape ns) (.fin 0)) ∧
    (¬ Shape (autoShape ns) → V.execute env vm = .err .invalidDimensions { vm with stack := rest }) := by
  obtain ⟨s, hs, hk, ht, hd, hn, -⟩ := hu
  have he := V.elementArray_auto V.field_num hs (isArr_iff.2 ⟨hk, ht⟩) hd hn hst rfl h2 hx hlt
  have hr : ¬ rest.length ≥ maxNumStack := by simp [maxNumStack]; omega
  constructor
  · intro hsh
    rw [if_pos hsh] at he
    have hget := ((V.fresh_filled V.numField hsh) ns).1 (autoShape_inRange ns)
    refine ⟨V.withArray V.numField vm.st id (V.fresh V.numField (autoShape ns)), ?_, symUpdate_sameBut _ _ _, V.fresh V.numField (autoShape ns), ⟨_, V.updated_at hs _, hk, ht, rfl, rfl⟩,
      V.fresh_dim V.numField hsh, V.fresh_filled V.numField hsh⟩
    rw [V.execute_at env hat]
    simp [V.exec, V.getParenNum, V.getElement, V.sym_ok hs, ht, hk, he, hget, V.push, hr]
    rfl
  · intro hsh
    rw [if_neg hsh] at he
    rw [V.execute_at env hat]
    simp [V.exec, V.getParenNum, V.getElement, V.sym_ok hs, ht, hk, he]

/-- C15.  The same for an array of strings: the element is empty. -/
theorem C15_auto_string_partial (env : Env) {vm : VM} {xs rest : List Dbl} {ns : List Nat} {id : Nat}
    (hat : At vm (.getParenStr id xs.length)) (hu : Undimensioned vm.st id .str) (hst : vm.stack = xs ++ rest)
    (h2 : xs.length ≤ 2) (hx : AreCounts xs ns) (hlt : ∀ m ∈ ns, m < 2 ^ 32 - 1) (hroom : vm.strstack.length < 8) :
    (Shape (autoShape ns) → ∃ st', V.execute env vm = .ok () { vm with stack := rest, strstack := [] :: vm.strstack, st := st', cs := following vm.cs } ∧
      SameBut id vm.st st' ∧ ∃ a, StrArray st' id a ∧ Dimensioned a (autoShape ns) ∧ FilledWith a (autoShape ns) none) ∧
    (¬ Shape (autoShape ns) → V.execute env vm = .err .invalidDimensions { vm with stack := rest }) := by
  obtain ⟨s, hs, hk, ht, hd, -, hn⟩ := hu
  have he := V.elementArray_auto V.field_str hs (isArr_iff.2 ⟨hk, ht⟩) hd hn hst rfl h2 hx hlt
  have hr : ¬ vm.strstack.length ≥ maxStrStack := by simp [maxStrStack]; omega
  constructor
  · intro hsh
    rw [if_pos hsh] at he
    have hget := ((V.fresh_filled V.strField hsh) ns).1 (autoShape_inRange ns)
    refine ⟨V.withArray V.strField vm.st id (V.fresh V.strField (autoShape ns)), ?_, symUpdate_sameBut _ _ _, V.fresh V.strField (autoShape ns), ⟨_, V.updated_at hs _, hk, ht, rfl, rfl⟩,
      V.fresh_dim V.strField hsh, V.fresh_filled V.strField hsh⟩
    rw [V.execute_at env hat]
    simp [V.exec, V.getParenStr, V.getElement, V.sym_ok hs, ht, hk, he, hget, V.pushStr, hr]
    rfl
  · intro hsh
    rw [if_neg hsh] at he
    rw [V.execute_at env hat]
    simp [V.exec, V.getParenStr, V.getElement, V.sym_ok hs, ht, hk, he]

/-- C15.  Storing into an array without dimensions: the same, and then the element has the value, all others are 0. -/
theorem C15_auto_store_partial (env : Env) {vm : VM} {xs rest : List Dbl} {ns : List Nat} {id : Nat} {v : Dbl}
    (hat : At vm (.setArrayNum id xs.length)) (hu : Undimensioned vm.st id .num) (hst : vm.stack = v :: (xs ++ rest))
    (h2 : xs.length ≤ 2) (hx : AreCounts xs ns) (hlt : ∀ m ∈ ns, m < 2 ^ 32 - 1) :
    (Shape (autoShape ns) → ∃ st', V.execute env vm = .ok () { vm with stack := rest, st := st', cs := following vm.cs } ∧
      SameBut id vm.st st' ∧ ∃ a, NumArray st' id a ∧ Dimensioned a (autoShape ns) ∧ arrayGet a ns = .ok (some v) ∧
        ∀ idx, idx ≠ ns → InRange idx (autoShape ns) → arrayGet a idx = .ok (some (.fin 0))) ∧
    (¬ Shape (autoShape ns) → V.execute env vm = .err .invalidDimensions { vm with stack := rest }) := by
  obtain ⟨s, hs, hk, ht, hd, hn, -⟩ := hu
  have he := V.elementArray_auto (vm := { vm with stack := xs ++ rest }) V.field_num hs (isArr_iff.2 ⟨hk, ht⟩) hd hn rfl rfl h2 hx hlt
  constructor
  · intro hsh
    rw [if_pos hsh] at he
    have hdim := V.fresh_dim V.numField hsh
    obtain ⟨-, b, hb, hbd⟩ := (C13_access_inside _ _ ns v hdim).1 (autoShape_inRange ns)
    obtain ⟨h5, h6⟩ := C14_elements_separate _ b _ ns v hdim hb
    have hs1 : (V.withArray V.numField vm.st id (V.fresh V.numField (autoShape ns))).psym[id]? = _ := V.updated_at hs _
    refine ⟨symUpdate (V.withArray V.numField vm.st id (V.fresh V.numField (autoShape ns))) id (V.numField.set (some b)), ?_, ?_, b,
      ⟨_, V.updated_at hs1 _, hk, ht, rfl, rfl⟩, hbd, h5, fun idx hne hr => ?_⟩
    · rw [V.execute_at env hat]
      simp [V.exec, V.setElement, V.sym_ok hs, V.pop, hst, he, hb, V.updSym]
    · refine ⟨rfl, rfl, fun j hj => ?_⟩
      rw [symUpdate_other _ _ _ _ hj, V.withArray, symUpdate_other _ _ _ _ hj]
    · rw [h6 idx hne]
      exact ((V.fresh_filled V.numField hsh) idx).1 hr
  · intro hsh
    rw [if_neg hsh] at he
    rw [V.execute_at env hat]
    simp [V.exec, V.setElement, V.sym_ok hs, V.pop, hst, he]

set_option maxRecDepth 100000 in
/-- Arrays used without DIM, with small and large subscripts. -/
example : ∃ vm, State (fun _ _ => True) .program vm ∧ (Demo.nextIs (.setArrayNum 26 2) vm && vm.stack == [.fin 1, .fin 20, .fin 5] &&
    (vm.st.psym[26]?.any (fun s => s.kind == .array && s.type == .num && !s.defined && s.numarr.isNone && s.strarr.isNone)) &&
    decide (Shape (autoShape [20, 5]) ∧ ¬ Shape (autoShape [7000, 5]))) = true :=
  Demo.state (lines := [(10, "A(5,20)=1")]) (n := 4) (by decide +kernel)

/-- C13.  Whatever was done before, every access to every array of a session stays inside the array or is refused.
Missing: arrays without cells, made with the subscript 2^32-1 (`C13_violated_at_wrap`). -/
theorem C13_session_partial {may : Cmd → VM → Prop} {ph : Phase} {vm : VM} (h : State may ph vm) {id : Nat} :
    (∀ a, NumArray vm.st id a → a.val ≠ [] → ∃ max, Dimensioned a max ∧ ∀ idx v, (∃ x, arrayGet a idx = .ok x) ∧ ∃ b, arraySet a idx v = .ok b) ∧
    (∀ a, StrArray vm.st id a → a.val ≠ [] → ∃ max, Dimensioned a max ∧ ∀ idx v, (∃ x, arrayGet a idx = .ok x) ∧ ∃ b, arraySet a idx v = .ok b) := by
  constructor
  · rintro a ⟨s, hs, -, -, -, ha⟩ hne
    rcases ((state_held h).syms id s hs).numarr a ha |>.2.2.2 with ⟨max, hm⟩ | h0
    · exact ⟨max, hm, fun idx v => ⟨⟨_, arrayGet_dim a max idx hm⟩, _, arraySet_dim a max idx v hm⟩⟩
    · exact absurd h0 hne
  · rintro a ⟨s, hs, -, -, -, ha⟩ hne
    rcases ((state_held h).syms id s hs).strarr a ha |>.2.2.2 with ⟨max, hm⟩ | h0
    · exact ⟨max, hm, fun idx v => ⟨⟨_, arrayGet_dim a max idx hm⟩, _, arraySet_dim a max idx v hm⟩⟩
    · exact absurd h0 hne

set_option maxRecDepth 100000 in
/-- Two arrays of a program, one dimensioned and one not. -/
example : ∃ vm, State (fun _ _ => True) .program vm ∧
    (vm.st.psym[26]?.any (fun s => s.kind == .array && s.type == .num && s.defined && s.numarr.any (fun a => !a.val.isEmpty)) &&
     vm.st.psym[27]?.any (fun s => s.kind == .array && s.type == .str && s.defined && s.strarr.any (fun a => !a.val.isEmpty))) = true :=
  Demo.state (lines := [(10, "DIM A(3):B$(2)=\"X\"")]) (n := 6) (by decide +kernel)

end LB
