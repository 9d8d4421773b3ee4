import Verif.Proofs.FnBody
import Verif.Props.Residue
/-
C23: functions made with DEF.
-/
namespace LB
open LB.Spec _root_.Spec

theorem after_step {env : Env} {n : Nat} {a b c : VM} (h1 : V.execute env a = .ok () b) (h2 : after env n b = some c) :
    after env (n + 1) a = some c := by simp only [after, h1]; exact h2

theorem after_last {env : Env} {n : Nat} {a b c : VM} (h1 : after env n a = some b) (h2 : V.execute env b = .ok () c) :
    after env (n + 1) a = some c := by
  induction n generalizing a with
  | zero => cases h1; exact after_step h2 rfl
  | succ n ih =>
    simp only [after] at h1
    cases hx : V.execute env a with
    | ok u a' => rw [hx] at h1; exact after_step hx (ih h1)
    | err e a' => rw [hx] at h1; cases h1
    | halt e => rw [hx] at h1; cases h1

theorem call_code {vm : VM} {d : Def} {p : Nat} {e : List Inst} {x : Dbl} {rest : List Dbl} (h : CallsFn vm d p e x rest) :
    vm.cs.code.isSome = true := by
  obtain ⟨i, s, ⟨r, b, h1, -⟩, -⟩ := h.call
  rw [h1]; rfl

theorem body_at {vm : VM} {d : Def} {p : Nat} {e : List Inst} {x : Dbl} {rest : List Dbl} (h : CallsFn vm d p e x rest) :
    ∀ j i, e[j]? = some i → d.bcode.inst[2 + j]? = some i := by
  obtain ⟨f, hcode⟩ := h.code
  intro j i hj
  rw [hcode, Nat.add_comm 2 j]
  simp only [List.getElem?_cons_succ]
  rw [List.getElem?_append_left (List.getElem?_eq_some_iff.1 hj).1]
  exact hj

/-- C23.  Calling a function with the argument `x` evaluates its body with the parameter equal to `x` and every other
variable as it is: if that evaluation gives the machine `w`, the call goes on right after itself with what `w` has on the
stacks, and with the parameter restored, including whether it had a value; nothing else is changed. -/
theorem C23 {vm w : VM} {d : Def} {p : Nat} {e : List Inst} {x : Dbl} {rest : List Dbl} (env : Env) (h : CallsFn vm d p e x rest)
    (hw : Computes env e (bound vm p x rest) (.ok () w)) : ∃ n vm', after env n vm = some vm' ∧ Returned vm p w vm' := by
  obtain ⟨q, hq, hk, ht, hstep⟩ := V.call_step h env
  obtain ⟨f, hcode⟩ := h.code
  have hcs := call_code h
  have hquiet := quiet_computes hw h.body w .ok
  have hend : d.bcode.inst[2 + e.length]? = some .endDef := by
    rw [hcode, Nat.add_comm 2]
    simp
  obtain ⟨n, hn⟩ := V.body_ends (line := d.sourceLine) (fn := ⟨vm.cs, p, q.defined, q.num⟩) (dc := { vm.defCode with bcode := some d.bcode })
    rfl hcs hw h.body (body_at h)
  have hplen : p < w.st.psym.length := by
    have h1 := (List.getElem?_eq_some_iff.1 hq).1
    have h2 := hquiet.names.2.2
    simp only [bound, symUpdate, List.length_modify] at h2
    omega
  have hret := V.return_step env (line := d.sourceLine) (cs := vm.cs) (b := q.defined) (y := q.num) (dc := { vm.defCode with bcode := some d.bcode })
    (w := w) (p := p) rfl hend (by rw [List.getElem?_eq_getElem hplen]; rfl) hcs
  obtain ⟨hrest, hnames, hsyms⟩ := hquiet
  refine ⟨n + 1 + 1, _, after_step hstep (after_last hn hret), ?_⟩
  have hpar : w.st.psym[p]? = some { q with num := x, defined := true } := by
    have h1 : (bound vm p x rest).st.psym[p]? = some { q with num := x, defined := true } := symUpdate_same hq
    have h2 := hsyms p _ _ h1 (List.getElem?_eq_getElem hplen)
    rw [List.getElem?_eq_getElem hplen, h2.defined rfl]
  refine ⟨rfl, rfl, rfl, rfl, ?_, ?_, ?_, ?_⟩
  · rw [hq]
    simp only
    rw [symUpdate_same hpar]
  · intro j s t hs ht
    simp only at ht
    by_cases hj : j = p
    · subst hj
      rw [symUpdate_same hpar] at ht
      rw [hq] at hs
      cases hs; cases ht
      exact .same
    · rw [symUpdate_other _ _ _ _ hj] at ht
      refine hsyms j s t ?_ ht
      simp only [bound]
      rw [symUpdate_other _ _ _ _ hj]
      exact hs
  · simp only [symUpdate, List.length_modify]
    simp only [bound, symUpdate, List.length_modify] at hnames
    exact hnames
  · simp only
    rw [hrest]
    rfl

/-- C23.  If the evaluation of the body stops with an error, so does the call; the machine is as the body left it, but
inside the function. -/
theorem C23_error {vm w : VM} {d : Def} {p : Nat} {e : List Inst} {x : Dbl} {rest : List Dbl} {er : RunError} (env : Env)
    (h : CallsFn vm d p e x rest) (hw : Computes env e (bound vm p x rest) (.err er w)) :
    ∃ n vm' vm'', after env n vm = some vm' ∧ V.execute env vm' = .err er vm'' ∧
      vm'' = { w with cs := vm''.cs, fn := vm''.fn, defCode := vm''.defCode } ∧ vm''.cs.code = some .def_ := by
  obtain ⟨q, hq, hk, ht, hstep⟩ := V.call_step h env
  obtain ⟨n, j, m, h1, h2⟩ := V.body_ends (line := d.sourceLine) (fn := ⟨vm.cs, p, q.defined, q.num⟩) (dc := { vm.defCode with bcode := some d.bcode })
    rfl (call_code h) hw h.body (body_at h)
  exact ⟨n + 1, m, _, after_step hstep h1, h2, by simp [V.over, V.inFn], rfl⟩

/-- C23.  If the evaluation of the body halts the interpreter, so does the call. -/
theorem C23_halt {vm : VM} {d : Def} {p : Nat} {e : List Inst} {x : Dbl} {rest : List Dbl} {y : Halt} (env : Env)
    (h : CallsFn vm d p e x rest) (hw : Computes env e (bound vm p x rest) (.halt y)) :
    ∃ n vm', after env n vm = some vm' ∧ V.execute env vm' = .halt y := by
  obtain ⟨q, hq, hk, ht, hstep⟩ := V.call_step h env
  obtain ⟨n, m, h1, h2⟩ := V.body_ends (line := d.sourceLine) (fn := ⟨vm.cs, p, q.defined, q.num⟩) (dc := { vm.defCode with bcode := some d.bcode })
    rfl (call_code h) hw h.body (body_at h)
  exact ⟨n + 1, m, after_step hstep h1, h2⟩

/-- C23 in a session: whenever a program or typed statement calls a function that has been made, with one argument and not
from within a function, the hypotheses of `C23` hold, and the body leaves the value on top of what was on the stacks
before the argument.  Missing: that nothing (`ys`, `zs`) lies between, which is false when RND or TIME$ is given an
argument with a type error (`C23_leak`); there are at most 65536 names; CONT was not used after an interrupt within a
statement in a way that C35 excludes. -/
theorem C23_session_partial {may : Cmd → VM → Prop} (hm : ∀ vm, may .cont vm → StoppedBetween vm) {ph : Phase} {vm : VM} (h : State may ph vm)
    (hp : ph ≠ .idle) (hn : vm.st.psym.length ≤ 65536) {i : Inst} {s : Symbol} (hat : At vm i) (hc : CallOf vm.st i 1 s)
    (hd : s.defined = true) (hf : vm.fn.codeState.code = none) :
    ∃ d p e x rest, CallsFn vm d p e x rest ∧ s.def_ = some d ∧ ∀ env w, Computes env e (bound vm p x rest) (.ok () w) →
      (s.type = .num → ∃ y ys zs, w.stack = y :: ys ++ rest ∧ w.strstack = zs ++ vm.strstack) ∧
      (s.type = .str → ∃ y ys zs, w.stack = ys ++ rest ∧ w.strstack = y :: zs ++ vm.strstack) := by
  obtain ⟨d, p, e, x, rest, k, h1, h2, h3, h4, h5⟩ := session_call hm h hp hn hat hc hd hf
  refine ⟨d, p, e, x, rest, h1, h2, fun env w hw => ?_⟩
  obtain ⟨b, hb, hk⟩ := V.computes_over (ns := rest) (ss := vm.strstack) hw (emptied (bound vm p x rest)) k w rfl h3 rfl
  have e1 : w.stack = b.stack ++ rest := by rw [hb]; rfl
  have e2 : w.strstack = b.strstack ++ vm.strstack := by rw [hb]; rfl
  have l1 : b.stack.length = k.1 := by rw [← hk]; rfl
  have l2 : b.strstack.length = k.2 := by rw [← hk]; rfl
  refine ⟨fun ht => ?_, fun ht => ?_⟩
  · rw [ht] at h4
    cases hs : b.stack with
    | nil => rw [hs] at l1; rw [← l1] at h4; cases h4
    | cons y ys => exact ⟨y, ys, b.strstack, by rw [e1, hs], e2⟩
  · rw [ht] at h5
    cases hs : b.strstack with
    | nil => rw [hs] at l2; rw [← l2] at h5; cases h5
    | cons y zs => exact ⟨y, b.stack, zs, e1, by rw [e2, hs]⟩

/-- The instruction may call a function, as a computation. -/
def Demo.callsFn (st : SymTab) : Inst → Bool
  | .getParenNum id _ => (st.psym[id]?).any (fun s => s.kind == .def_)
  | .getParenStr id _ => (st.psym[id]?).any (fun s => s.kind == .def_)
  | _ => false

theorem Demo.callsFn_spec {st : SymTab} {i : Inst} (h : Demo.callsFn st i = false) : ∀ n s, ¬ CallOf st i n s := by
  intro n s hc
  cases hc with
  | num h1 h2 h3 => simp [Demo.callsFn, h1, h2] at h
  | str h1 h2 h3 => simp [Demo.callsFn, h1, h2] at h

/-- The evaluation of a body, as a computation. -/
def Demo.computes (env : Env) : List Inst → VM → Option (Res Unit)
  | [], vm => some (.ok () vm)
  | i :: l, vm =>
    if Demo.callsFn vm.st i then none
    else match V.exec env i vm with
      | .ok .brk vm' => Demo.computes env l vm'
      | .ok .ret _ => none
      | .err e vm' => some (.err e vm')
      | .halt h => some (.halt h)

theorem Demo.computes_spec {env : Env} {l : List Inst} {vm : VM} {r : Res Unit} (h : Demo.computes env l vm = some r) : Computes env l vm r := by
  induction l generalizing vm with
  | nil => cases h; exact .done
  | cons i l ih =>
    simp only [Demo.computes] at h
    split at h
    · cases h
    · rename_i hc
      have hc' := Demo.callsFn_spec (Bool.eq_false_iff.2 hc)
      split at h
      · rename_i vm' hx
        exact .next hc' hx (ih h)
      · cases h
      · rename_i hx; cases h; exact .err hc' hx
      · rename_i hx; cases h; exact .halt hc' hx

/-- A machine that calls the first function of the program, with the parameter the next name, the body `e`, the argument
`x` and `rest` below it, where the evaluation of the body satisfies `P`. -/
def Demo.calls (e : List Inst) (x : Dbl) (rest : List Dbl) (P : Res Unit → Bool) (vm : VM) : Bool :=
  decide (vm.st.psym.length ≤ 65536) && Demo.nextIs (.getParenNum 26 1) vm &&
  (vm.stored.bcode.bind (·.inst[vm.cs.pc + 1]?)).isSome &&
  (vm.st.psym[26]?).any (fun s => s.kind == .def_ && s.type == .num && s.defined &&
    s.def_.any (fun d => d.bcode.inst == .def_ 26 1 :: .param 27 :: (e ++ [.endDef]))) &&
  (vm.st.psym[27]?).any (fun s => s.kind == .variable && s.type == .num) &&
  vm.fn.codeState.code == none && vm.stack == x :: rest && e.all computing &&
  (Demo.computes Demo.env e (bound vm 27 x rest)).any P

theorem Demo.calls_spec {e : List Inst} {x : Dbl} {rest : List Dbl} {P : Res Unit → Bool} {vm : VM} (h : Demo.calls e x rest P vm = true) :
    vm.st.psym.length ≤ 65536 ∧ ∃ d r, CallsFn vm d 27 e x rest ∧ Computes Demo.env e (bound vm 27 x rest) r ∧ P r = true := by
  simp only [Demo.calls, Bool.and_eq_true, beq_iff_eq, decide_eq_true_eq, Option.any_eq_true, List.all_eq_true] at h
  obtain ⟨⟨⟨⟨⟨⟨⟨⟨k1, k2⟩, k3⟩, s, ks, ⟨⟨kk, kt⟩, kd⟩, d, kdef, kcode⟩, q, kq, kqk, kqt⟩, k6⟩, k7⟩, k8⟩, r, kw, kr⟩ := h
  have hat := Demo.at_of_nextIs k2
  refine ⟨k1, d, r, ⟨⟨_, s, hat, .num ks kk kt, kd, kdef⟩, k6, ?_, ⟨26, kcode⟩, k8, ⟨q, kq, kqk, kqt⟩, k7⟩, Demo.computes_spec kw, kr⟩
  obtain ⟨r, b, a1, a2, a3⟩ := hat
  have hr : r = .stored := by
    simp only [Demo.nextIs, Bool.and_eq_true, decide_eq_true_eq] at k2
    rw [a1] at k2
    exact Option.some.inj k2.1
  subst hr
  have a2' : vm.stored.bcode = some b := a2
  rw [a2'] at k3
  obtain ⟨i, hi⟩ := Option.isSome_iff_exists.1 k3
  exact ⟨i, .stored, b, a1, a2, hi⟩

/-- The body of the function in the example. -/
def Demo.body : List Inst := [.getSimpleNum 27, .getSimpleNum 28, .arith .mul, .pushNum (.fin 1), .getParenNum 29 1, .arith .add]

set_option maxRecDepth 100000 in
/-- A call in the middle of an expression, whose parameter is also a variable of the program; the body uses another
variable, and an array that is not dimensioned. -/
example : ∃ vm d w, State (fun _ _ => False) .program vm ∧ vm.st.psym.length ≤ 65536 ∧ CallsFn vm d 27 Demo.body (.fin 2) [.fin 1] ∧
    num vm.st 27 = .fin 7 ∧ Computes Demo.env Demo.body (bound vm 27 (.fin 2) [.fin 1]) (.ok () w) ∧ w.stack = [.fin 10, .fin 1] := by
  obtain ⟨vm, h1, h2⟩ := Demo.state (may := fun _ _ => False)
    (lines := [(10, "DEF FNA(X)=X*Y+B(1)"), (20, "X=7:Y=5"), (30, "PRINT 1+FNA(2)")]) (n := 10)
    (P := fun vm => num vm.st 27 == .fin 7 && Demo.calls Demo.body (.fin 2) [.fin 1] (fun r => match r with
      | .ok () w => w.stack == [.fin 10, .fin 1] | _ => false) vm) (by decide +kernel)
  rw [Bool.and_eq_true] at h2
  obtain ⟨h2, h3⟩ := h2
  obtain ⟨k1, d, r, k2, k3, k4⟩ := Demo.calls_spec h3
  cases r with
  | ok u w => exact ⟨vm, d, w, h1, k1, k2, eq_of_beq h2, k3, eq_of_beq k4⟩
  | err e w => cases k4
  | halt y => cases k4

set_option maxRecDepth 100000 in
/-- A call whose body stops with an error. -/
example : ∃ vm d w, State (fun _ _ => False) .program vm ∧ CallsFn vm d 27 [.getSimpleNum 27, .bi .log] (.fin 0) [] ∧
    Computes Demo.env [.getSimpleNum 27, .bi .log] (bound vm 27 (.fin 0) []) (.err .invalidLog w) := by
  obtain ⟨vm, h1, h2⟩ := Demo.state (may := fun _ _ => False)
    (lines := [(10, "DEF FNA(X)=LOG(X)"), (20, "PRINT FNA(0)")]) (n := 4)
    (P := Demo.calls [.getSimpleNum 27, .bi .log] (.fin 0) [] (fun r => match r with
      | .err .invalidLog _ => true | _ => false)) (by decide +kernel)
  obtain ⟨k1, d, r, k2, k3, k4⟩ := Demo.calls_spec h2
  cases r with
  | ok u w => cases k4
  | err e w =>
    cases e with
    | invalidLog => exact ⟨vm, d, w, h1, k2, k3⟩
    | _ => cases k4
  | halt y => cases k4

set_option maxRecDepth 100000 in
/-- A call whose body halts the interpreter. -/
example : ∃ vm d y, State (fun _ _ => False) .program vm ∧ CallsFn vm d 27 [.pushNum (.fin 1), .pushNum (.fin 2), .getSimpleNum 27, .getParenNum 28 3] (.fin 0) [] ∧
    Computes Demo.env [.pushNum (.fin 1), .pushNum (.fin 2), .getSimpleNum 27, .getParenNum 28 3] (bound vm 27 (.fin 0) []) (.halt y) := by
  obtain ⟨vm, h1, h2⟩ := Demo.state (may := fun _ _ => False)
    (lines := [(10, "DEF FNA(X)=B(1,2,X)"), (20, "PRINT FNA(0)")]) (n := 4)
    (P := Demo.calls [.pushNum (.fin 1), .pushNum (.fin 2), .getSimpleNum 27, .getParenNum 28 3] (.fin 0) [] (fun r => match r with
      | .halt _ => true | _ => false)) (by decide +kernel)
  obtain ⟨k1, d, r, k2, k3, k4⟩ := Demo.calls_spec h2
  cases r with
  | ok u w => cases k4
  | err e w => cases k4
  | halt y => exact ⟨vm, d, y, h1, k2, k3⟩

set_option maxRecDepth 100000 in
/-- A function whose body gives RND an argument with a type error leaves two values too many. -/
theorem C23_leak : ∃ vm, State (fun _ _ => False) .program vm ∧ At vm .printLn ∧ vm.stack ≠ [] ∧ vm.strstack ≠ [] := by
  obtain ⟨vm, h1, h2⟩ := Demo.state (may := fun _ _ => False) (lines := [(10, "DEF FNA(X)=RND(2^A$)"), (20, "PRINT FNA(1)")]) (n := 10)
    (P := fun vm => Demo.nextIs .printLn vm && !vm.stack.isEmpty && !vm.strstack.isEmpty) (by decide +kernel)
  simp only [Bool.and_eq_true, Bool.not_eq_true', List.isEmpty_eq_false_iff] at h2
  exact ⟨vm, h1, Demo.at_of_nextIs h2.1.1, h2.1.2, h2.2⟩

/-- C23.  A function cannot be called from within a function, or before it is made: the error is reported and nothing changes. -/
theorem C23_refused {vm : VM} {i : Inst} {n : Nat} {s : Symbol} (env : Env) (hat : At vm i) (hc : CallOf vm.st i n s) :
    (s.defined = false → V.execute env vm = .err .notDefined vm) ∧
    (s.defined = true → s.def_.isSome = true → vm.fn.codeState.code ≠ none → V.execute env vm = .err .nestedCall vm) := by
  refine ⟨fun h => ?_, fun h1 h2 h3 => ?_⟩
  · rw [V.execute_at env hat, V.exec_undefined env hc h]
  · rw [V.execute_at env hat, V.exec_nested env hc (Option.isSome_iff_ne_none.2 h3) h1 h2]

set_option maxRecDepth 100000 in
/-- A call from within a function. -/
example : ∃ vm i s, State (fun _ _ => False) .program vm ∧ At vm i ∧ CallOf vm.st i 1 s ∧ s.defined = true ∧ s.def_.isSome = true ∧
    vm.fn.codeState.code ≠ none := by
  obtain ⟨vm, h1, h2⟩ := Demo.state (may := fun _ _ => False)
    (lines := [(10, "DEF FNA(X)=X+1"), (20, "DEF FNB(X)=FNA(X)*2"), (30, "PRINT FNB(2)")]) (n := 8)
    (P := fun vm => vm.cs.code == some .def_ && vm.defCode.bcode.bind (·.inst[vm.cs.pc]?) == some (.getParenNum 26 1) &&
      (vm.st.psym[26]?).any (fun s => s.kind == .def_ && s.type == .num && s.defined && s.def_.isSome) &&
      vm.fn.codeState.code.isSome) (by decide +kernel)
  simp only [Bool.and_eq_true, beq_iff_eq, Option.any_eq_true] at h2
  obtain ⟨⟨⟨k1, k2⟩, s, ks, ⟨⟨kk, kt⟩, kd⟩, kdef⟩, k4⟩ := h2
  refine ⟨vm, _, s, h1, ?_, .num ks kk kt, kd, kdef, Option.isSome_iff_ne_none.1 k4⟩
  cases hb : vm.defCode.bcode with
  | none => rw [hb] at k2; cases k2
  | some b => rw [hb] at k2; exact ⟨.def_, b, k1, hb, k2⟩

theorem runMessages_fn (e : RunEnd) (vm : VM) : (runMessages e vm).st = vm.st ∧ (runMessages e vm).fn = vm.fn := by
  unfold runMessages putOut
  split
  · exact ⟨rfl, rfl⟩
  · split <;> exact ⟨rfl, rfl⟩

theorem recordStopped_fn (e : RunEnd) (vm : VM) : (recordStopped e vm).st = vm.st ∧ (recordStopped e vm).fn = vm.fn := by
  unfold recordStopped
  split
  · split <;> exact ⟨rfl, rfl⟩
  · exact ⟨rfl, rfl⟩

/-- C24: what an error inside a function leaves, for every call, body and error.  The parameter keeps the argument, whether
or not it had a value before.  If a statement of the program made the call when the program was running, the call stays
open, so that every later call of a function is refused (`C23_refused`) until the next RUN or compilation; if a typed
statement made the call, functions can be called again.  Missing for C24: the parameter gets its old value back, and
functions can be called again after an error in a program, both of which are false (`C24_violated`). -/
theorem C24_partial {vm w : VM} {d : Def} {p : Nat} {e : List Inst} {x : Dbl} {rest : List Dbl} {er : RunError} (env : Env)
    (h : CallsFn vm d p e x rest) (hw : Computes env e (bound vm p x rest) (.err er w)) (interrupted : Bool) :
    ∃ n vm' vm'', after env n vm = some vm' ∧ V.execute env vm' = .err er vm'' ∧
      (∀ ph, ∃ s, (finish ph ⟨some er, interrupted⟩ vm'').st.psym[p]? = some s ∧ s.num = x ∧ s.defined = true) ∧
      (finish .program ⟨some er, interrupted⟩ vm'').fn.codeState = vm.cs ∧
      (vm.cs.code = some .immediate → (finish .typed ⟨some er, interrupted⟩ vm'').fn.codeState.code = none) := by
  obtain ⟨q, hq, hk, ht, hstep⟩ := V.call_step h env
  obtain ⟨n, j, m, h1, h2⟩ := V.body_ends (line := d.sourceLine) (fn := ⟨vm.cs, p, q.defined, q.num⟩) (dc := { vm.defCode with bcode := some d.bcode })
    rfl (call_code h) hw h.body (body_at h)
  have hquiet := quiet_computes hw h.body w .err
  have hpar : w.st.psym[p]? = some { q with num := x, defined := true } := by
    have k1 : (bound vm p x rest).st.psym[p]? = some { q with num := x, defined := true } := symUpdate_same hq
    have k2 : p < w.st.psym.length := by
      rw [hquiet.names.2.2]
      exact (List.getElem?_eq_some_iff.1 k1).1
    rw [List.getElem?_eq_getElem k2, (hquiet.syms p _ _ k1 (List.getElem?_eq_getElem k2)).defined rfl]
  generalize hb : V.over (V.inFn d.sourceLine ⟨vm.cs, p, q.defined, q.num⟩ { vm.defCode with bcode := some d.bcode } j) w = b at h2
  have e1 : b.st = w.st := by rw [← hb]; rfl
  have e2 : b.fn.codeState = vm.cs := by rw [← hb]; rfl
  have e3 : ∀ k, (recordStopped k (runMessages k b)).st = w.st ∧ (recordStopped k (runMessages k b)).fn.codeState = vm.cs := by
    intro k
    rw [(recordStopped_fn _ _).1, (recordStopped_fn _ _).2, (runMessages_fn _ _).1, (runMessages_fn _ _).2]
    exact ⟨e1, e2⟩
  refine ⟨n + 1, m, b, after_step hstep h1, h2, fun ph => ⟨{ q with num := x, defined := true }, ?_, rfl, rfl⟩, (e3 _).2, fun hi => ?_⟩
  · unfold finish
    simp only
    split
    · exact ((e3 _).1.symm ▸ hpar)
    · rw [(e3 _).1]; exact hpar
  · unfold finish
    simp only [true_and]
    have : immediateState (recordStopped ⟨some er, interrupted⟩ (runMessages ⟨some er, interrupted⟩ b)) = true := by
      simp [immediateState, (e3 _).2, hi, notStored]
    rw [if_pos this]
    rfl

/-- C24.  Without a program functions can always be called by the next statement typed, whatever happened before. -/
theorem C24_direct {may : Cmd → VM → Prop} {vm : VM} (h : State may .idle vm) (hs : vm.stored.source = none) : vm.fn.codeState.code = none :=
  ((state_base h).refs hs).2.1 rfl |>.2.2

set_option maxRecDepth 100000 in
/-- C24 is false: after an error in a function called by the program, its parameter X no longer holds the 7 that the
program gave it but the argument, and the call of another function by a typed statement is refused, though RUN would
print it. -/
theorem C24_violated : ∃ vm, State (fun k _ => k ≠ .cont) .idle vm ∧
    Demo.left [(10, "DEF FNA(X)=LOG(X)"), (20, "DEF FNB(Y)=Y"), (30, "X=7"), (40, "PRINT FNB(1)"), (50, "PRINT FNA(0)")] "" (fun _ => false) = some vm ∧
    Demo.last (fun v => v) ["PRINT X".toList] vm = some (some ⟨none, false⟩, " 0 \n".toList) ∧
    Demo.last (fun v => v) ["PRINT FNB(1)".toList] vm = some (some ⟨some .nestedCall, false⟩, []) := by
  have h : (Demo.left [(10, "DEF FNA(X)=LOG(X)"), (20, "DEF FNB(Y)=Y"), (30, "X=7"), (40, "PRINT FNB(1)"), (50, "PRINT FNA(0)")] "" (fun _ => false)).any
      (fun vm => Demo.last (fun v => v) ["PRINT X".toList] vm == some (some ⟨none, false⟩, " 0 \n".toList) &&
        Demo.last (fun v => v) ["PRINT FNB(1)".toList] vm == some (some ⟨some .nestedCall, false⟩, [])) = true := by decide +kernel
  simp only [Option.any_eq_true, Bool.and_eq_true, beq_iff_eq] at h
  obtain ⟨vm, h1, h2, h3⟩ := h
  exact ⟨vm, Demo.left_state h1, h1, h2, h3⟩

set_option maxRecDepth 100000 in
/-- Without a program, after an error inside a function the functions can be called; the parameter holds the argument. -/
example : ∃ vm, State (fun _ _ => False) .idle vm ∧ vm.stored.source = none ∧ Demo.last (fun v => v)
    ["DEF FNA(X)=LOG(X):DEF FNB(Y)=Y:X=7:PRINT FNA(0)".toList, "PRINT FNB(1);X".toList] vm = some (some ⟨none, false⟩, " 1  0 \n".toList) :=
  ⟨newVm false false false {}, .start .., rfl, by decide +kernel⟩

set_option maxRecDepth 100000 in
/-- The conclusions on typed programs. -/
example : Demo.shows "10 DEF FNA(X)=X*Y+B(1)\n20 X=7:Y=5:B(1)=1\n30 PRINT 1+FNA(2);X\n40 DEF FNB$(X)=\"<\"+STR$(X)+\">\"\n50 PRINT FNB$(3);X\nRUN\n"
    = .ok "> > > > > >  12  7 \n<3> 7 \n".toList := by decide +kernel

end LB
