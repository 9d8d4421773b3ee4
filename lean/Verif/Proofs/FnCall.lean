import Verif.Proofs.Over
import Verif.Proofs.Quiet
import Verif.Proofs.FlowStep
/- The call of a function, its body, and the return from it. -/
namespace LB
open LB.Spec Code
namespace V

section
variable (o : Under)

theorem lifts_plain (env : Env) {i : Inst} (hi : computing i = true) (h1 : ∀ p n, i ≠ .getParenNum p n) (h2 : ∀ p n, i ≠ .getParenStr p n) :
    Lifts o (exec env i) := by
  have k1 := lifts_popLogic o
  have k2 := lifts_compareStrings o
  cases i with
  | getParenNum p n => exact absurd rfl (h1 p n)
  | getParenStr p n => exact absurd rfl (h2 p n)
  | bi b =>
    cases b with
    | rnd => exact lifts_rndStep o env
    | _ => exact Lifts.brk (lifts_builtinOp o env _)
  | getSimpleNum p => exact Lifts.brk (lifts_getNumericSimple o p)
  | getSimpleStr p => exact Lifts.brk (lifts_getStringSimple o p)
  | _ =>
    first
    | exact (Bool.false_ne_true hi).elim
    | (simp only [exec, pushLogic]; lifts)

/-- An instruction of an expression that does not call a function does the same elsewhere. -/
theorem tops_exec (env : Env) {i : Inst} {vm : VM} (hi : computing i = true) (hc : ∀ n s, ¬ CallOf vm.st i n s) :
    Tops o (exec env i vm) (exec env i (over o vm)) := by
  by_cases h1 : ∃ p n, i = .getParenNum p n
  · obtain ⟨p, n, rfl⟩ := h1
    simp only [exec, brk_apply, getParenNum, bind_apply]
    cases hs : vm.st.psym[p]? with
    | none =>
      have hs' : (over o vm).st.psym[p]? = none := hs
      simp only [sym, symbolAt, hs, hs']; exact .halt
    | some q =>
      have hs' : (over o vm).st.psym[p]? = some q := hs
      simp only [sym_ok hs, sym_ok hs', assert_apply]
      by_cases ht : q.type = .num
      case neg => simp only [ht, beq_iff_eq, if_false]; exact .halt
      simp only [ht, beq_self_eq_true, if_true]
      by_cases hk : q.kind = .array
      · simp only [hk, if_true]
        have : Lifts o (V.brk (getElement numField p n >>= push)) := by
          have := lifts_getElement o numField p n
          lifts
        have := this vm
        rw [brk_apply, brk_apply] at this
        exact this
      · simp only [hk, if_false, bind_apply, assert_apply]
        by_cases hk2 : q.kind = .def_
        · exact absurd (.num hs hk2 ht) (hc n q)
        · simp only [hk2, beq_iff_eq, if_false]; exact .halt
  · by_cases h2 : ∃ p n, i = .getParenStr p n
    · obtain ⟨p, n, rfl⟩ := h2
      simp only [exec, brk_apply, getParenStr, bind_apply]
      cases hs : vm.st.psym[p]? with
      | none =>
        have hs' : (over o vm).st.psym[p]? = none := hs
        simp only [sym, symbolAt, hs, hs']; exact .halt
      | some q =>
        have hs' : (over o vm).st.psym[p]? = some q := hs
        simp only [sym_ok hs, sym_ok hs', assert_apply]
        by_cases ht : q.type = .str
        case neg => simp only [ht, beq_iff_eq, if_false]; exact .halt
        simp only [ht, beq_self_eq_true, if_true]
        by_cases hk : q.kind = .array
        · simp only [hk, if_true]
          have : Lifts o (V.brk (getElement strField p n >>= fun x => pushStr (x.getD []))) := by
            have := lifts_getElement o strField p n
            lifts
          have := this vm
          rw [brk_apply, brk_apply] at this
          exact this
        · simp only [hk, if_false, bind_apply, assert_apply]
          by_cases hk2 : q.kind = .def_
          · exact absurd (.str hs hk2 ht) (hc n q)
          · simp only [hk2, beq_iff_eq, if_false]; exact .halt
    · exact lifts_plain o env hi (fun p n hh => h1 ⟨p, n, hh⟩) (fun p n hh => h2 ⟨p, n, hh⟩) vm
end

/-- Inside the called function, at the instruction `k` of its code. -/
def inFn (line : Nat) (fn : FnState) (dc : Code) (k : Nat) : Under := ⟨[], [], some (⟨some .def_, line, k⟩, fn, dc)⟩

section
variable {line : Nat} {fn : FnState} {dc : Code} {bc : Bcode}

theorem at_inFn (hd : dc.bcode = some bc) {k : Nat} {i : Inst} (hi : bc.inst[k]? = some i) (u : VM) :
    At (over (inFn line fn dc k) u) i := ⟨.def_, bc, rfl, hd, hi⟩

/-- The body goes from here to that. -/
def BodyEnds (env : Env) (line : Nat) (fn : FnState) (dc : Code) (k : Nat) (u : VM) (len : Nat) (r : Res Unit) : Prop :=
  match r with
  | .ok () w => ∃ n, after env n (over (inFn line fn dc k) u) = some (over (inFn line fn dc (k + len)) w)
  | .err e w => ∃ n j m, after env n (over (inFn line fn dc k) u) = some m ∧ execute env m = .err e (over (inFn line fn dc j) w)
  | .halt h => ∃ n m, after env n (over (inFn line fn dc k) u) = some m ∧ execute env m = .halt h

theorem BodyEnds.step {env : Env} {k k' : Nat} {u u' : VM} {len len' : Nat} {r : Res Unit}
    (hx : execute env (over (inFn line fn dc k) u) = .ok () (over (inFn line fn dc k') u')) (hl : k + len = k' + len')
    (h : BodyEnds env line fn dc k' u' len' r) : BodyEnds env line fn dc k u len r := by
  cases r with
  | ok _ w =>
    obtain ⟨n, hn⟩ := h
    exact ⟨n + 1, by simp only [after, hx, hl]; exact hn⟩
  | err e w =>
    obtain ⟨n, j, m, h1, h2⟩ := h
    exact ⟨n + 1, j, m, by simp only [after, hx]; exact h1, h2⟩
  | halt e =>
    obtain ⟨n, m, h1, h2⟩ := h
    exact ⟨n + 1, m, by simp only [after, hx]; exact h1, h2⟩

theorem exec_nested (env : Env) {i : Inst} {n : Nat} {s : Symbol} {vm : VM} (hc : CallOf vm.st i n s) (hf : vm.fn.codeState.code.isSome = true)
    (hd : s.defined = true) (hb : s.def_.isSome = true) : exec env i vm = .err .nestedCall vm := by
  obtain ⟨d, hb⟩ := Option.isSome_iff_exists.1 hb
  cases hc with
  | num h1 h2 h3 =>
    simp [exec, brk_apply, getParenNum, bind_apply, sym_ok h1, assert_apply, h2, h3, callDef, hd, hb, check_apply, get_apply, hf]
  | str h1 h2 h3 =>
    simp [exec, brk_apply, getParenStr, bind_apply, sym_ok h1, assert_apply, h2, h3, callDef, hd, hb, check_apply, get_apply, hf]

theorem exec_undefined (env : Env) {i : Inst} {n : Nat} {s : Symbol} {vm : VM} (hc : CallOf vm.st i n s)
    (hd : s.defined = false) : exec env i vm = .err .notDefined vm := by
  cases hc with
  | num h1 h2 h3 =>
    simp [exec, brk_apply, getParenNum, bind_apply, sym_ok h1, assert_apply, h2, h3, callDef, hd, check_apply]
  | str h1 h2 h3 =>
    simp [exec, brk_apply, getParenStr, bind_apply, sym_ok h1, assert_apply, h2, h3, callDef, hd, check_apply]

/-- The body of a function does inside the call what it does elsewhere. -/
theorem body_ends {env : Env} (hd : dc.bcode = some bc) (hf : fn.codeState.code.isSome = true) {e : List Inst} {u : VM} {r : Res Unit}
    (h : Computes env e u r) (hx : ∀ i ∈ e, computing i = true) {k : Nat} (hk : ∀ j i, e[j]? = some i → bc.inst[k + j]? = some i) :
    BodyEnds env line fn dc k u e.length r := by
  induction h generalizing k with
  | done => exact ⟨0, rfl⟩
  | @next i l vm vm' r hc hr _ ih =>
    have ht := tops_exec (inFn line fn dc k) env (hx i List.mem_cons_self) hc
    have hat : At (over (inFn line fn dc k) vm) i := at_inFn hd (hk 0 i rfl) vm
    refine BodyEnds.step (k' := k + 1) (len' := l.length) (u' := vm') ?_ (by simp only [List.length_cons]; omega)
      (ih (fun j hj => hx j (List.mem_cons_of_mem _ hj)) (fun j a ha => by
        have := hk (j + 1) a (by simpa using ha)
        rwa [show k + 1 + j = k + (j + 1) by omega]))
    rw [execute_at env hat]
    rw [hr] at ht
    generalize exec env i (over (inFn line fn dc k) vm) = rb at ht
    cases ht with
    | ok => rfl
    | fullNum h' => exact absurd rfl h'
    | fullStr h' => exact absurd rfl h'
  | @again i l vm vm' r hc hr _ ih =>
    have ht := tops_exec (inFn line fn dc k) env (hx i List.mem_cons_self) hc
    have hat : At (over (inFn line fn dc k) vm) i := at_inFn hd (hk 0 i rfl) vm
    refine BodyEnds.step (k' := k) (len' := (i :: l).length) (u' := vm') ?_ rfl (ih hx hk)
    rw [execute_at env hat]
    rw [hr] at ht
    generalize exec env i (over (inFn line fn dc k) vm) = rb at ht
    cases ht with
    | ok => rfl
    | fullNum h' => exact absurd rfl h'
    | fullStr h' => exact absurd rfl h'
  | @err i l vm vm' e hc hr =>
    have ht := tops_exec (inFn line fn dc k) env (hx i List.mem_cons_self) hc
    have hat : At (over (inFn line fn dc k) vm) i := at_inFn hd (hk 0 i rfl) vm
    refine ⟨0, k, _, rfl, ?_⟩
    rw [execute_at env hat]
    rw [hr] at ht
    generalize exec env i (over (inFn line fn dc k) vm) = rb at ht
    cases ht with
    | err => rfl
    | fullNum h' => exact absurd rfl h'
    | fullStr h' => exact absurd rfl h'
    | emptyNum h' => exact absurd rfl h'
    | emptyStr h' => exact absurd rfl h'
  | @halt i l vm e hc hr =>
    have ht := tops_exec (inFn line fn dc k) env (hx i List.mem_cons_self) hc
    have hat : At (over (inFn line fn dc k) vm) i := at_inFn hd (hk 0 i rfl) vm
    refine ⟨0, _, rfl, ?_⟩
    rw [execute_at env hat]
    rw [hr] at ht
    generalize exec env i (over (inFn line fn dc k) vm) = rb at ht
    cases ht with
    | halt => rfl
    | fullNum h' => exact absurd rfl h'
    | fullStr h' => exact absurd rfl h'
  | @nested i l vm n s hc h1 h2 =>
    have hat : At (over (inFn line fn dc k) vm) i := at_inFn hd (hk 0 i rfl) vm
    refine ⟨0, k, _, rfl, ?_⟩
    rw [execute_at env hat, exec_nested env (vm := over (inFn line fn dc k) vm) hc hf h1 h2]
  | @undefined i l vm n s hc h1 =>
    have hat : At (over (inFn line fn dc k) vm) i := at_inFn hd (hk 0 i rfl) vm
    refine ⟨0, k, _, rfl, ?_⟩
    rw [execute_at env hat, exec_undefined env (vm := over (inFn line fn dc k) vm) hc h1]

end

theorem callDef_ok {vm : VM} {id p : Nat} {s q : Symbol} {d : Def} {x : Dbl} {rest : List Dbl} {bc : Bcode}
    (hs : vm.st.psym[id]? = some s) (hk : s.kind = .def_) (hd : s.defined = true) (hb : s.def_ = some d)
    (hf : vm.fn.codeState.code = none) (hc : curBcode vm = .ok bc vm) (hl : vm.cs.pc + 1 < bc.inst.length)
    (hp : d.bcode.inst[1]? = some (.param p)) (hq : vm.st.psym[p]? = some q) (hv : isVar q .num = true) (ha : vm.stack = x :: rest) :
    callDef id 1 vm = .ok () (over (inFn d.sourceLine ⟨vm.cs, p, q.defined, q.num⟩ { vm.defCode with bcode := some d.bcode } 1) (bound vm p x rest)) := by
  have hu : ¬ vm.cs.pc + 1 ≥ bc.used := by simp only [Bcode.used]; omega
  simp only [callDef, bind_apply, sym_ok hs, assert_apply, hk, beq_self_eq_true, if_true, check_apply, hd, Bool.not_true, Bool.false_eq_true, if_false,
    hb, get_apply, hf, Option.isSome_none, ne_eq, not_true_eq_false, decide_false, hc, hu, modify_apply, hp]
  rw [sym_ok (s := q) (by exact hq)]
  simp only [assert_apply, hv, if_true, modify_apply, pop, ha, updSym]
  simp [over, inFn, bound]

/-- The first step of a call. -/
theorem call_step {vm : VM} {d : Def} {p : Nat} {e : List Inst} {x : Dbl} {rest : List Dbl} (h : CallsFn vm d p e x rest) (env : Env) :
    ∃ q, vm.st.psym[p]? = some q ∧ q.kind = .variable ∧ q.type = .num ∧
      execute env vm = .ok () (over (inFn d.sourceLine ⟨vm.cs, p, q.defined, q.num⟩ { vm.defCode with bcode := some d.bcode } 2) (bound vm p x rest)) := by
  obtain ⟨q, hq, hk, ht⟩ := h.param
  refine ⟨q, hq, hk, ht, ?_⟩
  obtain ⟨i, s, hat, hc, hd, hb⟩ := h.call
  obtain ⟨bc, hbc, hi⟩ := curBcode_at hat
  obtain ⟨f, hcode⟩ := h.code
  have hl : vm.cs.pc + 1 < bc.inst.length := by
    obtain ⟨j, r, b, h1, h2, h3⟩ := h.more
    have hb' : bc = b := by
      have h2' : (codeOf vm r).bcode = some b := by cases r <;> exact h2
      have h1' : vm.cs.code = some r := h1
      simp only [curBcode, h1', h2'] at hbc
      cases hbc; rfl
    subst hb'
    exact (List.getElem?_eq_some_iff.1 h3).1
  have hp : d.bcode.inst[1]? = some (.param p) := by rw [hcode]; rfl
  have hv : isVar q .num = true := by simp [isVar, hk, ht]
  rw [execute_at env hat]
  cases hc with
  | num k1 k2 k3 =>
    have := callDef_ok k1 k2 hd hb h.idle hbc hl hp hq hv h.arg
    simp only [exec, brk_apply, getParenNum, bind_apply, sym_ok k1, assert_apply, k2, k3, beq_self_eq_true, if_true, reduceCtorEq, if_false, this]
    rfl
  | str k1 k2 k3 =>
    have := callDef_ok k1 k2 hd hb h.idle hbc hl hp hq hv h.arg
    simp only [exec, brk_apply, getParenStr, bind_apply, sym_ok k1, assert_apply, k2, k3, beq_self_eq_true, if_true, reduceCtorEq, if_false, this]
    rfl

/-- The last step of a call. -/
theorem return_step (env : Env) {line p k : Nat} {cs : CodeState} {b : Bool} {y : Dbl} {dc : Code} {bc : Bcode} {w : VM} (hd : dc.bcode = some bc)
    (hi : bc.inst[k]? = some .endDef) (hs : (w.st.psym[p]?).isSome = true) (hc : cs.code.isSome = true) :
    execute env (over (inFn line ⟨cs, p, b, y⟩ dc k) w) = .ok ()
      { w with cs := following cs, st := symUpdate w.st p (fun s => { s with defined := b, num := y }),
               fn := ⟨{ cs with code := none }, p, b, y⟩, defCode := dc } := by
  obtain ⟨s, hs⟩ := Option.isSome_iff_exists.1 hs
  rw [execute_at env (at_inFn hd hi w)]
  have hn : cs.code.isNone = false := by cases h : cs.code with
    | none => rw [h] at hc; cases hc
    | some r => rfl
  have h1 : (over (inFn line ⟨cs, p, b, y⟩ dc k) w).fn = ⟨cs, p, b, y⟩ := rfl
  simp only [exec, brk_apply, endDef, bind_apply, get_apply, h1, check_apply, hn, Bool.false_eq_true, if_false, modify_apply]
  rw [sym_ok (s := s) (by exact hs)]
  simp [updSym, modify_apply, over, inFn, following]

end V
end LB
