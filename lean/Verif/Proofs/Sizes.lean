import Verif.Spec.Flow
import Verif.Proofs.Frame
import Verif.Proofs.Exec
import Verif.Proofs.Code
/- What each instruction takes from the stacks and leaves on them. -/
namespace LB
open LB.Spec Code

/-- Sizes of the two stacks. -/
def hgt (vm : VM) : Nat × Nat := (vm.stack.length, vm.strstack.length)

/-- A result that is not an error of malformed code, and satisfies `Q` if it is a success. -/
def Res.Wp {α : Type} (r : Res α) (Q : α → VM → Prop) : Prop :=
  match r with
  | .ok a vm => Q a vm
  | .err e _ => ¬ Malformed e
  | .halt _ => True

theorem Res.Wp.mono {α : Type} {r : Res α} {Q Q' : α → VM → Prop} (h : r.Wp Q) (hq : ∀ a vm, Q a vm → Q' a vm) : r.Wp Q' := by
  cases r with
  | ok a vm => exact hq a vm h
  | err e vm => exact h
  | halt h => trivial

namespace V

theorem wp_bind {α β : Type} {x : VmM α} {f : α → VmM β} {vm : VM} {Q : α → VM → Prop} {Q' : β → VM → Prop}
    (hx : (x vm).Wp Q) (hf : ∀ a vm', Q a vm' → (f a vm').Wp Q') : ((x >>= f) vm).Wp Q' := by
  simp only [bind_apply]
  cases h : x vm with
  | ok a vm' => rw [h] at hx; exact hf a vm' hx
  | err e vm' => rw [h] at hx; exact hx
  | halt h => trivial

/-- At `c`, from stacks of sizes `a` the function leaves sizes `b`, and stays at `c`. -/
def Sz {α : Type} (c : CodeState) (a b : Nat × Nat) (x : VmM α) : Prop :=
  ∀ vm, hgt vm = a → vm.cs = c → (x vm).Wp (fun _ vm' => hgt vm' = b ∧ vm'.cs = c)

variable {c : CodeState} {a b d : Nat × Nat} {α β : Type}

theorem Sz.bind {x : VmM α} {f : α → VmM β} (hx : Sz c a b x) (hf : ∀ v, Sz c b d (f v)) : Sz c a d (x >>= f) :=
  fun vm h1 h2 => wp_bind (hx vm h1 h2) (fun v vm' h => hf v vm' h.1 h.2)

theorem Sz.pure (v : α) : Sz c a a (pure v) := fun _ h1 h2 => ⟨h1, h2⟩
theorem Sz.get : Sz c a a V.get := fun _ h1 h2 => ⟨h1, h2⟩
theorem Sz.fail {e : RunError} (h : ¬ Malformed e) : Sz c a b (V.fail e : VmM α) := fun _ _ _ => h
theorem Sz.halt (e : Halt) : Sz c a b (V.halt e : VmM α) := fun _ _ _ => trivial
theorem Sz.lift (o : Outcome α) : Sz c a a (V.lift o) := by
  cases o
  · exact Sz.pure _
  · exact Sz.halt _
theorem Sz.modify {f : VM → VM} (h : ∀ vm, hgt (f vm) = hgt vm ∧ (f vm).cs = vm.cs) : Sz c a a (V.modify f) :=
  fun vm h1 h2 => ⟨(h vm).1.trans h1, (h vm).2.trans h2⟩
theorem Sz.assert (t : Bool) (w : String) : Sz c a a (V.assert t w) := by
  cases t
  · exact Sz.halt _
  · exact Sz.pure _
theorem Sz.when {t : Bool} {x : VmM Unit} (h : Sz c a a x) : Sz c a a (V.when_ t x) := by
  cases t
  · exact Sz.pure _
  · exact h
theorem Sz.check {t : Bool} {e : RunError} (h : ¬ Malformed e) : Sz c a a (V.check t e) := by
  cases t
  · exact Sz.pure _
  · exact Sz.fail h
theorem Sz.ite {p : Prop} [Decidable p] {x y : VmM α} (hx : Sz c a b x) (hy : Sz c a b y) :
    Sz c a b (if p then x else y) := by split <;> assumption
theorem Sz.brk {x : VmM Unit} (h : Sz c a b x) : Sz c a b (V.brk x) := h.bind (fun _ => Sz.pure _)

section
variable {n s : Nat}

theorem sz_push (x : Dbl) : Sz c (n, s) (n + 1, s) (push x) := by
  intro vm h1 h2
  simp only [hgt, Prod.mk.injEq] at h1
  unfold push
  split
  · show ¬ _; decide
  · exact ⟨by simp [hgt, h1.1, h1.2], h2⟩

theorem sz_pop : Sz c (n + 1, s) (n, s) pop := by
  intro vm h1 h2
  simp only [hgt, Prod.mk.injEq] at h1
  unfold pop
  split
  · rename_i h; rw [h] at h1; simp at h1
  · rename_i h
    rw [h] at h1
    simp only [List.length_cons, Nat.add_right_cancel_iff] at h1
    exact ⟨by simp [hgt, h1.1, h1.2], h2⟩

theorem sz_pushStr (x : CStr) : Sz c (n, s) (n, s + 1) (pushStr x) := by
  intro vm h1 h2
  simp only [hgt, Prod.mk.injEq] at h1
  unfold pushStr
  split
  · show ¬ _; decide
  · exact ⟨by simp [hgt, h1.1, h1.2], h2⟩

theorem sz_popStr : Sz c (n, s + 1) (n, s) popStr := by
  intro vm h1 h2
  simp only [hgt, Prod.mk.injEq] at h1
  unfold popStr
  split
  · rename_i h; rw [h] at h1; simp at h1
  · rename_i h
    rw [h] at h1
    simp only [List.length_cons, Nat.add_right_cancel_iff] at h1
    exact ⟨by simp [hgt, h1.1, h1.2], h2⟩

theorem sz_sym (id : Nat) : Sz c a a (sym id) := by
  intro vm h1 h2
  unfold sym
  split
  · exact ⟨h1, h2⟩
  · trivial

theorem sz_curBcode : Sz c a a curBcode := by
  intro vm h1 h2
  unfold curBcode
  split
  · trivial
  · split
    · trivial
    · exact ⟨h1, h2⟩

theorem sz_curSource : Sz c a a curSource := by
  intro vm h1 h2
  unfold curSource
  split
  · trivial
  · exact ⟨h1, h2⟩

theorem sz_updSym (id : Nat) (f : Symbol → Symbol) : Sz c a a (updSym id f) := Sz.modify (fun _ => ⟨rfl, rfl⟩)
theorem sz_out (t : CStr) : Sz c a a (out t) := Sz.modify (fun _ => ⟨rfl, rfl⟩)

/-- One step through a function that does not leave its place. -/
macro "szs" : tactic => `(tactic| repeat' (with_reducible first
  | exact Sz.pure _ | exact Sz.get | exact Sz.halt _ | exact Sz.lift _ | exact Sz.assert _ _
  | exact sz_push _ | exact sz_pop | exact sz_pushStr _ | exact sz_popStr | exact sz_sym _ | exact sz_curBcode | exact sz_curSource
  | exact sz_updSym _ _ | exact sz_out _
  | (apply Sz.check; decide) | (apply Sz.fail; decide)
  | apply Sz.when | apply Sz.brk | apply Sz.ite
  | apply Sz.bind | intro _ | split))

theorem sz_popLogic : Sz c (n + 1, s) (n, s) popLogic := by unfold popLogic; szs
theorem sz_popUnsigned : Sz c (n + 1, s) (n, s) popUnsigned := by unfold popUnsigned; szs
theorem sz_popIndex : Sz c (n + 1, s) (n, s) popIndex := by unfold popIndex; szs
theorem sz_popIndexLoop (k : Nat) : Sz c (n + k, s) (n, s) (popIndexLoop k) := by
  induction k with
  | zero => exact Sz.pure _
  | succ k ih => exact Sz.bind (b := (n + k, s)) sz_popIndex (fun _ => ih.bind (fun _ => Sz.pure _))
theorem sz_popIndexes (k : Nat) : Sz c (n + k, s) (n, s) (popIndexes k) :=
  (Sz.assert _ _).bind (fun _ => sz_popIndexLoop k)
theorem sz_pushLogic (x : Bool) : Sz c (n, s) (n + 1, s) (pushLogic x) := sz_push _
theorem sz_compareStrings : Sz c (n, s + 2) (n, s) compareStrings := by unfold compareStrings; szs
theorem sz_getNumericSimple (id : Nat) : Sz c (n, s) (n + 1, s) (getNumericSimple id) := by unfold getNumericSimple; szs
theorem sz_setNumericSimple (id : Nat) (x : Dbl) : Sz c a a (setNumericSimple id x) := by unfold setNumericSimple; szs
theorem sz_getStringSimple (id : Nat) : Sz c (n, s) (n, s + 1) (getStringSimple id) := by unfold getStringSimple; szs
theorem sz_setStringSimple (id : Nat) (x : CStr) : Sz c a a (setStringSimple id x) := by unfold setStringSimple; szs

variable {F : ArrField α}

theorem sz_dimension (id : Nat) (m : List Nat) : Sz c a a (dimension F id m) := by unfold dimension; szs
theorem sz_dimensionAuto (id : Nat) (m : List Nat) : Sz c a a (dimensionAuto F id m) := by
  unfold dimensionAuto; szs; exact sz_dimension _ _
theorem sz_dimStatement (id k : Nat) : Sz c (n + k, s) (n, s) (dimStatement F id k) := by
  unfold dimStatement
  refine (sz_sym _).bind (fun _ => (Sz.assert _ _).bind (fun _ => (Sz.when ?_).bind (fun _ => (sz_popIndexes k).bind (fun _ => sz_dimension _ _))))
  szs
theorem sz_elementArray (id k : Nat) : Sz c (n + k, s) (n, s) (elementArray F id k) := by
  unfold elementArray
  refine (sz_sym _).bind (fun _ => (Sz.assert _ _).bind (fun _ => (sz_popIndexes k).bind (fun _ => (Sz.when (sz_dimensionAuto _ _)).bind (fun _ => ?_))))
  szs
theorem sz_getElement (id k : Nat) : Sz c (n + k, s) (n, s) (getElement F id k) := by
  unfold getElement
  refine (sz_elementArray id k).bind (fun _ => ?_)
  szs
theorem sz_setElement (id k : Nat) (v : α) : Sz c (n + k, s) (n, s) (setElement F id k v) := by
  unfold setElement
  refine (sz_elementArray id k).bind (fun _ => ?_)
  szs
theorem sz_setNumeric (id k : Nat) (x : Dbl) : Sz c (n + k, s) (n, s) (setNumeric id k x) := by
  unfold setNumeric
  split
  · rename_i h; subst h; exact sz_setNumericSimple _ _
  · exact sz_setElement _ _ _
theorem sz_setString (id k : Nat) (x : CStr) : Sz c (n + k, s) (n, s) (setString id k x) := by
  unfold setString
  split
  · rename_i h; subst h; exact sz_setStringSimple _ _
  · exact sz_setElement _ _ _

theorem sz_findBasicLine (l : Nat) : Sz c a a (findBasicLine l) := by
  intro vm h1 h2
  unfold findBasicLine
  split
  · show ¬ Malformed _; simp [Malformed]
  · exact ⟨h1, h2⟩

theorem sz_findData : Sz c a a findData := by
  unfold findData
  szs
  all_goals exact Sz.modify (fun _ => ⟨rfl, rfl⟩)

theorem sz_outCol (t : CStr) (k : Nat) : Sz c a a (outCol t k) := by
  unfold outCol
  szs
  exact Sz.modify (fun _ => ⟨rfl, rfl⟩)

theorem sz_readClock (env : Env) : Sz c a a (readClock env) := by
  unfold readClock
  szs
  exact Sz.modify (fun _ => ⟨rfl, rfl⟩)

theorem sz_leftFn : Sz c (n + 1, s + 1) (n, s + 1) leftFn := by
  unfold leftFn; refine sz_popStr.bind (fun _ => sz_popUnsigned.bind (fun _ => ?_)); szs
theorem sz_rightFn : Sz c (n + 1, s + 1) (n, s + 1) rightFn := by
  unfold rightFn; refine sz_popStr.bind (fun _ => sz_popUnsigned.bind (fun _ => ?_)); szs
theorem sz_midFn : Sz c (n + 2, s + 1) (n, s + 1) midFn := by
  unfold midFn; refine sz_popStr.bind (fun _ => sz_popUnsigned.bind (fun _ => sz_popUnsigned.bind (fun _ => ?_))); szs
theorem sz_valFn : Sz c (n, s + 1) (n + 1, s) valFn := by unfold valFn; szs

theorem sz_builtinOp (env : Env) (f : Bi) (hf : f ≠ .rnd) :
    Sz c (n + (uses (.bi f)).1, s + (uses (.bi f)).2) (n + (gives (.bi f)).1, s + (gives (.bi f)).2) (builtinOp env f) := by
  cases f <;> simp only [builtinOp, uses, gives, Nat.add_zero] <;> first
    | exact sz_leftFn
    | exact sz_rightFn
    | exact sz_midFn
    | exact sz_valFn
    | exact absurd rfl hf
    | exact (sz_readClock env).bind (fun _ => sz_pushStr _)
    | szs

theorem sz_printSpc : Sz c (n + 1, s) (n, s) printSpc := by
  unfold printSpc; exact sz_popUnsigned.bind (fun _ => Sz.get.bind (fun _ => sz_outCol _ _))
theorem sz_printTab : Sz c (n + 1, s) (n, s) printTab := by
  unfold printTab
  refine sz_popUnsigned.bind (fun _ => Sz.get.bind (fun _ => ?_))
  szs <;> exact sz_outCol _ _
theorem sz_printComma : Sz c a a printComma := by
  unfold printComma; exact Sz.get.bind (fun _ => sz_outCol _ _)
theorem sz_printNum : Sz c (n + 1, s) (n, s) printNum := by
  unfold printNum; exact sz_pop.bind (fun _ => Sz.get.bind (fun _ => sz_outCol _ _))
theorem sz_printStr : Sz c (n, s + 1) (n, s) printStr := by
  unfold printStr; exact sz_popStr.bind (fun _ => Sz.get.bind (fun _ => sz_outCol _ _))

theorem sz_inputRest : Sz c a a inputRest := by
  intro vm h1 h2
  unfold inputRest
  split
  · trivial
  · exact ⟨h1, h2⟩

theorem sz_readInputLine : Sz c a a readInputLine := by
  unfold readInputLine
  exact Sz.modify (fun vm => by split <;> exact ⟨rfl, rfl⟩)

theorem sz_inputBuf (p : Option CStr) : Sz c a a (inputBuf p) := by
  unfold inputBuf
  szs
  · exact sz_readInputLine
  · exact Sz.modify (fun _ => ⟨rfl, rfl⟩)

theorem sz_advance (k : Nat) : Sz c a a (advance k) := Sz.modify (fun _ => ⟨rfl, rfl⟩)

theorem sz_inputEnd : Sz c a a inputEnd := by
  unfold inputEnd
  exact sz_inputRest.bind (fun _ => (sz_advance _).bind (fun _ => Sz.when (sz_out _)))

theorem sz_inputStr (id k : Nat) : Sz c (n + k, s) (n, s) (inputStr id k) := by
  unfold inputStr
  exact sz_inputRest.bind (fun _ => (sz_advance _).bind (fun _ => (sz_sym _).bind (fun _ => sz_setString _ _ _)))

theorem sz_inputLine (id k : Nat) : Sz c (n + k, s) (n, s) (inputLine id k) := by
  unfold inputLine
  exact Sz.bind (Sz.modify (fun _ => ⟨rfl, rfl⟩)) (fun _ => Sz.get.bind (fun _ => (sz_sym _).bind (fun _ => sz_setString _ _ _)))

theorem sz_readNum (id k : Nat) : Sz c (n + k, s) (n, s) (readNum id k) := by
  unfold readNum
  refine sz_findData.bind (fun _ => ?_)
  split
  · exact sz_setNumeric _ _ _
  · exact Sz.fail (by decide)

theorem sz_readStr (id k : Nat) : Sz c (n + k, s) (n, s) (readStr id k) := by
  unfold readStr
  exact sz_findData.bind (fun _ => sz_setString _ _ _)

/-- Instructions that go on with the next one. -/
def straight : Inst → Bool
  | .nop | .clear | .setSimpleNum _ | .dimNum _ _ | .setArrayNum _ _ | .setSimpleStr _ | .dimStr _ _ | .setArrayStr _ _
  | .printLn | .printSpc | .printTab | .printComma | .printNum | .printStr | .cls | .inputBuf _ | .inputEnd | .inputStr _ _
  | .inputLine _ _ | .data _ | .readNum _ _ | .readStr _ _ | .restore | .restoreLine _ | .rand | .seed => true
  | _ => false

/-- A case that ends with `break`. -/
def Steps (c : CodeState) (a b : Nat × Nat) (x : VmM V.Flow) : Prop :=
  ∀ vm, hgt vm = a → vm.cs = c → (x vm).Wp (fun f vm' => f = .brk ∧ hgt vm' = b ∧ vm'.cs = c)

theorem Sz.steps {x : VmM Unit} (h : Sz c a b x) : Steps c a b (V.brk x) :=
  fun vm h1 h2 => wp_bind (h vm h1 h2) (fun _ _ h => ⟨rfl, h⟩)

theorem steps_pure : Steps c a a (Pure.pure V.Flow.brk) := fun _ h1 h2 => ⟨rfl, h1, h2⟩

theorem steps_straight (env : Env) (i : Inst) (hi : straight i = true) :
    Steps c (n + (uses i).1, s + (uses i).2) (n, s) (exec env i) := by
  cases i <;> simp only [straight, Bool.false_eq_true] at hi <;>
    simp only [exec, uses, Nat.add_zero] <;> first
    | exact steps_pure
    | (apply Sz.steps; first
      | exact sz_dimStatement _ _
      | exact sz_printSpc
      | exact sz_printTab
      | exact sz_printComma
      | exact sz_printNum
      | exact sz_printStr
      | exact sz_inputBuf _
      | exact sz_inputEnd
      | exact sz_inputStr _ _
      | exact sz_inputLine _ _
      | exact sz_readNum _ _
      | exact sz_readStr _ _
      | exact sz_outCol _ _
      | exact Sz.modify (fun _ => ⟨rfl, rfl⟩)
      | exact (sz_sym _).bind (fun _ => sz_pop.bind (fun _ => sz_setNumericSimple _ _))
      | exact (sz_sym _).bind (fun _ => sz_pop.bind (fun _ => sz_setElement _ _ _))
      | exact (sz_sym _).bind (fun _ => sz_popStr.bind (fun _ => sz_setStringSimple _ _))
      | exact (sz_sym _).bind (fun _ => sz_popStr.bind (fun _ => sz_setElement _ _ _))
      | exact (sz_findBasicLine _).bind (fun _ => Sz.modify (fun _ => ⟨rfl, rfl⟩))
      | exact (sz_readClock _).bind (fun _ => Sz.modify (fun _ => ⟨rfl, rfl⟩))
      | exact sz_popUnsigned.bind (fun _ => Sz.modify (fun _ => ⟨rfl, rfl⟩)))

/-- Instructions of expressions that go on with the next one. -/
def direct : Inst → Bool
  | .getParenNum _ _ | .getParenStr _ _ | .bi .rnd => false
  | i => isExpr i

theorem steps_direct (env : Env) (i : Inst) (hi : direct i = true) :
    Steps c (n + (uses i).1, s + (uses i).2) (n + (gives i).1, s + (gives i).2) (exec env i) := by
  cases i with
  | bi f =>
    have hf : f ≠ .rnd := by rintro rfl; cases hi
    have he : exec env (.bi f) = V.brk (builtinOp env f) := by cases f <;> first | rfl | exact absurd rfl hf
    rw [he]
    exact (sz_builtinOp env f hf).steps
  | _ =>
    simp only [direct, isExpr, Bool.false_eq_true] at hi <;>
    simp only [exec, uses, gives, Nat.add_zero] <;>
    (apply Sz.steps; first
      | exact sz_push _
      | exact sz_pushStr _
      | exact sz_getNumericSimple _
      | exact sz_getStringSimple _
      | exact sz_popStr.bind (fun _ => Sz.pure _)
      | exact sz_pop.bind (fun _ => Sz.pure _)
      | exact sz_pop.bind (fun _ => sz_pop.bind (fun _ => sz_push _))
      | exact sz_pop.bind (fun _ => sz_push _)
      | exact sz_pop.bind (fun _ => sz_pop.bind (fun _ => sz_pushLogic _))
      | exact sz_popLogic.bind (fun _ => sz_popLogic.bind (fun _ => sz_push _))
      | exact sz_popLogic.bind (fun _ => sz_push _)
      | exact sz_compareStrings.bind (fun _ => sz_pushLogic _)
      | exact sz_popStr.bind (fun _ => sz_popStr.bind (fun _ => (Sz.check (by decide)).bind (fun _ => sz_pushStr _))))

theorem wp_rnd (env : Env) (vm : VM) : (exec env (.bi .rnd) vm).Wp (fun f vm' =>
    f = .ret ∧ hgt vm' = hgt vm ∧ vm'.cs = vm.cs ∨ f = .brk ∧ hgt vm' = ((hgt vm).1 + 1, (hgt vm).2) ∧ vm'.cs = vm.cs) := by
  simp only [exec, rndStep, bind_apply, get_apply, modify_apply, ite_apply, pure_apply, brk_apply]
  split
  · exact .inl ⟨rfl, rfl, rfl⟩
  · have := sz_push (c := vm.cs) (n := vm.stack.length) (s := vm.strstack.length)
      (Dbl.div (Dbl.ofInt (env.rand vm.world.rng).1) (Dbl.ofInt env.randMax))
      { vm with world := { vm.world with rng := (env.rand vm.world.rng).2 } } rfl rfl
    revert this
    cases push (Dbl.div (Dbl.ofInt (env.rand vm.world.rng).1) (Dbl.ofInt env.randMax))
      { vm with world := { vm.world with rng := (env.rand vm.world.rng).2 } } with
    | ok a vm' => exact fun h => .inr ⟨rfl, h⟩
    | err e vm' => exact fun h => h
    | halt h => exact fun _ => trivial

/-- The machine has entered the function `d` by a call. -/
structure Entered (vm vm' : VM) (d : Def) : Prop where
  idle : vm.fn.codeState.code = none
  back : vm'.fn.codeState = vm.cs
  code : vm'.defCode.bcode = some d.bcode
  ref : vm'.cs.code = some .def_
  pc : vm'.cs.pc = 1
  size : (hgt vm').1 + 1 = (hgt vm).1 ∧ (hgt vm').2 = (hgt vm).2

theorem wp_callDef {vm : VM} {id k : Nat} (hk : k ≤ (hgt vm).1)
    (hcode : ∀ r b, vm.cs.code = some r → (codeOf vm r).bcode = some b → vm.fn.codeState.code = none → vm.cs.pc + 1 < b.used)
    (hdef : ∀ q d, vm.st.psym[id]? = some q → q.def_ = some d → ∃ pid, d.bcode.inst[1]? = some (.param pid)) :
    (callDef id k vm).Wp (fun _ vm' => k = 1 ∧ ∃ q d, vm.st.psym[id]? = some q ∧ q.kind = .def_ ∧ q.def_ = some d ∧ Entered vm vm' d) := by
  unfold callDef
  simp only [bind_apply]
  cases hs : vm.st.psym[id]? with
  | none => simp only [sym, symbolAt, hs]; trivial
  | some q =>
    simp only [sym_ok hs, assert_apply, check_apply]
    by_cases hkind : q.kind = .def_
    case neg => simp [hkind, Res.Wp]
    simp only [hkind, beq_self_eq_true, if_true]
    cases hd : q.defined with
    | false => simp [Res.Wp, Malformed]
    | true =>
      simp only [Bool.not_true, Bool.false_eq_true, if_false]
      cases hdq : q.def_ with
      | none => trivial
      | some d =>
        simp only [bind_apply, get_apply, check_apply]
        cases hfn : vm.fn.codeState.code with
        | some r => simp [Res.Wp, Malformed]
        | none =>
          simp only [Option.isSome_none, Bool.false_eq_true, if_false]
          by_cases h1 : k = 1
          case neg => simp [h1, Res.Wp, Malformed]
          subst h1
          simp only [ne_eq, not_true, decide_false, Bool.false_eq_true, if_false]
          cases hr : vm.cs.code with
          | none => simp only [curBcode, hr]; trivial
          | some r =>
            cases hb : (codeOf vm r).bcode with
            | none => simp only [curBcode, hr, hb]; trivial
            | some b =>
              have hlt := hcode r b hr hb hfn
              have hnot : decide (vm.cs.pc + 1 ≥ b.used) = false := by simpa using hlt
              obtain ⟨pid, hpid⟩ := hdef q d hs hdq
              simp only [curBcode, hr, hb, hnot, Bool.false_eq_true, if_false, modify_apply, hpid, bind_apply]
              cases hp : vm.st.psym[pid]? with
              | none => simp only [sym, symbolAt, hp]; trivial
              | some ps =>
                simp only [sym, symbolAt, hp, assert_apply]
                by_cases hv : isVar ps .num = true
                case neg => simp [hv, Res.Wp]
                simp only [hv, if_true]
                cases hst : vm.stack with
                | nil => simp [hgt, hst] at hk
                | cons x xs =>
                  simp only [pop, updSym, modify_apply]
                  exact ⟨trivial, q, d, rfl, hkind, hdq, ⟨hfn, rfl, rfl, rfl, rfl, by simp [hgt, hst]⟩⟩

end
end V
end LB
