import Verif.Proofs.Numbers
import Verif.Proofs.Flow
import Verif.Proofs.Index
import Verif.Proofs.Branches
import Verif.Proofs.Calls
/- Execution stays within the structure of the compiled code: where an instruction goes. -/
namespace LB
open LB.Spec Code

theorem Res.All.imp {α : Type} {r : Res α} {I J : VM → Prop} (h : r.All I) (hi : ∀ vm, I vm → J vm) : r.All J := by
  cases r with
  | ok a vm => exact hi vm h
  | err e vm => exact hi vm h
  | halt h => trivial

/-- Everything that execution can go to is in order. -/
structure Ordered (ph : Phase) (vm : VM) : Prop where
  stored : ∀ b, vm.stored.bcode = some b → WellCode vm.st b
  index : ∀ idx n pc, vm.stored.index = some idx → lookupLineMapping idx n = some pc →
    ∃ b l, vm.stored.bcode = some b ∧ b.inst[pc]? = some (.sourceLine l)
  imm : ph = .typed → ∀ b, vm.immediate.bcode = some b → WellCode vm.st b
  defs : ∀ (q : Nat) s d, vm.st.psym[q]? = some s → s.def_ = some d → WellDef vm.st s.type d
  rets : ∀ cs ∈ vm.retstack, Place ph vm cs.code cs.pc
  fors : ∀ f ∈ vm.forStack, Place ph vm f.codeState.code (f.codeState.pc + 1)

/-- The machine is at a place where it can go on. -/
def Running (ph : Phase) (vm : VM) : Prop :=
  RunAt ph vm vm.cs (hgt vm) (V.ipOf vm) vm.fn.codeState vm.defCode.bcode

/-- Where the machine goes after the case of an instruction. -/
def goes : V.Flow → CodeState → CodeState
  | .ret, c => c
  | .brk, c => following c

/-- After this result of a case the machine can go on. -/
def Goes (ph : Phase) (vm : VM) (f : V.Flow) (vm' : VM) : Prop :=
  RunAt ph vm (goes f vm'.cs) (hgt vm') (V.ipOf vm') vm'.fn.codeState vm'.defCode.bcode

theorem Ordered.line {ph : Phase} {vm : VM} (o : Ordered ph vm) {idx : LineMap} {n pc : Nat} (h1 : vm.stored.index = some idx)
    (h2 : lookupLineMapping idx n = some pc) : Place ph vm (some .stored) pc := by
  obtain ⟨b, l, hb, hl⟩ := o.index idx n pc h1 h2
  exact ⟨.stored, b, rfl, .inl rfl, hb, (o.stored _ hb).1.line hl⟩

namespace V

theorem wp_line {ph : Phase} {vm0 vm : VM} (o : Ordered ph vm0) (hs : vm.stored = vm0.stored) (l : Nat) :
    (V.ret (goToBasicLine l) vm).Wp (Goes ph vm0) := by
  refine wp_bind (wp_goToBasicLine vm l) ?_
  rintro _ vm' ⟨idx, pc, h1, h2, h3⟩
  refine Place.runAt ?_ _ _ _ _
  simp only [goes, h3]
  rw [hs] at h1
  exact o.line h1 h2

/-- The running code. -/
structure InCode (ph : Phase) (vm : VM) (r : CodeRef) (b : Bcode) : Prop where
  ref : vm.cs.code = some r
  home : Home ph r
  bcode : (codeOf vm r).bcode = some b

variable {ph : Phase} {vm : VM} {r : CodeRef} {b : Bcode}

theorem InCode.place (hc : InCode ph vm r b) {pc : Nat} (hp : Pieces (FnTy vm.st) (b.inst.drop pc)) : Place ph vm (some r) pc := by
  exact ⟨r, b, rfl, hc.home, hc.bcode, hp⟩

theorem InCode.goes (hc : InCode ph vm r b) {f : V.Flow} {vm' : VM} {pc : Nat} (h1 : (LB.goes f vm'.cs).code = vm.cs.code)
    (h2 : (LB.goes f vm'.cs).pc = pc) (hp : Pieces (FnTy vm.st) (b.inst.drop pc)) : Goes ph vm f vm' := by
  refine Place.runAt ?_ _ _ _ _
  rw [h1, h2, hc.ref]
  exact hc.place hp

theorem InCode.safe (hc : InCode ph vm r b) {f : V.Flow} {vm' : VM} {pc : Nat} (h1 : (LB.goes f vm'.cs).code = vm.cs.code)
    (h2 : (LB.goes f vm'.cs).pc = pc) (hs : Safe (FnTy vm.st) b.inst pc (hgt vm') (ipOf vm')) : Goes ph vm f vm' := by
  exact .inl ⟨r, b, by rw [h1, hc.ref], hc.home, hc.bcode, by rw [h2]; exact hs⟩

theorem InCode.cur (hc : InCode ph vm r b) {vm' : VM} (h1 : vm'.cs.code = vm.cs.code) (h2 : codeOf vm' r = codeOf vm r) :
    curBcode vm' = .ok b vm' := by
  simp [curBcode, h1, hc.ref, h2, hc.bcode]

/-- A straight instruction at the end of a piece. -/
theorem step_straight (env : Env) {i : Inst} (hc : InCode ph vm r b) (hi : straight i = true) (h1 : (uses i).1 ≤ (hgt vm).1)
    (h2 : (uses i).2 ≤ (hgt vm).2) (hp : Pieces (FnTy vm.st) (b.inst.drop (vm.cs.pc + 1))) :
    (exec env i vm).Wp (Goes ph vm) := by
  have hs := steps_straight (c := vm.cs) (n := (hgt vm).1 - (uses i).1) (s := (hgt vm).2 - (uses i).2) env i hi vm
    (by rw [Nat.sub_add_cancel h1, Nat.sub_add_cancel h2]) rfl
  refine hs.mono ?_
  rintro _ vm' ⟨rfl, -, h5⟩
  exact hc.goes (by simp only [LB.goes, h5, following]) (by simp only [LB.goes, h5, following]) hp

/-- A jump within the same code. -/
theorem wp_skip (hc : InCode ph vm r b) {vm1 : VM} (h1 : vm1.cs = vm.cs) (h2 : codeOf vm1 r = codeOf vm r) (p : Inst → Bool) :
    (skipTo p vm1).Wp (fun _ vm' => vm'.cs = { vm.cs with pc := scan p b.inst (vm.cs.pc + 1) }) := by
  simp only [skipTo, bind_apply, hc.cur (vm' := vm1) (by rw [h1]) h2, get_apply, setPc, modify_apply, h1]
  exact rfl

theorem scan_line {T : Nat → Ty → Prop} {l : List Inst} (h : Pieces T l) (pc : Nat) :
    Pieces T (l.drop (scan Inst.isSourceLine l pc)) := by
  rcases scan_spec Inst.isSourceLine l pc with ⟨i, h1, h2⟩ | h1
  · cases i with
    | sourceLine n => exact h.line h1
    | _ => cases h2
  · exact Pieces.end_ h1

theorem scan_else {T : Nat → Ty → Prop} {l : List Inst} (h : Pieces T l) (pc : Nat) :
    Pieces T (l.drop (scan isElse l pc + 1)) := by
  rcases scan_spec isElse l pc with ⟨i, h1, h2⟩ | h1
  · cases i with
    | else_ => exact h.after h1 rfl
    | _ => cases h2
  · exact Pieces.end_ (by omega)

theorem codeOf_stack (vm : VM) (s : List Dbl) (r : CodeRef) : codeOf { vm with stack := s } r = codeOf vm r := by cases r <;> rfl

/-- A popped number. -/
theorem wp_pop {α : Type} {f : Dbl → VmM α} {Q : α → VM → Prop} (h : 1 ≤ (hgt vm).1)
    (hf : ∀ x s, (f x { vm with stack := s }).Wp Q) : ((pop >>= f) vm).Wp Q := by
  rw [bind_apply]
  cases hs : vm.stack with
  | nil => simp [hgt, hs] at h
  | cons x s => simp only [pop, hs]; exact hf x s

theorem step_plain (env : Env) {i : Inst} (o : Ordered ph vm) (hc : InCode ph vm r b) (hw : WellCode vm.st b) (hi : plain i = true)
    (hS : Safe (FnTy vm.st) b.inst vm.cs.pc (hgt vm) (ipOf vm))
    (h1 : (uses i).1 ≤ (hgt vm).1) (h2 : (uses i).2 ≤ (hgt vm).2)
    (hp : Pieces (FnTy vm.st) (b.inst.drop (vm.cs.pc + 1))) :
    (exec env i vm).Wp (Goes ph vm) := by
  by_cases hs : straight i = true
  · exact step_straight env hc hs h1 h2 hp
  cases i <;> first | exact absurd rfl hs | exact (Bool.false_ne_true hi).elim | skip
  case sourceLine l =>
    refine wp_bind (wp_sourceLine vm l) ?_
    rintro _ vm' ⟨h3, h4⟩
    exact hc.goes (f := .brk) h3 (by rw [LB.goes, following, h4]) hp
  case end_ =>
    simp only [exec, ret_apply, bind_apply, hc.cur rfl rfl, setPc, modify_apply]
    exact hc.goes rfl rfl (Pieces.end_ (Nat.le_refl _))
  case stop =>
    simp only [exec, ret_apply, modify_apply]
    exact hc.safe (f := .ret) rfl rfl hS
  case goto_ l => exact wp_line o rfl l
  case gotrue l =>
    refine wp_pop h1 (fun x s => ?_)
    by_cases hx : truth x = true
    · simp only [hx, if_true]; exact wp_line o (vm := { vm with stack := s }) rfl l
    · simp only [hx]; exact hc.goes (f := .brk) rfl rfl hp
  case gosub l =>
    simp only [exec, ret_apply, bind_apply, get_apply, pushReturn]
    by_cases hd : vm.retstack.length ≥ maxReturnStack
    · simp only [if_pos hd]; exact (show ¬ Malformed .gosubTooDeep by decide)
    · simp only [if_neg hd]
      have := wp_line o (vm := { vm with retstack := { vm.cs with pc := vm.cs.pc + 1 } :: vm.retstack }) rfl l
      rwa [ret_apply] at this
  case return_ =>
    simp only [exec, ret_apply, popReturn]
    cases hr : vm.retstack with
    | nil => exact (show ¬ Malformed .returnWithoutGosub by decide)
    | cons c rs => exact (o.rets c (by rw [hr]; exact .head _)).runAt _ _ _ _
  case for_ id =>
    have hz := sz_forStatement vm.cs ((hgt vm).1 - 3) (hgt vm).2 id vm
      (by rw [Nat.sub_add_cancel (show 3 ≤ (hgt vm).1 from h1)]) rfl
    refine wp_bind hz ?_
    rintro _ vm' ⟨-, h3⟩
    exact hc.goes (f := .brk) (by rw [LB.goes, following, h3]) (by rw [LB.goes, following, h3]) hp
  case nextVar id =>
    refine wp_bind (wp_nextVariable vm id) ?_
    rintro _ vm' (h3 | ⟨f, hf, h3⟩)
    · exact hc.goes (f := .brk) (by rw [LB.goes, following, h3]) (by rw [LB.goes, following, h3]) hp
    · refine Place.runAt ?_ _ _ _ _
      simp only [LB.goes, following, h3]
      exact o.fors f hf
  case nextImp =>
    refine wp_bind (wp_nextImplicit vm) ?_
    rintro _ vm' (h3 | ⟨f, hf, h3⟩)
    · exact hc.goes (f := .brk) (by rw [LB.goes, following, h3]) (by rw [LB.goes, following, h3]) hp
    · refine Place.runAt ?_ _ _ _ _
      simp only [LB.goes, following, h3]
      exact o.fors f hf
  case ifThen =>
    refine wp_pop h1 (fun x s => ?_)
    by_cases hx : truth x = true
    · simp only [hx]; exact hc.goes (f := .brk) rfl rfl hp
    · simp only [hx]
      refine wp_bind (wp_skip hc (vm1 := { vm with stack := s }) rfl (codeOf_stack _ _ _) _) ?_
      intro _ vm' h3
      exact hc.goes (f := .ret) (by rw [LB.goes, h3]) (by rw [LB.goes, h3]) (scan_line hw.1 _)
  case ifElse =>
    refine wp_pop h1 (fun x s => ?_)
    by_cases hx : truth x = true
    · simp only [hx]; exact hc.goes (f := .brk) rfl rfl hp
    · simp only [hx]
      refine wp_bind (wp_skip hc (vm1 := { vm with stack := s }) rfl (codeOf_stack _ _ _) _) ?_
      intro _ vm' h3
      exact hc.goes (f := .brk) (by rw [LB.goes, following, h3]) (by rw [LB.goes, following, h3]) (scan_else hw.1 _)
  case else_ =>
    refine wp_bind (wp_skip hc rfl rfl _) ?_
    intro _ vm' h3
    exact hc.goes (f := .ret) (by rw [LB.goes, h3]) (by rw [LB.goes, h3]) (scan_line hw.1 _)

/-! Instructions of expressions. -/

theorem expr_quiet {i : Inst} (h : isExpr i = true) : touches i .input = false := by
  cases i with
  | bi f => cases f <;> rfl
  | _ => first | rfl | exact (Bool.false_ne_true h).elim

theorem direct_quiet {i : Inst} (h : direct i = true) : touches i .fn = false := by
  cases i with
  | bi f => cases f <;> rfl
  | _ => first | rfl | exact (Bool.false_ne_true h).elim

theorem expr_cases {i : Inst} (h : isExpr i = true) :
    direct i = true ∨ i = .bi .rnd ∨ (∃ id n, i = .getParenNum id n) ∨ ∃ id n, i = .getParenStr id n := by
  cases i with
  | bi f => cases f <;> first | exact .inl rfl | exact .inr (.inl rfl)
  | getParenNum id n => exact .inr (.inr (.inl ⟨id, n, rfl⟩))
  | getParenStr id n => exact .inr (.inr (.inr ⟨id, n, rfl⟩))
  | _ => first | exact .inl rfl | exact (Bool.false_ne_true h).elim

/-- What an instruction of an expression does, other than to call a function. -/
structure Evals (vm : VM) (k : Nat × Nat) (f : V.Flow) (vm' : VM) : Prop where
  flow : f = .brk ∧ hgt vm' = k ∨ f = .ret ∧ hgt vm' = hgt vm
  cs : vm'.cs = vm.cs
  ip : ipOf vm' = ipOf vm
  fn : vm'.fn = vm.fn
  code : vm'.defCode = vm.defCode

/-- What a call of a function does. -/
structure Calls (st : SymTab) (vm : VM) (k : Nat × Nat) (f : V.Flow) (vm' : VM) : Prop where
  idle : vm.fn.codeState.code = none
  flow : f = .brk
  back : vm'.fn.codeState = vm.cs
  ref : vm'.cs.code = some .def_
  ip : ipOf vm' = ipOf vm
  code : ∃ d : Bcode, vm'.defCode.bcode = some d ∧ (∀ i ∈ d.inst, Fits st i) ∧ ∃ e hh, d.inst.drop (vm'.cs.pc + 1) = e ++ [.endDef] ∧
    sizes e (hgt vm') = some hh ∧ k.1 ≤ hh.1 ∧ k.2 ≤ hh.2

theorem eff_some {i : Inst} {h k : Nat × Nat} (he : eff i h = some k) :
    isExpr i = true ∧ (uses i).1 ≤ h.1 ∧ (uses i).2 ≤ h.2 ∧ k = (h.1 - (uses i).1 + (gives i).1, h.2 - (uses i).2 + (gives i).2) := by
  unfold eff at he
  split at he
  · rename_i hc
    exact ⟨hc.1, hc.2.1, hc.2.2, (Option.some.inj he).symm⟩
  · cases he

theorem wp_call (o : Ordered ph vm) {id n : Nat} {t : Ty} (hn : n ≤ (hgt vm).1)
    (hcode : ∀ r b, vm.cs.code = some r → (codeOf vm r).bcode = some b → vm.fn.codeState.code = none → vm.cs.pc + 1 < b.used)
    (ht : ∀ q, vm.st.psym[id]? = some q → q.type = t) :
    (V.brk (callDef id n) vm).Wp (fun f vm' => ipOf vm' = ipOf vm →
      Calls vm.st vm ((hgt vm).1 - n + (unit t).1, (hgt vm).2 + (unit t).2) f vm') := by
  refine wp_bind (wp_callDef hn hcode ?_) ?_
  · intro q d hq hd
    obtain ⟨i, pid, e, h, -⟩ := (o.defs _ _ _ hq hd).shape
    exact ⟨pid, by rw [h]; rfl⟩
  · rintro _ vm' ⟨rfl, q, d, hq, hk, hd, he⟩
    intro hip
    have hwd := o.defs _ _ _ hq hd
    obtain ⟨i, pid, e, hsh, hru⟩ := hwd.shape
    obtain ⟨x, y, hxy, h1, h2⟩ := hru.frame (hgt vm').1 (hgt vm').2 (a' := (unit q.type).1) (b' := (unit q.type).2)
    rw [Nat.zero_add, Nat.zero_add] at hxy
    simp only at h1 h2
    rw [ht q hq] at h1 h2
    refine ⟨he.idle, rfl, he.back, he.ref, hip, d.bcode, he.code, hwd.fits, e, (x, y), by rw [he.pc, hsh]; rfl, hxy, ?_, ?_⟩
    · have := he.size.1; simp only; omega
    · have := he.size.2; simp only; omega

/-- An element of an array. -/
theorem wp_array {x : VmM Unit} {k : Nat × Nat} (hs : Sz vm.cs (hgt vm) k x)
    (hf : Keeps (fun w => (w.fn, w.defCode) = (vm.fn, vm.defCode)) x) :
    (V.brk x vm).Wp (fun f vm' => ipOf vm' = ipOf vm → Evals vm k f vm') := by
  refine wp_bind ((hs vm rfl rfl).all (hf vm rfl)) ?_
  rintro _ vm' ⟨⟨h1, h2⟩, h3⟩ h4
  simp only [Prod.mk.injEq] at h3
  exact ⟨.inl ⟨rfl, h1⟩, h2, h4, h3.1, h3.2⟩

theorem step_expr (env : Env) {i : Inst} {k : Nat × Nat} (o : Ordered ph vm) (he : eff i (hgt vm) = some k)
    (hcode : ∀ r b, vm.cs.code = some r → (codeOf vm r).bcode = some b → vm.fn.codeState.code = none → vm.cs.pc + 1 < b.used) :
    (exec env i vm).Wp (fun f vm' => Evals vm k f vm' ∨ Calls vm.st vm k f vm') := by
  obtain ⟨hx, h1, h2, rfl⟩ := eff_some he
  have hip := exec_ipOf env i (expr_quiet hx) vm
  rcases expr_cases hx with hd | rfl | ⟨id, n, rfl⟩ | ⟨id, n, rfl⟩
  · have hs := steps_direct (c := vm.cs) (n := (hgt vm).1 - (uses i).1) (s := (hgt vm).2 - (uses i).2) env i hd vm
      (by rw [Nat.sub_add_cancel h1, Nat.sub_add_cancel h2]) rfl
    refine ((hs.all hip).all (exec_fn env i (direct_quiet hd) vm)).mono ?_
    rintro _ vm' ⟨⟨⟨rfl, h3, h4⟩, h5⟩, h6, h7⟩
    exact .inl ⟨.inl ⟨rfl, h3⟩, h4, h5, h6, h7⟩
  · refine (((wp_rnd env vm).all hip).all (exec_fn env _ rfl vm)).mono ?_
    rintro _ vm' ⟨⟨⟨rfl, h3, h4⟩ | ⟨rfl, h3, h4⟩, h5⟩, h6, h7⟩
    · exact .inl ⟨.inr ⟨rfl, h3⟩, h4, h5, h6, h7⟩
    · exact .inl ⟨.inl ⟨rfl, h3⟩, h4, h5, h6, h7⟩
  · have key : (exec env (.getParenNum id n) vm).Wp (fun f vm' => ipOf vm' = ipOf vm →
        Evals vm ((hgt vm).1 - n + 1, (hgt vm).2 - 0 + 0) f vm' ∨ Calls vm.st vm ((hgt vm).1 - n + 1, (hgt vm).2 - 0 + 0) f vm') := by
      simp only [exec, brk_apply, getParenNum, bind_apply]
      cases hs : vm.st.psym[id]? with
      | none => simp only [sym, symbolAt, hs]; trivial
      | some q =>
        simp only [sym_ok hs, assert_apply]
        by_cases ht : q.type = .num
        case neg => simp [ht, Res.Wp]
        simp only [ht, beq_self_eq_true, if_true]
        by_cases hk : q.kind = .array
        · simp only [hk, if_true]
          have hz : Sz vm.cs (hgt vm) ((hgt vm).1 - n + 1, (hgt vm).2) (getElement numField id n >>= push) := by
            have h3 := (sz_getElement (c := vm.cs) (n := (hgt vm).1 - n) (s := (hgt vm).2) (F := numField) id n)
            rw [Nat.sub_add_cancel (show n ≤ (hgt vm).1 from h1)] at h3
            exact h3.bind (fun _ => sz_push _)
          have h4 := wp_array hz ((keeps_getElement (closed_fn vm.fn vm.defCode) (by decide) (numField_ok (by decide)) _ _).bind
            (fun _ => Closed.push (closed_fn vm.fn vm.defCode) (by decide) _))
          rw [brk_apply] at h4
          exact h4.mono (fun _ _ h h' => .inl (h h'))
        · simp only [hk, if_false, bind_apply, assert_apply]
          by_cases hk2 : q.kind = .def_
          case neg => simp [hk2, Res.Wp]
          simp only [hk2, beq_self_eq_true, if_true]
          have h4 := wp_call (t := .num) o h1 hcode (fun q' hq' => by rw [hs] at hq'; cases hq'; exact ht)
          rw [brk_apply] at h4
          exact h4.mono (fun _ _ h h' => .inr (h h'))
    refine (key.all hip).mono (fun _ _ h => h.1 h.2)
  · have key : (exec env (.getParenStr id n) vm).Wp (fun f vm' => ipOf vm' = ipOf vm →
        Evals vm ((hgt vm).1 - n + 0, (hgt vm).2 - 0 + 1) f vm' ∨ Calls vm.st vm ((hgt vm).1 - n + 0, (hgt vm).2 - 0 + 1) f vm') := by
      simp only [exec, brk_apply, getParenStr, bind_apply]
      cases hs : vm.st.psym[id]? with
      | none => simp only [sym, symbolAt, hs]; trivial
      | some q =>
        simp only [sym_ok hs, assert_apply]
        by_cases ht : q.type = .str
        case neg => simp [ht, Res.Wp]
        simp only [ht, beq_self_eq_true, if_true]
        by_cases hk : q.kind = .array
        · simp only [hk, if_true]
          have hz : Sz vm.cs (hgt vm) ((hgt vm).1 - n, (hgt vm).2 + 1) (getElement strField id n >>= fun x => pushStr (x.getD [])) := by
            have h3 := (sz_getElement (c := vm.cs) (n := (hgt vm).1 - n) (s := (hgt vm).2) (F := strField) id n)
            rw [Nat.sub_add_cancel (show n ≤ (hgt vm).1 from h1)] at h3
            exact h3.bind (fun _ => sz_pushStr _)
          have h4 := wp_array hz ((keeps_getElement (closed_fn vm.fn vm.defCode) (by decide) (strField_ok (by decide)) _ _).bind
            (fun _ => Closed.pushStr (closed_fn vm.fn vm.defCode) (by decide) _))
          rw [brk_apply] at h4
          exact h4.mono (fun _ _ h h' => .inl (h h'))
        · simp only [hk, if_false, bind_apply, assert_apply]
          by_cases hk2 : q.kind = .def_
          case neg => simp [hk2, Res.Wp]
          simp only [hk2, beq_self_eq_true, if_true]
          have h4 := wp_call (t := .str) o h1 hcode (fun q' hq' => by rw [hs] at hq'; cases hq'; exact ht)
          rw [brk_apply] at h4
          exact h4.mono (fun _ _ h h' => .inr (h h'))
    refine (key.all hip).mono (fun _ _ h => h.1 h.2)

/-- An instruction of an expression in the code of a program. -/
theorem step_code_expr (env : Env) {i : Inst} {l rest : List Inst} {k : Nat × Nat} (o : Ordered ph vm) (hc : InCode ph vm r b)
    (hS : Safe (FnTy vm.st) b.inst vm.cs.pc (hgt vm) (ipOf vm))
    (hd : b.inst.drop (vm.cs.pc + 1) = l ++ rest) (he : eff i (hgt vm) = some k)
    (hl : Ready (FnTy vm.st) (Asked (FnTy vm.st) b.inst (ipOf vm)) l k) (hne : l ≠ []) (hp : Pieces (FnTy vm.st) rest) :
    (exec env i vm).Wp (Goes ph vm) := by
  have hlt : vm.cs.pc + 1 < b.used := by
    by_cases h : vm.cs.pc + 1 < b.used
    · exact h
    · rw [List.drop_eq_nil_of_le (Nat.le_of_not_lt h)] at hd
      exact absurd (List.append_eq_nil_iff.1 hd.symm).1 hne
  have hS2 : Safe (FnTy vm.st) b.inst (vm.cs.pc + 1) k (ipOf vm) := .inr ⟨l, rest, hd, hl, hp⟩
  refine (step_expr env o he ?_).mono ?_
  · intro r' b' hr' hb' _
    rw [hc.ref] at hr'; cases hr'
    rw [hc.bcode] at hb'; cases hb'
    exact hlt
  · rintro f vm' (h | h)
    · rcases h.flow with ⟨rfl, h1⟩ | ⟨rfl, h1⟩
      · exact hc.safe (by rw [LB.goes, following, h.cs]) (by rw [LB.goes, following, h.cs]) (by rw [h1, h.ip]; exact hS2)
      · exact hc.safe (by rw [LB.goes, h.cs]) (by rw [LB.goes, h.cs]) (by rw [h1, h.ip]; exact hS)
    · obtain ⟨d, h1, h2, e, hh, h3, h4, h5, h6⟩ := h.code
      rw [h.flow]
      refine .inr ⟨h.ref, d, e, hh, r, b, h1, h2, h3, h4, by rw [h.back, hc.ref], hc.home, hc.bcode, ?_⟩
      rw [h.back, h.ip]
      exact hS2.more h5 h6

/-- ON. -/
theorem wp_on {n : Nat} {g : Bool} {ls rest : List Inst} (o : Ordered ph vm) (hc : InCode ph vm r b) (hn : n = ls.length)
    (hd : b.inst.drop (vm.cs.pc + 1) = ls ++ rest) (hls : ∀ x ∈ ls, isOnLine x = true) (h1 : 1 ≤ (hgt vm).1)
    (hp : Pieces (FnTy vm.st) rest) : (V.ret (onStatement n g) vm).Wp (Goes ph vm) := by
  subst hn
  have hdrop : b.inst.drop (vm.cs.pc + ls.length + 1) = rest := by
    have h2 : vm.cs.pc + ls.length + 1 = (vm.cs.pc + 1) + ls.length := by omega
    rw [h2, ← List.drop_drop, hd, List.drop_left]
  cases hst : vm.stack with
  | nil => simp [hgt, hst] at h1
  | cons x s =>
  simp only [ret_apply, onStatement, bind_apply, pop, hst, check_apply]
  cases hx : Dbl.ne x (Dbl.floor x) with
  | true => simp [Res.Wp, Malformed]
  | false =>
    simp only [Bool.false_eq_true, if_false, get_apply]
    cases ho : onOutside x ls.length with
    | true =>
      simp only [if_true, setPc, modify_apply]
      exact hc.goes (f := .ret) (pc := vm.cs.pc + ls.length + 1) rfl rfl (by rw [hdrop]; exact hp)
    | false =>
      obtain ⟨k, rfl, hk1, hk2⟩ := on_integer hx ho
      have ht : Dbl.toNat (.fin (k : Rat)) = k := toNat_nat k
      have hget : b.inst[vm.cs.pc + k]? = ls[k - 1]? := by
        have h2 : vm.cs.pc + k = vm.cs.pc + 1 + (k - 1) := by omega
        rw [h2, ← List.getElem?_drop, hd, List.getElem?_append_left (by omega)]
      have hlt : k - 1 < ls.length := by omega
      have hon := hls ls[k - 1] (List.getElem_mem hlt)
      rw [List.getElem?_eq_getElem hlt] at hget
      simp only [bind_apply, hc.cur (vm' := { vm with stack := s }) rfl (codeOf_stack _ _ _), ht, hget, Bool.false_eq_true, if_false]
      cases hl : ls[k - 1] with
      | onLine l =>
        simp only [bind_apply]
        cases g with
        | false =>
          have := wp_line o (vm := { vm with stack := s }) rfl l
          rw [ret_apply] at this
          exact this
        | true =>
          simp only [when_, if_true, pushReturn]
          by_cases hr : vm.retstack.length ≥ maxReturnStack
          · simp only [if_pos hr]; exact (show ¬ Malformed .gosubTooDeep by decide)
          · simp only [if_neg hr]
            have := wp_line o (vm := { vm with stack := s, retstack := { vm.cs with pc := vm.cs.pc + ls.length + 1 } :: vm.retstack }) rfl l
            rw [ret_apply] at this
            exact this
      | _ => rw [hl] at hon; exact (Bool.false_ne_true hon).elim

theorem takeWhile_def {pid : Nat} {e rest : List Inst} (he : ∀ i ∈ e, isExpr i = true) :
    (Inst.param pid :: (e ++ [.endDef]) ++ rest).takeWhile (fun i => !i.isEndDef) = .param pid :: e := by
  have h2 : ∀ i ∈ e, (!i.isEndDef) = true := by
    intro i hi
    have := he i hi
    cases i <;> first | rfl | exact (Bool.false_ne_true this).elim
  have h3 : ((e ++ [Inst.endDef]) ++ rest).takeWhile (fun i => !i.isEndDef) = e := by
    rw [List.append_assoc, List.takeWhile_append_of_pos h2]
    simp only [List.cons_append, List.nil_append, List.takeWhile_cons, Inst.isEndDef, Bool.not_true, Bool.false_eq_true, if_false,
      List.append_nil]
  simp only [List.cons_append, List.takeWhile_cons, Inst.isEndDef, Bool.not_false, if_true] at h3 ⊢
  rw [h3]

/-- What DEF does. -/
theorem defStatement_result {id : Nat} (hc : InCode ph vm r b) (hlt : vm.cs.pc < b.used) :
    (∃ h, defStatement id 1 vm = .halt h) ∨ ∃ vm', defStatement id 1 vm = .ok () vm' ∧
      vm'.cs = { vm.cs with pc := scan Inst.isEndDef b.inst (vm.cs.pc + 1) } ∧
      ∃ line st1, (st1 = vm.st ∨ st1 = symUpdate vm.st id (fun s => { s with def_ := none, defined := false })) ∧
        vm'.st = symUpdate st1 id (fun s => { s with
          def_ := some ⟨⟨(b.inst.drop vm.cs.pc).takeWhile (fun i => !i.isEndDef) ++ [.endDef], false⟩, line⟩, defined := true }) := by
  unfold defStatement
  simp only [bind_apply]
  cases hs : vm.st.psym[id]? with
  | none => simp only [sym, symbolAt, hs]; exact .inl ⟨_, rfl⟩
  | some q =>
    simp only [sym_ok hs, assert_apply]
    by_cases hk : q.kind = .def_
    case neg => left; simp [hk]
    simp only [hk, beq_self_eq_true, if_true]
    have hcopy : bcodeCopyDef b vm.cs.pc = .ok ⟨(b.inst.drop vm.cs.pc).takeWhile (fun i => !i.isEndDef) ++ [.endDef], false⟩ := by
      unfold bcodeCopyDef
      rw [if_neg (Nat.not_le.2 hlt)]
    cases hd : q.def_ with
    | none =>
      simp only [Option.isSome_none, when_, Bool.false_eq_true, if_false, pure_apply, check_apply, ne_eq, not_true, decide_false,
        hc.cur rfl rfl, get_apply, lift, hcopy, updSym, modify_apply, setPc]
      exact .inr ⟨_, rfl, rfl, _, vm.st, .inl rfl, rfl⟩
    | some d =>
      simp only [Option.isSome_some, when_, if_true, bind_apply, assert_apply]
      cases q.defined with
      | false => left; simp
      | true =>
        have hcur : curBcode { vm with st := symUpdate vm.st id (fun s => { s with def_ := none, defined := false }) } =
            .ok b { vm with st := symUpdate vm.st id (fun s => { s with def_ := none, defined := false }) } :=
          hc.cur rfl (by cases r <;> rfl)
        simp only [if_true, Bool.false_eq_true, if_false, check_apply, ne_eq, not_true, decide_false,
          hcur, get_apply, lift, hcopy, updSym, modify_apply, setPc]
        exact .inr ⟨_, rfl, rfl, _, _, .inr rfl, rfl⟩

/-- DEF goes past the definition. -/
theorem wp_def {id pid : Nat} {e rest : List Inst} (hc : InCode ph vm r b) (hlt : vm.cs.pc < b.used) (he : ∀ i ∈ e, isExpr i = true)
    (hd : b.inst.drop (vm.cs.pc + 1) = Inst.param pid :: (e ++ [.endDef]) ++ rest)
    (hp : Pieces (FnTy vm.st) rest) : (V.brk (defStatement id 1) vm).Wp (Goes ph vm) := by
  have hscan : scan Inst.isEndDef b.inst (vm.cs.pc + 1) = vm.cs.pc + 1 + (e.length + 1) := by
    unfold scan
    rw [hd, takeWhile_def he]; rfl
  have hdrop : b.inst.drop (vm.cs.pc + 1 + (e.length + 1) + 1) = rest := by
    have h2 : vm.cs.pc + 1 + (e.length + 1) + 1 = (vm.cs.pc + 1) + (Inst.param pid :: (e ++ [.endDef])).length := by
      simp only [List.length_cons, List.length_append, List.length_nil]; omega
    rw [h2, ← List.drop_drop, hd, List.drop_left]
  rw [brk_apply]
  rcases defStatement_result hc hlt with ⟨h, hx⟩ | ⟨vm', hx, h3, -⟩
  · rw [hx]; trivial
  rw [hx]
  rw [hscan] at h3
  exact hc.goes (f := .brk) (by rw [LB.goes, following, h3]) (by rw [LB.goes, following, h3]) (by rw [hdrop]; exact hp)

/-! INPUT. -/

theorem wp_inputBuf (vm : VM) (p : Option CStr) : (inputBuf p vm).Wp (fun _ vm' => vm'.cs = vm.cs ∧ ipOf vm' = some vm.cs.pc) := by
  unfold inputBuf
  refine wp_bind (sz_out (c := vm.cs) (a := hgt vm) (p.getD []) vm rfl rfl) ?_
  rintro _ v1 ⟨h1, h2⟩
  rw [bind_apply, get_apply]
  refine wp_bind (Sz.when (sz_out (c := vm.cs) (a := hgt vm) _) v1 h1 h2) ?_
  rintro _ v2 ⟨h3, h4⟩
  refine wp_bind (sz_readInputLine (c := vm.cs) (a := hgt vm) v2 h3 h4) ?_
  rintro _ v3 ⟨h5, h6⟩
  refine ⟨h6, ?_⟩
  rw [← h6]
  exact if_pos ⟨Int.le_refl _, Int.natCast_nonneg _⟩

/-- The state of the input. -/
def Inputs (vm0 vm : VM) : Prop := (vm.input, vm.inp, vm.inputPc) = (vm0.input, vm0.inp, vm0.inputPc)

theorem inputs_setNumeric (vm0 : VM) (id n : Nat) (x : Dbl) : Keeps (Inputs vm0) (setNumeric id n x) :=
  keeps_setNumeric (closed_input _ _ _) (by decide) (by decide) _ _ _

theorem inputs_setString (vm0 : VM) (id n : Nat) (x : CStr) : Keeps (Inputs vm0) (setString id n x) :=
  keeps_setString (closed_input _ _ _) (by decide) (by decide) _ _ _

theorem inputs_out (vm0 : VM) (t : CStr) : Keeps (Inputs vm0) (out t) := Keeps.modify (fun _ h => h)

/-- What a case of INPUT does: it goes on, or back to the start of the statement. -/
structure Asks (vm : VM) (k : Nat × Nat) (f : V.Flow) (vm' : VM) : Prop where
  ip : ipOf vm' = ipOf vm
  flow : f = .brk ∧ vm'.cs = vm.cs ∧ hgt vm' = k ∨ f = .ret ∧ vm'.cs = { vm.cs with pc := vm.inputPc }

theorem wp_inputAgain {vm0 : VM} {k : Nat × Nat} (h0 : ipOf vm = ipOf vm0) (h1 : vm.inputPc = vm0.inputPc) (h2 : vm.cs = vm0.cs) (m : String) :
    (inputAgain m vm).Wp (Asks vm0 k) := by
  unfold inputAgain
  refine wp_bind ((sz_out (c := vm.cs) (a := hgt vm) m.toList vm rfl rfl).all (inputs_out vm m.toList vm rfl)) ?_
  rintro _ v ⟨⟨h3, h4⟩, h5⟩
  have h6 : v.inputPc = vm.inputPc := by simp only [Inputs, Prod.mk.injEq] at h5; exact h5.2.2
  refine ⟨(ipOf_same h5).trans h0, .inr ⟨rfl, ?_⟩⟩
  change ({ v.cs with pc := v.inputPc } : CodeState) = _
  rw [h4, h6, h2, h1]

theorem inputRest_ok {p : Nat} (h : ipOf vm = some p) : inputRest vm = .ok (vm.input.drop vm.inp.toNat) vm := by
  obtain ⟨h1, h2, -⟩ := ipOf_some h
  unfold inputRest
  rw [if_neg (by omega)]

/-- A position within the input. -/
theorem ipOf_inp {p : Nat} (h : ipOf vm = some p) {vm' : VM} (h1 : vm'.input = vm.input) (h2 : vm'.inputPc = vm.inputPc)
    (h3 : 0 ≤ vm'.inp ∧ vm'.inp ≤ vm.input.length) : ipOf vm' = ipOf vm := by
  rw [h, ← (ipOf_some h).2.2]
  unfold ipOf
  rw [if_pos (by rw [h1]; exact h3), h2]

theorem wp_inputSep {p : Nat} (hp : ipOf vm = some p) : (inputSep vm).Wp (Asks vm (hgt vm)) := by
  obtain ⟨hb1, hb2, -⟩ := ipOf_some hp
  unfold inputSep
  simp only [bind_apply, inputRest_ok hp, advance, modify_apply]
  have hlen : (vm.input.drop vm.inp.toNat).length = vm.input.length - vm.inp.toNat := List.length_drop
  generalize vm.input.drop vm.inp.toNat = s at hlen
  have hsplit : (s.takeWhile isSpTab).length + (s.dropWhile isSpTab).length = s.length := by
    rw [← List.length_append, List.takeWhile_append_dropWhile]
  have hno := wp_inputAgain (vm := { vm with inp := vm.inp + ((s.takeWhile isSpTab).length : Nat) }) (vm0 := vm) (k := hgt vm)
    (ipOf_inp hp rfl rfl (by constructor <;> simp only <;> omega)) rfl rfl "* More input items are expected *\n"
  cases hd : s.dropWhile isSpTab with
  | nil => exact hno
  | cons ch t =>
    rw [hd, List.length_cons] at hsplit
    by_cases hch : ch = ','
    · subst hch
      exact ⟨ipOf_inp hp rfl rfl (by constructor <;> simp only <;> omega), .inl ⟨rfl, rfl, rfl⟩⟩
    · have hm : ∀ A B : VmM V.Flow, (match ch :: t with | ',' :: _ => A | _ => B) = B := by
        intro A B
        split
        · rename_i he; cases he; exact absurd rfl hch
        · rfl
      exact (congrArg (fun m : VmM V.Flow => (m _).Wp (Asks vm (hgt vm))) (hm _ _)).mpr hno

theorem dropWhile_le {α : Type} (q : α → Bool) (l : List α) : (l.dropWhile q).length ≤ l.length := by
  have : (l.takeWhile q).length + (l.dropWhile q).length = l.length := by
    rw [← List.length_append, List.takeWhile_append_dropWhile]
  omega

theorem strtod_le (s : CStr) : (strtod s).2.length ≤ s.length := by
  have hs := dropWhile_le isspace s
  unfold strtod
  simp only
  have hb : ∀ nb : Bool × CStr, nb.2.length ≤ s.length →
      (match scanUnsigned nb.2 with
       | none => ((Dbl.fin 0, s) : Dbl × CStr)
       | some (x, r) => (if nb.1 then x.neg else x, r)).2.length ≤ s.length := by
    rintro ⟨n, b⟩ hl
    cases h : scanUnsigned b with
    | none => exact Nat.le_refl _
    | some xr =>
      obtain ⟨m, h1, -⟩ := scanUnsigned_sound h
      rw [h1, List.length_append] at hl
      show xr.2.length ≤ s.length
      omega
  refine hb (match s.dropWhile isspace with | '-' :: r => (true, r) | '+' :: r => (false, r) | r => (false, r)) ?_
  split
  · rename_i h; rw [h, List.length_cons] at hs; simp only; omega
  · rename_i h; rw [h, List.length_cons] at hs; simp only; omega
  · exact hs

theorem convert_le {s t : CStr} {x : Dbl} (h : convert s = some (x, t)) : t.length ≤ s.length := by
  unfold convert at h
  split at h
  · cases h
  · rename_i c r hr
    split at h
    · simp only [Option.some.injEq, Prod.mk.injEq] at h
      rw [← h.2]
      have h1 := dropWhile_le isSpTab s
      rw [hr] at h1
      have h2 := dropWhile_le isSpTab (strtod (c :: r)).2
      have h3 := strtod_le (c :: r)
      omega
    · cases h

theorem wp_inputNum {p : Nat} (hp : ipOf vm = some p) {id n : Nat} (hn : n ≤ (hgt vm).1) :
    (inputNum id n vm).Wp (Asks vm ((hgt vm).1 - n, (hgt vm).2)) := by
  obtain ⟨hb1, hb2, -⟩ := ipOf_some hp
  unfold inputNum
  simp only [bind_apply, inputRest_ok hp]
  have hlen : (vm.input.drop vm.inp.toNat).length = vm.input.length - vm.inp.toNat := List.length_drop
  generalize vm.input.drop vm.inp.toNat = s at hlen
  cases hcv : convert s with
  | none => exact wp_inputAgain rfl rfl rfl _
  | some xt =>
    obtain ⟨x, t⟩ := xt
    have hle := convert_le hcv
    simp only
    by_cases ht : endsNumber t = true
    case neg => simp only [ht]; exact wp_inputAgain rfl rfl rfl _
    simp only [ht, if_true]
    refine wp_bind ((sz_sym (c := vm.cs) (a := hgt vm) id vm rfl rfl).all (Keeps.sym (I := Inputs vm) id vm rfl)) ?_
    rintro _ w ⟨⟨h4, h5⟩, h6⟩
    have hz := sz_setNumeric (c := vm.cs) (n := (hgt vm).1 - n) (s := (hgt vm).2) id n x w (by rw [h4, Nat.sub_add_cancel hn]) h5
    refine wp_bind (hz.all (inputs_setNumeric vm id n x w h6)) ?_
    rintro _ u ⟨⟨h7, h8⟩, h9⟩
    simp only [Inputs, Prod.mk.injEq] at h9
    refine ⟨ipOf_inp hp h9.1 h9.2.2 ?_, .inl ⟨rfl, h8, h7⟩⟩
    simp only [h9.1]
    omega

theorem wp_inputStr {p : Nat} (hp : ipOf vm = some p) {id n : Nat} (hn : n ≤ (hgt vm).1) :
    (V.brk (inputStr id n) vm).Wp (Asks vm ((hgt vm).1 - n, (hgt vm).2)) := by
  obtain ⟨hb1, hb2, -⟩ := ipOf_some hp
  have hz := sz_inputStr (c := vm.cs) (n := (hgt vm).1 - n) (s := (hgt vm).2) id n vm (by rw [Nat.sub_add_cancel hn]) rfl
  have hk : (inputStr id n vm).All (fun w => ipOf w = ipOf vm) := by
    unfold inputStr
    simp only [bind_apply, inputRest_ok hp, advance, modify_apply]
    have hlen : (vm.input.drop vm.inp.toNat).length = vm.input.length - vm.inp.toNat := List.length_drop
    generalize vm.input.drop vm.inp.toNat = s at hlen
    have hle : (s.takeWhile inStrItem).length ≤ s.length := by
      have : (s.takeWhile inStrItem).length + (s.dropWhile inStrItem).length = s.length := by
        rw [← List.length_append, List.takeWhile_append_dropWhile]
      omega
    have hi : ipOf { vm with inp := vm.inp + ((s.takeWhile inStrItem).length : Nat) } = ipOf vm :=
      ipOf_inp hp rfl rfl (by constructor <;> simp only <;> omega)
    have hk : Keeps (Inputs { vm with inp := vm.inp + ((s.takeWhile inStrItem).length : Nat) })
        (V.sym id >>= fun _ => setString id n (s.takeWhile inStrItem)) :=
      (Keeps.sym id).bind (fun _ => inputs_setString _ _ _ _)
    have := hk { vm with inp := vm.inp + ((s.takeWhile inStrItem).length : Nat) } rfl
    rw [bind_apply] at this
    exact this.imp (fun w hw => (ipOf_same hw).trans hi)
  refine wp_bind (hz.all hk) ?_
  rintro _ u ⟨⟨h7, h8⟩, h9⟩
  exact ⟨h9, .inl ⟨rfl, h8, h7⟩⟩

theorem wp_item (env : Env) {i : Inst} (hi : item i = true) (h1 : (uses i).1 ≤ (hgt vm).1) :
    ∃ k, ∀ {T : Nat → Ty → Prop} {c : List Inst}, Asked T c (ipOf vm) → (exec env i vm).Wp (Asks vm k) := by
  cases i with
  | inputNum id n => exact ⟨_, fun ⟨_, hp, _⟩ => wp_inputNum hp h1⟩
  | inputStr id n => exact ⟨_, fun ⟨_, hp, _⟩ => wp_inputStr hp h1⟩
  | _ => exact (Bool.false_ne_true hi).elim

theorem step_asks {x : Res V.Flow} {k : Nat × Nat} {t rest : List Inst} (hc : InCode ph vm r b) (h : x.Wp (Asks vm k))
    (hip : Asked (FnTy vm.st) b.inst (ipOf vm)) (hd : b.inst.drop (vm.cs.pc + 1) = t ++ rest)
    (ht : Ready (FnTy vm.st) (Asked (FnTy vm.st) b.inst (ipOf vm)) t k) (hp : Pieces (FnTy vm.st) rest) :
    x.Wp (Goes ph vm) := by
  refine h.mono ?_
  rintro f vm' ⟨h1, ⟨rfl, h2, h3⟩ | ⟨rfl, h2⟩⟩
  · exact hc.safe (by rw [LB.goes, following, h2]) (by rw [LB.goes, following, h2]) (by
      rw [h3, h1]; exact .inr ⟨t, rest, hd, ht, hp⟩)
  · obtain ⟨p, h3, h4⟩ := hip
    exact hc.goes (by rw [LB.goes, h2]) (by rw [LB.goes, h2]) (by rw [(ipOf_some h3).2.2]; exact h4)

/-- An instruction of the program. -/
theorem step_code (env : Env) {i : Inst} (o : Ordered ph vm) (hc : InCode ph vm r b)
    (hS : Safe (FnTy vm.st) b.inst vm.cs.pc (hgt vm) (ipOf vm)) (hi : b.inst[vm.cs.pc]? = some i) :
    (exec env i vm).Wp (Goes ph vm) := by
  have hw : WellCode vm.st b := by
    rcases hc.home with h | ⟨hph, h⟩
    · exact o.stored b (by have := hc.bcode; rw [h] at this; exact this)
    · exact o.imm hph b (by have := hc.bcode; rw [h] at this; exact this)
  have hlt : vm.cs.pc < b.used := (List.getElem?_eq_some_iff.1 hi).1
  obtain ⟨l, rest, -, hd, hh, hp⟩ := hS.head hi
  generalize hh' : hgt vm = hg at hh
  cases hh with
  | expr h1 h2 h3 => subst hh'; exact step_code_expr env o hc hS hd h1 h2 h3 hp
  | plain h1 h2 h3 => subst hh'; exact step_plain env o hc hw h1 hS h2 h3 (by rw [hd]; exact hp)
  | on h1 h2 h3 =>
    subst hh'
    rcases h1 with rfl | rfl
    · exact wp_on o hc rfl hd h2 h3 hp
    · exact wp_on o hc rfl hd h2 h3 hp
  | def_ h1 h2 h3 => exact wp_def hc hlt h3.isExpr hd hp
  | @input p t _ h1 =>
    refine wp_bind (wp_inputBuf vm p) ?_
    rintro _ vm' ⟨h2, h3⟩
    have hip : Asked (FnTy vm.st) b.inst (ipOf vm') := by
      refine ⟨_, h3, ?_⟩
      have : b.inst.drop vm.cs.pc = (.inputBuf p :: l) ++ rest := by
        rw [List.drop_eq_getElem_cons hlt, hd]; exact congrArg (· :: (l ++ rest)) (List.getElem?_eq_some_iff.1 hi).2
      rw [this]
      exact .cons (.input h1) hp
    exact hc.safe (f := .brk) (by rw [LB.goes, following, h2]) (by rw [LB.goes, following, h2])
      (.inr ⟨l, rest, hd, h1.ready hip _, hp⟩)
  | item h1 h2 h3 h4 h5 =>
    subst hh'
    obtain ⟨k, hk⟩ := wp_item env h2 h3
    exact step_asks hc (hk h1) h1 hd (h5.ready h1 k) hp
  | sep h1 h2 => exact step_asks hc (wp_inputSep h1.choose_spec.1) h1 hd (h2.ready h1 _) hp
  | inputEnd h1 => exact step_straight env hc rfl (Nat.zero_le _) (Nat.zero_le _) (by rw [hd]; exact hp)

theorem wp_endDef {c : CodeRef} (hc : vm.fn.codeState.code = some c) :
    (endDef vm).Wp (fun _ vm' => vm'.cs = vm.fn.codeState ∧ hgt vm' = hgt vm ∧ ipOf vm' = ipOf vm) := by
  unfold endDef
  simp only [bind_apply, get_apply, check_apply, hc, Option.isNone_some, Bool.false_eq_true, if_false, modify_apply]
  cases hs : vm.st.psym[vm.fn.paramId]? with
  | none => simp only [sym, symbolAt, hs]; trivial
  | some q =>
    simp only [sym, symbolAt, hs]
    exact ⟨rfl, rfl, rfl⟩

/-- One instruction keeps execution within the structure of the code. -/
theorem step_running (env : Env) {i : Inst} (o : Ordered ph vm) (hr : Running ph vm) (hat : At vm i) :
    (exec env i vm).Wp (Goes ph vm) := by
  obtain ⟨c, b, hc, hb, hi⟩ := hat
  rcases hr with ⟨r, b1, h1, h2, hb1, h3⟩ | ⟨h0, d, e, hh, r, b1, h1, h2, h3, h4, h5, h6, hb1, h7⟩
  · rw [hc] at h1; cases h1
    rw [hb] at hb1; cases hb1
    exact step_code env o ⟨hc, h2, hb⟩ h3 hi
  · rw [hc] at h0; cases h0
    have hbd : b = d := by
      have : vm.defCode.bcode = some b := hb
      rw [this] at h1; exact Option.some.inj h1
    subst hbd
    obtain ⟨hlt, he⟩ := List.getElem?_eq_some_iff.1 hi
    rw [List.drop_eq_getElem_cons hlt, he] at h3
    cases e with
    | nil =>
      simp only [List.nil_append, List.cons.injEq] at h3
      obtain ⟨rfl, -⟩ := h3
      simp only [sizes, Option.some.injEq] at h4
      subst h4
      refine wp_bind (wp_endDef h5) ?_
      rintro _ vm' ⟨h8, h9, h10⟩
      refine .inl ⟨r, b1, by rw [LB.goes, following, h8]; exact h5, h6, hb1, ?_⟩
      rw [LB.goes, following, h8, h9, h10]
      exact h7
    | cons x e =>
      simp only [List.cons_append, List.cons.injEq] at h3
      obtain ⟨rfl, h3⟩ := h3
      simp only [sizes] at h4
      cases hk : eff i (hgt vm) with
      | none => rw [hk] at h4; cases h4
      | some k =>
        rw [hk] at h4
        simp only at h4
        refine (step_expr env o hk ?_).mono ?_
        · intro _ _ _ _ hn
          rw [h5] at hn; cases hn
        · rintro f vm' (h | h)
          · rcases h.flow with ⟨rfl, h8⟩ | ⟨rfl, h8⟩
            · refine .inr ⟨by rw [LB.goes, following, h.cs]; exact hc, b, e, hh, r, b1, by rw [h.code]; exact h1, h2, ?_, by rw [h8]; exact h4,
                by rw [h.fn]; exact h5, h6, hb1, ?_⟩
              · rw [LB.goes, following, h.cs]; exact h3
              · rw [h.fn, h.ip]; exact h7
            · refine .inr ⟨by rw [LB.goes, h.cs]; exact hc, b, i :: e, hh, r, b1, by rw [h.code]; exact h1, h2, ?_, ?_,
                by rw [h.fn]; exact h5, h6, hb1, ?_⟩
              · rw [LB.goes, h.cs, List.drop_eq_getElem_cons hlt, he, h3]; rfl
              · rw [h8]; simp only [sizes, hk]; exact h4
              · rw [h.fn, h.ip]; exact h7
          · have := h.idle
            rw [h5] at this; cases this

end V
end LB
