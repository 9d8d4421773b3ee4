import Verif.Proofs.Image
/- What the machine does with the code of a statement. -/
namespace LB
open LB.Spec _root_.Spec

namespace Standing
variable {I : Image} {c : Src.Config} {vm : VM}

theorem var (h : Standing I c vm) {w : CStr} {t : Ty} {id : Nat} (hv : Numbered I.st w t id) :
    ∃ s, vm.st.psym[id]? = some s ∧ SameIgnoringCase s.name w ∧ s.kind = .variable ∧ s.type = t :=
  (hv.grow h.grows).entry h.named h.small

theorem begun_update (h : Standing I c vm) (id : Nat) {f : Symbol → Symbol} (hf : ∀ s, (f s).defined = true) (g : ForLoop) (hg : g ∈ vm.forStack) :
    ∃ s, (symUpdate vm.st id f).psym[g.symbolId]? = some s ∧ s.defined = true := by
  obtain ⟨s, h1, h2⟩ := h.begun g hg
  by_cases he : g.symbolId = id
  · rw [he] at h1 ⊢
    exact ⟨_, symUpdate_same h1, hf s⟩
  · exact ⟨s, by rw [symUpdate_other _ _ _ _ he]; exact h1, h2⟩

theorem assignNum (h : Standing I c vm) {w : CStr} {id : Nat} (hv : Numbered I.st w .num id) (x : Dbl) :
    Standing I { c with nums := assign c.nums w x } { vm with st := symUpdate vm.st id (fun s => { s with num := x, defined := true }) } := by
  obtain ⟨s, h1, h2, h3, h4⟩ := h.var hv
  have hf : V.ValueOnly (fun s => { s with num := x, defined := true }) := fun s => ⟨rfl, rfl, rfl, rfl⟩
  have k1 := assign_num h.named h1 h2 h3 h4 x
  rw [h.store] at k1
  refine ⟨h.stored, h.named.update id _ hf, by simpa [symUpdate] using h.small, h.grows.trans (grows_update _ _ _ hf), h.tidy.update id ?_,
    h.kinds.update id hf (fun s' hs' => by rw [h1] at hs'; cases hs'; rw [h3]; decide), k1, h.calls, h.loops, h.begun_update id (fun _ => rfl), h.one, h.col, h.width, h.out, h.traceBasic, h.traceFor, h.deep, ⟨h.io.data, h.io.stdin, h.io.line, h.io.mark⟩⟩
  intro s' hs' hy
  rw [h1] at hs'
  cases hs'
  obtain ⟨y1, y2, y3, y4⟩ := hy
  constructor <;> simp_all

theorem assignStr (h : Standing I c vm) {w : CStr} {id : Nat} (hv : Numbered I.st w .str id) (x : CStr) :
    Standing I { c with strs := assign c.strs w x } { vm with st := symUpdate vm.st id (fun s => { s with str := some x, defined := true }) } := by
  obtain ⟨s, h1, h2, h3, h4⟩ := h.var hv
  have hf : V.ValueOnly (fun s => { s with str := some x, defined := true }) := fun s => ⟨rfl, rfl, rfl, rfl⟩
  have k1 := assign_str h.named h1 h2 h3 h4 x
  rw [h.store] at k1
  refine ⟨h.stored, h.named.update id _ hf, by simpa [symUpdate] using h.small, h.grows.trans (grows_update _ _ _ hf), h.tidy.update id ?_,
    h.kinds.update id hf (fun s' hs' => by rw [h1] at hs'; cases hs'; rw [h3]; decide), k1, h.calls, h.loops, h.begun_update id (fun _ => rfl), h.one, h.col, h.width, h.out, h.traceBasic, h.traceFor, h.deep, ⟨h.io.data, h.io.stdin, h.io.line, h.io.mark⟩⟩
  intro s' hs' hy
  rw [h1] at hs'
  cases hs'
  obtain ⟨y1, y2, y3, y4⟩ := hy
  constructor <;> simp_all

end Standing

/- ### Where execution goes -/

/-- The machine is in the line of the statement to be performed, in its code. -/
structure Midst (I : Image) (c : Src.Config) (vm : VM) : Prop where
  base : Standing I c vm
  code : vm.cs.code = some .stored
  line : vm.cs.sourceLine = c.place.1
  going : vm.stopped = false

theorem drop_next {α : Type} {l t : List α} {k : Nat} {a : α} (h : l.drop k = a :: t) : l.drop (k + 1) = t := by
  rw [← List.drop_drop, h]; rfl

theorem Tail.stands {I : Image} {p : Src.Place} {ss : List Src.Stmt} {tail : List Inst} (h : Tail I p ss tail) {k : Nat} (hk : I.code.drop k = tail) :
    Stands I (Src.after ss p) k := by
  obtain ⟨n, h1⟩ := h.line
  obtain ⟨c, d, h2, h3, rfl⟩ := h.code
  exact stands_after h1 h2 h3 hk

theorem after_line {ss : List Src.Stmt} {p : Src.Place} (h : (Src.after ss p).2 ≠ 0) : (Src.after ss p).1 = p.1 := by
  simp only [Src.after] at h ⊢
  split
  · rfl
  · rename_i hn; rw [if_neg hn] at h; exact absurd rfl h

/-- The statement is done. -/
theorem Tail.done {I : Image} {p : Src.Place} {ss : List Src.Stmt} {tail : List Inst} (h : Tail I p ss tail) {c : Src.Config} {vm : VM}
    (hb : Standing I c vm) (hp : c.place = Src.after ss p) (h1 : vm.stack = []) (h2 : vm.strstack = []) (hc : vm.cs.code = some .stored)
    (hl : vm.cs.sourceLine = p.1) (hg : vm.stopped = false) (hk : I.code.drop vm.cs.pc = tail) : Matches I c vm :=
  ⟨hb, h1, h2, .inl ⟨hc, by rw [hp]; exact h.stands hk, fun hn => by rw [hp] at hn ⊢; rw [after_line hn]; exact hl⟩, hg⟩

theorem Mimics.went {env : Env} {I : Image} {q : Src.Place} {a b : VM} {c : Src.Config} (hs : a.stopped = false) (hx : V.execute env a = .ok () b) (h : Matches I c b) :
    Mimics env I q a (.go c) := ⟨1, b, .one hs hx, h, fun h => by cases h⟩

theorem Fails.now {env : Env} {I : Image} {e : RunError} {a b : VM} {c : Src.Config} (hs : a.stopped = false) (hx : V.execute env a = .err e b) (h : Left I e c b) :
    Fails env I e c a := ⟨0, a, b, .here, hs, hx, h⟩

/-- What INPUT remembers of the line is the same. -/
def SameInput (a b : VM) : Prop := b.inp = a.inp ∧ b.inputPc = a.inputPc

/-- With the value of an expression. -/
theorem Midst.valueInput {env : Env} {I : Image} (hI : I.Ok) {c : Src.Config} {vm : VM} (h : Midst I c vm) {t : Ty} {e : Expr t} {cd rest : List Inst} (he : Postfix I.st e cd)
    (h1 : vm.stack.length + e.nums + I.prog.room.1 ≤ 16) (h2 : vm.strstack.length + e.strs + I.prog.room.2 ≤ 8) (hk : I.code.drop vm.cs.pc = cd ++ rest) {q : Src.Place} {f : Meaning t → Src.Config → Src.Next}
    (hf : ∀ x s vm', Midst I { c with toStore := s } vm' → I.code.drop vm'.cs.pc = rest → (vm'.stack, vm'.strstack) = pushed x vm → SameInput vm vm' → Mimics env I q vm' (f x { c with toStore := s }))
    (hr : rest ≠ [] := by simp) : Mimics env I q vm (Src.withValue c (Src.meaning env c.fns e) f) := by
  obtain ⟨k1, k2⟩ := h.base.value hI h.code h.going he h1 h2 hk env hr
  unfold Src.withValue
  cases hv : Src.meaning env c.fns e c.toStore with
  | ok x s =>
    obtain ⟨n, vm', m1, m2, m3, m4, m5, m6, m7⟩ := k1 x s hv
    exact Mimics.after m1 (hf x s vm' ⟨m2, by rw [m4]; exact h.code, by rw [m4]; exact h.line, m3⟩ m5 m6 m7)
  | error er s => exact k2 er s hv
  | unknown => trivial

theorem Midst.value {env : Env} {I : Image} (hI : I.Ok) {c : Src.Config} {vm : VM} (h : Midst I c vm) {t : Ty} {e : Expr t} {cd rest : List Inst} (he : Postfix I.st e cd)
    (h1 : vm.stack.length + e.nums + I.prog.room.1 ≤ 16) (h2 : vm.strstack.length + e.strs + I.prog.room.2 ≤ 8) (hk : I.code.drop vm.cs.pc = cd ++ rest) {q : Src.Place} {f : Meaning t → Src.Config → Src.Next}
    (hf : ∀ x s vm', Midst I { c with toStore := s } vm' → I.code.drop vm'.cs.pc = rest → (vm'.stack, vm'.strstack) = pushed x vm → Mimics env I q vm' (f x { c with toStore := s }))
    (hr : rest ≠ [] := by simp) : Mimics env I q vm (Src.withValue c (Src.meaning env c.fns e) f) :=
  h.valueInput hI he h1 h2 hk (fun x s vm' k1 k2 k3 _ => hf x s vm' k1 k2 k3) hr

/-- Going to a line. -/
theorem Standing.goTo {I : Image} (hI : I.Ok) {c : Src.Config} {vm : VM} (h : Standing I c vm) (n : Nat) :
    (∀ i, I.prog.findIdx? (fun l => l.1 == n) = some i → ∃ pc, V.goToBasicLine n vm = .ok () { vm with cs := { vm.cs with pc := pc, code := some .stored } } ∧
      Stands I (i, 0) pc) ∧
    (I.prog.findIdx? (fun l => l.1 == n) = none → V.goToBasicLine n vm = .err (.lineNotFound n) vm) := by
  constructor
  · intro i hi
    obtain ⟨pc, h1, h2⟩ := hI.found n i hi
    refine ⟨pc, ?_, by simpa [Stands] using h2⟩
    simp only [V.goToBasicLine, V.bind_apply, V.findBasicLine, h.stored, hI.indexed, Option.bind_some, h1, V.modify_apply]
  · intro hn
    simp only [V.goToBasicLine, V.bind_apply, V.findBasicLine, h.stored, hI.indexed, Option.bind_some, hI.missing n hn]

theorem Matches.start {I : Image} {c : Src.Config} {vm : VM} {i : Nat} (hb : Standing I c vm) (hp : c.place = (i, 0)) (h1 : vm.stack = []) (h2 : vm.strstack = [])
    (hc : vm.cs.code = some .stored) (hg : vm.stopped = false) (hk : Stands I (i, 0) vm.cs.pc) : Matches I c vm :=
  ⟨hb, h1, h2, .inl ⟨hc, by rw [hp]; exact hk, fun hn => by rw [hp] at hn; exact absurd rfl hn⟩, hg⟩

/-- A jump as the effect of an instruction. -/
theorem jump_mimics {env : Env} {I : Image} (hI : I.Ok) {c : Src.Config} {vm u : VM} {n : Nat} {q : Src.Place} (hu : vm.stopped = false)
    (hx : V.execute env vm = V.goToBasicLine n u) (hb : Standing I c u) (h1 : u.stack = []) (h2 : u.strstack = []) (hg : u.stopped = false) :
    Mimics env I q vm (Src.jump I.prog n c) := by
  obtain ⟨k1, k2⟩ := hb.goTo hI n
  simp only [Src.jump]
  cases hf : I.prog.findIdx? (fun l => l.1 == n) with
  | some i =>
    obtain ⟨pc, m1, m2⟩ := k1 i hf
    exact Mimics.went hu (hx.trans m1) (Matches.start hb.move rfl h1 h2 rfl hg m2)
  | none => exact Fails.now hu (hx.trans (k2 hf)) (hb.left hg _)

/- ### The statements -/

section
variable {env : Env} {I : Image} {c : Src.Config} {vm : VM} {ss : List Src.Stmt} {tail : List Inst}

theorem letNum_mimics (hI : I.Ok) (h : Midst I c vm) (h1 : vm.stack = []) (h2 : vm.strstack = []) (ht : Tail I c.place ss tail) {w : CStr} {e : Expr .num} {cd : List Inst} {id : Nat}
    (he : Postfix I.st e cd) (hv : Numbered I.st w .num id) (hfit : Src.Fits I.prog.room 0 e) (hk : I.code.drop vm.cs.pc = cd ++ .setSimpleNum id :: tail) :
    Mimics env I (Src.after ss c.place) vm (Src.perform env I.prog ss c (.letNum w e)) := by
  simp only [Src.perform]
  refine h.value hI he (by rw [h1]; exact hfit.1) (by rw [h2]; simpa using hfit.2) hk fun x s' vm' h' hk' hst => ?_
  obtain ⟨s, m1, m2, m3, m4⟩ := h'.base.var hv
  simp only [pushed, h1, h2, Prod.mk.injEq] at hst
  have hvar : V.isVar s .num = true := by simp [V.isVar, m3, m4]
  refine Mimics.went h'.going (b := { vm' with st := symUpdate vm'.st id (fun s => { s with num := x, defined := true }), stack := [], cs := following vm'.cs }) ?_
    (ht.done ((h'.base.assignNum hv x).move (p := Src.after ss c.place)) rfl rfl hst.2 h'.code h'.line h'.going (drop_next hk'))
  rw [V.execute_at env (h'.base.at_inst hI h'.code hk')]
  simp only [V.exec, V.brk_apply, V.bind_apply, V.sym_ok m1, V.sym_ok (vm := { vm' with stack := [] }) m1, V.pop, hst.1, V.setNumericSimple, V.assert_apply, hvar, if_true, V.updSym, V.modify_apply]

theorem letStr_mimics (hI : I.Ok) (h : Midst I c vm) (h1 : vm.stack = []) (h2 : vm.strstack = []) (ht : Tail I c.place ss tail) {w : CStr} {e : Expr .str} {cd : List Inst} {id : Nat}
    (he : Postfix I.st e cd) (hv : Numbered I.st w .str id) (hfit : Src.Fits I.prog.room 0 e) (hk : I.code.drop vm.cs.pc = cd ++ .setSimpleStr id :: tail) :
    Mimics env I (Src.after ss c.place) vm (Src.perform env I.prog ss c (.letStr w e)) := by
  simp only [Src.perform]
  refine h.value hI he (by rw [h1]; exact hfit.1) (by rw [h2]; simpa using hfit.2) hk fun x s' vm' h' hk' hst => ?_
  obtain ⟨s, m1, m2, m3, m4⟩ := h'.base.var hv
  simp only [pushed, h1, h2, Prod.mk.injEq] at hst
  have hvar : V.isVar s .str = true := by simp [V.isVar, m3, m4]
  have hdef := fun k => ((h'.base.tidy id s m1).held k).2.1
  refine Mimics.went h'.going (b := { vm' with st := symUpdate vm'.st id (fun s => { s with str := some x, defined := true }), strstack := [], cs := following vm'.cs }) ?_
    (ht.done ((h'.base.assignStr hv x).move (p := Src.after ss c.place)) rfl hst.1 rfl h'.code h'.line h'.going (drop_next hk'))
  rw [V.execute_at env (h'.base.at_inst hI h'.code hk')]
  cases hss : s.str.isSome with
  | false =>
    simp only [V.exec, V.brk_apply, V.bind_apply, V.sym_ok m1, V.sym_ok (vm := { vm' with strstack := [] }) m1, V.popStr, hst.2, V.setStringSimple, V.assert_apply, hvar, if_true, V.updSym, V.modify_apply, V.when_, hss]
    rfl
  | true =>
    have := hdef hss
    simp only [V.exec, V.brk_apply, V.bind_apply, V.sym_ok m1, V.sym_ok (vm := { vm' with strstack := [] }) m1, V.popStr, hst.2, V.setStringSimple, V.assert_apply, hvar, if_true, V.updSym, V.modify_apply, V.when_, hss, this]

theorem goto_mimics (hI : I.Ok) (h : Midst I c vm) (h1 : vm.stack = []) (h2 : vm.strstack = []) {q : Src.Place} {n : Nat}
    (hk : I.code.drop vm.cs.pc = .goto_ n :: tail) : Mimics env I q vm (Src.perform env I.prog ss c (.goto n)) := by
  refine jump_mimics hI h.going ?_ h.base h1 h2 h.going
  rw [V.execute_at env (h.base.at_inst hI h.code hk)]
  simp only [V.exec, V.ret_apply]
  cases V.goToBasicLine n vm <;> rfl

theorem gosub_mimics (hI : I.Ok) (h : Midst I c vm) (h1 : vm.stack = []) (h2 : vm.strstack = []) (ht : Tail I c.place ss tail) {q : Src.Place} {n : Nat}
    (hk : I.code.drop vm.cs.pc = .gosub n :: tail) : Mimics env I q vm (Src.perform env I.prog ss c (.gosub n)) := by
  have hlen := h.base.calls.length
  simp only [Src.perform, Src.call]
  by_cases hd : 8 ≤ c.calls.length
  · rw [if_pos hd]
    refine Fails.now h.going (b := vm) ?_ (h.base.left h.going _)
    rw [V.execute_at env (h.base.at_inst hI h.code hk)]
    have : vm.retstack.length ≥ maxReturnStack := by simp only [maxReturnStack]; omega
    simp only [V.exec, V.ret_apply, V.bind_apply, V.get_apply, V.pushReturn, if_pos this]
  · rw [if_neg hd]
    have hlt : ¬ vm.retstack.length ≥ maxReturnStack := by simp only [maxReturnStack]; omega
    have hb : Standing I { c with calls := Src.after ss c.place :: c.calls } { vm with retstack := { vm.cs with pc := vm.cs.pc + 1 } :: vm.retstack } :=
      ⟨h.base.stored, h.base.named, h.base.small, h.base.grows, h.base.tidy, h.base.kinds, h.base.store,
        .cons ⟨h.code, ht.stands (drop_next hk), fun hn => by rw [after_line hn]; exact h.line⟩ h.base.calls, h.base.loops, h.base.begun, h.base.one, h.base.col,
        h.base.width, h.base.out, h.base.traceBasic, h.base.traceFor, h.base.deep,
        ⟨h.base.io.data, h.base.io.stdin, h.base.io.line, h.base.io.mark⟩⟩
    refine jump_mimics hI h.going (u := { vm with retstack := { vm.cs with pc := vm.cs.pc + 1 } :: vm.retstack }) ?_ hb h1 h2 h.going
    rw [V.execute_at env (h.base.at_inst hI h.code hk)]
    simp only [V.exec, V.ret_apply, V.bind_apply, V.get_apply, V.pushReturn, if_neg hlt]
    cases V.goToBasicLine n _ <;> rfl

theorem ret_mimics (hI : I.Ok) (h : Midst I c vm) (h1 : vm.stack = []) (h2 : vm.strstack = []) {q : Src.Place}
    (hk : I.code.drop vm.cs.pc = .return_ :: tail) : Mimics env I q vm (Src.perform env I.prog ss c .ret) := by
  have hx := V.execute_at env (h.base.at_inst hI h.code hk)
  have hcalls := h.base.calls
  simp only [Src.perform]
  cases hc : c.calls with
  | nil =>
    rw [hc] at hcalls
    cases hr : vm.retstack with
    | cons a l => rw [hr] at hcalls; cases hcalls
    | nil =>
      refine Fails.now h.going (b := vm) ?_ (h.base.left h.going _)
      rw [hx]
      simp only [V.exec, V.ret_apply, V.popReturn, hr]
  | cons p l =>
    rw [hc] at hcalls
    cases hr : vm.retstack with
    | nil => rw [hr] at hcalls; cases hcalls
    | cons a m =>
      rw [hr] at hcalls
      cases hcalls with
      | cons ha hm =>
        refine Mimics.went h.going (b := { vm with retstack := m, cs := a }) ?_
          ⟨⟨h.base.stored, h.base.named, h.base.small, h.base.grows, h.base.tidy, h.base.kinds, h.base.store, hm, h.base.loops, h.base.begun, h.base.one, h.base.col,
            h.base.width, h.base.out, h.base.traceBasic, h.base.traceFor, h.base.deep,
        ⟨h.base.io.data, h.base.io.stdin, h.base.io.line, h.base.io.mark⟩⟩, h1, h2, .inl ha, h.going⟩
        rw [hx]
        simp only [V.exec, V.ret_apply, V.popReturn, hr]

theorem end_mimics (hI : I.Ok) (h : Midst I c vm) {q : Src.Place} (hk : I.code.drop vm.cs.pc = .end_ :: tail) :
    Mimics env I q vm (Src.perform env I.prog ss c .end_) := by
  obtain ⟨d, hd, _⟩ := hI.bcode
  refine ⟨1, { vm with cs := { vm.cs with pc := I.code.length } }, .one h.going ?_, h.base.move (p := c.place), h.going, h.code, Nat.le_refl _⟩
  rw [V.execute_at env (h.base.at_inst hI h.code hk)]
  simp only [V.exec, V.ret_apply, V.bind_apply, V.curBcode, h.code, V.codeOf, h.base.stored, hd, V.setPc, V.modify_apply, Bcode.used]

theorem stop_mimics (hI : I.Ok) (h : Midst I c vm) (h1 : vm.stack = []) (h2 : vm.strstack = []) (ht : Tail I c.place ss tail) {q : Src.Place} (hk : I.code.drop vm.cs.pc = .stop :: tail) :
    Mimics env I q vm (Src.perform env I.prog ss c .stop) := by
  refine ⟨1, { vm with stopped := true }, .one h.going ?_, h.base.move (p := c.place), rfl, h.code, h.line, h1, h2, ss, tail, ht, hk⟩
  rw [V.execute_at env (h.base.at_inst hI h.code hk)]
  simp only [V.exec, V.ret_apply, V.modify_apply]

end
end LB
