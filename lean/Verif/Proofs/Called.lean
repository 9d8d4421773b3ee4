import Verif.Spec.UserFns
import Verif.Proofs.Printing
import Verif.Proofs.Frame
/- Expressions that call functions. -/
namespace LB
open LB.Spec _root_.Spec

/-- The machine after the return from a function with the parameter `p` that was `q`. -/
def given (w : VM) (p : Nat) (q : Symbol) : VM := { w with st := symUpdate w.st p (fun s => { s with defined := q.defined, num := q.num }) }

/-- Calls outside of functions. -/
inductive Outer (env : Env) : Calling
  | undefined {i vm n s} : CallOf vm.st i n s → s.defined = false → Outer env i vm (.err .notDefined vm)
  | params {i vm n s d} : CallOf vm.st i n s → s.defined = true → s.def_ = some d → n ≠ 1 → Outer env i vm (.err .paramCount vm)
  | fails {i vm s d f p e x rest er w} : CallOf vm.st i 1 s → s.defined = true → s.def_ = some d → d.bcode.inst = .def_ f 1 :: .param p :: (e ++ [.endDef]) →
      (∀ i ∈ e, computing i = true) → NumVar vm.st p → vm.stack = x :: rest → Computes env e (bound vm p x rest) (.err er w) → Outer env i vm (.err er w)
  | returns {i vm s d f p e x rest w q} : CallOf vm.st i 1 s → s.defined = true → s.def_ = some d → d.bcode.inst = .def_ f 1 :: .param p :: (e ++ [.endDef]) →
      (∀ i ∈ e, computing i = true) → vm.st.psym[p]? = some q → q.kind = .variable → q.type = .num → vm.stack = x :: rest →
      Computes env e (bound vm p x rest) (.ok () w) → Outer env i vm (.ok () (given w p q))

theorem given_reads {env : Env} {vm w : VM} {p : Nat} {q : Symbol} {e : List Inst} {x : Dbl} {rest : List Dbl} (hq : vm.st.psym[p]? = some q) (hx : ∀ i ∈ e, computing i = true)
    (h : Computes env e (bound vm p x rest) (.ok () w)) : OnlyReads vm (given w p q) ∧ w.st.psym[p]? = some { q with num := x, defined := true } := by
  obtain ⟨hrest, hnames, hsyms⟩ := quiet_computes h hx w .ok
  have hplen : p < w.st.psym.length := by
    have h1 := (List.getElem?_eq_some_iff.1 hq).1
    have h2 := hnames.2.2
    simp only [bound, symUpdate, List.length_modify] at h2
    omega
  have hpar : w.st.psym[p]? = some { q with num := x, defined := true } := by
    have h1 : (bound vm p x rest).st.psym[p]? = some { q with num := x, defined := true } := symUpdate_same hq
    have h2 := hsyms p _ _ h1 (List.getElem?_eq_getElem hplen)
    rw [List.getElem?_eq_getElem hplen, h2.defined rfl]
  refine ⟨⟨?_, ?_, ?_⟩, hpar⟩
  · simp only [given]
    conv => lhs; rw [hrest]
    rfl
  · simp only [given, symUpdate, List.length_modify]
    simp only [bound, symUpdate, List.length_modify] at hnames
    exact hnames
  · intro j s t hs ht
    simp only [given] at ht
    by_cases hj : j = p
    · subst hj
      rw [symUpdate_same hpar] at ht
      rw [hq] at hs
      cases hs; cases ht
      exact .same
    · rw [symUpdate_other _ _ _ _ hj] at ht
      refine hsyms j s t ?_ ht
      simp only [bound]
      rw [symUpdate_other _ _ _ _ hj]
      exact hs

theorem Outer.reads {env : Env} {i : Inst} {vm w : VM} (h : Outer env i vm (.ok () w)) : OnlyReads vm w := by
  cases h with
  | returns _ _ _ _ h1 h2 _ _ _ h3 => exact (given_reads h2 h1 h3).1

/- ### Where execution is -/

/-- At the place `k` of the code that the machine `base` is in. -/
def standing (base : VM) (k : Nat) (fn : FnState) (dc : Code) : V.Under := ⟨[], [], some ({ base.cs with pc := k }, fn, dc)⟩

theorem at_standing {base u : VM} (h : OnlyReads base u) (hc : base.cs.code ≠ some .def_) {k : Nat} {fn : FnState} {dc : Code} {i : Inst} (hi : instAt base k = some i) :
    At (V.over (standing base k fn dc) u) i := by
  simp only [instAt] at hi
  cases hr : base.cs.code with
  | none => simp [hr] at hi
  | some r =>
    cases hb : (V.codeOf base r).bcode with
    | none => simp [hr, hb] at hi
    | some b =>
      refine ⟨r, b, hr, ?_, (by simpa [hr, hb] using hi : b.inst[k]? = some i)⟩
      rw [← hb]
      have := h.rest
      cases r
      · rw [this]; rfl
      · rw [this]; rfl
      · exact absurd hr hc

theorem standing_stopped {base u : VM} {k : Nat} {fn : FnState} {dc : Code} (h : OnlyReads base u) : (V.over (standing base k fn dc) u).stopped = base.stopped := by
  rw [h.rest]; rfl

/-- Once stopped, the machine remains so. -/
theorem execute_stopped {env : Env} {vm : VM} (h : vm.stopped = true) : (V.execute env vm).All (fun m => m.stopped = true) := by
  have hk : ∀ i, V.Keeps (fun vm => vm.stopped = true) (V.exec env i) := by
    intro i
    by_cases hi : i = .stop
    · subst hi
      simp only [V.exec]
      exact V.Keeps.bind (V.Keeps.modify (fun vm _ => rfl)) (fun _ => V.Keeps.pure _)
    · refine V.keeps_exec (V.closed_stopped true) env i (fun a ha hs => ?_)
      subst hs
      cases i <;> first | exact hi rfl | simp [V.touches] at ha
  have hx : V.Keeps (fun vm => vm.stopped = true) (V.execute env) := by
    unfold V.execute; keeps
    · exact hk _
    · exact V.Keeps.modify (fun vm h => h)
  exact hx vm h

theorem travels_going {env : Env} {n : Nat} : ∀ {vm m : VM}, after env n vm = some m → m.stopped = false → Travels env vm n m := by
  induction n with
  | zero => intro vm m h _; cases h; exact .here
  | succ n ih =>
    intro vm m h hs
    simp only [after] at h
    cases hx : V.execute env vm with
    | err => simp [hx] at h
    | halt => simp [hx] at h
    | ok a vm1 =>
      simp only [hx] at h
      have ht := ih h hs
      have h1 : vm1.stopped = false := by
        cases n with
        | zero => cases h; exact hs
        | succ n => exact ht.after.2 0 vm1 (by omega) rfl
      refine .step ?_ hx ht
      cases hb : vm.stopped with
      | false => rfl
      | true =>
        have := execute_stopped (env := env) hb
        rw [hx] at this
        exact absurd (show vm1.stopped = true from this) (by rw [h1]; decide)

/-- The code of the body of a function. -/
theorem code_body {e : List Inst} {d : Def} {f p : Nat} (h : d.bcode.inst = .def_ f 1 :: .param p :: (e ++ [.endDef])) :
    (∀ j i, e[j]? = some i → d.bcode.inst[2 + j]? = some i) ∧ d.bcode.inst[2 + e.length]? = some .endDef := by
  rw [h]
  refine ⟨fun j i hj => ?_, ?_⟩
  · rw [Nat.add_comm 2 j]
    simp only [List.getElem?_cons_succ]
    rw [List.getElem?_append_left (List.getElem?_eq_some_iff.1 hj).1]
    exact hj
  · rw [Nat.add_comm 2]
    simp

theorem exec_params (env : Env) {i : Inst} {n : Nat} {s : Symbol} {d : Def} {vm : VM} (hc : CallOf vm.st i n s) (hf : vm.fn.codeState.code = none)
    (hd : s.defined = true) (hb : s.def_ = some d) (hn : n ≠ 1) : V.exec env i vm = .err .paramCount vm := by
  cases hc with
  | num h1 h2 h3 =>
    simp [V.exec, V.brk_apply, V.getParenNum, V.bind_apply, V.sym_ok h1, V.assert_apply, h2, h3, V.callDef, hd, hb, V.check_apply, V.get_apply, hf, hn]
  | str h1 h2 h3 =>
    simp [V.exec, V.brk_apply, V.getParenStr, V.bind_apply, V.sym_ok h1, V.assert_apply, h2, h3, V.callDef, hd, hb, V.check_apply, V.get_apply, hf, hn]

/-- The machine goes through the code of an expression. -/
theorem path {env : Env} {base : VM} (hs : base.stopped = false) (hd : base.cs.code = some .stored) {c : List Inst} {u : VM} {r : Res Unit} (h : Works env (Outer env) c u r)
    (hp : ∀ i ∈ c, computing i = true) : ∀ {k : Nat} {fn : FnState} {dc : Code}, fn.codeState.code = none → OnlyReads base u → (∀ j i, c[j]? = some i → instAt base (k + j) = some i) →
    (∃ i, instAt base (k + c.length) = some i) →
    (∀ w, r = .ok () w → ∃ n fn' dc', fn'.codeState.code = none ∧ Travels env (V.over (standing base k fn dc) u) n (V.over (standing base (k + c.length) fn' dc') w)) ∧
    (∀ e w, r = .err e w → ∃ n m o, Travels env (V.over (standing base k fn dc) u) n m ∧ m.stopped = false ∧ V.execute env m = .err e (V.over ⟨[], [], some o⟩ w)) := by
  have hd' : base.cs.code ≠ some .def_ := by rw [hd]; decide
  induction h with
  | done => exact fun {k fn dc} hf _ _ _ => ⟨fun w h => by cases h; exact ⟨0, fn, dc, hf, .here⟩, fun e w h => by cases h⟩
  | @next i l vm vm' r hc hr _ ih =>
    intro k fn dc hf hb hi hm
    have hi0 := hp i List.mem_cons_self
    have hb' : OnlyReads base vm' := hb.trans (V.exec_quiet env hi0 hc (by rw [hr]; exact .ok))
    obtain ⟨h1, h2⟩ := ih (fun i h => hp i (List.mem_cons_of_mem _ h)) (k := k + 1) (fn := fn) (dc := dc) hf hb' (fun j i' hj => by
      have := hi (j + 1) i' (by simpa using hj)
      rwa [show k + 1 + j = k + (j + 1) by omega]) (by rwa [List.length_cons, show k + (l.length + 1) = k + 1 + l.length by omega] at hm)
    have hx : V.execute env (V.over (standing base k fn dc) vm) = .ok () (V.over (standing base (k + 1) fn dc) vm') := by
      rw [V.execute_at env (at_standing hb hd' (by simpa using hi 0 i rfl))]
      have ht := V.tops_exec (standing base k fn dc) env hi0 hc
      rw [hr] at ht
      generalize V.exec env i (V.over (standing base k fn dc) vm) = y at ht
      cases ht with
      | ok => rfl
      | fullNum h | fullStr h => exact absurd rfl h
    have hst := (standing_stopped (k := k) (fn := fn) (dc := dc) hb).trans hs
    refine ⟨fun w h => ?_, fun e w h => ?_⟩
    · obtain ⟨n, fn', dc', hf', hn⟩ := h1 w h
      refine ⟨n + 1, fn', dc', hf', .step hst hx ?_⟩
      rwa [List.length_cons, show k + (l.length + 1) = k + 1 + l.length by omega]
    · obtain ⟨n, m, j, k1, k2, k3⟩ := h2 e w h
      exact ⟨n + 1, m, j, .step hst hx k1, k2, k3⟩
  | @again i l vm vm' r hc hr _ ih =>
    intro k fn dc hf hb hi hm
    have hi0 := hp i List.mem_cons_self
    have hb' : OnlyReads base vm' := hb.trans (V.exec_quiet env hi0 hc (by rw [hr]; exact .ok))
    obtain ⟨h1, h2⟩ := ih hp (k := k) (fn := fn) (dc := dc) hf hb' hi hm
    have hx : V.execute env (V.over (standing base k fn dc) vm) = .ok () (V.over (standing base k fn dc) vm') := by
      rw [V.execute_at env (at_standing hb hd' (by simpa using hi 0 i rfl))]
      have ht := V.tops_exec (standing base k fn dc) env hi0 hc
      rw [hr] at ht
      generalize V.exec env i (V.over (standing base k fn dc) vm) = y at ht
      cases ht with
      | ok => rfl
      | fullNum h | fullStr h => exact absurd rfl h
    have hst := (standing_stopped (k := k) (fn := fn) (dc := dc) hb).trans hs
    refine ⟨fun w h => ?_, fun e w h => ?_⟩
    · obtain ⟨n, fn', dc', hf', hn⟩ := h1 w h
      exact ⟨n + 1, fn', dc', hf', .step hst hx hn⟩
    · obtain ⟨n, m, j, k1, k2, k3⟩ := h2 e w h
      exact ⟨n + 1, m, j, .step hst hx k1, k2, k3⟩
  | @err i l vm vm' e hc hr =>
    intro k fn dc hf hb hi hm
    refine ⟨fun w h => (by cases h), fun e w h => ?_⟩
    cases h
    have hi0 := hp i List.mem_cons_self
    refine ⟨0, _, ({ base.cs with pc := k }, fn, dc), .here, (standing_stopped hb).trans hs, ?_⟩
    rw [V.execute_at env (at_standing hb hd' (by simpa using hi 0 i rfl))]
    have ht := V.tops_exec (standing base k fn dc) env hi0 hc
    rw [hr] at ht
    generalize V.exec env i (V.over (standing base k fn dc) vm) = y at ht
    cases ht with
    | err => rfl
    | fullNum h | fullStr h => exact absurd rfl h
    | emptyNum h | emptyStr h => exact absurd rfl h
  | @call i l vm vm' r hc _ ih =>
    intro k fn dc hf hb hi hm
    have hb' : OnlyReads base vm' := hb.trans hc.reads
    have hst := (standing_stopped (k := k) (fn := fn) (dc := dc) hb).trans hs
    have hgo : ∃ n fn' dc', fn'.codeState.code = none ∧ Travels env (V.over (standing base k fn dc) vm) n (V.over (standing base (k + 1) fn' dc') vm') := by
      cases hc with
      | @returns _ _ s d f p e x rest w q hcall hdef hsome hcode hbody hq hkind htype harg hcomp =>
        have hcalls : CallsFn (V.over (standing base k fn dc) vm) d p e x rest := by
          refine ⟨⟨i, s, at_standing hb hd' (by simpa using hi 0 i rfl), hcall, hdef, hsome⟩, hf, ?_, ⟨f, hcode⟩, hbody, ⟨q, hq, hkind, htype⟩, ?_⟩
          · obtain ⟨j, hj⟩ : ∃ j, instAt base (k + 1) = some j := by
              cases l with
              | nil => exact hm
              | cons j l => exact ⟨j, hi 1 j rfl⟩
            exact ⟨j, at_standing (k := k + 1) (fn := fn) (dc := dc) hb hd' hj⟩
          · show vm.stack ++ [] = _
            rw [List.append_nil]; exact harg
        obtain ⟨q', hq', _, _, hstep⟩ := V.call_step hcalls env
        have hq'' : vm.st.psym[p]? = some q' := hq'
        rw [hq] at hq''
        cases hq''
        have hcs : (V.over (standing base k fn dc) vm).cs.code.isSome = true := by
          show base.cs.code.isSome = true
          rw [hd]; rfl
        obtain ⟨hb1, hb2⟩ := code_body hcode
        have hbound : V.over (V.inFn d.sourceLine ⟨(V.over (standing base k fn dc) vm).cs, p, q.defined, q.num⟩ { (V.over (standing base k fn dc) vm).defCode with bcode := some d.bcode } 2)
            (bound (V.over (standing base k fn dc) vm) p x rest) =
            V.over (V.inFn d.sourceLine ⟨(V.over (standing base k fn dc) vm).cs, p, q.defined, q.num⟩ { (V.over (standing base k fn dc) vm).defCode with bcode := some d.bcode } 2)
            (bound vm p x rest) := by simp [V.over, V.inFn, bound, standing]
        obtain ⟨n, hn⟩ := V.body_ends (line := d.sourceLine) (fn := ⟨(V.over (standing base k fn dc) vm).cs, p, q.defined, q.num⟩)
          (dc := { (V.over (standing base k fn dc) vm).defCode with bcode := some d.bcode }) rfl hcs hcomp hbody hb1
        rw [hbound] at hstep
        obtain ⟨_, hpar⟩ := given_reads hq hbody hcomp
        have hret := V.return_step env (line := d.sourceLine) (cs := (V.over (standing base k fn dc) vm).cs) (b := q.defined) (y := q.num)
          (dc := { (V.over (standing base k fn dc) vm).defCode with bcode := some d.bcode }) (w := w) (p := p) rfl hb2 (by rw [hpar]; rfl) hcs
        have hend : ∀ fn' dc', { w with cs := following (V.over (standing base k fn dc) vm).cs, st := symUpdate w.st p (fun s => { s with defined := q.defined, num := q.num }), fn := fn', defCode := dc' } = V.over (standing base (k + 1) fn' dc') (given w p q) := by
          intro fn' dc'
          simp [V.over, standing, given, following]
        rw [hend] at hret
        have hw : w.stopped = false := by
          have := hb'.rest
          have : (given w p q).stopped = base.stopped := by rw [this]
          exact this.trans hs
        refine ⟨1 + (n + 1), _, _, ?_, (Travels.one hst hstep).trans ((travels_going hn hw).trans (Travels.one hw hret))⟩
        rfl
    obtain ⟨n0, fn', dc', hf', h0⟩ := hgo
    obtain ⟨h1, h2⟩ := ih (fun i h => hp i (List.mem_cons_of_mem _ h)) (k := k + 1) (fn := fn') (dc := dc') hf' hb' (fun j i' hj => by
      have := hi (j + 1) i' (by simpa using hj)
      rwa [show k + 1 + j = k + (j + 1) by omega]) (by rwa [List.length_cons, show k + (l.length + 1) = k + 1 + l.length by omega] at hm)
    refine ⟨fun w h => ?_, fun e w h => ?_⟩
    · obtain ⟨n, fn'', dc'', hf'', hn⟩ := h1 w h
      refine ⟨n0 + n, fn'', dc'', hf'', h0.trans ?_⟩
      rwa [List.length_cons, show k + (l.length + 1) = k + 1 + l.length by omega]
    · obtain ⟨n, m, j, k1, k2, k3⟩ := h2 e w h
      exact ⟨n0 + n, m, j, h0.trans k1, k2, k3⟩
  | @callErr i l vm vm' er hc =>
    intro k fn dc hf hb hi hm
    refine ⟨fun w h => (by cases h), fun e w h => ?_⟩
    cases h
    have hst := (standing_stopped (k := k) (fn := fn) (dc := dc) hb).trans hs
    have hat := at_standing (fn := fn) (dc := dc) hb hd' (by simpa using hi 0 i rfl)
    cases hc with
    | undefined hcall hu =>
      refine ⟨0, _, ({ base.cs with pc := k }, fn, dc), .here, hst, ?_⟩
      rw [V.execute_at env hat, V.exec_undefined env (vm := V.over (standing base k fn dc) vm) hcall hu]
      rfl
    | params hcall hdef hsome hn =>
      refine ⟨0, _, ({ base.cs with pc := k }, fn, dc), .here, hst, ?_⟩
      rw [V.execute_at env hat, exec_params env (vm := V.over (standing base k fn dc) vm) hcall hf hdef hsome hn]
      rfl
    | @fails _ _ s d f p e x rest _ _ hcall hdef hsome hcode hbody hpar harg hcomp =>
      have hcalls : CallsFn (V.over (standing base k fn dc) vm) d p e x rest := by
        refine ⟨⟨i, s, hat, hcall, hdef, hsome⟩, hf, ?_, ⟨f, hcode⟩, hbody, hpar, ?_⟩
        · obtain ⟨j, hj⟩ : ∃ j, instAt base (k + 1) = some j := by
            cases l with
            | nil => exact hm
            | cons j l => exact ⟨j, hi 1 j rfl⟩
          exact ⟨j, at_standing (k := k + 1) (fn := fn) (dc := dc) hb hd' hj⟩
        · show vm.stack ++ [] = _
          rw [List.append_nil]; exact harg
      obtain ⟨q, hq, _, _, hstep⟩ := V.call_step hcalls env
      have hcs : (V.over (standing base k fn dc) vm).cs.code.isSome = true := by
        show base.cs.code.isSome = true
        rw [hd]; rfl
      obtain ⟨hb1, _⟩ := code_body hcode
      have hbound : V.over (V.inFn d.sourceLine ⟨(V.over (standing base k fn dc) vm).cs, p, q.defined, q.num⟩ { (V.over (standing base k fn dc) vm).defCode with bcode := some d.bcode } 2)
          (bound (V.over (standing base k fn dc) vm) p x rest) =
          V.over (V.inFn d.sourceLine ⟨(V.over (standing base k fn dc) vm).cs, p, q.defined, q.num⟩ { (V.over (standing base k fn dc) vm).defCode with bcode := some d.bcode } 2)
          (bound vm p x rest) := by simp [V.over, V.inFn, bound, standing]
      rw [hbound] at hstep
      obtain ⟨n, j, m, h1, h2⟩ := V.body_ends (line := d.sourceLine) (fn := ⟨(V.over (standing base k fn dc) vm).cs, p, q.defined, q.num⟩)
        (dc := { (V.over (standing base k fn dc) vm).defCode with bcode := some d.bcode }) rfl hcs hcomp hbody hb1
      have hw : vm'.stopped = false := by
        have h3 := (quiet_computes hcomp hbody vm' .err).rest
        have h4 : vm'.stopped = vm.stopped := by rw [h3]; rfl
        exact h4.trans hst
      have hm : m.stopped = false := by
        cases hb : m.stopped with
        | false => rfl
        | true =>
          have := execute_stopped (env := env) hb
          rw [h2] at this
          exact absurd (show vm'.stopped = true from this) (by rw [hw]; decide)
      exact ⟨1 + n, m, _, (Travels.one hst hstep).trans (travels_going h1 hm), hm, h2⟩

end LB
