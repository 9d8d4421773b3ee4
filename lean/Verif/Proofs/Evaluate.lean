import Verif.Proofs.Stores
/- The code of an expression computes its value. -/
namespace LB
open LB.Spec _root_.Spec

theorem computes_append {env : Env} {c d : List Inst} {u : VM} {r : Res Unit} (h : Computes env c u r) :
    (∀ w s, r = .ok () w → Computes env d w s → Computes env (c ++ d) u s) ∧ (∀ e w, r = .err e w → Computes env (c ++ d) u (.err e w)) := by
  induction h with
  | done =>
    refine ⟨?_, ?_⟩
    · rintro w s h k; cases h; exact k
    · rintro e w h; cases h
  | next h1 h2 _ ih => exact ⟨fun w s h k => .next h1 h2 (ih.1 w s h k), fun e w h => .next h1 h2 (ih.2 e w h)⟩
  | again h1 h2 _ ih => exact ⟨fun w s h k => .again h1 h2 (ih.1 w s h k), fun e w h => .again h1 h2 (ih.2 e w h)⟩
  | err h1 h2 => exact ⟨fun w s h => (by cases h), fun e w h => by cases h; exact .err h1 h2⟩
  | halt h1 h2 => exact ⟨fun w s h => (by cases h), fun e w h => by cases h⟩
  | nested h1 h2 h3 => exact ⟨fun w s h => (by cases h), fun e w h => by cases h; exact .nested h1 h2 h3⟩
  | undefined h1 h2 => exact ⟨fun w s h => (by cases h), fun e w h => by cases h; exact .undefined h1 h2⟩

/-- What names with subscripts stand for. -/
abbrev Getting := (t : Ty) → CStr → List Dbl → Ev (Meaning t)

/-- What instructions that call a function do. -/
abbrev Calling := Inst → VM → Res Unit → Prop

/-- The evaluation of the code of an expression; `C` tells what becomes of the calls of functions. -/
inductive Works (env : Env) (C : Calling) : List Inst → VM → Res Unit → Prop
  | done {vm} : Works env C [] vm (.ok () vm)
  | next {i l vm vm' r} : (∀ n s, ¬ CallOf vm.st i n s) → V.exec env i vm = .ok .brk vm' → Works env C l vm' r → Works env C (i :: l) vm r
  | again {i l vm vm' r} : (∀ n s, ¬ CallOf vm.st i n s) → V.exec env i vm = .ok .ret vm' → Works env C (i :: l) vm' r → Works env C (i :: l) vm r
  | err {i l vm vm' e} : (∀ n s, ¬ CallOf vm.st i n s) → V.exec env i vm = .err e vm' → Works env C (i :: l) vm (.err e vm')
  | call {i l vm vm' r} : C i vm (.ok () vm') → Works env C l vm' r → Works env C (i :: l) vm r
  | callErr {i l vm vm' e} : C i vm (.err e vm') → Works env C (i :: l) vm (.err e vm')

/-- No calls. -/
def NoCalls : Calling := fun _ _ _ => False

/-- Calls within functions. -/
def Inner : Calling := fun i vm r => ∃ n s, CallOf vm.st i n s ∧ ((s.defined = true ∧ s.def_.isSome = true ∧ r = .err .nestedCall vm) ∨ (s.defined = false ∧ r = .err .notDefined vm))

theorem Works.plain {env : Env} {c : List Inst} {u : VM} {r : Res Unit} (h : Works env NoCalls c u r) : Computes env c u r := by
  induction h with
  | done => exact .done
  | next h1 h2 _ ih => exact .next h1 h2 ih
  | again h1 h2 _ ih => exact .again h1 h2 ih
  | err h1 h2 => exact .err h1 h2
  | call h => exact h.elim
  | callErr h => exact h.elim

theorem Works.inner {env : Env} {c : List Inst} {u : VM} {r : Res Unit} (h : Works env Inner c u r) : Computes env c u r := by
  induction h with
  | done => exact .done
  | next h1 h2 _ ih => exact .next h1 h2 ih
  | again h1 h2 _ ih => exact .again h1 h2 ih
  | err h1 h2 => exact .err h1 h2
  | call h =>
    obtain ⟨n, s, _, ⟨_, _, h⟩ | ⟨_, h⟩⟩ := h <;> cases h
  | callErr h =>
    obtain ⟨n, s, h0, ⟨h1, h2, h⟩ | ⟨h1, h⟩⟩ := h
    · cases h; exact .nested h0 h1 h2
    · cases h; exact .undefined h0 h1

theorem works_append {env : Env} {C : Calling} {c d : List Inst} {u : VM} {r : Res Unit} (h : Works env C c u r) :
    (∀ w s, r = .ok () w → Works env C d w s → Works env C (c ++ d) u s) ∧ (∀ e w, r = .err e w → Works env C (c ++ d) u (.err e w)) := by
  induction h with
  | done =>
    refine ⟨?_, ?_⟩
    · rintro w s h k; cases h; exact k
    · rintro e w h; cases h
  | next h1 h2 _ ih => exact ⟨fun w s h k => .next h1 h2 (ih.1 w s h k), fun e w h => .next h1 h2 (ih.2 e w h)⟩
  | again h1 h2 _ ih => exact ⟨fun w s h k => .again h1 h2 (ih.1 w s h k), fun e w h => .again h1 h2 (ih.2 e w h)⟩
  | err h1 h2 => exact ⟨fun w s h => (by cases h), fun e w h => by cases h; exact .err h1 h2⟩
  | call h1 _ ih => exact ⟨fun w s h k => .call h1 (ih.1 w s h k), fun e w h => .call h1 (ih.2 e w h)⟩
  | callErr h1 => exact ⟨fun w s h => (by cases h), fun e w h => by cases h; exact .callErr h1⟩

/-- From `a` to `b` nothing but the stacks and the values of names changes. -/
def Values (a b : VM) : Prop :=
  b = { a with stack := b.stack, strstack := b.strstack, st := b.st, world := { a.world with rng := b.world.rng, ticks := b.world.ticks } }

/-- The machine with the value on top. -/
def pushed : {t : Ty} → Meaning t → VM → List Dbl × List CStr
  | .num, x, vm => (x :: vm.stack, vm.strstack)
  | .str, s, vm => (vm.stack, s :: vm.strstack)
  | .err, _, vm => (vm.stack, vm.strstack)

/-- From `w` the code leads to `vm` with the value on top, reads variables like `base`, and leaves what expressions depend on
as it should be. -/
def Gives (env : Env) (C : Calling) (base : VM) {t : Ty} (r : Answer (Meaning t)) (c : List Inst) (w vm : VM) : Prop :=
  match r with
  | .ok x s => ∃ w', Works env C c w (.ok () w') ∧ OnlyReads base w' ∧ storeOf w' = s ∧ (w'.stack, w'.strstack) = pushed x vm
  | .error e s => ∃ w', Works env C c w (.err e w') ∧ Values base w' ∧ storeOf w' = s
  | .unknown => True

/-- The code computes the value. -/
def Yields (env : Env) (C : Calling) (base : VM) {t : Ty} (m : Ev (Meaning t)) (c : List Inst) (vm : VM) : Prop :=
  Gives env C base (m (storeOf vm)) c vm vm

/-- The instruction turns the machine `w` into `vm` with the value on top. -/
def Acts (env : Env) {t : Ty} (r : Except RunError (Meaning t)) (i : Inst) (w vm : VM) : Prop :=
  match r with
  | .ok x => ∃ w', V.exec env i w = .ok .brk w' ∧ (w'.st, w'.world) = (w.st, w.world) ∧ (w'.stack, w'.strstack) = pushed x vm
  | .error e => ∃ w', V.exec env i w = .err e w' ∧ (w'.st, w'.world) = (w.st, w.world)

/-- Instructions of expressions that call nothing. -/
def plainOp : Inst → Bool
  | .pushNum _ | .getSimpleNum _ | .arith _ | .cmpNum _ | .or | .and | .not | .neg
  | .pushStr _ | .getSimpleStr _ | .cmpStr _ | .concat => true
  | .bi b => b != .rnd && b != .timeStr
  | _ => false

theorem plainOp_computing {i : Inst} (h : plainOp i = true) : computing i = true := by cases i <;> simp_all [plainOp, computing]

theorem plainOp_call {i : Inst} (h : plainOp i = true) {st : SymTab} : ∀ n s, ¬ CallOf st i n s := by
  intro n s hc
  cases hc <;> simp [plainOp] at h

theorem storeOf_pair {w w' : VM} (h : (w'.st, w'.world) = (w.st, w.world)) : storeOf w' = storeOf w :=
  storeOf_world (congrArg Prod.fst h) (congrArg Prod.snd h)

/-- Evaluation goes on after the first part of the code. -/
theorem Gives.seq {env : Env} {C : Calling} {base : VM} {t t' : Ty} {m : Ev (Meaning t)} {s : Store} {f : Meaning t → Ev (Meaning t')} {c d : List Inst} {u vm vm' : VM}
    (h : Gives env C base (m s) c u vm)
    (h' : ∀ (x : Meaning t) w, OnlyReads base w → (w.stack, w.strstack) = pushed x vm → Gives env C base (f x (storeOf w)) d w vm') :
    Gives env C base ((m >>= f) s) (c ++ d) u vm' := by
  rw [Ev.bind_apply]
  cases hm : m s with
  | unknown => trivial
  | error e s1 =>
    rw [hm] at h
    obtain ⟨w, h1, h2, h3⟩ := h
    exact ⟨w, (works_append h1).2 _ _ rfl, h2, h3⟩
  | ok x s1 =>
    rw [hm] at h
    obtain ⟨w, h1, h2, h3, h4⟩ := h
    have := h' x w h2 h4
    rw [h3] at this
    show Gives env C base (f x s1) (c ++ d) u vm'
    generalize f x s1 = y at this
    cases y with
    | ok y s2 =>
      obtain ⟨w', k1, k2, k3⟩ := this
      exact ⟨w', (works_append h1).1 _ _ rfl k1, k2, k3⟩
    | error e s2 =>
      obtain ⟨w', k1, k2⟩ := this
      exact ⟨w', (works_append h1).1 _ _ rfl k1, k2⟩
    | unknown => trivial

theorem acts_yields {env : Env} {C : Calling} {base w vm : VM} {t : Ty} {r : Except RunError (Meaning t)} {i : Inst} (h : Acts env r i w vm)
    (hi : plainOp i = true) (hb : OnlyReads base w) : Gives env C base (Ev.of r (storeOf w)) [i] w vm := by
  cases r with
  | ok x =>
    obtain ⟨w', h1, h0, h2⟩ := h
    exact ⟨w', .next (plainOp_call hi) h1 .done, hb.trans (V.exec_quiet env (plainOp_computing hi) (plainOp_call hi) (by rw [h1]; exact .ok)), storeOf_pair h0, h2⟩
  | error e =>
    obtain ⟨w', h1, h0⟩ := h
    exact ⟨w', .err (plainOp_call hi) h1, (hb.trans (V.exec_quiet env (plainOp_computing hi) (plainOp_call hi) (by rw [h1]; exact .err))).rest, storeOf_pair h0⟩

theorem Yields.one {env : Env} {C : Calling} {base vm : VM} {t : Ty} {r : Except RunError (Meaning t)} {i : Inst} (hb : OnlyReads base vm) (hi : plainOp i = true)
    (h : Acts env r i vm vm) : Yields env C base (Ev.of r) [i] vm := acts_yields h hi hb

theorem Yields.unary {env : Env} {C : Calling} {base vm : VM} {t u : Ty} {m : Ev (Meaning t)} {c : List Inst} {i : Inst}
    {f : Meaning t → Except RunError (Meaning u)} (h : Yields env C base m c vm) (hi : plainOp i = true)
    (hf : ∀ (x : Meaning t) w, (w.stack, w.strstack) = pushed x vm → Acts env (f x) i w vm) : Yields env C base (m >>= fun x => Ev.of (f x)) (c ++ [i]) vm :=
  Gives.seq h fun x w hb hx => acts_yields (hf x w hx) hi hb

theorem Yields.binary {env : Env} {C : Calling} {base vm : VM} {t u v : Ty} {m : Ev (Meaning t)} {m' : Ev (Meaning u)} {c d : List Inst} {i : Inst}
    {f : Meaning t → Meaning u → Except RunError (Meaning v)} (h : Yields env C base m c vm)
    (h' : ∀ (x : Meaning t) w, OnlyReads base w → (w.stack, w.strstack) = pushed x vm → Yields env C base m' d w) (hi : plainOp i = true)
    (hf : ∀ (x : Meaning t) (y : Meaning u) w w', (w.stack, w.strstack) = pushed x vm → (w'.stack, w'.strstack) = pushed y w → Acts env (f x y) i w' vm) :
    Yields env C base (m >>= fun x => m' >>= fun y => Ev.of (f x y)) (c ++ d ++ [i]) vm := by
  rw [List.append_assoc]
  exact Gives.seq h fun x w hb hx => Gives.seq (h' x w hb hx) fun y w' hb' hy => acts_yields (hf x y w w' hx hy) hi hb'

theorem Yields.ternary {env : Env} {C : Calling} {base vm : VM} {t u v x : Ty} {m : Ev (Meaning t)} {m' : Ev (Meaning u)} {m'' : Ev (Meaning v)}
    {c d e : List Inst} {i : Inst} {f : Meaning t → Meaning u → Meaning v → Except RunError (Meaning x)} (h : Yields env C base m c vm)
    (h' : ∀ (a : Meaning t) w, OnlyReads base w → (w.stack, w.strstack) = pushed a vm → Yields env C base m' d w)
    (h'' : ∀ (a : Meaning t) (b : Meaning u) w w', OnlyReads base w' → (w.stack, w.strstack) = pushed a vm → (w'.stack, w'.strstack) = pushed b w → Yields env C base m'' e w')
    (hi : plainOp i = true)
    (hf : ∀ (a : Meaning t) (b : Meaning u) (c : Meaning v) w w' w'', (w.stack, w.strstack) = pushed a vm → (w'.stack, w'.strstack) = pushed b w →
      (w''.stack, w''.strstack) = pushed c w' → Acts env (f a b c) i w'' vm) :
    Yields env C base (m >>= fun a => m' >>= fun b => m'' >>= fun c => Ev.of (f a b c)) (c ++ d ++ e ++ [i]) vm := by
  rw [List.append_assoc, List.append_assoc]
  exact Gives.seq h fun x w hb hx => Gives.seq (h' x w hb hx) fun y w' hb' hy => Gives.seq (h'' x y w w' hb' hx hy) fun z w'' hb'' hz =>
    acts_yields (hf x y z w w' w'' hx hy hz) hi hb''

/-! Names. -/

theorem Spec.Seen.head {s t : Symbol} (h : Seen s t) : t.name = s.name ∧ t.id = s.id ∧ t.kind = s.kind ∧ t.type = s.type := by
  cases h <;> exact ⟨rfl, rfl, rfl, rfl⟩

theorem find_entry {st : SymTab} (hw : WellNamed st) {w : CStr} {q : Nat} {s : Symbol} (hs : st.psym[q]? = some s) (hn : SameIgnoringCase s.name w)
    (hk : s.kind = .variable) : st.psym.find? (fun s => s.kind == .variable && decide (SameIgnoringCase s.name w)) = some s := by
  have hp : (s.kind == .variable && decide (SameIgnoringCase s.name w)) = true := by simp [hk, hn]
  cases hf : st.psym.find? (fun s => s.kind == .variable && decide (SameIgnoringCase s.name w)) with
  | none =>
    have := List.find?_eq_none.1 hf s (List.mem_of_getElem? hs)
    exact absurd hp this
  | some s' =>
    have h1 := List.find?_some hf
    simp only [Bool.and_eq_true, beq_iff_eq, decide_eq_true_eq] at h1
    obtain ⟨q', hq'⟩ := List.mem_iff_getElem?.1 (List.mem_of_find?_eq_some hf)
    have := hw.uniq w false q' q ⟨s', hq', h1.2, .inr (.inl ⟨rfl, h1.1⟩)⟩ ⟨s, hs, hn, .inr (.inl ⟨rfl, hk⟩)⟩
    subst this
    rw [hs] at hq'
    exact hq'.symm

theorem symbol_id {st : SymTab} (hw : WellNamed st) (hl : st.psym.length ≤ 65536) {q : Nat} {s : Symbol} (hs : st.psym[q]? = some s) : s.id = q := by
  rw [hw.tab.ids q s hs]
  have := (List.getElem?_eq_some_iff.1 hs).1
  omega

theorem onlyReads_grows {a b : VM} (h : OnlyReads a b) : Grows a.st b.st := by
  intro q s hs
  have hlt : q < b.st.psym.length := by rw [h.names.2.2]; exact (List.getElem?_eq_some_iff.1 hs).1
  obtain ⟨h1, h2, h3, h4⟩ := (h.syms q s _ hs (List.getElem?_eq_getElem hlt)).head
  exact ⟨_, List.getElem?_eq_getElem hlt, h2, h4, h1, .inl h3⟩

theorem onlyReads_wellNamed {a b : VM} (h : OnlyReads a b) (hw : WellNamed a.st) : WellNamed b.st := by
  have heads : b.st.psym.map (fun s => (s.name, s.id, s.kind, s.type)) = a.st.psym.map (fun s => (s.name, s.id, s.kind, s.type)) := by
    refine List.ext_getElem (by simp [h.names.2.2]) fun q h1 h2 => ?_
    simp only [List.length_map] at h1 h2
    obtain ⟨k1, k2, k3, k4⟩ := (h.syms q _ _ (List.getElem?_eq_getElem h2) (List.getElem?_eq_getElem h1)).head
    simp only [List.getElem_map, k1, k2, k3, k4]
  have names : b.st.psym.map (·.name) = a.st.psym.map (·.name) := by
    have := congrArg (List.map Prod.fst) heads
    simpa only [List.map_map, Function.comp_def] using this
  refine hw.same (hw.linked.same h.names.1 names) (hw.tab.mapped h.names.2.1 heads) fun q t ht => ?_
  have hlt : q < a.st.psym.length := by rw [← h.names.2.2]; exact (List.getElem?_eq_some_iff.1 ht).1
  obtain ⟨k1, _, k3, _⟩ := (h.syms q _ _ (List.getElem?_eq_getElem hlt) ht).head
  exact ⟨_, List.getElem?_eq_getElem hlt, k1.symm, fun b hb => k3 ▸ hb⟩

theorem exec_getNum {env : Env} {vm : VM} {q : Nat} {t : Symbol} (hs : vm.st.psym[q]? = some t) (hk : t.kind = .variable) (ht : t.type = .num) (hr : vm.stack.length < maxNumStack) :
    ∃ w, V.exec env (.getSimpleNum q) vm = .ok .brk w ∧ storeOf w = storeOf vm ∧ w.stack = (if t.defined then t.num else .fin 0) :: vm.stack ∧ w.strstack = vm.strstack := by
  have hr' : ¬ maxNumStack ≤ vm.stack.length := by omega
  have hv : V.isVar t .num = true := by simp [V.isVar, hk, ht]
  cases hd : t.defined with
  | true =>
    refine ⟨{ vm with stack := t.num :: vm.stack }, ?_, storeOf_world rfl rfl, rfl, rfl⟩
    simp [V.exec, V.brk, V.getNumericSimple, V.sym, symbolAt, hs, hv, hd, V.assert, V.when_, V.push, hr']
  | false =>
    obtain ⟨e1, e2⟩ := named_numRead hs ht hd
    obtain ⟨e3, e4⟩ := arrays_variable hs hk (valueOnly_num (.fin 0) true)
    refine ⟨{ vm with st := symUpdate vm.st q (fun s => { s with num := .fin 0, defined := true }), stack := .fin 0 :: vm.stack }, ?_, storeOf_eq e1 e2 e3 e4 rfl rfl, rfl, rfl⟩
    have hq := (List.getElem?_eq_some_iff.1 hs).1
    simp [V.exec, V.brk, V.getNumericSimple, V.sym, symbolAt, hs, hv, hd, V.assert, V.when_, V.push, hr', V.updSym, V.modify, symUpdate]

theorem exec_getStr {env : Env} {vm : VM} {q : Nat} {t : Symbol} (hs : vm.st.psym[q]? = some t) (hk : t.kind = .variable) (ht : t.type = .str) (hr : vm.strstack.length < maxStrStack) :
    ∃ w, V.exec env (.getSimpleStr q) vm = .ok .brk w ∧ storeOf w = storeOf vm ∧ w.stack = vm.stack ∧ w.strstack = (if t.defined then t.str.getD [] else []) :: vm.strstack := by
  have hr' : ¬ maxStrStack ≤ vm.strstack.length := by omega
  have hv : V.isVar t .str = true := by simp [V.isVar, hk, ht]
  cases hd : t.defined with
  | true =>
    refine ⟨{ vm with strstack := t.str.getD [] :: vm.strstack }, ?_, storeOf_world rfl rfl, rfl, rfl⟩
    simp [V.exec, V.brk, V.getStringSimple, V.sym, symbolAt, hs, hv, hd, V.assert, V.when_, V.pushStr, hr']
  | false =>
    obtain ⟨e1, e2⟩ := named_strRead hs ht hd
    obtain ⟨e3, e4⟩ := arrays_variable hs hk (valueOnly_str none true)
    refine ⟨{ vm with st := symUpdate vm.st q (fun s => { s with str := none, defined := true }), strstack := [] :: vm.strstack }, ?_, storeOf_eq e1 e2 e3 e4 rfl rfl, rfl, rfl⟩
    have hq := (List.getElem?_eq_some_iff.1 hs).1
    simp [V.exec, V.brk, V.getStringSimple, V.sym, symbolAt, hs, hv, hd, V.assert, V.when_, V.pushStr, hr', V.updSym, V.modify, symUpdate]

/-- An entry of the symbol table while expressions are evaluated. -/
theorem onlyReads_entry {base vm : VM} (hb : OnlyReads base vm) {q : Nat} {s : Symbol} (hs : base.st.psym[q]? = some s) :
    ∃ t, vm.st.psym[q]? = some t ∧ t.name = s.name ∧ t.id = s.id ∧ t.kind = s.kind ∧ t.type = s.type := by
  have hq : q < vm.st.psym.length := by
    rw [hb.names.2.2]
    exact (List.getElem?_eq_some_iff.1 hs).1
  exact ⟨_, List.getElem?_eq_getElem hq, (hb.syms q s _ hs (List.getElem?_eq_getElem hq)).head⟩

theorem onlyReads_call {base vm : VM} (hb : OnlyReads base vm) {i : Inst} (h : ∀ n s, ¬ CallOf base.st i n s) : ∀ n s, ¬ CallOf vm.st i n s := by
  intro n s hc
  have key : ∀ {q : Nat}, vm.st.psym[q]? = some s → ∃ s0, base.st.psym[q]? = some s0 ∧ s.kind = s0.kind ∧ s.type = s0.type := by
    intro q hq
    have hlt : q < base.st.psym.length := by rw [← hb.names.2.2]; exact (List.getElem?_eq_some_iff.1 hq).1
    obtain ⟨_, _, k3, k4⟩ := (hb.syms q _ s (List.getElem?_eq_getElem hlt) hq).head
    exact ⟨_, List.getElem?_eq_getElem hlt, k3, k4⟩
  cases hc with
  | num h1 h2 h3 =>
    obtain ⟨s0, k1, k2, k3⟩ := key h1
    exact h n s0 (.num k1 (k2.symm.trans h2) (k3.symm.trans h3))
  | str h1 h2 h3 =>
    obtain ⟨s0, k1, k2, k3⟩ := key h1
    exact h n s0 (.str k1 (k2.symm.trans h2) (k3.symm.trans h3))

theorem yields_numVar {env : Env} {C : Calling} {get : Getting} {base vm : VM} (hw : WellNamed base.st) (hl : base.st.psym.length ≤ 65536) {w : CStr} {q : Nat} {s : Symbol}
    (hs : base.st.psym[q]? = some s) (hn : SameIgnoringCase s.name w) (hk : s.kind = .variable) (ht : s.type = .num) (hb : OnlyReads base vm)
    (hr : vm.stack.length < maxNumStack) : Yields env C base ((Expr.numVar w).evalBy env get) [.getSimpleNum s.id] vm := by
  rw [symbol_id hw hl hs]
  obtain ⟨t, k1, k2, _, k3, k4⟩ := onlyReads_entry hb hs
  obtain ⟨u, h1, h2, h3, h4⟩ := exec_getNum (env := env) k1 (k3.trans hk) (k4.trans ht) hr
  have hv : (storeOf vm).nums w = if t.defined then t.num else .fin 0 := by
    show numNamed vm.st w = _
    rw [numNamed_look, look_entry isVariable_class (onlyReads_wellNamed hb hw) k1 (by rw [k2]; exact hn) (by rw [k3, hk]; rfl)]
    simp [numView, k4, ht]
  have hp : plainOp (.getSimpleNum q) = true := rfl
  show Gives (t := .num) env C base (.ok ((storeOf vm).nums w) (storeOf vm)) _ _ _
  exact ⟨u, .next (plainOp_call hp) h1 .done, hb.trans (V.exec_quiet env (plainOp_computing hp) (plainOp_call hp) (by rw [h1]; exact .ok)), h2, by rw [hv, h3, h4]; rfl⟩

theorem yields_strVar {env : Env} {C : Calling} {get : Getting} {base vm : VM} (hw : WellNamed base.st) (hl : base.st.psym.length ≤ 65536) {w : CStr} {q : Nat} {s : Symbol}
    (hs : base.st.psym[q]? = some s) (hn : SameIgnoringCase s.name w) (hk : s.kind = .variable) (ht : s.type = .str) (hb : OnlyReads base vm)
    (hr : vm.strstack.length < maxStrStack) : Yields env C base ((Expr.strVar w).evalBy env get) [.getSimpleStr s.id] vm := by
  rw [symbol_id hw hl hs]
  obtain ⟨t, k1, k2, _, k3, k4⟩ := onlyReads_entry hb hs
  obtain ⟨u, h1, h2, h3, h4⟩ := exec_getStr (env := env) k1 (k3.trans hk) (k4.trans ht) hr
  have hv : (storeOf vm).strs w = if t.defined then t.str.getD [] else [] := by
    show strNamed vm.st w = _
    rw [strNamed_look, look_entry isVariable_class (onlyReads_wellNamed hb hw) k1 (by rw [k2]; exact hn) (by rw [k3, hk]; rfl)]
    simp [strView, k4, ht]
  have hp : plainOp (.getSimpleStr q) = true := rfl
  show Gives (t := .str) env C base (.ok ((storeOf vm).strs w) (storeOf vm)) _ _ _
  exact ⟨u, .next (plainOp_call hp) h1 .done, hb.trans (V.exec_quiet env (plainOp_computing hp) (plainOp_call hp) (by rw [h1]; exact .ok)), h2, by rw [hv, h3, h4]; rfl⟩

/-- An element of an array is read. -/
theorem gives_elem {env : Env} {C : Calling} {base w vm : VM} {t : Ty} {nm : CStr} {q n : Nat} {s : Symbol} {xs : List Dbl} (ht : t ≠ .err) (hb : OnlyReads base w) (h : HasArray w t nm q s)
    (hst : w.stack = xs.reverse ++ vm.stack) (hss : w.strstack = vm.strstack) (hn : xs.length = n) (h1 : 1 ≤ n) (h2 : n ≤ 2)
    (hr : t = .num → vm.stack.length < maxNumStack) (hr' : t = .str → vm.strstack.length < maxStrStack) :
    Gives env C base (element t nm xs (storeOf w)) [getInst t q n] w vm := by
  have hcall : ∀ k s', ¬ CallOf w.st (getInst t q n) k s' := by
    intro k s' hc
    cases t with
    | err => exact ht rfl
    | num =>
      cases hc with
      | num h1 h2 _ => rw [h.at_] at h1; cases h1; rw [h.kind] at h2; cases h2
    | str =>
      cases hc with
      | str h1 h2 _ => rw [h.at_] at h1; cases h1; rw [h.kind] at h2; cases h2
  have hcomp : computing (getInst t q n) = true := by cases t <;> rfl
  cases t with
  | err => exact absurd rfl ht
  | num =>
    have hroom : ¬ maxNumStack ≤ vm.stack.length := by have := hr rfl; omega
    obtain ⟨k1, k2⟩ := kin_num.gets ht h hst hn h1 h2
    have hty : (s.type == .num) = true := by simp [h.type]
    cases he : element .num nm xs (storeOf w) with
    | unknown => trivial
    | ok v s1 =>
      obtain ⟨y, f, m1, m2, _, m3⟩ := k1 v s1 he
      have hx : V.exec env (.getParenNum q n) w = .ok .brk { w with stack := v :: vm.stack, st := symUpdate w.st q f } := by
        simp only [V.exec, V.brk_apply, V.getParenNum, V.bind_apply, V.sym_ok h.at_, V.assert_apply, hty, if_true, h.kind, m1]
        simp [V.push, hroom, ← m2]
      exact ⟨_, .next hcall hx .done, hb.trans (V.exec_quiet env hcomp hcall (by rw [show getInst .num q n = .getParenNum q n from rfl, hx]; exact .ok)),
        (storeOf_world rfl rfl).trans m3, by simp [pushed, hss]⟩
    | error e s1 =>
      obtain ⟨u, m1, m2⟩ := k2 e s1 he
      have hx : V.exec env (.getParenNum q n) w = .err e u := by
        simp only [V.exec, V.brk_apply, V.getParenNum, V.bind_apply, V.sym_ok h.at_, V.assert_apply, hty, if_true, h.kind, m1]
      exact ⟨_, .err hcall hx, (hb.trans (V.exec_quiet env hcomp hcall (by rw [show getInst .num q n = .getParenNum q n from rfl, hx]; exact .err))).rest, m2⟩
  | str =>
    have hroom : ¬ maxStrStack ≤ vm.strstack.length := by have := hr' rfl; omega
    obtain ⟨k1, k2⟩ := kin_str.gets ht h hst hn h1 h2
    have hty : (s.type == .str) = true := by simp [h.type]
    cases he : element .str nm xs (storeOf w) with
    | unknown => trivial
    | ok v s1 =>
      obtain ⟨y, f, m1, m2, _, m3⟩ := k1 v s1 he
      have hx : V.exec env (.getParenStr q n) w = .ok .brk { w with stack := vm.stack, st := symUpdate w.st q f, strstack := v :: vm.strstack } := by
        simp only [V.exec, V.brk_apply, V.getParenStr, V.bind_apply, V.sym_ok h.at_, V.assert_apply, hty, if_true, h.kind, m1]
        simp [V.pushStr, hroom, hss, ← m2]
      exact ⟨_, .next hcall hx .done, hb.trans (V.exec_quiet env hcomp hcall (by rw [show getInst .str q n = .getParenStr q n from rfl, hx]; exact .ok)),
        (storeOf_world rfl rfl).trans m3, by simp [pushed]⟩
    | error e s1 =>
      obtain ⟨u, m1, m2⟩ := k2 e s1 he
      have hx : V.exec env (.getParenStr q n) w = .err e u := by
        simp only [V.exec, V.brk_apply, V.getParenStr, V.bind_apply, V.sym_ok h.at_, V.assert_apply, hty, if_true, h.kind, m1]
      exact ⟨_, .err hcall hx, (hb.trans (V.exec_quiet env hcomp hcall (by rw [show getInst .str q n = .getParenStr q n from rfl, hx]; exact .err))).rest, m2⟩

theorem noCall_bi {st : SymTab} {b : Bi} : ∀ n s, ¬ CallOf st (.bi b) n s := by
  intro n s h; cases h

theorem noCall_pop {st : SymTab} {t : Ty} : ∀ n s, ¬ CallOf st (popInst t) n s := by
  intro n s h; cases t <;> cases h

/-- RND draws until the number is less than 1. -/
theorem computes_rnd {env : Env} {C : Calling} {g g' : Nat} {x : Dbl} (h : Draws env g x g') : ∀ {w : VM}, w.world.rng = g → w.stack.length < maxNumStack →
    Works env C [.bi .rnd] w (.ok () { w with stack := x :: w.stack, world := { w.world with rng := g' } }) := by
  induction h with
  | @now g hd =>
    rintro w rfl hr
    refine .next noCall_bi ?_ .done
    have hd' : Dbl.le (.fin 1) (Dbl.div (Dbl.ofInt (env.rand w.world.rng).1) (Dbl.ofInt env.randMax)) = false := hd
    simp [V.exec, V.rndStep, hd', V.brk, V.push, show ¬ maxNumStack ≤ w.stack.length by omega, drawn]
  | @later g x g' hd _ ih =>
    rintro w rfl hr
    have hd' : Dbl.le (.fin 1) (Dbl.div (Dbl.ofInt (env.rand w.world.rng).1) (Dbl.ofInt env.randMax)) = true := hd
    refine .again (vm' := { w with world := { w.world with rng := (env.rand w.world.rng).2 } }) noCall_bi ?_ (ih (w := { w with world := { w.world with rng := (env.rand w.world.rng).2 } }) rfl hr)
    simp [V.exec, V.rndStep, hd']

theorem gives_rnd {env : Env} {C : Calling} {base w vm : VM} (hb : OnlyReads base w) (hst : w.stack = vm.stack) (hss : w.strstack = vm.strstack) (hr : vm.stack.length < maxNumStack) :
    Gives (t := .num) env C base (random env (storeOf w)) [.bi .rnd] w vm := by
  unfold random
  split
  · rename_i h
    have hd := h.choose_spec
    generalize h.choose = p at hd
    refine ⟨_, computes_rnd hd rfl (by rw [hst]; exact hr), ⟨?_, hb.names, hb.syms⟩, rfl, by simp [pushed, hst, hss]⟩
    conv => lhs; rw [hb.rest]
  · trivial

theorem twoDigits_places : ∀ n : Fin 100, V.twoDigits n = twoPlaces n := by decide +kernel

theorem timeText_clock (t : Fin 24 × Fin 60 × Fin 61) : V.timeText t = twoPlaces t.1 ++ ':' :: twoPlaces t.2.1 ++ ':' :: twoPlaces t.2.2 := by
  have e1 := twoDigits_places ⟨t.1, by omega⟩
  have e2 := twoDigits_places ⟨t.2.1, by omega⟩
  have e3 := twoDigits_places ⟨t.2.2, by omega⟩
  simp only [V.timeText, e1, e2, e3]

theorem gives_time {env : Env} {C : Calling} {base w vm : VM} (hb : OnlyReads base w) (hst : w.stack = vm.stack) (hss : w.strstack = vm.strstack) (hr : vm.strstack.length < maxStrStack) :
    Gives (t := .str) env C base (clock env (storeOf w)) [.bi .timeStr] w vm := by
  refine ⟨{ w with strstack := V.timeText (env.localtime (env.time w.world.ticks)) :: w.strstack, world := { w.world with ticks := w.world.ticks + 1 } },
    .next noCall_bi ?_ .done, ⟨?_, hb.names, hb.syms⟩, rfl, by simp [pushed, hst, hss, timeText_clock, storeOf]⟩
  · simp [V.exec, V.brk, V.builtinOp, V.readClock, V.pushStr, show ¬ maxStrStack ≤ w.strstack.length by rw [hss]; omega]
  · conv => lhs; rw [hb.rest]

/-- The value of an argument that does not matter is discarded. -/
theorem gives_pop {env : Env} {C : Calling} {base w vm : VM} {t t' : Ty} {x : Meaning t} {m : Ev (Meaning t')} {d : List Inst} (ht : t ≠ .err) (hb : OnlyReads base w)
    (hx : (w.stack, w.strstack) = pushed x vm)
    (h : ∀ w', OnlyReads base w' → w'.stack = vm.stack → w'.strstack = vm.strstack → Gives env C base (m (storeOf w')) d w' vm) :
    Gives env C base (m (storeOf w)) (popInst t :: d) w vm := by
  obtain ⟨w', e1, e2, e3, e4, e5⟩ : ∃ w', V.exec env (popInst t) w = .ok .brk w' ∧ OnlyReads base w' ∧ storeOf w' = storeOf w ∧ w'.stack = vm.stack ∧ w'.strstack = vm.strstack := by
    cases t with
    | err => exact absurd rfl ht
    | num =>
      simp only [pushed, Prod.mk.injEq] at hx
      refine ⟨{ w with stack := vm.stack }, by simp [popInst, V.exec, V.brk, V.pop, hx.1], ⟨?_, hb.names, hb.syms⟩, storeOf_world rfl rfl, rfl, hx.2⟩
      conv => lhs; rw [hb.rest]
    | str =>
      simp only [pushed, Prod.mk.injEq] at hx
      refine ⟨{ w with strstack := vm.strstack }, by simp [popInst, V.exec, V.brk, V.popStr, hx.2], ⟨?_, hb.names, hb.syms⟩, storeOf_world rfl rfl, hx.1, rfl⟩
      conv => lhs; rw [hb.rest]
  have := h w' e2 e4 e5
  rw [e3] at this
  generalize m (storeOf w) = y at this
  cases y with
  | unknown => trivial
  | ok y s =>
    obtain ⟨u, k1, k2⟩ := this
    exact ⟨u, .next noCall_pop e1 k1, k2⟩
  | error e s =>
    obtain ⟨u, k1, k2⟩ := this
    exact ⟨u, .next noCall_pop e1 k1, k2⟩

/-! Operators. -/

theorem word32_cases (x : Dbl) : (∃ k, IsWord x k ∧ word32 x = .ok (BitVec.ofInt 32 k)) ∨ ((∀ k, ¬ IsWord x k) ∧ word32 x = .error .invalidLogical) := by
  cases x with
  | fin q =>
    simp only [word32]
    split
    · rename_i h
      refine .inl ⟨q.num, ⟨.inl ?_, h.2⟩, rfl⟩
      congr 1
      exact (Rat.ext (by simp) (by simp [h.1]))
    · rename_i h
      refine .inr ⟨?_, rfl⟩
      rintro k ⟨hk | ⟨hk, -⟩, h2⟩
      · cases hk
        exact h ⟨Rat.den_intCast k, by simpa using h2⟩
      · cases hk
  | nzero => exact .inl ⟨0, ⟨.inr ⟨rfl, rfl⟩, by omega⟩, rfl⟩
  | _ => exact .inr ⟨(by rintro k ⟨hk | ⟨hk, -⟩, -⟩ <;> cases hk), rfl⟩

theorem ofInt_toInt (b : BitVec 32) : Dbl.ofInt b.toInt = ofWord b := by
  have := V.toInt_word b
  exact Dbl.ofInt_exact _ (by omega)

theorem notInt_word (k : Int) : Dbl.ofInt (V.notInt k) = ofWord (~~~ BitVec.ofInt 32 k) := ofInt_toInt _

theorem andInt_word (k m : Int) : Dbl.ofInt (V.andInt k m) = ofWord (BitVec.ofInt 32 k &&& BitVec.ofInt 32 m) := ofInt_toInt _

theorem orInt_word (k m : Int) : Dbl.ofInt (V.orInt k m) = ofWord (BitVec.ofInt 32 k ||| BitVec.ofInt 32 m) := ofInt_toInt _

theorem eq_comm_dbl (x y : Dbl) : Dbl.eq x y = Dbl.eq y x := by
  cases x <;> cases y <;> simp [Dbl.eq, eq_comm]

theorem relNum_numbers (r : Rel) (x y : Dbl) : V.relNum r x y = relNumbers r x y := by
  cases r <;> try rfl
  simp only [V.relNum, relNumbers, Dbl.le, eq_comm_dbl y x]

theorem count_error {vm : VM} {x : Dbl} {rest : List Dbl} {e : RunError} (hs : vm.stack = x :: rest) (h : Spec.count x = .error e) :
    V.popUnsigned vm = .err e { vm with stack := rest } := by
  rcases (count_isCount x).2 e h with ⟨h1, rfl⟩ | ⟨h1, h2, rfl⟩
  · simp [V.popUnsigned, V.pop, hs, h1]
  · simp [V.popUnsigned, V.pop, hs, h1, h2]

section Operators
variable {env : Env} {vm w w' : VM}

theorem acts_num (x : Dbl) (hr : vm.stack.length < maxNumStack) : Acts env (t := .num) (.ok x) (.pushNum x) vm vm := by
  refine ⟨{ vm with stack := x :: vm.stack }, ?_, rfl, rfl⟩
  simp [V.exec, V.brk, V.push, show ¬ maxNumStack ≤ vm.stack.length by omega]

theorem acts_str (s : CStr) (hr : vm.strstack.length < maxStrStack) : Acts env (t := .str) (.ok s) (.pushStr s) vm vm := by
  refine ⟨{ vm with strstack := s :: vm.strstack }, ?_, rfl, rfl⟩
  simp [V.exec, V.brk, V.pushStr, show ¬ maxStrStack ≤ vm.strstack.length by omega]

theorem pushed_num {x : Dbl} (h : (w.stack, w.strstack) = pushed (t := .num) x vm) : w.stack = x :: vm.stack ∧ w.strstack = vm.strstack := by
  simpa [pushed] using h

theorem pushed_str {s : CStr} (h : (w.stack, w.strstack) = pushed (t := .str) s vm) : w.stack = vm.stack ∧ w.strstack = s :: vm.strstack := by
  simpa [pushed] using h

theorem pushed_nums {x y : Dbl} (h : (w.stack, w.strstack) = pushed (t := .num) x vm) (h' : (w'.stack, w'.strstack) = pushed (t := .num) y w) :
    w'.stack = y :: x :: vm.stack ∧ w'.strstack = vm.strstack := by
  obtain ⟨h1, h2⟩ := pushed_num h
  obtain ⟨h3, h4⟩ := pushed_num h'
  exact ⟨by rw [h3, h1], by rw [h4, h2]⟩

theorem pushed_strs {x y : CStr} (h : (w.stack, w.strstack) = pushed (t := .str) x vm) (h' : (w'.stack, w'.strstack) = pushed (t := .str) y w) :
    w'.stack = vm.stack ∧ w'.strstack = y :: x :: vm.strstack := by
  obtain ⟨h1, h2⟩ := pushed_str h
  obtain ⟨h3, h4⟩ := pushed_str h'
  exact ⟨by rw [h3, h1], by rw [h4, h2]⟩

theorem acts_neg {x : Dbl} (hr : vm.stack.length < maxNumStack) (h : (w.stack, w.strstack) = pushed (t := .num) x vm) :
    Acts env (t := .num) (.ok (Dbl.neg x)) .neg w vm := by
  obtain ⟨h1, h2⟩ := pushed_num h
  refine ⟨{ w with stack := Dbl.neg x :: vm.stack }, ?_, rfl, by simp [pushed, h2]⟩
  simp [V.exec, V.brk, V.push, V.pop, h1, show ¬ maxNumStack ≤ vm.stack.length by omega]

theorem acts_arith {x y : Dbl} (o : Arith) (hr : vm.stack.length < maxNumStack) (h : (w.stack, w.strstack) = pushed (t := .num) x vm)
    (h' : (w'.stack, w'.strstack) = pushed (t := .num) y w) : Acts env (t := .num) (.ok (V.arithOp env o x y)) (.arith o) w' vm := by
  obtain ⟨h1, h2⟩ := pushed_nums h h'
  refine ⟨{ w' with stack := V.arithOp env o x y :: vm.stack }, ?_, rfl, by simp [pushed, h2]⟩
  simp [V.exec, V.brk, V.push, V.pop, h1, show ¬ maxNumStack ≤ vm.stack.length by omega]

theorem acts_cmp {x y : Dbl} (r : Rel) (hr : vm.stack.length < maxNumStack) (h : (w.stack, w.strstack) = pushed (t := .num) x vm)
    (h' : (w'.stack, w'.strstack) = pushed (t := .num) y w) : Acts env (t := .num) (.ok (truthValue (relNumbers r x y))) (.cmpNum r) w' vm := by
  obtain ⟨h1, h2⟩ := pushed_nums h h'
  refine ⟨{ w' with stack := truthValue (relNumbers r x y) :: vm.stack }, ?_, rfl, by simp [pushed, h2]⟩
  simp [V.exec, V.brk, V.push, V.pop, h1, show ¬ maxNumStack ≤ vm.stack.length by omega, V.pushLogic, relNum_numbers, truthValue]

theorem acts_cmpStr {x y : CStr} (r : Rel) (hr : vm.stack.length < maxNumStack) (h : (w.stack, w.strstack) = pushed (t := .str) x vm)
    (h' : (w'.stack, w'.strstack) = pushed (t := .str) y w) : Acts env (t := .num) (.ok (truthValue (decide (relStrings r x y)))) (.cmpStr r) w' vm := by
  obtain ⟨h1, h2⟩ := pushed_strs h h'
  refine ⟨{ w' with strstack := vm.strstack, stack := truthValue (decide (relStrings r x y)) :: vm.stack }, ?_, rfl, by simp [pushed]⟩
  have : V.relStr r (strcmp x y) = decide (relStrings r x y) := by
    rw [Bool.eq_iff_iff, V.relStr_spec, decide_eq_true_eq]
  simp [V.exec, V.brk, V.push, V.compareStrings, V.popStr, h1, h2, show ¬ maxNumStack ≤ vm.stack.length by omega, V.pushLogic, this, truthValue]

theorem acts_concat {x y : CStr} (hr : vm.strstack.length < maxStrStack) (h : (w.stack, w.strstack) = pushed (t := .str) x vm)
    (h' : (w'.stack, w'.strstack) = pushed (t := .str) y w) :
    Acts env (t := .str) (if x.length + y.length ≤ 255 then .ok (x ++ y) else .error .concatTooLong) .concat w' vm := by
  obtain ⟨h1, h2⟩ := pushed_strs h h'
  by_cases hx : x.length + y.length ≤ 255
  · rw [if_pos hx]
    refine ⟨{ w' with strstack := (x ++ y) :: vm.strstack }, ?_, rfl, by simp [pushed, h1]⟩
    simp [V.exec, V.brk, V.popStr, V.pushStr, h2, show ¬ maxStrStack ≤ vm.strstack.length by omega, V.check, V.strBuf, show ¬ 256 < x.length + y.length + 1 by omega]
  · rw [if_neg hx]
    refine ⟨{ w' with strstack := vm.strstack }, ?_, rfl⟩
    simp [V.exec, V.brk, V.popStr, h2, V.check, V.strBuf, show 256 < x.length + y.length + 1 by omega, V.fail]

theorem acts_not {x : Dbl} (hr : vm.stack.length < maxNumStack) (h : (w.stack, w.strstack) = pushed (t := .num) x vm) :
    Acts env (t := .num) (word32 x >>= fun u => .ok (ofWord (~~~ u))) .not w vm := by
  obtain ⟨h1, h2⟩ := pushed_num h
  rcases word32_cases x with ⟨k, hk, hx⟩ | ⟨hk, hx⟩
  · rw [hx]
    refine ⟨{ w with stack := ofWord (~~~ BitVec.ofInt 32 k) :: vm.stack }, ?_, rfl, by simp [pushed, h2]⟩
    simp [V.exec, V.brk, V.push, V.popLogic_word h1 hk, show ¬ maxNumStack ≤ vm.stack.length by omega, notInt_word]
  · rw [hx]
    refine ⟨{ w with stack := vm.stack }, ?_, rfl⟩
    simp [V.exec, V.brk, V.popLogic_other h1 hk]

theorem acts_and {x y : Dbl} (hr : vm.stack.length < maxNumStack) (h : (w.stack, w.strstack) = pushed (t := .num) x vm)
    (h' : (w'.stack, w'.strstack) = pushed (t := .num) y w) :
    Acts env (t := .num) (word32 x >>= fun u => word32 y >>= fun v => .ok (ofWord (u &&& v))) .and w' vm := by
  obtain ⟨h1, h2⟩ := pushed_nums h h'
  rcases word32_cases y with ⟨m, hm, hy⟩ | ⟨hm, hy⟩
  · have e1 := V.popLogic_word h1 hm
    rcases word32_cases x with ⟨k, hk, hx⟩ | ⟨hk, hx⟩
    · rw [hx, hy]
      refine ⟨{ w' with stack := ofWord (BitVec.ofInt 32 k &&& BitVec.ofInt 32 m) :: vm.stack }, ?_, rfl, by simp [pushed, h2]⟩
      simp [V.exec, V.brk, V.push, e1, V.popLogic_word (vm := { w' with stack := x :: vm.stack }) rfl hk, show ¬ maxNumStack ≤ vm.stack.length by omega,
        andInt_word]
    · rw [hx, hy]
      refine ⟨{ w' with stack := vm.stack }, ?_, rfl⟩
      simp [V.exec, V.brk, e1, V.popLogic_other (vm := { w' with stack := x :: vm.stack }) rfl hk]
  · have : (word32 x >>= fun u => word32 y >>= fun v => .ok (ofWord (u &&& v))) = Except.error .invalidLogical := by
      rcases word32_cases x with ⟨k, hk, hx⟩ | ⟨hk, hx⟩ <;> rw [hx, hy] <;> rfl
    rw [this]
    refine ⟨{ w' with stack := x :: vm.stack }, ?_, rfl⟩
    simp [V.exec, V.brk, V.popLogic_other h1 hm]

theorem acts_or {x y : Dbl} (hr : vm.stack.length < maxNumStack) (h : (w.stack, w.strstack) = pushed (t := .num) x vm)
    (h' : (w'.stack, w'.strstack) = pushed (t := .num) y w) :
    Acts env (t := .num) (word32 x >>= fun u => word32 y >>= fun v => .ok (ofWord (u ||| v))) .or w' vm := by
  obtain ⟨h1, h2⟩ := pushed_nums h h'
  rcases word32_cases y with ⟨m, hm, hy⟩ | ⟨hm, hy⟩
  · have e1 := V.popLogic_word h1 hm
    rcases word32_cases x with ⟨k, hk, hx⟩ | ⟨hk, hx⟩
    · rw [hx, hy]
      refine ⟨{ w' with stack := ofWord (BitVec.ofInt 32 k ||| BitVec.ofInt 32 m) :: vm.stack }, ?_, rfl, by simp [pushed, h2]⟩
      simp [V.exec, V.brk, V.push, e1, V.popLogic_word (vm := { w' with stack := x :: vm.stack }) rfl hk, show ¬ maxNumStack ≤ vm.stack.length by omega,
        orInt_word]
    · rw [hx, hy]
      refine ⟨{ w' with stack := vm.stack }, ?_, rfl⟩
      simp [V.exec, V.brk, e1, V.popLogic_other (vm := { w' with stack := x :: vm.stack }) rfl hk]
  · have : (word32 x >>= fun u => word32 y >>= fun v => .ok (ofWord (u ||| v))) = Except.error .invalidLogical := by
      rcases word32_cases x with ⟨k, hk, hx⟩ | ⟨hk, hx⟩ <;> rw [hx, hy] <;> rfl
    rw [this]
    refine ⟨{ w' with stack := x :: vm.stack }, ?_, rfl⟩
    simp [V.exec, V.brk, V.popLogic_other h1 hm]

theorem acts_numFn {x : Dbl} (f : NumFn) (hr : vm.stack.length < maxNumStack) (h : (w.stack, w.strstack) = pushed (t := .num) x vm) :
    Acts env (t := .num) (f.value env x) f.code w vm := by
  obtain ⟨h1, h2⟩ := pushed_num h
  have hroom : ¬ maxNumStack ≤ vm.stack.length := by omega
  have one : ∀ y, Acts env (t := .num) (.ok y) f.code w vm ↔ ∃ w', V.exec env f.code w = .ok .brk w' ∧ (w'.st, w'.world) = (w.st, w.world) ∧ w'.stack = y :: vm.stack ∧ w'.strstack = vm.strstack := by
    intro y; simp [Acts, pushed]
  cases f with
  | abs =>
    have : Except.ok (Dbl.fabs x) = NumFn.value env .abs x := by
      cases x <;> simp [Dbl.fabs, NumFn.value]
      split <;> rfl
    rw [← this, one]
    exact ⟨{ w with stack := Dbl.fabs x :: vm.stack }, by simp [NumFn.code, V.exec, V.brk, V.builtinOp, V.push, V.pop, h1, hroom], rfl, rfl, h2⟩
  | atn =>
    refine (one _).2 ⟨{ w with stack := env.atan x :: vm.stack }, by simp [NumFn.code, V.exec, V.brk, V.builtinOp, V.push, V.pop, h1, hroom], rfl, rfl, h2⟩
  | cos =>
    refine (one _).2 ⟨{ w with stack := env.cos x :: vm.stack }, by simp [NumFn.code, V.exec, V.brk, V.builtinOp, V.push, V.pop, h1, hroom], rfl, rfl, h2⟩
  | exp =>
    refine (one _).2 ⟨{ w with stack := env.exp x :: vm.stack }, by simp [NumFn.code, V.exec, V.brk, V.builtinOp, V.push, V.pop, h1, hroom], rfl, rfl, h2⟩
  | sin =>
    refine (one _).2 ⟨{ w with stack := env.sin x :: vm.stack }, by simp [NumFn.code, V.exec, V.brk, V.builtinOp, V.push, V.pop, h1, hroom], rfl, rfl, h2⟩
  | sqr =>
    refine (one _).2 ⟨{ w with stack := env.sqrt x :: vm.stack }, by simp [NumFn.code, V.exec, V.brk, V.builtinOp, V.push, V.pop, h1, hroom], rfl, rfl, h2⟩
  | tan =>
    refine (one _).2 ⟨{ w with stack := env.tan x :: vm.stack }, by simp [NumFn.code, V.exec, V.brk, V.builtinOp, V.push, V.pop, h1, hroom], rfl, rfl, h2⟩
  | int =>
    have : Except.ok (Dbl.floor x) = NumFn.value env .int x := by
      cases x <;> simp [Dbl.floor, NumFn.value]
    rw [← this, one]
    exact ⟨{ w with stack := Dbl.floor x :: vm.stack }, by simp [NumFn.code, V.exec, V.brk, V.builtinOp, V.push, V.pop, h1, hroom], rfl, rfl, h2⟩
  | sgn =>
    have : Except.ok (V.sgn x) = NumFn.value env .sgn x := by
      cases x with
      | fin q =>
        simp only [V.sgn, NumFn.value, Dbl.lt, decide_eq_true_eq]
        congr 1
        by_cases h3 : q < 0
        · simp [h3]
        · by_cases h4 : 0 < q
          · simp [h3, h4]
          · have : q = 0 := by grind
            simp [this]
      | _ => simp [V.sgn, NumFn.value, Dbl.lt]
    rw [← this, one]
    exact ⟨{ w with stack := V.sgn x :: vm.stack }, by simp [NumFn.code, V.exec, V.brk, V.builtinOp, V.push, V.pop, h1, hroom], rfl, rfl, h2⟩
  | log =>
    have : NumFn.value env .log x = if Dbl.le x (.fin 0) then .error .invalidLog else .ok (env.log x) := by
      cases x with
      | fin q =>
        have hle : Dbl.le (.fin q) (.fin 0) = decide (¬ 0 < q) := by
          simp only [Dbl.le, Dbl.lt, Dbl.eq]
          grind
        rw [hle]
        simp only [NumFn.value]
        by_cases h3 : 0 < q
        · simp [h3]
        · simp [h3]
      | _ => simp [Dbl.le, Dbl.lt, Dbl.eq, NumFn.value]
    rw [this]
    split
    · rename_i h3
      exact ⟨{ w with stack := vm.stack }, by simp [NumFn.code, V.exec, V.brk, V.builtinOp, V.pop, h1, V.check, h3, V.fail], rfl⟩
    · rename_i h3
      rw [one]
      exact ⟨{ w with stack := env.log x :: vm.stack }, by simp [NumFn.code, V.exec, V.brk, V.builtinOp, V.push, V.pop, h1, hroom, V.check, h3], rfl, rfl, h2⟩

theorem acts_strFn {s : CStr} (f : StrFn) (hr : vm.stack.length < maxNumStack) (h : (w.stack, w.strstack) = pushed (t := .str) s vm) :
    Acts env (t := .num) (f.value s) f.code w vm := by
  obtain ⟨h1, h2⟩ := pushed_str h
  have hroom : ¬ maxNumStack ≤ vm.stack.length := by omega
  have one : ∀ y, Acts env (t := .num) (.ok y) f.code w vm ↔ ∃ w', V.exec env f.code w = .ok .brk w' ∧ (w'.st, w'.world) = (w.st, w.world) ∧ w'.stack = y :: vm.stack ∧ w'.strstack = vm.strstack := by
    intro y; simp [Acts, pushed]
  cases f with
  | asc =>
    refine (one _).2 ⟨{ w with stack := Dbl.ofInt (V.firstChar s) :: vm.stack, strstack := vm.strstack }, by simp [StrFn.code, V.exec, V.brk, V.builtinOp, V.push, V.popStr, h1, h2, hroom], rfl, ?_, rfl⟩
    cases s <;> rfl
  | len =>
    exact (one _).2 ⟨{ w with stack := Dbl.ofInt s.length :: vm.stack, strstack := vm.strstack }, by simp [StrFn.code, V.exec, V.brk, V.builtinOp, V.push, V.popStr, h1, h2, hroom], rfl, rfl, rfl⟩
  | val =>
    cases ht : textNumber s with
    | some x =>
      have hv : V.convert s = some (x, []) := by
        unfold textNumber at ht
        split at ht
        · rename_i h3; cases ht; exact h3
        · cases ht
      have : StrFn.value .val s = .ok x := by simp only [StrFn.value, ht]
      rw [this, one]
      exact ⟨{ w with stack := x :: vm.stack, strstack := vm.strstack }, by simp [StrFn.code, V.exec, V.brk, V.builtinOp, V.valFn, V.push, V.popStr, h1, h2, hroom, hv], rfl, rfl, rfl⟩
    | none =>
      have : StrFn.value .val s = .error .invalidNumber := by simp only [StrFn.value, ht]
      rw [this]
      refine ⟨{ w with strstack := vm.strstack }, ?_, rfl⟩
      cases hv : V.convert s with
      | none => simp [StrFn.code, V.exec, V.brk, V.builtinOp, V.valFn, V.popStr, h1, h2, hv, V.fail]
      | some y =>
        obtain ⟨y, r⟩ := y
        cases r with
        | nil => simp [textNumber, hv] at ht
        | cons => simp [StrFn.code, V.exec, V.brk, V.builtinOp, V.valFn, V.popStr, h1, h2, hv, V.fail]

theorem acts_textFn {x : Dbl} (f : TextFn) (hr : vm.strstack.length < maxStrStack) (h : (w.stack, w.strstack) = pushed (t := .num) x vm) :
    Acts env (t := .str) (f.value x) f.code w vm := by
  obtain ⟨h1, h2⟩ := pushed_num h
  have hroom : ¬ maxStrStack ≤ vm.strstack.length := by omega
  have one : ∀ y, Acts env (t := .str) (.ok y) f.code w vm ↔ ∃ w', V.exec env f.code w = .ok .brk w' ∧ (w'.st, w'.world) = (w.st, w.world) ∧ w'.stack = vm.stack ∧ w'.strstack = y :: vm.strstack := by
    intro y; simp [Acts, pushed]
  cases f with
  | str =>
    exact (one _).2 ⟨{ w with stack := vm.stack, strstack := Dbl.fmtG x :: vm.strstack }, by simp [TextFn.code, V.exec, V.brk, V.builtinOp, V.pushStr, V.pop, h1, h2, hroom], rfl, rfl, rfl⟩
  | chr =>
    have : TextFn.value .chr x = if V.badChar x then .error .invalidCharCode else .ok (V.chrStr x) := by
      cases x with
      | fin q =>
        simp only [TextFn.value]
        by_cases hd : q.den = 1
        · have hq : q = ((q.num : Int) : Rat) := by
            apply Rat.ext
            · simp
            · simp [hd]
          have hfl : q.floor = q.num := by
            conv => lhs; rw [hq]
            exact Rat.floor_intCast _
          have e1 := V.lt_int (k := q.num) (m := 0)
          rw [show ((0 : Int) : Rat) = 0 from rfl, ← hq] at e1
          have e2 := V.lt_int (k := 255) (m := q.num)
          rw [show ((255 : Int) : Rat) = 255 from rfl, ← hq] at e2
          have e3 : Dbl.ne (.fin q) (Dbl.floor (.fin q)) = false := by
            simp only [Dbl.floor, hfl, ← hq, Dbl.ne, Dbl.eq]
            simp
          have e4 : V.badChar (.fin q) = !decide (0 ≤ q.num ∧ q.num ≤ 255) := by
            simp only [V.badChar, e1, e2, e3, Bool.or_false]
            rw [Bool.eq_iff_iff]
            simp only [Bool.or_eq_true, decide_eq_true_eq, Bool.not_eq_true', decide_eq_false_iff_not]
            omega
          rw [e4]
          by_cases hb : 0 ≤ q.num ∧ q.num ≤ 255
          · rw [if_pos ⟨hd, hb⟩]
            simp only [hb, and_self, decide_true, Bool.not_true, Bool.false_eq_true, if_false]
            congr 1
            simp only [V.chrStr, Dbl.toNat, hfl]
            have : q = 0 ↔ q.num.toNat = 0 := by
              constructor
              · rintro rfl; rfl
              · intro h
                have h0 : q.num = 0 := by omega
                rw [hq, h0]; rfl
            simp only [this]
          · rw [if_neg (fun h => hb h.2), decide_eq_false hb]
            rfl
        · rw [if_neg (fun h => hd h.1), if_pos]
          simp only [V.badChar, Bool.or_eq_true]
          refine .inr ?_
          simp only [Dbl.ne, Dbl.eq, Dbl.floor, Bool.not_eq_true', decide_eq_false_iff_not]
          intro h
          apply hd
          rw [h]
          exact Rat.den_intCast _
      | nzero => rw [show V.badChar .nzero = false by decide +kernel]; rfl
      | pinf => rw [show V.badChar .pinf = true by decide +kernel]; rfl
      | ninf => rw [show V.badChar .ninf = true by decide +kernel]; rfl
      | nan => rw [show V.badChar .nan = true by decide +kernel]; rfl
    rw [this]
    split
    · rename_i h3
      exact ⟨{ w with stack := vm.stack }, by simp [TextFn.code, V.exec, V.brk, V.builtinOp, V.pop, h1, V.check, h3, V.fail], rfl⟩
    · rename_i h3
      rw [one]
      exact ⟨{ w with stack := vm.stack, strstack := V.chrStr x :: vm.strstack }, by simp [TextFn.code, V.exec, V.brk, V.builtinOp, V.pushStr, V.pop, h1, h2, hroom, V.check, h3], rfl, rfl, rfl⟩

theorem pushed_both {s : CStr} {x : Dbl} (h : (w.stack, w.strstack) = pushed (t := .str) s vm) (h' : (w'.stack, w'.strstack) = pushed (t := .num) x w) :
    w'.stack = x :: vm.stack ∧ w'.strstack = s :: vm.strstack := by
  obtain ⟨h1, h2⟩ := pushed_str h
  obtain ⟨h3, h4⟩ := pushed_num h'
  exact ⟨by rw [h3, h1], by rw [h4, h2]⟩

theorem acts_endFn {s : CStr} {x : Dbl} (f : EndFn) (hr : vm.strstack.length < maxStrStack) (h : (w.stack, w.strstack) = pushed (t := .str) s vm)
    (h' : (w'.stack, w'.strstack) = pushed (t := .num) x w) : Acts env (t := .str) (count x >>= fun k => f.value s k) f.code w' vm := by
  obtain ⟨h1, h2⟩ := pushed_both h h'
  have hroom : ¬ maxStrStack ≤ vm.strstack.length := by omega
  cases hc : count x with
  | error e =>
    have := count_error (vm := { w' with strstack := vm.strstack }) h1 hc
    refine ⟨{ w' with stack := vm.stack, strstack := vm.strstack }, ?_, rfl⟩
    cases f <;> simp [EndFn.code, V.exec, V.brk, V.builtinOp, V.leftFn, V.rightFn, V.popStr, h2, this]
  | ok k =>
    have hk := V.popUnsigned_count (vm := { w' with strstack := vm.strstack }) h1 ((count_isCount x).1 k hc)
    show Acts env (t := .str) (f.value s k) f.code w' vm
    have hmin : (if s.length < k then s.length else k) = min k s.length := by split <;> omega
    cases f with
    | left =>
      simp only [EndFn.value]
      by_cases hl : min k s.length ≤ 255
      · rw [if_pos hl]
        refine ⟨{ w' with stack := vm.stack, strstack := s.take k :: vm.strstack }, ?_, rfl, by simp [pushed]⟩
        have : s.take (min k s.length) = s.take k := by rw [List.take_eq_take_iff]; omega
        simp [EndFn.code, V.exec, V.brk, V.builtinOp, V.leftFn, V.popStr, V.pushStr, h2, hk, hmin, V.check, V.strBuf, show ¬ 256 < min k s.length + 1 by omega, hroom, this]
      · rw [if_neg hl]
        refine ⟨{ w' with stack := vm.stack, strstack := vm.strstack }, ?_, rfl⟩
        simp [EndFn.code, V.exec, V.brk, V.builtinOp, V.leftFn, V.popStr, h2, hk, hmin, V.check, V.strBuf, show 256 < min k s.length + 1 by omega, V.fail]
    | right =>
      simp only [EndFn.value]
      by_cases hl : min k s.length ≤ 255
      · rw [if_pos hl]
        refine ⟨{ w' with stack := vm.stack, strstack := s.drop (s.length - k) :: vm.strstack }, ?_, rfl, by simp [pushed]⟩
        have : (s.drop (s.length - min k s.length)).take (min k s.length) = s.drop (s.length - k) := by
          rw [show s.length - min k s.length = s.length - k by omega, List.take_of_length_le]
          rw [List.length_drop]; omega
        simp [EndFn.code, V.exec, V.brk, V.builtinOp, V.rightFn, V.popStr, V.pushStr, h2, hk, hmin, V.check, V.strBuf, show ¬ 256 < min k s.length + 1 by omega, hroom, this]
      · rw [if_neg hl]
        refine ⟨{ w' with stack := vm.stack, strstack := vm.strstack }, ?_, rfl⟩
        simp [EndFn.code, V.exec, V.brk, V.builtinOp, V.rightFn, V.popStr, h2, hk, hmin, V.check, V.strBuf, show 256 < min k s.length + 1 by omega, V.fail]

theorem acts_mid {s : CStr} {x y : Dbl} {w'' : VM} (hr : vm.strstack.length < maxStrStack) (h : (w.stack, w.strstack) = pushed (t := .str) s vm)
    (h' : (w'.stack, w'.strstack) = pushed (t := .num) x w) (h'' : (w''.stack, w''.strstack) = pushed (t := .num) y w') :
    Acts env (t := .str) (count y >>= fun k => count x >>= fun j => midOf s j k) (.bi .mid3) w'' vm := by
  obtain ⟨h1, h2⟩ := pushed_both h h'
  obtain ⟨h3, h4⟩ := pushed_num h''
  rw [h1] at h3
  rw [h2] at h4
  have hroom : ¬ maxStrStack ≤ vm.strstack.length := by omega
  cases hc : count y with
  | error e =>
    have := count_error (vm := { w'' with strstack := vm.strstack }) h3 hc
    exact ⟨{ w'' with stack := x :: vm.stack, strstack := vm.strstack }, by simp [V.exec, V.brk, V.builtinOp, V.midFn, V.popStr, h4, this], rfl⟩
  | ok k =>
    have hk := V.popUnsigned_count (vm := { w'' with strstack := vm.strstack }) h3 ((count_isCount y).1 k hc)
    show Acts env (t := .str) (count x >>= fun j => midOf s j k) (.bi .mid3) w'' vm
    cases hd : count x with
    | error e =>
      have := count_error (vm := { w'' with stack := x :: vm.stack, strstack := vm.strstack }) rfl hd
      exact ⟨{ w'' with stack := vm.stack, strstack := vm.strstack }, by simp [V.exec, V.brk, V.builtinOp, V.midFn, V.popStr, h4, hk, this], rfl⟩
    | ok j =>
      have hj := V.popUnsigned_count (vm := { w'' with stack := x :: vm.stack, strstack := vm.strstack }) rfl ((count_isCount x).1 j hd)
      show Acts env (t := .str) (midOf s j k) (.bi .mid3) w'' vm
      unfold midOf
      by_cases hb : 1 ≤ j ∧ j ≤ s.length
      · rw [if_pos hb]
        have hmin : (if s.length - j + 1 < k then s.length - j + 1 else k) = min k (s.length - j + 1) := by split <;> omega
        by_cases hl : min k (s.length - j + 1) ≤ 255
        · rw [if_pos hl]
          refine ⟨{ w'' with stack := vm.stack, strstack := (s.drop (j - 1)).take k :: vm.strstack }, ?_, rfl, by simp [pushed]⟩
          have : (s.drop (j - 1)).take (min k (s.length - j + 1)) = (s.drop (j - 1)).take k := by
            rw [List.take_eq_take_iff, List.length_drop]; omega
          simp [V.exec, V.brk, V.builtinOp, V.midFn, V.popStr, V.pushStr, h4, hk, hj, V.check, hmin, show ¬ (j = 0 ∨ s.length < j) by omega, V.strBuf,
            show ¬ 256 < min k (s.length - j + 1) + 1 by omega, hroom, this]
        · rw [if_neg hl]
          refine ⟨{ w'' with stack := vm.stack, strstack := vm.strstack }, ?_, rfl⟩
          simp [V.exec, V.brk, V.builtinOp, V.midFn, V.popStr, h4, hk, hj, V.check, hmin, show ¬ (j = 0 ∨ s.length < j) by omega, V.strBuf,
            show 256 < min k (s.length - j + 1) + 1 by omega, V.fail]
      · rw [if_neg hb]
        refine ⟨{ w'' with stack := vm.stack, strstack := vm.strstack }, ?_, rfl⟩
        simp [V.exec, V.brk, V.builtinOp, V.midFn, V.popStr, h4, hk, hj, V.check, show (j = 0 ∨ s.length < j) by omega, V.fail]

end Operators

theorem value_arith {env : Env} {get : Getting} {o : Arith} {a b : Expr .num} :
    (Expr.arith o a b).evalBy env get = a.evalBy env get >>= fun x => b.evalBy env get >>= fun y => Ev.of (.ok (V.arithOp env o x y)) := by
  cases o <;> rfl

theorem need_pos {t : Ty} (e : Expr t) : (t = .num → 1 ≤ e.nums) ∧ (t = .str → 1 ≤ e.strs) := by
  induction e <;> simp_all [Expr.nums, Expr.strs] <;> omega

theorem names_left {l l' : List CStr} {P : CStr → Prop} (h : ∀ w ∈ l ++ l', P w) : ∀ w ∈ l, P w := fun w hw => h w (List.mem_append_left _ hw)

theorem names_right {l l' : List CStr} {P : CStr → Prop} (h : ∀ w ∈ l ++ l', P w) : ∀ w ∈ l', P w := fun w hw => h w (List.mem_append_right _ hw)

/-- The code of a name with subscripts does what `get` says, if there is room for `m` more numbers and `k` more strings. -/
def Handles (env : Env) (C : Calling) (base : VM) (get : Getting) (m k : Nat) (nm : CStr) : Prop :=
  ∀ (t : Ty) (q : Nat) (s : Symbol) (w vm : VM) (xs : List Dbl), t ≠ .err → base.st.psym[q]? = some s → SameIgnoringCase s.name nm → s.kind = .array ∨ s.kind = .def_ → s.type = t →
    OnlyReads base w → w.stack = xs.reverse ++ vm.stack → w.strstack = vm.strstack → 1 ≤ xs.length → xs.length ≤ 2 →
    (t = .num → vm.stack.length < maxNumStack) → (t = .str → vm.strstack.length < maxStrStack) →
    vm.stack.length + m ≤ maxNumStack → vm.strstack.length + k ≤ maxStrStack → Gives env C base (get t nm xs (storeOf w)) [getInst t q xs.length] w vm

/-- Elements of arrays. -/
theorem handles_array {env : Env} {C : Calling} {base : VM} (hw : WellNamed base.st) {m k : Nat} {nm : CStr}
    (hf : ∀ s ∈ base.st.psym, SameIgnoringCase s.name nm → s.kind ≠ .def_) : Handles env C base element m k nm := by
  intro t q s w vm xs hne hs hn hk ht hb h1 h2 h3 h4 h5 h6 _ _
  obtain ⟨s', k1, k2, _, k3, k4⟩ := onlyReads_entry hb hs
  have hka := hk.resolve_right (hf s (List.mem_of_getElem? hs) hn)
  exact gives_elem hne hb ⟨onlyReads_wellNamed hb hw, k1, by rw [k2]; exact hn, k3.trans hka, k4.trans ht⟩ h1 h2 rfl h3 h4 h5 h6

theorem known_kind {st : SymTab} (hu : ∀ s ∈ st.psym, s.kind ≠ .unknown) {q : Nat} {s : Symbol} (hs : st.psym[q]? = some s)
    (hk : s.kind = .unknown ∨ s.kind = .array ∨ s.kind = .def_) : s.kind = .array ∨ s.kind = .def_ := hk.resolve_left (hu s (List.mem_of_getElem? hs))

/-- The code of an expression computes its value. -/
theorem yields_postfix {env : Env} {C : Calling} {get : Getting} {m k : Nat} {base : VM} (hw : WellNamed base.st) (hl : base.st.psym.length ≤ 65536) (hu : ∀ s ∈ base.st.psym, s.kind ≠ .unknown) {t : Ty} {e : Expr t} {c : List Inst}
    (h : Postfix base.st e c) : (∀ w ∈ e.arrays, Handles env C base get m k w) → ∀ {vm : VM}, OnlyReads base vm → vm.stack.length + e.nums + m ≤ maxNumStack →
    vm.strstack.length + e.strs + k ≤ maxStrStack → Yields env C base (e.evalBy env get) c vm := by
  induction h with
  | num =>
    intro hf vm hb h1 h2
    simp only [Expr.nums] at h1
    exact Yields.one hb rfl (acts_num _ (by omega))
  | str =>
    intro hf vm hb h1 h2
    simp only [Expr.strs] at h2
    exact Yields.one hb rfl (acts_str _ (by omega))
  | numVar hs hn hk ht =>
    intro hf vm hb h1 h2
    simp only [Expr.nums] at h1
    exact yields_numVar hw hl hs hn hk ht hb (by omega)
  | strVar hs hn hk ht =>
    intro hf vm hb h1 h2
    simp only [Expr.strs] at h2
    exact yields_strVar hw hl hs hn hk ht hb (by omega)
  | @neg a c ha iha =>
    intro hf vm hb h1 h2
    have := (need_pos a).1 rfl
    simp only [Expr.nums, Expr.strs] at h1 h2
    exact Yields.unary (iha hf hb h1 h2) rfl fun x w hx => acts_neg (by omega) hx
  | @arith o a b c d ha hd iha ihb =>
    intro hf vm hb h1 h2
    have := (need_pos a).1 rfl
    simp only [Expr.nums, Expr.strs] at h1 h2
    rw [value_arith]
    refine Yields.binary (iha (names_left hf) hb (by omega) (by omega)) (fun x w hb hx => ?_) rfl fun x y w w' hx hy => acts_arith o (by omega) hx hy
    obtain ⟨h3, h4⟩ := pushed_num hx
    exact ihb (names_right hf) hb (by rw [h3, List.length_cons]; omega) (by rw [h4]; omega)
  | @concat a b c d ha hd iha ihb =>
    intro hf vm hb h1 h2
    have := (need_pos a).2 rfl
    simp only [Expr.nums, Expr.strs] at h1 h2
    refine Yields.binary (iha (names_left hf) hb (by omega) (by omega)) (fun x w hb hx => ?_) rfl fun x y w w' hx hy => acts_concat (by omega) hx hy
    obtain ⟨h3, h4⟩ := pushed_str hx
    exact ihb (names_right hf) hb (by rw [h3]; omega) (by rw [h4, List.length_cons]; omega)
  | @cmp r a b c d ha hd iha ihb =>
    intro hf vm hb h1 h2
    have := (need_pos a).1 rfl
    simp only [Expr.nums, Expr.strs] at h1 h2
    refine Yields.binary (iha (names_left hf) hb (by omega) (by omega)) (fun x w hb hx => ?_) rfl fun x y w w' hx hy => acts_cmp r (by omega) hx hy
    obtain ⟨h3, h4⟩ := pushed_num hx
    exact ihb (names_right hf) hb (by rw [h3, List.length_cons]; omega) (by rw [h4]; omega)
  | @cmpStr r a b c d ha hd iha ihb =>
    intro hf vm hb h1 h2
    have := (need_pos a).2 rfl
    simp only [Expr.nums, Expr.strs] at h1 h2
    refine Yields.binary (iha (names_left hf) hb (by omega) (by omega)) (fun x w hb hx => ?_) rfl fun x y w w' hx hy => acts_cmpStr r (by omega) hx hy
    obtain ⟨h3, h4⟩ := pushed_str hx
    exact ihb (names_right hf) hb (by rw [h3]; omega) (by rw [h4, List.length_cons]; omega)
  | @not a c ha iha =>
    intro hf vm hb h1 h2
    have := (need_pos a).1 rfl
    simp only [Expr.nums, Expr.strs] at h1 h2
    exact Yields.unary (iha hf hb h1 h2) rfl fun x w hx => acts_not (by omega) hx
  | @and a b c d ha hd iha ihb =>
    intro hf vm hb h1 h2
    have := (need_pos a).1 rfl
    simp only [Expr.nums, Expr.strs] at h1 h2
    refine Yields.binary (iha (names_left hf) hb (by omega) (by omega)) (fun x w hb hx => ?_) rfl fun x y w w' hx hy => acts_and (by omega) hx hy
    obtain ⟨h3, h4⟩ := pushed_num hx
    exact ihb (names_right hf) hb (by rw [h3, List.length_cons]; omega) (by rw [h4]; omega)
  | @or a b c d ha hd iha ihb =>
    intro hf vm hb h1 h2
    have := (need_pos a).1 rfl
    simp only [Expr.nums, Expr.strs] at h1 h2
    refine Yields.binary (iha (names_left hf) hb (by omega) (by omega)) (fun x w hb hx => ?_) rfl fun x y w w' hx hy => acts_or (by omega) hx hy
    obtain ⟨h3, h4⟩ := pushed_num hx
    exact ihb (names_right hf) hb (by rw [h3, List.length_cons]; omega) (by rw [h4]; omega)
  | @numFn f a c ha iha =>
    intro hf vm hb h1 h2
    have := (need_pos a).1 rfl
    simp only [Expr.nums, Expr.strs] at h1 h2
    exact Yields.unary (iha hf hb h1 h2) (by cases f <;> rfl) fun x w hx => acts_numFn f (by omega) hx
  | @strFn f a c ha iha =>
    intro hf vm hb h1 h2
    simp only [Expr.nums, Expr.strs] at h1 h2
    exact Yields.unary (iha hf hb (by omega) h2) (by cases f <;> rfl) fun x w hx => acts_strFn f (by omega) hx
  | @textFn f a c ha iha =>
    intro hf vm hb h1 h2
    simp only [Expr.nums, Expr.strs] at h1 h2
    exact Yields.unary (iha hf hb h1 (by omega)) (by cases f <;> rfl) fun x w hx => acts_textFn f (by omega) hx
  | @endFn f a n c d ha hd iha ihn =>
    intro hf vm hb h1 h2
    simp only [Expr.nums, Expr.strs] at h1 h2
    refine Yields.binary (iha (names_left hf) hb (by omega) (by omega)) (fun x w hb hx => ?_) (by cases f <;> rfl) fun x y w w' hx hy => acts_endFn f (by omega) hx hy
    obtain ⟨h3, h4⟩ := pushed_str hx
    exact ihn (names_right hf) hb (by rw [h3]; omega) (by rw [h4, List.length_cons]; omega)
  | @mid a i n c d d' ha hd hd' iha ihi ihn =>
    intro hf vm hb h1 h2
    simp only [Expr.nums, Expr.strs] at h1 h2
    refine Yields.ternary (iha (names_left (names_left hf)) hb (by omega) (by omega)) (fun x w hb hx => ?_) (fun x y w w' hb hx hy => ?_) rfl fun x y z w w' w'' hx hy hz => acts_mid (by omega) hx hy hz
    · obtain ⟨h3, h4⟩ := pushed_str hx
      exact ihi (names_right (names_left hf)) hb (by rw [h3]; omega) (by rw [h4, List.length_cons]; omega)
    · obtain ⟨h3, h4⟩ := pushed_both hx hy
      exact ihn (names_right hf) hb (by rw [h3, List.length_cons]; omega) (by rw [h4, List.length_cons]; omega)
  | @elem t w i c q s hi hs hn hk ht hne ihi =>
    intro hf vm hb h1 h2
    simp only [Expr.nums, Expr.strs] at h1 h2
    rw [symbol_id hw hl hs]
    refine Gives.seq (ihi (fun v hv => hf v (List.mem_cons_of_mem _ hv)) hb (by omega) (by omega)) fun x w hb hx => ?_
    obtain ⟨h3, h4⟩ := pushed_num hx
    exact hf _ (List.mem_cons_self ..) t q s w vm [x] hne hs hn (known_kind hu hs hk) ht hb h3 h4 (by simp) (by simp) (fun _ => by omega)
      (fun h => by rw [if_pos h] at h2; omega) (by omega) (by omega)
  | @elem2 t w i j c d q s hi hj hs hn hk ht hne ihi ihj =>
    intro hf vm hb h1 h2
    simp only [Expr.nums, Expr.strs] at h1 h2
    rw [symbol_id hw hl hs, List.append_assoc]
    refine Gives.seq (ihi (fun v hv => hf v (List.mem_cons_of_mem _ (List.mem_append_left _ hv))) hb (by omega) (by omega)) fun x w hb hx => ?_
    obtain ⟨h3, h4⟩ := pushed_num hx
    refine Gives.seq (ihj (fun v hv => hf v (List.mem_cons_of_mem _ (List.mem_append_right _ hv))) hb (by rw [h3, List.length_cons]; omega) (by rw [h4]; omega)) fun y w' hb hy => ?_
    obtain ⟨h3, h4⟩ := pushed_nums hx hy
    exact hf _ (List.mem_cons_self ..) t q s w' vm [x, y] hne hs hn (known_kind hu hs hk) ht hb h3 h4 (by simp) (by simp) (fun _ => by omega)
      (fun h => by rw [if_pos h] at h2; omega) (by omega) (by omega)
  | rnd =>
    intro hf vm hb h1 h2
    simp only [Expr.nums] at h1
    exact gives_rnd hb rfl rfl (by omega)
  | @rndOf t a c hne ha iha =>
    intro hf vm hb h1 h2
    simp only [Expr.nums, Expr.strs] at h1 h2
    exact Gives.seq (iha hf hb (by omega) h2) fun x w hb hx => gives_pop hne hb hx fun w' hb h3 h4 => gives_rnd hb h3 h4 (by omega)
  | time =>
    intro hf vm hb h1 h2
    simp only [Expr.strs] at h2
    exact gives_time hb rfl rfl (by omega)
  | @timeOf t a c hne ha iha =>
    intro hf vm hb h1 h2
    simp only [Expr.nums, Expr.strs] at h1 h2
    exact Gives.seq (iha hf hb h1 (by omega)) fun x w hb hx => gives_pop hne hb hx fun w' hb h3 h4 => gives_time hb h3 h4 (by omega)

end LB
