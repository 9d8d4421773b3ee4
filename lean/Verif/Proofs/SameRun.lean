import Verif.Proofs.SimRun
import Verif.Proofs.Rooted
import Verif.Proofs.Clearing
/- RUN depends on nothing but the stored program and the surroundings. -/
namespace LB
open LB.Spec Code

/-- The names of `st0`, without values. -/
def Blank (st0 st : SymTab) : Prop :=
  ∀ (q : Nat) (s0 : Symbol), st0.psym[q]? = some s0 → ∃ s, st.psym[q]? = some s ∧ s.name = s0.name ∧ s.id = s0.id ∧ s.kind = s0.kind ∧
    s.type = s0.type ∧ s.str = none ∧ s.numarr = none ∧ s.strarr = none ∧ s.def_ = none ∧ s.defined = (s0.kind == .builtin)

/-- What a symbol without a value holds. -/
def Void (s : Symbol) : Prop :=
  s.str = none ∧ s.numarr = none ∧ s.strarr = none ∧ s.def_ = none ∧ s.defined = (s.kind == .builtin)

theorem void_of {s : Symbol} (h : HeldSym s) (he : Empty s) : Void s := by
  by_cases hk : s.kind = .builtin
  · have hd := h.builtin hk
    refine ⟨?_, ?_, ?_, ?_, by rw [hd, hk]; rfl⟩
    · cases hx : s.str with
      | none => rfl
      | some x => have := (h.str (by rw [hx]; rfl)).1; rw [hk] at this; cases this
    · cases hx : s.numarr with
      | none => rfl
      | some x => have := (h.numarr x hx).1; rw [hk] at this; cases this
    · cases hx : s.strarr with
      | none => rfl
      | some x => have := (h.strarr x hx).1; rw [hk] at this; cases this
    · cases hx : s.def_ with
      | none => rfl
      | some x => have := (h.def_ x hx).1; rw [hk] at this; cases this
  · obtain ⟨h1, h2, h3, h4, h5⟩ := he hk
    refine ⟨h2, h3, h4, h5, ?_⟩
    rw [h1]
    cases hkk : s.kind <;> first | rfl | exact absurd hkk hk

theorem blank_of {st0 st : SymTab} (hk : AllSym (fun s => s.kind ≠ .unknown) st0) (hg : Grows st0 st) (hv : AllSym Void st) : Blank st0 st := by
  intro q s0 hs
  obtain ⟨s, h1, h2, h3, h4, h5⟩ := hg q s0 hs
  have hkind : s.kind = s0.kind := by
    rcases h5 with h | ⟨h, -⟩
    · exact h
    · exact absurd h (hk q s0 hs)
  obtain ⟨v1, v2, v3, v4, v5⟩ := hv q s h1
  exact ⟨s, h1, h4, h2, hkind, h3, v1, v2, v3, v4, by rw [v5, hkind]⟩

/-- The machine is compiled, and no symbol has a value. -/
structure Ready (src : Source) (b : Bcode) (idx : LineMap) (st0 : SymTab) (vm : VM) : Prop where
  stored : vm.stored = ⟨some src, some b, some idx⟩
  blank : Blank st0 vm.st
  void : AllSym Void vm.st
  grows : Grows st0 vm.st
  tab : Tab vm.st
  defCode : vm.defCode.source = none ∧ vm.defCode.index = none
  prompt : vm.inputPrompt = true

/-- Compiling for RUN gives what the lines stand for. -/
def Readies (src : Source) (vm : VM) : Prop :=
  match parseSource src (initBuiltins newSymbolTable) vm.keywordsAnywhere with
  | .halt x => ensureProgramCompiled (vmClearValues vm) = .halt x
  | .ok (none, _) => ∃ vm', ensureProgramCompiled (vmClearValues vm) = .ok (false, vm') ∧ vm'.world = vm.world
  | .ok (some b, st0) =>
    match bcodeIndex b src with
    | .halt x => ensureProgramCompiled (vmClearValues vm) = .halt x
    | .ok idx => ∃ vm', ensureProgramCompiled (vmClearValues vm) = .ok (true, vm') ∧ Ready src b idx st0 vm' ∧
        vm'.world = vm.world ∧ vm'.input = vm.input ∧ vm'.traceBasic = vm.traceBasic ∧ vm'.traceFor = vm.traceFor

/-- Without code, it is made from the lines. -/
theorem readies_uncompiled {vm : VM} {src : Source} (hs : vm.stored.source = some src) (hc : vm.stored.bcode = none) (hi : vm.stored.index = none)
    (hd : vm.defCode.source = none ∧ vm.defCode.index = none) (hpr : vm.inputPrompt = true) : Readies src vm := by
  unfold Readies
  have hcl : (vmClearValues vm).stored = vm.stored := rfl
  have hkw : (vmClearValues vm).keywordsAnywhere = vm.keywordsAnywhere := rfl
  simp only [ensureProgramCompiled, hcl, hs, hc, hi, Option.isSome_none, Bool.false_eq_true, if_false, hkw]
  have hfresh : initBuiltins (clearSymbolTableNames (vmClearValues vm).st) = initBuiltins newSymbolTable := rfl
  rw [hfresh]
  cases hp : parseSource src (initBuiltins newSymbolTable) vm.keywordsAnywhere with
  | halt x => rfl
  | ok r =>
    obtain ⟨r, st0⟩ := r
    cases r with
    | none => exact ⟨_, rfl, rfl⟩
    | some b =>
      simp only
      cases hx : bcodeIndex b src with
      | halt x => rfl
      | ok idx =>
        have hv : AllSym Void st0 := by
          intro q s hq
          exact void_of (parseSource_all heldSym_new (allSym_start heldSym_builtin) hp q s hq)
            (parseSource_all empty_new (allSym_start empty_builtin) hp q s hq)
        refine ⟨_, rfl, ⟨?_, blank_of (parseSource_known hp) (Grows.refl _) hv, hv, Grows.refl _,
          (parseSource_compiled (wellNamed_fresh newSymbolTable).tab hp).1.tab, hd, hpr⟩, rfl, rfl, rfl, rfl⟩
        rfl

/-- Compiling for RUN only depends on the lines. -/
theorem ready {may : Cmd → VM → Prop} (hm : ∀ vm, ¬ may .renum vm) {vm : VM} (h : State may .idle vm) {src : Source} (hs : vm.stored.source = some src) :
    Readies src vm := by
  have hr := state_rooted hm h
  have hb := state_base h
  have hclear : AllSym Void (clearSymbolTableValues vm.st) := by
    intro q s hq
    have hk := (state_held (State.clearValues h)).syms
    exact void_of (hk q s hq) (unused_clear (state_held h).syms q s hq)
  cases hc : vm.stored.bcode with
  | some b =>
    obtain ⟨src', idx, st, k1, k2, k3, k4, k5⟩ := hr.code b hc
    rw [hs] at k1; cases k1
    unfold Readies
    rw [k3]
    simp only [k4]
    have hg := k5.trans (grows_of_values (heads_clear vm.st))
    refine ⟨vmClearValues vm, ?_, ⟨?_, blank_of (parseSource_known k3) hg hclear, hclear, hg, hb.tab.cleared, hr.defCode, hr.prompt⟩, rfl, rfl, rfl, rfl⟩
    · simp only [ensureProgramCompiled, vmClearValues, hs, hc]
    · show vm.stored = _
      cases hx : vm.stored with
      | mk a b c => rw [hx] at hs hc k2; simp only at hs hc k2; subst hs hc k2; rfl
  | none => exact readies_uncompiled hs hc (hb.noIndex hc) hr.defCode hr.prompt

/-- The machine right at the start of RUN. -/
def atStart (vm : VM) : VM :=
  { resetControlState vm with cs := { code := some .stored, sourceLine := 0, pc := 0 }, stopped := false }

/-- The symbols of the program. -/
def scopeOf (st0 : SymTab) : V.Scope :=
  { dom := fun id => id < st0.psym.length
    head := fun id => match st0.psym[id]? with | some s => (s.kind, s.type) | none => (.unknown, .err) }

theorem compiled_within {src : Source} {kw : Bool} {b : Bcode} {st0 : SymTab}
    (hp : parseSource src (initBuiltins newSymbolTable) kw = .ok (some b, st0)) : V.Within (scopeOf st0) b.inst := by
  obtain ⟨hg, -, hk⟩ := parseSource_compiled (wellNamed_fresh newSymbolTable).tab hp
  have ht := hg.tab
  intro i hi id hid
  have hf := (hk b rfl).fits i hi
  have key : ∀ f, Ident st0 id f → id < st0.psym.length := by
    rintro f ⟨q, s, h1, h2, -⟩
    have h3 := ht.ids q s h1
    obtain ⟨h4, -⟩ := List.getElem?_eq_some_iff.1 h1
    have := Nat.mod_le q 65536
    omega
  cases i <;> simp only [V.idsOf, List.not_mem_nil, List.mem_singleton] at hid <;> subst hid <;> first | exact key _ hf | exact key _ hf.2

/-- The symbols of the program, for machines that have printed something, of which the first traces more. -/
def scopeAt (st : SymTab) (o : CStr × CStr) (basic loops : Bool) (lines : List SrcLine) : V.Scope :=
  { scopeOf st with before := o, basic := basic, loops := loops, lines := lines }

/-- Machines that are ready to run the same program agree. -/
theorem ready_rel {src : Source} {kw : Bool} {b : Bcode} {idx : LineMap} {st0 : SymTab} {x y : VM} {o : CStr × CStr} {basic loops : Bool}
    (hp : parseSource src (initBuiltins newSymbolTable) kw = .ok (some b, st0)) (hx : Ready src b idx st0 x) (hy : Ready src b idx st0 y)
    (hw : V.SameWorld (scopeAt st0 o basic loops src.lines) x.world y.world) (hi : x.input = y.input) (h1 : x.traceBasic = (y.traceBasic || basic))
    (h2 : x.traceFor = (y.traceFor || loops)) :
    V.Rel (scopeAt st0 o basic loops src.lines) (atStart x) (atStart y) := by
  have hst : x.stored = y.stored := by rw [hx.stored, hy.stored]
  have hstored : V.CodeRel (scopeAt st0 o basic loops src.lines) (atStart x) (atStart y) .stored := by
    refine ⟨hst, fun bc hbc => ?_⟩
    have : x.stored.bcode = some bc := hbc
    rw [hx.stored] at this
    cases this
    exact compiled_within hp
  refine ⟨fun id hid => ?_, rfl, rfl, hw, fun _ => ⟨rfl, rfl, rfl, rfl, rfl, rfl, rfl, hi, rfl, rfl, h1, h2, by show x.inputPrompt = y.inputPrompt; rw [hx.prompt, hy.prompt],
    rfl, fun h => (by cases h), hstored, fun r hr => ?_, ⟨by show x.defCode.source = y.defCode.source; rw [hx.defCode.1, hy.defCode.1],
      by show x.defCode.index = y.defCode.index; rw [hx.defCode.2, hy.defCode.2]⟩, fun f hf => (by cases hf)⟩⟩
  · have hid : id < st0.psym.length := hid
    have h0 : st0.psym[id]? = some st0.psym[id] := List.getElem?_eq_getElem hid
    generalize st0.psym[id] = s0 at h0
    obtain ⟨s, a1, a2, a3, a4, a5, a6, a7, a8, a9, a10⟩ := hx.blank id s0 h0
    obtain ⟨t, b1, b2, b3, b4, b5, b6, b7, b8, b9, b10⟩ := hy.blank id s0 h0
    refine .inr ⟨s, t, a1, b1, ⟨?_, fun d hd => ?_⟩, .inr ⟨fun h => (by cases h), ?_, t.num, ?_⟩⟩
    · simp only [scopeAt, scopeOf, h0, a4, a5]
    · rw [a9] at hd; cases hd
    · by_cases hk : s0.kind = .builtin
      · right
        simp only [V.isVar, a4, hk]
        rfl
      · left
        rw [a10]
        cases hkk : s0.kind <;> first | rfl | exact absurd hkk hk
    · cases s; cases t
      simp only at a2 a3 a4 a5 a6 a7 a8 a9 a10 b2 b3 b4 b5 b6 b7 b8 b9 b10
      simp only [Symbol.mk.injEq]
      refine ⟨b2.trans a2.symm, b3.trans a3.symm, b4.trans a4.symm, b5.trans a5.symm, b10.trans a10.symm, trivial, b6.trans a6.symm,
        b7.trans a7.symm, b8.trans a8.symm, b9.trans a9.symm⟩
  · rcases hr with hr | ⟨c, hc, -⟩ | ⟨c, hc, -⟩ | hr
    · cases hr; exact hstored
    · cases hc
    · cases hc
    · cases hr

theorem ready_fine {src : Source} {kw : Bool} {b : Bcode} {idx : LineMap} {st0 : SymTab} {x : VM}
    (hp : parseSource src (initBuiltins newSymbolTable) kw = .ok (some b, st0)) (hi : bcodeIndex b src = .ok idx) (hx : Ready src b idx st0 x)
    (hn : x.st.psym.length ≤ 65536) : V.Fine src.lines (atStart x) := by
  obtain ⟨hg, -, hk⟩ := parseSource_compiled (wellNamed_fresh newSymbolTable).tab hp
  have hk := hk b rfl
  have hw : WellCode x.st b := WellCode.grow ⟨hk.pieces, hk.fits⟩ hx.grows
  have hb : (atStart x).stored.bcode = some b := by show x.stored.bcode = _; rw [hx.stored]
  refine ⟨⟨fun b' hb' => ?_, fun idx' n pc h1 h2 => ?_, fun h => (by cases h), fun q s d hq hd => ?_, fun _ h => (by cases h), fun _ h => (by cases h)⟩,
    Running.of_place ⟨.stored, b, rfl, .inl rfl, hb, hw.1⟩, hx.tab, hn, fun h => (by cases h),
    ⟨⟨⟨fun k => (by cases k), fun _ _ _ _ _ _ => .inl rfl⟩, (lineOk_allows _ _).nil _, fun c hc => (by cases hc), fun c hc => (by cases hc), fun k => by cases k⟩,
      (lineOk_allows _ _).nil _, fun b' hb' => ?_, fun k => k.elim, fun k => k.elim⟩, src, by show x.stored.source = _; rw [hx.stored], rfl⟩
  · rw [hb] at hb'; cases hb'; exact hw
  · have h1 : x.stored.index = some idx' := h1
    rw [hx.stored] at h1
    cases h1
    obtain ⟨l, ln, h3, -, -⟩ := (bcodeIndex_spec hi n).1 pc h2
    exact ⟨b, l, hb, h3⟩
  · have := (hx.void q s hq).2.2.2.1
    rw [this] at hd; cases hd
  · rw [hb] at hb'; cases hb'
    exact ⟨src, by show x.stored.source = _; rw [hx.stored], marks_compiled (wellNamed_fresh newSymbolTable).tab hp⟩

theorem runMessages_world {p : V.Scope} (hc : p.code = true) {a b : VM} (h : V.Rel p a b) (e : RunEnd) :
    V.SameWorld p (recordStopped e (runMessages e a)).world (recordStopped e (runMessages e b)).world := by
  have hr : ∀ e vm, (recordStopped e vm).world = vm.world := by
    intro e vm
    unfold recordStopped
    split
    · split <;> rfl
    · rfl
  have c := h.ctl hc
  rw [hr, hr]
  have hput : ∀ t, V.SameWorld p (putOut a t).world (putOut b t).world := by
    intro t
    obtain ⟨k, u, h1, h2, h3⟩ := h.world.out
    exact { h.world with out := ⟨k ++ t, u ++ t, by simp only [putOut, h1, List.append_assoc], by simp only [putOut, h2, List.append_assoc], h3.both t⟩ }
  unfold runMessages
  split
  · exact hput _
  · rw [← c.stopped]
    split
    · have : (b.cs.code.bind (fun r => (V.codeOf b r).source)) = (a.cs.code.bind (fun r => (V.codeOf a r).source)) := by
        rw [← c.cs]
        cases hcs : a.cs.code with
        | none => rfl
        | some r => simp only [Option.bind_some, (c.codes r (.inl hcs)).1]
      rw [this, ← c.cs]
      exact hput _
    · exact h.world

theorem runMessages_input {p : V.Scope} (hc : p.code = true) {a b : VM} (h : V.Rel p a b) (e : RunEnd) :
    (recordStopped e (runMessages e a)).input = (recordStopped e (runMessages e b)).input ∧
      (recordStopped e (runMessages e a)).stopped = (recordStopped e (runMessages e b)).stopped := by
  have hr : ∀ e vm, (recordStopped e (runMessages e vm)).input = vm.input ∧ (recordStopped e (runMessages e vm)).stopped = vm.stopped := by
    intro e vm
    obtain ⟨x, y, hxy⟩ := recordStopped_frame e vm
    rw [hxy]
    exact ⟨rfl, rfl⟩
  rw [(hr e a).1, (hr e b).1, (hr e a).2, (hr e b).2]
  exact ⟨(h.ctl hc).input, (h.ctl hc).stopped⟩

/-- RUN does the same in two machines that are ready to run the same lines, of which the first traces more. -/
theorem readies_traced {basic loops : Bool} {a b : VM} {src : Source} (hsa : a.stored.source = some src) (hsb : b.stored.source = some src) (ra : Readies src a) (rb : Readies src b)
    (hk : a.keywordsAnywhere = b.keywordsAnywhere) (h1 : a.traceBasic = (b.traceBasic || basic))
    (h2 : a.traceFor = (b.traceFor || loops)) (hw : a.world.stdin = b.world.stdin ∧ a.world.rng = b.world.rng ∧ a.world.ticks = b.world.ticks)
    (hi : a.input = b.input)
    (hn : ∀ vm', ensureProgramCompiled (vmClearValues a) = .ok (true, vm') → vm'.st.psym.length ≤ 65536)
    (env : Env) (brk : Nat → Bool) (n : Nat) :
    (∃ e a' b', runProgram env brk n (vmClearValues a) = .ok (e, a') ∧ runProgram env brk n (vmClearValues b) = .ok (e, b') ∧
      AlikeTraced basic loops src.lines a.world b.world a'.world b'.world ∧ (e ≠ none → a'.input = b'.input ∧ a'.stopped = b'.stopped)) ∨
    ∃ x, runProgram env brk n (vmClearValues a) = .halt x ∧ runProgram env brk n (vmClearValues b) = .halt x := by
  unfold Readies at ra rb
  rw [← hk] at rb
  have run_eq : ∀ vm : VM, vm.stored.source = some src → runProgram env brk n (vmClearValues vm) =
      match ensureProgramCompiled (vmClearValues vm) with
      | .halt h => .halt h
      | .ok (false, vm') => .ok (none, vm')
      | .ok (true, vm') =>
        match vmLoop env brk n 0 (atStart vm') with
        | .halt h => .halt h
        | .ok (e, vm'') => .ok (some e, recordStopped e (runMessages e vm'')) := by
    intro vm hsv
    unfold runProgram
    rw [if_neg (by simp [vmClearValues, hsv])]
    cases ensureProgramCompiled (vmClearValues vm) with
    | halt x => rfl
    | ok r =>
      obtain ⟨r, vm'⟩ := r
      cases r with
      | false => rfl
      | true =>
        simp only [run]
        rw [if_neg (by simp)]
        have he : ({ ({ resetControlState vm' with cs := { code := some .stored, sourceLine := 0, pc := 0 } } : VM) with stopped := false } : VM) = atStart vm' := rfl
        simp only [he]
        cases vmLoop env brk n 0 (atStart vm') <;> rfl
  rw [run_eq a hsa, run_eq b hsb]
  cases hp : parseSource src (initBuiltins newSymbolTable) a.keywordsAnywhere with
  | halt x => rw [hp] at ra rb; rw [ra, rb]; exact .inr ⟨x, rfl, rfl⟩
  | ok r =>
    obtain ⟨r, st0⟩ := r
    rw [hp] at ra rb
    cases r with
    | none =>
      obtain ⟨a', ha1, ha2⟩ := ra
      obtain ⟨b', hb1, hb2⟩ := rb
      rw [ha1, hb1]
      exact .inl ⟨none, a', b', rfl, rfl, by rw [ha2, hb2]; exact ⟨hw.1, hw.2.1, hw.2.2, [], [], by simp, by simp, .nil⟩, fun h => absurd rfl h⟩
    | some bc =>
      simp only at ra rb
      cases hx : bcodeIndex bc src with
      | halt x => rw [hx] at ra rb; rw [ra, rb]; exact .inr ⟨x, rfl, rfl⟩
      | ok idx =>
        rw [hx] at ra rb
        obtain ⟨a', ha1, ha2, ha3, ha4, ha5, ha6⟩ := ra
        obtain ⟨b', hb1, hb2, hb3, hb4, hb5, hb6⟩ := rb
        rw [ha1, hb1]
        have hrel := ready_rel (o := (a.world.out, b.world.out)) hp ha2 hb2 (by rw [ha3, hb3]; exact ⟨hw.1, hw.2.1, hw.2.2, [], [], by simp [scopeAt], by simp [scopeAt], .nil⟩) (by rw [ha4, hb4, hi]) (by rw [ha5, hb5, h1]) (by rw [ha6, hb6, h2])
        have hl := V.sim_loop rfl env brk n 0 hrel (ready_fine hp hx ha2 (hn a' ha1))
        generalize hva : vmLoop env brk n 0 (atStart a') = va at hl
        generalize hvb : vmLoop env brk n 0 (atStart b') = vb at hl
        cases hl with
        | ok h =>
          rename_i e a2 b2
          exact .inl ⟨some e, _, _, by simp only [hva], by simp only [hvb], (let q := runMessages_world rfl h e; ⟨q.stdin, q.rng, q.ticks, q.out⟩), fun _ => runMessages_input rfl h e⟩
        | halt => rename_i x; exact .inr ⟨x, by simp only [hva], by simp only [hvb]⟩
        | fullNum h => exact absurd rfl h
        | fullStr h => exact absurd rfl h

theorem Spec.Marked.same {lines : List SrcLine} {t u : List Char} (h : Marked false false lines t u) : t = u := by
  induction h with
  | nil => rfl
  | both s _ ih => rw [ih]
  | mark _ hx _ => cases hx <;> contradiction

/-- RUN does the same in two machines that are ready to run the same lines. -/
theorem readies_alike {a b : VM} {src : Source} (hsa : a.stored.source = some src) (hsb : b.stored.source = some src) (ra : Readies src a) (rb : Readies src b)
    (hk : a.keywordsAnywhere = b.keywordsAnywhere) (h1 : a.traceBasic = b.traceBasic)
    (h2 : a.traceFor = b.traceFor) (hw : a.world.stdin = b.world.stdin ∧ a.world.rng = b.world.rng ∧ a.world.ticks = b.world.ticks) (hi : a.input = b.input)
    (hn : ∀ vm', ensureProgramCompiled (vmClearValues a) = .ok (true, vm') → vm'.st.psym.length ≤ 65536)
    (env : Env) (brk : Nat → Bool) (n : Nat) :
    (∃ e a' b', runProgram env brk n (vmClearValues a) = .ok (e, a') ∧ runProgram env brk n (vmClearValues b) = .ok (e, b') ∧ Alike a.world b.world a'.world b'.world ∧
      (e ≠ none → a'.input = b'.input ∧ a'.stopped = b'.stopped)) ∨
    ∃ x, runProgram env brk n (vmClearValues a) = .halt x ∧ runProgram env brk n (vmClearValues b) = .halt x := by
  rcases readies_traced (basic := false) (loops := false) hsa hsb ra rb hk (by simp [h1]) (by simp [h2]) hw hi hn env brk n with
    ⟨e, a', b', q1, q2, ⟨r1, r2, r3, t, u, r4, r5, r6⟩, q4⟩ | ⟨x, q1, q2⟩
  · rw [r6.same] at r4
    exact .inl ⟨e, a', b', q1, q2, ⟨r1, r2, r3, u, r4, r5⟩, q4⟩
  · exact .inr ⟨x, q1, q2⟩

theorem Spec.Alike.same {a b a' b' : World} (h : Alike a b a' b') (he : a.out = b.out) : a' = b' := by
  obtain ⟨h1, h2, h3, t, h4, h5⟩ := h
  cases a'; cases b'
  simp only at h1 h2 h3 h4 h5
  simp only [World.mk.injEq]
  exact ⟨h1, by rw [h4, h5, he], h2, h3⟩

/-- RUN does the same in two machines that are ready to run the same lines, also in the same surroundings. -/
theorem readies_run {a b : VM} {src : Source} (hsa : a.stored.source = some src) (hsb : b.stored.source = some src) (ra : Readies src a) (rb : Readies src b)
    (hk : a.keywordsAnywhere = b.keywordsAnywhere) (h1 : a.traceBasic = b.traceBasic)
    (h2 : a.traceFor = b.traceFor) (hw : a.world = b.world) (hi : a.input = b.input)
    (hn : ∀ vm', ensureProgramCompiled (vmClearValues a) = .ok (true, vm') → vm'.st.psym.length ≤ 65536)
    (env : Env) (brk : Nat → Bool) (n : Nat) :
    (∃ e a' b', runProgram env brk n (vmClearValues a) = .ok (e, a') ∧ runProgram env brk n (vmClearValues b) = .ok (e, b') ∧ a'.world = b'.world ∧
      (e ≠ none → a'.input = b'.input ∧ a'.stopped = b'.stopped)) ∨
    ∃ x, runProgram env brk n (vmClearValues a) = .halt x ∧ runProgram env brk n (vmClearValues b) = .halt x := by
  rcases readies_alike hsa hsb ra rb hk h1 h2 ⟨by rw [hw], by rw [hw], by rw [hw]⟩ hi hn env brk n with ⟨e, a', b', q1, q2, q3, q4⟩ | q
  · exact .inl ⟨e, a', b', q1, q2, q3.same (by rw [hw]), q4⟩
  · exact .inr q

/-- RUN does the same in two sessions with the same program, options, surroundings and line buffer. -/
theorem same_run {may : Cmd → VM → Prop} (hm : ∀ vm, ¬ may .renum vm) {a b : VM} (ha : State may .idle a) (hb : State may .idle b)
    (hs : a.stored.source = b.stored.source) (hk : a.keywordsAnywhere = b.keywordsAnywhere) (h1 : a.traceBasic = b.traceBasic)
    (h2 : a.traceFor = b.traceFor) (hw : a.world.stdin = b.world.stdin ∧ a.world.rng = b.world.rng ∧ a.world.ticks = b.world.ticks) (hi : a.input = b.input)
    (hn : ∀ vm', ensureProgramCompiled (vmClearValues a) = .ok (true, vm') → vm'.st.psym.length ≤ 65536)
    (env : Env) (brk : Nat → Bool) (n : Nat) :
    (∃ e a' b', runProgram env brk n (vmClearValues a) = .ok (e, a') ∧ runProgram env brk n (vmClearValues b) = .ok (e, b') ∧ Alike a.world b.world a'.world b'.world) ∨
    ∃ x, runProgram env brk n (vmClearValues a) = .halt x ∧ runProgram env brk n (vmClearValues b) = .halt x := by
  cases hsa : a.stored.source with
  | none =>
    refine .inl ⟨none, vmClearValues a, vmClearValues b, ?_, ?_, ⟨hw.1, hw.2.1, hw.2.2, [], by simp [vmClearValues], by simp [vmClearValues]⟩⟩
    · simp [runProgram, vmClearValues, hsa]
    · simp [runProgram, vmClearValues, ← hs, hsa]
  | some src =>
    have hsb : b.stored.source = some src := by rw [← hs]; exact hsa
    rcases readies_alike hsa hsb (ready hm ha hsa) (ready hm hb hsb) hk h1 h2 hw hi hn env brk n with ⟨e, a', b', q1, q2, q3, -⟩ | q
    · exact .inl ⟨e, a', b', q1, q2, q3⟩
    · exact .inr q

end LB
