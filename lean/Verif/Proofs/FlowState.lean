import Verif.Proofs.Away
import Verif.Proofs.FlowKeep
import Verif.Proofs.Compile
import Verif.Proofs.Current
import Verif.Spec.Flow
/- Execution stays within the structure of the compiled code: sessions. -/
namespace LB
open LB.Spec Code

namespace P

/-- The state of the compiler when all definitions in the table belong to `S`. -/
structure Defining (S : Ty → Def → Prop) (p : Parser) : Prop where
  fits : p.lex.Sound
  defs : V.DefsIn S p.st

theorem defining_insert {S : Ty → Def → Prop} (name : CStr) (kind : SymKind) (t : Ty) : Keeps (Defining S) (insert name kind t) := by
  intro p hp
  simp only [insert, symInsert]
  refine ⟨hp.fits, ?_⟩
  intro q s d hs he
  simp only at hs
  by_cases hq : q < p.st.psym.length
  · rw [List.getElem?_append_left hq] at hs
    exact hp.defs q s d hs he
  · rw [List.getElem?_append_right (by omega)] at hs
    cases hj : q - p.st.psym.length with
    | zero => rw [hj] at hs; simp only [List.getElem?_cons_zero, Option.some.injEq] at hs; subst hs; cases he
    | succ j => rw [hj] at hs; simp at hs

theorem defining_setKind {S : Ty → Def → Prop} (id : Nat) (kind : SymKind) : Keeps (Defining S) (setKind id kind) := by
  intro p hp
  simp only [setKind]
  exact ⟨hp.fits, V.DefsIn.update hp.defs id (fun _ => rfl) (fun s d hs he => hp.defs _ s d hs he)⟩

theorem closed_defining (S : Ty → Def → Prop) : Closed (Defining S) where
  lex p lex h hl := ⟨hl, h.defs⟩
  fits p h := h.fits
  emit i hi p h := ⟨h.fits, h.defs⟩
  patch n i hi p h := by
    simp only [patch]
    split
    · trivial
    · exact ⟨h.fits, h.defs⟩
  ifThen p n h := ⟨h.fits, h.defs⟩
  resolve name params kind _ := by
    unfold resolve
    pkeeps
    all_goals first | exact Keeps.lookup _ _ | exact defining_insert _ _ _ | exact defining_setKind _ _
  defSymbol name := by
    unfold defSymbol
    pkeeps
    all_goals first | exact Keeps.lookup _ _ | exact defining_insert _ _ _ | exact defining_setKind _ _

end P

theorem defsIn_unknownArray {S : Ty → Def → Prop} {st : SymTab} (h : V.DefsIn S st) : V.DefsIn S (symMakeUnknownArray st) := by
  intro q s d hs he
  rw [unknownArray_get] at hs
  cases hl : st.psym[q]? with
  | none => rw [hl] at hs; simp at hs
  | some x =>
    rw [hl] at hs
    simp only [Option.map_some, Option.some.injEq] at hs
    split at hs <;> subst hs <;> exact h q x d hl he

theorem parseSource_defs {S : Ty → Def → Prop} {src : Source} {st st' : SymTab} {pre : Bool} {r : Option Bcode} (h : V.DefsIn S st)
    (hp : parseSource src st pre = .ok (r, st')) : V.DefsIn S st' := by
  have key := P.keeps_parseLines (P.closed_defining S) src.lines 0 { lex := newLex pre, bcode := newBcode, st := st, ifThen := 0 }
    ⟨sound_new _, h⟩
  unfold parseSource at hp
  split at hp
  · rename_i p hl
    rw [hl] at key
    simp only [Outcome.ok.injEq, Prod.mk.injEq] at hp
    rw [← hp.2]
    exact defsIn_unknownArray key.defs
  · rename_i p hl
    rw [hl] at key
    simp only [Outcome.ok.injEq, Prod.mk.injEq] at hp
    rw [← hp.2]
    exact defsIn_unknownArray key.defs
  · cases hp

theorem defsIn_fresh (S : Ty → Def → Prop) (st : SymTab) : V.DefsIn S (initBuiltins (clearSymbolTableNames st)) := by
  intro q s d hs he
  have hp : (initBuiltins (clearSymbolTableNames st)).psym = builtinSymbols := initBuiltins_psym
  rw [hp] at hs
  have : ∀ s ∈ builtinSymbols, s.def_ = none := by decide
  rw [this s (List.mem_of_getElem? hs)] at he
  cases he

/-- What holds whether or not the program is compiled. -/
structure Base (ph : Phase) (vm : VM) : Prop where
  tab : Tab vm.st
  noIndex : vm.stored.bcode = none → vm.stored.index = none
  noCode : vm.stored.source = none → vm.stored.bcode = none
  noRun : ph = .program → vm.stored.source ≠ none
  refs : vm.stored.source = none → vm.fn.codeState.code ≠ some .stored ∧ (ph = .idle → vm.retstack = [] ∧ vm.forStack = [] ∧ vm.fn.codeState.code = none) ∧
    (ph ≠ .idle → V.Away vm)
  ready : ph ≠ .idle → vm.stored.source ≠ none → vm.stored.bcode ≠ none

/-- There is no program, or it is compiled. -/
def Comp (vm : VM) : Prop := vm.stored.source = none ∨ vm.stored.bcode ≠ none

/-- Execution stays within the structure of the code if `G` holds. -/
structure InFlow (G : Prop) (ph : Phase) (vm : VM) : Prop where
  base : Base ph vm
  ordered : G → Comp vm → vm.st.psym.length ≤ 65536 → Ordered ph vm ∧ (ph ≠ .idle → Running ph vm)

variable {G : Prop}

theorem Place.same {ph ph' : Phase} {vm vm' : VM} {code : Option CodeRef} {pc : Nat} (h : Place ph vm code pc) (h1 : vm'.stored = vm.stored)
    (h2 : Grows vm.st vm'.st) (h3 : ∀ r, code = some r → Home ph r → Home ph' r) (h4 : ph' = .typed → vm'.immediate = vm.immediate) :
    Place ph' vm' code pc := by
  obtain ⟨r, b, k1, k2, hb, k3⟩ := h
  have hh := h3 r k1 k2
  exact ⟨r, b, k1, hh, by rw [hh.codeOf h1 h4]; exact hb, k3.types (fun _ _ h => h.grow h2)⟩

theorem Ordered.same {ph ph' : Phase} {vm vm' : VM} (o : Ordered ph vm) (h1 : vm'.stored = vm.stored) (h2 : Grows vm.st vm'.st)
    (h3 : V.DefsIn (WellDef vm.st) vm'.st) (h4 : ph' = .typed → ∀ b, vm'.immediate.bcode = some b → WellCode vm'.st b)
    (h5 : ∀ cs ∈ vm'.retstack, Place ph' vm' cs.code cs.pc)
    (h6 : ∀ f ∈ vm'.forStack, Place ph' vm' f.codeState.code (f.codeState.pc + 1)) : Ordered ph' vm' where
  stored b hb := (o.stored b (by rw [← h1]; exact hb)).grow h2
  index idx n pc k1 k2 := by rw [h1] at k1 ⊢; exact o.index idx n pc k1 k2
  imm := h4
  defs q s d hs he := (h3 q s d hs he).grow h2
  rets := h5
  fors := h6

theorem Home.idle {ph : Phase} {r : CodeRef} (h : Home .idle r) : Home ph r := by
  rcases h with h | ⟨h, -⟩
  · exact .inl h
  · cases h

/-- A machine without compiled code. -/
theorem InFlow.uncompiled {vm : VM} (ht : Tab vm.st) (h1 : vm.stored.source ≠ none) (h2 : vm.stored.bcode = none)
    (h3 : vm.stored.index = none) : InFlow G .idle vm where
  base := ⟨ht, fun _ => h3, fun h => absurd h h1, fun h => by (cases h), fun h => absurd h h1, fun h => absurd rfl h⟩
  ordered _ hc _ := by
    rcases hc with hc | hc
    · exact absurd hc h1
    · exact absurd h2 hc

/-- A change of an idle machine that keeps the code and the stacks. -/
theorem InFlow.same {vm vm' : VM} (h : InFlow G .idle vm) (h1 : vm'.stored = vm.stored) (h2 : Grown vm.st vm'.st)
    (h3 : ∀ S, V.DefsIn S vm.st → V.DefsIn S vm'.st) (h4 : vm'.retstack = vm.retstack) (h5 : vm'.forStack = vm.forStack)
    (h6 : vm'.fn = vm.fn) : InFlow G .idle vm' where
  base := by
    obtain ⟨a, b, c, d, e, f⟩ := h.base
    exact ⟨h2.tab, by rw [h1]; exact b, by rw [h1]; exact c, fun h => by (cases h), by rw [h1, h4, h5, h6]; exact fun h => ⟨(e h).1, (e h).2.1, fun h => absurd rfl h⟩, fun h => absurd rfl h⟩
  ordered hg hc hl := by
    have hle : vm.st.psym.length ≤ vm'.st.psym.length := by
      by_cases hn : vm.st.psym.length = 0
      · omega
      · have hlt : vm.st.psym.length - 1 < vm.st.psym.length := by omega
        obtain ⟨s', hs', -⟩ := h2.grows _ _ (List.getElem?_eq_getElem hlt)
        have := (List.getElem?_eq_some_iff.1 hs').1
        omega
    obtain ⟨o, -⟩ := h.ordered hg (by unfold Comp at *; rw [← h1]; exact hc) (by omega)
    refine ⟨o.same h1 h2.grows (h3 _ o.defs) (fun h => by cases h) ?_ ?_, fun h => absurd rfl h⟩
    · rw [h4]
      exact fun cs hcs => (o.rets cs hcs).same h1 h2.grows (fun _ _ h => h) (fun h => by cases h)
    · rw [h5]
      exact fun f hf => (o.fors f hf).same h1 h2.grows (fun _ _ h => h) (fun h => by cases h)


theorem Running.of_place {ph : Phase} {vm : VM} (h : Place ph vm vm.cs.code vm.cs.pc) : Running ph vm := h.runAt _ _ _ _

/-- What ends with a run. -/
theorem runMessages_frame (e : RunEnd) (vm : VM) : ∃ w, runMessages e vm = { vm with world := w } := by
  unfold runMessages
  split
  · exact ⟨_, rfl⟩
  · split
    · exact ⟨_, rfl⟩
    · exact ⟨vm.world, rfl⟩

theorem recordStopped_frame (e : RunEnd) (vm : VM) : ∃ w s, recordStopped e (runMessages e vm) = { vm with world := w, stoppedProgram := s } := by
  obtain ⟨w, hw⟩ := runMessages_frame e vm
  rw [hw]
  unfold recordStopped
  split
  · split <;> exact ⟨_, _, rfl⟩
  · exact ⟨w, vm.stoppedProgram, rfl⟩

theorem not_immediate {vm : VM} (h : immediateState vm = false) :
    (∀ cs ∈ vm.retstack, cs.code = some .stored) ∧ (∀ f ∈ vm.forStack, f.codeState.code = some .stored) ∧
      (vm.fn.codeState.code = none ∨ vm.fn.codeState.code = some .stored) := by
  unfold immediateState at h
  simp only [Bool.or_eq_false_iff, List.any_eq_false] at h
  refine ⟨fun cs hcs => ?_, fun f hf => ?_, ?_⟩
  · have := h.1.1 cs hcs
    simpa [notStored] using this
  · have := h.1.2 f hf
    simpa [notStored] using this
  · have := h.2
    cases hc : vm.fn.codeState.code with
    | none => exact .inl rfl
    | some r => simp only [hc, notStored, Option.isSome_some, Bool.true_and] at this; right; simpa using this

/-- The end of a run. -/
theorem InFlow.finish {ph : Phase} {vm : VM} (e : RunEnd) (hp : ph ≠ .idle) (hb : Base ph vm)
    (ho : G → Comp vm → vm.st.psym.length ≤ 65536 → Ordered ph vm) : InFlow G .idle (Spec.finish ph e vm) := by
  obtain ⟨w, s, hw⟩ := recordStopped_frame e vm
  unfold Spec.finish
  simp only [hw]
  split
  · refine ⟨⟨hb.tab, hb.noIndex, hb.noCode, fun h => (by cases h), fun _ => ⟨fun h => (by cases h), fun _ => ⟨rfl, rfl, rfl⟩, fun h => absurd rfl h⟩,
      fun h => absurd rfl h⟩, fun hg hc hl => ⟨?_, fun h => absurd rfl h⟩⟩
    obtain ⟨a, b, _, d, _, _⟩ := ho hg hc hl
    exact ⟨a, b, fun h => (by cases h), d, fun _ h => (by cases h), fun _ h => (by cases h)⟩
  · rename_i hn
    have hst : ph = .typed → (∀ cs ∈ vm.retstack, cs.code = some .stored) ∧ (∀ f ∈ vm.forStack, f.codeState.code = some .stored) ∧
        (vm.fn.codeState.code = none ∨ vm.fn.codeState.code = some .stored) := by
      intro ht
      have : immediateState { vm with world := w, stoppedProgram := s } = false := by
        cases hx : immediateState { vm with world := w, stoppedProgram := s }
        · rfl
        · exact absurd ⟨ht, hx⟩ hn
      exact not_immediate this
    refine ⟨⟨hb.tab, hb.noIndex, hb.noCode, fun h => (by cases h), fun hs => ?_,
      fun h => absurd rfl h⟩, fun hg hc hl => ⟨?_, fun h => absurd rfl h⟩⟩
    · cases ph with
      | idle => exact absurd rfl hp
      | program => exact absurd hs (hb.noRun rfl)
      | typed =>
        have ha := (hb.refs hs).2.2 hp
        exact ⟨ha.fn, fun _ => ⟨List.eq_nil_iff_forall_not_mem.2 (fun c hc => ha.rets c hc ((hst rfl).1 c hc)),
          List.eq_nil_iff_forall_not_mem.2 (fun f hf => ha.fors f hf ((hst rfl).2.1 f hf)), (hst rfl).2.2.resolve_right ha.fn⟩, fun h => absurd rfl h⟩
    · have o := ho hg hc hl
      have hgr : Grows vm.st vm.st := fun q s hs => ⟨s, hs, rfl, rfl, rfl, .inl rfl⟩
      have home : ∀ {r}, (ph = .typed → r = .stored) → Home ph r → Home .idle r := by
        intro r h1 h2
        rcases h2 with h | ⟨h, -⟩
        · exact .inl h
        · exact .inl (h1 h)
      refine o.same rfl hgr o.defs (fun h => by cases h) (fun cs hcs => ?_) (fun f hf => ?_)
      · exact (o.rets cs hcs).same rfl hgr (fun r k1 k2 => home (fun ht => by
          rw [(hst ht).1 cs hcs] at k1; cases k1; rfl) k2) (fun h => by cases h)
      · exact (o.fors f hf).same rfl hgr (fun r k1 k2 => home (fun ht => by
          rw [(hst ht).2.1 f hf] at k1; cases k1; rfl) k2) (fun h => by cases h)



theorem Grows.length {st st' : SymTab} (h : Grows st st') : st.psym.length ≤ st'.psym.length := by
  by_cases hn : st.psym.length = 0
  · omega
  · have hlt : st.psym.length - 1 < st.psym.length := by omega
    obtain ⟨s', hs', -⟩ := h _ _ (List.getElem?_eq_getElem hlt)
    have := (List.getElem?_eq_some_iff.1 hs').1
    omega

theorem compiled_comp {vm : VM} (hc : ensureProgramCompiled vm = .ok (true, vm)) : Comp vm := by
  cases hs : vm.stored.source with
  | none => exact .inl hs
  | some src => exact .inr (compiled_has_code hc hs)

/-- Reset stacks, and code that is in order. -/
theorem InFlow.fresh {vm : VM} (ht : Tab vm.st) (h1 : vm.stored.bcode = none → vm.stored.index = none)
    (h2 : vm.stored.source = none → vm.stored.bcode = none) (h3 : vm.retstack = []) (h4 : vm.forStack = [])
    (h0 : vm.fn.codeState.code = none)
    (h5 : ∀ S, V.DefsIn S vm.st) (h6 : ∀ b, vm.stored.bcode = some b → WellCode vm.st b)
    (h7 : ∀ idx n pc, vm.stored.index = some idx → lookupLineMapping idx n = some pc →
      ∃ b l, vm.stored.bcode = some b ∧ b.inst[pc]? = some (.sourceLine l)) : InFlow G .idle vm where
  base := ⟨ht, h1, h2, fun h => (by cases h), fun _ => ⟨by rw [h0]; exact fun h => (by cases h), fun _ => ⟨h3, h4, h0⟩, fun h => absurd rfl h⟩,
    fun h => absurd rfl h⟩
  ordered _ _ _ := ⟨⟨h6, h7, fun h => (by cases h), h5 _, by rw [h3]; exact fun _ h => (by cases h), by rw [h4]; exact fun _ h => (by cases h)⟩,
    fun h => absurd rfl h⟩

theorem InFlow.clear {vm : VM} (h : InFlow G .idle vm) : InFlow G .idle (vmClearValues vm) := by
  have hg : Grown vm.st (clearSymbolTableValues vm.st) := ⟨h.base.tab.cleared, grows_of_values (heads_clear vm.st)⟩
  exact h.same rfl hg (fun S hs => V.DefsIn.clear hs) rfl rfl rfl

theorem inFlow_compile {vm vm' : VM} {b : Bool} (h : InFlow G .idle vm) (hc : ensureProgramCompiled vm = .ok (b, vm')) :
    InFlow G .idle vm' := by
  unfold ensureProgramCompiled at hc
  split at hc
  · rename_i src hs hb
    split at hc
    · simp at hc
    · split at hc
      · simp at hc
      · rename_i st hp
        simp only [Outcome.ok.injEq, Prod.mk.injEq] at hc
        obtain ⟨-, rfl⟩ := hc
        have hg := (parseSource_compiled (wellNamed_fresh vm.st).tab hp).1
        exact InFlow.uncompiled hg.tab (by simp [hs]) hb (h.base.noIndex hb)
      · rename_i bc st hp
        split at hc
        · simp at hc
        · rename_i idx hi
          simp only [Outcome.ok.injEq, Prod.mk.injEq] at hc
          obtain ⟨-, rfl⟩ := hc
          obtain ⟨hg, -, hk⟩ := parseSource_compiled (wellNamed_fresh vm.st).tab hp
          have hk := hk bc rfl
          refine InFlow.fresh hg.tab (fun h => (by cases h)) (fun hn => ?_) rfl rfl rfl (fun S => parseSource_defs (defsIn_fresh S _) hp) ?_ ?_
          · have : vm.stored.source = none := hn
            rw [hs] at this; cases this
          · intro b hb
            simp only [resetControlState, Option.some.injEq] at hb
            subst hb
            exact ⟨hk.pieces, hk.fits⟩
          · intro idx' n pc h1 h2
            simp only [resetControlState, Option.some.injEq] at h1
            subst h1
            obtain ⟨l, ln, h3, -, -⟩ := (bcodeIndex_spec hi n).1 pc h2
            exact ⟨bc, l, rfl, h3⟩
  · simp only [Outcome.ok.injEq, Prod.mk.injEq] at hc
    obtain ⟨-, rfl⟩ := hc
    exact h

theorem state_flow_if {may : Cmd → VM → Prop} (hm : G → ∀ vm, may .cont vm → StoppedBetween vm) {ph : Phase} {vm : VM}
    (h : State may ph vm) : InFlow G ph vm := by
  induction h with
  | start kw tb tf world =>
    refine InFlow.fresh (wellNamed_fresh newSymbolTable).tab (fun _ => rfl) (fun _ => rfl) rfl rfl rfl (fun S => defsIn_fresh S newSymbolTable)
      (fun b hb => by cases hb) (fun _ _ _ h => by cases h)
  | world w _ ih => exact ih.same rfl ⟨ih.base.tab, Grows.refl _⟩ (fun _ h => h) rfl rfl rfl
  | enter num text _ _ he ih =>
    unfold vmEnterSourceLine at he
    split at he
    · simp at he
    · simp only [Outcome.ok.injEq] at he
      subst he
      exact InFlow.uncompiled ih.base.tab (by simp [storedProgramChanged]) rfl rfl
  | delete num _ ih =>
    unfold vmDeleteSourceLine
    split
    · exact ih
    · split
      · exact ih
      · exact InFlow.uncompiled ih.base.tab (by simp [storedProgramChanged]) rfl rfl
  | @new vm _ ih =>
    cases hs : vm.stored.source with
    | some src =>
      exact InFlow.uncompiled (wellNamed_fresh vm.st).tab (by simp [vmClearNames, vmNewProgram, storedProgramChanged, hs]) rfl rfl
    | none =>
      obtain ⟨hr0, hr, -⟩ := ih.base.refs hs
      obtain ⟨hr1, hr2, hr3⟩ := hr rfl
      refine ⟨⟨(wellNamed_fresh vm.st).tab, fun _ => rfl, fun _ => rfl, fun h => (by cases h), fun _ => ⟨hr0, fun _ => ⟨hr1, hr2, hr3⟩, fun h => absurd rfl h⟩, fun h => absurd rfl h⟩,
        fun _ _ _ => ⟨⟨fun b hb => (by cases hb), fun _ _ _ h => (by cases h), fun h => (by cases h), defsIn_fresh _ vm.st, ?_, ?_⟩, fun h => absurd rfl h⟩⟩
      · intro cs hcs
        have : cs ∈ vm.retstack := hcs
        rw [hr1] at this; cases this
      · intro f hf
        have : f ∈ vm.forStack := hf
        rw [hr2] at this; cases this
  | load name c b _ hl ih =>
    unfold vmLoadSource at hl
    split at hl
    · simp at hl
    · simp only [Outcome.ok.injEq, Prod.mk.injEq] at hl
      obtain ⟨-, rfl⟩ := hl
      exact ih
    · simp only [Outcome.ok.injEq, Prod.mk.injEq] at hl
      obtain ⟨-, rfl⟩ := hl
      exact InFlow.uncompiled ih.base.tab (by simp [storedProgramChanged]) rfl rfl
  | @renum vm vm' new old inc _ _ hr ih =>
    have key : ∀ (src : Source) (s : Option Source) (w : World), vm.stored.source = some src → s ≠ none →
        InFlow G .idle { vm with stored := { vm.stored with source := s }, world := w } := by
      intro src s w hs hn
      refine ⟨⟨ih.base.tab, ih.base.noIndex, fun h => absurd h hn, fun h => (by cases h), fun h => absurd h hn, fun h => absurd rfl h⟩, fun hg hc hl => ?_⟩
      have hc2 : Comp vm := by
        rcases hc with hc | hc
        · exact absurd hc hn
        · exact .inr hc
      obtain ⟨⟨a, b, c, d, e, f⟩, -⟩ := ih.ordered hg hc2 hl
      refine ⟨⟨a, b, fun h => (by cases h), d, fun cs hcs => ?_, fun f' hf => ?_⟩, fun h => absurd rfl h⟩
      · obtain ⟨r, b, k1, k2, kb, k3⟩ := e cs hcs
        refine ⟨r, b, k1, k2, ?_⟩
        rcases k2 with rfl | ⟨k2, -⟩
        · exact ⟨kb, k3⟩
        · cases k2
      · obtain ⟨r, b, k1, k2, kb, k3⟩ := f f' hf
        refine ⟨r, b, k1, k2, ?_⟩
        rcases k2 with rfl | ⟨k2, -⟩
        · exact ⟨kb, k3⟩
        · cases k2
    unfold renumber at hr
    split at hr
    · simp only [Outcome.ok.injEq] at hr; subst hr; exact ih
    · rename_i src hs
      split at hr
      · simp at hr
      · simp only [Outcome.ok.injEq] at hr; subst hr
        exact key src (some _) _ hs (by simp)
      · split at hr
        · simp at hr
        · simp only [Outcome.ok.injEq] at hr; subst hr
          split
          · exact key src (some _) vm.world hs (by simp)
          · exact key src (some _) _ hs (by simp)
  | compile b _ hc ih => exact inFlow_compile ih hc
  | clearValues _ ih => exact ih.clear
  | noImmediate _ ih => exact ih.same rfl ⟨ih.base.tab, Grows.refl _⟩ (fun _ h => h) rfl rfl rfl
  | @run vm _ hc hs ih =>
    have hcomp := compiled_comp hc
    have hbc : vm.stored.bcode ≠ none := by
      rcases hcomp with h | h
      · exact absurd h hs
      · exact h
    refine ⟨⟨ih.base.tab, ih.base.noIndex, ih.base.noCode, fun _ => hs, fun h => absurd h hs, fun _ _ => hbc⟩, fun hG _ hl => ?_⟩
    obtain ⟨⟨a, b, c, d, e, f⟩, -⟩ := ih.ordered hG hcomp hl
    refine ⟨⟨a, b, fun h => (by cases h), d, fun _ h => (by cases h), fun _ h => (by cases h)⟩, fun _ => ?_⟩
    obtain ⟨bc, hb⟩ := Option.ne_none_iff_exists'.1 hbc
    exact Running.of_place ⟨.stored, bc, rfl, .inl rfl, hb, (a bc hb).1⟩
  | failed line _ _ hc hp ih =>
    exact ih.same rfl (parseSource_compiled ih.base.tab hp).1 (fun S hs => parseSource_defs hs hp) rfl rfl rfl
  | @typed vm st bc idx line _ _ hc hp hi ih =>
    obtain ⟨hg, -, hk⟩ := parseSource_compiled ih.base.tab hp
    have hk := hk bc rfl
    have hcomp := compiled_comp hc
    refine ⟨⟨hg.tab, ih.base.noIndex, ih.base.noCode, fun h => (by cases h), fun hs => ?_, fun _ hs => ?_⟩, fun hG _ hl => ?_⟩
    · obtain ⟨k1, k2, -⟩ := ih.base.refs hs
      obtain ⟨k2, k3, -⟩ := k2 rfl
      refine ⟨k1, fun h => (by cases h), fun _ => ⟨ih.base.noIndex (ih.base.noCode hs), fun h => (by cases h), k1, ?_, ?_⟩⟩
      · intro c hc
        have : c ∈ vm.retstack := hc
        rw [k2] at this; cases this
      · intro c hc
        have : c ∈ vm.forStack := hc
        rw [k3] at this; cases this
    · rcases hcomp with h | h
      · exact absurd h hs
      · exact h
    · obtain ⟨o, -⟩ := ih.ordered hG hcomp (Nat.le_trans hg.grows.length hl)
      refine ⟨o.same rfl hg.grows (parseSource_defs o.defs hp) (fun _ b hb => ?_) (fun cs hcs => ?_) (fun f hf => ?_), fun _ => ?_⟩
      · cases hb; exact ⟨hk.pieces, hk.fits⟩
      · obtain ⟨r, b, k1, k2, kb, k3⟩ := o.rets cs hcs
        rcases k2 with rfl | ⟨k2, -⟩
        · exact ⟨.stored, b, k1, .inl rfl, kb, k3.types (fun _ _ h => h.grow hg.grows)⟩
        · cases k2
      · obtain ⟨r, b, k1, k2, kb, k3⟩ := o.fors f hf
        rcases k2 with rfl | ⟨k2, -⟩
        · exact ⟨.stored, b, k1, .inl rfl, kb, k3.types (fun _ _ h => h.grow hg.grows)⟩
        · cases k2
      · exact Running.of_place ⟨.immediate, bc, rfl, .inr ⟨rfl, rfl⟩, rfl, hk.pieces⟩
  | @cont vm r b hst hmay hr hb hu ih =>
    have hrs : r = .stored := by
      rcases state_stopped hst with h0 | h0
      · rw [h0] at hr; cases hr
      · rw [h0] at hr; exact (Option.some.inj hr).symm
    subst hrs
    have hb' : vm.stored.bcode = some b := hb
    have hsrc : vm.stored.source ≠ none := fun hn => by rw [ih.base.noCode hn] at hb'; cases hb'
    refine ⟨⟨ih.base.tab, ih.base.noIndex, ih.base.noCode, fun _ => hsrc, fun h => absurd h hsrc, fun _ _ => by simp [startAt, hb']⟩, fun hG _ hl => ?_⟩
    obtain ⟨o, -⟩ := ih.ordered hG (.inr (by simp [hb'])) hl
    refine ⟨o.same rfl (Grows.refl _) o.defs (fun h => (by cases h)) (fun cs hcs => ?_) (fun f hf => ?_), fun _ => ?_⟩
    · exact (o.rets cs hcs).same rfl (Grows.refl _) (fun _ _ h => h.idle) (fun h => by cases h)
    · exact (o.fors f hf).same rfl (Grows.refl _) (fun _ _ h => h.idle) (fun h => by cases h)
    · refine Running.of_place ⟨.stored, b, ?_, .inl rfl, hb', ?_⟩
      · simp only [startAt, resumeAt]
        split <;> exact hr
      · have hp := (o.stored _ hb').1
        simp only [startAt, resumeAt]
        rcases hm hG vm hmay _ hb' with h | ⟨l, h⟩
        · rw [h]; exact hp.after h rfl
        · rw [h]; exact hp.line h
  | @resume vm b _ hcs hb hu _ ih =>
    have hsrc := ih.base.noRun rfl
    obtain ⟨w, s, hw⟩ := recordStopped_frame ⟨none, true⟩ vm
    have hf : Spec.finish .program ⟨none, true⟩ vm = { vm with world := w, stoppedProgram := s } := by
      unfold Spec.finish
      simp only [hw]
      exact if_neg (fun h => by cases h.1)
    rw [hf]
    refine ⟨⟨ih.base.tab, ih.base.noIndex, ih.base.noCode, fun _ => hsrc, fun h => absurd h hsrc, fun _ _ => by simp [startAt, hb]⟩, fun hG _ hl => ?_⟩
    obtain ⟨o, hr⟩ := ih.ordered hG (.inr (by simp [hb])) hl
    refine ⟨o.same rfl (Grows.refl _) o.defs (fun h => (by cases h)) (fun cs hcs => ?_) (fun f hf => ?_), fun _ => ?_⟩
    · exact (o.rets cs hcs).same rfl (Grows.refl _) (fun _ _ h => h) (fun h => by cases h)
    · exact (o.fors f hf).same rfl (Grows.refl _) (fun _ _ h => h) (fun h => by cases h)
    · by_cases hs : b.inst[vm.cs.pc]? = some .stop
      · have hp := (o.stored _ hb).1.after hs rfl
        refine Running.of_place ⟨.stored, b, ?_, .inl rfl, hb, ?_⟩
        · simp only [startAt, resumeAt, hs]; exact hcs
        · simp only [startAt, resumeAt, hs]
          exact hp
      · have he : resumeAt b vm.cs = vm.cs := by
          unfold resumeAt
          split
          · rename_i h; exact absurd h hs
          · rfl
        rw [he]
        have hr := hr (fun h => by cases h)
        have hmv : Moved vm (startAt vm.cs { vm with world := w, stoppedProgram := s }) := ⟨rfl, rfl, Grows.refl _, rfl, _root_.id⟩
        exact RunAt.move hr hmv
  | @step ph vm vm' env hp _ hat _ he ih =>
    obtain ⟨i, hat⟩ := hat
    have hmv : Moved vm vm' := by
      have h := exec_moved env i vm
      rw [V.execute_at env hat] at he
      cases hx : V.exec env i vm with
      | halt h => rw [hx] at he; cases he
      | err e w => rw [hx] at he; cases he
      | ok f w =>
        rw [hx] at he h
        cases f <;> cases he
        · exact ⟨h.stored, h.immediate, h.grows, h.length, h.tab⟩
        · exact h
    have hb := ih.base
    refine ⟨⟨hmv.tab hb.tab, by rw [hmv.stored]; exact hb.noIndex, by rw [hmv.stored]; exact hb.noCode, by rw [hmv.stored]; exact hb.noRun,
      fun hs => ?_, by rw [hmv.stored]; exact hb.ready⟩, fun hG hc hl => ?_⟩
    · have ha := V.execute_away env vm ((hb.refs (by rw [← hmv.stored]; exact hs)).2.2 hp)
      rw [he] at ha
      exact ⟨ha.fn, fun h => absurd h hp, fun _ => ha⟩
    obtain ⟨o, hr⟩ := ih.ordered hG (by unfold Comp at *; rw [← hmv.stored]; exact hc) (by rw [← hmv.length]; exact hl)
    obtain ⟨h1, h2⟩ := execute_flow env o (hr hp) hb.tab (by rw [← hmv.length]; exact hl)
    rw [he] at h1 h2
    exact ⟨h1.1, fun _ => h2⟩
  | @error ph vm vm' e env i hp _ hat _ he ih =>
    obtain ⟨i, hat⟩ := hat
    have hmv : Moved vm vm' := by
      have h := exec_moved env i vm
      rw [V.execute_at env hat] at he
      cases hx : V.exec env i vm with
      | halt h => rw [hx] at he; cases he
      | err e w => rw [hx] at he h; cases he; exact h
      | ok f w =>
        rw [hx] at he
        cases f <;> cases he
    have hb := ih.base
    refine InFlow.finish _ hp ⟨hmv.tab hb.tab, by rw [hmv.stored]; exact hb.noIndex, by rw [hmv.stored]; exact hb.noCode, by rw [hmv.stored]; exact hb.noRun,
      fun hs => ?_, by rw [hmv.stored]; exact hb.ready⟩ (fun hG hc hl => ?_)
    · have ha := V.execute_away env vm ((hb.refs (by rw [← hmv.stored]; exact hs)).2.2 hp)
      rw [he] at ha
      exact ⟨ha.fn, fun h => absurd h hp, fun _ => ha⟩
    obtain ⟨o, hr⟩ := ih.ordered hG (by unfold Comp at *; rw [← hmv.stored]; exact hc) (by rw [← hmv.length]; exact hl)
    obtain ⟨h1, h2⟩ := execute_flow env o (hr hp) hb.tab (by rw [← hmv.length]; exact hl)
    rw [he] at h1
    exact h1.1
  | finish i hp _ _ ih => exact InFlow.finish _ hp ih.base (fun hG hc hl => (ih.ordered hG hc hl).1)

/-- Execution stays within the structure of the compiled code, if CONT is only used between statements. -/
theorem state_flow {may : Cmd → VM → Prop} (hm : ∀ vm, may .cont vm → StoppedBetween vm) {ph : Phase} {vm : VM}
    (h : State may ph vm) : InFlow True ph vm := state_flow_if (fun _ => hm) h

theorem state_base {may : Cmd → VM → Prop} {ph : Phase} {vm : VM} (h : State may ph vm) : Base ph vm :=
  (state_flow_if (G := False) (fun h => h.elim) h).base

/-- Without code there is no index. -/
theorem state_noIndex {may : Cmd → VM → Prop} {ph : Phase} {vm : VM} (h : State may ph vm) :
    vm.stored.bcode = none → vm.stored.index = none := by
  have hfin := finish_stored
  induction h with
  | start kw tb tf world => exact fun _ => rfl
  | world w _ ih => exact ih
  | enter num text _ _ he ih =>
    unfold vmEnterSourceLine at he
    split at he
    · simp at he
    · simp only [Outcome.ok.injEq] at he
      subst he
      exact fun _ => rfl
  | delete num _ ih =>
    unfold vmDeleteSourceLine
    split
    · exact ih
    · split
      · exact ih
      · exact fun _ => rfl
  | new _ ih => exact fun _ => rfl
  | load name c b _ hl ih =>
    unfold vmLoadSource at hl
    split at hl
    · simp at hl
    · simp only [Outcome.ok.injEq, Prod.mk.injEq] at hl
      obtain ⟨-, rfl⟩ := hl
      exact ih
    · simp only [Outcome.ok.injEq, Prod.mk.injEq] at hl
      obtain ⟨-, rfl⟩ := hl
      exact fun _ => rfl
  | renum new old inc _ _ hr ih =>
    obtain ⟨src, w, rfl⟩ := V.renumber_frame hr
    exact ih
  | compile b _ hc ih =>
    unfold ensureProgramCompiled at hc
    split at hc
    · split at hc
      · simp at hc
      · split at hc
        · simp at hc
        · simp only [Outcome.ok.injEq, Prod.mk.injEq] at hc
          obtain ⟨-, rfl⟩ := hc
          exact ih
        · split at hc
          · simp at hc
          · simp only [Outcome.ok.injEq, Prod.mk.injEq] at hc
            obtain ⟨-, rfl⟩ := hc
            exact fun h => by cases h
    · simp only [Outcome.ok.injEq, Prod.mk.injEq] at hc
      obtain ⟨-, rfl⟩ := hc
      exact ih
  | clearValues _ ih => exact ih
  | noImmediate _ ih => exact ih
  | run _ hc hs ih => exact ih
  | failed line _ _ hc hp ih => exact ih
  | typed line _ _ hc hp hi ih => exact ih
  | cont _ _ hr hb _ ih => exact ih
  | @resume vm b _ _ _ _ _ ih =>
    show (Spec.finish .program ⟨none, true⟩ vm).stored.bcode = none → (Spec.finish .program ⟨none, true⟩ vm).stored.index = none
    rw [hfin]; exact ih
  | step env _ _ _ _ he ih =>
    obtain ⟨h2, -⟩ := execute_fixed _ he (.inl rfl)
    rw [h2]; exact ih
  | error env i _ _ _ _ he ih =>
    obtain ⟨h2, -⟩ := execute_fixed _ he (.inr ⟨_, rfl⟩)
    rw [hfin, h2]; exact ih
  | finish i _ _ _ ih => rw [hfin]; exact ih

end LB
