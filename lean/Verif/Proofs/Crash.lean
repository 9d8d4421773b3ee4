import Verif.Proofs.HeldState
import Verif.Proofs.RunEnds
import Verif.Proofs.LineState
import Verif.Spec.Crash
/- When an instruction ends the process. -/
namespace LB
open LB.Spec Code

/-! No name is left without a kind. -/

theorem parseSource_known {src : Source} {st st' : SymTab} {pre : Bool} {r : Option Bcode} (hp : parseSource src st pre = .ok (r, st')) :
    AllSym (fun s => s.kind ≠ .unknown) st' := by
  have key : ∀ t : SymTab, AllSym (fun s => s.kind ≠ .unknown) (symMakeUnknownArray t) := by
    intro t q s hs
    rw [unknownArray_get] at hs
    cases hl : t.psym[q]? with
    | none => rw [hl] at hs; simp at hs
    | some x =>
      rw [hl] at hs
      simp only [Option.map_some, Option.some.injEq] at hs
      split at hs
      · subst hs; simp
      · subst hs; assumption
  unfold parseSource at hp
  split at hp
  · simp only [Outcome.ok.injEq, Prod.mk.injEq] at hp
    rw [← hp.2]; exact key _
  · simp only [Outcome.ok.injEq, Prod.mk.injEq] at hp
    rw [← hp.2]; exact key _
  · cases hp

theorem known_builtin : ∀ s ∈ builtinSymbols, s.kind ≠ .unknown := by decide

theorem known_grows {st st' : SymTab} (h : AllSym (fun s => s.kind ≠ .unknown) st) (hg : Grows st st')
    (hl : st'.psym.length = st.psym.length) : AllSym (fun s => s.kind ≠ .unknown) st' := by
  intro q s hs
  have hq : q < st.psym.length := by rw [← hl]; exact (List.getElem?_eq_some_iff.1 hs).1
  obtain ⟨s', h1, -, -, -, h5⟩ := hg q _ (List.getElem?_eq_getElem hq)
  rw [hs] at h1; cases h1
  rcases h5 with h5 | ⟨-, h5 | h5⟩
  · rw [h5]; exact h q _ (List.getElem?_eq_getElem hq)
  · rw [h5]; simp
  · rw [h5]; simp

theorem known_finish {vm : VM} (h : AllSym (fun s => s.kind ≠ .unknown) vm.st) (ph : Phase) (e : RunEnd) :
    AllSym (fun s => s.kind ≠ .unknown) (Spec.finish ph e vm).st := by
  obtain ⟨w, s, hw⟩ := recordStopped_frame e vm
  unfold Spec.finish
  simp only [hw]
  split <;> exact h

theorem state_known {may : Cmd → VM → Prop} {ph : Phase} {vm : VM} (h : State may ph vm) : AllSym (fun s => s.kind ≠ .unknown) vm.st := by
  induction h with
  | start kw tb tf world => exact allSym_start known_builtin
  | world w _ ih => exact ih
  | enter num text _ _ he ih =>
    unfold vmEnterSourceLine at he
    split at he
    · simp at he
    · simp only [Outcome.ok.injEq] at he
      subst he
      exact ih
  | delete num _ ih =>
    unfold vmDeleteSourceLine
    split
    · exact ih
    · split <;> exact ih
  | @new vm hst ih => exact allSym_fresh known_builtin vm.st
  | load name c b _ hl ih =>
    unfold vmLoadSource at hl
    split at hl
    · simp at hl
    · simp only [Outcome.ok.injEq, Prod.mk.injEq] at hl
      obtain ⟨-, rfl⟩ := hl
      exact ih
    · simp only [Outcome.ok.injEq, Prod.mk.injEq] at hl
      obtain ⟨-, rfl⟩ := hl
      exact ih
  | @renum vm vm' new old inc _ _ hr ih =>
    unfold renumber at hr
    split at hr
    · simp only [Outcome.ok.injEq] at hr; subst hr; exact ih
    · split at hr
      · simp at hr
      · simp only [Outcome.ok.injEq] at hr; subst hr; exact ih
      · split at hr
        · simp at hr
        · simp only [Outcome.ok.injEq] at hr; subst hr
          split <;> exact ih
  | compile b _ hc ih =>
    unfold ensureProgramCompiled at hc
    split at hc
    · split at hc
      · simp at hc
      · split at hc
        · simp at hc
        · rename_i st hp
          simp only [Outcome.ok.injEq, Prod.mk.injEq] at hc
          obtain ⟨-, rfl⟩ := hc
          exact parseSource_known hp
        · rename_i bc st hp
          split at hc
          · simp at hc
          · simp only [Outcome.ok.injEq, Prod.mk.injEq] at hc
            obtain ⟨-, rfl⟩ := hc
            exact parseSource_known hp
    · simp only [Outcome.ok.injEq, Prod.mk.injEq] at hc
      obtain ⟨-, rfl⟩ := hc
      exact ih
  | @clearValues vm _ ih => exact known_grows ih (grows_of_values (heads_clear vm.st)) (by simp [vmClearValues, clearSymbolTableValues])
  | noImmediate _ ih => exact ih
  | run _ hc hs ih => exact ih
  | failed line hst _ hc hp ih => exact parseSource_known hp
  | typed line hst _ hc hp hi ih => exact parseSource_known hp
  | cont _ _ hr hb _ ih => exact ih
  | @resume vm b _ hcs hb hu _ ih => exact known_finish ih .program _
  | @step ph vm vm' env hp hst hat _ he ih =>
    obtain ⟨i, hat⟩ := hat
    have hm := execute_moved hat (.inl he)
    exact known_grows ih hm.grows hm.length
  | @error ph vm vm' e env i hp hst hat _ he ih =>
    obtain ⟨j, hat⟩ := hat
    have hm := execute_moved hat (.inr ⟨e, he⟩)
    exact known_finish (known_grows ih hm.grows hm.length) ph _
  | finish i hp _ _ ih => exact known_finish ih _ _

/-! The operand of the instruction. -/

theorem running_fits {ph : Phase} {vm : VM} (o : Ordered ph vm) (hr : Running ph vm) {i : Inst} (hat : At vm i) : Fits vm.st i := by
  obtain ⟨r, b, h1, h2, h3⟩ := hat
  rcases hr with ⟨r', b', k1, k2, k3, -⟩ | ⟨k0, d, e, hh, r', b', k1, k2, -⟩
  · rw [h1] at k1; cases k1
    rcases k2 with rfl | ⟨hp, rfl⟩
    · exact (o.stored b h2).2 i (List.mem_of_getElem? h3)
    · exact (o.imm hp b h2).2 i (List.mem_of_getElem? h3)
  · rw [h1] at k0; cases k0
    have : vm.defCode.bcode = some b := h2
    rw [k1] at this; cases this
    exact k2 i (List.mem_of_getElem? h3)

/-- The instructions that use the input line. -/
def usesInput : Inst → Bool
  | .inputNum _ _ | .inputStr _ _ | .inputSep | .inputEnd => true
  | _ => false

theorem sizes_isExpr {e : List Inst} {h hh : Nat × Nat} (hs : sizes e h = some hh) : ∀ i ∈ e, isExpr i = true := by
  induction e generalizing h with
  | nil => intro i hi; cases hi
  | cons j e ih =>
    simp only [sizes] at hs
    cases he : eff j h with
    | none => rw [he] at hs; cases hs
    | some k =>
      rw [he] at hs
      intro i hi
      rcases List.mem_cons.1 hi with rfl | hi
      · exact (V.eff_some he).1
      · exact ih hs i hi

theorem running_input {ph : Phase} {vm : VM} (hr : Running ph vm) {i : Inst} (hat : At vm i) (hi : usesInput i = true) :
    0 ≤ vm.inp ∧ vm.inp ≤ vm.input.length := by
  have asked : ∀ {T code}, Asked T code (V.ipOf vm) → 0 ≤ vm.inp ∧ vm.inp ≤ vm.input.length := by
    rintro T code ⟨p, hp, -⟩
    unfold V.ipOf at hp
    split at hp
    · assumption
    · cases hp
  have hx : isExpr i = false := by cases i <;> first | rfl | cases hi
  obtain ⟨r, b, h1, h2, h3⟩ := hat
  rcases hr with ⟨r', b', k1, k2, k3, k4⟩ | ⟨k0, d, e, hh, r', b', k1, k2, k3, k4, -⟩
  · rw [h1] at k1; cases k1
    rw [h2] at k3; cases k3
    obtain ⟨l, rest, -, -, hd, -⟩ := k4.head h3
    cases hd with
    | expr he => rw [(V.eff_some he).1] at hx; cases hx
    | plain hp => exfalso; cases i <;> first | exact (Bool.false_ne_true hi).elim | exact (Bool.false_ne_true hp).elim
    | on ho => rcases ho with rfl | rfl <;> cases hi
    | def_ => cases hi
    | input => cases hi
    | item hp => exact asked hp
    | sep hp => exact asked hp
    | inputEnd hp => exact asked hp
  · exfalso
    rw [h1] at k0; cases k0
    have : vm.defCode.bcode = some b := h2
    rw [k1] at this; cases this
    have hm : i ∈ e ++ [.endDef] := by
      rw [← k3]
      have : (b.inst.drop vm.cs.pc)[0]? = some i := by rw [List.getElem?_drop]; exact h3
      exact List.mem_of_getElem? this
    rcases List.mem_append.1 hm with hm | hm
    · rw [sizes_isExpr k4 i hm] at hx; cases hx
    · simp only [List.mem_cons, List.not_mem_nil, or_false] at hm
      subst hm; cases hi

/-! What the instruction needs of the symbols. -/

theorem ident_at {st : SymTab} {id : Nat} {f : Symbol → Prop} (ht : Tab st) (hn : st.psym.length ≤ 65536) (h : Ident st id f) :
    ∃ s, st.psym[id]? = some s ∧ f s := by
  obtain ⟨q, s, h1, h2, h3⟩ := h
  have h4 := ht.ids q s h1
  have hq : q < st.psym.length := (List.getElem?_eq_some_iff.1 h1).1
  have : q = id := by rw [← h2, h4]; omega
  exact ⟨s, this ▸ h1, h3⟩

namespace V

theorem isVar_of {t : Ty} {s : Symbol} (h : IsVar t s) : isVar s t = true := by simp [isVar, h.1, h.2]
theorem isArr_of {t : Ty} {s : Symbol} (h : IsArr t s) : isArr s t = true := by simp [isArr, h.1, h.2]

/-- An array and its subscripts. -/
theorem fair_of {vm : VM} {i : Inst} {id n : Nat} {s : Symbol} (hi : indexes i = some (id, n)) (hs : vm.st.psym[id]? = some s)
    (hk : s.kind = .array) {vm' : VM} (hv : subscriptsOf vm i n = vm'.stack.take n) : Fair (Misuse vm i) vm' n := by
  by_cases h0 : n = 0 ∨ 2 < n
  · exact .inl (.inr (.inl ⟨id, n, s, hi, hs, hk, h0⟩))
  by_cases hx : ∃ x ∈ subscriptsOf vm i n, IsCount x 4294967295
  · exact .inl (.inr (.inr ⟨id, n, s, hi, hs, hk, .inl hx⟩))
  · refine .inr ⟨by simp only [maxDimensions]; omega, fun x hm hc => hx ⟨x, ?_, hc⟩⟩
    rw [hv]; exact hm

theorem celled_num {vm : VM} {i : Inst} {id n : Nat} {s : Symbol} (hi : indexes i = some (id, n)) (hs : vm.st.psym[id]? = some s)
    (ha : IsArr .num s) : Good (Misuse vm i) vm id (Celled numField) := by
  by_cases hx : ∃ a, s.numarr = some a ∧ a.val = []
  · exact .inl (.inr (.inr ⟨id, n, s, hi, hs, ha.1, .inr (.inl hx)⟩))
  · exact .inr ⟨s, hs, isArr_of ha, fun a h1 h2 => hx ⟨a, h1, h2⟩⟩

theorem celled_str {vm : VM} {i : Inst} {id n : Nat} {s : Symbol} (hi : indexes i = some (id, n)) (hs : vm.st.psym[id]? = some s)
    (ha : IsArr .str s) : Good (Misuse vm i) vm id (Celled strField) := by
  by_cases hx : ∃ a, s.strarr = some a ∧ a.val = []
  · exact .inl (.inr (.inr ⟨id, n, s, hi, hs, ha.1, .inr (.inr hx)⟩))
  · exact .inr ⟨s, hs, isArr_of ha, fun a h1 h2 => hx ⟨a, h1, h2⟩⟩

/-- A function can be called. -/
theorem callable_of {ph : Phase} {vm : VM} (o : Ordered ph vm) (ht : Tab vm.st) (hn : vm.st.psym.length ≤ 65536) (H : Prop) {id : Nat} {s : Symbol}
    (hs : vm.st.psym[id]? = some s) (hk : s.kind = .def_) : Callable H vm id := by
  refine .inr ⟨s, hs, hk, fun d p hd hp => ?_⟩
  obtain ⟨p', h1, h2⟩ := ident_at ht hn ((o.defs id s d hs hd).fits _ (List.mem_of_getElem? hp))
  exact ⟨p', h1, h2.1, h2.2⟩

/-- What READ and INPUT assign to. -/
theorem target_num {vm : VM} {i : Inst} {id n : Nat} {s : Symbol} (hw : writesTo i = some id) (hi : indexes i = some (id, n))
    (hv : subscriptsOf vm i n = vm.stack.take n)
    (hs : vm.st.psym[id]? = some s) (h : n = 0 ∧ IsVar .num s ∨ IsBuiltin s ∨ IsArr .num s) : Target (Misuse vm i) numField vm id n := by
  rcases h with ⟨h0, h⟩ | h | h
  · exact ⟨fun _ => .inr ⟨s, hs, isVar_of h⟩, fun hn => absurd h0 hn⟩
  · have hm : Misuse vm i := .inl ⟨id, s, hw, hs, h⟩
    exact ⟨fun _ => .inl hm, fun _ => ⟨.inl hm, .inl hm⟩⟩
  · refine ⟨fun h0 => .inl (.inr (.inl ⟨id, n, s, hi, hs, h.1, .inl h0⟩)), fun _ => ⟨celled_num hi hs h, fair_of hi hs h.1 hv⟩⟩

theorem target_str {vm : VM} {i : Inst} {id n : Nat} {s : Symbol} (hw : writesTo i = some id) (hi : indexes i = some (id, n))
    (hv : subscriptsOf vm i n = vm.stack.take n)
    (hs : vm.st.psym[id]? = some s) (h : n = 0 ∧ IsVar .str s ∨ IsBuiltin s ∨ IsArr .str s) : Target (Misuse vm i) strField vm id n := by
  rcases h with ⟨h0, h⟩ | h | h
  · exact ⟨fun _ => .inr ⟨s, hs, isVar_of h⟩, fun hn => absurd h0 hn⟩
  · have hm : Misuse vm i := .inl ⟨id, s, hw, hs, h⟩
    exact ⟨fun _ => .inl hm, fun _ => ⟨.inl hm, .inl hm⟩⟩
  · refine ⟨fun h0 => .inl (.inr (.inl ⟨id, n, s, hi, hs, h.1, .inl h0⟩)), fun _ => ⟨celled_str hi hs h, fair_of hi hs h.1 hv⟩⟩

theorem data_source {vm : VM} {i : Inst} (hat : At vm i) : ∃ a, dataSource vm = .ok a := by
  obtain ⟨r, b, h1, h2, h3⟩ := hat
  unfold dataSource
  split
  · rename_i hc
    rw [h1] at hc; cases hc
    have : vm.immediate.bcode = some b := h2
    simp only [this]
    split <;> exact ⟨_, rfl⟩
  · exact ⟨_, rfl⟩

theorem suits_misuse {ph : Phase} {vm : VM} (o : Ordered ph vm) (hr : Running ph vm) (ht : Tab vm.st) (hn : vm.st.psym.length ≤ 65536)
    (hu : AllSym (fun s => s.kind ≠ .unknown) vm.st) (hl : LineState vm) {i : Inst} (hat : At vm i) : Suits (Misuse vm i) vm i := by
  have hf := running_fits o hr hat
  have hin := running_input hr hat
  have hd := data_source hat
  cases i <;> simp only [Suits] <;> simp only [Fits] at hf
  case getSimpleNum id => exact .inr ((ident_at ht hn hf).imp (fun s h => ⟨h.1, isVar_of h.2⟩))
  case getSimpleStr id => exact .inr ((ident_at ht hn hf).imp (fun s h => ⟨h.1, isVar_of h.2⟩))
  case setSimpleNum id =>
    obtain ⟨s, h1, h2 | h2⟩ := ident_at ht hn hf
    · exact .inr ⟨s, h1, isVar_of h2⟩
    · exact .inl (.inl ⟨id, s, rfl, h1, h2⟩)
  case setSimpleStr id =>
    obtain ⟨s, h1, h2 | h2⟩ := ident_at ht hn hf
    · exact .inr ⟨s, h1, isVar_of h2⟩
    · exact .inl (.inl ⟨id, s, rfl, h1, h2⟩)
  case dimNum id n =>
    obtain ⟨s, h1, h2⟩ := ident_at ht hn hf
    exact ⟨.inr ⟨s, h1, isArr_of h2⟩, fair_of rfl h1 h2.1 rfl⟩
  case dimStr id n =>
    obtain ⟨s, h1, h2⟩ := ident_at ht hn hf
    exact ⟨.inr ⟨s, h1, isArr_of h2⟩, fair_of rfl h1 h2.1 rfl⟩
  case setArrayNum id n =>
    obtain ⟨s, h1, h2⟩ := ident_at ht hn hf
    refine ⟨celled_num rfl h1 h2, fun x r hx => fair_of rfl h1 h2.1 ?_⟩
    simp only [subscriptsOf, hx, List.drop_succ_cons, List.drop_zero]
  case setArrayStr id n =>
    obtain ⟨s, h1, h2⟩ := ident_at ht hn hf
    exact ⟨celled_str rfl h1 h2, fair_of rfl h1 h2.1 rfl⟩
  case getParenNum id n =>
    obtain ⟨s, h1, h2, h3⟩ := ident_at ht hn hf
    refine ⟨.inr ⟨s, h1, h3, h2.resolve_left (hu _ s h1)⟩, ?_, ?_⟩
    · intro s' hs' hk
      rw [h1] at hs'; cases hs'
      exact ⟨celled_num rfl h1 ⟨hk, h3⟩, fair_of rfl h1 hk rfl⟩
    · intro s' hs' hk
      exact callable_of o ht hn _ hs' hk
  case getParenStr id n =>
    obtain ⟨s, h1, h2, h3⟩ := ident_at ht hn hf
    refine ⟨.inr ⟨s, h1, h3, h2.resolve_left (hu _ s h1)⟩, ?_, ?_⟩
    · intro s' hs' hk
      rw [h1] at hs'; cases hs'
      exact ⟨celled_str rfl h1 ⟨hk, h3⟩, fair_of rfl h1 hk rfl⟩
    · intro s' hs' hk
      exact callable_of o ht hn _ hs' hk
  case for_ id => exact ⟨.inr ((ident_at ht hn hf).imp (fun s h => ⟨h.1, isVar_of h.2⟩)), .inr (hl.online hn hr hat rfl (by simp))⟩
  case nextVar id => exact .inr (hl.online hn hr hat rfl (by simp))
  case nextImp => exact .inr (hl.online hn hr hat rfl (by simp))
  case def_ id n => exact .inr ((ident_at ht hn hf.2).imp (fun s h => ⟨h.1, h.2⟩))
  case inputNum id n =>
    obtain ⟨s, h1, h2⟩ := ident_at ht hn hf
    exact ⟨target_num rfl rfl rfl h1 h2, .inr (hin rfl)⟩
  case inputStr id n =>
    obtain ⟨s, h1, h2⟩ := ident_at ht hn hf
    exact ⟨target_str rfl rfl rfl h1 h2, .inr (hin rfl)⟩
  case inputLine id n =>
    obtain ⟨s, h1, h2⟩ := ident_at ht hn hf
    exact target_str rfl rfl rfl h1 h2
  case readNum id n =>
    obtain ⟨s, h1, h2⟩ := ident_at ht hn hf
    exact ⟨target_num rfl rfl rfl h1 h2, .inr hd⟩
  case readStr id n =>
    obtain ⟨s, h1, h2⟩ := ident_at ht hn hf
    exact ⟨target_str rfl rfl rfl h1 h2, .inr hd⟩

/-! The other instructions. -/

/-- The process does not end. -/
def Never {α : Type} (x : VmM α) : Prop := ∀ vm h, x vm ≠ .halt h

theorem Never.bind {α β : Type} {x : VmM α} {f : α → VmM β} (hx : Never x) (hf : ∀ a, Never (f a)) : Never (x >>= f) := by
  intro vm h
  simp only [bind_apply]
  cases he : x vm with
  | ok a vm' => exact hf a vm' h
  | err e vm' => simp
  | halt h' => exact absurd he (hx vm h')

theorem Never.pure {α : Type} (a : α) : Never (pure a : VmM α) := fun _ _ h => by cases h
theorem Never.get : Never get := fun _ _ h => by cases h
theorem Never.modify (f : VM → VM) : Never (modify f) := fun _ _ h => by cases h
theorem Never.fail {α : Type} (e : RunError) : Never (fail e : VmM α) := fun _ _ h => by cases h
theorem Never.check (b : Bool) (e : RunError) : Never (check b e) := by
  intro vm h; rw [check_apply]; split <;> simp
theorem Never.when_ {b : Bool} {x : VmM Unit} (hx : Never x) : Never (when_ b x) := by
  intro vm h; rw [when_apply]; split
  · exact hx vm h
  · simp
theorem Never.pop : Never pop := by intro vm h; unfold V.pop; split <;> simp
theorem Never.popStr : Never popStr := by intro vm h; unfold V.popStr; split <;> simp
theorem Never.push (x : Dbl) : Never (push x) := by intro vm h; unfold V.push; split <;> simp
theorem Never.pushStr (x : CStr) : Never (pushStr x) := by intro vm h; unfold V.pushStr; split <;> simp
theorem Never.ite {α : Type} {p : Prop} [Decidable p] {x y : VmM α} (hx : Never x) (hy : Never y) : Never (if p then x else y) := by
  split <;> assumption
theorem Never.brk {x : VmM Unit} (hx : Never x) : Never (brk x) := hx.bind (fun _ => .pure _)
theorem Never.ret {x : VmM Unit} (hx : Never x) : Never (ret x) := hx.bind (fun _ => .pure _)
theorem Never.out (s : CStr) : Never (out s) := .modify _
theorem Never.findBasicLine (n : Nat) : Never (findBasicLine n) := by
  intro vm h; unfold V.findBasicLine; split <;> simp
theorem Never.goToBasicLine (n : Nat) : Never (goToBasicLine n) := (Never.findBasicLine n).bind (fun _ => .modify _)
theorem Never.pushReturn (n : Nat) : Never (pushReturn n) := by intro vm h; unfold V.pushReturn; split <;> simp
theorem Never.popReturn : Never popReturn := by intro vm h; unfold V.popReturn; split <;> simp

macro "never" : tactic => `(tactic| repeat' first
  | exact Never.pop | exact Never.popStr | exact Never.push _ | exact Never.pushStr _ | exact Never.pure _ | exact Never.get
  | exact Never.modify _ | exact Never.fail _ | exact Never.check _ _ | exact Never.out _ | exact Never.goToBasicLine _
  | exact Never.findBasicLine _ | exact Never.pushReturn _ | exact Never.popReturn
  | refine Never.brk ?_ | refine Never.ret ?_ | refine Never.when_ ?_ | refine Never.ite ?_ ?_
  | refine Never.bind ?_ (fun _ => ?_))

theorem never_unsigned : Never popUnsigned := by unfold popUnsigned; never
theorem never_logic : Never popLogic := by unfold popLogic; never
theorem never_outCol (s : CStr) (n : Nat) : Never (outCol s n) := by unfold outCol; never
theorem never_clock (env : Env) : Never (readClock env) := by unfold readClock; never

theorem never_builtin (env : Env) (f : Bi) : Never (builtinOp env f) := by
  cases f <;> simp only [builtinOp, leftFn, rightFn, midFn, valFn] <;> never
  all_goals first | exact never_unsigned | exact never_clock env | skip
  split <;> never

theorem never_rnd (env : Env) : Never (rndStep env) := by unfold rndStep; never

/-- The instructions that need the running code, the input line or the text of the program. -/
def located : Inst → Bool
  | .end_ | .onGoto _ | .onGosub _ | .ifThen | .ifElse | .else_ | .inputEnd | .inputSep | .sourceLine _ => true
  | _ => false

theorem never_plain (env : Env) {i : Inst} (h1 : symbolic i = false) (h2 : located i = false) : Never (exec env i) := by
  cases i with
  | bi f =>
    by_cases hf : f = .rnd
    · subst hf; exact never_rnd env
    · have : exec env (.bi f) = brk (builtinOp env f) := by cases f <;> first | exact absurd rfl hf | rfl
      rw [this]; exact (never_builtin env f).brk
  | _ =>
    first
    | (cases h1; done)
    | (cases h2; done)
    | (simp only [exec, pushLogic, compareStrings, printSpc, printTab, printComma, printNum, printStr, inputBuf, readInputLine]
       never
       all_goals first | exact never_unsigned | exact never_logic | exact never_outCol _ _ | exact never_clock env)

/-- The running code can be found again. -/
theorem curBcode_same {vm vm' : VM} {i : Inst} (hat : At vm i) (h1 : vm'.cs = vm.cs) (h2 : ∀ r, codeOf vm' r = codeOf vm r) :
    ∃ b, curBcode vm' = .ok b vm' := by
  obtain ⟨r, b, k1, k2, -⟩ := hat
  refine ⟨b, ?_⟩
  simp [curBcode, h1, k1, h2, k2]

theorem located_runs (env : Env) {vm : VM} {i : Inst} (hat : At vm i) (hi : located i = true)
    (hin : usesInput i = true → 0 ≤ vm.inp ∧ vm.inp ≤ vm.input.length)
    (hln : ∀ l, i = .sourceLine l → ∃ r src, vm.cs.code = some r ∧ (codeOf vm r).source = some src ∧ l < src.lines.length) (h : Halt) :
    exec env i vm ≠ .halt h := by
  have skip : ∀ vm' p, vm'.cs = vm.cs → (∀ r, codeOf vm' r = codeOf vm r) → ∀ h, skipTo p vm' ≠ .halt h := by
    intro vm' p h1 h2 h
    obtain ⟨b, hb⟩ := curBcode_same hat h1 h2
    simp [skipTo, bind_apply, hb, setPc]
  have on : ∀ n g h, onStatement n g vm ≠ .halt h := by
    intro n g h
    unfold onStatement
    simp only [bind_apply]
    cases hp : pop vm with
    | halt h' => exact absurd hp (Never.pop vm h')
    | err e w => simp
    | ok x w =>
      have hw : w.cs = vm.cs ∧ ∀ r, codeOf w r = codeOf vm r := by
        unfold pop at hp
        split at hp
        · cases hp
        · cases hp; exact ⟨rfl, fun r => by cases r <;> rfl⟩
      simp only
      cases hc : check (Dbl.ne x (Dbl.floor x)) RunError.onInvalid w with
      | halt h' => exact absurd hc (Never.check _ _ w h')
      | err e w => simp
      | ok u w' =>
        have : w' = w := by
          rw [check_apply] at hc
          split at hc
          · cases hc
          · cases hc; rfl
        subst this
        simp only [get_apply]
        split
        · exact Never.modify _ _ _
        · obtain ⟨b, hb⟩ := curBcode_same hat hw.1 hw.2
          simp only [bind_apply, hb]
          have key : ∀ o : Option Inst, Never (match o with
              | some (.onLine l) => do
                when_ g (pushReturn (w'.cs.pc + n + 1))
                goToBasicLine l
              | _ => fail RunError.onLineExpected) := by
            intro o
            split
            · rename_i l
              exact Never.bind (Never.when_ (Never.pushReturn _)) (fun _ => Never.goToBasicLine l)
            · exact Never.fail _
          exact key _ _ _
  have rest : usesInput i = true → inputRest vm = .ok (vm.input.drop vm.inp.toNat) vm := by
    intro hu
    have := hin hu
    unfold inputRest
    rw [if_neg (by omega)]
  cases i <;> first | (cases hi; done) | skip
  case end_ =>
    obtain ⟨b, hb⟩ := curBcode_same hat rfl (fun _ => rfl)
    simp [exec, ret_apply, bind_apply, hb, setPc]
  case onGoto n =>
    simp only [exec, ret_apply]
    have := on n false
    cases hx : onStatement n false vm with
    | halt h' => exact absurd hx (this h')
    | _ => simp
  case onGosub n =>
    simp only [exec, ret_apply]
    have := on n true
    cases hx : onStatement n true vm with
    | halt h' => exact absurd hx (this h')
    | _ => simp
  case else_ =>
    simp only [exec, ret_apply]
    cases hx : skipTo Inst.isSourceLine vm with
    | halt h' => exact absurd hx (skip vm _ rfl (fun _ => rfl) h')
    | _ => simp
  case ifThen =>
    simp only [exec, bind_apply]
    unfold pop
    cases hs : vm.stack with
    | nil => simp
    | cons x r =>
      simp only
      split
      · simp only [ret_apply]
        cases hx : skipTo Inst.isSourceLine { vm with stack := r } with
        | halt h' => exact absurd hx (skip { vm with stack := r } _ rfl (fun r => by cases r <;> rfl) h')
        | _ => simp
      · exact Never.pure _ _ _
  case ifElse =>
    simp only [exec, bind_apply]
    unfold pop
    cases hs : vm.stack with
    | nil => simp
    | cons x r =>
      simp only
      split
      · simp only [brk_apply]
        cases hx : skipTo isElse { vm with stack := r } with
        | halt h' => exact absurd hx (skip { vm with stack := r } _ rfl (fun r => by cases r <;> rfl) h')
        | _ => simp
      · exact Never.pure _ _ _
  case sourceLine l =>
    obtain ⟨r, src, h1, h2, h3⟩ := hln l rfl
    simp only [exec, brk_apply, sourceLineInst, bind_apply, modify_apply, get_apply, when_apply]
    cases vm.traceBasic with
    | false => simp
    | true =>
      cases r <;> (simp only [codeOf] at h2; simp [curSource, h1, h2, codeOf, sourceLinenum, List.getElem?_eq_getElem h3, lift, pure_apply, bind_apply, out, modify_apply])
  case inputEnd =>
    simp only [exec, brk_apply, inputEnd, bind_apply, rest rfl]
    simp only [advance, modify_apply]
    generalize (!(List.dropWhile isEndBlank (List.drop vm.inp.toNat vm.input)).isEmpty) = b
    cases b
    · simp [when_apply]
    · simp [when_apply, out]
  case inputSep =>
    simp only [exec, inputSep, bind_apply, rest rfl]
    have key : ∀ o : CStr, Never (match o with
        | ',' :: _ => brk (advance 1)
        | _ => inputAgain "* More input items are expected *\n") := by
      intro o
      split
      · exact (Never.modify _).brk
      · exact Never.bind (Never.out _) (fun _ => Never.bind (Never.modify _) (fun _ => Never.pure _))
    exact key _ _ _

/-- An instruction only ends the process if it is misused. -/
theorem execute_halts {ph : Phase} {vm : VM} (o : Ordered ph vm) (hr : Running ph vm) (ht : Tab vm.st) (hn : vm.st.psym.length ≤ 65536)
    (hu : AllSym (fun s => s.kind ≠ .unknown) vm.st) (hk : Kept vm) (hls : LineState vm)
    {env : Env} {i : Inst} (hat : At vm i) {h : Halt} (he : execute env vm = .halt h) : Misuse vm i := by
  rw [execute_at env hat] at he
  have hx : ∃ h', exec env i vm = .halt h' := by
    cases hx : exec env i vm with
    | halt h' => exact ⟨h', rfl⟩
    | err e w => rw [hx] at he; cases he
    | ok f w => rw [hx] at he; cases f <;> cases he
  obtain ⟨h', hx⟩ := hx
  by_cases hs : symbolic i = true
  · exact (sat_symbolic env hs hk hat (suits_misuse o hr ht hn hu hls hat)).halts hx
  · by_cases hl : located i = true
    · exact absurd hx (located_runs env hat hl (running_input hr hat) (fun l k => hls.reached hr (k ▸ hat)) h')
    · exact absurd hx (never_plain env (by simpa using hs) (by simpa using hl) vm h')

end V

/-! Runs. -/

theorem state_running {may : Cmd → VM → Prop} (hm : ∀ vm, may .cont vm → StoppedBetween vm) {ph : Phase} {vm : VM}
    (h : State may ph vm) (hp : ph ≠ .idle) (hn : vm.st.psym.length ≤ 65536) : Ordered ph vm ∧ Running ph vm := by
  have hfl := state_flow hm h
  have hc : Comp vm := by
    by_cases hs : vm.stored.source = none
    · exact .inl hs
    · exact .inr (hfl.base.ready hp hs)
  obtain ⟨o, hr⟩ := hfl.ordered trivial hc hn
  exact ⟨o, hr hp⟩

theorem curUsed_runs {ph : Phase} {vm : VM} (h : Running ph vm) (x : Halt) : curUsed vm ≠ .halt x := by
  have : ∃ r b, vm.cs.code = some r ∧ (V.codeOf vm r).bcode = some b := by
    rcases h with ⟨r, b, h1, -, h2, -⟩ | ⟨h1, d, e, hh, r, b, h2, -⟩
    · exact ⟨r, b, h1, h2⟩
    · exact ⟨.def_, d, h1, h2⟩
  obtain ⟨r, b, h1, h2⟩ := this
  simp [curUsed, V.curBcode, h1, h2]

theorem index_total {src : Source} {st st' : SymTab} {pre : Bool} {bc : Bcode} (ht : Tab st)
    (hp : parseSource src st pre = .ok (some bc, st')) : ∃ idx, bcodeIndex bc src = .ok idx := by
  refine bcodeIndex_total (fun l hl => ?_)
  have h1 := ((parseSource_compiled ht hp).2.2 bc rfl).lines
  have h2 : l ∈ bc.inst.filterMap lineOf := List.mem_filterMap.2 ⟨_, hl, rfl⟩
  rw [h1] at h2
  exact List.mem_range.1 h2

/-- Compiling the program ends the process in the compiler. -/
theorem compile_halts {may : Cmd → VM → Prop} {ph : Phase} {vm : VM} (h : State may ph vm) {x : Halt} (hx : ensureProgramCompiled vm = .halt x) :
    ∃ src, vm.stored.source = some src ∧ ∃ st pre, Tab st ∧ (parseSource src st pre = .halt x ∨
      ∃ bc st', parseSource src st pre = .ok (some bc, st') ∧ bcodeIndex bc src = .halt x) := by
  unfold ensureProgramCompiled at hx
  split at hx
  · rename_i src hs hb
    rw [if_neg (by simp [(state_base h).noIndex hb])] at hx
    refine ⟨src, hs, _, vm.keywordsAnywhere, (wellNamed_fresh vm.st).tab, ?_⟩
    split at hx
    · rename_i hp; cases hx; exact .inl hp
    · cases hx
    · rename_i bc st hp
      split at hx
      · rename_i hi; cases hx; exact .inr ⟨bc, st, hp, hi⟩
      · cases hx
  · cases hx

end LB
