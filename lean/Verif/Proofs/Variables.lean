import Verif.Proofs.Frame
import Verif.Proofs.Exec
import Verif.Spec.Variables
/- The value of a scalar while instructions are executed. -/
namespace LB
open LB.Spec
namespace V

/-- The scalar `j` exists and shows the same as in the table `st0`. -/
def Shows (j : Nat) (st0 : SymTab) (vm : VM) : Prop := Scalar vm.st j ∧ value vm.st j = value st0 j

variable {j : Nat} {st0 : SymTab}

theorem shows_st {vm vm' : VM} (h : Shows j st0 vm) (he : vm'.st = vm.st) : Shows j st0 vm' := by
  simp only [Shows, he]; exact h

/-- Changes elsewhere. -/
theorem closed_shows : Closed (· ≠ .sym) (Shows j st0) := by
  have : Closed (· ≠ .sym) (Shows j st0) := by
    constructor
    all_goals first
      | (intro h; exact absurd rfl h)
      | skip
    · intro _ x vm h; simp only [push]; split <;> exact h
    · intro vm h; simp only [pop]; split <;> exact h
    · intro _ x vm h; simp only [pushStr]; split <;> exact h
    · intro vm h; simp only [popStr]; split <;> exact h
    · intro _ x vm h; simp only [pushReturn]; split <;> exact h
    · intro _ vm h; simp only [popReturn]; split <;> exact h
    all_goals first
      | exact fun _ _ _ h => h
      | exact fun _ _ _ _ h => h
      | exact fun _ _ h => h
      | exact .inl (by decide)
      | skip
    · intro _ id hd
      unfold forTop forEntry
      keeps
      all_goals exact Keeps.modify (fun vm h => h)
  exact this

theorem keeps_updSym_other {id : Nat} (h : id ≠ j) (f : Symbol → Symbol) : Keeps (Shows j st0) (updSym id f) := by
  refine Keeps.modify (fun vm hv => ?_)
  simp only [Shows, Scalar, value, num, str, symUpdate_other vm.st id j f (Ne.symm h)] at hv ⊢
  exact hv

theorem keeps_of_halt {α} {I : VM → Prop} {x : VmM α} (h : ∀ vm, I vm → ∃ e, x vm = .halt e) : Keeps I x := by
  intro vm hv
  obtain ⟨e, he⟩ := h vm hv
  rw [he]; trivial

theorem all_bind_ok {α β} {I : VM → Prop} {x : VmM α} {f : α → VmM β} {vm vm' : VM} {a : α} (h : x vm = .ok a vm')
    (hf : (f a vm').All I) : ((x >>= f) vm).All I := by
  simp only [bind_apply, h]; exact hf

theorem isArr_scalar {s : Symbol} {t : Ty} (h : s.kind = .variable) : isArr s t = false := by
  simp [isArr, h]

section
variable {α : Type} {F : ArrField α}

theorem shows_elementArray (id n : Nat) : Keeps (Shows j st0) (elementArray F id n) := by
  by_cases hid : id = j
  · subst hid
    refine keeps_of_halt (fun vm hv => ?_)
    obtain ⟨⟨s, hs, hk⟩, -⟩ := hv
    simp only [elementArray, bind_apply, sym_ok hs, assert_apply, isArr_scalar hk]
    exact ⟨_, rfl⟩
  · unfold elementArray dimensionAuto dimension
    keeps
    · exact keeps_popIndexes closed_shows _
    · exact keeps_updSym_other hid _
    · exact keeps_updSym_other hid _

theorem shows_getElement (id n : Nat) : Keeps (Shows j st0) (getElement F id n) := by
  unfold getElement; keeps; exact shows_elementArray _ _

theorem shows_setElement (id n : Nat) (v : α) : Keeps (Shows j st0) (setElement F id n v) := by
  by_cases hid : id = j
  · subst hid
    refine keeps_of_halt (fun vm hv => ?_)
    obtain ⟨⟨s, hs, hk⟩, -⟩ := hv
    simp only [setElement, elementArray, bind_apply, sym_ok hs, assert_apply, isArr_scalar hk]
    exact ⟨_, rfl⟩
  · unfold setElement; keeps
    · exact shows_elementArray _ _
    · exact keeps_updSym_other hid _

theorem shows_dimStatement (id n : Nat) : Keeps (Shows j st0) (dimStatement F id n) := by
  by_cases hid : id = j
  · subst hid
    refine keeps_of_halt (fun vm hv => ?_)
    obtain ⟨⟨s, hs, hk⟩, -⟩ := hv
    simp only [dimStatement, bind_apply, sym_ok hs, assert_apply, isArr_scalar hk]
    exact ⟨_, rfl⟩
  · unfold dimStatement dimension; keeps
    all_goals first
      | exact keeps_updSym_other hid _
      | exact keeps_popIndexes closed_shows _

end

/-- A change of the scalar itself that shows no difference. -/
theorem shows_same {vm : VM} {s s' : Symbol} {f : Symbol → Symbol} (h : Shows j st0 vm) (hs : vm.st.psym[j]? = some s)
    (hf : f s = s') (hk : s'.kind = s.kind) (ht : s'.type = s.type)
    (hn : s.type = .num → (if s'.defined then s'.num else .fin 0) = if s.defined then s.num else .fin 0)
    (hst : s.type = .str → (if s'.defined then s'.str.getD [] else []) = if s.defined then s.str.getD [] else []) :
    Shows j st0 { vm with st := symUpdate vm.st j f } := by
  obtain ⟨⟨q, hq, hqk⟩, hv⟩ := h
  have : q = s := Option.some.inj (hq.symm.trans hs)
  subst this
  have hu : (symUpdate vm.st j f).psym[j]? = some s' := by rw [symUpdate_same hs, hf]
  refine ⟨⟨_, hu, hk.trans hqk⟩, ?_⟩
  rw [← hv]
  simp only [value, num, str, hu, hs, ht]
  cases hty : q.type with
  | num => simp only [hn hty]
  | str => simp only [hst hty]
  | err => rfl

theorem shows_getNumericSimple (id : Nat) : Keeps (Shows j st0) (getNumericSimple id) := by
  by_cases hid : id = j
  · subst hid
    intro vm hv
    obtain ⟨⟨s, hs, hk⟩, hval⟩ := show Scalar vm.st id ∧ _ from hv
    simp only [getNumericSimple, bind_apply, sym_ok hs, assert_apply]
    by_cases ht : isVar s .num = true
    · simp only [if_pos ht, when_apply]
      have hty : s.type = .num := by simp only [isVar, Bool.and_eq_true, beq_iff_eq] at ht; exact ht.2
      by_cases hd : s.defined = true
      · simp only [hd, Bool.not_true, Bool.false_eq_true, if_false, sym_ok hs, push]
        split <;> exact hv
      · simp only [hd, Bool.not_false, if_true, updSym, modify_apply]
        have := shows_same hv hs (f := fun s => { s with num := .fin 0, defined := true }) rfl rfl rfl
          (by simp [hd]) (by simp [hty])
        rw [sym_ok (vm := { vm with st := symUpdate vm.st id _ }) (symUpdate_same hs)]
        simp only [push]
        split <;> exact this
    · simp only [ht, Bool.false_eq_true, if_false, all_halt]
  · unfold getNumericSimple; keeps
    · exact keeps_updSym_other hid _
    · exact closed_shows.push (by decide) _

theorem shows_getStringSimple (id : Nat) : Keeps (Shows j st0) (getStringSimple id) := by
  by_cases hid : id = j
  · subst hid
    intro vm hv
    obtain ⟨⟨s, hs, hk⟩, hval⟩ := show Scalar vm.st id ∧ _ from hv
    simp only [getStringSimple, bind_apply, sym_ok hs, assert_apply]
    by_cases ht : isVar s .str = true
    · simp only [if_pos ht, when_apply]
      have hty : s.type = .str := by simp only [isVar, Bool.and_eq_true, beq_iff_eq] at ht; exact ht.2
      by_cases hd : s.defined = true
      · simp only [hd, Bool.not_true, Bool.false_eq_true, if_false, sym_ok hs, pushStr]
        split <;> exact hv
      · simp only [hd, Bool.not_false, if_true, updSym, modify_apply]
        have := shows_same hv hs (f := fun s => { s with str := none, defined := true }) rfl rfl rfl
          (by simp [hty]) (by simp [hd])
        rw [sym_ok (vm := { vm with st := symUpdate vm.st id _ }) (symUpdate_same hs)]
        simp only [pushStr]
        split <;> exact this
    · simp only [ht, Bool.false_eq_true, if_false, all_halt]
  · unfold getStringSimple; keeps
    · exact keeps_updSym_other hid _
    · exact closed_shows.pushStr (by decide) _

theorem shows_setNumericSimple {id : Nat} (hid : id ≠ j) (x : Dbl) : Keeps (Shows j st0) (setNumericSimple id x) := by
  unfold setNumericSimple; keeps
  exact keeps_updSym_other hid _

theorem shows_setStringSimple {id : Nat} (hid : id ≠ j) (x : CStr) : Keeps (Shows j st0) (setStringSimple id x) := by
  unfold setStringSimple; keeps
  exact keeps_updSym_other hid _

theorem shows_setNumeric {id n : Nat} (hid : ¬ (id = j ∧ n = 0)) (x : Dbl) : Keeps (Shows j st0) (setNumeric id n x) := by
  unfold setNumeric
  split
  · rename_i h; exact shows_setNumericSimple (fun h' => hid ⟨h', h⟩) x
  · exact shows_setElement _ _ _

theorem shows_setString {id n : Nat} (hid : ¬ (id = j ∧ n = 0)) (x : CStr) : Keeps (Shows j st0) (setString id n x) := by
  unfold setString
  split
  · rename_i h; exact shows_setStringSimple (fun h' => hid ⟨h', h⟩) x
  · exact shows_setElement _ _ _

theorem shows_forStatement {id : Nat} (hid : id ≠ j) : Keeps (Shows j st0) (forStatement id) := by
  unfold forStatement
  keeps
  · exact keeps_traced closed_shows (fun hi => keeps_dumpFor closed_shows hi _)
  · exact closed_shows.forTop (by decide) _ (keeps_dumpForStack closed_shows (by decide) _)
  · exact closed_shows.pop
  · exact Keeps.modify (fun vm h => h)
  · exact closed_shows.pop
  · exact Keeps.modify (fun vm h => h)
  · exact closed_shows.pop
  · exact keeps_updSym_other hid _
  · exact keeps_traced closed_shows (fun hi => keeps_dumpForStack closed_shows hi _)

/-- `NEXT` for an entry of another variable. -/
theorem shows_next {si : Nat} {vm : VM} (hv : Shows j st0 vm) (hf : ∀ f, vm.forStack[si]? = some f → f.symbolId ≠ j) :
    (next si vm).All (Shows j st0) := by
  simp only [next, bind_apply, get_apply]
  cases he : vm.forStack[si]? with
  | none => trivial
  | some f =>
    have hf := hf f he
    refine Keeps.bind (Keeps.sym _) (fun s => ?_) vm hv
    keeps
    · exact Keeps.modify (fun vm h => h)
    · exact Keeps.modify (fun vm h => keeps_updSym_other hf (fun s' => { s' with num := Dbl.add s.num f.step }) vm h)
    · exact keeps_traced closed_shows (fun hi => keeps_dumpForStack closed_shows hi _)

theorem shows_nextVariable {id : Nat} (hid : id ≠ j) : Keeps (Shows j st0) (nextVariable id) := by
  unfold nextVariable
  refine Keeps.bind (keeps_traced closed_shows (fun hi => keeps_dumpFor closed_shows hi _)) (fun _ vm hv => ?_)
  simp only [bind_apply, get_apply]
  cases hl : vm.forStack.getLast? with
  | none => exact hv
  | some f =>
    simp only [ite_apply]
    split
    · rename_i hf
      refine shows_next hv (fun g hg => ?_)
      rw [List.getLast?_eq_getElem?, hg] at hl
      cases hl
      rw [hf]; exact hid
    · cases hff : findFor vm id with
      | none => exact hv
      | some si =>
        refine shows_next hv (fun g hg => ?_)
        obtain ⟨hlt, hp, -⟩ := List.findIdx?_eq_some_iff_getElem.1 hff
        rw [List.getElem?_eq_getElem hlt] at hg
        cases hg
        simp only [beq_iff_eq] at hp
        rw [hp]; exact hid

theorem shows_nextImplicit {vm : VM} (hv : Shows j st0 vm)
    (hl : ∀ f, vm.forStack.getLast? = some f → f.symbolId ≠ j) : (nextImplicit vm).All (Shows j st0) := by
  simp only [nextImplicit, bind_apply, get_apply, traced, when_apply]
  have hrest : ∀ a : VM, a.forStack = vm.forStack → Shows j st0 a →
      ((if a.forStack.isEmpty = true then fail .nextWithoutFor else next (a.forStack.length - 1) : VmM Unit) a).All
        (Shows j st0) := by
    intro a ha hva
    simp only [ite_apply]
    split
    · exact hva
    · refine shows_next hva (fun g hg => ?_)
      rw [ha, ← List.getLast?_eq_getElem?] at hg
      exact hl g hg
  by_cases ht : vm.traceFor = true
  · simp only [ht, if_true]
    have h1 := keeps_dumpFor (closed_shows (j := j) (st0 := st0)) (by decide) "NEXT-IMPLICIT" vm hv
    have h2 := keeps_dumpFor (closed_forStack vm.forStack) (by decide) "NEXT-IMPLICIT" vm rfl
    cases hd : dumpFor "NEXT-IMPLICIT" vm with
    | ok u a => rw [hd] at h1 h2; exact hrest a h2 h1
    | err e a => rw [hd] at h1; exact h1
    | halt h => trivial
  · simp only [ht, Bool.false_eq_true, if_false]
    exact hrest vm rfl hv

theorem shows_callDef {id n : Nat} {vm : VM} (hv : Shows j st0 vm) (hp : ¬ HasParam vm.st id j) :
    (callDef id n vm).All (Shows j st0) := by
  cases hs : vm.st.psym[id]? with
  | none => simp [callDef, sym, symbolAt, hs]
  | some s =>
    unfold callDef
    simp only [bind_apply, sym_ok hs]
    refine Keeps.bind (Keeps.assert _ _) (fun _ => Keeps.bind (Keeps.check _ _) (fun _ => ?_)) vm hv
    cases hd : s.def_ with
    | none => exact Keeps.halt _
    | some d =>
      have hne : ∀ pid, d.bcode.inst[1]? = some (.param pid) → pid ≠ j := by
        rintro pid h rfl; exact hp ⟨s, d, hs, hd, h⟩
      keeps
      all_goals first
        | exact Keeps.modify (fun vm h => h)
        | exact closed_shows.pop
        | exact keeps_updSym_other (hne _ (by assumption)) _

theorem shows_endDef {vm : VM} (hv : Shows j st0 vm) (hp : vm.fn.paramId ≠ j) : (endDef vm).All (Shows j st0) := by
  unfold endDef
  refine all_bind_ok (get_apply vm) (Keeps.bind (Keeps.check _ _) (fun _ => ?_) vm hv)
  keeps
  · exact Keeps.modify (fun vm h => h)
  · exact Keeps.modify (fun vm h => h)
  · exact keeps_updSym_other hp _

theorem shows_defStatement (id n : Nat) : Keeps (Shows j st0) (defStatement id n) := by
  by_cases hid : id = j
  · subst hid
    refine keeps_of_halt (fun vm hv => ?_)
    obtain ⟨⟨s, hs, hk⟩, -⟩ := hv
    have : (s.kind == SymKind.def_) = false := by rw [hk]; rfl
    simp only [defStatement, bind_apply, sym_ok hs, assert_apply, this]
    exact ⟨_, rfl⟩
  · unfold defStatement; keeps
    all_goals first
      | exact keeps_updSym_other hid _
      | exact keeps_setPc closed_shows _

theorem shows_getParenNum {id n : Nat} {vm : VM} (hv : Shows j st0 vm) (hp : ¬ HasParam vm.st id j) :
    (getParenNum id n vm).All (Shows j st0) := by
  cases hs : vm.st.psym[id]? with
  | none => simp [getParenNum, sym, symbolAt, hs]
  | some s =>
    unfold getParenNum
    refine all_bind_ok (sym_ok hs) ?_
    by_cases ht : (s.type == Ty.num) = true
    · refine all_bind_ok (a := ()) (vm' := vm) (by simp [ht]) ?_
      split
      · exact Keeps.bind (shows_getElement _ _) (fun x => closed_shows.push (by decide) x) vm hv
      · by_cases hk : (s.kind == SymKind.def_) = true
        · exact all_bind_ok (a := ()) (vm' := vm) (by simp [hk]) (shows_callDef hv hp)
        · simp [hk]
    · simp [ht]

theorem shows_getParenStr {id n : Nat} {vm : VM} (hv : Shows j st0 vm) (hp : ¬ HasParam vm.st id j) :
    (getParenStr id n vm).All (Shows j st0) := by
  cases hs : vm.st.psym[id]? with
  | none => simp [getParenStr, sym, symbolAt, hs]
  | some s =>
    unfold getParenStr
    refine all_bind_ok (sym_ok hs) ?_
    by_cases ht : (s.type == Ty.str) = true
    · refine all_bind_ok (a := ()) (vm' := vm) (by simp [ht]) ?_
      split
      · exact Keeps.bind (shows_getElement _ _) (fun x => closed_shows.pushStr (by decide) _) vm hv
      · by_cases hk : (s.kind == SymKind.def_) = true
        · exact all_bind_ok (a := ()) (vm' := vm) (by simp [hk]) (shows_callDef hv hp)
        · simp [hk]
    · simp [ht]

theorem shows_inputNum {id n : Nat} (hid : ¬ (id = j ∧ n = 0)) : Keeps (Shows j st0) (inputNum id n) := by
  unfold inputNum; keeps
  · exact shows_setNumeric hid _
  · exact Keeps.modify (fun vm h => h)
  · exact keeps_inputAgain closed_shows (by decide) _
  · exact keeps_inputAgain closed_shows (by decide) _

theorem shows_inputStr {id n : Nat} (hid : ¬ (id = j ∧ n = 0)) : Keeps (Shows j st0) (inputStr id n) := by
  unfold inputStr; keeps
  · exact keeps_advance closed_shows (by decide) _
  · exact shows_setString hid _

theorem shows_inputLine {id n : Nat} (hid : ¬ (id = j ∧ n = 0)) : Keeps (Shows j st0) (inputLine id n) := by
  unfold inputLine; keeps
  · exact Keeps.modify (fun vm h => h)
  · exact shows_setString hid _

theorem shows_readNum {id n : Nat} (hid : ¬ (id = j ∧ n = 0)) : Keeps (Shows j st0) (readNum id n) := by
  unfold readNum; keeps
  · exact keeps_findData closed_shows (by decide)
  · exact shows_setNumeric hid _

theorem shows_readStr {id n : Nat} (hid : ¬ (id = j ∧ n = 0)) : Keeps (Shows j st0) (readStr id n) := by
  unfold readStr; keeps
  · exact keeps_findData closed_shows (by decide)
  · exact shows_setString hid _

theorem all_brk {I : VM → Prop} {x : VmM Unit} {vm : VM} (h : (x vm).All I) : (brk x vm).All I := by
  simp only [brk_apply]
  cases hx : x vm <;> rw [hx] at h <;> exact h

/-- Instructions that do not assign to the scalar. -/
theorem shows_exec (env : Env) {vm : VM} {i : Inst} (hv : Shows j st0 vm) (hi : ¬ Assigns vm j i) :
    (exec env i vm).All (Shows j st0) := by
  by_cases ht : touches i .sym = false
  · exact keeps_exec closed_shows env i (by rintro x hx rfl; rw [hx] at ht; cases ht) vm hv
  · cases i <;> first
      | exact absurd rfl ht
      | (rename_i b; cases b <;> exact absurd rfl ht)
      | skip
    all_goals simp only [Assigns] at hi
    all_goals simp only [exec]
    · exact absurd trivial hi
    · exact Keeps.brk (shows_getNumericSimple _) vm hv
    · exact Keeps.brk (Keeps.bind (Keeps.sym _) (fun _ => Keeps.bind closed_shows.pop
        (fun _ => shows_setNumericSimple hi _))) vm hv
    · exact Keeps.brk (shows_dimStatement _ _) vm hv
    · exact all_brk (shows_getParenNum hv hi)
    · exact Keeps.brk (Keeps.bind (Keeps.sym _) (fun _ => Keeps.bind closed_shows.pop
        (fun _ => shows_setElement _ _ _))) vm hv
    · exact Keeps.brk (Keeps.bind (Keeps.sym _) (fun _ => Keeps.bind closed_shows.popStr
        (fun _ => shows_setStringSimple hi _))) vm hv
    · exact Keeps.brk (shows_getStringSimple _) vm hv
    · exact Keeps.brk (shows_dimStatement _ _) vm hv
    · exact all_brk (shows_getParenStr hv hi)
    · exact Keeps.brk (Keeps.bind (Keeps.sym _) (fun _ => Keeps.bind closed_shows.popStr
        (fun _ => shows_setElement _ _ _))) vm hv
    · exact Keeps.brk (shows_forStatement hi) vm hv
    · exact Keeps.brk (shows_nextVariable hi) vm hv
    · exact all_brk (shows_nextImplicit hv (fun f h h' => hi ⟨f, h, h'⟩))
    · exact Keeps.brk (shows_defStatement _ _) vm hv
    · exact all_brk (shows_endDef hv hi)
    · exact shows_inputNum hi vm hv
    · exact Keeps.brk (shows_inputStr hi) vm hv
    · exact Keeps.brk (shows_inputLine hi) vm hv
    · exact Keeps.brk (shows_readNum hi) vm hv
    · exact Keeps.brk (shows_readStr hi) vm hv

/-- One step. -/
theorem shows_execute (env : Env) {vm : VM} {i : Inst} (hat : At vm i) (hv : Shows j st0 vm) (hi : ¬ Assigns vm j i) :
    (execute env vm).All (Shows j st0) := by
  have h := shows_exec env hv hi
  rw [execute_at env hat]
  cases he : exec env i vm with
  | ok f a => rw [he] at h; cases f <;> exact h
  | err e a => rw [he] at h; exact h
  | halt h => trivial

theorem getNumericSimple_ok {vm : VM} {id : Nat} {s : Symbol} (hs : vm.st.psym[id]? = some s) (hk : s.kind = .variable)
    (ht : s.type = .num) (hroom : vm.stack.length < 16) :
    getNumericSimple id vm = .ok () { vm with
      st := if s.defined then vm.st else symUpdate vm.st id (fun s => { s with num := .fin 0, defined := true })
      stack := (if s.defined then s.num else .fin 0) :: vm.stack } := by
  have hr : ¬ vm.stack.length ≥ 16 := by omega
  have hvar : isVar s .num = true := by simp [isVar, hk, ht]
  by_cases hd : s.defined
  · simp only [getNumericSimple, bind_apply, sym_ok hs, assert_apply, hvar, when_apply, hd, push, maxNumStack,
      Bool.not_true, ↓reduceIte, Bool.false_eq_true]
    exact if_neg hr
  · have h2 := symUpdate_same (f := fun s => { s with num := .fin 0, defined := true }) hs
    have h3 : sym id { vm with st := symUpdate vm.st id (fun s => { s with num := .fin 0, defined := true }) } = _ :=
      sym_ok h2
    simp only [Bool.not_eq_true] at hd
    simp only [getNumericSimple, bind_apply, sym_ok hs, assert_apply, hvar, when_apply, hd, push, maxNumStack,
      Bool.not_false, ↓reduceIte, Bool.false_eq_true, updSym, modify_apply, h3]
    exact if_neg hr

theorem getStringSimple_ok {vm : VM} {id : Nat} {s : Symbol} (hs : vm.st.psym[id]? = some s) (hk : s.kind = .variable)
    (ht : s.type = .str) (hroom : vm.strstack.length < 8) :
    getStringSimple id vm = .ok () { vm with
      st := if s.defined then vm.st else symUpdate vm.st id (fun s => { s with str := none, defined := true })
      strstack := (if s.defined then s.str.getD [] else []) :: vm.strstack } := by
  have hr : ¬ vm.strstack.length ≥ 8 := by omega
  have hvar : isVar s .str = true := by simp [isVar, hk, ht]
  by_cases hd : s.defined
  · simp only [getStringSimple, bind_apply, sym_ok hs, assert_apply, hvar, when_apply, hd, pushStr, maxStrStack,
      Bool.not_true, ↓reduceIte, Bool.false_eq_true]
    exact if_neg hr
  · have h2 := symUpdate_same (f := fun s => { s with str := none, defined := true }) hs
    have h3 : sym id { vm with st := symUpdate vm.st id (fun s => { s with str := none, defined := true }) } = _ :=
      sym_ok h2
    simp only [Bool.not_eq_true] at hd
    simp only [getStringSimple, bind_apply, sym_ok hs, assert_apply, hvar, when_apply, hd, pushStr, maxStrStack,
      Bool.not_false, ↓reduceIte, Bool.false_eq_true, updSym, modify_apply, h3, Option.getD_none]
    exact if_neg hr

theorem setNumericSimple_ok {vm : VM} {id : Nat} (hv : NumVar vm.st id) (x : Dbl) :
    setNumericSimple id x vm = .ok () { vm with
      st := symUpdate vm.st id (fun s => { s with num := x, defined := true }) } := by
  obtain ⟨s, hs, hk, ht⟩ := hv
  have hvar : isVar s .num = true := by simp [isVar, hk, ht]
  simp only [setNumericSimple, bind_apply, sym_ok hs, assert_apply, hvar, ↓reduceIte, updSym, modify_apply]

theorem setStringSimple_ok {vm : VM} {id : Nat} (hv : StrVar vm.st id) (x : CStr) :
    setStringSimple id x vm = .ok () { vm with
      st := symUpdate vm.st id (fun s => { s with str := some x, defined := true }) } := by
  obtain ⟨s, hs, hk, ht, hd⟩ := hv
  have hvar : isVar s .str = true := by simp [isVar, hk, ht]
  cases h : s.str.isSome with
  | false => simp only [setStringSimple, bind_apply, sym_ok hs, assert_apply, hvar, ↓reduceIte, updSym, modify_apply,
      when_apply, h, Bool.false_eq_true]
  | true => simp only [setStringSimple, bind_apply, sym_ok hs, assert_apply, hvar, ↓reduceIte, updSym, modify_apply,
      when_apply, h, hd h]

end V
end LB
