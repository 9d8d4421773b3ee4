import Verif.Proofs.Bounds
import Verif.Proofs.ParserKeeps
import Verif.Proofs.Decimal
/- No string is longer than 255 characters. -/
namespace LB
open Spec (Moment)

/-- At most 255 characters. -/
def Short (s : CStr) : Prop := s.length ≤ 255

/-- The text in an instruction is short. -/
def ShortInst : Inst → Prop
  | .pushStr w => Short w
  | .data w => Short w
  | _ => True

/-- The texts in the code are short. -/
def ShortCode (b : Bcode) : Prop := ∀ i ∈ b.inst, ShortInst i

/-- The strings of a symbol are short. -/
structure ShortSym (s : Symbol) : Prop where
  str : ∀ v, s.str = some v → Short v
  arr : ∀ a, s.strarr = some a → ∀ v, some v ∈ a.val → Short v
  code : ∀ d, s.def_ = some d → ShortCode d.bcode

/-- All symbols have short strings. -/
def ShortTab (st : SymTab) : Prop := ∀ s ∈ st.psym, ShortSym s

theorem ShortSym.same {s s' : Symbol} (h : ShortSym s) (h1 : s'.str = s.str) (h2 : s'.strarr = s.strarr)
    (h3 : s'.def_ = s.def_) : ShortSym s' :=
  ⟨by rw [h1]; exact h.str, by rw [h2]; exact h.arr, by rw [h3]; exact h.code⟩

theorem shortSym_new (name : CStr) (id : Nat) (k : SymKind) (t : Ty) (d : Bool) :
    ShortSym { name := name, id := id, kind := k, type := t, defined := d } :=
  ⟨(fun _ h => by cases h), (fun _ h => by cases h), (fun _ h => by cases h)⟩

theorem mem_modify {α} {l : List α} {n : Nat} {f : α → α} {x : α} (h : x ∈ l.modify n f) : ∃ y ∈ l, x = y ∨ x = f y := by
  obtain ⟨i, hi⟩ := List.mem_iff_getElem?.1 h
  rw [List.getElem?_modify] at hi
  cases hy : l[i]? with
  | none => rw [hy] at hi; simp at hi
  | some y =>
    rw [hy] at hi
    refine ⟨y, List.mem_iff_getElem?.2 ⟨i, hy⟩, ?_⟩
    simp only [Option.map_eq_map, Option.map_some, Option.some.injEq] at hi
    split at hi
    · exact .inr hi.symm
    · exact .inl hi.symm

theorem ShortTab.update {st : SymTab} (h : ShortTab st) (id : Nat) (f : Symbol → Symbol) (hf : ∀ s, ShortSym s → ShortSym (f s)) :
    ShortTab (symUpdate st id f) := by
  intro s hs
  obtain ⟨y, hy, rfl | rfl⟩ := mem_modify hs
  · exact h _ hy
  · exact hf _ (h _ hy)

theorem ShortTab.map {st : SymTab} (h : ShortTab st) (f : Symbol → Symbol) (hf : ∀ s, ShortSym s → ShortSym (f s)) :
    ShortTab { st with psym := st.psym.map f } := by
  intro s hs
  obtain ⟨y, hy, rfl⟩ := List.mem_map.1 hs
  exact hf _ (h _ hy)

theorem ShortTab.insert {st : SymTab} (h : ShortTab st) (name : CStr) (k : SymKind) (t : Ty) (d : Bool) :
    ShortTab (symInsert st name k t d).1 := by
  intro s hs
  simp only [symInsert, List.mem_append, List.mem_singleton] at hs
  rcases hs with hs | rfl
  · exact h _ hs
  · exact shortSym_new ..

theorem shortSym_undefine {s : Symbol} (h : ShortSym s) : ShortSym (undefineValue s) := by
  unfold undefineValue
  repeat' split
  all_goals first
    | exact h
    | exact ⟨h.str, h.arr, h.code⟩
    | exact ⟨(fun _ e => by cases e), h.arr, h.code⟩
    | exact ⟨h.str, (fun _ e => by cases e), h.code⟩
    | exact ⟨h.str, h.arr, (fun _ e => by cases e)⟩

theorem ShortTab.clear {st : SymTab} (h : ShortTab st) : ShortTab (clearSymbolTableValues st) := by
  apply h.map
  intro s hs
  split
  · exact shortSym_undefine hs
  · exact hs

theorem ShortTab.unknown {st : SymTab} (h : ShortTab st) : ShortTab (symMakeUnknownArray st) := by
  apply h.map
  intro s hs
  split
  · exact hs.same rfl rfl rfl
  · exact hs

theorem shortTab_builtins (st : SymTab) (h : ShortTab st) : ShortTab (initBuiltins st) := by
  unfold initBuiltins
  generalize builtins = bs
  induction bs generalizing st with
  | nil => exact h
  | cons b bs ih => exact ih _ (ShortTab.insert h b.name .builtin b.type true)

theorem shortTab_fresh (st : SymTab) : ShortTab (initBuiltins (clearSymbolTableNames st)) :=
  shortTab_builtins _ ((fun _ h => by cases h))

theorem shortTab_start : ShortTab (initBuiltins newSymbolTable) :=
  shortTab_builtins _ ((fun _ h => by cases h))

/-! The compiler. -/

namespace P

theorem shortInst_of_text {i : Inst} (h : ShortText i) : ShortInst i := by
  cases i <;> first | trivial | exact Nat.le_trans (Nat.le_of_lt h) (by decide)

/-- Everything the compiler holds is short. -/
structure Briefs (p : Parser) : Prop where
  fits : p.lex.Sound
  code : ShortCode p.bcode
  tab : ShortTab p.st

theorem closed_briefs : Closed Briefs where
  lex p lex h hl := ⟨hl, h.code, h.tab⟩
  fits p h := h.fits
  emit i hi p h := by
    refine ⟨h.fits, ?_, h.tab⟩
    intro j hj
    simp only [emitInst, List.mem_append, List.mem_singleton] at hj
    rcases hj with hj | rfl
    · exact h.code j hj
    · exact shortInst_of_text hi
  patch n i hi p h := by
    simp only [patch, patchInst]
    split
    · trivial
    · rename_i bc hb
      split at hb
      · simp only [Outcome.ok.injEq] at hb
        subst hb
        refine ⟨h.fits, ?_, h.tab⟩
        intro j hj
        rcases List.mem_or_eq_of_mem_set hj with hj | rfl
        · exact h.code j hj
        · cases j <;> first | trivial | exact hi.elim
      · cases hb
  ifThen p n h := ⟨h.fits, h.code, h.tab⟩
  resolve name params kind _ := by
    unfold resolve
    pkeeps
    · exact Keeps.lookup _ _
    · intro p h
      exact ⟨h.fits, h.code, h.tab.update _ _ (fun s hs => hs.same rfl rfl rfl)⟩
    all_goals
      intro p h
      exact ⟨h.fits, h.code, h.tab.insert _ _ _ _⟩
  defSymbol name := by
    unfold defSymbol
    pkeeps
    · exact Keeps.lookup _ _
    · intro p h
      exact ⟨h.fits, h.code, h.tab.update _ _ (fun s hs => hs.same rfl rfl rfl)⟩
    all_goals
      intro p h
      exact ⟨h.fits, h.code, h.tab.insert _ _ _ _⟩

end P

theorem parseSource_short {src : Source} {st st' : SymTab} {pre : Bool} {r : Option Bcode} (h : ShortTab st)
    (hp : parseSource src st pre = .ok (r, st')) : ShortTab st' ∧ ∀ bc, r = some bc → ShortCode bc := by
  have key := P.keeps_parseLines P.closed_briefs src.lines 0 { lex := newLex pre, bcode := newBcode, st := st, ifThen := 0 }
    ⟨sound_new _, (fun _ h => by cases h), h⟩
  unfold parseSource at hp
  split at hp
  · rename_i p hl
    rw [hl] at key
    simp only [Outcome.ok.injEq, Prod.mk.injEq] at hp
    rw [← hp.1, ← hp.2]
    exact ⟨key.tab.unknown, fun bc hb => by cases hb; exact key.code⟩
  · rename_i p hl
    rw [hl] at key
    simp only [Outcome.ok.injEq, Prod.mk.injEq] at hp
    rw [← hp.1, ← hp.2]
    exact ⟨key.tab.unknown, fun bc hb => by cases hb⟩
  · cases hp

/-! The machine. -/

namespace V

/-- Every string the machine holds is short. -/
structure Brief (vm : VM) : Prop where
  stack : ∀ s ∈ vm.strstack, Short s
  tab : ShortTab vm.st
  stored : ∀ b, vm.stored.bcode = some b → ShortCode b
  immediate : ∀ b, vm.immediate.bcode = some b → ShortCode b
  defCode : ∀ b, vm.defCode.bcode = some b → ShortCode b
  input : Short vm.input

theorem Brief.same {vm vm' : VM} (h : Brief vm) (h1 : vm'.strstack = vm.strstack) (h2 : vm'.st = vm.st)
    (h3 : vm'.stored.bcode = vm.stored.bcode) (h4 : vm'.immediate.bcode = vm.immediate.bcode)
    (h5 : vm'.defCode.bcode = vm.defCode.bcode) (h6 : vm'.input = vm.input) : Brief vm' :=
  ⟨h1 ▸ h.stack, h2 ▸ h.tab, h3 ▸ h.stored, h4 ▸ h.immediate, h5 ▸ h.defCode, h6 ▸ h.input⟩

theorem keeps_updSym_brief (id : Nat) (f : Symbol → Symbol) (hf : ∀ s, ShortSym s → ShortSym (f s)) : Keeps Brief (updSym id f) :=
  Keeps.modify (fun _ h => ⟨h.stack, h.tab.update _ _ hf, h.stored, h.immediate, h.defCode, h.input⟩)

theorem closed_brief : Closed (fun a => a ≠ .str ∧ a ≠ .fn) Brief where
  push _ x := by
    intro vm h; simp only [push]; split
    · exact h
    · exact h.same rfl rfl rfl rfl rfl rfl
  pop := by
    intro vm h; simp only [pop]; split
    · exact h
    · exact h.same rfl rfl rfl rfl rfl rfl
  pushStr h := absurd rfl h.1
  popStr := by
    intro vm h; simp only [popStr]; split
    · exact h
    · rename_i hs
      exact ⟨fun s hm => h.stack s (hs ▸ List.mem_cons_of_mem _ hm), h.tab, h.stored, h.immediate, h.defCode, h.input⟩
  pushReturn _ pc := by
    intro vm h; simp only [pushReturn]; split
    · exact h
    · exact h.same rfl rfl rfl rfl rfl rfl
  popReturn _ := by
    intro vm h; simp only [popReturn]; split
    · exact h
    · exact h.same rfl rfl rfl rfl rfl rfl
  updSym _ id f _ hk _ _ := by
    apply keeps_updSym_brief
    intro s hs
    rcases hk with hk | hk
    · exact absurd rfl hk.1
    · exact hs.same (hk s).1 (hk s).2.1 (hk s).2.2
  clear _ vm h := ⟨h.stack, h.tab.clear, h.stored, h.immediate, h.defCode, h.input⟩
  world _ vm w h := h.same rfl rfl rfl rfl rfl rfl
  col _ vm c h := h.same rfl rfl rfl rfl rfl rfl
  cs vm c _ _ h := h.same rfl rfl rfl rfl rfl rfl
  stopped _ vm c h := h.same rfl rfl rfl rfl rfl rfl
  fn hf := absurd rfl hf.2
  defCode hf := absurd rfl hf.2
  input _ vm c hc h := ⟨h.stack, h.tab, h.stored, h.immediate, h.defCode, by
    rcases hc with hc | hc
    · exact hc
    · exact Nat.le_trans hc h.input⟩
  inp _ vm c h := h.same rfl rfl rfl rfl rfl rfl
  inputPc _ vm c h := h.same rfl rfl rfl rfl rfl rfl
  trace := .inl (by decide)
  programData _ vm n h := h.same rfl rfl rfl rfl rfl rfl
  immediateData _ vm n h := h.same rfl rfl rfl rfl rfl rfl
  forTop _ id hd := by
    unfold forTop forEntry
    keeps <;> exact Keeps.modify (fun vm h => h.same rfl rfl rfl rfl rfl rfl)
  setTopFor _ f _ := Keeps.modify (fun vm h => h.same rfl rfl rfl rfl rfl rfl)
  erase _ vm si h := h.same rfl rfl rfl rfl rfl rfl

/-- `x` keeps `I`, and its result satisfies `Q`. -/
def Gives {α} (I : VM → Prop) (Q : α → Prop) (x : VmM α) : Prop :=
  ∀ vm, I vm → (x vm).All I ∧ ∀ a vm', x vm = .ok a vm' → Q a

section
variable {I : VM → Prop} {α β : Type}

theorem Gives.bind {Q : α → Prop} {R : β → Prop} {x : VmM α} {f : α → VmM β} (hx : Gives I Q x) (hf : ∀ a, Q a → Gives I R (f a)) :
    Gives I R (x >>= f) := by
  intro vm h
  obtain ⟨h1, h2⟩ := hx vm h
  simp only [bind_apply]
  cases hxp : x vm with
  | ok a p' => rw [hxp] at h1; exact hf a (h2 a p' hxp) p' h1
  | err m p' => rw [hxp] at h1; exact ⟨h1, fun a vm' e => by cases e⟩
  | halt h => exact ⟨trivial, fun a vm' e => by cases e⟩

theorem Gives.pure {Q : α → Prop} {a : α} (h : Q a) : Gives I Q (Pure.pure a : VmM α) :=
  fun vm hv => ⟨hv, fun b vm' e => by cases e; exact h⟩

theorem Gives.keeps {Q : α → Prop} {x : VmM α} (h : Gives I Q x) : Keeps I x := fun vm hv => (h vm hv).1

theorem Gives.of {x : VmM α} (h : Keeps I x) : Gives I (fun _ => True) x := fun vm hv => ⟨h vm hv, fun _ _ _ => trivial⟩

theorem Gives.keepsBind {Q : α → Prop} {x : VmM α} {f : α → VmM β} (hx : Gives I Q x) (hf : ∀ a, Q a → Keeps I (f a)) :
    Keeps I (x >>= f) := (Gives.bind hx (fun a ha => Gives.of (hf a ha))).keeps
end

theorem gives_sym (id : Nat) : Gives Brief ShortSym (sym id) := by
  intro vm h
  refine ⟨Keeps.sym id vm h, ?_⟩
  intro s vm' e
  simp only [sym] at e
  split at e
  · cases e
    rename_i hs
    unfold symbolAt at hs
    split at hs
    · cases hs
      rename_i hs
      exact h.tab _ (List.mem_of_getElem? hs)
    · cases hs
  · cases e

theorem gives_popStr : Gives Brief Short popStr := by
  intro vm h
  refine ⟨closed_brief.popStr vm h, ?_⟩
  intro s vm' e
  simp only [popStr] at e
  split at e
  · cases e
  · cases e
    rename_i hs
    exact h.stack _ (by rw [hs]; exact List.mem_cons_self)

theorem keeps_pushStr_brief {s : CStr} (hs : Short s) : Keeps Brief (pushStr s) := by
  intro vm h
  simp only [pushStr]
  split
  · exact h
  · refine ⟨?_, h.tab, h.stored, h.immediate, h.defCode, h.input⟩
    intro t ht
    rcases List.mem_cons.1 ht with rfl | ht
    · exact hs
    · exact h.stack t ht

theorem gives_inputRest : Gives Brief Short inputRest := by
  intro vm h
  refine ⟨Keeps.inputRest vm h, ?_⟩
  intro s vm' e
  simp only [inputRest] at e
  split at e
  · cases e
  · cases e
    exact Nat.le_trans (by simp) h.input

theorem gives_curBcode : Gives Brief ShortCode curBcode := by
  intro vm h
  refine ⟨Keeps.curBcode vm h, ?_⟩
  intro b vm' e
  simp only [curBcode] at e
  split at e
  · cases e
  · rename_i r _
    split at e
    · cases e
    · cases e
      rename_i hb
      cases r with
      | stored => exact h.stored _ hb
      | immediate => exact h.immediate _ hb
      | def_ => exact h.defCode _ hb

theorem Brief.dataSource {vm : VM} (h : Brief vm) {b : Bcode} {dp : Nat} {imm : Bool}
    (hd : dataSource vm = .ok (some b, dp, imm)) : ShortCode b := by
  unfold V.dataSource at hd
  split at hd
  · split at hd
    · cases hd
    · rename_i b' hb'
      split at hd
      · simp only [Outcome.ok.injEq, Prod.mk.injEq, Option.some.injEq] at hd
        exact h.immediate _ (hd.1 ▸ hb')
      · simp only [Outcome.ok.injEq, Prod.mk.injEq] at hd; exact h.stored _ hd.1
  · simp only [Outcome.ok.injEq, Prod.mk.injEq] at hd; exact h.stored _ hd.1

theorem gives_findData : Gives Brief Short findData := by
  intro vm h
  refine ⟨keeps_findData closed_brief (by decide) vm h, ?_⟩
  intro s vm' e
  simp only [findData, bind_apply, get_apply] at e
  cases hd : dataSource vm with
  | halt => rw [hd] at e; cases e
  | ok r =>
    obtain ⟨bc, dp, imm⟩ := r
    rw [hd] at e
    simp only [lift_ok] at e
    cases bc with
    | none => cases e
    | some b =>
      simp only [ite_apply] at e
      by_cases hb : (!b.hasData) = true
      · rw [if_pos hb] at e; cases e
      · rw [if_neg hb] at e
        cases hg : b.inst[scan Inst.isData b.inst dp]? with
        | none => rw [hg] at e; cases e
        | some i =>
          rw [hg] at e
          cases i with
          | data w => cases e; exact (h.dataSource hd) _ (List.mem_of_getElem? hg)
          | _ => cases e

/-- The strings of an array are short. -/
def ShortArr (a : BArray (Option CStr)) : Prop := ∀ v, some v ∈ a.val → Short v

theorem shortSym_setArr (a : Option (BArray (Option CStr))) (d : Bool) (h : ∀ b, a = some b → ShortArr b) (s : Symbol) (hs : ShortSym s) :
    ShortSym { strField.set a s with defined := d } := ⟨hs.str, h, hs.code⟩

theorem gives_newArray (m : List Nat) : Gives Brief (fun a : Option (BArray (Option CStr)) => ∀ b, a = some b → ShortArr b)
    (lift (newArray strField.zero 0 m)) := by
  intro vm h
  refine ⟨Keeps.lift _ vm h, ?_⟩
  intro a vm' e b hb
  subst hb
  unfold newArray at e
  split at e
  · cases e
  · cases e
  · cases e
    intro v hv
    simp only [strField, List.mem_replicate] at hv
    cases hv.2

theorem keeps_dimension_brief (id : Nat) (m : List Nat) : Keeps Brief (dimension strField id m) := by
  unfold dimension
  refine Keeps.bind (Keeps.sym _) (fun _ => Keeps.bind (Keeps.assert _ _) (fun _ => ?_))
  refine (gives_newArray m).keepsBind (fun a ha => ?_)
  cases a with
  | none => exact Keeps.bind (keeps_updSym_brief _ _ (shortSym_setArr _ _ ((fun _ h => by cases h)))) (fun _ => Keeps.fail _)
  | some a => exact keeps_updSym_brief _ _ (shortSym_setArr _ _ ha)

theorem keeps_dimStatement_brief (id n : Nat) : Keeps Brief (dimStatement strField id n) := by
  unfold dimStatement
  keeps
  · exact keeps_updSym_brief _ _ (shortSym_setArr _ _ ((fun _ h => by cases h)))
  · exact keeps_popIndexes closed_brief n
  · exact keeps_dimension_brief _ _

theorem gives_elementArray (id n : Nat) : Gives Brief (fun r => ShortArr r.1) (elementArray strField id n) := by
  unfold elementArray
  refine Gives.bind (Gives.of (Keeps.sym _)) (fun s _ => Gives.bind (Gives.of (Keeps.assert _ _)) (fun _ _ => ?_))
  refine Gives.bind (Gives.of (keeps_popIndexes closed_brief n)) (fun ix _ => ?_)
  refine Gives.bind (Gives.of (Keeps.when ?_)) (fun _ _ => ?_)
  · unfold dimensionAuto
    keeps
    exact keeps_dimension_brief _ _
  · refine Gives.bind (gives_sym _) (fun s hs => ?_)
    split
    · exact fun vm h => ⟨trivial, fun a vm' e => by cases e⟩
    · rename_i a ha
      exact Gives.pure (hs.arr a ha)

theorem gives_getElement (id n : Nat) : Gives Brief (fun v => ∀ s, v = some s → Short s) (getElement strField id n) := by
  unfold getElement
  refine Gives.bind (gives_elementArray id n) (fun r hr => ?_)
  obtain ⟨a, ix⟩ := r
  intro vm h
  constructor
  · refine Keeps.bind (Keeps.lift _) (fun o => ?_) vm h
    split
    · exact Keeps.fail _
    · exact Keeps.pure _
  · intro v vm' e s hv
    subst hv
    simp only [bind_apply] at e
    cases hg : arrayGet a ix with
    | halt => rw [hg] at e; cases e
    | ok o =>
      rw [hg] at e
      simp only [lift_ok] at e
      cases o with
      | none => cases e
      | some v =>
        cases e
        unfold arrayGet at hg
        split at hg
        · cases hg
        · cases hg
        · split at hg
          · cases hg
            rename_i hx
            exact hr s (List.mem_of_getElem? hx)
          · cases hg

theorem keeps_setElement_brief (id n : Nat) {x : CStr} (hx : Short x) : Keeps Brief (setElement strField id n (some x)) := by
  unfold setElement
  refine (gives_elementArray id n).keepsBind (fun r hr => ?_)
  obtain ⟨a, ix⟩ := r
  simp only
  cases hs : arraySet a ix (some x) with
  | halt => exact fun _ _ => trivial
  | ok o =>
    cases o with
    | none => exact fun vm h => h
    | some a' =>
      refine keeps_updSym_brief _ _ (fun s hs' => ⟨hs'.str, ?_, hs'.code⟩)
      intro b hb
      cases hb
      unfold arraySet at hs
      split at hs
      · cases hs
      · cases hs
      · split at hs
        · cases hs
          intro v hv
          rcases List.mem_or_eq_of_mem_set hv with hv | hv
          · exact hr v hv
          · cases hv; exact hx
        · cases hs

theorem keeps_setStringSimple_brief (id : Nat) {x : CStr} (hx : Short x) : Keeps Brief (setStringSimple id x) := by
  unfold setStringSimple
  keeps
  exact keeps_updSym_brief _ _ (fun s hs => ⟨(fun v h => by cases h; exact hx), hs.arr, hs.code⟩)

theorem keeps_setString_brief (id n : Nat) {x : CStr} (hx : Short x) : Keeps Brief (setString id n x) := by
  unfold setString
  split
  · exact keeps_setStringSimple_brief _ hx
  · exact keeps_setElement_brief _ _ hx

theorem keeps_getStringSimple_brief (id : Nat) : Keeps Brief (getStringSimple id) := by
  unfold getStringSimple
  refine Keeps.bind (Keeps.sym _) (fun _ => Keeps.bind (Keeps.assert _ _) (fun _ => Keeps.bind (Keeps.when ?_) (fun _ => ?_)))
  · exact keeps_updSym_brief _ _ (fun s hs => ⟨(fun v h => by cases h), hs.arr, hs.code⟩)
  · refine (gives_sym _).keepsBind (fun s hs => keeps_pushStr_brief ?_)
    cases h : s.str with
    | none => exact Nat.zero_le _
    | some v => exact hs.str v h

theorem keeps_callDef_brief (id n : Nat) : Keeps Brief (callDef id n) := by
  unfold callDef
  refine (gives_sym _).keepsBind (fun s hs => ?_)
  have hcode := hs.code
  keeps
  · exact Keeps.modify (fun vm h => h.same rfl rfl rfl rfl rfl rfl)
  · rename_i d hd _ _ _ _ _ _
    exact Keeps.modify (fun vm h => ⟨h.stack, h.tab, h.stored, h.immediate, (fun b hb => by cases hb; exact hcode d hd), h.input⟩)
  · exact Keeps.modify (fun vm h => h.same rfl rfl rfl rfl rfl rfl)
  · exact Keeps.modify (fun vm h => h.same rfl rfl rfl rfl rfl rfl)
  · exact closed_brief.pop
  · exact keeps_updSym_brief _ _ (fun s hs => ⟨hs.str, hs.arr, hs.code⟩)
  · exact Keeps.modify (fun vm h => h.same rfl rfl rfl rfl rfl rfl)

theorem keeps_endDef_brief : Keeps Brief endDef := by
  unfold endDef
  keeps
  · exact Keeps.modify (fun vm h => h.same rfl rfl rfl rfl rfl rfl)
  · exact Keeps.modify (fun vm h => h.same rfl rfl rfl rfl rfl rfl)
  · exact keeps_updSym_brief _ _ (fun s hs => ⟨hs.str, hs.arr, hs.code⟩)

theorem keeps_defStatement_brief (id n : Nat) : Keeps Brief (defStatement id n) := by
  unfold defStatement
  refine Keeps.bind (Keeps.sym _) (fun _ => Keeps.bind (Keeps.assert _ _) (fun _ => Keeps.bind (Keeps.when ?_) (fun _ => ?_)))
  · refine Keeps.bind (Keeps.assert _ _) (fun _ => ?_)
    exact keeps_updSym_brief _ _ (fun s hs => ⟨hs.str, hs.arr, (fun _ h => by cases h)⟩)
  refine Keeps.bind (Keeps.check _ _) (fun _ => gives_curBcode.keepsBind (fun bc hbc => Keeps.bind Keeps.get (fun vm => ?_)))
  cases hcopy : bcodeCopyDef bc vm.cs.pc with
  | halt => exact fun _ _ => trivial
  | ok body =>
    refine Keeps.bind (x := updSym _ _) ?_ (fun _ => keeps_setPc closed_brief _)
    apply keeps_updSym_brief
    intro s hs
    refine ⟨hs.str, hs.arr, ?_⟩
    intro d hd
    cases hd
    unfold bcodeCopyDef at hcopy
    split at hcopy
    · cases hcopy
    · cases hcopy
      intro i hi
      simp only [List.mem_append, List.mem_singleton] at hi
      rcases hi with hi | rfl
      · exact hbc i (List.mem_of_mem_drop ((List.takeWhile_sublist _).subset hi))
      · trivial

theorem short_take {s : CStr} (h : Short s) (n : Nat) : Short (s.take n) :=
  Nat.le_trans (by simp only [List.length_take]; omega) h
theorem short_drop {s : CStr} (h : Short s) (n : Nat) : Short (s.drop n) :=
  Nat.le_trans (by simp only [List.length_drop]; omega) h

theorem short_timeText (t : Fin 24 × Fin 60 × Fin 61) : Short (timeText t) := by
  have h2 : ∀ n : Fin 61, (twoDigits n).length ≤ 2 := by decide
  obtain ⟨a, b, c⟩ := t
  have ha := h2 ⟨a.val, by omega⟩
  have hb := h2 ⟨b.val, by omega⟩
  have hc := h2 c
  simp only at ha hb hc
  simp only [timeText, Short, List.length_append, List.length_cons]
  omega

theorem keeps_exec_brief (env : Env) (i : Inst) (hi : ShortInst i) : Keeps Brief (exec env i) := by
  have plain : (∀ a, touches i a = true → a ≠ .str ∧ a ≠ .fn) → Keeps Brief (exec env i) := keeps_exec closed_brief env i
  by_cases hp : ∀ a, touches i a = true → a ≠ .str ∧ a ≠ .fn
  · exact plain hp
  · clear plain
    cases i with
    | pushStr s => exact Keeps.brk (keeps_pushStr_brief hi)
    | concat =>
      refine Keeps.brk (gives_popStr.keepsBind (fun t ht => gives_popStr.keepsBind (fun s hs => ?_)))
      intro vm h
      simp only [bind_apply, check_apply]
      by_cases hc : decide (s.length + t.length + 1 > strBuf) = true
      · rw [if_pos hc]; exact h
      · rw [if_neg hc]
        refine keeps_pushStr_brief ?_ vm h
        have hc' : ¬ (s.length + t.length + 1 > strBuf) := fun g => hc (decide_eq_true g)
        have : strBuf = 256 := rfl
        simp only [Short, List.length_append]
        omega
    | setSimpleStr id =>
      exact Keeps.brk (Keeps.bind (Keeps.sym _) (fun _ => gives_popStr.keepsBind (fun x hx => keeps_setStringSimple_brief _ hx)))
    | getSimpleStr id => exact Keeps.brk (keeps_getStringSimple_brief _)
    | dimStr id n => exact Keeps.brk (keeps_dimStatement_brief _ _)
    | getParenStr id n =>
      simp only [exec, getParenStr]
      refine Keeps.brk (Keeps.bind (Keeps.sym _) (fun s => Keeps.bind (Keeps.assert _ _) (fun _ => ?_)))
      split
      · refine (gives_getElement _ _).keepsBind (fun v hv => keeps_pushStr_brief ?_)
        cases v with
        | none => exact Nat.zero_le _
        | some s => exact hv s rfl
      · exact Keeps.bind (Keeps.assert _ _) (fun _ => keeps_callDef_brief _ _)
    | getParenNum id n =>
      simp only [exec, getParenNum]
      keeps
      · exact keeps_getElement closed_brief (by decide) (numField_ok (by decide)) _ _
      · exact closed_brief.push (by decide) _
      · exact keeps_callDef_brief _ _
    | setArrayStr id n =>
      exact Keeps.brk (Keeps.bind (Keeps.sym _) (fun _ => gives_popStr.keepsBind (fun x hx => keeps_setElement_brief _ _ hx)))
    | def_ id n => exact Keeps.brk (keeps_defStatement_brief _ _)
    | endDef => exact Keeps.brk keeps_endDef_brief
    | inputStr id n =>
      simp only [exec, inputStr]
      refine Keeps.brk (gives_inputRest.keepsBind (fun s hs => ?_))
      refine Keeps.bind (Keeps.modify (fun vm h => h.same rfl rfl rfl rfl rfl rfl)) (fun _ => Keeps.bind (Keeps.sym _) (fun _ => ?_))
      exact keeps_setString_brief _ _ (Nat.le_trans (List.takeWhile_sublist _).length_le hs)
    | inputLine id n =>
      simp only [exec, inputLine]
      refine Keeps.brk (Keeps.bind (Keeps.modify (fun vm h => ?_)) (fun _ => ?_))
      · exact closed_brief.input (by decide) vm _ (.inr (List.takeWhile_sublist _).length_le) h
      · intro vm h
        simp only [bind_apply, get_apply]
        exact Keeps.bind (Keeps.sym _) (fun _ => keeps_setString_brief _ _ h.input) vm h
    | readStr id n => exact Keeps.brk (gives_findData.keepsBind (fun s hs => keeps_setString_brief _ _ hs))
    | bi b =>
      cases b with
      | left =>
        simp only [exec, builtinOp, leftFn]
        refine Keeps.brk (gives_popStr.keepsBind (fun s hs => Keeps.bind (keeps_popUnsigned closed_brief) (fun u =>
          Keeps.bind (Keeps.check _ _) (fun _ => keeps_pushStr_brief (short_take hs _)))))
      | right =>
        simp only [exec, builtinOp, rightFn]
        refine Keeps.brk (gives_popStr.keepsBind (fun s hs => Keeps.bind (keeps_popUnsigned closed_brief) (fun u =>
          Keeps.bind (Keeps.check _ _) (fun _ => keeps_pushStr_brief (short_take (short_drop hs _) _)))))
      | mid3 =>
        simp only [exec, builtinOp, midFn]
        refine Keeps.brk (gives_popStr.keepsBind (fun s hs => Keeps.bind (keeps_popUnsigned closed_brief) (fun v =>
          Keeps.bind (keeps_popUnsigned closed_brief) (fun u => Keeps.bind (Keeps.check _ _) (fun _ =>
          Keeps.bind (Keeps.check _ _) (fun _ => keeps_pushStr_brief (short_take (short_drop hs _) _)))))))
      | chr =>
        simp only [exec, builtinOp]
        refine Keeps.brk (Keeps.bind closed_brief.pop (fun x => Keeps.bind (Keeps.check _ _) (fun _ => keeps_pushStr_brief ?_)))
        unfold chrStr
        split <;> simp [Short]
      | str =>
        simp only [exec, builtinOp]
        refine Keeps.brk (Keeps.bind closed_brief.pop (fun x => keeps_pushStr_brief ?_))
        exact Nat.le_trans (Dbl.fmtG_length x) (by decide)
      | timeStr =>
        simp only [exec, builtinOp]
        refine Keeps.brk (Keeps.bind (keeps_readClock closed_brief (by decide) env) (fun t => keeps_pushStr_brief (short_timeText _)))
      | _ => exact absurd (fun a ha => by revert ha; cases a <;> simp [touches]) hp
    | _ => exact absurd (fun a ha => by revert ha; cases a <;> simp [touches]) hp

theorem keeps_execute_brief (env : Env) : Keeps Brief (execute env) := by
  unfold execute
  refine gives_curBcode.keepsBind (fun bc hbc => Keeps.bind Keeps.get (fun vm => ?_))
  split
  · exact Keeps.halt _
  · rename_i i hi
    refine Keeps.bind (keeps_exec_brief env i (hbc i (List.mem_of_getElem? hi))) (fun f => ?_)
    keeps
    exact Keeps.modify (fun vm h => h.same rfl rfl rfl rfl rfl rfl)

theorem brief_ensureProgramCompiled {vm vm' : VM} {b : Bool} (h : Brief vm)
    (hr : ensureProgramCompiled vm = .ok (b, vm')) : Brief vm' := by
  unfold ensureProgramCompiled at hr
  split at hr
  · split at hr
    · simp at hr
    · split at hr
      · simp at hr
      · rename_i hp
        simp at hr; obtain ⟨_, rfl⟩ := hr
        exact ⟨h.stack, (parseSource_short (shortTab_fresh _) hp).1, h.stored, h.immediate, h.defCode, h.input⟩
      · rename_i hp
        split at hr
        · simp at hr
        · simp at hr; obtain ⟨_, rfl⟩ := hr
          have := parseSource_short (shortTab_fresh _) hp
          exact ⟨(fun _ e => by cases e), this.1, (fun b hb => by cases hb; exact this.2 _ rfl), h.immediate, h.defCode, h.input⟩
  · simp at hr; exact hr.2 ▸ h

theorem moment_brief {vm : VM} (h : Moment vm) : Brief vm := by
  induction h with
  | start kw tb tf w =>
    exact ⟨(fun _ e => by cases e), shortTab_start, (fun _ e => by cases e), (fun _ e => by cases e), (fun _ e => by cases e), Nat.zero_le _⟩
  | world w _ ih => exact ih.same rfl rfl rfl rfl rfl rfl
  | enter num text _ _ he ih =>
    unfold vmEnterSourceLine at he
    split at he
    · simp at he
    · simp at he; subst he
      exact ⟨ih.stack, ih.tab, (fun _ e => by cases e), ih.immediate, ih.defCode, ih.input⟩
  | delete num _ ih =>
    unfold vmDeleteSourceLine
    split
    · exact ih
    · split
      · exact ih
      · exact ⟨ih.stack, ih.tab, (fun _ e => by cases e), ih.immediate, ih.defCode, ih.input⟩
  | new _ ih => exact ⟨ih.stack, ih.tab, (fun _ e => by cases e), ih.immediate, ih.defCode, ih.input⟩
  | clearNames _ ih => exact ⟨ih.stack, shortTab_fresh _, ih.stored, ih.immediate, ih.defCode, ih.input⟩
  | clearValues _ ih => exact ⟨ih.stack, ih.tab.clear, ih.stored, ih.immediate, ih.defCode, ih.input⟩
  | load name c b _ he ih =>
    unfold vmLoadSource at he
    split at he
    · simp at he
    · simp at he; exact he.2 ▸ ih
    · simp at he; obtain ⟨_, rfl⟩ := he
      exact ⟨ih.stack, ih.tab, (fun _ e => by cases e), ih.immediate, ih.defCode, ih.input⟩
  | renum _ _ _ _ he ih =>
    obtain ⟨src, w, rfl⟩ := renumber_frame he
    exact ih.same rfl rfl rfl rfl rfl rfl
  | compile b _ he ih => exact brief_ensureProgramCompiled ih he
  | reset _ ih => exact ⟨(fun _ e => by cases e), ih.tab, ih.stored, ih.immediate, ih.defCode, ih.input⟩
  | at_ _ _ ih => exact ih.same rfl rfl rfl rfl rfl rfl
  | stopped _ _ _ ih => exact ih.same rfl rfl rfl rfl rfl rfl
  | noImmediate _ ih => exact ⟨ih.stack, ih.tab, ih.stored, (fun _ e => by cases e), ih.defCode, ih.input⟩
  | immediateFailed _ _ _ hp ih =>
    exact ⟨ih.stack, (parseSource_short ih.tab hp).1, ih.stored, ih.immediate, ih.defCode, ih.input⟩
  | immediate _ _ _ hp _ ih =>
    have := parseSource_short ih.tab hp
    exact ⟨ih.stack, this.1, ih.stored, (fun b hb => by cases hb; exact this.2 _ rfl), ih.defCode, ih.input⟩
  | step env _ he ih =>
    have := keeps_execute_brief env _ ih
    rw [he] at this; exact this
  | error env _ he ih =>
    have := keeps_execute_brief env _ ih
    rw [he] at this; exact this

end V
end LB
