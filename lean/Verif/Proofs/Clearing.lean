import Verif.Spec.Clearing
import Verif.Proofs.HeldState
/- Forgetting values, and arrays without dimensions. -/
namespace LB
open LB.Spec

/-- Names as they are compared after clearing. -/
theorem sameNames_clear (st : SymTab) : SameNames st (clearSymbolTableValues st) := by
  have hh := heads_clear st
  refine ⟨fun name paren => ?_, ?_⟩
  · unfold symLookup
    show (st.hash (symHash name)).find? _ = _
    congr 1
    funext p
    unfold symMatches
    simp only [clearSymbolTableValues, List.getElem?_map]
    cases st.psym[p]? with
    | none => rfl
    | some s =>
      simp only [Option.map_some]
      split
      · rw [(undefineValue_name s).1, (undefineValue_name s).2.1]
      · rfl
  · simp only [clearSymbolTableValues, List.map_map]
    apply List.map_congr_left
    intro s _
    simp only [Function.comp_apply]
    split
    · obtain ⟨h1, h2, h3, h4⟩ := undefineValue_name s
      rw [h1, h2, h3, h4]
    · rfl

/-- A symbol that has no value. -/
def Empty (s : Symbol) : Prop := s.kind ≠ .builtin → s.defined = false ∧ s.str = none ∧ s.numarr = none ∧ s.strarr = none ∧ s.def_ = none

theorem HeldSym.empty {s : Symbol} (h : HeldSym s) (hd : s.defined = false) : Empty s := by
  intro _
  refine ⟨hd, ?_, ?_, ?_, ?_⟩
  · cases hx : s.str with
    | none => rfl
    | some x => have := (h.str (by rw [hx]; rfl)).2.2; rw [hd] at this; cases this
  · cases hx : s.numarr with
    | none => rfl
    | some x => have := (h.numarr x hx).2.2.1; rw [hd] at this; cases this
  · cases hx : s.strarr with
    | none => rfl
    | some x => have := (h.strarr x hx).2.2.1; rw [hd] at this; cases this
  · cases hx : s.def_ with
    | none => rfl
    | some x => have := (h.def_ x hx).2.1; rw [hd] at this; cases this

theorem unused_clear {st : SymTab} (h : AllSym HeldSym st) : Unused (clearSymbolTableValues st) := by
  intro j s' hs' hk
  simp only [clearSymbolTableValues, List.getElem?_map, Option.map_eq_some_iff] at hs'
  obtain ⟨s, hs, rfl⟩ := hs'
  have hh := h j s hs
  by_cases hd : s.defined = true
  · rw [if_pos hd] at hk ⊢
    have hu := heldSym_undefine s hh hd
    refine hu.empty ?_ hk
    have hk' : s.kind ≠ .builtin := by rw [← (undefineValue_name s).2.1]; exact hk
    unfold undefineValue
    split
    · rename_i hb; exact absurd hb hk'
    all_goals first | rfl | (split <;> rfl)
  · rw [if_neg hd] at hk ⊢
    exact hh.empty (by simpa using hd) hk

theorem empty_new : Nameable Empty where
  new name id k t _ := fun _ => ⟨rfl, rfl, rfl, rfl, rfl⟩
  known s k h hu _ := fun _ => h (by rw [hu]; simp)

theorem empty_builtin : ∀ s ∈ builtinSymbols, Empty s := by
  intro s hs hk
  have h : ∀ s ∈ builtinSymbols, s.kind = .builtin := by decide
  exact absurd (h s hs) hk

theorem autoShape_inRange (ns : List Nat) : _root_.Spec.InRange ns (autoShape ns) := by
  refine ⟨by simp [autoShape], fun k i m hi hm => ?_⟩
  simp only [autoShape, List.getElem?_map, hi, Option.map_some, Option.some.injEq] at hm
  omega

namespace V

variable {α : Type}

/-- What the two kinds of arrays have in common. -/
structure Field (F : ArrField α) : Prop where
  kind : ∀ a s, (F.set a s).kind = s.kind
  type : ∀ a s, (F.set a s).type = s.type
  get : ∀ a s, F.get (F.set a s) = a
  get' : ∀ a s b, F.get { F.set a s with defined := b } = a
  unset : ∀ s, F.get s = none → s.defined = false → { F.set none s with defined := false } = s
  again : ∀ s a b, { F.set a { F.set none s with defined := false } with defined := b } = { F.set a s with defined := b }

theorem field_num : Field numField := ⟨fun _ _ => rfl, fun _ _ => rfl, fun _ _ => rfl, fun _ _ _ => rfl, fun s h h' => (by
  cases s; simp only [numField] at h h' ⊢; subst h; subst h'; rfl), fun _ _ _ => rfl⟩
theorem field_str : Field strField := ⟨fun _ _ => rfl, fun _ _ => rfl, fun _ _ => rfl, fun _ _ _ => rfl, fun s h h' => (by
  cases s; simp only [strField] at h h' ⊢; subst h; subst h'; rfl), fun _ _ _ => rfl⟩

/-- A new array. -/
def fresh (F : ArrField α) (max : List Nat) : BArray α :=
  { size := { base := 0, dimensions := max.length, max := max, elements := _root_.Spec.cells max },
    val := List.replicate (_root_.Spec.cells max) F.zero }

theorem newArray_shape (F : ArrField α) {max : List Nat} (hm : ∀ m ∈ max, m < 2 ^ 32 - 1) :
    newArray F.zero 0 max = .ok (if Shape max then some (fresh F max) else none) := by
  rw [C15_dim_partial F.zero max hm]
  by_cases h : Shape max
  · rw [if_pos h, if_pos (show _ ∧ _ from h)]; rfl
  · rw [if_neg h, if_neg (show ¬ (_ ∧ _) from h)]

theorem fresh_dim (F : ArrField α) {max : List Nat} (h : Shape max) : Dimensioned (fresh F max) max :=
  ⟨h.1, h.2, rfl, by simp [fresh]⟩

theorem fresh_filled (F : ArrField α) {max : List Nat} (h : Shape max) : FilledWith (fresh F max) max F.zero := by
  intro idx
  rw [arrayGet_dim _ max idx (fresh_dim F h)]
  constructor
  · intro hr
    rw [if_pos hr]
    have := rowMajor_lt max idx h.1 hr
    simp [fresh, this]
  · intro hr
    rw [if_neg hr]

/-- The table with the array `a` for the symbol `id`. -/
def withArray (F : ArrField α) (st : SymTab) (id : Nat) (a : BArray α) : SymTab :=
  symUpdate st id (fun s => { F.set (some a) s with defined := true })

theorem dropped {F : ArrField α} (hF : Field F) {st : SymTab} {id : Nat} {s : Symbol} (hs : st.psym[id]? = some s)
    (hg : F.get s = none) (hd : s.defined = false) : symUpdate st id (fun s => { F.set none s with defined := false }) = st := by
  unfold symUpdate
  have : st.psym.modify id (fun s => { F.set none s with defined := false }) = st.psym := by
    apply List.ext_getElem?
    intro i
    rw [List.getElem?_modify]
    by_cases hi : id = i
    · subst hi; rw [hs]; simp [hF.unset s hg hd]
    · simp [hi]
  rw [this]

theorem dimension_eq {F : ArrField α} {vm : VM} {id : Nat} {s : Symbol} {max : List Nat}
    (hs : vm.st.psym[id]? = some s) (ha : isArr s F.type = true) (hm : ∀ m ∈ max, m < 2 ^ 32 - 1) :
    dimension F id max vm = if Shape max then .ok () { vm with st := withArray F vm.st id (fresh F max) }
      else .err .invalidDimensions { vm with st := symUpdate vm.st id (fun s => { F.set none s with defined := false }) } := by
  unfold dimension
  simp only [bind_apply, sym_ok hs, assert_apply, ha, if_true, newArray_shape F hm, lift_ok]
  split
  · rfl
  · rfl

theorem autoShape_eq (ns : List Nat) : ns.map (fun i => if i < 10 then 10 else i) = autoShape ns := by
  unfold autoShape
  apply List.map_congr_left
  intro i _
  simp only [Nat.max_def]
  split <;> split <;> omega

theorem autoShape_lt {ns : List Nat} (h : ∀ m ∈ ns, m < 2 ^ 32 - 1) : ∀ m ∈ autoShape ns, m < 2 ^ 32 - 1 := by
  intro m hm
  unfold autoShape at hm
  obtain ⟨i, hi, rfl⟩ := List.mem_map.1 hm
  have := h i hi
  omega

/-- Using an array without dimensions. -/
theorem elementArray_auto {F : ArrField α} (hF : Field F) {vm : VM} {id n : Nat} {s : Symbol} {xs rest : List Dbl} {ns : List Nat}
    (hs : vm.st.psym[id]? = some s) (ha : isArr s F.type = true) (hd : s.defined = false) (hg : F.get s = none)
    (hst : vm.stack = xs ++ rest) (hn : xs.length = n) (h2 : n ≤ 2) (hx : AreCounts xs ns) (hlt : ∀ m ∈ ns, m < 2 ^ 32 - 1) :
    elementArray F id n vm = if Shape (autoShape ns) then
        .ok (fresh F (autoShape ns), ns) { vm with stack := rest, st := withArray F vm.st id (fresh F (autoShape ns)) }
      else .err .invalidDimensions { vm with stack := rest } := by
  have hp := popIndexes_counts hst hn (show n ≤ maxDimensions from h2) hx
  have hs' : ({ vm with stack := rest } : VM).st.psym[id]? = some s := hs
  unfold elementArray
  simp only [bind_apply, sym_ok hs, assert_apply, ha, if_true, hp, when_apply, hd, Bool.not_false, dimensionAuto,
    sym_ok hs', hg, Option.isNone_none, autoShape_eq, dimension_eq hs' ha (autoShape_lt hlt)]
  by_cases hsh : Shape (autoShape ns)
  · rw [if_pos hsh, if_pos hsh]
    have hs2 : ({ vm with stack := rest, st := withArray F vm.st id (fresh F (autoShape ns)) } : VM).st.psym[id]? =
        some { F.set (some (fresh F (autoShape ns))) s with defined := true } := updated_at hs _
    simp only [sym_ok hs2, hF.get', pure_apply]
  · rw [if_neg hsh, if_neg hsh]
    simp only
    rw [show symUpdate vm.st id _ = vm.st from dropped hF hs hg hd]

/-- The whole of DIM. -/
theorem dimStatement_eq {F : ArrField α} (hF : Field F) (hH : FieldHeld F) {vm : VM} {id n : Nat} {s : Symbol} {xs rest : List Dbl} {ns : List Nat}
    (hsym : AllSym HeldSym vm.st) (hs : vm.st.psym[id]? = some s) (ha : isArr s F.type = true)
    (hst : vm.stack = xs ++ rest) (hn : xs.length = n) (h2 : n ≤ 2) (hx : AreCounts xs ns) (hlt : ∀ m ∈ ns, m < 2 ^ 32 - 1) :
    ∃ st', SameBut id vm.st st' ∧
      (Shape ns → dimStatement F id n vm = .ok () { vm with stack := rest, st := st' } ∧
        st'.psym[id]? = some { F.set (some (fresh F ns)) s with defined := true }) ∧
      (¬ Shape ns → dimStatement F id n vm = .err .invalidDimensions { vm with stack := rest, st := st' } ∧
        st'.psym[id]? = some { F.set none s with defined := false }) := by
  have go : ∀ (vm1 : VM) (s1 : Symbol), vm1.st.psym[id]? = some s1 → isArr s1 F.type = true → vm1.stack = xs ++ rest →
      (popIndexes n >>= fun max => dimension F id max) vm1 = if Shape ns then
        .ok () { vm1 with stack := rest, st := withArray F vm1.st id (fresh F ns) }
      else .err .invalidDimensions { vm1 with stack := rest, st := symUpdate vm1.st id (fun s => { F.set none s with defined := false }) } := by
    intro vm1 s1 hs1 ha1 hst1
    have hp := popIndexes_counts hst1 hn (show n ≤ maxDimensions from h2) hx
    simp only [bind_apply, hp]
    exact dimension_eq (vm := { vm1 with stack := rest }) hs1 ha1 hlt
  have hsb : ∀ {f g : Symbol → Symbol}, SameBut id vm.st (symUpdate (symUpdate vm.st id f) id g) := by
    intro f g
    refine ⟨rfl, rfl, fun j hj => ?_⟩
    rw [symUpdate_other _ _ _ _ hj, symUpdate_other _ _ _ _ hj]
  cases hg : F.get s with
  | none =>
    have he : dimStatement F id n vm = (popIndexes n >>= fun max => dimension F id max) vm := by
      unfold dimStatement
      simp only [bind_apply, sym_ok hs, assert_apply, ha, if_true, when_apply, hg, Option.isSome_none, Bool.false_eq_true, if_false]
    rw [he, go vm s hs ha hst]
    by_cases hsh : Shape ns
    · exact ⟨withArray F vm.st id (fresh F ns), symUpdate_sameBut _ _ _, fun _ => ⟨by rw [if_pos hsh], updated_at hs _⟩, fun h => absurd hsh h⟩
    · exact ⟨symUpdate vm.st id _, symUpdate_sameBut _ _ _, fun h => absurd h hsh, fun _ => ⟨by rw [if_neg hsh], updated_at hs _⟩⟩
  | some a =>
    have hd := (hH.held s a (hsym id s hs) hg).1
    have hs1 := updated_at hs (fun s => { F.set none s with defined := false })
    have ha1 : isArr { F.set none s with defined := false } F.type = true := by
      show isArr (F.set none s) F.type = true
      rw [hH.kind]; exact ha
    have he : dimStatement F id n vm = (popIndexes n >>= fun max => dimension F id max)
        { vm with st := symUpdate vm.st id (fun s => { F.set none s with defined := false }) } := by
      unfold dimStatement
      simp only [bind_apply, sym_ok hs, assert_apply, ha, if_true, when_apply, hg, Option.isSome_some, hd, updSym, modify_apply]
    rw [he, go { vm with st := symUpdate vm.st id (fun s => { F.set none s with defined := false }) } _ hs1 ha1 hst]
    by_cases hsh : Shape ns
    · refine ⟨_, hsb, fun _ => ⟨by rw [if_pos hsh]; rfl, ?_⟩, fun h => absurd hsh h⟩
      rw [updated_at hs1 _, hF.again]
    · refine ⟨_, hsb, fun h => absurd h hsh, fun _ => ⟨by rw [if_neg hsh], ?_⟩⟩
      rw [updated_at hs1 _, hF.again]

end V
end LB
