import Verif.Proofs.Symbols
import Verif.Proofs.StateMoment
import Verif.Proofs.Values
import Verif.Props.Arrays
/- What the symbols of a session hold. -/
namespace LB
open LB.Spec Code

/-- The cells of an array: all that its shape needs, or none at all (`C15_dim_wraps`). -/
def ArrOk {α : Type} (a : BArray α) : Prop := (∃ max, Dimensioned a max) ∨ a.val = []

/-- Definitions are followed by their parameter. -/
def DefParam (l : List Inst) : Prop := ∀ (k id n : Nat), l[k]? = some (.def_ id n) → ∃ p, l[k + 1]? = some (.param p)

/-- A symbol holds what belongs to its kind and type, and only while it is defined. -/
structure HeldSym (s : Symbol) : Prop where
  str : s.str.isSome = true → s.kind = .variable ∧ s.type = .str ∧ s.defined = true
  numarr : ∀ a, s.numarr = some a → s.kind = .array ∧ s.type = .num ∧ s.defined = true ∧ ArrOk a
  strarr : ∀ a, s.strarr = some a → s.kind = .array ∧ s.type = .str ∧ s.defined = true ∧ ArrOk a
  def_ : ∀ d, s.def_ = some d → s.kind = .def_ ∧ s.defined = true ∧ DefParam d.bcode.inst ∧ ∃ p, d.bcode.inst[1]? = some (.param p)
  nums : s.kind = .array → s.type = .num → s.defined = true → s.numarr.isSome = true
  strs : s.kind = .array → s.type = .str → s.defined = true → s.strarr.isSome = true
  defs : s.kind = .def_ → s.defined = true → s.def_.isSome = true
  unknown : s.kind = .unknown → s.defined = false
  builtin : s.kind = .builtin → s.defined = true

theorem heldSym_new : Nameable HeldSym where
  new name id k t hb := ⟨fun h => (by cases h), fun _ h => (by cases h), fun _ h => (by cases h), fun _ h => (by cases h),
    fun _ _ h => (by cases h), fun _ _ h => (by cases h), fun _ h => (by cases h), fun _ => rfl, fun h => absurd h hb⟩
  known s k h hu hb := by
    have hd := h.unknown hu
    refine ⟨fun hs => ?_, fun a ha => ?_, fun a ha => ?_, fun d hs => ?_, fun _ _ hx => ?_, fun _ _ hx => ?_, fun _ hx => ?_, fun _ => hd, fun h => absurd h hb⟩
    · have := (h.str hs).1; rw [hu] at this; cases this
    · have := (h.numarr a ha).1; rw [hu] at this; cases this
    · have := (h.strarr a ha).1; rw [hu] at this; cases this
    · have := (h.def_ d hs).1; rw [hu] at this; cases this
    · rw [show s.defined = true from hx] at hd; cases hd
    · rw [show s.defined = true from hx] at hd; cases hd
    · rw [show s.defined = true from hx] at hd; cases hd

/-- Values of the other kinds are absent. -/
theorem HeldSym.var {s : Symbol} (h : HeldSym s) (hk : s.kind = .variable) : s.numarr = none ∧ s.strarr = none ∧ s.def_ = none := by
  refine ⟨?_, ?_, ?_⟩
  · cases ha : s.numarr with
    | none => rfl
    | some a => have := (h.numarr a ha).1; rw [hk] at this; cases this
  · cases ha : s.strarr with
    | none => rfl
    | some a => have := (h.strarr a ha).1; rw [hk] at this; cases this
  · cases ha : s.def_ with
    | none => rfl
    | some a => have := (h.def_ a ha).1; rw [hk] at this; cases this

theorem HeldSym.arr {s : Symbol} (h : HeldSym s) (hk : s.kind = .array) : s.str = none ∧ s.def_ = none ∧
    (s.type = .num → s.strarr = none) ∧ (s.type = .str → s.numarr = none) := by
  refine ⟨?_, ?_, fun ht => ?_, fun ht => ?_⟩
  · cases ha : s.str with
    | none => rfl
    | some a => have := (h.str (by rw [ha]; rfl)).1; rw [hk] at this; cases this
  · cases ha : s.def_ with
    | none => rfl
    | some a => have := (h.def_ a ha).1; rw [hk] at this; cases this
  · cases ha : s.strarr with
    | none => rfl
    | some a => have := (h.strarr a ha).2.1; rw [ht] at this; cases this
  · cases ha : s.numarr with
    | none => rfl
    | some a => have := (h.numarr a ha).2.1; rw [ht] at this; cases this

theorem HeldSym.fn {s : Symbol} (h : HeldSym s) (hk : s.kind = .def_) : s.str = none ∧ s.numarr = none ∧ s.strarr = none := by
  refine ⟨?_, ?_, ?_⟩
  · cases ha : s.str with
    | none => rfl
    | some a => have := (h.str (by rw [ha]; rfl)).1; rw [hk] at this; cases this
  · cases ha : s.numarr with
    | none => rfl
    | some a => have := (h.numarr a ha).1; rw [hk] at this; cases this
  · cases ha : s.strarr with
    | none => rfl
    | some a => have := (h.strarr a ha).1; rw [hk] at this; cases this

/-- A variable may be given a number, be defined or not. -/
theorem HeldSym.setNum {s : Symbol} (h : HeldSym s) (hk : s.kind = .variable) (ht : s.type = .num) (x : Dbl) (b : Bool) :
    HeldSym { s with num := x, defined := b } := by
  obtain ⟨h1, h2, h3⟩ := h.var hk
  refine ⟨fun hs => ?_, fun a ha => ?_, fun a ha => ?_, fun d hs => ?_, fun hx => ?_, fun hx => ?_, fun hx => ?_, fun hx => ?_, fun hx => (by cases hk.symm.trans hx)⟩
  · have := (h.str hs).2.1; rw [ht] at this; cases this
  · rw [show s.numarr = some a from ha] at h1; cases h1
  · rw [show s.strarr = some a from ha] at h2; cases h2
  · rw [show s.def_ = some d from hs] at h3; cases h3
  · rw [show s.kind = .array from hx] at hk; cases hk
  · rw [show s.kind = .array from hx] at hk; cases hk
  · rw [show s.kind = .def_ from hx] at hk; cases hk
  · rw [show s.kind = .unknown from hx] at hk; cases hk

theorem HeldSym.num {s : Symbol} (h : HeldSym s) (x : Dbl) : HeldSym { s with num := x } :=
  ⟨h.str, h.numarr, h.strarr, h.def_, h.nums, h.strs, h.defs, h.unknown, h.builtin⟩

theorem HeldSym.setStr {s : Symbol} (h : HeldSym s) (hk : s.kind = .variable) (ht : s.type = .str) (x : Option CStr) :
    HeldSym { s with str := x, defined := true } := by
  obtain ⟨h1, h2, h3⟩ := h.var hk
  refine ⟨fun hs => ⟨hk, ht, rfl⟩, fun a ha => ?_, fun a ha => ?_, fun d hs => ?_, fun hx => ?_, fun hx => ?_, fun hx => ?_, fun hx => ?_, fun hx => (by cases hk.symm.trans hx)⟩
  · rw [show s.numarr = some a from ha] at h1; cases h1
  · rw [show s.strarr = some a from ha] at h2; cases h2
  · rw [show s.def_ = some d from hs] at h3; cases h3
  · rw [show s.kind = .array from hx] at hk; cases hk
  · rw [show s.kind = .array from hx] at hk; cases hk
  · rw [show s.kind = .def_ from hx] at hk; cases hk
  · rw [show s.kind = .unknown from hx] at hk; cases hk

theorem HeldSym.setDef {s : Symbol} (h : HeldSym s) (hk : s.kind = .def_) {d : Def} (hd : DefParam d.bcode.inst)
    (hp : ∃ p, d.bcode.inst[1]? = some (.param p)) : HeldSym { s with def_ := some d, defined := true } := by
  obtain ⟨h1, h2, h3⟩ := h.fn hk
  refine ⟨fun hs => ?_, fun a ha => ?_, fun a ha => ?_, fun d' hs => ?_, fun hx => ?_, fun hx => ?_, fun _ _ => rfl, fun hx => ?_, fun hx => (by cases hk.symm.trans hx)⟩
  · have hs' : s.str.isSome = true := hs
    rw [h1] at hs'; cases hs'
  · rw [show s.numarr = some a from ha] at h2; cases h2
  · rw [show s.strarr = some a from ha] at h3; cases h3
  · cases hs; exact ⟨hk, rfl, hd, hp⟩
  · rw [show s.kind = .array from hx] at hk; cases hk
  · rw [show s.kind = .array from hx] at hk; cases hk
  · rw [show s.kind = .unknown from hx] at hk; cases hk

theorem HeldSym.dropDef {s : Symbol} (h : HeldSym s) (hk : s.kind = .def_) : HeldSym { s with def_ := none, defined := false } := by
  obtain ⟨h1, h2, h3⟩ := h.fn hk
  refine ⟨fun hs => ?_, fun a ha => ?_, fun a ha => ?_, fun d' hs => ?_, fun _ _ hx => ?_, fun _ _ hx => ?_, fun _ hx => ?_, fun _ => rfl, fun hx => (by cases hk.symm.trans hx)⟩
  · exact ((by rw [show s.str = none from h1] at hs; cases hs) : False).elim
  · rw [show s.numarr = some a from ha] at h2; cases h2
  · rw [show s.strarr = some a from ha] at h3; cases h3
  · cases hs
  · cases hx
  · cases hx
  · cases hx

theorem heldSym_undefine (s : Symbol) (h : HeldSym s) (_ : s.defined = true) : HeldSym (undefineValue s) := by
  unfold undefineValue
  split
  · exact h
  · rename_i hk
    obtain ⟨h1, h2, h3⟩ := h.var hk
    split
    · rename_i ht
      exact h.setNum hk ht _ _
    all_goals
      refine ⟨fun hs => ?_, fun a ha => ?_, fun a ha => ?_, fun d hs => ?_, fun _ _ hx => ?_, fun _ _ hx => ?_, fun _ hx => ?_, fun _ => rfl, fun hx => (by cases hk.symm.trans hx)⟩
      · first
        | cases hs
        | (rename_i ht; have := (h.str hs).2.1; rw [ht] at this; cases this)
      · rw [show s.numarr = some a from ha] at h1; cases h1
      · rw [show s.strarr = some a from ha] at h2; cases h2
      · rw [show s.def_ = some d from hs] at h3; cases h3
      · cases hx
      · cases hx
      · cases hx
  · rename_i hk
    obtain ⟨h1, h2, h3, h4⟩ := h.arr hk
    split
    all_goals
      rename_i ht
      refine ⟨fun hs => ?_, fun a ha => ?_, fun a ha => ?_, fun d hs => ?_, fun _ _ hx => ?_, fun _ _ hx => ?_, fun _ hx => ?_, fun _ => rfl, fun hx => (by cases hk.symm.trans hx)⟩
      · exact ((by rw [show s.str = none from h1] at hs; cases hs) : False).elim
      · first
        | cases ha
        | (have := (h.numarr a ha).2.1; rw [ht] at this; cases this)
      · first
        | cases ha
        | (have := (h.strarr a ha).2.1; rw [ht] at this; cases this)
      · rw [show s.def_ = some d from hs] at h2; cases h2
      · cases hx
      · cases hx
      · cases hx
  · rename_i hk; exact h.dropDef hk
  · rename_i hk
    have hd := h.unknown hk
    have he : ({ s with defined := false } : Symbol) = s := by cases s; simp_all
    rw [he]; exact h

/-- The two members of a symbol that hold arrays. -/
structure FieldHeld {α : Type} (F : V.ArrField α) : Prop where
  drop : ∀ s, HeldSym s → V.isArr s F.type = true → HeldSym { F.set none s with defined := false }
  dim : ∀ s a, HeldSym s → V.isArr s F.type = true → ArrOk a → HeldSym { F.set (some a) s with defined := true }
  store : ∀ s a, HeldSym s → V.isArr s F.type = true → s.defined = true → ArrOk a → HeldSym (F.set (some a) s)
  held : ∀ s a, HeldSym s → F.get s = some a → s.defined = true ∧ ArrOk a
  here : ∀ s, HeldSym s → V.isArr s F.type = true → s.defined = true → (F.get s).isSome = true
  got : ∀ s a, F.get (F.set a s) = a
  got' : ∀ s b, F.get { s with defined := b } = F.get s
  undef : ∀ s b, (F.set b s).defined = s.defined
  head : ∀ a, V.ValueOnly (F.set a)
  kind : ∀ a s t, V.isArr (F.set a s) t = V.isArr s t

theorem isArr_iff {s : Symbol} {t : Ty} : V.isArr s t = true ↔ s.kind = .array ∧ s.type = t := by
  simp [V.isArr]

theorem isVar_iff {s : Symbol} {t : Ty} : V.isVar s t = true ↔ s.kind = .variable ∧ s.type = t := by
  simp [V.isVar]

theorem numField_held : FieldHeld V.numField where
  drop s h ha := by
    obtain ⟨hk, ht⟩ := isArr_iff.1 ha
    obtain ⟨h1, h2, h3, h4⟩ := h.arr hk
    refine ⟨fun hs => ?_, fun a ha => (by cases ha), fun a ha => ?_, fun d hs => ?_, fun _ _ hx => (by cases hx), fun _ _ hx => (by cases hx),
      fun _ hx => (by cases hx), fun _ => rfl, fun hx => (by cases hk.symm.trans hx)⟩
    · exact ((by rw [show (V.numField.set none s).str = none from h1] at hs; cases hs) : False).elim
    · have := h3 ht; rw [show s.strarr = some a from ha] at this; cases this
    · rw [show s.def_ = some d from hs] at h2; cases h2
  dim s a h ha hok := by
    obtain ⟨hk, ht⟩ := isArr_iff.1 ha
    obtain ⟨h1, h2, h3, h4⟩ := h.arr hk
    refine ⟨fun hs => ?_, fun a' ha => ?_, fun a ha => ?_, fun d hs => ?_, fun _ _ _ => rfl, fun _ hx => ?_,
      fun hx => ?_, fun hx => ?_, fun hx => (by cases hk.symm.trans hx)⟩
    · exact ((by rw [show (V.numField.set (some a) s).str = none from h1] at hs; cases hs) : False).elim
    · cases ha; exact ⟨hk, ht, rfl, hok⟩
    · have := h3 ht; rw [show s.strarr = some _ from ha] at this; cases this
    · rw [show s.def_ = some d from hs] at h2; cases h2
    · rw [show s.type = .str from hx] at ht; cases ht
    · rw [show s.kind = .def_ from hx] at hk; cases hk
    · rw [show s.kind = .unknown from hx] at hk; cases hk
  store s a h ha hd hok := by
    obtain ⟨hk, ht⟩ := isArr_iff.1 ha
    obtain ⟨h1, h2, h3, h4⟩ := h.arr hk
    refine ⟨fun hs => ?_, fun a' ha => ?_, fun a ha => ?_, fun d hs => ?_, fun _ _ _ => rfl, fun _ hx => ?_,
      fun hx => ?_, fun hx => ?_, fun hx => (by cases hk.symm.trans hx)⟩
    · exact ((by rw [show (V.numField.set (some a) s).str = none from h1] at hs; cases hs) : False).elim
    · cases ha; exact ⟨hk, ht, hd, hok⟩
    · have := h3 ht; rw [show s.strarr = some _ from ha] at this; cases this
    · rw [show s.def_ = some d from hs] at h2; cases h2
    · rw [show s.type = .str from hx] at ht; cases ht
    · rw [show s.kind = .def_ from hx] at hk; cases hk
    · rw [show s.kind = .unknown from hx] at hk; cases hk
  held s a h ha := ⟨(h.numarr a ha).2.2.1, (h.numarr a ha).2.2.2⟩
  here s h ha hd := h.nums (isArr_iff.1 ha).1 (isArr_iff.1 ha).2 hd
  got _ _ := rfl
  got' _ _ := rfl
  undef _ _ := rfl
  head _ _ := ⟨rfl, rfl, rfl, rfl⟩
  kind _ _ _ := rfl

theorem strField_held : FieldHeld V.strField where
  drop s h ha := by
    obtain ⟨hk, ht⟩ := isArr_iff.1 ha
    obtain ⟨h1, h2, h3, h4⟩ := h.arr hk
    refine ⟨fun hs => ?_, fun a ha => ?_, fun a ha => (by cases ha), fun d hs => ?_, fun _ _ hx => (by cases hx), fun _ _ hx => (by cases hx),
      fun _ hx => (by cases hx), fun _ => rfl, fun hx => (by cases hk.symm.trans hx)⟩
    · exact ((by rw [show (V.strField.set none s).str = none from h1] at hs; cases hs) : False).elim
    · have := h4 ht; rw [show s.numarr = some a from ha] at this; cases this
    · rw [show s.def_ = some d from hs] at h2; cases h2
  dim s a h ha hok := by
    obtain ⟨hk, ht⟩ := isArr_iff.1 ha
    obtain ⟨h1, h2, h3, h4⟩ := h.arr hk
    refine ⟨fun hs => ?_, fun a ha => ?_, fun a' ha => ?_, fun d hs => ?_, fun _ hx => ?_, fun _ _ _ => rfl,
      fun hx => ?_, fun hx => ?_, fun hx => (by cases hk.symm.trans hx)⟩
    · exact ((by rw [show (V.strField.set (some a) s).str = none from h1] at hs; cases hs) : False).elim
    · have := h4 ht; rw [show s.numarr = some _ from ha] at this; cases this
    · cases ha; exact ⟨hk, ht, rfl, hok⟩
    · rw [show s.def_ = some d from hs] at h2; cases h2
    · rw [show s.type = .num from hx] at ht; cases ht
    · rw [show s.kind = .def_ from hx] at hk; cases hk
    · rw [show s.kind = .unknown from hx] at hk; cases hk
  store s a h ha hd hok := by
    obtain ⟨hk, ht⟩ := isArr_iff.1 ha
    obtain ⟨h1, h2, h3, h4⟩ := h.arr hk
    refine ⟨fun hs => ?_, fun a ha => ?_, fun a' ha => ?_, fun d hs => ?_, fun _ hx => ?_, fun _ _ _ => rfl,
      fun hx => ?_, fun hx => ?_, fun hx => (by cases hk.symm.trans hx)⟩
    · exact ((by rw [show (V.strField.set (some a) s).str = none from h1] at hs; cases hs) : False).elim
    · have := h4 ht; rw [show s.numarr = some _ from ha] at this; cases this
    · cases ha; exact ⟨hk, ht, hd, hok⟩
    · rw [show s.def_ = some d from hs] at h2; cases h2
    · rw [show s.type = .num from hx] at ht; cases ht
    · rw [show s.kind = .def_ from hx] at hk; cases hk
    · rw [show s.kind = .unknown from hx] at hk; cases hk
  held s a h ha := ⟨(h.strarr a ha).2.2.1, (h.strarr a ha).2.2.2⟩
  here s h ha hd := h.strs (isArr_iff.1 ha).1 (isArr_iff.1 ha).2 hd
  got _ _ := rfl
  got' _ _ := rfl
  undef _ _ := rfl
  head _ _ := ⟨rfl, rfl, rfl, rfl⟩
  kind _ _ _ := rfl

/-- An array made for some maxima: it has all its cells, or one of the maxima is 2^32 - 1 and it has none. -/
def Made {α : Type} (max : List Nat) (a : BArray α) : Prop := Dimensioned a max ∨ a.val = [] ∧ 2 ^ 32 - 1 ∈ max

theorem Made.ok {α : Type} {max : List Nat} {a : BArray α} (h : Made max a) : ArrOk a :=
  Or.imp (fun h => ⟨max, h⟩) (fun h => h.1) h

/-- New arrays. -/
theorem newArray_made {α : Type} {zero : α} {max : List Nat} {a : BArray α} (hm : ∀ m ∈ max, m < 2 ^ 32)
    (h : newArray zero 0 max = .ok (some a)) : Made max a := by
  by_cases hs : ∀ m ∈ max, m < 2 ^ 32 - 1
  · exact .inl (dimensioned_new zero max hs a h)
  · right
    obtain ⟨m, hmm, hlt⟩ : ∃ m ∈ max, ¬ m < 2 ^ 32 - 1 := by
      apply Classical.byContradiction
      intro hno
      exact hs (fun m hm => Classical.byContradiction (fun hlt => hno ⟨m, hm, hlt⟩))
    have hm1 : m = 2 ^ 32 - 1 := by have := hm m hmm; omega
    subst hm1
    unfold newArray at h
    unfold initArraySize at h
    by_cases hl : max.length < 1 ∨ max.length > maxDimensions
    · rw [if_pos hl] at h; cases h
    · rw [if_neg hl] at h
      have hel : ∀ (l : List Nat) (e n : Nat), 2 ^ 32 - 1 ∈ l → totalElementsLoop 0 l e = .ok (some n) → n = 0 := by
        intro l
        induction l with
        | nil => intro e n h; cases h
        | cons x xs ih =>
          intro e n hmem hx
          simp only [totalElementsLoop, Nat.not_lt_zero, if_false] at hx
          split at hx
          · cases hx
          · split at hx
            · cases hx
            · rename_i he _
              rcases List.mem_cons.1 hmem with hmem | hmem
              · subst hmem
                have h0 : u32 (e * u32 (2 ^ 32 - 1 - 0 + 1)) = 0 := by simp [u32]
                rw [h0] at hx
                cases xs with
                | nil => simp only [totalElementsLoop, Outcome.ok.injEq, Option.some.injEq] at hx; exact hx.symm
                | cons y ys => simp [totalElementsLoop] at hx
              · exact ih _ _ hmem hx
      cases ht : computeTotalElements 0 max with
      | halt => rw [ht] at h; cases h
      | ok o =>
        rw [ht] at h
        cases o with
        | none => cases h
        | some n =>
          simp only [Outcome.ok.injEq, Option.some.injEq] at h
          subst h
          rw [hel max 1 n hmm ht]
          exact ⟨rfl, hmm⟩

theorem arraySet_ok {α : Type} {a a' : BArray α} {idx : List Nat} {v : α} (h : ArrOk a) (hs : arraySet a idx v = .ok (some a')) :
    ArrOk a' := by
  unfold arraySet at hs
  split at hs
  · cases hs
  · cases hs
  · split at hs
    · rename_i hlt
      cases hs
      rcases h with ⟨max, h1, h2, h3, h4⟩ | h
      · exact .inl ⟨max, h1, h2, h3, by simpa using h4⟩
      · rw [h] at hlt; cases hlt
    · cases hs

/-! The parameter follows in compiled code. -/

/-- Not the start of a definition. -/
def noDef : Inst → Bool
  | .def_ _ _ => false
  | _ => true

theorem noDef_expr {i : Inst} (h : isExpr i = true) : noDef i = true := by
  cases i <;> first | rfl | cases h

theorem noDef_plain {i : Inst} (h : plain i = true) : noDef i = true := by
  cases i <;> first | rfl | cases h

theorem noDef_item {i : Inst} (h : item i = true) : noDef i = true := by
  cases i <;> first | rfl | cases h

theorem noDef_items {t : List Inst} (h : Items t) : ∀ i ∈ t, noDef i = true := by
  induction h with
  | last a b =>
    intro x hx
    simp only [List.mem_append, List.mem_cons, List.not_mem_nil, or_false] at hx
    rcases hx with hx | rfl | rfl
    · exact noDef_expr (a.isExpr x hx)
    · exact noDef_item b
    · rfl
  | more a b c ih =>
    intro x hx
    simp only [List.mem_append, List.mem_cons] at hx
    rcases hx with hx | rfl | rfl | hx
    · exact noDef_expr (a.isExpr x hx)
    · exact noDef_item b
    · rfl
    · exact ih x hx

theorem defParam_none {l : List Inst} (h : ∀ i ∈ l, noDef i = true) : DefParam l := by
  intro k id n hk
  have := h _ (List.mem_of_getElem? hk)
  cases this

theorem Ready.defParam {T : Nat → Ty → Prop} {r : List Inst} {h : Nat × Nat} (hr : Ready T False r h) : DefParam r := by
  cases hr with
  | plain a b =>
    apply defParam_none
    intro x hx
    simp only [List.mem_append, List.mem_cons, List.not_mem_nil, or_false] at hx
    rcases hx with hx | rfl
    · exact noDef_expr (a.isExpr x hx)
    · exact noDef_plain b
  | on a b c =>
    apply defParam_none
    intro x hx
    simp only [List.mem_append, List.mem_cons] at hx
    rcases hx with hx | rfl | hx
    · exact noDef_expr (a.isExpr x hx)
    · rcases b with rfl | rfl <;> rfl
    · have := c x hx
      cases x <;> first | rfl | cases this
  | @def_ id pid t e _ a b c =>
    intro k id' n hk
    cases k with
    | zero => exact ⟨pid, rfl⟩
    | succ k =>
      exfalso
      have hm := List.mem_of_getElem? hk
      rw [List.getElem?_cons_succ] at hk
      have hm := List.mem_of_getElem? hk
      simp only [List.mem_cons, List.mem_append, List.not_mem_nil, or_false] at hm
      rcases hm with hm | hm | hm
      · cases hm
      · have := noDef_expr (c.isExpr _ hm); cases this
      · cases hm
  | input a =>
    apply defParam_none
    intro x hx
    rcases List.mem_cons.1 hx with rfl | hx
    · rfl
    · exact noDef_items a x hx
  | item a => exact a.elim
  | sep a => exact a.elim
  | inputEnd a => exact a.elim

theorem DefParam.append {l m : List Inst} (h : DefParam l) (k : DefParam m) : DefParam (l ++ m) := by
  intro j id n hj
  by_cases hl : j < l.length
  · rw [List.getElem?_append_left hl] at hj
    obtain ⟨p, hp⟩ := h j id n hj
    exact ⟨p, by rw [List.getElem?_append_left (List.getElem?_eq_some_iff.1 hp).1]; exact hp⟩
  · rw [List.getElem?_append_right (by omega)] at hj
    obtain ⟨p, hp⟩ := k _ id n hj
    refine ⟨p, ?_⟩
    rw [List.getElem?_append_right (by omega), show j + 1 - l.length = j - l.length + 1 by omega]
    exact hp

theorem Pieces.defParam {T : Nat → Ty → Prop} {l : List Inst} (h : Pieces T l) : DefParam l := by
  induction h with
  | nil => exact fun _ _ _ h => by simp at h
  | cons a _ ih => exact (Ready.defParam a).append ih

theorem takeWhile_next {α : Type} {p : α → Bool} {l : List α} {k : Nat} {x y : α} (h : (l.takeWhile p)[k]? = some x)
    (hy : l[k + 1]? = some y) (hp : p y = true) : (l.takeWhile p)[k + 1]? = some y := by
  induction l generalizing k with
  | nil => simp at h
  | cons a l ih =>
    rw [List.takeWhile_cons] at h ⊢
    split at h
    · rename_i ha
      rw [if_pos ha]
      cases k with
      | zero =>
        cases l with
        | nil => simp at hy
        | cons b l =>
          simp only [Nat.zero_add, List.getElem?_cons_succ, List.getElem?_cons_zero, Option.some.injEq] at hy
          subst hy
          simp [hp]
      | succ k => exact ih h hy
    · simp at h

theorem defParam_copy {b b' : Bcode} {start : Nat} (h : DefParam b.inst) (hc : bcodeCopyDef b start = .ok b') : DefParam b'.inst := by
  unfold bcodeCopyDef at hc
  split at hc
  · cases hc
  · cases hc
    refine DefParam.append ?_ (defParam_none (by simp [noDef]))
    intro k id n hk
    have hk' : (b.inst.drop start)[k]? = some (.def_ id n) := by
      obtain ⟨t, ht⟩ := List.takeWhile_prefix (fun i : Inst => !i.isEndDef) (l := b.inst.drop start)
      rw [← ht, List.getElem?_append_left (List.getElem?_eq_some_iff.1 hk).1]
      exact hk
    rw [List.getElem?_drop] at hk'
    obtain ⟨p, hp⟩ := h _ id n hk'
    refine ⟨p, takeWhile_next hk ?_ rfl⟩
    rw [List.getElem?_drop]
    exact hp

theorem param_copy {b b' : Bcode} {start id n : Nat} (h : DefParam b.inst) (hs : b.inst[start]? = some (.def_ id n))
    (hc : bcodeCopyDef b start = .ok b') : ∃ p, b'.inst[1]? = some (.param p) := by
  refine defParam_copy h hc 0 id n ?_
  unfold bcodeCopyDef at hc
  split at hc
  · cases hc
  · cases hc
    obtain ⟨hlt, he⟩ := List.getElem?_eq_some_iff.1 hs
    rw [List.drop_eq_getElem_cons hlt, he]
    rfl

/-! What the machine keeps. -/

structure Kept (vm : VM) : Prop where
  syms : AllSym HeldSym vm.st
  codes : ∀ r b, (V.codeOf vm r).bcode = some b → DefParam b.inst
  param : vm.fn.codeState.code.isSome = true → NumVar vm.st vm.fn.paramId
  loops : ∀ f ∈ vm.forStack, NumVar vm.st f.symbolId

theorem NumVar.grow {st st' : SymTab} {id : Nat} (h : NumVar st id) (hg : Grows st st') : NumVar st' id := by
  obtain ⟨s, h1, h2, h3⟩ := h
  obtain ⟨s', k1, _, k3, _, k5⟩ := hg id s h1
  refine ⟨s', k1, ?_, k3.trans h3⟩
  rcases k5 with k | ⟨k, -⟩
  · exact k.trans h2
  · rw [h2] at k; cases k

theorem Kept.table {vm : VM} (h : Kept vm) {st : SymTab} (hs : AllSym HeldSym st) (hg : Grows vm.st st) : Kept { vm with st := st } :=
  ⟨hs, fun r b hb => h.codes r b (by cases r <;> exact hb), fun hf => NumVar.grow (h.param hf) hg, fun f hf => NumVar.grow (h.loops f hf) hg⟩

theorem Kept.upd {vm : VM} (h : Kept vm) (id : Nat) {f : Symbol → Symbol} (hv : V.ValueOnly f)
    (hf : ∀ s, vm.st.psym[id]? = some s → HeldSym s → HeldSym (f s)) : Kept { vm with st := symUpdate vm.st id f } :=
  h.table (h.syms.update id hf) (grows_of_values (heads_update vm.st id f hv))

theorem Kept.same {vm vm' : VM} (h : Kept vm) (h1 : vm'.st = vm.st) (h2 : vm'.stored = vm.stored) (h3 : vm'.immediate = vm.immediate)
    (h4 : vm'.defCode = vm.defCode) (h5 : vm'.fn = vm.fn) (h6 : vm'.forStack = vm.forStack) : Kept vm' := by
  refine ⟨by rw [h1]; exact h.syms, fun r b hb => h.codes r b ?_, by rw [h1, h5]; exact h.param, by rw [h1, h6]; exact h.loops⟩
  cases r
  · rw [← hb]; simp only [V.codeOf, h2]
  · rw [← hb]; simp only [V.codeOf, h3]
  · rw [← hb]; simp only [V.codeOf, h4]

theorem Kept.clear {vm : VM} (h : Kept vm) : Kept { vm with st := clearSymbolTableValues vm.st } :=
  h.table (h.syms.cleared heldSym_undefine) (grows_of_values (heads_clear vm.st))

end LB
