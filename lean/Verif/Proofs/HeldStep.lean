import Verif.Proofs.Held
/- What the symbols hold is kept by every instruction, and when an instruction ends the process. -/
namespace LB
open LB.Spec Code

/-- A result that leaves `J`, with `Q` if it is a success; it ends the process only if `H`. -/
def Sat {α : Type} (H : Prop) (J : VM → Prop) (Q : α → VM → Prop) : Res α → Prop
  | .ok a vm => J vm ∧ Q a vm
  | .err _ vm => J vm
  | .halt _ => H

theorem Sat.mono {α : Type} {H : Prop} {J : VM → Prop} {Q Q' : α → VM → Prop} {r : Res α} (h : Sat H J Q r)
    (hq : ∀ a vm, J vm → Q a vm → Q' a vm) : Sat H J Q' r := by
  cases r with
  | ok a vm => exact ⟨h.1, hq a vm h.1 h.2⟩
  | err e vm => exact h
  | halt h' => exact h

theorem Sat.all {α : Type} {J : VM → Prop} {Q : α → VM → Prop} {r : Res α} (h : Sat True J Q r) : r.All J := by
  cases r with
  | ok a vm => exact h.1
  | err e vm => exact h
  | halt h' => trivial

theorem Sat.halts {α : Type} {H : Prop} {J : VM → Prop} {Q : α → VM → Prop} {r : Res α} {h' : Halt} (h : Sat H J Q r) (he : r = .halt h') : H := by
  subst he; exact h

namespace V

variable {α β : Type} {H : Prop} {J : VM → Prop}

theorem sat_bind {x : VmM α} {f : α → VmM β} {vm : VM} {Q : α → VM → Prop} {Q' : β → VM → Prop}
    (hx : Sat H J Q (x vm)) (hf : ∀ a vm', J vm' → Q a vm' → Sat H J Q' (f a vm')) : Sat H J Q' ((x >>= f) vm) := by
  simp only [bind_apply]
  cases h : x vm with
  | ok a vm' => rw [h] at hx; exact hf a vm' hx.1 hx.2
  | err e vm' => rw [h] at hx; exact hx
  | halt h' => rw [h] at hx; exact hx

theorem sat_brk {x : VmM Unit} {vm : VM} {Q : Unit → VM → Prop} {Q' : Flow → VM → Prop} (hx : Sat H J Q (x vm))
    (hq : ∀ vm', Q () vm' → Q' .brk vm') : Sat H J Q' (brk x vm) :=
  sat_bind hx (fun _ vm' hj h => ⟨hj, hq vm' h⟩)

/-- The symbol `id`, unless the process may end. -/
def Good (H : Prop) (vm : VM) (id : Nat) (P : Symbol → Prop) : Prop := H ∨ ∃ s, vm.st.psym[id]? = some s ∧ P s

theorem Good.move {vm vm' : VM} {id : Nat} {P : Symbol → Prop} (h : Good H vm id P) (hs : vm'.st = vm.st) : Good H vm' id P := by
  unfold Good; rw [hs]; exact h

theorem Good.imp {vm : VM} {id : Nat} {P P' : Symbol → Prop} (h : Good H vm id P) (hp : ∀ s, P s → P' s) : Good H vm id P' :=
  Or.imp _root_.id (fun ⟨s, h1, h2⟩ => ⟨s, h1, hp s h2⟩) h

theorem sat_sym {vm : VM} (hj : J vm) {id : Nat} {P : Symbol → Prop} (h : Good H vm id P) :
    Sat H J (fun s vm' => vm' = vm ∧ vm.st.psym[id]? = some s ∧ (H ∨ P s)) (sym id vm) := by
  unfold sym symbolAt
  cases hs : vm.st.psym[id]? with
  | some s =>
    refine ⟨hj, rfl, rfl, ?_⟩
    rcases h with h | ⟨s', h1, h2⟩
    · exact .inl h
    · rw [hs] at h1; cases h1; exact .inr h2
  | none =>
    rcases h with h | ⟨s', h1, -⟩
    · exact h
    · rw [hs] at h1; cases h1

theorem sat_assert {vm : VM} (hj : J vm) {b : Bool} {w : String} (h : H ∨ b = true) :
    Sat H J (fun _ vm' => vm' = vm ∧ b = true) (assert b w vm) := by
  cases b with
  | true => exact ⟨hj, rfl, rfl⟩
  | false => rcases h with h | h
             · exact h
             · cases h

theorem sat_check {vm : VM} (hj : J vm) {b : Bool} {e : RunError} :
    Sat H J (fun _ vm' => vm' = vm ∧ b = false) (check b e vm) := by
  cases b with
  | true => exact hj
  | false => exact ⟨hj, rfl, rfl⟩

theorem sat_lift {vm : VM} (hj : J vm) {o : Outcome α} (h : H ∨ ∃ a, o = .ok a) :
    Sat H J (fun a vm' => vm' = vm ∧ o = .ok a) (lift o vm) := by
  cases o with
  | ok a => exact ⟨hj, rfl, rfl⟩
  | halt e =>
    rcases h with h | ⟨a, h⟩
    · exact h
    · cases h

theorem sat_modify {vm : VM} {f : VM → VM} (hj : J (f vm)) : Sat H J (fun _ vm' => vm' = f vm) (modify f vm) := ⟨hj, rfl⟩

theorem sat_get {vm : VM} (hj : J vm) : Sat H J (fun a vm' => a = vm ∧ vm' = vm) (get vm) := ⟨hj, rfl, rfl⟩

/-- The parts of the machine that popping and pushing leave alone. -/
def Rest (vm vm' : VM) : Prop := ∃ s t, vm' = { vm with stack := s, strstack := t }

theorem Rest.refl (vm : VM) : Rest vm vm := ⟨vm.stack, vm.strstack, rfl⟩
theorem Rest.trans {a b c : VM} (h : Rest a b) (k : Rest b c) : Rest a c := by
  obtain ⟨s, t, rfl⟩ := h; obtain ⟨s', t', rfl⟩ := k; exact ⟨s', t', rfl⟩
theorem Rest.st {vm vm' : VM} (h : Rest vm vm') : vm'.st = vm.st := by obtain ⟨s, t, rfl⟩ := h; rfl
theorem Rest.kept {vm vm' : VM} (h : Rest vm vm') (k : Kept vm) : Kept vm' := by
  obtain ⟨s, t, rfl⟩ := h
  exact k.same rfl rfl rfl rfl rfl rfl

theorem sat_pop {vm : VM} (hj : Kept vm) : Sat H Kept (fun x vm' => ∃ r, vm.stack = x :: r ∧ vm' = { vm with stack := r }) (pop vm) := by
  unfold pop
  split
  · exact hj
  · rename_i x r h
    exact ⟨hj.same rfl rfl rfl rfl rfl rfl, r, h, rfl⟩

theorem sat_pop' {vm : VM} (hj : Kept vm) : Sat H Kept (fun _ vm' => Rest vm vm') (pop vm) :=
  (sat_pop hj).mono (fun _ _ _ ⟨r, _, h⟩ => ⟨r, vm.strstack, h⟩)

theorem sat_popStr {vm : VM} (hj : Kept vm) : Sat H Kept (fun _ vm' => Rest vm vm') (popStr vm) := by
  unfold popStr
  split
  · exact hj
  · rename_i x r h
    exact ⟨hj.same rfl rfl rfl rfl rfl rfl, vm.stack, r, rfl⟩

theorem sat_popStr' {vm : VM} (hj : Kept vm) : Sat H Kept (fun x vm' => ∃ r, vm.strstack = x :: r ∧ vm' = { vm with strstack := r }) (popStr vm) := by
  unfold popStr
  split
  · exact hj
  · rename_i x r h
    exact ⟨hj.same rfl rfl rfl rfl rfl rfl, r, h, rfl⟩

theorem sat_push {vm : VM} (hj : Kept vm) (x : Dbl) : Sat H Kept (fun _ _ => True) (push x vm) := by
  unfold push
  split
  · exact hj
  · exact ⟨hj.same rfl rfl rfl rfl rfl rfl, trivial⟩

theorem sat_pushStr {vm : VM} (hj : Kept vm) (x : CStr) : Sat H Kept (fun _ _ => True) (pushStr x vm) := by
  unfold pushStr
  split
  · exact hj
  · exact ⟨hj.same rfl rfl rfl rfl rfl rfl, trivial⟩

theorem sat_popIndex {vm : VM} (hj : Kept vm) :
    Sat H Kept (fun n vm' => ∃ x r, vm.stack = x :: r ∧ IsCount x n ∧ vm' = { vm with stack := r }) (popIndex vm) := by
  cases hs : vm.stack with
  | nil => simp only [popIndex, pop, hs, bind_apply]; exact hj
  | cons x r =>
    by_cases hc : ∃ n, IsCount x n
    · obtain ⟨n, hn⟩ := hc
      rw [popIndex_count hs hn]
      exact ⟨hj.same rfl rfl rfl rfl rfl rfl, x, r, rfl, hn, rfl⟩
    · obtain ⟨e, -, h⟩ := popIndex_other hs (fun n hn => hc ⟨n, hn⟩)
      rw [h]
      exact hj.same rfl rfl rfl rfl rfl rfl

theorem sat_popIndexLoop (n : Nat) : ∀ {vm : VM}, Kept vm →
    Sat H Kept (fun ns vm' => (∀ i ∈ ns, ∃ x ∈ vm.stack.take n, IsCount x i) ∧ Rest vm vm') (popIndexLoop n vm) := by
  induction n with
  | zero => intro vm hj; exact ⟨hj, fun _ h => (by cases h), Rest.refl vm⟩
  | succ n ih =>
    intro vm hj
    refine sat_bind (sat_popIndex hj) (fun k vm1 hj1 h1 => ?_)
    obtain ⟨x, r, hs, hx, rfl⟩ := h1
    refine sat_bind (ih hj1) (fun ks vm2 hj2 h2 => ⟨hj2, fun i hi => ?_, ?_⟩)
    · rw [hs, List.take_succ_cons]
      rcases List.mem_cons.1 hi with rfl | hi
      · exact ⟨x, List.mem_cons_self, hx⟩
      · obtain ⟨y, hy, hc⟩ := h2.1 i hi
        exact ⟨y, List.mem_cons_of_mem _ hy, hc⟩
    · exact Rest.trans ⟨r, vm.strstack, rfl⟩ h2.2

theorem sat_popIndexes {vm : VM} (hj : Kept vm) {n : Nat} (hn : H ∨ n ≤ maxDimensions) :
    Sat H Kept (fun ns vm' => (∀ i ∈ ns, ∃ x ∈ vm.stack.take n, IsCount x i) ∧ Rest vm vm') (popIndexes n vm) := by
  refine sat_bind (sat_assert hj (hn.imp _root_.id (by simp))) (fun _ vm1 hj1 h1 => ?_)
  obtain ⟨rfl, -⟩ := h1
  exact sat_popIndexLoop n hj1

/-! Scalars. -/

theorem updated_at {st : SymTab} {id : Nat} {s : Symbol} (h : st.psym[id]? = some s) (f : Symbol → Symbol) :
    (symUpdate st id f).psym[id]? = some (f s) := by
  simp only [symUpdate, List.getElem?_modify, h]
  simp

theorem sat_getNumericSimple {vm : VM} (hj : Kept vm) {id : Nat} (h : Good H vm id (fun s => isVar s .num = true)) :
    Sat H Kept (fun _ _ => True) (getNumericSimple id vm) := by
  unfold getNumericSimple
  refine sat_bind (sat_sym hj h) (fun s vm1 hj1 h1 => ?_)
  obtain ⟨rfl, hs, hp⟩ := h1
  refine sat_bind (sat_assert hj1 hp) (fun _ vm2 hj2 h2 => ?_)
  obtain ⟨rfl, hv⟩ := h2
  obtain ⟨hk, ht⟩ := isVar_iff.1 hv
  have h3 : Sat H Kept (fun _ vm' => ∃ s', vm'.st.psym[id]? = some s')
      (when_ (!s.defined) (updSym id (fun s => { s with num := .fin 0, defined := true })) vm2) := by
    rw [when_apply]
    split
    · refine ⟨hj2.upd id (fun _ => ⟨rfl, rfl, rfl, rfl⟩) (fun s' hs' hh => ?_), _, updated_at hs _⟩
      rw [hs] at hs'; cases hs'
      exact hh.setNum hk ht _ _
    · exact ⟨hj2, s, hs⟩
  refine sat_bind h3 (fun _ vm3 hj3 h3 => ?_)
  obtain ⟨s', hs'⟩ := h3
  refine sat_bind (sat_sym hj3 (P := fun _ => True) (.inr ⟨s', hs', trivial⟩)) (fun s2 vm4 hj4 h4 => ?_)
  exact sat_push hj4 _

theorem sat_setNumericSimple {vm : VM} (hj : Kept vm) {id : Nat} (h : Good H vm id (fun s => isVar s .num = true)) (x : Dbl) :
    Sat H Kept (fun _ _ => True) (setNumericSimple id x vm) := by
  unfold setNumericSimple
  refine sat_bind (sat_sym hj h) (fun s vm1 hj1 h1 => ?_)
  obtain ⟨rfl, hs, hp⟩ := h1
  refine sat_bind (sat_assert hj1 hp) (fun _ vm2 hj2 h2 => ?_)
  obtain ⟨rfl, hv⟩ := h2
  obtain ⟨hk, ht⟩ := isVar_iff.1 hv
  refine ⟨hj2.upd id (fun _ => ⟨rfl, rfl, rfl, rfl⟩) (fun s' hs' hh => ?_), trivial⟩
  rw [hs] at hs'; cases hs'
  exact hh.setNum hk ht _ _

theorem sat_getStringSimple {vm : VM} (hj : Kept vm) {id : Nat} (h : Good H vm id (fun s => isVar s .str = true)) :
    Sat H Kept (fun _ _ => True) (getStringSimple id vm) := by
  unfold getStringSimple
  refine sat_bind (sat_sym hj h) (fun s vm1 hj1 h1 => ?_)
  obtain ⟨rfl, hs, hp⟩ := h1
  refine sat_bind (sat_assert hj1 hp) (fun _ vm2 hj2 h2 => ?_)
  obtain ⟨rfl, hv⟩ := h2
  obtain ⟨hk, ht⟩ := isVar_iff.1 hv
  have h3 : Sat H Kept (fun _ vm' => ∃ s', vm'.st.psym[id]? = some s')
      (when_ (!s.defined) (updSym id (fun s => { s with str := none, defined := true })) vm2) := by
    rw [when_apply]
    split
    · refine ⟨hj2.upd id (fun _ => ⟨rfl, rfl, rfl, rfl⟩) (fun s' hs' hh => ?_), _, updated_at hs _⟩
      rw [hs] at hs'; cases hs'
      exact hh.setStr hk ht _
    · exact ⟨hj2, s, hs⟩
  refine sat_bind h3 (fun _ vm3 hj3 h3 => ?_)
  obtain ⟨s', hs'⟩ := h3
  refine sat_bind (sat_sym hj3 (P := fun _ => True) (.inr ⟨s', hs', trivial⟩)) (fun s2 vm4 hj4 h4 => ?_)
  exact sat_pushStr hj4 _

theorem sat_setStringSimple {vm : VM} (hj : Kept vm) {id : Nat} (h : Good H vm id (fun s => isVar s .str = true)) (x : CStr) :
    Sat H Kept (fun _ _ => True) (setStringSimple id x vm) := by
  unfold setStringSimple
  refine sat_bind (sat_sym hj h) (fun s vm1 hj1 h1 => ?_)
  obtain ⟨rfl, hs, hp⟩ := h1
  refine sat_bind (sat_assert hj1 hp) (fun _ vm2 hj2 h2 => ?_)
  obtain ⟨rfl, hv⟩ := h2
  obtain ⟨hk, ht⟩ := isVar_iff.1 hv
  have h3 : Sat H Kept (fun _ vm' => vm' = vm2) (when_ s.str.isSome (assert s.defined "set_string_simple defined") vm2) := by
    rw [when_apply]
    split
    · rename_i hs0
      exact (sat_assert hj2 (.inr ((hj2.syms id s hs).str hs0).2.2)).mono (fun _ _ _ h => h.1)
    · exact ⟨hj2, rfl⟩
  refine sat_bind h3 (fun _ vm3 hj3 h3 => ?_)
  obtain rfl := h3
  refine ⟨hj2.upd id (fun _ => ⟨rfl, rfl, rfl, rfl⟩) (fun s' hs' hh => ?_), trivial⟩
  rw [hs] at hs'; cases hs'
  exact hh.setStr hk ht _

/-! Arrays. -/

theorem sat_dimension {F : ArrField α} (hF : FieldHeld F) {vm : VM} (hj : Kept vm) {id : Nat} {max : List Nat}
    (h : Good H vm id (fun s => isArr s F.type = true)) (hm : ∀ m ∈ max, m < 2 ^ 32) (hn : H ∨ ∀ m ∈ max, m < 2 ^ 32 - 1) :
    Sat H Kept (fun _ vm' => ∃ s a, vm'.st.psym[id]? = some s ∧ isArr s F.type = true ∧ s.defined = true ∧ F.get s = some a ∧ Made max a)
      (dimension F id max vm) := by
  unfold dimension
  refine sat_bind (sat_sym hj h) (fun s vm1 hj1 h1 => ?_)
  obtain ⟨rfl, hs, hp⟩ := h1
  refine sat_bind (sat_assert hj1 hp) (fun _ vm2 hj2 h2 => ?_)
  obtain ⟨rfl, hv⟩ := h2
  refine sat_bind (sat_lift hj2 (hn.imp _root_.id (fun hn => ?_))) (fun o vm3 hj3 h3 => ?_)
  · rw [C15_dim_partial F.zero max hn]
    split
    · exact ⟨_, rfl⟩
    · exact ⟨_, rfl⟩
  · obtain ⟨rfl, ho⟩ := h3
    cases o with
    | none =>
      refine sat_bind (Q := fun _ _ => True) ⟨hj3.upd id (fun s => (hF.head none) s) (fun s' hs' hh => ?_), trivial⟩ (fun _ vm4 hj4 _ => hj4)
      rw [hs] at hs'; cases hs'
      exact hF.drop s hh hv
    | some a =>
      have hmade : Made max a := newArray_made hm ho
      refine ⟨hj3.upd id (fun s => (hF.head _) s) (fun s' hs' hh => ?_), _, a, updated_at hs _, ?_, rfl, ?_, hmade⟩
      · rw [hs] at hs'; cases hs'
        exact hF.dim s a hh hv hmade.ok
      · show isArr (F.set (some a) s) F.type = true
        rw [hF.kind]; exact hv
      · rw [hF.got', hF.got]

theorem cells_pos (l : List Nat) : 0 < _root_.Spec.cells l := by
  unfold _root_.Spec.cells
  induction l with
  | nil => simp
  | cons x xs ih => simp only [List.map_cons, List.prod_cons]; exact Nat.mul_pos (by omega) ih

/-- The symbol of an array, with its cells if it has any, unless the process may end. -/
def Celled {α : Type} (F : ArrField α) (s : Symbol) : Prop := isArr s F.type = true ∧ ∀ a, F.get s = some a → a.val ≠ []

theorem sat_dimensionAuto {F : ArrField α} (hF : FieldHeld F) {vm : VM} (hj : Kept vm) {id : Nat} {idx : List Nat} {s : Symbol}
    (hs : vm.st.psym[id]? = some s) (ha : isArr s F.type = true) (hd : s.defined = false)
    (hm : ∀ m ∈ idx, m < 2 ^ 32) (hn : H ∨ ∀ m ∈ idx, m < 2 ^ 32 - 1) :
    Sat H Kept (fun _ vm' => ∃ s a, vm'.st.psym[id]? = some s ∧ isArr s F.type = true ∧ s.defined = true ∧ F.get s = some a ∧
      ArrOk a ∧ (H ∨ a.val ≠ [])) (dimensionAuto F id idx vm) := by
  unfold dimensionAuto
  refine sat_bind (sat_sym hj (P := fun _ => True) (.inr ⟨s, hs, trivial⟩)) (fun s1 vm1 hj1 h1 => ?_)
  obtain ⟨rfl, hs1, -⟩ := h1
  rw [hs] at hs1; cases hs1
  have hnone : (F.get s).isNone = true := by
    cases hg : F.get s with
    | none => rfl
    | some a => have := (hF.held s a (hj1.syms id s hs) hg).1; rw [hd] at this; cases this
  refine sat_bind (sat_assert hj1 (.inr hnone)) (fun _ vm2 hj2 h2 => ?_)
  obtain ⟨rfl, -⟩ := h2
  have hmap : ∀ (B : Nat), 10 < B → (∀ m ∈ idx, m < B) → ∀ m ∈ idx.map (fun i => if i < 10 then 10 else i), m < B := by
    intro B hB hall m hmem
    obtain ⟨i, hi, rfl⟩ := List.mem_map.1 hmem
    have := hall i hi
    split <;> omega
  refine (sat_dimension hF hj2 (.inr ⟨s, hs, ha⟩) (hmap _ (by omega) hm) (hn.imp _root_.id (hmap _ (by omega)))).mono ?_
  intro _ vm' _ ⟨s', a, h1, h2, h3, h4, h5⟩
  refine ⟨s', a, h1, h2, h3, h4, h5.ok, ?_⟩
  rcases hn with h | hn
  · exact .inl h
  · right
    rcases h5 with ⟨_, _, h6, h7⟩ | ⟨_, h6⟩
    · intro h0
      rw [h0] at h7
      have := cells_pos (idx.map (fun i => if i < 10 then 10 else i))
      simp only [List.length_nil] at h7
      omega
    · have := hmap _ (by omega) hn _ h6
      omega

/-- The subscripts on the stack, unless the process may end. -/
def Fair (H : Prop) (vm : VM) (n : Nat) : Prop := H ∨ n ≤ maxDimensions ∧ ∀ x ∈ vm.stack.take n, ¬ IsCount x (2 ^ 32 - 1)

theorem index_lt {vm : VM} {n : Nat} {ns : List Nat} (h : ∀ i ∈ ns, ∃ x ∈ vm.stack.take n, IsCount x i) : ∀ i ∈ ns, i < 2 ^ 32 := by
  intro i hi
  obtain ⟨x, -, hx⟩ := h i hi
  have := hx.2
  omega

theorem Fair.index {vm : VM} {n : Nat} {ns : List Nat} (hf : Fair H vm n) (h : ∀ i ∈ ns, ∃ x ∈ vm.stack.take n, IsCount x i) :
    H ∨ ∀ i ∈ ns, i < 2 ^ 32 - 1 := by
  rcases hf with hf | ⟨-, hf⟩
  · exact .inl hf
  · right
    intro i hi
    obtain ⟨x, hx, hc⟩ := h i hi
    have h1 := hc.2
    by_cases he : i = 2 ^ 32 - 1
    · subst he; exact absurd hc (hf x hx)
    · omega

theorem sat_elementArray {F : ArrField α} (hF : FieldHeld F) {vm : VM} (hj : Kept vm) {id n : Nat}
    (h : Good H vm id (Celled F)) (hf : Fair H vm n) :
    Sat H Kept (fun p vm' => ∃ s, vm'.st.psym[id]? = some s ∧ isArr s F.type = true ∧ s.defined = true ∧ F.get s = some p.1 ∧
      ArrOk p.1 ∧ (H ∨ p.1.val ≠ [])) (elementArray F id n vm) := by
  unfold elementArray
  refine sat_bind (sat_sym hj h) (fun s vm1 hj1 h1 => ?_)
  obtain ⟨rfl, hs, hp⟩ := h1
  refine sat_bind (sat_assert hj1 (hp.imp _root_.id (·.1))) (fun _ vm2 hj2 h2 => ?_)
  obtain ⟨rfl, hv⟩ := h2
  refine sat_bind (sat_popIndexes hj2 (hf.imp _root_.id (·.1))) (fun idx vm3 hj3 h3 => ?_)
  have hs3 : vm3.st.psym[id]? = some s := by rw [h3.2.st]; exact hs
  have h4 : Sat H Kept (fun _ vm' => ∃ s a, vm'.st.psym[id]? = some s ∧ isArr s F.type = true ∧ s.defined = true ∧ F.get s = some a ∧
      ArrOk a ∧ (H ∨ a.val ≠ [])) (when_ (!s.defined) (dimensionAuto F id idx) vm3) := by
    rw [when_apply]
    split
    · rename_i hd
      exact sat_dimensionAuto hF hj3 hs3 hv (by simpa using hd) (index_lt h3.1) (hf.index h3.1)
    · rename_i hd
      have hd : s.defined = true := by simpa using hd
      have hsym := hj3.syms id s hs3
      obtain ⟨a, ha⟩ := Option.isSome_iff_exists.1 (hF.here s hsym hv hd)
      exact ⟨hj3, s, a, hs3, hv, hd, ha, (hF.held s a hsym ha).2, hp.imp _root_.id (fun h => h.2 a ha)⟩
  refine sat_bind h4 (fun _ vm4 hj4 h4 => ?_)
  obtain ⟨s', a, h5, h6, h7, h8, h9⟩ := h4
  refine sat_bind (sat_sym hj4 (P := fun _ => True) (.inr ⟨s', h5, trivial⟩)) (fun s2 vm5 hj5 h10 => ?_)
  obtain ⟨rfl, h11, -⟩ := h10
  rw [h5] at h11; cases h11
  rw [h8]
  exact ⟨hj5, s', h5, h6, h7, h8, h9⟩

theorem sat_dimStatement {F : ArrField α} (hF : FieldHeld F) {vm : VM} (hj : Kept vm) {id n : Nat}
    (h : Good H vm id (fun s => isArr s F.type = true)) (hf : Fair H vm n) : Sat H Kept (fun _ _ => True) (dimStatement F id n vm) := by
  unfold dimStatement
  refine sat_bind (sat_sym hj h) (fun s vm1 hj1 h1 => ?_)
  obtain ⟨rfl, hs, hp⟩ := h1
  refine sat_bind (sat_assert hj1 hp) (fun _ vm2 hj2 h2 => ?_)
  obtain ⟨rfl, hv⟩ := h2
  have h3 : Sat H Kept (fun _ vm' => vm'.stack = vm2.stack ∧ ∃ s', vm'.st.psym[id]? = some s' ∧ isArr s' F.type = true)
      (when_ (F.get s).isSome (do
        assert s.defined "B_DIM defined"
        updSym id (fun s => { F.set none s with defined := false })) vm2) := by
    rw [when_apply]
    split
    · rename_i hg
      obtain ⟨a, ha⟩ := Option.isSome_iff_exists.1 hg
      refine sat_bind (sat_assert hj2 (.inr (hF.held s a (hj2.syms id s hs) ha).1)) (fun _ vm3 hj3 h3 => ?_)
      obtain ⟨rfl, -⟩ := h3
      refine ⟨hj3.upd id (fun s => (hF.head none) s) (fun s' hs' hh => ?_), rfl, _, updated_at hs _, ?_⟩
      · rw [hs] at hs'; cases hs'
        exact hF.drop s hh hv
      · show isArr (F.set none s) F.type = true
        rw [hF.kind]; exact hv
    · exact ⟨hj2, rfl, s, hs, hv⟩
  refine sat_bind h3 (fun _ vm3 hj3 h3 => ?_)
  obtain ⟨hst, s', h4, h5⟩ := h3
  have hf3 : Fair H vm3 n := by unfold Fair; rw [hst]; exact hf
  refine sat_bind (sat_popIndexes hj3 (hf3.imp _root_.id (·.1))) (fun idx vm4 hj4 h6 => ?_)
  refine (sat_dimension hF hj4 (.inr ⟨s', by rw [h6.2.st]; exact h4, h5⟩) (index_lt h6.1) (hf3.index h6.1)).mono ?_
  exact fun _ _ _ _ => trivial

/-- Reading and writing inside the cells. -/
theorem arrayGet_fine {α : Type} {a : BArray α} (h : ArrOk a) (hn : a.val ≠ []) (idx : List Nat) : ∃ o, arrayGet a idx = .ok o := by
  rcases h with ⟨mx, h⟩ | h
  · exact ⟨_, arrayGet_dim a mx idx h⟩
  · exact absurd h hn

theorem arraySet_fine {α : Type} {a : BArray α} (h : ArrOk a) (hn : a.val ≠ []) (idx : List Nat) (v : α) :
    ∃ o, arraySet a idx v = .ok o := by
  rcases h with ⟨mx, h⟩ | h
  · exact ⟨_, arraySet_dim a mx idx v h⟩
  · exact absurd h hn

theorem sat_getElement {F : ArrField α} (hF : FieldHeld F) {vm : VM} (hj : Kept vm) {id n : Nat}
    (h : Good H vm id (Celled F)) (hf : Fair H vm n) : Sat H Kept (fun _ _ => True) (getElement F id n vm) := by
  unfold getElement
  refine sat_bind (sat_elementArray hF hj h hf) (fun p vm1 hj1 h1 => ?_)
  obtain ⟨s, h2, h3, h4, h5, h6, h7⟩ := h1
  obtain ⟨a, idx⟩ := p
  refine sat_bind (sat_lift hj1 (h7.imp _root_.id (fun h7 => arrayGet_fine h6 h7 idx))) (fun o vm2 hj2 h8 => ?_)
  cases o with
  | none => exact hj2
  | some v => exact ⟨hj2, trivial⟩

theorem sat_setElement {F : ArrField α} (hF : FieldHeld F) {vm : VM} (hj : Kept vm) {id n : Nat}
    (h : Good H vm id (Celled F)) (hf : Fair H vm n) (v : α) : Sat H Kept (fun _ _ => True) (setElement F id n v vm) := by
  unfold setElement
  refine sat_bind (sat_elementArray hF hj h hf) (fun p vm1 hj1 h1 => ?_)
  obtain ⟨s, h2, h3, h4, h5, h6, h7⟩ := h1
  obtain ⟨a, idx⟩ := p
  refine sat_bind (sat_lift hj1 (h7.imp _root_.id (fun h7 => arraySet_fine h6 h7 idx v))) (fun o vm2 hj2 h8 => ?_)
  obtain ⟨rfl, h8⟩ := h8
  cases o with
  | none => exact hj2
  | some a' =>
    refine ⟨hj2.upd id (fun s => (hF.head _) s) (fun s' hs' hh => ?_), trivial⟩
    rw [h2] at hs'; cases hs'
    exact hF.store s a' hh h3 h4 (arraySet_ok h6 h8)

/-- A variable or an array element that can be assigned to, unless the process may end. -/
def Target {α : Type} (H : Prop) (F : ArrField α) (vm : VM) (id n : Nat) : Prop :=
  (n = 0 → Good H vm id (fun s => isVar s F.type = true)) ∧ (n ≠ 0 → Good H vm id (Celled F) ∧ Fair H vm n)

theorem Target.move {F : ArrField α} {vm vm' : VM} {id n : Nat} (h : Target H F vm id n) (h1 : vm'.st = vm.st)
    (h2 : vm'.stack = vm.stack) : Target H F vm' id n :=
  ⟨fun hn => (h.1 hn).move h1, fun hn => ⟨(h.2 hn).1.move h1, by unfold Fair; rw [h2]; exact (h.2 hn).2⟩⟩

theorem sat_setNumeric {vm : VM} (hj : Kept vm) {id n : Nat} (h : Target H numField vm id n) (x : Dbl) :
    Sat H Kept (fun _ _ => True) (setNumeric id n x vm) := by
  unfold setNumeric
  split
  · rename_i h0; exact sat_setNumericSimple hj (h.1 h0) x
  · rename_i h0; exact sat_setElement numField_held hj (h.2 h0).1 (h.2 h0).2 x

theorem sat_setString {vm : VM} (hj : Kept vm) {id n : Nat} (h : Target H strField vm id n) (x : CStr) :
    Sat H Kept (fun _ _ => True) (setString id n x vm) := by
  unfold setString
  split
  · rename_i h0; exact sat_setStringSimple hj (h.1 h0) x
  · rename_i h0; exact sat_setElement strField_held hj (h.2 h0).1 (h.2 h0).2 _

theorem Target.known {F : ArrField α} {vm : VM} {id n : Nat} (h : Target H F vm id n) : Good H vm id (fun _ => True) := by
  by_cases h0 : n = 0
  · exact (h.1 h0).imp (fun _ _ => trivial)
  · exact (h.2 h0).1.imp (fun _ _ => trivial)

/-! Input and data. -/

theorem sat_inputRest {vm : VM} (hj : J vm) (h : H ∨ 0 ≤ vm.inp ∧ vm.inp ≤ vm.input.length) :
    Sat H J (fun _ vm' => vm' = vm) (inputRest vm) := by
  unfold inputRest
  split
  · rename_i hc
    rcases h with h | h
    · exact h
    · omega
  · exact ⟨hj, rfl⟩

theorem sat_inputAgain {vm : VM} (hj : Kept vm) (m : String) : Sat H Kept (fun _ _ => True) (inputAgain m vm) :=
  ⟨hj.same rfl rfl rfl rfl rfl rfl, trivial⟩

theorem sat_inputNum {vm : VM} (hj : Kept vm) {id n : Nat} (h : Target H numField vm id n)
    (hi : H ∨ 0 ≤ vm.inp ∧ vm.inp ≤ vm.input.length) : Sat H Kept (fun _ _ => True) (inputNum id n vm) := by
  unfold inputNum
  refine sat_bind (sat_inputRest hj hi) (fun s vm1 hj1 h1 => ?_)
  subst h1
  cases convert s with
  | none => exact sat_inputAgain hj1 _
  | some p =>
    obtain ⟨x, t⟩ := p
    show Sat H Kept _ ((if endsNumber t then _ else _ : VmM Flow) vm1)
    rw [ite_apply]
    split
    · refine sat_bind (sat_sym hj1 h.known) (fun s vm2 hj2 h2 => ?_)
      obtain ⟨rfl, -⟩ := h2
      refine sat_bind (sat_setNumeric hj2 h x) (fun _ vm3 hj3 _ => ?_)
      exact ⟨hj3.same rfl rfl rfl rfl rfl rfl, trivial⟩
    · exact sat_inputAgain hj1 _

theorem sat_inputStr {vm : VM} (hj : Kept vm) {id n : Nat} (h : Target H strField vm id n)
    (hi : H ∨ 0 ≤ vm.inp ∧ vm.inp ≤ vm.input.length) : Sat H Kept (fun _ _ => True) (inputStr id n vm) := by
  unfold inputStr
  refine sat_bind (sat_inputRest hj hi) (fun s vm1 hj1 h1 => ?_)
  subst h1
  refine sat_bind (sat_modify (hj1.same rfl rfl rfl rfl rfl rfl)) (fun _ vm2 hj2 h2 => ?_)
  subst h2
  have h' := h.move (vm' := { vm1 with inp := vm1.inp + (s.takeWhile inStrItem).length }) rfl rfl
  refine sat_bind (sat_sym hj2 h'.known) (fun s vm3 hj3 h3 => ?_)
  obtain ⟨rfl, -⟩ := h3
  exact sat_setString hj3 h' _

theorem sat_inputLine {vm : VM} (hj : Kept vm) {id n : Nat} (h : Target H strField vm id n) :
    Sat H Kept (fun _ _ => True) (inputLine id n vm) := by
  unfold inputLine
  refine sat_bind (sat_modify (hj.same rfl rfl rfl rfl rfl rfl)) (fun _ vm2 hj2 h2 => ?_)
  subst h2
  have h' := h.move (vm' := { vm with input := vm.input.takeWhile (fun c => c != '\n') }) rfl rfl
  refine sat_bind (sat_get hj2) (fun _ vm3 hj3 h3 => ?_)
  obtain ⟨rfl, rfl⟩ := h3
  refine sat_bind (sat_sym hj2 h'.known) (fun s vm3 hj3 h3 => ?_)
  obtain ⟨rfl, -⟩ := h3
  exact sat_setString hj3 h' _

theorem sat_findData {vm : VM} (hj : Kept vm) (h : H ∨ ∃ a, dataSource vm = .ok a) :
    Sat H Kept (fun _ vm' => vm'.st = vm.st ∧ vm'.stack = vm.stack) (findData vm) := by
  unfold findData
  refine sat_bind (sat_get hj) (fun _ vm1 hj1 h1 => ?_)
  obtain ⟨rfl, rfl⟩ := h1
  refine sat_bind (sat_lift hj1 h) (fun p vm2 hj2 h2 => ?_)
  obtain ⟨rfl, -⟩ := h2
  obtain ⟨bc, dp, imm⟩ := p
  cases bc with
  | none => exact hj2
  | some b =>
    show Sat H Kept _ ((if !b.hasData then _ else _ : VmM CStr) vm2)
    rw [ite_apply]
    split
    · exact hj2
    · cases hi : b.inst[scan Inst.isData b.inst dp]? with
      | none => exact hj2
      | some i =>
        cases i <;> first | exact hj2 | skip
        refine sat_bind (sat_modify ?_) (fun _ vm3 hj3 h3 => ?_)
        · split
          · exact hj2.same rfl rfl rfl rfl rfl rfl
          · exact hj2.same rfl rfl rfl rfl rfl rfl
        · subst h3
          refine ⟨hj3, ?_, ?_⟩
          · split <;> rfl
          · split <;> rfl

theorem sat_readNum {vm : VM} (hj : Kept vm) {id n : Nat} (h : Target H numField vm id n)
    (hd : H ∨ ∃ a, dataSource vm = .ok a) : Sat H Kept (fun _ _ => True) (readNum id n vm) := by
  unfold readNum
  refine sat_bind (sat_findData hj hd) (fun s vm1 hj1 h1 => ?_)
  cases convert s with
  | none => exact hj1
  | some p =>
    obtain ⟨x, t⟩ := p
    cases t with
    | nil => exact sat_setNumeric hj1 (h.move h1.1 h1.2) _
    | cons => exact hj1

theorem sat_readStr {vm : VM} (hj : Kept vm) {id n : Nat} (h : Target H strField vm id n)
    (hd : H ∨ ∃ a, dataSource vm = .ok a) : Sat H Kept (fun _ _ => True) (readStr id n vm) := by
  unfold readStr
  exact sat_bind (sat_findData hj hd) (fun s vm1 hj1 h1 => sat_setString hj1 (h.move h1.1 h1.2) _)

/-! Loops. -/

theorem NumVar.good {vm : VM} {id : Nat} (h : NumVar vm.st id) : Good H vm id (fun s => isVar s .num = true) := by
  obtain ⟨s, h1, h2, h3⟩ := h
  exact .inr ⟨s, h1, isVar_iff.2 ⟨h2, h3⟩⟩

theorem sat_dumpEntries {vm : VM} (hj : Kept vm) (l : List ForLoop) (hl : ∀ f ∈ l, NumVar vm.st f.symbolId) :
    Sat H Kept (fun _ vm' => vm' = vm) (dumpEntries l vm) := by
  induction l with
  | nil => exact ⟨hj, rfl⟩
  | cons f fs ih =>
    refine sat_bind (Q := fun _ vm' => vm' = vm) ?_ (fun a vm1 hj1 h1 => ?_)
    · refine sat_bind (sat_sym hj (NumVar.good (hl f List.mem_cons_self))) (fun s vm1 hj1 h1 => ⟨hj1, h1.1⟩)
    · subst h1
      exact sat_bind (ih (fun f hf => hl f (List.mem_cons_of_mem _ hf))) (fun b vm2 hj2 h2 => ⟨hj2, h2⟩)

/-- Only the output has changed. -/
def Wrote (vm vm' : VM) : Prop := ∃ w, vm' = { vm with world := w }

theorem Wrote.kept {vm vm' : VM} (h : Wrote vm vm') (k : Kept vm) : Kept vm' := by
  obtain ⟨w, rfl⟩ := h
  exact k.same rfl rfl rfl rfl rfl rfl

theorem Wrote.trans {a b c : VM} (h : Wrote a b) (k : Wrote b c) : Wrote a c := by
  obtain ⟨w, rfl⟩ := h; obtain ⟨w', rfl⟩ := k; exact ⟨w', rfl⟩

theorem sat_out {vm : VM} (hj : Kept vm) (s : CStr) : Sat H Kept (fun _ vm' => Wrote vm vm') (out s vm) :=
  ⟨hj.same rfl rfl rfl rfl rfl rfl, _, rfl⟩

theorem sat_dumpForStack {vm : VM} (hj : Kept vm) (t : String) : Sat H Kept (fun _ vm' => Wrote vm vm') (dumpForStack t vm) := by
  unfold dumpForStack
  refine sat_bind (sat_get hj) (fun _ vm1 hj1 h1 => ?_)
  obtain ⟨rfl, rfl⟩ := h1
  rw [ite_apply]
  split
  · exact sat_out hj1 _
  · refine sat_bind (sat_dumpEntries hj1 _ (fun f hf => hj1.loops f (List.mem_reverse.1 hf))) (fun a vm2 hj2 h2 => ?_)
    subst h2; exact sat_out hj2 _

/-- The line that is being executed can be shown. -/
def OnLine (vm : VM) : Prop := ∃ r src, vm.cs.code = some r ∧ (codeOf vm r).source = some src ∧ vm.cs.sourceLine < src.lines.length

theorem sat_dumpFor {vm : VM} (hj : Kept vm) (t : String) (h : H ∨ OnLine vm) : Sat H Kept (fun _ vm' => Wrote vm vm') (dumpFor t vm) := by
  unfold dumpFor
  refine sat_bind (Q := fun src vm' => vm' = vm ∧ (H ∨ ∃ s, src = some s ∧ vm.cs.sourceLine < s.lines.length)) ?_ (fun src vm1 hj1 h1 => ?_)
  · unfold curSource
    cases hc : vm.cs.code with
    | none =>
      rcases h with h | ⟨r, s, h1, -⟩
      · exact h
      · rw [hc] at h1; cases h1
    | some r =>
      refine ⟨hj, rfl, h.imp (fun h => h) ?_⟩
      rintro ⟨r', s, h1, h2, h3⟩
      rw [hc] at h1; cases h1
      exact ⟨s, h2, h3⟩
  · obtain ⟨rfl, h⟩ := h1
    refine sat_bind (sat_get hj1) (fun _ vm2 hj2 h2 => ?_)
    obtain ⟨rfl, rfl⟩ := h2
    cases src with
    | none =>
      rcases h with h | ⟨s, h, -⟩
      · exact h
      · cases h
    | some src =>
      have hl : H ∨ vm2.cs.sourceLine < src.lines.length := h.imp (fun h => h) (fun ⟨s, h1, h2⟩ => by cases h1; exact h2)
      refine sat_bind (sat_lift hj2 (hl.imp (fun h => h) (fun h => by simp [sourceLinenum, List.getElem?_eq_getElem h]))) (fun n vm3 hj3 h3 => ?_)
      obtain ⟨rfl, -⟩ := h3
      refine sat_bind (sat_lift hj3 (hl.imp (fun h => h) (fun h => by simp [sourceText, List.getElem?_eq_getElem h]))) (fun n vm4 hj4 h4 => ?_)
      obtain ⟨rfl, -⟩ := h4
      refine sat_bind (sat_out hj4 _) (fun n vm5 hj5 h5 => ?_)
      exact (sat_dumpForStack hj5 _).mono (fun _ _ _ h6 => h5.trans h6)

theorem sat_traced {vm : VM} (hj : Kept vm) {x : VmM Unit} (h : vm.traceFor = true → Sat H Kept (fun _ vm' => Wrote vm vm') (x vm)) :
    Sat H Kept (fun _ vm' => Wrote vm vm') (traced x vm) := by
  unfold traced
  refine sat_bind (sat_get hj) (fun _ vm1 hj1 h1 => ?_)
  obtain ⟨rfl, rfl⟩ := h1
  rw [when_apply]
  split
  · rename_i ht; exact h ht
  · exact ⟨hj1, vm1.world, rfl⟩

theorem sat_tracedFor {vm : VM} (hj : Kept vm) (t : String) (h : H ∨ OnLine vm) :
    Sat H Kept (fun _ vm' => Wrote vm vm') (traced (dumpFor t) vm) := by
  exact sat_traced hj (fun _ => sat_dumpFor hj t h)

theorem sat_next {vm : VM} (hj : Kept vm) {si : Nat} (h : H ∨ si < vm.forStack.length) : Sat H Kept (fun _ _ => True) (next si vm) := by
  unfold next
  refine sat_bind (sat_get hj) (fun _ vm1 hj1 h1 => ?_)
  obtain ⟨rfl, rfl⟩ := h1
  cases hf : vm1.forStack[si]? with
  | none =>
    rcases h with h | h
    · exact h
    · rw [List.getElem?_eq_none_iff] at hf; omega
  | some f =>
    refine sat_bind (sat_sym hj1 (NumVar.good (hj1.loops f (List.mem_of_getElem? hf)))) (fun s vm2 hj2 h2 => ?_)
    obtain ⟨rfl, hs, -⟩ := h2
    refine sat_bind (Q := fun _ _ => True) ?_ (fun _ vm3 hj3 _ => ?_)
    · rw [ite_apply]
      split
      · refine ⟨⟨hj2.syms, fun r b hb => hj2.codes r b (by cases r <;> exact hb), hj2.param, fun f hf => hj2.loops f ?_⟩, trivial⟩
        exact List.mem_of_mem_eraseIdx hf
      · have k := hj2.upd f.symbolId (f := fun s' => { s' with num := Dbl.add s.num f.step }) (fun _ => ⟨rfl, rfl, rfl, rfl⟩) (fun s' _ hh => hh.num _)
        exact ⟨k.same rfl rfl rfl rfl rfl rfl, trivial⟩
    · exact (sat_traced hj3 (fun _ => sat_dumpForStack hj3 _)).mono (fun _ _ _ _ => trivial)

theorem sat_nextVariable {vm : VM} (hj : Kept vm) {id : Nat} (h : H ∨ OnLine vm) :
    Sat H Kept (fun _ _ => True) (nextVariable id vm) := by
  unfold nextVariable
  refine sat_bind (sat_tracedFor hj _ h) (fun _ vm1 hj1 h1 => ?_)
  refine sat_bind (sat_get hj1) (fun _ vm2 hj2 h2 => ?_)
  obtain ⟨rfl, rfl⟩ := h2
  cases hl : vm2.forStack.getLast? with
  | none => exact hj2
  | some f =>
    have hne : vm2.forStack ≠ [] := by intro h0; rw [h0] at hl; cases hl
    have hpos : 0 < vm2.forStack.length := List.length_pos_iff.2 hne
    show Sat H Kept _ ((if f.symbolId = id then _ else _ : VmM Unit) vm2)
    rw [ite_apply]
    split
    · exact sat_next hj2 (.inr (by omega))
    · cases hs : findFor vm2 id with
      | none => exact hj2
      | some si => exact sat_next hj2 (.inr (List.findIdx?_eq_some_iff_getElem.1 hs).1)

theorem sat_nextImplicit {vm : VM} (hj : Kept vm) (h : H ∨ OnLine vm) : Sat H Kept (fun _ _ => True) (nextImplicit vm) := by
  unfold nextImplicit
  refine sat_bind (sat_tracedFor hj _ h) (fun _ vm1 hj1 h1 => ?_)
  refine sat_bind (sat_get hj1) (fun _ vm2 hj2 h2 => ?_)
  obtain ⟨rfl, rfl⟩ := h2
  show Sat H Kept _ ((if vm2.forStack.isEmpty then _ else _ : VmM Unit) vm2)
  rw [ite_apply]
  split
  · exact hj2
  · rename_i he
    have : vm2.forStack ≠ [] := by simpa using he
    have := List.length_pos_iff.2 this
    exact sat_next hj2 (.inr (by omega))

theorem Kept.forStack {vm : VM} (h : Kept vm) {l : List ForLoop} (hl : ∀ f ∈ l, NumVar vm.st f.symbolId) : Kept { vm with forStack := l } :=
  ⟨h.syms, fun r b hb => h.codes r b (by cases r <;> exact hb), h.param, hl⟩

theorem modify_loops {st : SymTab} {l : List ForLoop} {k : Nat} {g : ForLoop → ForLoop} (hl : ∀ f ∈ l, NumVar st f.symbolId)
    (hg : ∀ f, NumVar st f.symbolId → NumVar st (g f).symbolId) : ∀ f ∈ l.modify k g, NumVar st f.symbolId := by
  intro f hf
  obtain ⟨j, hj⟩ := List.getElem?_of_mem hf
  rw [List.getElem?_modify] at hj
  cases hx : l[j]? with
  | none => rw [hx] at hj; cases hj
  | some x =>
    rw [hx] at hj
    have := hl x (List.mem_of_getElem? hx)
    split at hj
    · cases hj; exact hg x this
    · cases hj; exact this

theorem sat_forEntry {vm : VM} (hj : Kept vm) {id : Nat} (hn : NumVar vm.st id) :
    Sat H Kept (fun _ vm' => vm'.st = vm.st) (forEntry id vm) := by
  unfold forEntry
  refine sat_bind (sat_get hj) (fun _ vm2 hj2 h2 => ?_)
  obtain ⟨rfl, rfl⟩ := h2
  cases hs : findFor vm2 id with
  | some si =>
    have hlt := (List.findIdx?_eq_some_iff_getElem.1 hs).1
    show Sat H Kept _ ((match vm2.forStack[si]? with | none => _ | some f => _ : VmM Unit) vm2)
    rw [List.getElem?_eq_getElem hlt]
    refine ⟨Kept.forStack hj2 (fun f hf => ?_), rfl⟩
    rcases List.mem_append.1 hf with hf | hf
    · exact hj2.loops f (List.mem_of_mem_eraseIdx hf)
    · rw [List.mem_singleton.1 hf]; exact hj2.loops _ (List.getElem_mem hlt)
  | none =>
    show Sat H Kept _ ((if vm2.forStack.length ≥ maxFor then _ else _ : VmM Unit) vm2)
    rw [ite_apply]
    split
    · exact sat_bind (sat_dumpForStack hj2 _) (fun _ vm3 hj3 _ => hj3)
    · refine ⟨Kept.forStack hj2 (fun f hf => ?_), rfl⟩
      rcases List.mem_append.1 hf with hf | hf
      · exact hj2.loops f hf
      · rw [List.mem_singleton.1 hf]; exact hn

theorem sat_forStatement {vm : VM} (hj : Kept vm) {id : Nat} (h : Good H vm id (fun s => isVar s .num = true))
    (ht : H ∨ OnLine vm) : Sat H Kept (fun _ _ => True) (forStatement id vm) := by
  unfold forStatement
  refine sat_bind (sat_tracedFor hj _ ht) (fun _ vm1 hj1 h1 => ?_)
  have hst : vm1.st = vm.st := by obtain ⟨w, rfl⟩ := h1; rfl
  refine sat_bind (sat_sym hj1 (h.move hst)) (fun s vm2 hj2 h2 => ?_)
  obtain ⟨rfl, hs, hp⟩ := h2
  refine sat_bind (sat_assert hj2 hp) (fun _ vm3 hj3 h3 => ?_)
  obtain ⟨rfl, hv⟩ := h3
  obtain ⟨hk, hty⟩ := isVar_iff.1 hv
  have hn : NumVar vm3.st id := ⟨s, hs, hk, hty⟩
  refine sat_bind (Q := fun _ vm' => vm'.st = vm3.st) ?_ (fun _ vm4 hj4 h4 => ?_)
  · unfold forTop
    refine sat_bind (sat_forEntry hj3 hn) (fun _ vm4 hj4 h4 => ?_)
    exact ⟨Kept.forStack hj4 (modify_loops hj4.loops (fun f _ => (by rw [h4]; exact hn))), h4⟩
  · refine sat_bind (sat_pop' hj4) (fun _ vm5 hj5 h5 => ?_)
    refine sat_bind (Q := fun _ vm' => vm'.st = vm5.st) ⟨Kept.forStack hj5 (modify_loops hj5.loops (fun f hf => hf)), rfl⟩ (fun _ vm6 hj6 h6 => ?_)
    refine sat_bind (sat_pop' hj6) (fun _ vm7 hj7 h7 => ?_)
    refine sat_bind (Q := fun _ vm' => vm'.st = vm7.st) ⟨Kept.forStack hj7 (modify_loops hj7.loops (fun f hf => hf)), rfl⟩ (fun _ vm8 hj8 h8 => ?_)
    refine sat_bind (sat_pop' hj8) (fun x vm9 hj9 h9 => ?_)
    have hst9 : vm9.st.psym[id]? = some s := by rw [h9.st, h8, h7.st, h6, h5.st, h4]; exact hs
    refine sat_bind (Q := fun _ _ => True) ⟨hj9.upd id (fun _ => ⟨rfl, rfl, rfl, rfl⟩) (fun s' hs' hh => ?_), trivial⟩ (fun _ vm10 hj10 _ => ?_)
    · rw [hst9] at hs'; cases hs'
      exact hh.setNum hk hty _ _
    · exact (sat_traced hj10 (fun _ => sat_dumpForStack hj10 _)).mono (fun _ _ _ _ => trivial)

/-! Functions. -/

theorem bcode_at {vm : VM} {i : Inst} (h : At vm i) :
    ∃ r b, vm.cs.code = some r ∧ (codeOf vm r).bcode = some b ∧ b.inst[vm.cs.pc]? = some i ∧ curBcode vm = .ok b vm := by
  obtain ⟨r, b, h1, h2, h3⟩ := h
  exact ⟨r, b, h1, h2, h3, by simp only [curBcode, h1, h2]⟩

/-- The parameter of a function is a numeric variable, unless the process may end. -/
def Callable (H : Prop) (vm : VM) (id : Nat) : Prop :=
  Good H vm id (fun s => s.kind = .def_ ∧ ∀ d p, s.def_ = some d → d.bcode.inst[1]? = some (.param p) → NumVar vm.st p)

theorem sat_callDef {vm : VM} (hj : Kept vm) {id n : Nat} {i : Inst} (hat : At vm i) (h : Callable H vm id) :
    Sat H Kept (fun _ _ => True) (callDef id n vm) := by
  unfold callDef
  refine sat_bind (sat_sym hj h) (fun s vm1 hj1 h1 => ?_)
  obtain ⟨rfl, hs, hp⟩ := h1
  refine sat_bind (sat_assert hj1 (hp.imp _root_.id (fun h => by simp [h.1]))) (fun _ vm2 hj2 h2 => ?_)
  obtain ⟨rfl, hv⟩ := h2
  have hk : s.kind = .def_ := by simpa using hv
  refine sat_bind (sat_check hj2) (fun _ vm3 hj3 h3 => ?_)
  obtain ⟨rfl, hd⟩ := h3
  have hsym := hj3.syms id s hs
  obtain ⟨d, hdd⟩ := Option.isSome_iff_exists.1 (hsym.defs hk (by simpa using hd))
  rw [hdd]
  obtain ⟨-, -, hdp, pid, hpid⟩ := hsym.def_ d hdd
  refine sat_bind (sat_get hj3) (fun _ vm4 hj4 h4 => ?_)
  obtain ⟨rfl, rfl⟩ := h4
  refine sat_bind (sat_check hj4) (fun _ vm5 hj5 h5 => ?_)
  obtain ⟨rfl, -⟩ := h5
  refine sat_bind (sat_check hj5) (fun _ vm6 hj6 h6 => ?_)
  obtain ⟨rfl, -⟩ := h6
  obtain ⟨r, b, h7, h8, h9, h10⟩ := bcode_at hat
  refine sat_bind (Q := fun b' vm' => b' = b ∧ vm' = vm6) (by rw [h10]; exact ⟨hj6, rfl, rfl⟩) (fun _ vm8 hj8 h11 => ?_)
  obtain ⟨rfl, rfl⟩ := h11
  refine sat_bind (sat_check hj8) (fun _ vm9 hj9 h12 => ?_)
  obtain ⟨rfl, -⟩ := h12
  simp only [bind_apply, modify_apply, hpid, sym, symbolAt]
  cases hq : vm9.st.psym[pid]? with
  | none =>
    rcases hp with hp | ⟨-, hp⟩
    · exact hp
    · obtain ⟨q, hq', -⟩ := hp d pid hdd hpid
      rw [hq] at hq'; cases hq'
  | some q =>
    simp only []
    by_cases hiv : isVar q .num = true
    · obtain ⟨hk', hty⟩ := isVar_iff.1 hiv
      rw [assert_apply, if_pos hiv]
      simp only []
      have hkept : Kept { vm9 with
          fn := { vm9.fn with codeState := vm9.cs, paramId := pid, paramDefined := q.defined, paramVal := q.num },
          defCode := { vm9.defCode with bcode := some d.bcode },
          cs := { code := some .def_, sourceLine := d.sourceLine, pc := 0 } } := by
        refine ⟨hj9.syms, fun r b hb => ?_, fun _ => ⟨q, hq, hk', hty⟩, hj9.loops⟩
        cases r with
        | stored => exact hj9.codes .stored b hb
        | immediate => exact hj9.codes .immediate b hb
        | def_ =>
          have : d.bcode = b := by simpa [codeOf] using hb
          subst this; exact hdp
      have hpop := sat_pop' (H := H) hkept
      split
      rotate_left
      · rename_i e vm' he; rw [he] at hpop; exact hpop
      · rename_i e he; rw [he] at hpop; exact hpop
      rename_i x vm10 he
      rw [he] at hpop
      obtain ⟨hj10, h13⟩ := hpop
      have hup : Kept { vm10 with st := symUpdate vm10.st pid (fun s => { s with num := x, defined := true }) } := by
        refine hj10.upd pid (fun _ => ⟨rfl, rfl, rfl, rfl⟩) (fun s' hs' hh => ?_)
        rw [h13.st] at hs'
        have hs'' : vm9.st.psym[pid]? = some s' := hs'
        rw [hq] at hs''; cases hs''
        exact hh.setNum hk' hty _ _
      exact ⟨hup.same rfl rfl rfl rfl rfl rfl, trivial⟩
    · rw [assert_apply, if_neg hiv]
      rcases hp with hp | ⟨-, hp⟩
      · exact hp
      · obtain ⟨q', hq', h1, h2⟩ := hp d pid hdd hpid
        rw [hq] at hq'; cases hq'
        exact absurd (isVar_iff.2 ⟨h1, h2⟩) hiv

theorem sat_endDef {vm : VM} (hj : Kept vm) : Sat H Kept (fun _ _ => True) (endDef vm) := by
  unfold endDef
  refine sat_bind (sat_get hj) (fun _ vm1 hj1 h1 => ?_)
  obtain ⟨rfl, rfl⟩ := h1
  refine sat_bind (sat_check hj1) (fun _ vm2 hj2 h2 => ?_)
  obtain ⟨rfl, hc⟩ := h2
  have hn : NumVar vm2.st vm2.fn.paramId := by
    apply hj2.param
    cases hcode : vm2.fn.codeState.code with
    | none => rw [hcode] at hc; cases hc
    | some r => rfl
  refine sat_bind (sat_modify (hj2.same rfl rfl rfl rfl rfl rfl)) (fun _ vm3 hj3 h3 => ?_)
  subst h3
  refine sat_bind (sat_modify ⟨hj3.syms, fun r b hb => hj3.codes r b (by cases r <;> exact hb), fun h => (by cases h), hj3.loops⟩) (fun _ vm4 hj4 h4 => ?_)
  have hst : vm4.st = vm2.st := by rw [h4]
  refine sat_bind (sat_sym hj4 (P := fun s => isVar s .num = true) (NumVar.good (by rw [hst]; exact hn))) (fun s vm5 hj5 h5 => ?_)
  obtain ⟨rfl, hs, -⟩ := h5
  refine ⟨hj5.upd _ (fun _ => ⟨rfl, rfl, rfl, rfl⟩) (fun s' hs' hh => ?_), trivial⟩
  obtain ⟨q, hq, hk, hty⟩ := hn
  rw [hst, hq] at hs'; cases hs'
  exact hh.setNum hk hty _ _

theorem sat_defStatement {vm : VM} (hj : Kept vm) {id n : Nat} (hat : At vm (.def_ id n)) (h : Good H vm id (fun s => s.kind = .def_)) :
    Sat H Kept (fun _ _ => True) (defStatement id n vm) := by
  unfold defStatement
  refine sat_bind (sat_sym hj h) (fun s vm1 hj1 h1 => ?_)
  obtain ⟨rfl, hs, hp⟩ := h1
  refine sat_bind (sat_assert hj1 (hp.imp _root_.id (fun h => by simp [h]))) (fun _ vm2 hj2 h2 => ?_)
  obtain ⟨rfl, hv⟩ := h2
  have hk : s.kind = .def_ := by simpa using hv
  have h3 : Sat H Kept (fun _ vm' => (∃ st, vm' = { vm2 with st := st }) ∧ ∃ s', vm'.st.psym[id]? = some s' ∧ s'.kind = .def_)
      (when_ s.def_.isSome (do
        assert s.defined "B_DEF defined"
        updSym id (fun s => { s with def_ := none, defined := false })) vm2) := by
    rw [when_apply]
    split
    · rename_i hg
      obtain ⟨d, hd⟩ := Option.isSome_iff_exists.1 hg
      refine sat_bind (sat_assert hj2 (.inr ((hj2.syms id s hs).def_ d hd).2.1)) (fun _ vm3 hj3 h3 => ?_)
      obtain ⟨rfl, -⟩ := h3
      refine ⟨hj3.upd id (fun _ => ⟨rfl, rfl, rfl, rfl⟩) (fun s' hs' hh => ?_), ⟨_, rfl⟩, _, updated_at hs _, hk⟩
      rw [hs] at hs'; cases hs'
      exact hh.dropDef hk
    · exact ⟨hj2, ⟨vm2.st, rfl⟩, s, hs, hk⟩
  refine sat_bind h3 (fun _ vm3 hj3 h4 => ?_)
  obtain ⟨⟨st, rfl⟩, s', h5, h6⟩ := h4
  refine sat_bind (sat_check hj3) (fun _ vm4 hj4 h7 => ?_)
  obtain ⟨rfl, -⟩ := h7
  have hat' : At { vm2 with st := st } (.def_ id n) := by
    obtain ⟨r, b, h1, h2, h3⟩ := hat
    exact ⟨r, b, h1, by cases r <;> exact h2, h3⟩
  obtain ⟨r, b, h7, h8, h9, h10⟩ := bcode_at hat'
  refine sat_bind (Q := fun b' vm' => b' = b ∧ vm' = { vm2 with st := st }) (by rw [h10]; exact ⟨hj4, rfl, rfl⟩) (fun _ vm8 hj8 h11 => ?_)
  obtain ⟨rfl, rfl⟩ := h11
  refine sat_bind (sat_get hj8) (fun _ vm9 hj9 h12 => ?_)
  obtain ⟨rfl, rfl⟩ := h12
  have hb := hj9.codes r _ h8
  refine sat_bind (sat_lift hj9 (.inr ?_)) (fun body vm10 hj10 h13 => ?_)
  · have := (List.getElem?_eq_some_iff.1 h9).1
    unfold bcodeCopyDef
    rw [if_neg (by unfold Bcode.used; exact Nat.not_le.2 this)]
    exact ⟨_, rfl⟩
  · obtain ⟨rfl, hbody⟩ := h13
    refine sat_bind (Q := fun _ _ => True) ⟨hj10.upd id (fun _ => ⟨rfl, rfl, rfl, rfl⟩) (fun q hq hh => ?_), trivial⟩ (fun _ vm11 hj11 _ => ?_)
    · rw [h5] at hq; cases hq
      exact hh.setDef h6 (defParam_copy hb hbody) (param_copy hb h9 hbody)
    · exact ⟨hj11.same rfl rfl rfl rfl rfl rfl, trivial⟩

/-- What a name with parentheses stands for, unless the process may end. -/
def Paren {α : Type} (H : Prop) (F : ArrField α) (vm : VM) (id n : Nat) : Prop :=
  Good H vm id (fun s => s.type = F.type ∧ (s.kind = .array ∨ s.kind = .def_)) ∧
  (∀ s, vm.st.psym[id]? = some s → s.kind = .array → Good H vm id (Celled F) ∧ Fair H vm n) ∧
  (∀ s, vm.st.psym[id]? = some s → s.kind = .def_ → Callable H vm id)

theorem sat_getParenNum {vm : VM} (hj : Kept vm) {id n : Nat} {i : Inst} (hat : At vm i) (h : Paren H numField vm id n) :
    Sat H Kept (fun _ _ => True) (getParenNum id n vm) := by
  unfold getParenNum
  refine sat_bind (sat_sym hj h.1) (fun s vm1 hj1 h1 => ?_)
  obtain ⟨rfl, hs, hp⟩ := h1
  refine sat_bind (sat_assert hj1 (hp.imp _root_.id (fun h => by rw [h.1]; rfl))) (fun _ vm2 hj2 h2 => ?_)
  obtain ⟨rfl, hv⟩ := h2
  rw [ite_apply]
  split
  · rename_i hk
    exact sat_bind (sat_getElement numField_held hj2 (h.2.1 s hs hk).1 (h.2.1 s hs hk).2) (fun x vm3 hj3 _ => sat_push hj3 x)
  · rename_i hk
    refine sat_bind (sat_assert hj2 (hp.imp _root_.id (fun h => ?_))) (fun _ vm3 hj3 h3 => ?_)
    · rcases h.2 with h | h
      · exact absurd h hk
      · rw [h]; rfl
    · obtain ⟨rfl, hd⟩ := h3
      exact sat_callDef hj3 hat (h.2.2 s hs (by simpa using hd))

theorem sat_getParenStr {vm : VM} (hj : Kept vm) {id n : Nat} {i : Inst} (hat : At vm i) (h : Paren H strField vm id n) :
    Sat H Kept (fun _ _ => True) (getParenStr id n vm) := by
  unfold getParenStr
  refine sat_bind (sat_sym hj h.1) (fun s vm1 hj1 h1 => ?_)
  obtain ⟨rfl, hs, hp⟩ := h1
  refine sat_bind (sat_assert hj1 (hp.imp _root_.id (fun h => by rw [h.1]; rfl))) (fun _ vm2 hj2 h2 => ?_)
  obtain ⟨rfl, hv⟩ := h2
  rw [ite_apply]
  split
  · rename_i hk
    exact sat_bind (sat_getElement strField_held hj2 (h.2.1 s hs hk).1 (h.2.1 s hs hk).2) (fun x vm3 hj3 _ => sat_pushStr hj3 _)
  · rename_i hk
    refine sat_bind (sat_assert hj2 (hp.imp _root_.id (fun h => ?_))) (fun _ vm3 hj3 h3 => ?_)
    · rcases h.2 with h | h
      · exact absurd h hk
      · rw [h]; rfl
    · obtain ⟨rfl, hd⟩ := h3
      exact sat_callDef hj3 hat (h.2.2 s hs (by simpa using hd))

/-! All instructions. -/

theorem closed_kept : Closed (fun a => a ≠ .sym ∧ a ≠ .fn ∧ a ≠ .loop) Kept where
  push _ x vm h := (sat_push (H := True) h x).all
  pop vm h := (sat_pop (H := True) h).all
  pushStr _ x vm h := (sat_pushStr (H := True) h x).all
  popStr vm h := (sat_popStr (H := True) h).all
  pushReturn _ pc vm h := by
    unfold V.pushReturn
    split
    · exact h
    · exact h.same rfl rfl rfl rfl rfl rfl
  popReturn _ vm h := by
    unfold V.popReturn
    split
    · exact h
    · exact h.same rfl rfl rfl rfl rfl rfl
  updSym h := absurd rfl h.1
  clear h := absurd rfl h.1
  world _ vm _ h := h.same rfl rfl rfl rfl rfl rfl
  col _ vm _ h := h.same rfl rfl rfl rfl rfl rfl
  cs vm _ _ _ h := h.same rfl rfl rfl rfl rfl rfl
  stopped _ vm _ h := h.same rfl rfl rfl rfl rfl rfl
  programData _ vm _ h := h.same rfl rfl rfl rfl rfl rfl
  immediateData _ vm _ h := h.same rfl rfl rfl rfl rfl rfl
  fn h := absurd rfl h.2.1
  input _ vm _ _ h := h.same rfl rfl rfl rfl rfl rfl
  inp _ vm _ h := h.same rfl rfl rfl rfl rfl rfl
  inputPc _ vm _ h := h.same rfl rfl rfl rfl rfl rfl
  defCode h := absurd rfl h.2.1
  forTop h := absurd rfl h.2.2
  setTopFor h := absurd rfl h.2.2
  trace := .inl ⟨by decide, by decide, by decide⟩
  erase h := absurd rfl h.2.2

/-- The numbers on the stack after the first. -/
def Below (vm : VM) (P : VM → Prop) : Prop := ∀ x r, vm.stack = x :: r → P { vm with stack := r }

/-- What an instruction that reads or writes symbols needs of them, unless the process may end. -/
def Suits (H : Prop) (vm : VM) : Inst → Prop
  | .getSimpleNum id => Good H vm id (fun s => isVar s .num = true)
  | .setSimpleNum id => Good H vm id (fun s => isVar s .num = true)
  | .dimNum id n => Good H vm id (fun s => isArr s .num = true) ∧ Fair H vm n
  | .getParenNum id n => Paren H numField vm id n
  | .setArrayNum id n => Good H vm id (Celled numField) ∧ Below vm (Fair H · n)
  | .setSimpleStr id => Good H vm id (fun s => isVar s .str = true)
  | .getSimpleStr id => Good H vm id (fun s => isVar s .str = true)
  | .dimStr id n => Good H vm id (fun s => isArr s .str = true) ∧ Fair H vm n
  | .getParenStr id n => Paren H strField vm id n
  | .setArrayStr id n => Good H vm id (Celled strField) ∧ Fair H vm n
  | .for_ id => Good H vm id (fun s => isVar s .num = true) ∧ (H ∨ OnLine vm)
  | .nextVar _ => H ∨ OnLine vm
  | .nextImp => H ∨ OnLine vm
  | .def_ id _ => Good H vm id (fun s => s.kind = .def_)
  | .inputNum id n => Target H numField vm id n ∧ (H ∨ 0 ≤ vm.inp ∧ vm.inp ≤ vm.input.length)
  | .inputStr id n => Target H strField vm id n ∧ (H ∨ 0 ≤ vm.inp ∧ vm.inp ≤ vm.input.length)
  | .inputLine id n => Target H strField vm id n
  | .readNum id n => Target H numField vm id n ∧ (H ∨ ∃ a, dataSource vm = .ok a)
  | .readStr id n => Target H strField vm id n ∧ (H ∨ ∃ a, dataSource vm = .ok a)
  | _ => True

theorem suits_true (vm : VM) (i : Inst) : Suits True vm i := by
  cases i <;> simp [Suits, Good, Fair, Paren, Target, Callable, Below]

/-- The instructions that read or write symbols. -/
def symbolic : Inst → Bool
  | .clear | .getSimpleNum _ | .setSimpleNum _ | .dimNum _ _ | .getParenNum _ _ | .setArrayNum _ _ | .setSimpleStr _ | .getSimpleStr _
  | .dimStr _ _ | .getParenStr _ _ | .setArrayStr _ _ | .for_ _ | .nextVar _ | .nextImp | .def_ _ _ | .endDef | .inputNum _ _
  | .inputStr _ _ | .inputLine _ _ | .readNum _ _ | .readStr _ _ => true
  | _ => false

theorem symbolic_of_touches {i : Inst} (h : symbolic i = false) : ∀ a, touches i a = true → a ≠ .sym ∧ a ≠ .fn ∧ a ≠ .loop := by
  intro a
  cases i with
  | bi f => cases f <;> cases a <;> first | exact fun _ => ⟨by decide, by decide, by decide⟩ | (intro h; cases h)
  | _ => cases h <;> (cases a <;> first | exact fun _ => ⟨by decide, by decide, by decide⟩ | (intro h; cases h))

theorem keeps_plain {i : Inst} (h : symbolic i = false) (env : Env) : Keeps Kept (exec env i) :=
  keeps_exec closed_kept env i (symbolic_of_touches h)

theorem Celled.good {F : ArrField α} {vm : VM} {id : Nat} (h : Good H vm id (Celled F)) : Good H vm id (fun _ => True) := h.imp (fun _ _ => trivial)

theorem sat_symbolic (env : Env) {i : Inst} (hi : symbolic i = true) {vm : VM} (hj : Kept vm) (hat : At vm i) (hs : Suits H vm i) :
    Sat H Kept (fun _ _ => True) (exec env i vm) := by
  cases i with
  | bi f => cases hi
  | clear => exact sat_brk (Q := fun _ _ => True) ⟨hj.clear, trivial⟩ (fun _ _ => trivial)
  | getSimpleNum id => exact sat_brk (sat_getNumericSimple hj hs) (fun _ _ => trivial)
  | setSimpleNum id =>
    refine sat_brk (Q := fun _ _ => True) (sat_bind (sat_sym hj hs) (fun s vm1 hj1 h1 => ?_)) (fun _ _ => trivial)
    obtain ⟨rfl, -⟩ := h1
    exact sat_bind (sat_pop' hj1) (fun x vm2 hj2 h2 => sat_setNumericSimple hj2 (hs.move h2.st) x)
  | dimNum id n => exact sat_brk (sat_dimStatement numField_held hj hs.1 hs.2) (fun _ _ => trivial)
  | getParenNum id n => exact sat_brk (sat_getParenNum hj hat hs) (fun _ _ => trivial)
  | setArrayNum id n =>
    refine sat_brk (Q := fun _ _ => True) (sat_bind (sat_sym hj hs.1) (fun s vm1 hj1 h1 => ?_)) (fun _ _ => trivial)
    obtain ⟨rfl, -⟩ := h1
    refine sat_bind (sat_pop hj1) (fun x vm2 hj2 h2 => ?_)
    obtain ⟨r, h3, rfl⟩ := h2
    exact sat_setElement numField_held hj2 (hs.1.move rfl) (hs.2 x r h3) x
  | setSimpleStr id =>
    refine sat_brk (Q := fun _ _ => True) (sat_bind (sat_sym hj hs) (fun s vm1 hj1 h1 => ?_)) (fun _ _ => trivial)
    obtain ⟨rfl, -⟩ := h1
    exact sat_bind (sat_popStr hj1) (fun x vm2 hj2 h2 => sat_setStringSimple hj2 (hs.move h2.st) x)
  | getSimpleStr id => exact sat_brk (sat_getStringSimple hj hs) (fun _ _ => trivial)
  | dimStr id n => exact sat_brk (sat_dimStatement strField_held hj hs.1 hs.2) (fun _ _ => trivial)
  | getParenStr id n => exact sat_brk (sat_getParenStr hj hat hs) (fun _ _ => trivial)
  | setArrayStr id n =>
    refine sat_brk (Q := fun _ _ => True) (sat_bind (sat_sym hj hs.1) (fun s vm1 hj1 h1 => ?_)) (fun _ _ => trivial)
    obtain ⟨rfl, -⟩ := h1
    refine sat_bind (sat_popStr' hj1) (fun x vm2 hj2 h2 => ?_)
    obtain ⟨r, h3, rfl⟩ := h2
    exact sat_setElement strField_held hj2 (hs.1.move rfl) hs.2 _
  | for_ id => exact sat_brk (sat_forStatement hj hs.1 hs.2) (fun _ _ => trivial)
  | nextVar id => exact sat_brk (sat_nextVariable hj hs) (fun _ _ => trivial)
  | nextImp => exact sat_brk (sat_nextImplicit hj hs) (fun _ _ => trivial)
  | def_ id n => exact sat_brk (sat_defStatement hj hat hs) (fun _ _ => trivial)
  | endDef => exact sat_brk (sat_endDef hj) (fun _ _ => trivial)
  | inputNum id n => exact sat_inputNum hj hs.1 hs.2
  | inputStr id n => exact sat_brk (sat_inputStr hj hs.1 hs.2) (fun _ _ => trivial)
  | inputLine id n => exact sat_brk (sat_inputLine hj hs) (fun _ _ => trivial)
  | readNum id n => exact sat_brk (sat_readNum hj hs.1 hs.2) (fun _ _ => trivial)
  | readStr id n => exact sat_brk (sat_readStr hj hs.1 hs.2) (fun _ _ => trivial)
  | _ => cases hi

theorem exec_kept (env : Env) {i : Inst} {vm : VM} (hj : Kept vm) (hat : At vm i) : (exec env i vm).All Kept := by
  by_cases hi : symbolic i = true
  · exact (sat_symbolic env hi hj hat (suits_true vm i)).all
  · exact keeps_plain (by simpa using hi) env vm hj

theorem execute_kept (env : Env) {vm : VM} (hj : Kept vm) : (execute env vm).All Kept := by
  unfold execute
  simp only [bind_apply, curBcode]
  cases hr : vm.cs.code with
  | none => trivial
  | some r =>
    cases hb : (codeOf vm r).bcode with
    | none => simp only [hb]; trivial
    | some b =>
      simp only [hb, get_apply]
      cases hi : b.inst[vm.cs.pc]? with
      | none => trivial
      | some i =>
        have := exec_kept env hj ⟨r, b, hr, hb, hi⟩
        simp only [bind_apply]
        cases he : exec env i vm with
        | ok a vm' =>
          rw [he] at this
          cases a with
          | ret => exact this
          | brk => exact Kept.same this rfl rfl rfl rfl rfl rfl
        | err e vm' => rw [he] at this; exact this
        | halt h => trivial

end V
end LB
