import Verif.Model.Source
import Verif.Proofs.Basics
import Verif.Spec.Program
/- Lemmas about Basic/source.c. -/
namespace LB

/-- The stored lines as plain pairs. -/
def SrcLine.pair (l : SrcLine) : Nat × List Char := (l.num, l.text)

/-- The lines of a source as plain pairs. -/
def Source.pairs (s : Source) : List (Nat × List Char) := s.lines.map SrcLine.pair

def nums (ls : List SrcLine) : List Nat := ls.map (·.num)

/-- Sorted insertion, used to describe the result of `enter_source_line`. -/
def ins (num : Nat) (text : CStr) : List SrcLine → List SrcLine
  | [] => [⟨num, text⟩]
  | l :: rest =>
    if l.num = num then ⟨num, text⟩ :: rest
    else if l.num > num then ⟨num, text⟩ :: l :: rest
    else l :: ins num text rest

theorem appendLine_ok (ls : List SrcLine) (num : Nat) (text : CStr) (h0 : num ≠ 0)
    (h : ∀ l ∈ ls, l.num < num) : appendLine ls num text = .ok (ls ++ [⟨num, text⟩]) := by
  unfold appendLine
  rw [if_neg h0]
  have : ¬ num ≤ lastNum ls := by
    unfold lastNum
    cases hg : ls.getLast? with
    | none => simp; omega
    | some l =>
      have := h l (List.mem_of_getLast? hg)
      simp; omega
  rw [if_neg this]

theorem enterLoop_eq (num : Nat) (text : CStr) (pre rest : List SrcLine)
    (hpre : ∀ l ∈ pre, l.num < num) (h0 : num = 0 → rest ≠ []) :
    enterLoop (pre ++ rest) num text pre.length rest = .ok (pre ++ ins num text rest) := by
  induction rest generalizing pre with
  | nil =>
    simp only [enterLoop, ins, List.append_nil]
    exact appendLine_ok pre num text (fun h => h0 h rfl) hpre
  | cons l rest ih =>
    simp only [enterLoop, ins]
    split
    · next h => simp [h]
    · split
      · simp [spread]
      · next h1 h2 =>
        have := ih (pre ++ [l]) (by
          intro x hx
          simp only [List.mem_append, List.mem_singleton] at hx
          rcases hx with hx | hx
          · exact hpre x hx
          · subst hx; omega) (by omega)
        simpa using this

theorem enterSourceLine_eq (src : Source) (num : Nat) (text : CStr)
    (h0 : num = 0 → src.lines ≠ []) :
    enterSourceLine src num text = .ok { src with lines := ins num text src.lines } := by
  have := enterLoop_eq num text [] src.lines (by simp) h0
  simp only [List.nil_append, List.length_nil] at this
  simp [enterSourceLine, this]

theorem ins_mem (num : Nat) (text : CStr) (ls : List SrcLine) (hs : (nums ls).Pairwise (· < ·))
    (x : SrcLine) : x ∈ ins num text ls ↔ x = ⟨num, text⟩ ∨ (x ∈ ls ∧ x.num ≠ num) := by
  induction ls with
  | nil => simp [ins]
  | cons l rest ih =>
    simp only [nums, List.map_cons, List.pairwise_cons, List.mem_map, forall_exists_index, and_imp] at hs
    obtain ⟨h1, h2⟩ := hs
    simp only [ins]
    split
    · next h =>
      simp only [List.mem_cons]
      constructor
      · rintro (hx | hx)
        · exact Or.inl hx
        · have := h1 x.num x hx rfl
          exact Or.inr ⟨Or.inr hx, by omega⟩
      · rintro (hx | ⟨hx | hx, hne⟩)
        · exact Or.inl hx
        · subst hx; exact absurd h hne
        · exact Or.inr hx
    · split
      · next h h' =>
        simp only [List.mem_cons]
        constructor
        · rintro (hx | hx | hx)
          · exact Or.inl hx
          · subst hx; exact Or.inr ⟨Or.inl rfl, h⟩
          · have := h1 x.num x hx rfl
            exact Or.inr ⟨Or.inr hx, by omega⟩
        · rintro (hx | ⟨hx, -⟩)
          · exact Or.inl hx
          · exact Or.inr hx
      · next h h' =>
        simp only [List.mem_cons, ih h2]
        constructor
        · rintro (hx | hx | ⟨hx, hne⟩)
          · subst hx; exact Or.inr ⟨Or.inl rfl, h⟩
          · exact Or.inl hx
          · exact Or.inr ⟨Or.inr hx, hne⟩
        · rintro (hx | ⟨hx | hx, hne⟩)
          · exact Or.inr (Or.inl hx)
          · exact Or.inl hx
          · exact Or.inr (Or.inr ⟨hx, hne⟩)

theorem ins_sorted (num : Nat) (text : CStr) (ls : List SrcLine) (hs : (nums ls).Pairwise (· < ·)) :
    (nums (ins num text ls)).Pairwise (· < ·) := by
  induction ls with
  | nil => simp [ins, nums]
  | cons l rest ih =>
    have hs' := hs
    simp only [nums, List.map_cons, List.pairwise_cons, List.mem_map, forall_exists_index, and_imp] at hs
    obtain ⟨h1, h2⟩ := hs
    simp only [ins]
    split
    · next h => subst h; exact hs'
    · split
      · next h h' =>
        simp only [nums, List.map_cons, List.pairwise_cons, List.mem_cons, List.mem_map]
        refine ⟨?_, ?_, h2⟩
        · rintro a (ha | ⟨x, hx, rfl⟩)
          · omega
          · have := h1 x.num x hx rfl; omega
        · rintro a ⟨x, hx, rfl⟩
          exact h1 x.num x hx rfl
      · next h h' =>
        simp only [nums, List.map_cons, List.pairwise_cons, List.mem_map, forall_exists_index, and_imp]
        refine ⟨?_, ih h2⟩
        rintro a x hx rfl
        rw [ins_mem num text rest h2] at hx
        rcases hx with hx | ⟨hx, -⟩
        · subst hx; simp; omega
        · exact h1 x.num x hx rfl

theorem findLoop_some (num : Nat) (i : Nat) (ls : List SrcLine) (k : Nat) :
    findLoop num i ls = some k ↔
      i ≤ k ∧ (∃ l, ls[k - i]? = some l ∧ l.num = num) ∧ ∀ j < k - i, ∀ l, ls[j]? = some l → l.num ≠ num := by
  induction ls generalizing i with
  | nil => simp [findLoop]
  | cons l rest ih =>
    simp only [findLoop]
    split
    · next h =>
      constructor
      · intro hk
        simp only [Option.some.injEq] at hk
        subst hk
        refine ⟨Nat.le_refl _, ⟨l, by simp, h⟩, by omega⟩
      · rintro ⟨h1, h2, h3⟩
        by_cases hk : k = i
        · simp [hk]
        · exact absurd h (h3 0 (by omega) l (by simp))
    · next h =>
      rw [ih]
      constructor
      · rintro ⟨h1, ⟨x, hx, hn⟩, h3⟩
        have e : k - i = (k - (i + 1)) + 1 := by omega
        refine ⟨by omega, ⟨x, by rw [e]; simpa using hx, hn⟩, ?_⟩
        intro j hj y hy
        cases j with
        | zero => simp at hy; subst hy; exact h
        | succ j => exact h3 j (by omega) y (by simpa using hy)
      · rintro ⟨h1, ⟨x, hx, hn⟩, h3⟩
        have hk : k ≠ i := by
          intro e; subst e; simp at hx; subst hx; exact h hn
        have e : k - i = (k - (i + 1)) + 1 := by omega
        refine ⟨by omega, ⟨x, by rw [e] at hx; simpa using hx, hn⟩, ?_⟩
        intro j hj y hy
        exact h3 (j + 1) (by omega) y (by simpa using hy)

theorem findLoop_none (num : Nat) (i : Nat) (ls : List SrcLine) :
    findLoop num i ls = none ↔ ∀ l ∈ ls, l.num ≠ num := by
  induction ls generalizing i with
  | nil => simp [findLoop]
  | cons l rest ih =>
    simp only [findLoop]
    split
    · next h => simp [h]
    · next h => simp [ih, h]

/-- Line numbers strictly ascending: what `Spec.Ascending` says about the model's lines. -/
theorem ascending_nums (s : Source) : Spec.Ascending (s.pairs.map (·.1)) ↔ (nums s.lines).Pairwise (· < ·) := by
  unfold Spec.Ascending Source.pairs nums
  rw [List.map_map]; rfl

theorem mem_pairs (s : Source) (n : Nat) (t : CStr) : (n, t) ∈ s.pairs ↔ (⟨n, t⟩ : SrcLine) ∈ s.lines := by
  unfold Source.pairs SrcLine.pair
  simp only [List.mem_map, Prod.mk.injEq]
  constructor
  · rintro ⟨⟨a, b⟩, h, rfl, rfl⟩; exact h
  · intro h; exact ⟨_, h, rfl, rfl⟩

theorem enter_shows (src : Source) (p : Spec.Prog) (num : Nat) (text : CStr)
    (hs : Spec.Shows src.pairs p) (h0 : num = 0 → src.lines ≠ []) :
    ∃ src', enterSourceLine src num text = .ok src' ∧ src'.name = src.name ∧
      Spec.Shows src'.pairs (Spec.applyEdit p (.enter num text)) := by
  refine ⟨_, enterSourceLine_eq src num text h0, rfl, ?_⟩
  obtain ⟨hs1, hs2⟩ := hs
  rw [ascending_nums] at hs1
  refine ⟨(ascending_nums _).mpr (ins_sorted num text _ hs1), ?_⟩
  intro n t
  rw [mem_pairs]; simp only; rw [ins_mem num text _ hs1, ← mem_pairs, hs2]
  simp only [SrcLine.mk.injEq, Spec.applyEdit]
  split
  · next h => subst h; simp [eq_comm]
  · next h => simp [h]

theorem find_shows (src : Source) (p : Spec.Prog) (num : Nat) (hs : Spec.Shows src.pairs p) :
    (findSourceLinenum src num = none ↔ p num = none) := by
  unfold findSourceLinenum
  rw [findLoop_none]
  constructor
  · intro h
    cases hp : p num with
    | none => rfl
    | some t =>
      have := (hs.2 num t).mpr hp
      rw [mem_pairs] at this
      exact absurd rfl (h _ this)
  · intro h l hl e
    have := (hs.2 l.num l.text).mp ((mem_pairs src _ _).mpr hl)
    rw [e, h] at this; exact absurd this (by simp)

theorem eraseIdx_eq (ls : List SrcLine) (i : Nat) : ls.take i ++ ls.drop (i + 1) = ls.eraseIdx i := by
  rw [List.eraseIdx_eq_take_drop_succ]

theorem delete_shows (src : Source) (p : Spec.Prog) (num i : Nat) (hs : Spec.Shows src.pairs p)
    (hf : findSourceLinenum src num = some i) :
    Spec.Shows (deleteSourceLine src i).pairs (Spec.applyEdit p (.erase num)) := by
  unfold findSourceLinenum at hf
  rw [findLoop_some] at hf
  obtain ⟨-, ⟨l, hl, hn⟩, h3⟩ := hf
  simp only [Nat.sub_zero] at hl h3
  have hi : i < src.lines.length := by
    rw [List.getElem?_eq_some_iff] at hl; exact hl.1
  have hli : src.lines[i] = l := by rw [List.getElem?_eq_some_iff] at hl; exact hl.2
  obtain ⟨hs1, hs2⟩ := hs
  rw [ascending_nums] at hs1
  have hd : deleteSourceLine src i = { src with lines := src.lines.eraseIdx i } := by
    unfold deleteSourceLine; rw [if_pos hi, eraseIdx_eq]
  rw [hd]
  have hsub : (src.lines.eraseIdx i).Sublist src.lines := List.eraseIdx_sublist _ _
  refine ⟨(ascending_nums _).mpr (List.Pairwise.sublist (List.Sublist.map (fun l : SrcLine => l.num) hsub) hs1), ?_⟩
  intro n t
  rw [mem_pairs]
  simp only [Spec.applyEdit]
  rw [List.mem_eraseIdx_iff_getElem?]
  unfold nums at hs1
  rw [List.pairwise_iff_getElem] at hs1
  have key : ∀ j (hj : j < src.lines.length), src.lines[j].num = num → j = i := by
    intro j hj e
    rcases Nat.lt_trichotomy j i with hji | hji | hji
    · have := hs1 j i (by simpa using hj) (by simpa using hi) hji
      simp [hli] at this; omega
    · exact hji
    · have := hs1 i j (by simpa using hi) (by simpa using hj) hji
      simp [hli] at this; omega
  split
  · next h =>
    subst h
    simp only [reduceCtorEq, iff_false, not_exists, not_and]
    intro j hne hj
    rw [List.getElem?_eq_some_iff] at hj
    obtain ⟨hj1, hj2⟩ := hj
    exact hne (key j hj1 (by rw [hj2]))
  · next h =>
    rw [← hs2, mem_pairs]
    constructor
    · rintro ⟨j, -, hj⟩; exact List.mem_of_getElem? hj
    · intro hm
      obtain ⟨j, hj, hj2⟩ := List.getElem_of_mem hm
      refine ⟨j, ?_, by rw [List.getElem?_eq_some_iff]; exact ⟨hj, hj2⟩⟩
      intro e; subst e
      rw [hli] at hj2; rw [hj2] at hn; exact h hn

end LB
