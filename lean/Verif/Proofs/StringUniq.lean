import Verif.Model.StringUniq
import Verif.Proofs.Basics
/- Lemmas about Shared/stringuniq.c. -/
namespace LB

/-- All strings of a tree satisfy `P`. -/
def Tree.All (P : CStr → Prop) : Tree → Prop
  | .leaf => True
  | .node s l r => P s ∧ l.All P ∧ r.All P

/-- Binary search tree ordered by `strcasecmp`. -/
def Tree.Bst : Tree → Prop
  | .leaf => True
  | .node s l r => l.All (fun t => strcasecmp t s < 0) ∧ r.All (fun t => strcasecmp s t < 0) ∧ l.Bst ∧ r.Bst

theorem Tree.all_iff (P : CStr → Prop) (t : Tree) : t.All P ↔ ∀ s ∈ traverseTree t, P s := by
  induction t with
  | leaf => simp [Tree.All, traverseTree]
  | node s l r ihl ihr =>
    simp only [Tree.All, ihl, ihr, traverseTree, List.mem_append, List.mem_cons]
    constructor
    · rintro ⟨h1, h2, h3⟩ x (hx | rfl | hx)
      · exact h2 x hx
      · exact h1
      · exact h3 x hx
    · intro h
      exact ⟨h s (Or.inr (Or.inl rfl)), fun x hx => h x (Or.inl hx), fun x hx => h x (Or.inr (Or.inr hx))⟩

theorem insertNode_all (P : CStr → Prop) (t : Tree) (s : CStr) (h : t.All P) (hs : P s) :
    (insertNode t s).All P := by
  induction t with
  | leaf => exact ⟨hs, trivial, trivial⟩
  | node x l r ihl ihr =>
    simp only [insertNode]
    split
    · exact ⟨h.1, ihl h.2.1, h.2.2⟩
    · split
      · exact ⟨h.1, h.2.1, ihr h.2.2⟩
      · exact h

theorem insertNode_bst (t : Tree) (s : CStr) (h : t.Bst) : (insertNode t s).Bst := by
  induction t with
  | leaf => exact ⟨trivial, trivial, trivial, trivial⟩
  | node x l r ihl ihr =>
    simp only [insertNode]
    split
    · next hc => exact ⟨insertNode_all _ l s h.1 hc, h.2.1, ihl h.2.2.1, h.2.2.2⟩
    · split
      · next hc =>
        refine ⟨h.1, insertNode_all _ r s h.2.1 ?_, h.2.2.1, ihr h.2.2.2⟩
        rw [strcasecmp_neg]; omega
      · exact h

theorem Tree.bst_sorted (t : Tree) (h : t.Bst) :
    (traverseTree t).Pairwise (fun a b => strcasecmp a b < 0) := by
  induction t with
  | leaf => simp [traverseTree]
  | node x l r ihl ihr =>
    obtain ⟨h1, h2, h3, h4⟩ := h
    rw [Tree.all_iff] at h1 h2
    simp only [traverseTree]
    rw [List.pairwise_append]
    refine ⟨ihl h3, List.pairwise_cons.mpr ⟨h2, ihr h4⟩, ?_⟩
    intro a ha b hb
    rcases List.mem_cons.mp hb with rfl | hb
    · exact h1 a ha
    · exact strcasecmp_trans a x b (h1 a ha) (h2 b hb)

theorem insertNode_mem (t : Tree) (s x : CStr) (hx : x ∈ traverseTree (insertNode t s)) :
    x = s ∨ x ∈ traverseTree t := by
  induction t with
  | leaf => simp [insertNode, traverseTree] at hx; exact Or.inl hx
  | node y l r ihl ihr =>
    simp only [insertNode] at hx
    split at hx
    · simp only [traverseTree, List.mem_append, List.mem_cons] at hx ⊢
      rcases hx with hx | hx
      · rcases ihl hx with h | h
        · exact Or.inl h
        · exact Or.inr (Or.inl h)
      · exact Or.inr (Or.inr hx)
    · split at hx
      · simp only [traverseTree, List.mem_append, List.mem_cons] at hx ⊢
        rcases hx with hx | hx | hx
        · exact Or.inr (Or.inl hx)
        · exact Or.inr (Or.inr (Or.inl hx))
        · rcases ihr hx with h | h
          · exact Or.inl h
          · exact Or.inr (Or.inr (Or.inr h))
      · exact Or.inr hx

theorem insertNode_old (t : Tree) (s x : CStr) (hx : x ∈ traverseTree t) :
    x ∈ traverseTree (insertNode t s) := by
  induction t with
  | leaf => simp [traverseTree] at hx
  | node y l r ihl ihr =>
    simp only [insertNode]
    simp only [traverseTree, List.mem_append, List.mem_cons] at hx
    split
    · simp only [traverseTree, List.mem_append, List.mem_cons]
      rcases hx with hx | hx
      · exact Or.inl (ihl hx)
      · exact Or.inr hx
    · split
      · simp only [traverseTree, List.mem_append, List.mem_cons]
        rcases hx with hx | hx | hx
        · exact Or.inl hx
        · exact Or.inr (Or.inl hx)
        · exact Or.inr (Or.inr (ihr hx))
      · simpa only [traverseTree, List.mem_append, List.mem_cons] using hx

theorem insertNode_new (t : Tree) (s : CStr) :
    ∃ x ∈ traverseTree (insertNode t s), Spec.SameIgnoringCase x s := by
  induction t with
  | leaf => exact ⟨s, by simp [insertNode, traverseTree], rfl⟩
  | node y l r ihl ihr =>
    simp only [insertNode]
    split
    · obtain ⟨x, hx, h⟩ := ihl; exact ⟨x, by simp [traverseTree, hx], h⟩
    · split
      · obtain ⟨x, hx, h⟩ := ihr; exact ⟨x, by simp [traverseTree, hx], h⟩
      · next h1 h2 =>
        refine ⟨y, by simp [traverseTree], ?_⟩
        rw [← strcasecmp_eq_zero_iff, strcasecmp_neg]; omega

theorem foldl_insert (ss : List CStr) (t : Tree) (hb : t.Bst) :
    (ss.foldl insertNode t).Bst ∧
    (∀ x ∈ traverseTree (ss.foldl insertNode t), x ∈ ss ∨ x ∈ traverseTree t) ∧
    (∀ x ∈ traverseTree t, x ∈ traverseTree (ss.foldl insertNode t)) ∧
    (∀ s ∈ ss, ∃ x ∈ traverseTree (ss.foldl insertNode t), Spec.SameIgnoringCase x s) := by
  induction ss generalizing t with
  | nil => exact ⟨hb, fun x hx => Or.inr hx, fun x hx => hx, by simp⟩
  | cons s ss ih =>
    obtain ⟨h1, h2, h3, h4⟩ := ih (insertNode t s) (insertNode_bst t s hb)
    refine ⟨h1, ?_, ?_, ?_⟩
    · intro x hx
      rcases h2 x hx with h | h
      · exact Or.inl (by simp [h])
      · rcases insertNode_mem t s x h with rfl | h
        · exact Or.inl (by simp)
        · exact Or.inr h
    · intro x hx; exact h3 x (insertNode_old t s x hx)
    · intro x hx
      rcases List.mem_cons.mp hx with rfl | hx
      · obtain ⟨y, hy, hs⟩ := insertNode_new t x
        exact ⟨y, h3 y hy, hs⟩
      · exact h4 x hx

end LB
