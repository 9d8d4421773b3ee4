import Verif.Model.LineMap
/- Lemmas about Basic/linemap.c. -/
namespace LB

theorem lookup_new (n k : Nat) : lookupLineMapping (newLineMap n) k = none := rfl

theorem insert_ok (m : LineMap) (line val : Nat) (h : m.count < m.allocated) :
    ∃ m', insertLineMapping m line val = .ok (true, m') ∧ m'.count = m.count + 1 ∧
      m'.allocated = m.allocated ∧
      ∀ k, lookupLineMapping m' k = if k = line then some val else lookupLineMapping m k := by
  unfold insertLineMapping
  rw [if_neg (by omega), if_neg (by omega)]
  refine ⟨_, rfl, rfl, rfl, ?_⟩
  intro k
  simp only [lookupLineMapping]
  by_cases hk : k = line
  · subst hk; simp
  · rw [if_neg hk]
    by_cases hh : k % lineHashSize = line % lineHashSize
    · rw [if_pos hh, List.find?_cons_of_neg (by simpa using Ne.symm hk)]
    · rw [if_neg hh]

theorem insert_full (m : LineMap) (line val : Nat) (h : m.count = m.allocated) :
    insertLineMapping m line val = .ok (false, m) := by
  unfold insertLineMapping
  rw [if_neg (by omega), if_pos h]

end LB
