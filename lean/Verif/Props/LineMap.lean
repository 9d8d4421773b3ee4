import Verif.Proofs.LineMap
/- C06, map part: the index from line numbers to program positions. -/
namespace LB

/-- Build an index from a list of (line number, position) pairs, in order. -/
def buildMap : List (Nat × Nat) → LineMap → Outcome (Bool × LineMap)
  | [], m => .ok (true, m)
  | (l, v) :: rest, m => match insertLineMapping m l v with
    | .ok (true, m') => buildMap rest m'
    | .ok (false, m') => .ok (false, m')
    | .halt h => .halt h

/-- C06.  An index with room for all lines is built without failure, and afterwards looking up a
number gives the position recorded last for it, and nothing for a number never recorded —
whatever numbers collide in the hash table. -/
theorem C06_index_exact (ps : List (Nat × Nat)) :
    ∃ m, buildMap ps (newLineMap ps.length) = .ok (true, m) ∧
      ∀ k, lookupLineMapping m k = (ps.reverse.find? (fun p => p.1 == k)).map (·.2) := by
  have gen : ∀ (ps : List (Nat × Nat)) (m : LineMap), m.count + ps.length ≤ m.allocated →
      ∃ m', buildMap ps m = .ok (true, m') ∧ ∀ k, lookupLineMapping m' k =
        match ps.reverse.find? (fun p => p.1 == k) with
        | some p => some p.2
        | none => lookupLineMapping m k := by
    intro ps
    induction ps with
    | nil => intro m _; exact ⟨m, rfl, fun k => rfl⟩
    | cons p rest ih =>
      intro m h
      obtain ⟨l, v⟩ := p
      simp only [List.length_cons] at h
      obtain ⟨m1, h1, h2, h3, h4⟩ := insert_ok m l v (by omega)
      obtain ⟨m2, h5, h6⟩ := ih m1 (by omega)
      refine ⟨m2, by simp [buildMap, h1, h5], ?_⟩
      intro k
      rw [h6 k]
      simp only [List.reverse_cons, List.find?_append]
      cases rest.reverse.find? (fun p => p.1 == k) with
      | some p => simp
      | none =>
        simp only [Option.none_or]
        rw [h4 k]
        by_cases hk : k = l
        · subst hk; simp
        · simp [hk, Ne.symm hk]
  obtain ⟨m, h1, h2⟩ := gen ps (newLineMap ps.length) (by simp [newLineMap])
  refine ⟨m, h1, ?_⟩
  intro k
  rw [h2 k]
  cases ps.reverse.find? (fun p => p.1 == k) <;> rfl

example : (10 % lineHashSize = 407 % lineHashSize) ∧
    ((match buildMap [(10, 1), (407, 5)] (newLineMap 2) with
      | .ok (_, m) => (lookupLineMapping m 10, lookupLineMapping m 407, lookupLineMapping m 11)
      | .halt _ => (none, none, none)) = (some 1, some 5, none)) := by decide

end LB
