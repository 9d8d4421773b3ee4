import Verif.Proofs.Calls
import Verif.Spec.Branches
/- Lemmas on ON and IF. -/
namespace LB
open Spec
namespace V

theorem instAt_bcode {vm : VM} {bc : Bcode} (h : curBcode vm = .ok bc vm) (pc : Nat) : instAt vm pc = bc.inst[pc]? := by
  simp only [curBcode] at h
  cases hc : vm.cs.code with
  | none => simp [hc] at h
  | some r =>
    simp only [hc] at h
    cases hb : (codeOf vm r).bcode with
    | none => simp [hb] at h
    | some b => simp [hb] at h; simp [instAt, hc, hb, h]

theorem floor_int (k : Int) : Dbl.floor (.fin (k : Rat)) = .fin k := by
  simp [Dbl.floor, Rat.floor_intCast]

theorem ne_floor_iff (x : Dbl) : Dbl.ne x (Dbl.floor x) = false ↔ (∃ k, IsInt x k) ∨ x = .pinf ∨ x = .ninf := by
  cases x with
  | nan => simp [Dbl.ne, Dbl.eq, IsInt]
  | pinf => simp [Dbl.ne, Dbl.floor, Dbl.eq]
  | ninf => simp [Dbl.ne, Dbl.floor, Dbl.eq]
  | nzero => simp [Dbl.ne, Dbl.floor, Dbl.eq, IsInt]
  | fin q =>
    simp only [Dbl.ne, Dbl.floor, Dbl.eq, IsInt, Bool.not_eq_false', decide_eq_true_eq, Dbl.fin.injEq, reduceCtorEq,
      false_and, or_false]
    constructor
    · intro h; exact ⟨_, h⟩
    · rintro ⟨k, rfl⟩; rw [Rat.floor_intCast]

theorem onOutside_int {x : Dbl} {k : Int} (n : Nat) (h : IsInt x k) : onOutside x n = decide (k < 1 ∨ (n : Int) < k) := by
  rcases h with rfl | ⟨rfl, rfl⟩
  · have h1 : ((k : Rat) < 1) ↔ k < 1 := by
      have := Rat.intCast_lt_intCast (a := k) (b := 1)
      simpa using this
    have h2 : ((n : Rat) < k) ↔ (n : Int) < k := by
      rw [← Rat.intCast_natCast]; exact Rat.intCast_lt_intCast
    simp [onOutside, Dbl.lt, h1, h2]
  · have : Dbl.lt .nzero (.fin 1) = true := by decide +kernel
    simp [onOutside, this]

theorem truth_iff (x : Dbl) : truth x = false ↔ IsFalse x := by
  cases x <;> simp [truth, Dbl.isZero, IsFalse]

theorem takeWhile_length_append {α} (p : α → Bool) (a b : List α) (ha : ∀ x ∈ a, p x = true)
    (hb : b = [] ∨ ∃ x r, b = x :: r ∧ p x = false) : ((a ++ b).takeWhile p).length = a.length := by
  rw [List.takeWhile_append_of_pos ha]
  rcases hb with rfl | ⟨x, r, rfl, hx⟩
  · simp
  · simp [hx]

/-- Scanning from the end of a part of the code over `mid` to `rest`. -/
theorem scan_over (p : Inst → Bool) (front mid rest : List Inst) (pc : Nat) (hpc : pc = front.length)
    (hm : ∀ i ∈ mid, p i = false) (hr : rest = [] ∨ ∃ x r, rest = x :: r ∧ p x = true) :
    scan p (front ++ mid ++ rest) pc = front.length + mid.length := by
  subst hpc
  unfold scan
  rw [List.append_assoc, List.drop_left]
  rw [takeWhile_length_append]
  · intro x hx; simp [hm x hx]
  · rcases hr with rfl | ⟨x, r, rfl, hx⟩
    · exact Or.inl rfl
    · exact Or.inr ⟨x, r, rfl, by simp [hx]⟩

end V
end LB
