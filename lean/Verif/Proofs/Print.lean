import Verif.Spec.Print
import Verif.Proofs.Values
import Verif.Proofs.Frame
/- Lemmas for the print position. -/
namespace LB
open Spec

theorem columnAfter_nil (c : Nat) : columnAfter c [] = c := by simp [columnAfter]

theorem takeWhile_append_all {α : Type} (p : α → Bool) (l m : List α) (h : ∀ x ∈ l, p x = true) :
    (l ++ m).takeWhile p = l ++ m.takeWhile p := by
  induction l with
  | nil => rfl
  | cons a l ih =>
    have ha := h a (by simp)
    simp only [List.cons_append, List.takeWhile_cons, ha, if_true]
    rw [ih (fun x hx => h x (by simp [hx]))]

theorem takeWhile_append_some {α : Type} (p : α → Bool) (l m : List α) (h : ∃ x ∈ l, p x = false) :
    (l ++ m).takeWhile p = l.takeWhile p := by
  induction l with
  | nil => obtain ⟨x, hx, -⟩ := h; cases hx
  | cons a l ih =>
    simp only [List.cons_append, List.takeWhile_cons]
    by_cases ha : p a = true
    · simp only [ha, if_true]
      rw [ih]
      obtain ⟨x, hx, hp⟩ := h
      rcases List.mem_cons.1 hx with rfl | hx
      · rw [ha] at hp; cases hp
      · exact ⟨x, hx, hp⟩
    · simp [ha]

/-- Writing two pieces after each other. -/
theorem columnAfter_append (c : Nat) (s t : CStr) : columnAfter c (s ++ t) = columnAfter (columnAfter c s) t := by
  by_cases ht : '\n' ∈ t
  · have h1 : '\n' ∈ s ++ t := by simp [ht]
    simp only [columnAfter, h1, ht, if_true, List.reverse_append]
    rw [takeWhile_append_some]
    exact ⟨'\n', by simp [ht], by simp⟩
  · by_cases hs : '\n' ∈ s
    · have h1 : '\n' ∈ s ++ t := by simp [hs]
      simp only [columnAfter, h1, ht, hs, if_true, if_false, List.reverse_append]
      rw [takeWhile_append_all]
      · simp; omega
      · intro x hx
        simp only [List.mem_reverse] at hx
        simp only [decide_eq_true_eq]
        rintro rfl; exact ht hx
    · have h1 : '\n' ∉ s ++ t := by simp [hs, ht]
      simp only [columnAfter, h1, ht, hs, if_false, List.length_append]
      omega

theorem columnAfter_mod (c : Nat) (t : CStr) (m : Nat) : columnAfter (c % m) t % m = columnAfter c t % m := by
  unfold columnAfter
  split
  · rfl
  · simp [Nat.add_mod]

theorem columnAfter_replicate (c k : Nat) : columnAfter c (List.replicate k ' ') = c + k := by
  have : '\n' ∉ List.replicate k ' ' := by simp [List.mem_replicate]
  simp [columnAfter, this]

theorem columnAfter_newline (c k : Nat) : columnAfter c ('\n' :: List.replicate k ' ') = 1 + k := by
  rw [show '\n' :: List.replicate k ' ' = ['\n'] ++ List.replicate k ' ' from rfl, columnAfter_append,
    columnAfter_replicate]
  simp [columnAfter]

namespace V

theorem isCount_unique {x : Dbl} {m n : Nat} (h1 : IsCount x m) (h2 : IsCount x n) : m = n := by
  have := isInt_unique h1.1 h2.1
  omega

theorem colAfter_spec (c : Nat) (t : CStr) (hc : c < 4294967296) : colAfter c t = columnAfter c t % 4294967296 := by
  induction t generalizing c with
  | nil => simp [colAfter, columnAfter]; omega
  | cons a t ih =>
    have hlt : (if a = '\n' then 1 else u32 (c + 1)) < 4294967296 := by split <;> simp [u32]; omega
    rw [colAfter, ih _ hlt, show a :: t = [a] ++ t from rfl, columnAfter_append]
    by_cases ha : a = '\n'
    · subst ha; simp [columnAfter]
    · have h1 : columnAfter c [a] = c + 1 := by simp [columnAfter, Ne.symm ha]
      rw [if_neg ha, h1, u32, columnAfter_mod]

theorem commaLoop_spec (n c k : Nat) (hk : k = (8 - c % 8) % 8 + 1) (hn : k ≤ n) :
    commaLoop n c = (List.replicate k ' ', (c + k) % 4294967296) := by
  induction n generalizing c k with
  | zero => omega
  | succ n ih =>
    by_cases h : u32 (c + 1) % tabSize ≠ 1
    · have h' : (c + 1) % 4294967296 % 8 ≠ 1 := h
      simp only [commaLoop, if_pos h]
      rw [ih (u32 (c + 1)) (k - 1) (by simp only [u32]; omega) (by omega)]
      have : k = (k - 1) + 1 := by omega
      rw [this, List.replicate_succ]
      simp only [Nat.add_sub_cancel]
      refine Prod.ext rfl ?_
      simp only [u32]
      omega
    · have h' : ¬ (c + 1) % 4294967296 % 8 ≠ 1 := h
      simp only [commaLoop, if_neg h]
      have : k = 1 := by omega
      subst this; rfl

theorem not_mem_of_digits {l : CStr} (h : ∀ c ∈ l, c ≠ '\n') : '\n' ∉ l := fun hm => h _ hm rfl

theorem toDigits_no_newline (n : Nat) : '\n' ∉ Nat.toDigits 10 n := by
  intro h
  have := Nat.isDigit_of_mem_toDigits (by decide) (by decide) h
  exact absurd this (by decide)

theorem dropTrailingZeros_sub {ds : CStr} (h : '\n' ∉ ds) : '\n' ∉ Dbl.dropTrailingZeros ds := by
  intro hm
  simp only [Dbl.dropTrailingZeros, List.mem_reverse] at hm
  have := (List.dropWhile_sublist _).subset hm
  simp at this
  exact h this

theorem fraction_sub {ds : CStr} (h : '\n' ∉ ds) : '\n' ∉ Dbl.fraction ds := by
  unfold Dbl.fraction
  split
  · simp
  · simp [h]

theorem fmtPos_no_newline (q : Rat) : '\n' ∉ Dbl.fmtPos q := by
  have h1 := fun n => toDigits_no_newline n
  have ht : ∀ n k, '\n' ∉ (Nat.toDigits 10 n).take k := fun n k hm => h1 n (List.mem_of_mem_take hm)
  have hd : ∀ n k, '\n' ∉ (Nat.toDigits 10 n).drop k := fun n k hm => h1 n (List.mem_of_mem_drop hm)
  simp only [Dbl.fmtPos]
  split
  · have : '\n' ≠ (if (Dbl.sixDigits q).2 < 0 then '-' else '+') := by split <;> decide
    have hex : '\n' ∉ (if (Nat.toDigits 10 (Dbl.sixDigits q).2.natAbs).length < 2 then
        '0' :: Nat.toDigits 10 (Dbl.sixDigits q).2.natAbs else Nat.toDigits 10 (Dbl.sixDigits q).2.natAbs) := by
      split <;> simp [h1]
    simp only [List.mem_append, List.mem_cons, not_or]
    exact ⟨⟨⟨ht _ _, fraction_sub (dropTrailingZeros_sub (hd _ _))⟩, by decide, this, by simp⟩, hex⟩
  · split
    · have hr : '\n' ∉ List.replicate ((Dbl.sixDigits q).2.natAbs - 1) '0' ++ Nat.toDigits 10 (Dbl.sixDigits q).1 := by
        simp [List.mem_replicate, h1]
      simp only [List.mem_cons, not_or]
      exact ⟨by decide, fraction_sub (dropTrailingZeros_sub hr)⟩
    · simp only [List.mem_append, not_or]
      exact ⟨ht _ _, fraction_sub (dropTrailingZeros_sub (hd _ _))⟩

/-- `printf("%g")` writes no newline. -/
theorem fmtG_no_newline (x : Dbl) : '\n' ∉ Dbl.fmtG x := by
  unfold Dbl.fmtG
  generalize x.canon = x
  cases x with
  | fin q =>
    simp only [Dbl.fmtDbl]
    split
    · decide
    · split
      · simp only [List.mem_cons, not_or]; exact ⟨by decide, fmtPos_no_newline _⟩
      · exact fmtPos_no_newline _
  | _ => decide

/-- FOR writes nothing when it succeeds and tracing is off. -/
theorem forStatement_quiet {id : Nat} {vm vm' : VM} (ht : vm.traceFor = false) (h : forStatement id vm = .ok () vm') :
    vm'.world = vm.world ∧ vm'.col = vm.col := by
  have hentry : ∀ v, forEntry id vm = .ok () v → ∃ fs, v = { vm with forStack := fs } := by
    intro v hv
    simp only [forEntry, bind_apply, get_apply] at hv
    cases hf : findFor vm id with
    | some si =>
      rw [hf] at hv
      simp only at hv
      cases hg : vm.forStack[si]? with
      | none => rw [hg] at hv; cases hv
      | some f => rw [hg] at hv; cases hv; exact ⟨_, rfl⟩
    | none =>
      rw [hf] at hv
      simp only [ite_apply] at hv
      split at hv
      · simp only [bind_apply] at hv
        cases hd : dumpForStack "overflow" vm with
        | ok u w => rw [hd] at hv; cases hv
        | err e w => rw [hd] at hv; cases hv
        | halt h => rw [hd] at hv; cases hv
      · cases hv; exact ⟨_, rfl⟩
  simp only [forStatement, bind_apply, traced, get_apply, when_apply, ht, Bool.false_eq_true, if_false] at h
  cases hs : sym id vm with
  | err e w => rw [hs] at h; cases h
  | halt e => rw [hs] at h; cases h
  | ok s w =>
    have hw : w = vm := by
      simp only [sym] at hs
      split at hs <;> cases hs
      rfl
    subst hw
    rw [hs] at h
    simp only [assert_apply] at h
    by_cases ha : isVar s .num = true
    · simp only [ha, if_true, forTop, bind_apply] at h
      cases he : forEntry id w with
      | err e v => rw [he] at h; cases h
      | halt e => rw [he] at h; cases h
      | ok u v =>
        rw [he] at h
        obtain ⟨fs, rfl⟩ := hentry v he
        simp only [get_apply, setTopFor, modify_apply, pop] at h
        cases h1 : w.stack with
        | nil => simp only [h1] at h; cases h
        | cons a r =>
          cases r with
          | nil => simp only [h1] at h; cases h
          | cons b r =>
            cases r with
            | nil => simp only [h1] at h; cases h
            | cons c r =>
              simp only [h1, updSym, modify_apply, ht] at h
              cases h
              exact ⟨rfl, rfl⟩
    · simp only [ha] at h; cases h

end V
end LB
