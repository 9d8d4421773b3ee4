import Verif.Proofs.Exec
import Verif.Proofs.Bounds
import Verif.Proofs.Num
import Verif.Spec.Loops
namespace LB
open Spec
namespace V

@[simp] theorem traced_apply (x : VmM Unit) (vm : VM) :
    traced x vm = if vm.traceFor then x vm else .ok () vm := by
  simp [traced]

theorem eraseIdx_eq_filter {fs : List ForLoop} {i : Nat} {f : ForLoop} (hn : OnePerVariable fs)
    (h : fs[i]? = some f) : fs.eraseIdx i = loopsBut f.symbolId fs := by
  unfold loopsBut
  induction fs generalizing i with
  | nil => simp at h
  | cons g fs ih =>
    unfold OnePerVariable at hn
    simp only [List.map_cons, List.nodup_cons, List.mem_map, not_exists, not_and] at hn
    cases i with
    | zero =>
      simp at h; subst h
      simp only [List.eraseIdx_zero, List.tail_cons, ne_eq, not_true_eq_false, decide_false,
        List.filter_cons]
      simp only [decide_not, Bool.false_eq_true, if_false]
      symm
      rw [List.filter_eq_self]
      intro a ha
      simpa using hn.1 a ha
    | succ i =>
      simp only [List.getElem?_cons_succ] at h
      have hne : g.symbolId ≠ f.symbolId := fun he => hn.1 f (List.mem_of_getElem? h) he.symm
      simp only [List.eraseIdx_cons_succ, List.filter_cons]
      simp only [ne_eq, hne, not_false_eq_true, decide_true, if_true]
      rw [ih hn.2 h]

theorem findFor_some {vm : VM} {f : ForLoop} (hn : OnePerVariable vm.forStack) (h : f ∈ vm.forStack) :
    ∃ i, findFor vm f.symbolId = some i ∧ vm.forStack[i]? = some f := by
  unfold findFor OnePerVariable at *
  generalize vm.forStack = fs at *
  induction fs with
  | nil => simp at h
  | cons g fs ih =>
    simp only [List.map_cons, List.nodup_cons, List.mem_map, not_exists, not_and] at hn
    by_cases he : g.symbolId = f.symbolId
    · have : g = f := by
        rcases List.mem_cons.1 h with rfl | h'
        · rfl
        · exact absurd he.symm (hn.1 f h')
      subst this
      exact ⟨0, by simp [List.findIdx?_cons], rfl⟩
    · have hm : f ∈ fs := by
        rcases List.mem_cons.1 h with rfl | h'
        · exact absurd rfl he
        · exact h'
      obtain ⟨i, h1, h2⟩ := ih hn.2 hm
      exact ⟨i + 1, by simp [List.findIdx?_cons, he, h1], by simpa using h2⟩

theorem findFor_none {vm : VM} {id : Nat} (h : ∀ f ∈ vm.forStack, f.symbolId ≠ id) : findFor vm id = none := by
  unfold findFor
  simpa using h

theorem modify_append_last {α} (l : List α) (a : α) (f : α → α) :
    (l ++ [a]).modify ((l ++ [a]).length - 1) f = l ++ [f a] := by
  apply List.ext_getElem?
  intro i
  simp only [List.getElem?_modify, List.length_append, List.length_cons, List.length_nil, Nat.add_sub_cancel]
  by_cases h : l.length = i
  · subst h; simp
  · simp only [if_neg h]
    by_cases h' : i < l.length
    · simp [List.getElem?_append_left h']
    · have : l.length < i := by omega
      rw [List.getElem?_eq_none (by simp; omega), List.getElem?_eq_none (by simp; omega)]; rfl

theorem loopsBut_none {fs : List ForLoop} {id : Nat} (h : ∀ f ∈ fs, f.symbolId ≠ id) : loopsBut id fs = fs := by
  unfold loopsBut
  rw [List.filter_eq_self]
  intro a ha; simpa using h a ha

theorem forEntry_ok {vm : VM} {id : Nat} (hn : OnePerVariable vm.forStack)
    (hroom : vm.forStack.length < 8 ∨ ∃ f ∈ vm.forStack, f.symbolId = id) :
    ∃ f, forEntry id vm = .ok () { vm with forStack := loopsBut id vm.forStack ++ [f] } := by
  by_cases hex : ∃ f ∈ vm.forStack, f.symbolId = id
  · obtain ⟨f, hf, rfl⟩ := hex
    obtain ⟨i, h1, h2⟩ := findFor_some hn hf
    refine ⟨f, ?_⟩
    simp only [forEntry, bind_apply, get_apply, h1, h2, modify_apply, eraseIdx_eq_filter hn h2]
  · have hne : ∀ f ∈ vm.forStack, f.symbolId ≠ id := fun f hf he => hex ⟨f, hf, he⟩
    have hlen : ¬ vm.forStack.length ≥ maxFor := by
      have := hroom.resolve_right hex
      simp [maxFor]; omega
    refine ⟨⟨clearCodeState, id, .fin 0, .fin 0⟩, ?_⟩
    simp only [forEntry, bind_apply, get_apply, findFor_none hne, ite_apply, if_neg hlen, modify_apply,
      loopsBut_none hne]

theorem for_ok {vm : VM} {id : Nat} {step limit x : Dbl} {rest : List Dbl}
    (hv : NumVar vm.st id) (hn : OnePerVariable vm.forStack)
    (hroom : vm.forStack.length < 8 ∨ ∃ f ∈ vm.forStack, f.symbolId = id)
    (htr : vm.traceFor = false) (hs : vm.stack = step :: limit :: x :: rest) :
    forStatement id vm = .ok () { vm with
      st := symUpdate vm.st id (fun s => { s with num := x, defined := true })
      stack := rest
      forStack := loopsBut id vm.forStack ++ [⟨vm.cs, id, step, limit⟩] } := by
  obtain ⟨s, h1, h2, h3⟩ := hv
  obtain ⟨f, hf⟩ := forEntry_ok hn hroom
  have hvar : isVar s .num = true := by simp [isVar, h2, h3]
  simp only [forStatement, bind_apply, traced_apply, htr, Bool.false_eq_true, if_false, sym_ok h1,
    assert_apply, hvar, if_true, forTop, hf, get_apply, setTopFor, modify_apply, modify_append_last,
    pop, hs, updSym]

theorem nextAt_ok {vm : VM} {i : Nat} {f : ForLoop} {s : Symbol} (hf : vm.forStack[i]? = some f)
    (hs : vm.st.psym[f.symbolId]? = some s) (htr : vm.traceFor = false) :
    next i vm = if pastLimit f.step (Dbl.add s.num f.step) f.limit
      then .ok () { vm with forStack := vm.forStack.eraseIdx i }
      else .ok () { vm with
        st := symUpdate vm.st f.symbolId (fun s' => { s' with num := Dbl.add s.num f.step })
        cs := f.codeState } := by
  simp only [next, bind_apply, get_apply, hf, sym_ok hs, ite_apply, modify_apply, traced_apply]
  by_cases hp : pastLimit f.step (Dbl.add s.num f.step) f.limit = true
  · simp only [if_pos hp, htr]; rfl
  · simp only [if_neg hp, htr]; rfl

theorem unique_entry {fs : List ForLoop} (hone : OnePerVariable fs) {f g : ForLoop} (hf : f ∈ fs) (hg : g ∈ fs)
    (he : g.symbolId = f.symbolId) : g = f := by
  unfold OnePerVariable at hone
  induction fs with
  | nil => simp at hf
  | cons a fs ih =>
    simp only [List.map_cons, List.nodup_cons, List.mem_map, not_exists, not_and] at hone
    rcases List.mem_cons.1 hf with rfl | hf' <;> rcases List.mem_cons.1 hg with rfl | hg'
    · rfl
    · exact absurd he (hone.1 g hg')
    · exact absurd he.symm (hone.1 f hf')
    · exact ih hone.2 hf' hg'

theorem next_select {vm : VM} {i : Inst} {f : ForLoop} (env : Env) (hf : NextOf i vm.forStack f)
    (hone : OnePerVariable vm.forStack) (htr : vm.traceFor = false) :
    ∃ j, vm.forStack[j]? = some f ∧ exec env i vm = brk (next j) vm := by
  cases hf with
  | implicit hl =>
    refine ⟨vm.forStack.length - 1, by rw [← List.getLast?_eq_getElem?]; exact hl, ?_⟩
    have hne : vm.forStack.isEmpty = false := by
      cases h : vm.forStack with
      | nil => rw [h] at hl; simp at hl
      | cons => rfl
    simp only [exec, brk_apply, nextImplicit, bind_apply, traced_apply, htr, Bool.false_eq_true,
      if_false, get_apply, hne, ite_apply]
  | named hm =>
    cases hl : vm.forStack.getLast? with
    | none => rw [List.getLast?_eq_none_iff] at hl; rw [hl] at hm; simp at hm
    | some g =>
      have hl' : vm.forStack[vm.forStack.length - 1]? = some g := by rw [← List.getLast?_eq_getElem?]; exact hl
      by_cases hg : g.symbolId = f.symbolId
      · refine ⟨vm.forStack.length - 1, by rw [hl', unique_entry hone hm (List.mem_of_getElem? hl') hg], ?_⟩
        simp only [exec, brk_apply, nextVariable, bind_apply, traced_apply, htr, Bool.false_eq_true,
          if_false, get_apply, hl, ite_apply, if_pos hg]
      · obtain ⟨j, hj1, hj2⟩ := findFor_some hone hm
        refine ⟨j, hj2, ?_⟩
        simp only [exec, brk_apply, nextVariable, bind_apply, traced_apply, htr, Bool.false_eq_true,
          if_false, get_apply, hl, ite_apply, if_neg hg, hj1]

theorem dumpEntries_ok {fs : List ForLoop} {vm : VM} (h : ∀ f ∈ fs, ∃ s, vm.st.psym[f.symbolId]? = some s) :
    ∃ t, dumpEntries fs vm = .ok t vm := by
  induction fs with
  | nil => exact ⟨[], rfl⟩
  | cons f fs ih =>
    obtain ⟨s, hs⟩ := h f (by simp)
    obtain ⟨t, ht⟩ := ih (fun g hg => h g (by simp [hg]))
    simp only [dumpEntries, dumpEntry, bind_apply, sym_ok hs, pure_apply, ht]
    exact ⟨_, rfl⟩

theorem pastLimit_iff (step limit x : Dbl) : pastLimit step x limit = true ↔ Beyond step limit x := by
  simp [pastLimit, Beyond]

end V

namespace Loops

theorem lt_int (m n : Int) : Dbl.lt (.fin (m : Rat)) (.fin (n : Rat)) = decide (m < n) := by
  simp only [Dbl.lt, Rat.intCast_lt_intCast]

theorem beyond_int (s b x : Int) :
    Beyond (.fin s) (.fin b) (.fin x) ↔ (0 < s ∧ b < x) ∨ (s < 0 ∧ x < b) := by
  have h0 : (0 : Rat) = ((0 : Int) : Rat) := rfl
  unfold Beyond
  rw [h0]
  simp only [lt_int, decide_eq_true_eq]

theorem passes_lt {a b s : Int} {k : Nat} (hs : s ≠ 0) (hk : k < passes a b s) :
    k + 1 < passes a b s ↔ ¬ ((0 < s ∧ b < a + (k + 1 : Nat) * s) ∨ (s < 0 ∧ a + (k + 1 : Nat) * s < b)) := by
  unfold passes at *
  by_cases h : 0 < s
  · rw [if_pos h] at hk ⊢
    by_cases hb : b < a
    · rw [if_pos hb] at hk ⊢
      have hk0 : k = 0 := by omega
      subst hk0
      constructor
      · omega
      · intro hh; exfalso
        apply hh; left; refine ⟨h, ?_⟩; simp; omega
    · rw [if_neg hb] at hk ⊢
      have := @Int.le_ediv_iff_mul_le (k + 1 : Nat) (b - a) s h
      have hq : 0 ≤ (b - a) / s := Int.ediv_nonneg (by omega) (by omega)
      constructor
      · intro hh hc
        have := this.1 (by omega)
        omega
      · intro hh
        have := this.2 (Int.not_lt.1 fun hc => hh (Or.inl ⟨h, by omega⟩))
        omega
  · have hn : s < 0 := by omega
    rw [if_neg h] at hk ⊢
    by_cases hb : a < b
    · rw [if_pos hb] at hk ⊢
      have hk0 : k = 0 := by omega
      subst hk0
      constructor
      · omega
      · intro hh; exfalso
        apply hh; right; refine ⟨hn, ?_⟩; simp; omega
    · rw [if_neg hb] at hk ⊢
      have := @Int.le_ediv_iff_mul_le (k + 1 : Nat) (a - b) (-s) (by omega)
      have hq : 0 ≤ (a - b) / (-s) := Int.ediv_nonneg (by omega) (by omega)
      rw [Int.mul_neg] at this
      constructor
      · intro hh hc
        have := this.1 (by omega)
        omega
      · intro hh
        have := this.2 (Int.not_lt.1 fun hc => hh (Or.inr ⟨hn, by omega⟩))
        omega

/-- Every value reached in a pass is between the start and the limit, or the start. -/
theorem in_range {a b s : Int} {k : Nat} (hs : s ≠ 0) (hk : k < passes a b s) (h0 : 0 < k) :
    (0 < s ∧ a ≤ a + k * s ∧ a + k * s ≤ b) ∨ (s < 0 ∧ a + k * s ≤ a ∧ b ≤ a + k * s) := by
  have h := (passes_lt (a := a) (b := b) (k := k - 1) hs (by omega)).1 (by omega)
  have e : k - 1 + 1 = k := by omega
  rw [e] at h
  have hm : ∀ t : Int, 0 < t → 0 ≤ (k : Int) * t := fun t ht => Int.mul_nonneg (by omega) (by omega)
  rcases Int.lt_or_gt_of_ne hs with hn | hp
  · have := hm (-s) (by omega)
    rw [Int.mul_neg] at this
    right; refine ⟨hn, by omega, ?_⟩
    apply Int.not_lt.1; intro hh; exact h (Or.inr ⟨hn, hh⟩)
  · have := hm s hp
    left; refine ⟨hp, by omega, ?_⟩
    apply Int.not_lt.1; intro hh; exact h (Or.inl ⟨hp, hh⟩)

theorem add_next {a b s : Int} {k : Nat} (ha : a.natAbs ≤ 2 ^ 52) (hb : b.natAbs ≤ 2 ^ 52) (hs0 : s ≠ 0)
    (hs : s.natAbs ≤ 2 ^ 52) (hk : k < passes a b s) :
    Dbl.add (.fin (a + k * s : Int)) (.fin s) = .fin (a + (k + 1 : Nat) * s : Int) := by
  have e : ((a + k * s : Int) : Rat) + (s : Rat) = ((a + (k + 1 : Nat) * s : Int) : Rat) := by
    have : (a + (k + 1 : Nat) * s : Int) = (a + k * s) + s := by
      rw [Int.natCast_add, Int.add_mul]; omega
    rw [this, Rat.intCast_add (a + k * s) s]
  simp only [Dbl.add]
  rw [e]
  apply Dbl.rnd_int
  have e2 : (a + (k + 1 : Nat) * s : Int) = (a + k * s) + s := by
    rw [Int.natCast_add, Int.add_mul]; omega
  rw [e2]
  have : (a + k * s).natAbs ≤ 2 ^ 52 := by
    rcases Nat.eq_zero_or_pos k with rfl | h0
    · simpa using ha
    · rcases in_range hs0 hk h0 with ⟨_, h1, h2⟩ | ⟨_, h1, h2⟩ <;> omega
  omega

end Loops
end LB
