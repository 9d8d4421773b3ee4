import Verif.Proofs.Keeps
import Verif.Proofs.Session
/- The stacks of the machine stay within their arrays. -/
namespace LB
namespace V
open Spec (Moment)

/-- All stacks are within their arrays and no variable controls two loops. -/
def Bounds (vm : VM) : Prop :=
  vm.stack.length ≤ maxNumStack ∧ vm.strstack.length ≤ maxStrStack ∧ vm.retstack.length ≤ maxReturnStack ∧
  vm.forStack.length ≤ maxFor ∧ (vm.forStack.map (fun f : ForLoop => f.symbolId)).Nodup

theorem Bounds.same {vm vm' : VM} (h : Bounds vm) (h1 : vm'.stack = vm.stack) (h2 : vm'.strstack = vm.strstack)
    (h3 : vm'.retstack = vm.retstack) (h4 : vm'.forStack = vm.forStack) : Bounds vm' := by
  unfold Bounds at *; rw [h1, h2, h3, h4]; exact h

theorem findIdx?_none {α} {p : α → Bool} {l : List α} (h : l.findIdx? p = none) : ∀ x ∈ l, p x = false := by
  simpa using h

theorem getElem?_append_eraseIdx_perm {α} : ∀ (l : List α) (i : Nat) (x : α), l[i]? = some x →
    (l.eraseIdx i ++ [x]).Perm l
  | [], i, x, h => by simp at h
  | a :: l, 0, x, h => by
    simp at h; subst h
    simp
  | a :: l, i + 1, x, h => by
    simp only [List.getElem?_cons_succ] at h
    simpa using getElem?_append_eraseIdx_perm l i x h

theorem map_modify_same {α β} (l : List α) (n : Nat) (f : α → α) (g : α → β)
    (h : ∀ x, l[n]? = some x → g (f x) = g x) : (l.modify n f).map g = l.map g := by
  apply List.ext_getElem?
  intro i
  simp only [List.getElem?_map, List.getElem?_modify]
  split
  · rename_i hn; subst hn
    cases hx : l[n]? with
    | none => simp
    | some x => simp [h x hx]
  · simp

theorem bounds_forTop (id : Nat) (hd : Keeps Bounds (dumpForStack "overflow")) : Keeps Bounds (forTop id) := by
  intro vm h
  obtain ⟨a, b, c, d, e⟩ := h
  simp only [forTop, forEntry, bind_apply, get_apply]
  cases hf : findFor vm id with
  | some si =>
    simp only
    cases hx : vm.forStack[si]? with
    | none => simp
    | some f =>
      simp only [modify_apply, setTopFor, all_ok]
      have hp := getElem?_append_eraseIdx_perm _ _ _ hx
      have hid : f.symbolId = id := by
        unfold findFor at hf
        rw [List.findIdx?_eq_some_iff_getElem] at hf
        obtain ⟨hlt, h1, _⟩ := hf
        rw [List.getElem?_eq_getElem hlt] at hx
        simp at hx; rw [hx] at h1; simpa using h1
      refine ⟨a, b, c, ?_, ?_⟩
      · have := hp.length_eq; simp at this ⊢; omega
      · show ((List.modify _ _ _).map _).Nodup
        rw [map_modify_same]
        · exact ((hp.map _).nodup_iff).2 e
        · intro x hx'
          simp only [List.length_append, List.length_cons, List.length_nil, Nat.add_sub_cancel,
            List.getElem?_append_right (Nat.le_refl _), Nat.sub_self] at hx'
          simp at hx'; subst hx'; exact hid.symm
  | none =>
    simp only [ite_apply]
    by_cases hlen : vm.forStack.length ≥ maxFor
    · rw [if_pos hlen]
      have := hd vm ⟨a, b, c, d, e⟩
      simp only [bind_apply]
      cases hdv : dumpForStack "overflow" vm with
      | ok _ w => rw [hdv] at this; simpa using this
      | err _ w => rw [hdv] at this; simpa using this
      | halt _ => simp
    · rw [if_neg hlen]
      simp only [modify_apply, setTopFor, all_ok]
      refine ⟨a, b, c, ?_, ?_⟩
      · simp; omega
      · show ((List.modify _ _ _).map _).Nodup
        rw [map_modify_same]
        · simp only [List.map_append, List.map_cons, List.map_nil]
          rw [List.nodup_append]
          refine ⟨e, by simp, ?_⟩
          intro x hx y hy
          simp only [List.mem_singleton] at hy; subst hy
          simp only [List.mem_map] at hx
          obtain ⟨g, hg, rfl⟩ := hx
          have := findIdx?_none hf g hg
          simpa using this
        · intro x hx'
          simp at hx'; subst hx'; rfl

theorem bounds_closed : Closed (fun _ => True) Bounds where
  push _ x := by
    intro vm h
    simp only [push]
    split
    · exact h
    · obtain ⟨a, b, c, d, e⟩ := h
      exact ⟨by simp at *; omega, b, c, d, e⟩
  pop := by
    intro vm h
    simp only [pop]
    split
    · exact h
    · obtain ⟨a, b, c, d, e⟩ := h
      rename_i hs; rw [hs] at a; exact ⟨by simp at *; omega, b, c, d, e⟩
  pushStr _ x := by
    intro vm h
    simp only [pushStr]
    split
    · exact h
    · obtain ⟨a, b, c, d, e⟩ := h
      exact ⟨a, by simp at *; omega, c, d, e⟩
  popStr := by
    intro vm h
    simp only [popStr]
    split
    · exact h
    · obtain ⟨a, b, c, d, e⟩ := h
      rename_i hs; rw [hs] at b; exact ⟨a, by simp at *; omega, c, d, e⟩
  pushReturn _ pc := by
    intro vm h
    simp only [pushReturn]
    split
    · exact h
    · obtain ⟨a, b, c, d, e⟩ := h
      exact ⟨a, b, by simp at *; omega, d, e⟩
  popReturn _ := by
    intro vm h
    simp only [popReturn]
    split
    · exact h
    · obtain ⟨a, b, c, d, e⟩ := h
      rename_i hs; rw [hs] at c; exact ⟨a, b, by simp at *; omega, d, e⟩
  updSym _ _ _ _ _ _ _ := Keeps.modify (fun _ h => h.same rfl rfl rfl rfl)
  clear _ _ h := h.same rfl rfl rfl rfl
  world _ _ _ h := h.same rfl rfl rfl rfl
  col _ _ _ h := h.same rfl rfl rfl rfl
  cs _ _ _ _ h := h.same rfl rfl rfl rfl
  stopped _ _ _ h := h.same rfl rfl rfl rfl
  programData _ _ _ h := h.same rfl rfl rfl rfl
  immediateData _ _ _ h := h.same rfl rfl rfl rfl
  fn _ _ _ h := h.same rfl rfl rfl rfl
  input _ _ _ _ h := h.same rfl rfl rfl rfl
  inp _ _ _ h := h.same rfl rfl rfl rfl
  inputPc _ _ _ h := h.same rfl rfl rfl rfl
  defCode _ _ _ h := h.same rfl rfl rfl rfl
  trace := .inl trivial
  forTop _ := bounds_forTop
  setTopFor _ f hf := by
    refine Keeps.modify (fun vm h => ?_)
    obtain ⟨a, b, c, d, e⟩ := h
    refine ⟨a, b, c, by simpa using d, ?_⟩
    show ((List.modify _ _ _).map _).Nodup
    rw [map_modify_same]
    · exact e
    · intro x _; exact (hf x).1
  erase _ vm si h := by
    obtain ⟨a, b, c, d, e⟩ := h
    refine ⟨a, b, c, ?_, ?_⟩
    · exact Nat.le_trans (List.eraseIdx_sublist _ _).length_le d
    · exact e.sublist ((List.eraseIdx_sublist _ _).map _)

theorem bounds_ensureProgramCompiled {vm vm' : VM} {b : Bool} (h : Bounds vm)
    (hr : ensureProgramCompiled vm = .ok (b, vm')) : Bounds vm' := by
  unfold ensureProgramCompiled at hr
  split at hr
  · split at hr
    · simp at hr
    · split at hr
      · simp at hr
      · simp at hr; obtain ⟨_, rfl⟩ := hr; exact h.same rfl rfl rfl rfl
      · split at hr
        · simp at hr
        · simp at hr; obtain ⟨_, rfl⟩ := hr
          exact ⟨Nat.zero_le _, Nat.zero_le _, Nat.zero_le _, Nat.zero_le _, List.nodup_nil⟩
  · simp at hr; exact hr.2 ▸ h

/-- What `RENUM` leaves alone. -/
theorem renumber_frame {vm vm' : VM} {a b c : Nat} (hr : renumber vm a b c = .ok vm') :
    ∃ src w, vm' = { vm with stored := { vm.stored with source := src }, world := w } := by
  unfold renumber at hr
  split at hr
  · simp at hr; subst hr; exact ⟨vm.stored.source, vm.world, rfl⟩
  · split at hr
    · simp at hr
    · simp at hr; subst hr; exact ⟨_, _, rfl⟩
    · split at hr
      · simp at hr
      · simp only [Outcome.ok.injEq] at hr
        split at hr
        · subst hr; exact ⟨_, vm.world, rfl⟩
        · subst hr; exact ⟨_, _, rfl⟩

theorem moment_bounds {vm : VM} (h : Moment vm) : Bounds vm := by
  induction h with
  | start => exact ⟨Nat.zero_le _, Nat.zero_le _, Nat.zero_le _, Nat.zero_le _, List.nodup_nil⟩
  | world w _ ih => exact ih.same rfl rfl rfl rfl
  | enter num text _ _ he ih =>
    unfold vmEnterSourceLine at he
    split at he
    · simp at he
    · simp at he; subst he; exact ih.same rfl rfl rfl rfl
  | delete num _ ih =>
    unfold vmDeleteSourceLine
    split
    · exact ih
    · split
      · exact ih
      · exact ih.same rfl rfl rfl rfl
  | new _ ih => exact ih.same rfl rfl rfl rfl
  | clearNames _ ih => exact ih.same rfl rfl rfl rfl
  | clearValues _ ih => exact ih.same rfl rfl rfl rfl
  | load name c b _ he ih =>
    unfold vmLoadSource at he
    split at he
    · simp at he
    · simp at he; exact he.2 ▸ ih
    · simp at he; obtain ⟨_, rfl⟩ := he; exact ih.same rfl rfl rfl rfl
  | renum _ _ _ _ he ih =>
    obtain ⟨src, w, rfl⟩ := renumber_frame he
    exact ih.same rfl rfl rfl rfl
  | compile b _ he ih => exact bounds_ensureProgramCompiled ih he
  | reset _ _ => exact ⟨Nat.zero_le _, Nat.zero_le _, Nat.zero_le _, Nat.zero_le _, List.nodup_nil⟩
  | at_ _ _ ih => exact ih.same rfl rfl rfl rfl
  | stopped _ _ _ ih => exact ih.same rfl rfl rfl rfl
  | noImmediate _ ih => exact ih.same rfl rfl rfl rfl
  | immediateFailed _ _ _ _ ih => exact ih.same rfl rfl rfl rfl
  | immediate _ _ _ _ _ ih => exact ih.same rfl rfl rfl rfl
  | step env _ he ih =>
    have := keeps_execute bounds_closed env _ ih
    rw [he] at this; exact this
  | error env _ he ih =>
    have := keeps_execute bounds_closed env _ ih
    rw [he] at this; exact this

end V
end LB
