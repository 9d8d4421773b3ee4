import Verif.Proofs.DemoRun
import Verif.Proofs.Running
/- Concrete states of running programs. -/
namespace LB.Demo
open LB.Spec _root_.Spec

/-- Whether there is a next instruction. -/
def hasNext (vm : VM) : Bool :=
  match vm.cs.code with
  | none => false
  | some r => match (V.codeOf vm r).bcode with
    | none => false
    | some b => decide (vm.cs.pc < b.inst.length) && !vm.stopped

theorem hasNext_at {vm : VM} (h : hasNext vm = true) : (∃ i, At vm i) ∧ vm.stopped = false := by
  unfold hasNext at h
  split at h
  · cases h
  · rename_i r hr
    split at h
    · cases h
    · rename_i b hb
      simp only [Bool.and_eq_true, decide_eq_true_eq, Bool.not_eq_true'] at h
      exact ⟨⟨_, r, b, hr, hb, List.getElem?_eq_getElem h.1⟩, h.2⟩

/-- The machine after `n` instructions. -/
def stepping : Nat → VM → Option VM
  | 0, vm => some vm
  | n + 1, vm =>
    if hasNext vm then
      match V.execute env vm with
      | .ok _ vm' => stepping n vm'
      | _ => none
    else none

variable {may : Cmd → VM → Prop}

theorem entered_state {ls : List (Nat × String)} {vm vm' : VM} (h : State may .idle vm) (he : entered ls (some vm) = some vm') :
    State may .idle vm' := by
  induction ls generalizing vm with
  | nil => simp only [entered, Option.some.injEq] at he; exact he ▸ h
  | cons l ls ih =>
    obtain ⟨n, t⟩ := l
    simp only [entered] at he
    split at he
    · rename_i hl
      split at he
      · rename_i hv
        exact ih (.enter n _ h hl hv) he
      · cases he
    · cases he

theorem stepping_state {n : Nat} {ph : Phase} (hp : ph ≠ .idle) {vm vm' : VM} (h : State may ph vm) (he : stepping n vm = some vm') :
    State may ph vm' := by
  induction n generalizing vm with
  | zero => simp only [stepping, Option.some.injEq] at he; exact he ▸ h
  | succ n ih =>
    simp only [stepping] at he
    split at he
    · rename_i hn
      split at he
      · rename_i hx
        obtain ⟨h1, h2⟩ := hasNext_at hn
        exact ih (.step env hp h h1 h2 hx) he
      · cases he
    · cases he

/-- The machine after `n` instructions of the program with the given lines. -/
def runs (lines : List (Nat × String)) (n : Nat) : Option VM :=
  match entered lines (some (newVm false false false {})) with
  | none => none
  | some vm =>
    match ensureProgramCompiled vm with
    | .ok (true, vm') =>
      if vm'.stored.source.isSome then
        stepping n (startAt { code := some .stored, sourceLine := 0, pc := 0 } (resetControlState vm'))
      else none
    | _ => none

theorem state {lines : List (Nat × String)} {n : Nat} {P : VM → Bool} (h : (runs lines n).any P = true) :
    ∃ vm, State may .program vm ∧ P vm = true := by
  cases hr : runs lines n with
  | none => rw [hr] at h; cases h
  | some vm =>
    rw [hr] at h
    refine ⟨vm, ?_, h⟩
    unfold runs at hr
    split at hr
    · cases hr
    · rename_i he
      split at hr
      · rename_i vm' hc
        split at hr
        · rename_i hs
          have h1 := entered_state (may := may) (.start _ _ _ _) he
          have h2 := State.run (.compile true h1 hc) (compiled_again hc) (by intro h; rw [h] at hs; cases hs)
          exact stepping_state (by simp) h2 hr
        · cases hr
      · cases hr

end LB.Demo
