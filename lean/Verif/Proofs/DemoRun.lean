import Verif.Proofs.Demo
import Verif.Spec.Session
import Verif.Spec.Machine
/- Concrete moments in the run of a program. -/
namespace LB.Demo
open Spec

/-- The machine with the lines entered. -/
def entered : List (Nat × String) → Option VM → Option VM
  | [], vm => vm
  | (n, t) :: ls, some vm =>
    if t.toList.length < cmdSize then
      match vmEnterSourceLine vm n t.toList with
      | .ok vm' => entered ls (some vm')
      | .halt _ => none
    else none
  | _ :: _, none => none

/-- The machine after `n` instructions of the program with the given lines. -/
def running (lines : List (Nat × String)) (n : Nat) : Option VM :=
  match entered lines (some (newVm false false false {})) with
  | none => none
  | some vm =>
    match ensureProgramCompiled vm with
    | .ok (true, vm') => after env n { vm' with cs := { code := some .stored, sourceLine := 0, pc := 0 } }
    | _ => none

theorem entered_moment {ls : List (Nat × String)} {vm vm' : VM} (h : Moment vm) (he : entered ls (some vm) = some vm') :
    Moment vm' := by
  induction ls generalizing vm with
  | nil => simp only [entered, Option.some.injEq] at he; exact he ▸ h
  | cons l ls ih =>
    obtain ⟨n, t⟩ := l
    simp only [entered] at he
    split at he
    · rename_i hl
      split at he
      · rename_i hv
        exact ih (.enter n _ h hl hv) he
      · cases he
    · cases he

theorem after_moment {e : Env} {n : Nat} {vm vm' : VM} (h : Moment vm) (he : after e n vm = some vm') : Moment vm' := by
  induction n generalizing vm with
  | zero => simp only [after, Option.some.injEq] at he; exact he ▸ h
  | succ n ih =>
    simp only [after] at he
    split at he
    · rename_i hx
      exact ih (.step e h hx) he
    · cases he

theorem moment {lines : List (Nat × String)} {n : Nat} {P : VM → Bool} (h : (running lines n).any P = true) :
    ∃ vm, Moment vm ∧ P vm = true := by
  cases hr : running lines n with
  | none => rw [hr] at h; cases h
  | some vm =>
    rw [hr] at h
    refine ⟨vm, ?_, h⟩
    unfold running at hr
    split at hr
    · cases hr
    · rename_i he
      split at hr
      · rename_i hc
        exact after_moment (.at_ _ (.compile true (entered_moment (.start _ _ _ _) he) hc)) hr
      · cases hr

/-- Whether the next instruction of the stored program is `i`. -/
def nextIs (i : Inst) (vm : VM) : Bool :=
  decide (vm.cs.code = some .stored) && decide ((vm.stored.bcode.bind (·.inst[vm.cs.pc]?)) = some i)

theorem at_of_nextIs {i : Inst} {vm : VM} (h : nextIs i vm = true) : At vm i := by
  simp only [nextIs, Bool.and_eq_true, decide_eq_true_eq] at h
  cases hb : vm.stored.bcode with
  | none => rw [hb] at h; cases h.2
  | some b => rw [hb] at h; exact ⟨.stored, b, h.1, hb, h.2⟩

end LB.Demo
