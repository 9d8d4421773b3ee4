import Verif.Model.VM
/- Evaluation rules for the machine's functions. -/
namespace LB

theorem fgetsGo_length (k : Nat) (s : CStr) : (fgetsGo k s).1.length ≤ k := by
  induction k generalizing s with
  | zero => simp [fgetsGo]
  | succ k ih =>
    cases s with
    | nil => simp [fgetsGo]
    | cons c s =>
      simp only [fgetsGo]
      split
      · simp
      · simpa using ih s

theorem cstr_length (s : CStr) : (cstr s).length ≤ s.length := by
  simpa [cstr] using (List.takeWhile_prefix (fun c : Char => decide (c ≠ (Char.ofNat 0)))).length_le

namespace V

@[simp] theorem bind_apply {α β} (x : VmM α) (f : α → VmM β) (vm : VM) :
    (x >>= f) vm = match x vm with
      | .ok a vm' => f a vm'
      | .err e vm' => .err e vm'
      | .halt h => .halt h := rfl

@[simp] theorem pure_apply {α} (a : α) (vm : VM) : (pure a : VmM α) vm = .ok a vm := rfl

@[simp] theorem get_apply (vm : VM) : get vm = .ok vm vm := rfl

@[simp] theorem modify_apply (f : VM → VM) (vm : VM) : modify f vm = .ok () (f vm) := rfl

@[simp] theorem fail_apply {α} (e : RunError) (vm : VM) : (fail e : VmM α) vm = .err e vm := rfl

@[simp] theorem halt_apply {α} (h : Halt) (vm : VM) : (halt h : VmM α) vm = .halt h := rfl

@[simp] theorem lift_ok {α} (a : α) (vm : VM) : lift (.ok a) vm = .ok a vm := rfl

@[simp] theorem lift_halt {α} (h : Halt) (vm : VM) : (lift (.halt h) : VmM α) vm = .halt h := rfl

@[simp] theorem assert_apply (b : Bool) (w : String) (vm : VM) :
    assert b w vm = if b then .ok () vm else .halt (.assertFail w) := by
  cases b <;> rfl

@[simp] theorem when_apply (b : Bool) (x : VmM Unit) (vm : VM) :
    when_ b x vm = if b then x vm else .ok () vm := by
  cases b <;> rfl

@[simp] theorem check_apply (b : Bool) (e : RunError) (vm : VM) :
    check b e vm = if b then .err e vm else .ok () vm := by
  cases b <;> rfl

@[simp] theorem brk_apply (x : VmM Unit) (vm : VM) :
    brk x vm = match x vm with
      | .ok _ vm' => .ok .brk vm'
      | .err e vm' => .err e vm'
      | .halt h => .halt h := by
  simp only [brk, bind_apply, pure_apply]
  cases x vm <;> rfl

@[simp] theorem ret_apply (x : VmM Unit) (vm : VM) :
    ret x vm = match x vm with
      | .ok _ vm' => .ok .ret vm'
      | .err e vm' => .err e vm'
      | .halt h => .halt h := by
  simp only [ret, bind_apply, pure_apply]
  cases x vm <;> rfl

@[simp] theorem ite_apply {α} (c : Prop) [Decidable c] (x y : VmM α) (vm : VM) :
    (if c then x else y) vm = if c then x vm else y vm := by split <;> rfl

/-- The state left by a result satisfies `I`. -/
def _root_.LB.Res.All {α} (I : VM → Prop) : Res α → Prop
  | .ok _ vm' => I vm'
  | .err _ vm' => I vm'
  | .halt _ => True

@[simp] theorem all_ok {α} (I : VM → Prop) (a : α) (vm : VM) : (Res.ok a vm).All I ↔ I vm := Iff.rfl
@[simp] theorem all_err {α} (I : VM → Prop) (e : RunError) (vm : VM) : (Res.err e vm : Res α).All I ↔ I vm := Iff.rfl
@[simp] theorem all_halt {α} (I : VM → Prop) (h : Halt) : (Res.halt h : Res α).All I := trivial

/-- `x` keeps `I` whether it succeeds or fails. -/
def Keeps {α} (I : VM → Prop) (x : VmM α) : Prop := ∀ vm, I vm → (x vm).All I

namespace Keeps
variable {I : VM → Prop} {α β : Type}

theorem bind {x : VmM α} {f : α → VmM β} (hx : Keeps I x) (hf : ∀ a, Keeps I (f a)) : Keeps I (x >>= f) := by
  intro vm h
  have h1 := hx vm h
  simp only [bind_apply]
  cases hxv : x vm with
  | ok a vm' => rw [hxv] at h1; exact hf a vm' h1
  | err e vm' => rw [hxv] at h1; exact h1
  | halt h => trivial

theorem pure (a : α) : Keeps I (pure a) := fun _ h => h
theorem get : Keeps I V.get := fun _ h => h
theorem fail (e : RunError) : Keeps I (V.fail e : VmM α) := fun _ h => h
theorem halt (e : Halt) : Keeps I (V.halt e : VmM α) := fun _ _ => trivial
theorem lift (o : Outcome α) : Keeps I (V.lift o) := by
  cases o
  · exact pure _
  · exact halt _
theorem modify {f : VM → VM} (h : ∀ vm, I vm → I (f vm)) : Keeps I (V.modify f) := fun vm hv => h vm hv
theorem ite {c : Prop} [Decidable c] {x y : VmM α} (hx : Keeps I x) (hy : Keeps I y) :
    Keeps I (if c then x else y) := by split <;> assumption
theorem assert (b : Bool) (w : String) : Keeps I (V.assert b w) := by
  cases b
  · exact halt _
  · exact pure _
theorem when {b : Bool} {x : VmM Unit} (h : Keeps I x) : Keeps I (V.when_ b x) := by
  cases b
  · exact pure _
  · exact h
theorem check (b : Bool) (e : RunError) : Keeps I (V.check b e) := by
  cases b
  · exact pure _
  · exact fail _
theorem brk {x : VmM Unit} (h : Keeps I x) : Keeps I (V.brk x) := bind h (fun _ => pure _)
theorem ret {x : VmM Unit} (h : Keeps I x) : Keeps I (V.ret x) := bind h (fun _ => pure _)
theorem sym (id : Nat) : Keeps I (V.sym id) := by
  intro vm h; simp only [V.sym]; split <;> simp [h]
theorem curBcode : Keeps I V.curBcode := by
  intro vm h; simp only [V.curBcode]
  split
  · simp
  · split <;> simp [h]
theorem curSource : Keeps I V.curSource := by
  intro vm h; simp only [V.curSource]
  split <;> simp [h]
theorem inputRest : Keeps I V.inputRest := by
  intro vm h; simp only [V.inputRest]; split <;> simp [h]
theorem findBasicLine (n : Nat) : Keeps I (V.findBasicLine n) := by
  intro vm h; simp only [V.findBasicLine]; split <;> simp [h]

end Keeps

/-- Shows that a function keeps an invariant by going through its statements; `modify` steps and
functions with their own lemma are left over. -/
macro "keeps" : tactic => `(tactic| with_reducible repeat' (first
  | apply Keeps.pure | apply Keeps.get | apply Keeps.fail | apply Keeps.halt | apply Keeps.lift
  | apply Keeps.assert | apply Keeps.check | apply Keeps.sym | apply Keeps.curBcode
  | apply Keeps.curSource | apply Keeps.inputRest | apply Keeps.findBasicLine
  | assumption
  | apply Keeps.when | apply Keeps.brk | apply Keeps.ret
  | apply Keeps.bind | apply Keeps.ite | intro _ | split))

end V
end LB
