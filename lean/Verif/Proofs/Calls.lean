import Verif.Proofs.Frame
import Verif.Proofs.Exec
import Verif.Spec.Calls
/- Lemmas on GOSUB, ON and RETURN. -/
namespace LB
open Spec
namespace V

theorem at_unique {vm : VM} {i j : Inst} (h : At vm i) (h' : At vm j) : i = j := by
  obtain ⟨r, b, h1, h2, h3⟩ := h
  obtain ⟨r', b', h1', h2', h3'⟩ := h'
  rw [h1] at h1'; cases h1'
  rw [h2] at h2'; cases h2'
  rw [h3] at h3'; cases h3'
  rfl

theorem at_of_ok {env : Env} {vm vm' : VM} (h : execute env vm = .ok () vm') : ∃ i, At vm i := by
  simp only [execute, bind_apply, curBcode] at h
  cases hc : vm.cs.code with
  | none => simp [hc] at h
  | some r =>
    simp only [hc] at h
    cases hb : (codeOf vm r).bcode with
    | none => simp [hb] at h
    | some b =>
      simp only [hb, get_apply] at h
      cases hi : b.inst[vm.cs.pc]? with
      | none => simp [hi] at h
      | some i => exact ⟨i, r, b, hc, hb, hi⟩

/-- From an invariant of `exec` to one of `execute`. -/
theorem execute_keeps {I : VM → Prop} {env : Env} {vm : VM} {i : Inst} (hat : At vm i)
    (hk : Keeps I (exec env i)) (hcs : ∀ vm cs, I vm → I { vm with cs := cs }) (h : I vm) :
    (execute env vm).All I := by
  rw [execute_at env hat]
  have := hk vm h
  cases hx : exec env i vm with
  | ok f vm' =>
    rw [hx] at this
    cases f
    · exact hcs _ _ this
    · exact this
  | err e vm' => rw [hx] at this; exact this
  | halt _ => trivial

theorem toNat_nat (k : Nat) : Dbl.toNat (.fin (k : Rat)) = k := by
  have : ((k : Rat)).floor = (k : Int) := by
    rw [← Rat.intCast_natCast]; exact Rat.floor_intCast _
  simp [Dbl.toNat, this]

theorem floor_nat (k : Nat) : Dbl.floor (.fin (k : Rat)) = .fin k := by
  have : ((k : Rat)).floor = (k : Int) := by
    rw [← Rat.intCast_natCast]; exact Rat.floor_intCast _
  simp [Dbl.floor, this, Rat.intCast_natCast]

theorem ne_self_fin (q : Rat) : Dbl.ne (.fin q) (.fin q) = false := by simp [Dbl.ne, Dbl.eq]

theorem onOutside_nat (k n : Nat) : onOutside (.fin (k : Rat)) n = decide (k < 1 ∨ n < k) := by
  have h1 : ((k : Rat) < 1) ↔ k < 1 := by
    have := Rat.natCast_lt_natCast (a := k) (b := 1)
    simpa using this
  have h2 : ((n : Rat) < k) ↔ n < k := Rat.natCast_lt_natCast
  simp [onOutside, Dbl.lt, h1, h2]

theorem goTo_ok {vm : VM} {l pc : Nat} (h : vm.stored.index.bind (lookupLineMapping · l) = some pc) :
    goToBasicLine l vm = .ok () { vm with cs := { vm.cs with pc := pc, code := some .stored } } := by
  simp [goToBasicLine, findBasicLine, h]

theorem goTo_missing {vm : VM} {l : Nat} (h : vm.stored.index.bind (lookupLineMapping · l) = none) :
    goToBasicLine l vm = .err (.lineNotFound l) vm := by
  simp [goToBasicLine, findBasicLine, h]

theorem goTo_retstack {vm vm' : VM} {l : Nat} (h : goToBasicLine l vm = .ok () vm') : vm'.retstack = vm.retstack := by
  simp only [goToBasicLine, findBasicLine, bind_apply] at h
  cases hx : vm.stored.index.bind (lookupLineMapping · l) with
  | none => simp [hx] at h
  | some pc => simp [hx] at h; rw [← h]

/-- What `ON` does with the instruction it has selected. -/
def onTarget (i : Option Inst) (back : Nat) (g : Bool) : VmM Unit :=
  match i with
  | some (.onLine l) => do
    when_ g (pushReturn back)
    goToBasicLine l
  | _ => fail .onLineExpected

theorem curBcode_stack {vm : VM} {bc : Bcode} (h : curBcode vm = .ok bc vm) (s : List Dbl) :
    curBcode { vm with stack := s } = .ok bc { vm with stack := s } := by
  simp only [curBcode] at h ⊢
  cases hc : vm.cs.code with
  | none => simp [hc] at h
  | some r =>
    simp only [hc] at h ⊢
    have hr : codeOf { vm with stack := s } r = codeOf vm r := by cases r <;> rfl
    rw [hr]
    cases hb : (codeOf vm r).bcode with
    | none => simp [hb] at h
    | some b => simp [hb] at h ⊢; exact h

theorem on_inside {vm : VM} {bc : Bcode} {n k : Nat} {rest : List Dbl} {g : Bool}
    (hb : curBcode vm = .ok bc vm) (hs : vm.stack = .fin k :: rest) (h1 : 1 ≤ k) (h2 : k ≤ n) :
    onStatement n g vm = onTarget bc.inst[vm.cs.pc + k]? (vm.cs.pc + n + 1) g { vm with stack := rest } := by
  have hout : onOutside (.fin (k : Rat)) n = false := by rw [onOutside_nat]; simp; omega
  simp only [onStatement, bind_apply, pop, hs, check_apply, floor_nat, ne_self_fin,
      Bool.false_eq_true, if_false, get_apply, hout, curBcode_stack hb, toNat_nat, onTarget]
  cases hl : bc.inst[vm.cs.pc + k]? with
  | none => rfl
  | some i => cases i <;> rfl

theorem call_retstack {env : Env} {b c : VM} {back : CodeState} (hc : CallAt b back)
    (h : execute env b = .ok () c) : c.retstack = back :: b.retstack := by
  cases hc with
  | gosub l hat =>
    rw [execute_at env hat] at h
    simp only [exec, ret_apply, bind_apply, get_apply, pushReturn] at h
    by_cases hf : b.retstack.length ≥ maxReturnStack
    · simp [hf] at h
    · simp only [if_neg hf] at h
      cases hg : goToBasicLine l { b with retstack := { b.cs with pc := b.cs.pc + 1 } :: b.retstack } with
      | ok _ v => rw [hg] at h; simp at h; rw [← h]; exact goTo_retstack hg
      | err _ v => rw [hg] at h; simp at h
      | halt _ => rw [hg] at h; simp at h
  | onGosub n k rest hat hs h1 h2 =>
    rw [execute_at env hat] at h
    obtain ⟨bc, hb, hi⟩ := curBcode_at hat
    simp only [exec, ret_apply, on_inside hb hs h1 h2] at h
    cases hl : bc.inst[b.cs.pc + k]? with
    | none => simp [hl, onTarget] at h
    | some i =>
      cases i <;> simp only [hl, onTarget, fail_apply, reduceCtorEq] at h
      rename_i l
      simp only [bind_apply, when_apply, if_true, pushReturn] at h
      by_cases hf : b.retstack.length ≥ maxReturnStack
      · simp [hf] at h
      · simp only [if_neg hf] at h
        cases hg : goToBasicLine l { b with stack := rest, retstack := { b.cs with pc := b.cs.pc + n + 1 } :: b.retstack } with
        | ok _ v => rw [hg] at h; simp at h; rw [← h]; exact goTo_retstack hg
        | err _ v => rw [hg] at h; simp at h
        | halt _ => rw [hg] at h; simp at h

/-- Integer values in `ON`. -/
theorem on_integer {x : Dbl} {n : Nat} (h1 : Dbl.ne x (Dbl.floor x) = false) (h2 : onOutside x n = false) :
    ∃ k : Nat, x = .fin k ∧ 1 ≤ k ∧ k ≤ n := by
  cases x with
  | nan => simp [Dbl.ne, Dbl.eq] at h1
  | pinf => simp [onOutside, Dbl.lt] at h2
  | ninf => simp [onOutside, Dbl.lt] at h2
  | nzero => exact absurd h2 (by simp [onOutside, Dbl.lt]; intro h; exact absurd h (by decide +kernel))
  | fin q =>
    have hq : q = (q.floor : Rat) := by simpa [Dbl.ne, Dbl.floor, Dbl.eq] using h1
    simp only [onOutside, Dbl.lt, Bool.or_eq_false_iff, decide_eq_false_iff_not] at h2
    obtain ⟨ha, hb⟩ := h2
    have ha' : ¬ (q.floor < 1) := by
      intro h
      apply ha
      rw [hq]
      have := (Rat.intCast_lt_intCast (a := q.floor) (b := 1)).2 h
      simpa using this
    have hb' : ¬ ((n : Int) < q.floor) := by
      intro h
      apply hb
      rw [hq, ← Rat.intCast_natCast]
      exact Rat.intCast_lt_intCast.2 h
    refine ⟨q.floor.toNat, ?_, by omega, by omega⟩
    have : ((q.floor.toNat : Nat) : Int) = q.floor := by omega
    rw [← Rat.intCast_natCast, this, ← hq]

theorem step_retstack {env : Env} {b c : VM} (h : execute env b = .ok () c)
    (hc : ∀ back, ¬ CallAt b back) (hr : ¬ At b .return_) : c.retstack = b.retstack := by
  obtain ⟨i, hat⟩ := at_of_ok h
  by_cases ht : touches i .ret = true
  · cases i <;> simp [touches] at ht
    · exact absurd (CallAt.gosub _ hat) (hc _)
    · exact absurd hat hr
    · rename_i n
      rw [execute_at env hat] at h
      simp only [exec, ret_apply] at h
      cases hs : b.stack with
      | nil => simp [onStatement, pop, hs] at h
      | cons x rest =>
        cases hn : Dbl.ne x (Dbl.floor x) with
        | true => simp [onStatement, pop, hs, hn] at h
        | false =>
          cases ho : onOutside x n with
          | true =>
            simp [onStatement, pop, hs, hn, ho, setPc] at h
            rw [← h]
          | false =>
            obtain ⟨k, rfl, h1, h2⟩ := on_integer hn ho
            exact absurd (CallAt.onGosub n k rest hat hs h1 h2) (hc _)
  · have := execute_keeps (I := fun vm => vm.retstack = b.retstack) (env := env) hat
      (keeps_exec (closed_retstack b.retstack) env i (fun a ha h => ht (h ▸ ha))) (fun _ _ h => h) rfl
    rw [h] at this
    exact this

theorem return_ok {env : Env} {d : VM} {cs : CodeState} {r : List CodeState} (hat : At d .return_)
    (h : d.retstack = cs :: r) : execute env d = .ok () { d with cs := cs, retstack := r } := by
  rw [execute_at env hat]
  simp [exec, popReturn, h]

theorem sameLevel_retstack {env : Env} {a b : VM} (h : SameLevel env a b) : b.retstack = a.retstack := by
  induction h with
  | here => rfl
  | step _ hx hc hr ih => rw [step_retstack hx hc hr, ih]
  | call back _ hc hx _ hr he ih1 ih2 =>
    rw [call_retstack hc hx] at ih2
    rw [return_ok hr ih2] at he
    simp at he
    rw [← he]
    exact ih1

theorem deeper_retstack {env : Env} {n : Nat} {a b : VM} (h : Deeper env n a b) :
    b.retstack.length = a.retstack.length + n := by
  induction h with
  | same h => rw [sameLevel_retstack h]; rfl
  | call back _ hc hx hl ih => rw [sameLevel_retstack hl, call_retstack hc hx]; simp [ih]; omega

end V
end LB
