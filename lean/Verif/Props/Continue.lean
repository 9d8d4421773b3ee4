import Verif.Props.Semantics
/-
C52: CONT after STOP goes on with the statement after the STOP.
-/
namespace LB
open LB.Spec _root_.Spec

/-- C52.  After RUN, and CONT any number of times, ended with STOP, CONT goes on with the statement after the STOP, with
the variables, the arrays, the loops, the subroutines, the position in DATA and the column as the STOP left them, whatever
was printed and read meanwhile: if performing the statements from there leads to an end, CONT ends in the same way, with
the same variables, and has printed the same text.  (As for RUN, nothing is said about the end `unknown`.) -/
theorem C52_cont_partial {env : Env} {brk : Nat → Bool} {src : Source} {prog : Src.Program} {vm : VM} {c : Src.Config} (h : Src.Paused env brk src prog vm c)
    (hb : ∀ k, brk k = false) (o i : CStr) {k : Nat} {e : Src.Ending} {c' : Src.Config} (hs : Src.steps env prog k (Src.resume prog c i) = .stop e c') (hu : e ≠ .unknown) :
    ∃ n0 vm', (∀ n, n < n0 → vmContinue env brk n (Src.meanwhile vm o i) = .halt .fuel) ∧
      (∀ n, n0 ≤ n → vmContinue env brk n (Src.meanwhile vm o i) = .ok (some ⟨e.error?, false⟩, vm')) ∧
      storeOf vm' = c'.toStore ∧ vm'.world.stdin = c'.stdin ∧
      (e ≠ .error .forTooDeep → vm'.world.out = vm.world.out ++ o ++ c'.out ++ e.message src.lines c'.place) ∧ vm'.input = c'.line ∧
      (vm'.stopped = true ↔ e = .stopped) := by
  obtain ⟨I, hI, rfl, hsrc, hw⟩ := paused_waits hb h
  obtain ⟨u, hm, hrun⟩ := waits_continue (env := env) hI hw o i
  obtain ⟨n0, m, vm', k1, k2, rfl, k3, k4, k5, k6, k7, _⟩ := matches_ends (hI.reprint _) hm hsrc hb hs hu
  exact ⟨n0, _, fun n hn => by rw [hrun, k1 n hn], fun n hn => by rw [hrun, k2 n hn], k3, k4, k5, k6, k7⟩

/-- C52.  If the statements after the STOP can be performed for ever, CONT never ends. -/
theorem C52_cont_forever_partial {env : Env} {brk : Nat → Bool} {src : Source} {prog : Src.Program} {vm : VM} {c : Src.Config} (h : Src.Paused env brk src prog vm c)
    (hb : ∀ k, brk k = false) (o i : CStr) (hs : ∀ k, ∃ c', Src.steps env prog k (Src.resume prog c i) = .go c') (n : Nat) :
    vmContinue env brk n (Src.meanwhile vm o i) = .halt .fuel := by
  obtain ⟨I, hI, rfl, hsrc, hw⟩ := paused_waits hb h
  obtain ⟨u, hm, hrun⟩ := waits_continue (env := env) hI hw o i
  obtain ⟨m, vm', h1, h2⟩ := steps_forever (hI.reprint _) n hm hs
  rw [hrun, h2.fuel (fun i _ => hb i) h1]

/- ### Examples -/

namespace Demo

/-- A program that stops in a loop. -/
def pausing : List SrcLine := [⟨10, "FOR I=1 TO 2:STOP:NEXT I".toList⟩, ⟨20, "PRINT I".toList⟩]

/-- The same as statements. -/
def pausingProgram : Src.Program :=
  [(10, [.for_ ['I'] (.num (.fin 1)) (.num (.fin 2)) (.num (.fin 1)), .stop, .next ['I']]), (20, [.print [.value (.numVar ['I'])]])]

theorem pausing_lines : Src.Lines pausing pausingProgram := by
  have hI : builtin ['I'] = none := by decide +kernel
  refine .cons ⟨[Src.kw .FOR, .name ['I'], opTok '=', .num (.fin 1), Src.kw .TO, .num (.fin 2)] ++ opTok ':' :: ([Src.kw .STOP] ++ opTok ':' :: ([Src.kw .NEXT, .name ['I']] ++ [opTok '\n'])), [],
    split_spec 40 (by decide +kernel), ?_⟩ (.cons ⟨[Src.kw .PRINT, .name ['I']] ++ [opTok '\n'], [], split_spec 40 (by decide +kernel), ?_⟩ .nil)
  · exact .colon (.simple (.for_ (l := [.num (.fin 1)]) hI (by decide) (orNum _) (orNum _))) (.colon (.simple .stop) (.last (.simple (.next (.one hI (by decide))))))
  · exact .last (.simple (.print (.value (l := [.name ['I']]) (orVar hI (by decide)) (by intro w hw; cases hw; decide +kernel) (by intro a ha; cases ha) .nil)))

/-- The machine with the program. -/
def pausingVm : VM := { newVm false false false {} with stored := ⟨some ⟨none, pausing⟩, none, none⟩ }

theorem pausing_ready : Src.Ready pausingVm ⟨none, pausing⟩ pausingProgram where
  stored := rfl
  traceBasic := rfl
  traceFor := rfl
  ascending := by decide
  lines := pausing_lines
  fits := by
    have hr : pausingProgram.room = (0, 0) := by decide +kernel
    simp only [Src.Program.Fits, hr]
    simp only [pausingProgram, List.forall_mem_cons, Src.Stmt.Fits, Src.Item.Fits, Src.Fits]
    simp [Expr.nums, Expr.strs]
  small := by decide +kernel
  apart := fun f hf => absurd (show f ∈ ([] : List CStr) from hf) (by simp)

/-- What has been done so far. -/
def nextStop : Src.Next → Option Src.Config
  | .stop .stopped c => some c
  | _ => none

theorem of_nextStop {r : Src.Next} {c : Src.Config} (h : nextStop r = some c) : r = .stop .stopped c := by
  cases r with
  | go c => cases h
  | stop e c => cases e <;> first | (cases h; rfl) | cases h

/-- The run and the first CONT end with STOP, the second CONT comes to the end of the program. -/
noncomputable def pausedTwice : Bool :=
  match nextStop (Src.steps Demo.env pausingProgram 10 (Src.start pausingProgram pausingVm)) with
  | none => false
  | some c =>
    match nextStop (Src.steps Demo.env pausingProgram 10 (Src.resume pausingProgram c [])) with
    | none => false
    | some c' =>
      match Src.steps Demo.env pausingProgram 10 (Src.resume pausingProgram c' "rest".toList) with
      | .stop .finished c'' => decide (c''.nums ['I'] = .fin 2) && decide (c''.out = " 2 \n".toList) && decide (c''.stdin = "rest".toList)
      | _ => false

end Demo

open Demo in
example : ∃ vm c n0 vm', Src.Paused Demo.env (fun _ => false) ⟨none, pausing⟩ pausingProgram vm c ∧
    (∀ n, n0 ≤ n → vmContinue Demo.env (fun _ => false) n (Src.meanwhile vm "> ".toList "rest".toList) = .ok (some ⟨none, false⟩, vm')) ∧
    numNamed vm'.st ['I'] = .fin 2 ∧ vm'.world.stdin = "rest".toList ∧ vm'.world.out = vm.world.out ++ ">  2 \n".toList ∧ vm'.stopped = false := by
  have hc : pausedTwice = true := by decide +kernel
  unfold pausedTwice at hc
  split at hc
  · cases hc
  rename_i c h1
  split at hc
  · cases hc
  rename_i c' h2
  split at hc
  · rename_i c'' h3
    simp only [Bool.and_eq_true, decide_eq_true_eq] at hc
    obtain ⟨n1, v1, -, k1, -⟩ := C52_ends_partial (brk := fun _ => false) pausing_ready (fun _ => rfl) (of_nextStop h1) (by simp)
    have p1 := Src.Paused.run pausing_ready (of_nextStop h1) (k1 n1 (Nat.le_refl _))
    obtain ⟨n2, v2, -, k2, -⟩ := C52_cont_partial p1 (fun _ => rfl) "> ".toList [] (of_nextStop h2) (by simp)
    have p2 := Src.Paused.cont p1 (of_nextStop h2) (k2 n2 (Nat.le_refl _))
    obtain ⟨n3, v3, -, k3, q1, q2, q3, -, q5⟩ := C52_cont_partial p2 (fun _ => rfl) "> ".toList "rest".toList h3 (by simp)
    refine ⟨v2, c', n3, v3, p2, k3, ?_, q2.trans hc.2, ?_, ?_⟩
    · rw [show numNamed v3.st = c''.nums from congrArg Store.nums q1]; exact hc.1.1
    · rw [q3 (by simp), hc.1.2]; simp [Src.Ending.message]
    · cases hv : v3.stopped with
      | false => rfl
      | true => cases q5.1 hv
  · cases hc

namespace Demo

/-- A program that stops, and then counts for ever. -/
def resting : List SrcLine := ⟨5, "STOP".toList⟩ :: endless

/-- The same as statements. -/
def restingProgram : Src.Program := (5, [.stop]) :: endlessProgram

/-- The machine with the program. -/
def restingVm : VM := { newVm false false false {} with stored := ⟨some ⟨none, resting⟩, none, none⟩ }

theorem resting_ready : Src.Ready restingVm ⟨none, resting⟩ restingProgram where
  stored := rfl
  traceBasic := rfl
  traceFor := rfl
  ascending := by decide
  lines := .cons ⟨[Src.kw .STOP] ++ [opTok '\n'], [], split_spec 40 (by decide +kernel), .last (.simple .stop)⟩ endless_lines
  fits := by
    have hr : restingProgram.room = (0, 0) := by decide +kernel
    simp only [Src.Program.Fits, hr]
    simp only [restingProgram, endlessProgram, List.forall_mem_cons, Src.Stmt.Fits, Src.Item.Fits, Src.Fits]
    simp [Expr.nums, Expr.strs]
  small := by decide +kernel
  apart := fun f hf => absurd (show f ∈ ([] : List CStr) from hf) (by simp)

theorem resting_go (env : Env) : ∀ k c, c.place.1 = 1 → c.place.2 < 3 → ∃ c', Src.steps env restingProgram k c = .go c' := by
  intro k
  induction k with
  | zero => intro c _ _; exact ⟨c, rfl⟩
  | succ k ih =>
    intro c h1 h2
    obtain ⟨s, ⟨i, j⟩, calls, loops, col, out, data, stdin, line, mark, fns⟩ := c
    simp only at h1 h2
    subst h1
    rcases (by omega : j = 0 ∨ j = 1 ∨ j = 2) with rfl | rfl | rfl
    · exact ih _ rfl (show 1 < 3 by decide)
    · exact ih _ rfl (show 2 < 3 by decide)
    · exact ih _ rfl (show 0 < 3 by decide)

end Demo

open Demo in
example : ∃ vm c, Src.Paused Demo.env (fun _ => false) ⟨none, resting⟩ restingProgram vm c ∧
    ∀ n, vmContinue Demo.env (fun _ => false) n (Src.meanwhile vm "> ".toList []) = .halt .fuel := by
  have h1 : Src.steps Demo.env restingProgram 1 (Src.start restingProgram restingVm) = .stop .stopped (Src.start restingProgram restingVm) := rfl
  obtain ⟨n1, v1, -, k1, -⟩ := C52_ends_partial (brk := fun _ => false) resting_ready (fun _ => rfl) h1 (by simp)
  have p1 := Src.Paused.run resting_ready h1 (k1 n1 (Nat.le_refl _))
  exact ⟨v1, _, p1, C52_cont_forever_partial p1 (fun _ => rfl) _ [] (fun k => resting_go _ k _ rfl (by show 0 < 3; decide))⟩

end LB
