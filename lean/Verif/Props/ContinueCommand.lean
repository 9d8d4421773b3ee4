import Verif.Props.Continue
import Verif.Proofs.Dialogue
/-
C52: the line CONT in a session, after RUN stopped at a STOP.
-/
namespace LB
open LB.Spec _root_.Spec

/-- C52.  A line that says RUN, typed after a program that was not compiled yet, which comes to a STOP: the text up to the STOP
and the message are printed, and the program can be continued from there. -/
theorem C52_stop_command_partial {s : LB.Session} {src : Source} {prog : Src.Program} (hq : s.quit = false) (h : Src.Ready s.vm src prog)
    {line rest : List Char} (hl : SaysRun line) (hin : s.vm.world.stdin = line ++ '\n' :: rest)
    {env : Env} {k : Nat} {c : Src.Config} (hs : Src.steps env prog k (Src.start prog (afterPrompt s.vm rest)) = .stop .stopped c) :
    ∃ n0 s', (∀ ctx : Ctx, ctx.env = env → (∀ k, ctx.brk k = false) → (ctx.fuel < n0 → interactStep ctx s = .halt .fuel) ∧
        (n0 ≤ ctx.fuel → interactStep ctx s = .ok (some s'))) ∧
      s'.quit = false ∧ s'.files = s.files ∧ Src.Paused env (fun _ => false) src prog s'.vm c ∧
      s'.vm.world.stdin = c.stdin ∧ s'.vm.world.out = s.vm.world.out ++ "> ".toList ++ c.out ++ Src.Ending.stopped.message src.lines c.place := by
  have hr : Src.Ready (vmClearValues (afterPrompt s.vm rest)) src prog := ⟨h.stored, h.traceBasic, h.traceFor, h.ascending, h.lines, h.fits, h.small, h.apart⟩
  obtain ⟨n0, vm', k1, k2, k3, k4, k5, k6⟩ := C52_ends_partial (brk := fun _ => false) hr (fun _ => rfl) hs (by simp)
  refine ⟨n0, { s with vm := vm' }, fun ctx he hb => ⟨fun hf => ?_, fun hf => ?_⟩, hq, rfl, .run hr hs (k2 n0 (Nat.le_refl _)), k4, k5 (by simp)⟩
  · rw [interactStep_run ctx s hq hin hl, he, show ctx.brk = fun _ => false from funext hb, k1 _ hf]
  · rw [interactStep_run ctx s hq hin hl, he, show ctx.brk = fun _ => false from funext hb, k2 _ hf]

/-- C52.  The line CONT, when RUN and perhaps further lines CONT have come to a STOP: the statements after the STOP are performed, with
the input typed after CONT, and what they print is printed; if they come to a STOP, CONT can be typed again. -/
theorem C52_cont_command_partial {s : LB.Session} {src : Source} {prog : Src.Program} {env : Env} {c : Src.Config} (hq : s.quit = false)
    (h : Src.Paused env (fun _ => false) src prog s.vm c) {line tail rest : List Char} (h1 : SaysWord "CONT" line tail) (h2 : EndsWord tail)
    (hin : s.vm.world.stdin = line ++ '\n' :: rest) {k : Nat} {e : Src.Ending} {c' : Src.Config}
    (hs : Src.steps env prog k (Src.resume prog c rest) = .stop e c') (hu : e ≠ .unknown) :
    ∃ n0 s', (∀ ctx : Ctx, ctx.env = env → (∀ k, ctx.brk k = false) → (ctx.fuel < n0 → interactStep ctx s = .halt .fuel) ∧
        (n0 ≤ ctx.fuel → interactStep ctx s = .ok (some s'))) ∧
      s'.quit = false ∧ s'.files = s.files ∧ (e = .stopped → Src.Paused env (fun _ => false) src prog s'.vm c') ∧ storeOf s'.vm = c'.toStore ∧
      s'.vm.world.stdin = c'.stdin ∧ (e ≠ .error .forTooDeep → s'.vm.world.out = s.vm.world.out ++ "> ".toList ++ c'.out ++ e.message src.lines c'.place) := by
  obtain ⟨n0, vm', k1, k2, k3, k4, k5, k6⟩ := C52_cont_partial h (fun _ => rfl) "> ".toList rest hs hu
  have hx : ∀ ctx : Ctx, ctx.env = env → (∀ k, ctx.brk k = false) → interactStep ctx s =
      match vmContinue env (fun _ => false) ctx.fuel (Src.meanwhile s.vm "> ".toList rest) with
      | .halt h => .halt h
      | .ok (none, vm) => .ok (some ({ s with vm := vm }.error "Cannot continue".toList))
      | .ok (some _, vm) => .ok (some { s with vm := vm }) := by
    intro ctx he hb
    obtain ⟨q1, q2, q3⟩ := h1.1
    unfold interactStep
    rw [hq, hin, getLine_line _ _ rest q1 q2 q3]
    simp only [Bool.false_eq_true, if_false]
    rw [h1.command h2 (k := .cont) (by decide)]
    simp only [command, he, show ctx.brk = fun _ => false from funext hb]
    simp only [putOut, Src.meanwhile]
    generalize vmContinue env _ ctx.fuel _ = r
    rcases r with ⟨_ | _, _⟩ | _ <;> simp [hq]
  refine ⟨n0, { s with vm := vm' }, fun ctx he hb => ⟨fun hf => ?_, fun hf => ?_⟩, hq, rfl, fun hst => ?_, k3, k4, k5⟩
  · rw [hx ctx he hb, k1 _ hf]
  · rw [hx ctx he hb, k2 _ hf]
  · subst hst
    exact .cont h hs (k2 n0 (Nat.le_refl _))

/- ### Examples -/

namespace Demo

/-- The lines typed after the program. -/
def pausingSession : LB.Session := { vm := { pausingVm with world := { stdin := " Run 2\ncont\nlist".toList } }, files := fun _ => none, quit := false }

theorem pausing_session_ready : Src.Ready pausingSession.vm ⟨none, pausing⟩ pausingProgram :=
  ⟨pausing_ready.stored, rfl, rfl, pausing_ready.ascending, pausing_ready.lines, pausing_ready.fits, pausing_ready.small, pausing_ready.apart⟩

/-- The run and CONT end with STOP; CONT prints nothing. -/
noncomputable def pausedOnce : Bool :=
  match nextStop (Src.steps Demo.env pausingProgram 10 (Src.start pausingProgram (afterPrompt pausingSession.vm "cont\nlist".toList))) with
  | none => false
  | some c => decide (c.stdin = "cont\nlist".toList) && decide (c.out = []) && decide (c.place = (0, 1)) &&
    match nextStop (Src.steps Demo.env pausingProgram 10 (Src.resume pausingProgram c "list".toList)) with
    | none => false
    | some c' => decide (c'.stdin = "list".toList) && decide (c'.out = []) && decide (c'.place = (0, 1)) && decide (c'.nums ['I'] = .fin 2)

end Demo

open Demo in
example : ∃ n1 n2 s1 s2 c, (∀ ctx : Ctx, ctx.env = Demo.env → (∀ k, ctx.brk k = false) → n1 ≤ ctx.fuel → n2 ≤ ctx.fuel →
      interactStep ctx pausingSession = .ok (some s1) ∧ interactStep ctx s1 = .ok (some s2)) ∧
    Src.Paused Demo.env (fun _ => false) ⟨none, pausing⟩ pausingProgram s2.vm c ∧ numNamed s2.vm.st ['I'] = .fin 2 ∧ s2.vm.world.stdin = "list".toList ∧
    s2.vm.world.out = "> 10 FOR I=1 TO 2:STOP:NEXT I\nStopped\n> 10 FOR I=1 TO 2:STOP:NEXT I\nStopped\n".toList := by
  have hc : pausedOnce = true := by decide +kernel
  unfold pausedOnce at hc
  split at hc
  · cases hc
  rename_i c h1
  rw [Bool.and_eq_true] at hc
  obtain ⟨hc, hd⟩ := hc
  split at hd
  · cases hd
  rename_i c' h2
  simp only [Bool.and_eq_true, decide_eq_true_eq] at hc hd
  obtain ⟨n1, s1, k1, q1, -, p1, i1, o1⟩ := C52_stop_command_partial (s := pausingSession) rfl pausing_session_ready (line := " Run 2".toList) (rest := "cont\nlist".toList)
    Demo.saysRun rfl (of_nextStop h1)
  have hw : SaysWord "CONT" "cont".toList [] := ⟨by decide, [], "cont".toList, rfl, by simp [Blanks], by decide, by decide⟩
  obtain ⟨n2, s2, k2, -, -, p2, t2, i2, o2⟩ := C52_cont_command_partial q1 p1 hw (by intro c hc; cases hc) (rest := "list".toList) (by rw [i1, hc.1.1]; rfl) (of_nextStop h2) (by simp)
  refine ⟨n1, n2, s1, s2, c', fun ctx he hb f1 f2 => ⟨(k1 ctx he hb).2 f1, (k2 ctx he hb).2 f2⟩, p2 rfl, ?_, i2.trans hd.1.1.1, ?_⟩
  · rw [show numNamed s2.vm.st = c'.nums from congrArg Store.nums t2]; exact hd.2
  · rw [o2 (by simp), o1, hc.1.2, hc.2, hd.1.1.2, hd.1.2]; decide +kernel

end LB
