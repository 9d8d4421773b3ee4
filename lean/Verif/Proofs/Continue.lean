import Verif.Proofs.Ready
import Verif.Spec.Continue
/- Ends of runs, and continuing after STOP. -/
namespace LB
open LB.Spec _root_.Spec

/-- The machine after STOP, before CONT. -/
structure Waits (I : Image) (c : Src.Config) (vm : VM) : Prop where
  base : Standing { I with out := vm.world.out } { c with out := [] } vm
  stack : vm.stack = []
  strstack : vm.strstack = []
  code : vm.stoppedProgram.code = some .stored
  line : vm.stoppedProgram.sourceLine = c.place.1
  here : ∃ ss tail, Tail I c.place ss tail ∧ I.code.drop vm.stoppedProgram.pc = .stop :: tail

theorem Image.Ok.reprint {I : Image} (h : I.Ok) (o : CStr) : ({ I with out := o } : Image).Ok := ⟨h.lines, h.found, h.missing, h.elses, h.fits, h.bcode, h.indexed⟩

theorem loops_reprint {I : Image} (o : CStr) {ls : List Src.Loop} {fs : List ForLoop} (h : Beside (LoopOk I) ls fs) : Beside (LoopOk { I with out := o }) ls fs := by
  induction h with
  | nil => exact .nil
  | cons a _ ih => exact .cons ⟨a.body, a.var, a.limit, a.step⟩ ih

/-- Only the text differs. -/
theorem Standing.reprint {I : Image} {c : Src.Config} {vm vm' : VM} (h : Standing I c vm) {o t i : CStr} {p : Src.Place} (hs : vm'.stored = vm.stored) (h2 : vm'.st = vm.st)
    (h3 : vm'.retstack = vm.retstack) (h4 : vm'.forStack = vm.forStack) (h5 : vm'.col = vm.col) (h7 : vm'.traceBasic = vm.traceBasic) (h8 : vm'.traceFor = vm.traceFor)
    (h9 : vm'.programData = vm.programData) (h11 : vm'.input = vm.input) (h12 : vm'.inputPrompt = vm.inputPrompt) (h13 : vm'.world.rng = vm.world.rng)
    (h14 : vm'.world.ticks = vm.world.ticks) (h15 : vm'.fn = vm.fn) (hi : vm'.world.stdin = i) (ho : vm'.world.out = o ++ t) :
    Standing { I with out := o } { c with place := p, out := t, stdin := i } vm' :=
  ⟨hs.trans h.stored, h2 ▸ h.named, h2 ▸ h.small, h2 ▸ h.grows, h2 ▸ h.tidy, by rw [h2, h15]; exact h.kinds,
    by rw [show ({ c with place := p, out := t, stdin := i } : Src.Config).toStore = c.toStore from rfl, ← h.store]; unfold storeOf; rw [h2, h13, h14],
    h3 ▸ h.calls, h4 ▸ loops_reprint o h.loops, by rw [h2, h4]; exact h.begun, h4 ▸ h.one, h5 ▸ h.col, h.width, ho, h7 ▸ h.traceBasic, h8 ▸ h.traceFor, h4 ▸ h.deep,
    by rw [h9]; exact h.io.data, hi, h11 ▸ h.io.line, by rw [h12]; exact h.io.mark⟩

/-- How the loop ends, and what `run` makes of it. -/
theorem matches_ends {env : Env} {brk : Nat → Bool} {I : Image} {u : VM} {src : Source} {c0 : Src.Config} (hI : I.Ok) (hm : Matches I c0 u) (hsrc : I.stored.source = some src)
    (hb : ∀ k, brk k = false) {k : Nat} {e : Src.Ending} {c : Src.Config} (hs : Src.steps env I.prog k c0 = .stop e c) (hu : e ≠ .unknown) :
    ∃ n0 m vm', (∀ n, n < n0 → vmLoop env brk n 0 u = .halt .fuel) ∧ (∀ n, n0 ≤ n → vmLoop env brk n 0 u = .ok (⟨e.error?, false⟩, m)) ∧
      recordStopped ⟨e.error?, false⟩ (runMessages ⟨e.error?, false⟩ m) = vm' ∧
      storeOf vm' = c.toStore ∧ vm'.world.stdin = c.stdin ∧
      (e ≠ .error .forTooDeep → vm'.world.out = I.out ++ c.out ++ e.message src.lines c.place) ∧ vm'.input = c.line ∧
      (vm'.stopped = true ↔ e = .stopped) ∧ (e = .stopped → Waits I c vm') := by
  have hM := (steps_mimic (env := env) hI k hm).2 e c hs (0, 0)
  have key : ∀ {n : Nat} {m vm' : VM}, Travels env u n m → (∀ j k, vmLoop env brk (j + 1) k m = .ok (⟨e.error?, false⟩, vm')) →
      (∀ i, i < n + 1 → vmLoop env brk i 0 u = .halt .fuel) ∧ (∀ i, n + 1 ≤ i → vmLoop env brk i 0 u = .ok (⟨e.error?, false⟩, vm')) := by
    intro n m vm' ht hl
    refine ⟨fun i hi => ?_, fun i hi => ?_⟩
    · rw [ht.fuel (fun i _ => hb i) (by omega)]
    · obtain ⟨j, rfl⟩ : ∃ j, i = n + (j + 1) := ⟨i - (n + 1), by omega⟩
      rw [ht.loop (fun i _ => hb _), hl]
  cases e with
  | finished =>
    obtain ⟨n, m, k1, k2, k3, k4, k5⟩ := hM
    obtain ⟨q1, q2⟩ := key k1 (fun j k => by rw [vmLoop_over hI k2 k4 (.inr (.inl k5)), hb]; rfl)
    refine ⟨n + 1, m, _, q1, q2, rfl, ?_⟩
    simp only [runMessages, k3, recordStopped, k4, Src.Ending.message, List.append_nil, Bool.false_eq_true, if_false, if_true, Bool.or_false]
    exact ⟨k2.store, k2.io.stdin, fun _ => k2.out, k2.io.line, by simp, fun h => by cases h⟩
  | stopped =>
    obtain ⟨n, m, k1, k2, k3, k4, k5, k6, k7, k8⟩ := hM
    obtain ⟨q1, q2⟩ := key k1 (fun j k => by rw [vmLoop_over hI k2 k4 (.inl k3), hb]; rfl)
    refine ⟨n + 1, m, _, q1, q2, rfl, ?_⟩
    have hp : ∀ i, printSourceLine (some src) i = src.lines[i]?.elim [] (fun l => Nat.toDigits 10 l.num ++ ' ' :: l.text) := by
      intro i
      simp only [printSourceLine]
      cases src.lines[i]? <;> rfl
    simp only [runMessages, k3, recordStopped, k4, Src.Ending.message, putOut, Option.bind_some, V.codeOf, k2.stored, hsrc, hp, k5,
      Bool.false_eq_true, if_false, if_true, Bool.true_or]
    refine ⟨k2.store, k2.io.stdin, fun _ => by rw [k2.out], k2.io.line, by simp, fun _ => ⟨?_, k6, k7, k4, k5, k8⟩⟩
    exact k2.reprint (p := c.place) (i := c.stdin) k2.stored.symm rfl rfl rfl rfl rfl rfl rfl rfl rfl rfl rfl rfl k2.io.stdin (List.append_nil _).symm
  | error er =>
    obtain ⟨n, m, vm', k1, k2, k3, k4⟩ := hM
    obtain ⟨q1, q2⟩ := key k1 (fun j k => vmLoop_err hb k2 k3)
    refine ⟨n + 1, vm', _, q1, q2, rfl, ?_⟩
    have hr : recordStopped ⟨some er, false⟩ (runMessages ⟨some er, false⟩ vm') = vm' ∨
        recordStopped ⟨some er, false⟩ (runMessages ⟨some er, false⟩ vm') = { vm' with stoppedProgram := clearCodeState } := by
      simp only [runMessages, k4.going, recordStopped, Bool.false_eq_true, if_false, Bool.or_false]
      split
      · exact .inr rfl
      · exact .inl rfl
    simp only [Src.Ending.message, List.append_nil, Src.Ending.error?]
    rcases hr with hr | hr <;> rw [hr] <;>
      exact ⟨k4.store, k4.stdin, fun hne => k4.out (fun h => hne (by rw [h])), k4.line, by simp [k4.going], fun h => by cases h⟩
  | unknown => exact absurd rfl hu

/-- CONT starts after the STOP. -/
theorem waits_continue {env : Env} {I : Image} {c : Src.Config} {vm : VM} (hI : I.Ok) (h : Waits I c vm) (o i : CStr) :
    ∃ u, Matches { I with out := vm.world.out ++ o } (Src.resume I.prog c i) u ∧ ∀ brk n, vmContinue env brk n (Src.meanwhile vm o i) =
      (match vmLoop env brk n 0 u with
      | .halt h => .halt h
      | .ok (e, vm') => .ok (some e, recordStopped e (runMessages e vm'))) := by
  obtain ⟨ss, tail, ht, hk⟩ := h.here
  obtain ⟨d, hd, _⟩ := hI.bcode
  obtain ⟨l, hl⟩ := ht.line
  have hst : vm.stored = I.stored := h.base.stored
  have hi : I.code[vm.stoppedProgram.pc]? = some .stop := by
    have := congrArg List.head? hk
    simpa [List.head?_drop] using this
  have ht' : Tail { I with out := vm.world.out ++ o } c.place ss tail := ⟨ht.line, ht.code⟩
  refine ⟨{ Src.meanwhile vm o i with cs := { vm.stoppedProgram with pc := vm.stoppedProgram.pc + 1 }, stopped := false },
    ht'.done ?_ (by simp only [Src.resume, hl, Option.elim]) h.stack h.strstack h.code h.line rfl (drop_next hk), fun brk n => ?_⟩
  · exact h.base.reprint (p := _) (i := i) (t := []) rfl rfl rfl rfl rfl rfl rfl rfl rfl rfl rfl rfl rfl rfl (List.append_nil _).symm
  · simp only [vmContinue, Src.meanwhile, h.code, V.codeOf, hst, hd, hi, isStop, if_true, run, Option.isNone_some, Bool.false_eq_true, if_false]
    generalize vmLoop env brk n 0 _ = x
    rcases x with ⟨e, vm'⟩ | x <;> rfl

/-- After RUN and any number of CONTs, each ended by STOP. -/
theorem paused_waits {env : Env} {brk : Nat → Bool} {src : Source} {prog : Src.Program} (hb : ∀ k, brk k = false) {vm : VM} {c : Src.Config} (h : Src.Paused env brk src prog vm c) :
    ∃ I : Image, I.Ok ∧ I.prog = prog ∧ I.stored.source = some src ∧ Waits I c vm := by
  induction h with
  | run hr hs hx =>
    rename_i vm vm' c k n
    obtain ⟨I, u, hI, rfl, _, hsrc, hm, hrun⟩ := ready_run (env := env) hr
    obtain ⟨n0, m, w, k1, k2, rfl, _, _, _, _, _, k3⟩ := matches_ends hI hm hsrc hb hs (by simp)
    refine ⟨I, hI, rfl, hsrc, ?_⟩
    rw [hrun] at hx
    rcases Nat.lt_or_ge n n0 with hn | hn
    · rw [k1 n hn] at hx; cases hx
    · rw [k2 n hn] at hx; cases hx; exact k3 rfl
  | cont _ hs hx ih =>
    rename_i vm vm' c c' o i k n _
    obtain ⟨I, hI, rfl, hsrc, hw⟩ := ih
    obtain ⟨u, hm, hrun⟩ := waits_continue (env := env) hI hw o i
    obtain ⟨n0, m, w, k1, k2, rfl, _, _, _, _, _, k3⟩ := matches_ends (hI.reprint _) hm hsrc hb hs (by simp)
    refine ⟨{ I with out := vm.world.out ++ o }, hI.reprint _, rfl, hsrc, ?_⟩
    rw [hrun] at hx
    rcases Nat.lt_or_ge n n0 with hn | hn
    · rw [k1 n hn] at hx; cases hx
    · rw [k2 n hn] at hx; cases hx; exact k3 rfl

end LB
