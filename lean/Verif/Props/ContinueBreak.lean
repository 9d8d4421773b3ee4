import Verif.Props.Continue
/-
C52: CONT after an interrupt at the beginning of a line.
-/
namespace LB
open LB.Spec _root_.Spec

/-- C52.  If RUN is interrupted when it is about to perform the first statement of a line, CONT goes on with that statement, with
everything as it was, whatever was printed and read meanwhile: it ends as performing the statements from there ends.
Missing: within a line a STOP that is about to be performed would be left out (`C52_break_skips`); as for `C52_ends_partial`. -/
theorem C52_break_partial {env : Env} {vm : VM} {src : Source} {prog : Src.Program} (h : Src.Ready vm src prog) {k : Nat} {c : Src.Config}
    (hs : Src.steps env prog k (Src.start prog vm) = .go c) (h0 : c.place.2 = 0) (hp : c.place.1 < prog.length) :
    ∃ n, ∀ brk : Nat → Bool, (∀ i, i < n → brk i = false) → brk n = true → ∃ vm', (∀ m, n < m → runProgram env brk m vm = .ok (some ⟨none, true⟩, vm')) ∧
      ∀ (o i : CStr) (brk' : Nat → Bool), (∀ k, brk' k = false) → ∀ {k' : Nat} {e : Src.Ending} {c' : Src.Config},
        Src.steps env prog k' { c with stdin := i, out := [] } = .stop e c' → e ≠ .unknown →
        ∃ n0 vm'', (∀ n, n < n0 → vmContinue env brk' n (Src.meanwhile vm' o i) = .halt .fuel) ∧
          (∀ n, n0 ≤ n → vmContinue env brk' n (Src.meanwhile vm' o i) = .ok (some ⟨e.error?, false⟩, vm'')) ∧
          storeOf vm'' = c'.toStore ∧ vm''.world.stdin = c'.stdin ∧
          (e ≠ .error .forTooDeep → vm''.world.out = vm.world.out ++ c.out ++ "Break\n".toList ++ o ++ c'.out ++ e.message src.lines c'.place) := by
  obtain ⟨I, u, hI, rfl, hout, hsrc, hm, hrun⟩ := ready_run (env := env) h
  obtain ⟨n, m, k1, k2⟩ := (steps_mimic (env := env) hI k hm).1 c hs
  refine ⟨n, fun brk hb hn => ?_⟩
  have hbr : brk (0 + n) = true := by rw [Nat.zero_add]; exact hn
  have hcode : m.cs.code = some .stored := by rcases k2.place with h | h <;> exact h.1
  refine ⟨recordStopped ⟨none, true⟩ (runMessages ⟨none, true⟩ m), fun i hi => ?_, fun o i brk' hb' k' e c' hs' hu => ?_⟩
  · obtain ⟨j, rfl⟩ : ∃ j, i = n + (j + 1) := ⟨i - (n + 1), by omega⟩
    rw [hrun, k1.loop (fun i hi => by rw [Nat.zero_add]; exact hb i hi), vmLoop_over hI k2.base hcode (.inr (.inr hbr)), hbr]
  · obtain ⟨x, hx, hns⟩ : ∃ x, I.code[m.cs.pc]? = some x ∧ isStop x = false := by
      rcases k2.place with ⟨_, q, _⟩ | ⟨_, _, ss, tail, prompt, vs, cd, _, _, _, q⟩
      · simp only [Stands, h0, if_true, Nat.add_zero] at q
        rw [List.drop_eq_getElem_cons hp] at q
        generalize hd : I.code.drop m.cs.pc = l at q
        generalize I.prog[c.place.1] = ln at q
        obtain ⟨n', ss'⟩ := ln
        cases q with
        | cons _ _ => exact ⟨_, by have := congrArg List.head? hd; simpa [List.head?_drop] using this, rfl⟩
      · exact ⟨_, by have := congrArg List.head? q; simpa [List.head?_drop] using this, rfl⟩
    obtain ⟨d, hd, _⟩ := hI.bcode
    let w : VM := recordStopped ⟨none, true⟩ (runMessages ⟨none, true⟩ m)
    have hw : w = { m with world := { m.world with out := m.world.out ++ "Break\n".toList }, stoppedProgram := m.cs } := by
      simp only [w, runMessages, recordStopped, hcode, putOut, if_true, Bool.or_true]
    have hwo : w.world.out = vm.world.out ++ c.out ++ "Break\n".toList := by rw [hw]; simp only [k2.base.out, hout]
    have hM : Matches { I with out := w.world.out ++ o } { c with stdin := i, out := [] } { Src.meanwhile w o i with cs := m.cs, stopped := false } := by
      refine ⟨?_, ?_, ?_, ?_, rfl⟩
      · refine k2.base.reprint (p := c.place) (i := i) (t := []) ?_ ?_ ?_ ?_ ?_ ?_ ?_ ?_ ?_ ?_ ?_ ?_ ?_ rfl (List.append_nil _).symm <;> (rw [hw]; rfl)
      · rw [hw]; exact k2.stack
      · rw [hw]; exact k2.strstack
      · rcases k2.place with q | ⟨q1, q2, ss, tail, prompt, vs, cd, t, q3⟩
        · exact .inl q
        · exact .inr ⟨q1, q2, ss, tail, prompt, vs, cd, ⟨t.line, t.code⟩, q3⟩
    have hcont : ∀ n, vmContinue env brk' n (Src.meanwhile w o i) =
        (match vmLoop env brk' n 0 { Src.meanwhile w o i with cs := m.cs, stopped := false } with
        | .halt h => .halt h
        | .ok (e, vm') => .ok (some e, recordStopped e (runMessages e vm'))) := by
      intro n
      rw [hw]
      simp only [vmContinue, Src.meanwhile, hcode, V.codeOf, k2.base.stored, hd, hx, hns, run, Option.isNone_some, Bool.false_eq_true, if_false]
      generalize vmLoop env brk' n 0 _ = r
      rcases r with ⟨e, vm'⟩ | r <;> rfl
    obtain ⟨n0, m', vm'', j1, j2, rfl, j3, j4, j5, _⟩ := matches_ends (hI.reprint _) hM hsrc hb' hs' hu
    exact ⟨n0, _, fun n hn => by rw [hcont, j1 n hn], fun n hn => by rw [hcont, j2 n hn], j3, j4, fun hne => by rw [j5 hne, hwo]⟩

namespace Demo

/-- The run of `pausing` interrupted just before the STOP, and CONT. -/
def skips : Bool :=
  match runProgram Demo.env (fun k => k == 5) 100 pausingVm with
  | .ok (some ⟨none, true⟩, vm') => decide (numNamed vm'.st ['I'] = .fin 1) && decide (vm'.stored.bcode.bind (fun b => b.inst[vm'.stoppedProgram.pc]?) = some .stop) &&
    match vmContinue Demo.env (fun _ => false) 100 vm' with
    | .ok (some ⟨none, false⟩, vm'') => decide (numNamed vm''.st ['I'] = .fin 2)
    | _ => false
  | _ => false

end Demo

/-- A STOP within a line that is about to be performed when the run is interrupted is left out by CONT: in `FOR I=1 TO 2:STOP:NEXT I`,
interrupted before the first STOP, CONT goes on to the second. -/
theorem C52_break_skips : ∃ vm' vm'', runProgram Demo.env (fun k => k == 5) 100 Demo.pausingVm = .ok (some ⟨none, true⟩, vm') ∧ numNamed vm'.st ['I'] = .fin 1 ∧
    vm'.stored.bcode.bind (fun b => b.inst[vm'.stoppedProgram.pc]?) = some .stop ∧
    vmContinue Demo.env (fun _ => false) 100 vm' = .ok (some ⟨none, false⟩, vm'') ∧ numNamed vm''.st ['I'] = .fin 2 := by
  have h : Demo.skips = true := by decide +kernel
  unfold Demo.skips at h
  split at h
  · rename_i vm' h1
    rw [Bool.and_eq_true, Bool.and_eq_true] at h
    obtain ⟨⟨h2, h3⟩, h4⟩ := h
    split at h4
    · rename_i vm'' h5
      exact ⟨vm', vm'', h1, of_decide_eq_true h2, of_decide_eq_true h3, h5, of_decide_eq_true h4⟩
    · cases h4
  · cases h

/- ### Example -/

namespace Demo

/-- The program `counting` has performed its first line; from there it comes to its STOP. -/
noncomputable def broken : Bool :=
  match Src.steps Demo.env countingProgram 1 (Src.start countingProgram countingVm) with
  | .go c => decide (c.place = (1, 0)) && decide (c.out = []) &&
    match nextStop (Src.steps Demo.env countingProgram 100 { c with stdin := [], out := [] }) with
    | some c' => decide (c'.place = (5, 0)) && decide (c'.nums ['a'] = .fin 4) && decide (c'.out = " 1      two 9   \nend\n".toList)
    | none => false
  | _ => false

end Demo

open Demo in
example : ∃ n, ∀ brk : Nat → Bool, (∀ i, i < n → brk i = false) → brk n = true → ∃ n0 vm' vm'', (∀ m, n < m → runProgram Demo.env brk m countingVm = .ok (some ⟨none, true⟩, vm')) ∧
    (∀ m, n0 ≤ m → vmContinue Demo.env (fun _ => false) m (Src.meanwhile vm' "> ".toList []) = .ok (some ⟨none, false⟩, vm'')) ∧ numNamed vm''.st ['a'] = .fin 4 ∧
    vm''.world.out = "Break\n>  1      two 9   \nend\n60 STOP\nStopped\n".toList := by
  have hc : broken = true := by decide +kernel
  unfold broken at hc
  split at hc
  · rename_i c h1
    rw [Bool.and_eq_true] at hc
    obtain ⟨hc, hd⟩ := hc
    split at hd
    · rename_i c' h2
      simp only [Bool.and_eq_true, decide_eq_true_eq] at hc hd
      obtain ⟨n, hn⟩ := C52_break_partial counting_ready h1 (by rw [hc.1]) (by rw [hc.1]; decide)
      refine ⟨n, fun brk b1 b2 => ?_⟩
      obtain ⟨vm', k1, k2⟩ := hn brk b1 b2
      obtain ⟨n0, vm'', -, j2, j3, -, j5⟩ := k2 "> ".toList [] (fun _ => false) (fun _ => rfl) (of_nextStop h2) (by simp)
      refine ⟨n0, vm', vm'', k1, j2, ?_, ?_⟩
      · rw [show numNamed vm''.st = c'.nums from congrArg Store.nums j3]; exact hd.1.2
      · rw [j5 (by simp), hc.2, hd.2, hd.1.1]; decide +kernel
    · cases hd
  · cases hc

end LB
