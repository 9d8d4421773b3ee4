import Verif.Proofs.Commands
/- Claims about CONT, RENUM and about changes of the stored program taking effect (C35, C36, C37, C38). -/
namespace LB
open LB.Spec _root_.Spec

/-- A session reached by typing, if typing that text ends as tested. -/
theorem Demo.reached {c : Ctx} {text : String} {P : LB.Session → Bool}
    (h : (match Demo.go c 100 (newSession false false false { stdin := text.toList } (fun _ => none)) with
      | .ok s => P s
      | .halt _ => false) = true) : ∃ s, Spec.Session s ∧ P s = true := by
  split at h
  · rename_i s hs
    exact ⟨s, Demo.go_session hs (.start ..), h⟩
  · simp at h

/-- C38.  As long as RENUM is not used, whatever else was typed: while statements run, the code of the stored program is
what the compiler makes of the lines as they are now, and jumps find the lines of this program. -/
theorem C38_code_current_partial {may : Cmd → VM → Prop} (hm : ∀ vm, ¬ may .renum vm) {ph : Phase} {vm : VM}
    (h : State may ph vm) (hr : ph ≠ .idle) : CodeIsCurrent vm := by
  have hc := state_current hm h
  intro src hs
  cases hb : vm.stored.bcode with
  | none => exact absurd hb (hc.running hr src hs)
  | some b =>
    obtain ⟨src', idx, st, h1, h2, h3, h4⟩ := hc.code b hb
    rw [hs] at h1
    cases h1
    exact ⟨b, idx, st, rfl, h2, h3, h4⟩

/-- C38, continued: between commands of a session without RENUM, there is no code or it belongs to the lines as they are
now. -/
theorem C38_between_commands_partial {may : Cmd → VM → Prop} (hm : ∀ vm, ¬ may .renum vm) {s : LB.Session}
    (h : SessionWhere may s) (hb : s.vm.stored.bcode ≠ none) : CodeIsCurrent s.vm := by
  have hc := state_current hm (sessionWhere_state h)
  intro src hs
  cases hb' : s.vm.stored.bcode with
  | none => exact absurd hb' hb
  | some b =>
    obtain ⟨src', idx, st, h1, h2, h3, h4⟩ := hc.code b hb'
    rw [hs] at h1
    cases h1
    exact ⟨b, idx, st, rfl, h2, h3, h4⟩

-- an edit takes effect
set_option maxRecDepth 100000 in
example : Demo.shows "10 PRINT \"A\"\nRUN\n10 PRINT \"B\"\nGOTO 10\n" = .ok "> > A\n> > B\n".toList := by decide +kernel

set_option maxRecDepth 100000 in
/-- C38 fails after RENUM: the only line is 100, and yet `GOTO 10` finds a line and runs it. -/
theorem C38_violated : ∃ s, Spec.Session s ∧ lines s.vm = [(100, "PRINT \"A\"".toList)] ∧
    ∃ s', interpret Demo.ctx s "GOTO 10".toList = .ok s' ∧ s'.vm.world.out = s.vm.world.out ++ "A\n".toList := by
  obtain ⟨s, hs, h⟩ := Demo.reached (c := Demo.ctx) (text := "10 PRINT \"A\"\nRUN\nRENUM 100\n")
    (P := fun s => lines s.vm == [(100, "PRINT \"A\"".toList)] &&
      match interpret Demo.ctx s "GOTO 10".toList with
      | .ok s' => s'.vm.world.out == s.vm.world.out ++ "A\n".toList
      | .halt _ => false) (by decide +kernel)
  simp only [Bool.and_eq_true, beq_iff_eq] at h
  refine ⟨s, hs, h.1, ?_⟩
  have h2 := h.2
  split at h2
  · rename_i s' hs'
    exact ⟨s', hs', by simpa using h2⟩
  · simp at h2

/-- C35.  When the program reaches a STOP, the run ends there, and CONT goes on right behind the STOP with everything
else as it was: variables, loops, pending returns, DATA position, values being worked on. -/
theorem C35_resume {vm : VM} (h : At vm .stop) (hc : vm.cs.code = some .stored) (hs : vm.stopped = false) (env : Env)
    (brk : Nat → Bool) (k : Nat) (h0 : brk k = false) (h1 : brk (k + 1) = false) (n : Nat) :
    ∃ text, ∃ w, w = { putOut vm text with stopped := true, stoppedProgram := vm.cs } ∧
      -- the run ends
      vmLoop env brk (n + 2) k vm = .ok (⟨none, false⟩, { vm with stopped := true }) ∧
      recordStopped ⟨none, false⟩ (runMessages ⟨none, false⟩ { vm with stopped := true }) = w ∧
      -- and CONT runs from behind the STOP
      ∀ env' brk' m, vmContinue env' brk' m w =
        (match run env' brk' m { w with cs := following vm.cs } with
          | .halt h => .halt h
          | .ok (e, vm') => .ok (some e, vm')) := by
  refine ⟨printSourceLine (vm.cs.code.bind (fun r => (V.codeOf vm r).source)) vm.cs.sourceLine ++
    "\nStopped\n".toList, _, rfl, vmLoop_stop h hs h0 h1, ?_, ?_⟩
  · simp only [runMessages, recordStopped, putOut, hc, if_true, Bool.false_eq_true, if_false, Bool.true_or]
    rfl
  · intro env' brk' m
    obtain ⟨r, b, hr, hb, hi⟩ := h
    rw [hc] at hr
    cases hr
    unfold vmContinue
    simp only [hc, putOut, V.codeOf]
    simp only [V.codeOf] at hb
    rw [hb]
    simp only [hi, isStop, if_true, following, hc]
    rfl

set_option maxRecDepth 100000 in
example : Demo.shows "10 FOR I=1 TO 2\n20 STOP\n30 PRINT I\n40 NEXT I\nRUN\nCONT\nCONT\nCONT\n" =
    .ok "> > > > > 20 STOP\nStopped\n>  1 \n20 STOP\nStopped\n>  2 \n> Cannot continue\n".toList := by decide +kernel

/-- C35.  After the program was edited, CONT is refused and changes nothing, whatever else was typed since then, unless a
program was stopped again. -/
theorem C35_refused_after_edit {may : Cmd → VM → Prop} {vm vm' : VM} (h : Edited may vm) (hs : Since vm vm') (env : Env)
    (brk : Nat → Bool) (n : Nat) : vmContinue env brk n vm' = .ok (none, vm') :=
  (since_noCont (edited_noCont h) hs).refused env brk n

set_option maxRecDepth 100000 in
example : Demo.shows "10 STOP\n20 PRINT \"B\"\nRUN\n20 PRINT \"C\"\nPRINT 1\nCONT\n" =
    .ok "> > > 10 STOP\nStopped\n> >  1 \n> Cannot continue\n".toList := by decide +kernel

set_option maxRecDepth 100000 in
/-- C35 fails for RENUM: the lines have changed since the STOP, and yet CONT is accepted. -/
theorem C35_renum_violated : ∃ s s' s'', Spec.Session s ∧ lines s.vm = [(10, "STOP".toList), (20, "PRINT \"B\"".toList)] ∧
    s.vm.stoppedProgram.code = some .stored ∧
    interpret Demo.ctx s "RENUM 100".toList = .ok s' ∧
    lines s'.vm = [(100, "STOP".toList), (110, "PRINT \"B\"".toList)] ∧
    interpret Demo.ctx s' "CONT".toList = .ok s'' ∧ s''.vm.world.out = s'.vm.world.out ++ "B\n".toList := by
  obtain ⟨s, hs, h⟩ := Demo.reached (c := Demo.ctx) (text := "10 STOP\n20 PRINT \"B\"\nRUN\n")
    (P := fun s => lines s.vm == [(10, "STOP".toList), (20, "PRINT \"B\"".toList)] &&
      s.vm.stoppedProgram.code == some .stored &&
      match interpret Demo.ctx s "RENUM 100".toList with
      | .ok s' =>
        lines s'.vm == [(100, "STOP".toList), (110, "PRINT \"B\"".toList)] &&
        match interpret Demo.ctx s' "CONT".toList with
        | .ok s'' => s''.vm.world.out == s'.vm.world.out ++ "B\n".toList
        | .halt _ => false
      | .halt _ => false) (by decide +kernel)
  simp only [Bool.and_eq_true, beq_iff_eq] at h
  obtain ⟨⟨h1, h2⟩, h3⟩ := h
  split at h3
  · rename_i s' hs'
    simp only [Bool.and_eq_true, beq_iff_eq] at h3
    obtain ⟨h4, h5⟩ := h3
    split at h5
    · rename_i s'' hs''
      exact ⟨s, s', s'', hs, h1, h2, hs', h4, hs'', by simpa using h5⟩
    · simp at h5
  · simp at h3

/-- C35.  When an interrupt stopped the program before its end, CONT goes on exactly where it was interrupted (or behind
the STOP), without looking outside the program. -/
theorem C35_after_break_partial {vm : VM} {b : Bcode} (hc : vm.cs.code = some .stored) (hb : vm.stored.bcode = some b)
    (hin : vm.cs.pc < b.used) :
    ∃ w, recordStopped ⟨none, true⟩ (runMessages ⟨none, true⟩ vm) = w ∧
      w = { putOut vm "Break\n".toList with stoppedProgram := vm.cs } ∧
      ∀ env brk m, vmContinue env brk m w =
        (match run env brk m { w with cs := if b.inst[vm.cs.pc]? = some .stop then following vm.cs else vm.cs } with
          | .halt h => .halt h
          | .ok (e, vm') => .ok (some e, vm')) := by
  refine ⟨_, rfl, ?_, ?_⟩
  · simp only [runMessages, recordStopped, putOut, hc, if_true, Bool.or_true]
  · intro env brk m
    have hi : b.inst[vm.cs.pc]? = some b.inst[vm.cs.pc] := List.getElem?_eq_getElem hin
    simp only [runMessages, recordStopped, putOut, hc, if_true, Bool.or_true, vmContinue, V.codeOf, hb, hi]
    have : (isStop b.inst[vm.cs.pc] = true) = (some b.inst[vm.cs.pc] = some Inst.stop) := by
      cases b.inst[vm.cs.pc] <;> simp [isStop]
    simp only [this, following, hc]
    rfl

/-- C35 fails when the interrupt arrives after the last statement was done: CONT looks at the instruction behind the end
of the program. -/
theorem C35_violated : ∃ s, Spec.Session s ∧
    interpret Demo.ctx s "CONT".toList = .halt (.outOfBounds "vm_continue") := by
  obtain ⟨s, hs, h⟩ := Demo.reached (c := { Demo.ctx with brk := fun j => j == 4 }) (text := "10 PRINT 1\nRUN\n")
    (P := fun s => match interpret Demo.ctx s "CONT".toList with
      | .ok _ => false
      | .halt h => h == .outOfBounds "vm_continue") (by decide +kernel)
  refine ⟨s, hs, ?_⟩
  split at h
  · simp at h
  · rename_i hh
    rw [hh]
    simpa using h

/-- C36.  If the new numbers are above those that stay, and fit 32 bits, then after RENUM the lines below `old` have
their numbers, the others have the numbers `new`, `new + inc`, …, and the program is in ascending order.
Missing: RENUM also accepts a new number equal to the number of the line before, see `C36_violated`. -/
theorem C36_renum_partial {vm vm' : VM} {new old inc : Nat} (hs : Ascending ((lines vm).map (·.1)))
    (hn : ∀ n ∈ (lines vm).map (·.1), n < old → n < new) (hinc : 1 ≤ inc)
    (hw : new + inc * (((lines vm).map (·.1)).filter (old ≤ ·)).length < 2 ^ 32 + inc)
    (h : renumber vm new old inc = .ok vm') :
    (lines vm').map (·.1) = renumbered new old inc ((lines vm).map (·.1)) ∧ Ascending ((lines vm').map (·.1)) := by
  have := renumber_nums hs hn hinc hw h
  exact ⟨this, this ▸ renumbered_ascending hs hn hinc⟩

set_option maxRecDepth 100000 in
example : Demo.shows "5 REM\n10 REM\n20 REM\nRENUM 100,10,5\nLIST\n" =
    .ok "> > > > > 5 REM\n100 REM\n105 REM\n".toList := by decide +kernel

example : renumbered 100 10 5 [5, 10, 20] = [5, 100, 105] := by decide

/-- C36.  If a line that stays has a number above the first new number, RENUM changes no line. -/
theorem C36_refused {vm vm' : VM} {new old inc : Nat} (hs : Ascending ((lines vm).map (·.1)))
    (hn : ∃ n ∈ (lines vm).map (·.1), n < old ∧ new < n) (h : renumber vm new old inc = .ok vm')
    (ha : ∃ n ∈ (lines vm).map (·.1), old ≤ n) : lines vm' = lines vm := by
  unfold renumber at h
  split at h
  · simp only [Outcome.ok.injEq] at h; subst h; rfl
  · rename_i src hsrc
    rw [lines_nums hsrc] at hs hn ha
    obtain ⟨n, h1, h2, h3⟩ := hn
    split at h
    · simp at h
    · rename_i hl
      have := (renumLoop_refused hs (.inr ⟨n, h1, h2, h3⟩) ha (fun _ _ => Nat.zero_le _) hl).1
      simp only [Outcome.ok.injEq] at h
      subst h
      simp [lines, putOut, this, hsrc]
    · rename_i hl
      have := (renumLoop_refused hs (.inr ⟨n, h1, h2, h3⟩) ha (fun _ _ => Nat.zero_le _) hl).2
      simp at this

set_option maxRecDepth 100000 in
/-- C36 fails when the first new number equals the number of the line before: two lines with the same number. -/
theorem C36_violated : ∃ s, Spec.Session s ∧
    lines s.vm = [(10, "PRINT \"A\"".toList), (10, "PRINT \"B\"".toList)] := by
  obtain ⟨s, hs, h⟩ := Demo.reached (c := Demo.ctx) (text := "10 PRINT \"A\"\n20 PRINT \"B\"\nRENUM 10,20\n")
    (P := fun s => lines s.vm == [(10, "PRINT \"A\"".toList), (10, "PRINT \"B\"".toList)]) (by decide +kernel)
  exact ⟨s, hs, by simpa using h⟩

set_option maxRecDepth 100000 in
/-- C37 fails for the lists of ON: only the first number is changed; line 20 is now line 110. -/
theorem C37_on_violated : ∃ s s', Spec.Session s ∧
    lines s.vm = [(10, "ON X GOTO 20,20".toList), (20, "PRINT \"B\"".toList)] ∧
    interpret Demo.ctx s "RENUM 100".toList = .ok s' ∧
    lines s'.vm = [(100, "ON X GOTO 110,20".toList), (110, "PRINT \"B\"".toList)] := by
  obtain ⟨s, hs, h⟩ := Demo.reached (c := Demo.ctx) (text := "10 ON X GOTO 20,20\n20 PRINT \"B\"\n")
    (P := fun s => lines s.vm == [(10, "ON X GOTO 20,20".toList), (20, "PRINT \"B\"".toList)] &&
      match interpret Demo.ctx s "RENUM 100".toList with
      | .ok s' => lines s'.vm == [(100, "ON X GOTO 110,20".toList), (110, "PRINT \"B\"".toList)]
      | .halt _ => false) (by decide +kernel)
  simp only [Bool.and_eq_true, beq_iff_eq] at h
  obtain ⟨h1, h2⟩ := h
  split at h2
  · rename_i s' hs'
    exact ⟨s, s', hs, h1, hs', by simpa using h2⟩
  · simp at h2

set_option maxRecDepth 100000 in
/-- C37 fails for comments: text that is no reference is changed. -/
theorem C37_comment_violated : ∃ s s', Spec.Session s ∧
    lines s.vm = [(10, "REM GOTO 20".toList), (20, "PRINT \"B\"".toList)] ∧
    interpret Demo.ctx s "RENUM 100".toList = .ok s' ∧
    lines s'.vm = [(100, "REM GOTO 110".toList), (110, "PRINT \"B\"".toList)] := by
  obtain ⟨s, hs, h⟩ := Demo.reached (c := Demo.ctx) (text := "10 REM GOTO 20\n20 PRINT \"B\"\n")
    (P := fun s => lines s.vm == [(10, "REM GOTO 20".toList), (20, "PRINT \"B\"".toList)] &&
      match interpret Demo.ctx s "RENUM 100".toList with
      | .ok s' => lines s'.vm == [(100, "REM GOTO 110".toList), (110, "PRINT \"B\"".toList)]
      | .halt _ => false) (by decide +kernel)
  simp only [Bool.and_eq_true, beq_iff_eq] at h
  obtain ⟨h1, h2⟩ := h
  split at h2
  · rename_i s' hs'
    exact ⟨s, s', hs, h1, hs', by simpa using h2⟩
  · simp at h2

end LB
