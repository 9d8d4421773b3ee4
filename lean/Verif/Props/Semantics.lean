import Verif.Proofs.Continue
import Verif.Proofs.DemoSpell
import Verif.Proofs.DemoState
/-
C52: running a program does what its statements mean, one after the other.
-/
namespace LB
open LB.Spec _root_.Spec

/-- C52.  If performing the statements of a stored program one after the other leads to an end, then RUN ends, after the
same number of instructions whatever the bound, in the same way (normally, by STOP, or with the same error), with the
same values of all variables and elements of arrays, the same state of the random number generator, and having read the
same part of the input and printed the same text, followed by the message about STOP.  (After the error that loops are
nested too deeply the nested loops are listed as well.  Nothing is said about the end `unknown`, which only CLEAR inside a
loop, a subscript 4294967295 and a generator that never gives a random number below 1 lead to.) -/
theorem C52_ends_partial {env : Env} {brk : Nat → Bool} {vm : VM} {src : Source} {prog : Src.Program} (h : Src.Ready vm src prog) (hb : ∀ k, brk k = false)
    {k : Nat} {e : Src.Ending} {c : Src.Config} (hs : Src.steps env prog k (Src.start prog vm) = .stop e c) (hu : e ≠ .unknown) :
    ∃ n0 vm', (∀ n, n < n0 → runProgram env brk n vm = .halt .fuel) ∧
      (∀ n, n0 ≤ n → runProgram env brk n vm = .ok (some ⟨e.error?, false⟩, vm')) ∧
      storeOf vm' = c.toStore ∧ vm'.world.stdin = c.stdin ∧
      (e ≠ .error .forTooDeep → vm'.world.out = vm.world.out ++ c.out ++ e.message src.lines c.place) ∧ vm'.input = c.line ∧
      (vm'.stopped = true ↔ e = .stopped) := by
  obtain ⟨I, u, hI, rfl, hout, hsrc, hm, hrun⟩ := ready_run (env := env) h
  obtain ⟨n0, m, vm', k1, k2, rfl, k3, k4, k5, k6, k7, _⟩ := matches_ends hI hm hsrc hb hs hu
  exact ⟨n0, _, fun n hn => by rw [hrun, k1 n hn], fun n hn => by rw [hrun, k2 n hn], k3, k4, fun hne => by rw [k5 hne, hout], k6, k7⟩

/-- C52.  If the statements of a stored program can be performed for ever, RUN never ends. -/
theorem C52_forever_partial {env : Env} {brk : Nat → Bool} {vm : VM} {src : Source} {prog : Src.Program} (h : Src.Ready vm src prog) (hb : ∀ k, brk k = false)
    (hs : ∀ k, ∃ c, Src.steps env prog k (Src.start prog vm) = .go c) (n : Nat) : runProgram env brk n vm = .halt .fuel := by
  obtain ⟨I, u, hI, rfl, _, _, hm, hrun⟩ := ready_run (env := env) h
  obtain ⟨m, vm', h1, h2⟩ := steps_forever hI n hm hs
  rw [hrun, h2.fuel (fun i _ => hb i) h1]

/-- C52.  Every situation that a program reaches statement by statement is also reached by RUN: an interrupt at the
right moment ends the run with exactly the variables, the arrays and the text of that situation. -/
theorem C52_passes_partial {env : Env} {vm : VM} {src : Source} {prog : Src.Program} (h : Src.Ready vm src prog) {k : Nat} {c : Src.Config}
    (hs : Src.steps env prog k (Src.start prog vm) = .go c) :
    ∃ n, ∀ brk : Nat → Bool, (∀ i, i < n → brk i = false) → brk n = true → ∃ vm', (∀ m, n < m → runProgram env brk m vm = .ok (some ⟨none, true⟩, vm')) ∧
      storeOf vm' = c.toStore ∧ vm'.world.out = vm.world.out ++ c.out ++ "Break\n".toList := by
  obtain ⟨I, u, hI, rfl, hout, _, hm, hrun⟩ := ready_run (env := env) h
  obtain ⟨n, m, k1, k2⟩ := (steps_mimic (env := env) hI k hm).1 c hs
  refine ⟨n, fun brk hb hn => ?_⟩
  have hbr : brk (0 + n) = true := by rw [Nat.zero_add]; exact hn
  have hcode : m.cs.code = some .stored := by rcases k2.place with h | h <;> exact h.1
  refine ⟨recordStopped ⟨none, true⟩ (runMessages ⟨none, true⟩ m), fun i hi => ?_, ?_⟩
  · obtain ⟨j, rfl⟩ : ∃ j, i = n + (j + 1) := ⟨i - (n + 1), by omega⟩
    rw [hrun, k1.loop (fun i hi => by rw [Nat.zero_add]; exact hb i hi), vmLoop_over hI k2.base hcode (.inr (.inr hbr)), hbr]
  · simp only [runMessages, recordStopped, hcode, putOut, if_true, Bool.or_true]
    exact ⟨k2.base.store, by rw [k2.base.out, hout]⟩

/-- C52.  RUN ends exactly if the statements, performed one after the other, come to an end; otherwise it runs for ever,
and in no case does anything undefined happen.  (The end `unknown` is not to be reached, see above.) -/
theorem C52_exactly_partial {env : Env} {brk : Nat → Bool} {vm : VM} {src : Source} {prog : Src.Program} (h : Src.Ready vm src prog) (hb : ∀ k, brk k = false)
    (hu : ∀ k c, Src.steps env prog k (Src.start prog vm) ≠ .stop .unknown c) :
    ((∃ n r, runProgram env brk n vm = .ok r) ↔ ∃ k e c, Src.steps env prog k (Src.start prog vm) = .stop e c) ∧
    ∀ n x, runProgram env brk n vm = .halt x → x = .fuel := by
  by_cases hs : ∃ k e c, Src.steps env prog k (Src.start prog vm) = .stop e c
  · obtain ⟨k, e, c, hk⟩ := hs
    obtain ⟨n0, vm', h1, h2, _⟩ := C52_ends_partial h hb hk (fun he => hu k c (he ▸ hk))
    refine ⟨⟨fun _ => ⟨k, e, c, hk⟩, fun _ => ⟨n0, _, h2 n0 (Nat.le_refl _)⟩⟩, fun n x hx => ?_⟩
    rcases Nat.lt_or_ge n n0 with hn | hn
    · rw [h1 n hn] at hx; cases hx; rfl
    · rw [h2 n hn] at hx; cases hx
  · have hall : ∀ k, ∃ c, Src.steps env prog k (Src.start prog vm) = .go c := by
      intro k
      cases hk : Src.steps env prog k (Src.start prog vm) with
      | go c => exact ⟨c, rfl⟩
      | stop e c => exact absurd ⟨k, e, c, hk⟩ hs
    have hf := C52_forever_partial h hb hall
    refine ⟨⟨fun ⟨n, r, hn⟩ => ?_, fun hs' => absurd hs' hs⟩, fun n x hx => ?_⟩
    · rw [hf n] at hn; cases hn
    · rw [hf n] at hx; cases hx; rfl

/- ### Examples -/

namespace Demo

theorem orNum (x : Dbl) : Phrase .or [.num x] (.num x) := .conj (.not (.rel (.sum (.mult (.neg (.power (.primary .num)))))))

theorem orVar {w : CStr} (h1 : builtin w = none) (h2 : w.getLast? ≠ some '$') : Phrase .or [.name w] (.numVar w) :=
  .conj (.not (.rel (.sum (.mult (.neg (.power (.primary (.numVar h1 h2))))))))

theorem orStr (s : CStr) : Phrase .or [.str s] (.str s) := .conj (.not (.rel (.sum (.mult (.neg (.power (.primary .str)))))))

theorem addVar {w : CStr} (h1 : builtin w = none) (h2 : w.getLast? ≠ some '$') : Phrase .add [.name w] (.numVar w) :=
  .mult (.neg (.power (.primary (.numVar h1 h2))))

/-- The program of the example. -/
def counting : List SrcLine :=
  [⟨10, "FOR I=1 TO 3".toList⟩, ⟨20, "IF I=2 THEN PRINT \"two\";:GOTO 40 ELSE GOSUB 70".toList⟩, ⟨30, "PRINT I*I,".toList⟩, ⟨40, "NEXT I".toList⟩,
    ⟨50, "PRINT:LET S$=\"end\":PRINT S$".toList⟩, ⟨60, "STOP".toList⟩, ⟨70, "A=A+I:RETURN:REM sum".toList⟩]

/-- The same program as statements. -/
def countingProgram : Src.Program :=
  [(10, [.for_ ['I'] (.num (.fin 1)) (.num (.fin 3)) (.num (.fin 1))]),
    (20, [.ifElse (.cmp .eq (.numVar ['I']) (.num (.fin 2))), .print [.value (.str "two".toList), .semicolon], .goto 40, .else_, .gosub 70]),
    (30, [.print [.value (.arith .mul (.numVar ['I']) (.numVar ['I'])), .comma]]),
    (40, [.next ['I']]),
    (50, [.print [], .letStr ['S', '$'] (.str "end".toList), .print [.value (.strVar ['S', '$'])]]),
    (60, [.stop]),
    (70, [.letNum ['A'] (.arith .add (.numVar ['A']) (.numVar ['I'])), .ret])]

theorem counting_lines : Src.Lines counting countingProgram := by
  have hI : builtin ['I'] = none := by decide +kernel
  have hA : builtin ['A'] = none := by decide +kernel
  have hS : builtin ['S', '$'] = none := by decide +kernel
  refine .cons ⟨[Src.kw .FOR, .name ['I'], opTok '=', .num (.fin 1), Src.kw .TO, .num (.fin 3)] ++ [opTok '\n'], [], split_spec 40 (by decide +kernel), ?_⟩
    (.cons ⟨Src.kw .IF :: ([.name ['I'], opTok '=', .num (.fin 2)] ++ Src.kw .THEN ::
      (([Src.kw .PRINT, .str "two".toList, opTok ';'] ++ opTok ':' :: [Src.kw .GOTO, Src.lineNo 40]) ++ Src.kw .ELSE :: ([Src.kw .GOSUB, Src.lineNo 70] ++ [opTok '\n']))), [],
      split_spec 40 (by decide +kernel), ?_⟩
    (.cons ⟨[Src.kw .PRINT, .name ['I'], opTok '*', .name ['I'], opTok ','] ++ [opTok '\n'], [], split_spec 40 (by decide +kernel), ?_⟩
    (.cons ⟨[Src.kw .NEXT, .name ['I']] ++ [opTok '\n'], [], split_spec 40 (by decide +kernel), ?_⟩
    (.cons ⟨[Src.kw .PRINT] ++ opTok ':' :: ([Src.kw .LET, .name ['S', '$'], opTok '=', .str "end".toList] ++ opTok ':' :: ([Src.kw .PRINT, .name ['S', '$']] ++ [opTok '\n'])), [],
      split_spec 40 (by decide +kernel), ?_⟩
    (.cons ⟨[Src.kw .STOP] ++ [opTok '\n'], [], split_spec 40 (by decide +kernel), ?_⟩
    (.cons ⟨[.name ['A'], opTok '=', .name ['A'], opTok '+', .name ['I']] ++ opTok ':' :: ([Src.kw .RETURN] ++ opTok ':' :: [Src.kw .REM]), " sum".toList,
      split_spec 40 (by decide +kernel), ?_⟩ .nil))))))
  · exact .last (.simple (.for_ (l := [.num (.fin 1)]) hI (by decide) (orNum _) (orNum _)))
  · exact .ifElse (.conj (.not (.rel (.cmp (l := [.name ['I']]) (l' := [.num (.fin 2)]) (r := .eq) (addVar hI (by decide)) (.mult (.neg (.power (.primary .num))))))))
      (.colon (.print (.value (l := [.str "two".toList]) (orStr _) (by intro w hw; cases hw) (by intro a ha; cases ha; decide) (.semicolon .nil))) (.last (.goto (by decide) (by decide)) (by decide)))
      (.last (.simple (.gosub (by decide) (by decide))))
  · exact .last (.simple (.print (.value (l := [.name ['I'], opTok '*', .name ['I']])
      (.conj (.not (.rel (.sum (.mult (.mul (l := [.name ['I']]) (.neg (.power (.primary (.numVar hI (by decide))))) (.power (.primary (.numVar hI (by decide)))))))))) 
      (by intro w hw; cases hw; decide +kernel) (by intro a ha; cases ha; decide) (.comma .nil))))
  · exact .last (.simple (.next (.one hI (by decide))))
  · exact .colon (.simple (.print .nil)) (.colon (.simple (.letKw (.str hS rfl (orStr _))))
      (.last (.simple (.print (.value (l := [.name ['S', '$']]) (l' := []) (.conj (.not (.rel (.sum (.mult (.neg (.power (.primary (.strVar hS rfl)))))))))
        (by intro w hw; cases hw; decide +kernel) (by intro a ha; cases ha) .nil)))))
  · exact .last (.simple .stop)
  · exact .colon (.simple (.assign (.num hA (by decide)
      (.conj (.not (.rel (.sum (.add (l := [.name ['A']]) (addVar hA (by decide)) (.neg (.power (.primary (.numVar hI (by decide)))))))))))))
      (.colon (.simple .ret) .rem)

/-- The machine with the lines entered. -/
def countingVm : VM := { newVm false false false {} with stored := ⟨some ⟨none, counting⟩, none, none⟩ }

theorem counting_entered : entered [(10, "FOR I=1 TO 3"), (20, "IF I=2 THEN PRINT \"two\";:GOTO 40 ELSE GOSUB 70"), (30, "PRINT I*I,"), (40, "NEXT I"),
    (50, "PRINT:LET S$=\"end\":PRINT S$"), (60, "STOP"), (70, "A=A+I:RETURN:REM sum")] (some (newVm false false false {})) = some countingVm := by rfl

theorem counting_ready : Src.Ready countingVm ⟨none, counting⟩ countingProgram where
  stored := rfl
  traceBasic := rfl
  traceFor := rfl
  ascending := by decide
  lines := counting_lines
  fits := by
    have hr : countingProgram.room = (0, 0) := by decide +kernel
    simp only [Src.Program.Fits, hr]
    simp only [countingProgram, List.forall_mem_cons, Src.Stmt.Fits, Src.Item.Fits, Src.Fits]
    simp [Expr.nums, Expr.strs]
  small := by decide +kernel
  apart := fun f hf => absurd (show f ∈ ([] : List CStr) from hf) (by simp)

/-- What the run of the example comes to. -/
def counted : Src.Next → Bool
  | .stop .stopped c => decide (c.place = (5, 0)) && decide (c.nums ['a'] = .fin 4) && decide (c.nums ['I'] = .fin 3) && decide (c.strs ['s', '$'] = "end".toList) &&
      decide (c.out = " 1      two 9   \nend\n".toList)
  | _ => false

/-- A loop that never ends, counting. -/
def endless : List SrcLine := [⟨10, "LET N = N + 1 : ? N ; : GOTO 10".toList⟩]

/-- The same as statements. -/
def endlessProgram : Src.Program :=
  [(10, [.letNum ['N'] (.arith .add (.numVar ['N']) (.num (.fin 1))), .print [.value (.numVar ['N']), .semicolon], .goto 10])]

theorem endless_lines : Src.Lines endless endlessProgram := by
  have hN : builtin ['N'] = none := by decide +kernel
  refine .cons ⟨[Src.kw .LET, .name ['N'], opTok '=', .name ['N'], opTok '+', .num (.fin 1)] ++ opTok ':' :: ([opTok '?', .name ['N'], opTok ';'] ++ opTok ':' ::
    ([Src.kw .GOTO, Src.lineNo 10] ++ [opTok '\n'])), [], split_spec 40 (by decide +kernel), ?_⟩ .nil
  exact .colon (.simple (.letKw (.num hN (by decide)
      (.conj (.not (.rel (.sum (.add (l := [.name ['N']]) (addVar hN (by decide)) (.neg (.power (.primary .num)))))))))))
    (.colon (.simple (.query (.value (l := [.name ['N']]) (orVar hN (by decide)) (by intro w hw; cases hw; decide +kernel) (by intro a ha; cases ha; decide) (.semicolon .nil))))
    (.last (.simple (.goto (by decide) (by decide)))))

theorem endless_ready (w : World) : Src.Ready { newVm false false false w with stored := ⟨some ⟨none, endless⟩, none, none⟩ } ⟨none, endless⟩ endlessProgram where
  stored := rfl
  traceBasic := rfl
  traceFor := rfl
  ascending := by decide
  lines := endless_lines
  fits := by
    have hr : endlessProgram.room = (0, 0) := by decide +kernel
    simp only [Src.Program.Fits, hr]
    simp only [endlessProgram, List.forall_mem_cons, Src.Stmt.Fits, Src.Item.Fits, Src.Fits]
    simp [Expr.nums, Expr.strs]
  small := by decide +kernel
  apart := fun f hf => absurd (show f ∈ ([] : List CStr) from hf) (by simp)

/-- The endless program keeps going: the first statement always has a value. -/
theorem endless_go (env : Env) : ∀ k c, c.place.1 = 0 → c.place.2 < 3 → ∃ c', Src.steps env endlessProgram k c = .go c' := by
  intro k
  induction k with
  | zero => intro c _ _; exact ⟨c, rfl⟩
  | succ k ih =>
    intro c h1 h2
    obtain ⟨s, ⟨i, j⟩, calls, loops, col, out, data, stdin, line, mark, fns⟩ := c
    simp only at h1 h2
    subst h1
    rcases (by omega : j = 0 ∨ j = 1 ∨ j = 2) with rfl | rfl | rfl
    · exact ih _ rfl (show 1 < 3 by decide)
    · exact ih _ rfl (show 2 < 3 by decide)
    · exact ih _ rfl (show 0 < 3 by decide)

/-- A program with DATA, READ, INPUT and ON. -/
def asking : List SrcLine :=
  [⟨10, "READ N,A$".toList⟩, ⟨20, "INPUT \"how many\";K:ON K GOTO 40,50".toList⟩, ⟨30, "END".toList⟩, ⟨40, "PRINT A$:END".toList⟩, ⟨50, "LINE INPUT L$:PRINT N*K;L$:RESTORE 60:READ B$".toList⟩,
    ⟨60, "DATA 3 , \"x,y\"".toList⟩]

/-- The same as statements. -/
def askingProgram : Src.Program :=
  [(10, [.read (.num ['N']), .read (.str ['A', '$'])]),
    (20, [.input (some "how many".toList) [.var (.num ['K'])], .on false (.numVar ['K']) [40, 50]]),
    (30, [.end_]),
    (40, [.print [.value (.strVar ['A', '$'])], .end_]),
    (50, [.lineInput none ['L', '$'], .print [.value (.arith .mul (.numVar ['N']) (.numVar ['K'])), .semicolon, .value (.strVar ['L', '$'])], .restoreLine 60, .read (.str ['B', '$'])]),
    (60, [.data ["3".toList, "x,y".toList]])]

theorem asking_lines : Src.Lines asking askingProgram := by
  have hN : builtin ['N'] = none := by decide +kernel
  have hK : builtin ['K'] = none := by decide +kernel
  have hA : builtin ['A', '$'] = none := by decide +kernel
  have hB : builtin ['B', '$'] = none := by decide +kernel
  have hL : builtin ['L', '$'] = none := by decide +kernel
  refine .cons ⟨[Src.kw .READ, .name ['N'], opTok ',', .name ['A', '$']] ++ [opTok '\n'], [], split_spec 40 (by decide +kernel), ?_⟩
    (.cons ⟨(Src.kw .INPUT :: ([.str "how many".toList, opTok ';'] ++ [.name ['K']])) ++ opTok ':' :: ((Src.kw .ON :: ([.name ['K']] ++ Src.kw .GOTO :: [Src.lineNo 40, opTok ',', Src.lineNo 50])) ++ [opTok '\n']), [],
      split_spec 40 (by decide +kernel), ?_⟩
    (.cons ⟨[Src.kw .END] ++ [opTok '\n'], [], split_spec 40 (by decide +kernel), ?_⟩
    (.cons ⟨[Src.kw .PRINT, .name ['A', '$']] ++ opTok ':' :: ([Src.kw .END] ++ [opTok '\n']), [], split_spec 40 (by decide +kernel), ?_⟩
    (.cons ⟨(Src.kw .LINE :: Src.kw .INPUT :: ([] ++ [.name ['L', '$']])) ++ opTok ':' :: ([Src.kw .PRINT, .name ['N'], opTok '*', .name ['K'], opTok ';', .name ['L', '$']] ++ opTok ':' ::
      ([Src.kw .RESTORE, Src.lineNo 60] ++ opTok ':' :: ([Src.kw .READ, .name ['B', '$']] ++ [opTok '\n']))), [], split_spec 40 (by decide +kernel), ?_⟩
    (.cons ⟨[.data ["3".toList, "x,y".toList]] ++ [opTok '\n'], [], ?_, ?_⟩ .nil)))))
  · exact .last (.simple (.read (.more (l := [.name ['N']]) (.var hN) (.one (.var hA)))))
  · exact .colon (.simple (.input .semicolon (.one (.var hK)))) (.last (.simple (.onGoto (orVar hK (by decide)) (.more (by decide) (by decide) (.one (by decide) (by decide))))))
  · exact .last (.simple .end_)
  · exact .colon (.simple (.print (.value (l := [.name ['A', '$']]) (l' := []) (.conj (.not (.rel (.sum (.mult (.neg (.power (.primary (.strVar hA rfl)))))))))
        (by intro w hw; cases hw; decide +kernel) (by intro a ha; cases ha) .nil))) (.last (.simple .end_))
  · exact .colon (.simple (.lineInput .none hL rfl)) (.colon (.simple (.print (.value (l := [.name ['N'], opTok '*', .name ['K']])
      (.conj (.not (.rel (.sum (.mult (.mul (l := [.name ['N']]) (.neg (.power (.primary (.numVar hN (by decide))))) (.power (.primary (.numVar hK (by decide))))))))))
      (by intro w hw; cases hw; decide +kernel) (by intro a ha; cases ha; decide) (.semicolon (.value (l := [.name ['L', '$']]) (l' := [])
        (.conj (.not (.rel (.sum (.mult (.neg (.power (.primary (.strVar hL rfl))))))))) (by intro w hw; cases hw; decide +kernel) (by intro a ha; cases ha) .nil)))))
      (.colon (.simple (.restoreLine (by decide) (by decide))) (.last (.simple (.read (.one (.var hB)))))))
  · exact .dataLast (b := []) (w := "DATA".toList) (r := " 3 , \"x,y\"".toList) (by decide) ⟨'D', "ATA".toList, [], rfl, by decide, by decide, by decide⟩ rfl
      (.inl ⟨clean_spec (by decide), .inr (by intro c hc; cases hc; decide)⟩)
      (.more (t := " 3 ".toList) (.plain (b := [' ']) (v := ['3']) (b' := [' ']) (by unfold Blank; decide) (by unfold Blank; decide) (by decide)
          (by intro c hc; rcases hc with hc | hc <;> cases hc <;> decide) (by decide) (by decide))
        (.one (.quoted (b := [' ']) (v := "x,y".toList) (b' := []) (by unfold Blank; decide) (by unfold Blank; decide) (by unfold Quotable; decide) (by decide))))
  · exact .last (.simple .data)

/-- The machine with the lines entered and what is going to be typed. -/
def askingVm : VM := { newVm false false false { stdin := "many\n2,3\n six\nmore".toList } with stored := ⟨some ⟨none, asking⟩, none, none⟩ }

theorem asking_ready : Src.Ready askingVm ⟨none, asking⟩ askingProgram where
  stored := rfl
  traceBasic := rfl
  traceFor := rfl
  ascending := by decide
  lines := asking_lines
  fits := by
    have hr : askingProgram.room = (0, 0) := by decide +kernel
    simp only [Src.Program.Fits, hr]
    simp only [askingProgram, List.forall_mem_cons, Src.Stmt.Fits, Src.Slot.Fits, Src.Item.Fits, Src.Fits]
    simp [Expr.nums, Expr.strs]
  small := by decide +kernel
  apart := fun f hf => absurd (show f ∈ ([] : List CStr) from hf) (by simp)

/-- What the run of the example comes to. -/
def asked : Src.Next → Bool
  | .stop .finished c => decide (c.nums ['N'] = .fin 3) && decide (c.strs ['B', '$'] = "3".toList) && decide (c.stdin = "more".toList) &&
      decide (c.out = "how many? * Invalid input *\nhow many? * Extra input was discarded *\n?  6  six\n".toList)
  | _ => false

/-- A program with arrays. -/
def tabling : List SrcLine :=
  [⟨10, "DIM S(3,2),T$(2)".toList⟩, ⟨20, "READ S(1,2),T$(K)".toList⟩, ⟨30, "S(0,1)=S(1,2)+A(4)".toList⟩, ⟨40, "PRINT S(0,1);T$(0)".toList⟩, ⟨50, "LET S(4,0)=1".toList⟩,
    ⟨60, "DATA 5,six".toList⟩]

/-- The same as statements. -/
def tablingProgram : Src.Program :=
  [(10, [.dim .num ['S'] [.num (.fin 3), .num (.fin 2)], .dim .str ['T', '$'] [.num (.fin 2)]]),
    (20, [.readElem .num ['S'] [.num (.fin 1), .num (.fin 2)], .readElem .str ['T', '$'] [.numVar ['K']]]),
    (30, [.letElem .num ['S'] [.num (.fin 0), .num (.fin 1)] (.arith .add (.elem2 .num ['S'] (.num (.fin 1)) (.num (.fin 2))) (.elem .num ['A'] (.num (.fin 4))))]),
    (40, [.print [.value (.elem2 .num ['S'] (.num (.fin 0)) (.num (.fin 1))), .semicolon, .value (.elem .str ['T', '$'] (.num (.fin 0)))]]),
    (50, [.letElem .num ['S'] [.num (.fin 4), .num (.fin 0)] (.num (.fin 1))]),
    (60, [.data ["5".toList, "six".toList]])]

/-- The tokens of an element with two subscripts that are numbers. -/
def cell (w : CStr) (x y : Dbl) : List Lexeme := .name w :: opTok '(' :: (([.num x] ++ opTok ',' :: [.num y]) ++ [opTok ')'])

theorem cell_element {w : CStr} (h : builtin w = none) (x y : Dbl) : Src.Element (cell w x y) w [.num x, .num y] := .mk h (.two (orNum x) (orNum y))

theorem cell_primary {w : CStr} (h : builtin w = none) (x y : Dbl) : Phrase .primary (cell w x y) (.elem2 (typeOf w) w (.num x) (.num y)) :=
  .elem2 (l := [.num x]) (l' := [.num y]) h (orNum x) (orNum y)

theorem tabling_lines : Src.Lines tabling tablingProgram := by
  have hS : builtin ['S'] = none := by decide +kernel
  have hT : builtin ['T', '$'] = none := by decide +kernel
  have hA : builtin ['A'] = none := by decide +kernel
  have hK : builtin ['K'] = none := by decide +kernel
  refine .cons ⟨(Src.kw .DIM :: (cell ['S'] (.fin 3) (.fin 2) ++ opTok ',' :: (.name ['T', '$'] :: opTok '(' :: ([.num (.fin 2)] ++ [opTok ')'])))) ++ [opTok '\n'], [],
      split_spec 40 (by decide +kernel), ?_⟩
    (.cons ⟨(Src.kw .READ :: (cell ['S'] (.fin 1) (.fin 2) ++ opTok ',' :: (.name ['T', '$'] :: opTok '(' :: ([.name ['K']] ++ [opTok ')'])))) ++ [opTok '\n'], [],
      split_spec 40 (by decide +kernel), ?_⟩
    (.cons ⟨(cell ['S'] (.fin 0) (.fin 1) ++ opTok '=' :: (cell ['S'] (.fin 1) (.fin 2) ++ opTok '+' :: (.name ['A'] :: opTok '(' :: ([.num (.fin 4)] ++ [opTok ')'])))) ++ [opTok '\n'], [],
      split_spec 40 (by decide +kernel), ?_⟩
    (.cons ⟨(Src.kw .PRINT :: (cell ['S'] (.fin 0) (.fin 1) ++ opTok ';' :: ((.name ['T', '$'] :: opTok '(' :: ([.num (.fin 0)] ++ [opTok ')'])) ++ []))) ++ [opTok '\n'], [],
      split_spec 40 (by decide +kernel), ?_⟩
    (.cons ⟨(Src.kw .LET :: (cell ['S'] (.fin 4) (.fin 0) ++ opTok '=' :: [.num (.fin 1)])) ++ [opTok '\n'], [], split_spec 40 (by decide +kernel), ?_⟩
    (.cons ⟨[.data ["5".toList, "six".toList]] ++ [opTok '\n'], [], ?_, ?_⟩ .nil)))))
  · exact .last (.simple (.dim (.more (cell_element hS _ _) (.one (.mk hT (.one (orNum _)))))))
  · exact .last (.simple (.read (.more (.elem (cell_element hS _ _)) (.one (.elem (.mk hT (.one (orVar hK (by decide)))))))))
  · exact .last (.simple (.assign (.elem (cell_element hS _ _) (.conj (.not (.rel (.sum (.add (.mult (.neg (.power (.primary (cell_primary hS _ _)))))
      (.neg (.power (.primary (.elem hA (orNum _)))))))))))))
  · exact .last (.simple (.print (.value (.conj (.not (.rel (.sum (.mult (.neg (.power (.primary (cell_primary hS _ _)))))))))
      (by intro w hw; cases hw; decide +kernel) (by intro a ha; cases ha; decide) (.semicolon (.value
        (.conj (.not (.rel (.sum (.mult (.neg (.power (.primary (.elem hT (orNum _))))))))))
      (by intro w hw; cases hw; decide +kernel) (by intro a ha; cases ha) .nil)))))
  · exact .last (.simple (.letKw (.elem (cell_element hS _ _) (orNum _))))
  · exact .dataLast (b := []) (w := "DATA".toList) (r := " 5,six".toList) (by decide) ⟨'D', "ATA".toList, [], rfl, by decide, by decide, by decide⟩ rfl
      (.inl ⟨clean_spec (by decide), .inr (by intro c hc; cases hc; decide)⟩)
      (.more (t := " 5".toList) (.plain (b := [' ']) (v := ['5']) (b' := []) (by unfold Blank; decide) (by unfold Blank; decide) (by decide)
          (by intro c hc; rcases hc with hc | hc <;> cases hc <;> decide) (by decide) (by decide))
        (.one (.plain (b := []) (v := "six".toList) (b' := []) (by unfold Blank; decide) (by unfold Blank; decide) (by decide)
          (by intro c hc; rcases hc with hc | hc <;> cases hc <;> decide) (by decide) (by decide))))
  · exact .last (.simple .data)

/-- The machine with the lines entered. -/
def tablingVm : VM := { newVm false false false {} with stored := ⟨some ⟨none, tabling⟩, none, none⟩ }

theorem tabling_ready : Src.Ready tablingVm ⟨none, tabling⟩ tablingProgram where
  stored := rfl
  traceBasic := rfl
  traceFor := rfl
  ascending := by decide
  lines := tabling_lines
  fits := by
    have hr : tablingProgram.room = (0, 0) := by decide +kernel
    simp only [Src.Program.Fits, hr]
    simp only [tablingProgram, List.forall_mem_cons, Src.Stmt.Fits, Src.Item.Fits, Src.Fits, Src.FitsAll]
    simp [Expr.nums, Expr.strs]
  small := by decide +kernel
  apart := fun f hf => absurd (show f ∈ ([] : List CStr) from hf) (by simp)

/-- What the run of the example comes to. -/
def tabled : Src.Next → Bool
  | .stop (.error .badIndexes) c => decide (c.out = " 5 six\n".toList) &&
      (match c.numArrs ['S'] with
      | .made dims f => decide (dims = [3, 2]) && decide (f [0, 1] = .fin 5) && decide (f [3, 2] = .fin 0)
      | _ => false)
  | _ => false

/-- A program that reads elements of arrays. -/
def filling : List SrcLine :=
  [⟨10, "INPUT K,A$(K),B(1,2)".toList⟩, ⟨20, "LINE INPUT \"all\";A$(2)".toList⟩, ⟨30, "PRINT A$(K);B(1,2);A$(2)".toList⟩]

/-- The same as statements. -/
def fillingProgram : Src.Program :=
  [(10, [.input none [.var (.num ['K']), .elem .str ['A', '$'] [.numVar ['K']], .elem .num ['B'] [.num (.fin 1), .num (.fin 2)]]]),
    (20, [.lineInputElem (some "all".toList) ['A', '$'] [.num (.fin 2)]]),
    (30, [.print [.value (.elem .str ['A', '$'] (.numVar ['K'])), .semicolon, .value (.elem2 .num ['B'] (.num (.fin 1)) (.num (.fin 2))), .semicolon, .value (.elem .str ['A', '$'] (.num (.fin 2)))]])]

theorem filling_lines : Src.Lines filling fillingProgram := by
  have hA : builtin ['A', '$'] = none := by decide +kernel
  have hB : builtin ['B'] = none := by decide +kernel
  have hK : builtin ['K'] = none := by decide +kernel
  refine .cons ⟨(Src.kw .INPUT :: ([] ++ ([.name ['K']] ++ opTok ',' :: ((.name ['A', '$'] :: opTok '(' :: ([.name ['K']] ++ [opTok ')'])) ++ opTok ',' :: cell ['B'] (.fin 1) (.fin 2))))) ++ [opTok '\n'], [],
      split_spec 40 (by decide +kernel), ?_⟩
    (.cons ⟨(Src.kw .LINE :: Src.kw .INPUT :: ([.str "all".toList, opTok ';'] ++ (.name ['A', '$'] :: opTok '(' :: ([.num (.fin 2)] ++ [opTok ')'])))) ++ [opTok '\n'], [], split_spec 40 (by decide +kernel), ?_⟩
    (.cons ⟨(Src.kw .PRINT :: ((.name ['A', '$'] :: opTok '(' :: ([.name ['K']] ++ [opTok ')'])) ++ opTok ';' :: (cell ['B'] (.fin 1) (.fin 2) ++ opTok ';' ::
      ((.name ['A', '$'] :: opTok '(' :: ([.num (.fin 2)] ++ [opTok ')'])) ++ [])))) ++ [opTok '\n'], [], split_spec 40 (by decide +kernel), ?_⟩ .nil))
  · exact .last (.simple (.input .none (.more (.var hK) (.more (.elem (.mk hA (.one (orVar hK (by decide))))) (.one (.elem (cell_element hB _ _)))))))
  · exact .last (.simple (.lineInputElem .semicolon (.mk hA (.one (orNum _))) rfl))
  · exact .last (.simple (.print (.value (.conj (.not (.rel (.sum (.mult (.neg (.power (.primary (.elem hA (orVar hK (by decide)))))))))))
      (by intro w hw; cases hw; decide +kernel) (by intro a ha; cases ha; decide) (.semicolon (.value
        (.conj (.not (.rel (.sum (.mult (.neg (.power (.primary (cell_primary hB _ _)))))))))
      (by intro w hw; cases hw; decide +kernel) (by intro a ha; cases ha; decide) (.semicolon (.value
        (.conj (.not (.rel (.sum (.mult (.neg (.power (.primary (.elem hA (orNum _))))))))))
      (by intro w hw; cases hw; decide +kernel) (by intro a ha; cases ha) .nil)))))))

/-- The machine with the lines entered and what is going to be typed. -/
def fillingVm : VM := { newVm false false false { stdin := "1,x\n1,x,5\nrest, all\nmore".toList } with stored := ⟨some ⟨none, filling⟩, none, none⟩ }

theorem filling_ready : Src.Ready fillingVm ⟨none, filling⟩ fillingProgram where
  stored := rfl
  traceBasic := rfl
  traceFor := rfl
  ascending := by decide
  lines := filling_lines
  fits := by
    have hr : fillingProgram.room = (0, 0) := by decide +kernel
    simp only [Src.Program.Fits, hr]
    simp only [fillingProgram, List.forall_mem_cons, Src.Stmt.Fits, Src.Slot.Fits, Src.Item.Fits, Src.Fits, Src.FitsAll]
    simp [Expr.nums, Expr.strs]
  small := by decide +kernel
  apart := fun f hf => absurd (show f ∈ ([] : List CStr) from hf) (by simp)

/-- What the run of the example comes to. -/
def filledUp : Src.Next → Bool
  | .stop .finished c => decide (c.out = "? * More input items are expected *\n? all? x 5 rest, all\n".toList) && decide (c.stdin = "more".toList)
  | _ => false

/-- A program with functions. -/
def defining : List SrcLine :=
  [⟨10, "DEF FNS(X)=X*X+K:DEF FNG$(N)=CHR$(N+64)".toList⟩, ⟨20, "K=1:X=7".toList⟩, ⟨30, "PRINT FNS(3);X;fng$(FNS(1))".toList⟩, ⟨40, "PRINT FND(2)".toList⟩, ⟨50, "DEF FND(Y)=Y".toList⟩]

/-- The same as statements. -/
def definingProgram : Src.Program :=
  [(10, [.def_ .num "FNS".toList ['X'] (.arith .add (.arith .mul (.numVar ['X']) (.numVar ['X'])) (.numVar ['K'])),
      .def_ .str "FNG$".toList ['N'] (.textFn .chr (.arith .add (.numVar ['N']) (.num (.fin 64))))]),
    (20, [.letNum ['K'] (.num (.fin 1)), .letNum ['X'] (.num (.fin 7))]),
    (30, [.print [.value (.elem .num "FNS".toList (.num (.fin 3))), .semicolon, .value (.numVar ['X']), .semicolon,
      .value (.elem .str "fng$".toList (.elem .num "FNS".toList (.num (.fin 1))))]]),
    (40, [.print [.value (.elem .num "FND".toList (.num (.fin 2)))]]),
    (50, [.def_ .num "FND".toList ['Y'] (.numVar ['Y'])])]

/-- The tokens of a call. -/
def called (w : CStr) (l : List Lexeme) : List Lexeme := .name w :: opTok '(' :: (l ++ [opTok ')'])

theorem orPrimary {t : Ty} {l : List Lexeme} {e : Expr t} (h : Phrase .primary l e) : Phrase .or l e := .conj (.not (.rel (.sum (.mult (.neg (.power (.primary h)))))))

theorem defining_lines : Src.Lines defining definingProgram := by
  have hX : builtin ['X'] = none := by decide +kernel
  have hK : builtin ['K'] = none := by decide +kernel
  have hN : builtin ['N'] = none := by decide +kernel
  have hY : builtin ['Y'] = none := by decide +kernel
  have hS : builtin "FNS".toList = none := by decide +kernel
  have hG : builtin "FNG$".toList = none := by decide +kernel
  have hg : builtin "fng$".toList = none := by decide +kernel
  have hD : builtin "FND".toList = none := by decide +kernel
  refine .cons ⟨(Src.kw .DEF :: .name "FNS".toList :: opTok '(' :: .name ['X'] :: opTok ')' :: opTok '=' :: ([.name ['X'], opTok '*', .name ['X']] ++ opTok '+' :: [.name ['K']])) ++ opTok ':' ::
      ((Src.kw .DEF :: .name "FNG$".toList :: opTok '(' :: .name ['N'] :: opTok ')' :: opTok '=' :: called "CHR$".toList ([.name ['N']] ++ opTok '+' :: [.num (.fin 64)])) ++ [opTok '\n']), [],
      split_spec 60 (by decide +kernel), ?_⟩
    (.cons ⟨[.name ['K'], opTok '=', .num (.fin 1)] ++ opTok ':' :: ([.name ['X'], opTok '=', .num (.fin 7)] ++ [opTok '\n']), [], split_spec 40 (by decide +kernel), ?_⟩
    (.cons ⟨(Src.kw .PRINT :: (called "FNS".toList [.num (.fin 3)] ++ opTok ';' :: ([.name ['X']] ++ opTok ';' :: (called "fng$".toList (called "FNS".toList [.num (.fin 1)]) ++ [])))) ++ [opTok '\n'], [],
      split_spec 60 (by decide +kernel), ?_⟩
    (.cons ⟨(Src.kw .PRINT :: (called "FND".toList [.num (.fin 2)] ++ [])) ++ [opTok '\n'], [], split_spec 40 (by decide +kernel), ?_⟩
    (.cons ⟨(Src.kw .DEF :: .name "FND".toList :: opTok '(' :: .name ['Y'] :: opTok ')' :: opTok '=' :: [.name ['Y']]) ++ [opTok '\n'], [], split_spec 40 (by decide +kernel), ?_⟩ .nil))))
  · exact .colon (.simple (.def_ hS hX (by decide) (.conj (.not (.rel (.sum (.add (.mult (.mul (l := [.name ['X']]) (.neg (.power (.primary (.numVar hX (by decide))))) (.power (.primary (.numVar hX (by decide))))))
        (.neg (.power (.primary (.numVar hK (by decide))))))))))))
      (.last (.simple (.def_ hG hN (by decide) (orPrimary (.textFn (f := .chr) rfl (.conj (.not (.rel (.sum (.add (l := [.name ['N']]) (addVar hN (by decide)) (.neg (.power (.primary .num)))))))))))))
  · exact .colon (.simple (.assign (.num hK (by decide) (orNum _)))) (.last (.simple (.assign (.num hX (by decide) (orNum _)))))
  · exact .last (.simple (.print (.value (orPrimary (.elem hS (orNum _))) (by intro w hw; cases hw; decide +kernel) (by intro a ha; cases ha; decide)
      (.semicolon (.value (l := [.name ['X']]) (orVar hX (by decide)) (by intro w hw; cases hw; decide +kernel) (by intro a ha; cases ha; decide)
        (.semicolon (.value (orPrimary (.elem hg (orPrimary (.elem hS (orNum _))))) (by intro w hw; cases hw; decide +kernel) (by intro a ha; cases ha) .nil)))))))
  · exact .last (.simple (.print (.value (orPrimary (.elem hD (orNum _))) (by intro w hw; cases hw; decide +kernel) (by intro a ha; cases ha) .nil)))
  · exact .last (.simple (.def_ hD hY (by decide) (orVar hY (by decide))))

/-- The machine with the lines entered. -/
def definingVm : VM := { newVm false false false {} with stored := ⟨some ⟨none, defining⟩, none, none⟩ }

theorem defining_ready : Src.Ready definingVm ⟨none, defining⟩ definingProgram where
  stored := rfl
  traceBasic := rfl
  traceFor := rfl
  ascending := by decide
  lines := defining_lines
  fits := by
    have hr : definingProgram.room = (2, 1) := by decide +kernel
    simp only [Src.Program.Fits, hr]
    simp only [definingProgram, List.forall_mem_cons, Src.Stmt.Fits, Src.Item.Fits, Src.Fits]
    simp [Expr.nums, Expr.strs]
  small := by decide +kernel
  apart := fun _ _ a ha => absurd (show a ∈ ([] : List CStr) from ha) (by simp)

/-- What the run of the example comes to. -/
def defined : Src.Next → Bool
  | .stop (.error .notDefined) c => decide (c.out = " 10  7 B\n".toList) && decide (c.nums ['X'] = .fin 7) && decide (c.place = (3, 0))
  | _ => false

end Demo

open Demo in
example : ∃ n0 vm', (∀ n, n < n0 → runProgram Demo.env (fun _ => false) n definingVm = .halt .fuel) ∧
    (∀ n, n0 ≤ n → runProgram Demo.env (fun _ => false) n definingVm = .ok (some ⟨some .notDefined, false⟩, vm')) ∧
    numNamed vm'.st ['X'] = .fin 7 ∧ vm'.world.out = " 10  7 B\n".toList := by
  have hc : defined (Src.steps Demo.env definingProgram 100 (Src.start definingProgram definingVm)) = true := by decide +kernel
  cases hs : Src.steps Demo.env definingProgram 100 (Src.start definingProgram definingVm) with
  | go c => rw [hs] at hc; cases hc
  | stop e c =>
    rw [hs] at hc
    cases e with
    | error er =>
      cases er <;> first | (cases hc; done) | skip
      simp only [defined, Bool.and_eq_true, decide_eq_true_eq] at hc
      obtain ⟨n0, vm', h1, h2, h3, h5, h6, -⟩ := C52_ends_partial (brk := fun _ => false) defining_ready (fun _ => rfl) hs (by intro h; cases h)
      refine ⟨n0, vm', h1, h2, ?_, ?_⟩
      · rw [show numNamed vm'.st = c.nums from congrArg Store.nums h3]; exact hc.1.2
      · rw [h6 (by intro h; cases h), hc.1.1]; rfl
    | stopped => cases hc
    | finished => cases hc
    | unknown => cases hc

open Demo in
example : ∃ n0 vm', (∀ n, n < n0 → runProgram Demo.env (fun _ => false) n tablingVm = .halt .fuel) ∧
    (∀ n, n0 ≤ n → runProgram Demo.env (fun _ => false) n tablingVm = .ok (some ⟨some .badIndexes, false⟩, vm')) ∧
    (∃ f, numArrNamed vm'.st ['S'] = .made [3, 2] f ∧ f [0, 1] = .fin 5 ∧ f [3, 2] = .fin 0) ∧ vm'.world.out = " 5 six\n".toList := by
  have hc : tabled (Src.steps Demo.env tablingProgram 100 (Src.start tablingProgram tablingVm)) = true := by decide +kernel
  cases hs : Src.steps Demo.env tablingProgram 100 (Src.start tablingProgram tablingVm) with
  | go c => rw [hs] at hc; cases hc
  | stop e c =>
    rw [hs] at hc
    cases e with
    | error er =>
      cases er <;> first | (cases hc; done) | skip
      simp only [tabled, Bool.and_eq_true, decide_eq_true_eq] at hc
      obtain ⟨n0, vm', h1, h2, h3, h5, h6, -⟩ := C52_ends_partial (brk := fun _ => false) tabling_ready (fun _ => rfl) hs (by intro h; cases h)
      refine ⟨n0, vm', h1, h2, ?_, ?_⟩
      · rw [show numArrNamed vm'.st = c.numArrs from congrArg Store.numArrs h3]
        cases hd : c.numArrs ['S'] with
        | made dims f =>
          simp only [hd, Bool.and_eq_true, decide_eq_true_eq] at hc
          exact ⟨f, by rw [hc.2.1.1], hc.2.1.2, hc.2.2⟩
        | missing => simp only [hd] at hc; cases hc.2
        | odd => simp only [hd] at hc; cases hc.2
      · rw [h6 (by intro h; cases h), hc.1]; rfl
    | stopped => cases hc
    | finished => cases hc
    | unknown => cases hc

open Demo in
example : ∃ n0 vm', (∀ n, n < n0 → runProgram Demo.env (fun _ => false) n fillingVm = .halt .fuel) ∧
    (∀ n, n0 ≤ n → runProgram Demo.env (fun _ => false) n fillingVm = .ok (some ⟨none, false⟩, vm')) ∧
    vm'.world.stdin = "more".toList ∧ vm'.world.out = "? * More input items are expected *\n? all? x 5 rest, all\n".toList := by
  have hc : filledUp (Src.steps Demo.env fillingProgram 100 (Src.start fillingProgram fillingVm)) = true := by decide +kernel
  cases hs : Src.steps Demo.env fillingProgram 100 (Src.start fillingProgram fillingVm) with
  | go c => rw [hs] at hc; cases hc
  | stop e c =>
    rw [hs] at hc
    cases e with
    | finished =>
      simp only [filledUp, Bool.and_eq_true, decide_eq_true_eq] at hc
      obtain ⟨n0, vm', h1, h2, h3, h5, h6, -⟩ := C52_ends_partial (brk := fun _ => false) filling_ready (fun _ => rfl) hs (by intro h; cases h)
      exact ⟨n0, vm', h1, h2, h5.trans hc.2, by rw [h6 (by intro h; cases h), hc.1]; rfl⟩
    | stopped => cases hc
    | error er => cases hc
    | unknown => cases hc

open Demo in
example : ∃ n0 vm', (∀ n, n < n0 → runProgram Demo.env (fun _ => false) n askingVm = .halt .fuel) ∧
    (∀ n, n0 ≤ n → runProgram Demo.env (fun _ => false) n askingVm = .ok (some ⟨none, false⟩, vm')) ∧
    numNamed vm'.st ['N'] = .fin 3 ∧ strNamed vm'.st ['B', '$'] = "3".toList ∧ vm'.world.stdin = "more".toList ∧
    vm'.world.out = "how many? * Invalid input *\nhow many? * Extra input was discarded *\n?  6  six\n".toList := by
  have hc : asked (Src.steps Demo.env askingProgram 100 (Src.start askingProgram askingVm)) = true := by decide +kernel
  cases hs : Src.steps Demo.env askingProgram 100 (Src.start askingProgram askingVm) with
  | go c => rw [hs] at hc; cases hc
  | stop e c =>
    rw [hs] at hc
    cases e with
    | finished =>
      simp only [asked, Bool.and_eq_true, decide_eq_true_eq] at hc
      obtain ⟨n0, vm', h1, h2, h3, h5, h6, -⟩ := C52_ends_partial (brk := fun _ => false) asking_ready (fun _ => rfl) hs (by intro h; cases h)
      refine ⟨n0, vm', h1, h2, ?_, ?_, h5.trans hc.1.2, ?_⟩
      · rw [show numNamed vm'.st = c.nums from congrArg Store.nums h3]; exact hc.1.1.1
      · rw [show strNamed vm'.st = c.strs from congrArg Store.strs h3]; exact hc.1.1.2
      · rw [h6 (by intro h; cases h), hc.2]; rfl
    | stopped => cases hc
    | error er => cases hc
    | unknown => cases hc

open Demo in
example : ∃ n0 vm', State (fun _ _ => False) .idle countingVm ∧ (∀ n, n < n0 → runProgram Demo.env (fun _ => false) n countingVm = .halt .fuel) ∧
    (∀ n, n0 ≤ n → runProgram Demo.env (fun _ => false) n countingVm = .ok (some ⟨none, false⟩, vm')) ∧
    numNamed vm'.st "a".toList = .fin 4 ∧ numNamed vm'.st "I".toList = .fin 3 ∧ strNamed vm'.st "s$".toList = "end".toList ∧
    vm'.world.out = " 1      two 9   \nend\n60 STOP\nStopped\n".toList := by
  have hc : counted (Src.steps Demo.env countingProgram 100 (Src.start countingProgram countingVm)) = true := by decide +kernel
  cases hs : Src.steps Demo.env countingProgram 100 (Src.start countingProgram countingVm) with
  | go c => rw [hs] at hc; cases hc
  | stop e c =>
    rw [hs] at hc
    cases e with
    | stopped =>
      simp only [counted, Bool.and_eq_true, decide_eq_true_eq] at hc
      obtain ⟨n0, vm', h1, h2, h3, _, h5, -⟩ := C52_ends_partial (brk := fun _ => false) counting_ready (fun _ => rfl) hs (by intro h; cases h)
      refine ⟨n0, vm', entered_state (.start false false false {}) counting_entered, h1, h2, ?_, ?_, ?_, ?_⟩
      · rw [show numNamed vm'.st = c.nums from congrArg Store.nums h3]; exact hc.1.1.1.2
      · rw [show numNamed vm'.st = c.nums from congrArg Store.nums h3]; exact hc.1.1.2
      · rw [show strNamed vm'.st = c.strs from congrArg Store.strs h3]; exact hc.1.2
      · rw [h5 (by intro h; cases h), hc.2, hc.1.1.1.1]; decide +kernel
    | finished => cases hc
    | error er => cases hc
    | unknown => cases hc

example (n : Nat) : runProgram Demo.env (fun _ => false) n { newVm false false false {} with stored := ⟨some ⟨none, Demo.endless⟩, none, none⟩ } = .halt .fuel :=
  C52_forever_partial (Demo.endless_ready {}) (fun _ => rfl) (fun k => Demo.endless_go _ k _ rfl (by decide)) n

example (vm : VM) : ∃ c, Src.steps Demo.env Demo.endlessProgram 9 (Src.start Demo.endlessProgram vm) = .go c := Demo.endless_go _ 9 _ rfl (by show 0 < 3; decide)

/-- C22.  When a program is compiled, the items that READ will deliver are those in the text of its DATA statements, line
after line and from left to right; after RESTORE n they are those of the line n and of the lines behind it.  (For programs
of the statements in `Src.Stmt`.) -/
theorem C22_text_partial {vm : VM} {src : Source} {prog : Src.Program} (hs : vm.stored = ⟨some src, none, none⟩)
    (hasc : _root_.Spec.Ascending (src.lines.map (·.num))) (hl : Src.LinesAs vm.keywordsAnywhere src.lines prog) (ha : prog.Apart) :
    ∃ vm', ensureProgramCompiled vm = .ok (true, vm') ∧ vm'.stored.source = some src ∧ allItems vm' = prog.data ∧ pending vm' = prog.data ∧
      (∀ n i, prog.findIdx? (fun l => l.1 == n) = some i → ∃ pc, lineStart vm' n = some pc ∧ itemsFrom vm' pc = Src.Program.data (prog.drop i)) ∧
      ∀ n, prog.findIdx? (fun l => l.1 == n) = none → lineStart vm' n = none :=
  program_compiled hs hasc hl ha

example : Src.Lines Demo.asking Demo.askingProgram ∧ Demo.askingProgram.Apart ∧ Src.Program.data Demo.askingProgram = ["3".toList, "x,y".toList] :=
  ⟨Demo.asking_lines, Demo.asking_ready.apart, rfl⟩

end LB
