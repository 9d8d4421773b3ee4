import Verif.Props.Tracing
import Verif.Props.BatchModes
/- C57 and C61 together: running a file named on the command line with tracing. -/
namespace LB
open LB.Spec _root_.Spec

/-- The arguments without the switches for tracing. -/
def quietArgs (args : List CStr) : List CStr := args.filter (fun a => decide (¬ Says a .traceBasic ∧ ¬ Says a .traceFor))

theorem mem_quietArgs {args : List CStr} {a : CStr} : a ∈ quietArgs args ↔ a ∈ args ∧ ¬ Says a .traceBasic ∧ ¬ Says a .traceFor := by
  simp [quietArgs]

theorem says_once {a : CStr} {s : Switch} (hs : s = .traceBasic ∨ s = .traceFor) (h : Says a s) : (¬ Says a .randomize ∧ ¬ Says a .keywords) ∧ ¬ IsFile a := by
  unfold Says at h
  rcases hs with rfl | rfl <;> (simp only [spellings, List.mem_cons, List.not_mem_nil, or_false, List.mem_map] at h)
  all_goals
    first
    | (rcases h with rfl | rfl <;> decide)
    | (obtain ⟨x, hx, rfl⟩ := h; rcases hx with rfl | rfl <;> decide)
    | (subst h; decide)

theorem quietArgs_asks {args : List CStr} {f : CStr} (ha : RunsFile args f) : AsksRun (quietArgs args) f where
  usable a h := ha.usable a (mem_quietArgs.1 h).1
  one := by
    refine Nat.le_trans ?_ ha.one
    unfold named quietArgs
    rw [List.filter_filter]
    have : ∀ l : List CStr, (l.filter (fun a => decide (IsFile a) && decide (¬ Says a .traceBasic ∧ ¬ Says a .traceFor))).length ≤ (l.filter (fun a => decide (IsFile a))).length := by
      intro l
      induction l with
      | nil => simp
      | cons a l ih =>
        rw [List.filter_cons, List.filter_cons]
        cases decide (IsFile a) <;> cases decide (¬ Says a .traceBasic ∧ ¬ Says a .traceFor) <;>
          simp only [Bool.and_true, Bool.and_false, Bool.false_eq_true, if_true, if_false, List.length_cons] <;> omega
    exact this args
  mem := mem_quietArgs.2 ⟨ha.mem, fun h => (says_once (.inl rfl) h).2 ha.file, fun h => (says_once (.inr rfl) h).2 ha.file⟩
  file := ha.file
  mode a h := ha.mode a (mem_quietArgs.1 h).1
  plain a h s hs := by
    obtain ⟨h1, h2, h3⟩ := mem_quietArgs.1 h
    simp only [List.mem_cons, List.not_mem_nil, or_false] at hs
    rcases hs with rfl | rfl | rfl
    · exact ha.version a h1
    · exact h2
    · exact h3

theorem quietArgs_keywords {args : List CStr} {any : Bool} (hk : any = true ↔ ∃ a ∈ args, Says a .keywords) :
    any = true ↔ ∃ a ∈ quietArgs args, Says a .keywords := by
  rw [hk]
  constructor
  · rintro ⟨a, h1, h2⟩
    refine ⟨a, mem_quietArgs.2 ⟨h1, fun h => (says_once (.inl rfl) h).1.2 h2, fun h => (says_once (.inr rfl) h).1.2 h2⟩, h2⟩
  · rintro ⟨a, h1, h2⟩
    exact ⟨a, (mem_quietArgs.1 h1).1, h2⟩

theorem quietArgs_runs {args : List CStr} {f : CStr} (ha : AsksRun args f) : RunsFile args f :=
  ⟨ha.usable, ha.one, ha.mem, ha.file, ha.mode, fun a h => ha.plain a h .version (by simp)⟩

theorem quietArgs_seedings (args : List CStr) : seedings args = seedings (quietArgs args) := by
  unfold seedings quietArgs
  rw [List.filter_filter]
  congr 1
  apply List.filter_congr
  intro a _
  by_cases h : Says a .randomize
  · simp [h, show ¬ Says a .traceBasic from fun h' => (says_once (.inl rfl) h').1.1 h, show ¬ Says a .traceFor from fun h' => (says_once (.inr rfl) h').1.1 h]
  · simp [h]

theorem listed_names {any : Bool} {f text : CStr} {ps : List (Nat × List Char)} (hl : Listing text ps) (hasc : Ascending (ps.map (·.1))) (h0 : ∀ n t, (n, t) ∈ ps → n ≠ 0)
    {prog : Src.Program} (hp : Src.LinesAs any (linesOf ps) prog) (hsm : prog.vars ≤ 65510) (hap : prog.Apart) {src : Source} {b : Bcode} {st : SymTab}
    (h1 : loadSourceFile f (some text) = .ok (some src)) (h2 : parseSource src (initBuiltins newSymbolTable) any = .ok (some b, st)) :
    src.lines = linesOf ps ∧ st.psym.length ≤ 65536 := by
  rw [load_listing hl hasc h0] at h1
  simp only [Outcome.ok.injEq, Option.some.injEq] at h1
  subst h1
  obtain ⟨code, d, st', k1, k2, k3, k4, k5, k6⟩ := program_source (src := ⟨some f, linesOf ps⟩) (wellNamed_fresh newSymbolTable) (ready_proper hap newSymbolTable) hp
  have k1 : parseSource ⟨some f, linesOf ps⟩ (initBuiltins newSymbolTable) any = .ok (some ⟨code, d⟩, symMakeUnknownArray st') := k1
  rw [k1] at h2
  simp only [Outcome.ok.injEq, Prod.mk.injEq] at h2
  obtain ⟨-, rfl⟩ := h2
  refine ⟨rfl, ?_⟩
  have h26 : builtinSymbols.length = 26 := by decide
  have hps : (initBuiltins (clearSymbolTableNames newSymbolTable)).psym = builtinSymbols := initBuiltins_psym
  have := k5.most
  rw [hps, h26] at this
  simp only [symMakeUnknownArray, List.length_map]
  omega

/-- C57 with tracing.  Running a file named on the command line with `--trace-basic`, `--trace-for` or both does what the
statements of the file mean: it ends when they end, reads the same part of the input, and prints what they print with the texts
of the tracing put in.
Missing: as for `C52_ends_partial`. -/
theorem C57_traced_partial {args : List CStr} {f text : CStr} (ha : RunsFile args f) {any : Bool} (hk : any = true ↔ ∃ a ∈ args, Says a .keywords) {basic loops : Bool}
    (hb : basic = true ↔ ∃ a ∈ args, Says a .traceBasic) (hlo : loops = true ↔ ∃ a ∈ args, Says a .traceFor)
    {ps : List (Nat × List Char)} (hl : Listing text ps) (hasc : Ascending (ps.map (·.1))) (h0 : ∀ n t, (n, t) ∈ ps → n ≠ 0)
    {prog : Src.Program} (hp : Src.LinesAs any (linesOf ps) prog) (hfit : prog.Fits) (hsm : prog.vars ≤ 65510) (hap : prog.Apart)
    {env : Env} {w : World} {k : Nat} {e : Src.Ending} {c : Src.Config}
    (hs : Src.steps env prog k (Src.start prog (newVm false false false (seeded env w (seedings args)))) = .stop e c) (hu : e ≠ .unknown) :
    ∃ n0, ∀ h : Host, h.ctx.env = env → (∀ k, h.ctx.brk k = false) → h.files f = some text →
      (h.ctx.fuel < n0 → lbasic h args w = .halt .fuel) ∧
      (n0 ≤ h.ctx.fuel → ∃ w' t, lbasic h args w = .ok (0, w') ∧ w'.stdin = c.stdin ∧
        w'.out = w.out ++ banner args ++ t ++ report args h.memory ∧
        (e ≠ .error .forTooDeep → Marked basic loops (linesOf ps) t (c.out ++ e.message (linesOf ps) c.place))) := by
  have hq := quietArgs_asks ha
  have hk' := quietArgs_keywords hk
  rw [quietArgs_seedings args] at hs
  obtain ⟨n0, hn⟩ := C57_run_partial hq hk' hl hasc h0 hp hfit hsm hap hs hu
  refine ⟨n0, fun h he hbr hf => ?_⟩
  obtain ⟨k1, k2⟩ := hn h he hbr hf
  have key := C61_partial h ha (quietArgs_runs hq) w hk hk' hb hlo (fun a h => (mem_quietArgs.1 h).2) (quietArgs_seedings args)
    (fun src b st h1 h2 => (listed_names hl hasc h0 hp hsm hap (by rw [← hf]; exact h1) h2).2)
  constructor
  · intro hlt
    have := k1 hlt
    rcases key with ⟨x, q1, q2⟩ | ⟨_, _, _, _, _, _, _, q2, _⟩
    · rw [this] at q2
      rw [q1, ← q2]
    · rw [this] at q2; cases q2
  · intro hge
    obtain ⟨w', r1, r2, r3⟩ := k2 hge
    rcases key with ⟨x, q1, q2⟩ | ⟨lines, w1, w2, t, u, q0, q1, q2, q3, q4, q5, q6⟩
    · rw [r1] at q2; cases q2
    · rw [r1] at q2
      simp only [Outcome.ok.injEq, Prod.mk.injEq, true_and] at q2
      subst q2
      refine ⟨w1, t, q1, q3.trans r2, q5, fun hd => ?_⟩
      have hlines : lines = linesOf ps := q0 ⟨some f, linesOf ps⟩ (by rw [hf]; exact load_listing hl hasc h0)
      have hu' : u = c.out ++ e.message (linesOf ps) c.place := by
        have := r3 hd
        rw [q6] at this
        simp only [List.append_assoc] at this
        have := List.append_cancel_left (List.append_cancel_left this)
        rw [← List.append_assoc] at this
        exact List.append_cancel_right this
      rw [← hu', ← hlines]
      exact q4

/-- C57 with tracing.  If the statements can be performed for ever, the process never ends.
Missing: as for `C52_forever_partial`. -/
theorem C57_traced_forever_partial {args : List CStr} {f text : CStr} (ha : RunsFile args f) {any : Bool} (hk : any = true ↔ ∃ a ∈ args, Says a .keywords)
    {ps : List (Nat × List Char)} (hl : Listing text ps) (hasc : Ascending (ps.map (·.1))) (h0 : ∀ n t, (n, t) ∈ ps → n ≠ 0)
    {prog : Src.Program} (hp : Src.LinesAs any (linesOf ps) prog) (hfit : prog.Fits) (hsm : prog.vars ≤ 65510) (hap : prog.Apart) {w : World} {h : Host}
    (hs : ∀ k, ∃ c, Src.steps h.ctx.env prog k (Src.start prog (newVm false false false (seeded h.ctx.env w (seedings args)))) = .go c)
    (hb : ∀ k, h.ctx.brk k = false) (hf : h.files f = some text) : lbasic h args w = .halt .fuel := by
  have hq := quietArgs_asks ha
  have hk' := quietArgs_keywords hk
  rw [quietArgs_seedings args] at hs
  have h1 := C57_forever_partial hq hk' hl hasc h0 hp hfit hsm hap hs hb hf
  have b : ∀ p : Prop, [Decidable p] → (decide p = true ↔ p) := fun p _ => decide_eq_true_iff
  rcases C61_partial h ha (quietArgs_runs hq) w hk hk' (b (∃ a ∈ args, Says a .traceBasic)) (b (∃ a ∈ args, Says a .traceFor))
    (fun a h => (mem_quietArgs.1 h).2) (quietArgs_seedings args)
    (fun src b st h1 h2 => (listed_names hl hasc h0 hp hsm hap (by rw [← hf]; exact h1) h2).2) with ⟨x, q1, q2⟩ | ⟨_, _, _, _, _, _, _, q2, _⟩
  · rw [h1] at q2
    rw [q1, ← q2]
  · rw [h1] at q2; cases q2

open Demo in
/-- The program of `Demo.counting` as a file, traced. -/
example : ∃ n0, ∀ h : Host, h.ctx.env = Demo.env → (∀ k, h.ctx.brk k = false) → h.files "c.bas".toList =
      some "10 FOR I=1 TO 3\n20 IF I=2 THEN PRINT \"two\";:GOTO 40 ELSE GOSUB 70\n30 PRINT I*I,\n40NEXT I\n50 PRINT:LET S$=\"end\":PRINT S$\n60 STOP\n70 A=A+I:RETURN:REM sum\n".toList →
      n0 ≤ h.ctx.fuel → ∃ w', lbasic h ["-q".toList, "c.bas".toList, "-t".toList, "--trace-for".toList] {} = .ok (0, w') ∧
        Marked true true counting w'.out " 1      two 9   \nend\n60 STOP\nStopped\n".toList := by
  have ha : RunsFile ["-q".toList, "c.bas".toList, "-t".toList, "--trace-for".toList] "c.bas".toList := by
    refine ⟨?_, by decide, by decide, by decide, ?_, by decide⟩
    · intro a ha
      simp only [List.mem_cons, List.not_mem_nil, or_false] at ha
      rcases ha with rfl | rfl | rfl | rfl
      · exact .inr ⟨.quiet, by decide, by decide, by decide⟩
      · exact .inl (by decide)
      · exact .inr ⟨.traceBasic, by decide, by decide, by decide⟩
      · exact .inr ⟨.traceFor, by decide, by decide, by decide⟩
    · intro a ha m
      simp only [List.mem_cons, List.not_mem_nil, or_false] at ha
      rcases ha with rfl | rfl | rfl | rfl <;> cases m <;> decide
  have hload : loadSourceFile "c.bas".toList (some "10 FOR I=1 TO 3\n20 IF I=2 THEN PRINT \"two\";:GOTO 40 ELSE GOSUB 70\n30 PRINT I*I,\n40NEXT I\n50 PRINT:LET S$=\"end\":PRINT S$\n60 STOP\n70 A=A+I:RETURN:REM sum\n".toList) =
      .ok (some ⟨some "c.bas".toList, counting⟩) := by decide +kernel
  obtain ⟨_, hl, hasc, h0⟩ := (C03_load_iff _ _ _).1 hload
  have hps : linesOf (⟨some "c.bas".toList, counting⟩ : Source).pairs = counting := by decide
  have hst : Src.start countingProgram (newVm false false false (seeded Demo.env {} (seedings ["-q".toList, "c.bas".toList, "-t".toList, "--trace-for".toList]))) =
      Src.start countingProgram countingVm := rfl
  have hc : counted (Src.steps Demo.env countingProgram 100 (Src.start countingProgram countingVm)) = true := by decide +kernel
  cases hs : Src.steps Demo.env countingProgram 100 (Src.start countingProgram countingVm) with
  | go c => rw [hs] at hc; cases hc
  | stop e c =>
    rw [hs] at hc
    cases e with
    | stopped =>
      simp only [counted, Bool.and_eq_true, decide_eq_true_eq] at hc
      obtain ⟨n0, h⟩ := C57_traced_partial ha (any := false) (by decide) (basic := true) (loops := true) (by decide) (by decide) hl hasc h0 (prog := countingProgram)
        (by rw [hps]; exact counting_lines) counting_ready.fits counting_ready.small counting_ready.apart (env := Demo.env) (w := {}) (k := 100) (e := .stopped)
        (c := c) (by rw [hst]; exact hs) (by intro h; cases h)
      refine ⟨n0, fun h' he hb hf hn => ?_⟩
      obtain ⟨w', t, h1, h2, h3, h4⟩ := (h h' he hb hf).2 hn
      refine ⟨w', h1, ?_⟩
      have h4 := h4 (by intro h; cases h)
      have hr : report ["-q".toList, "c.bas".toList, "-t".toList, "--trace-for".toList] h'.memory = [] := if_neg (by decide)
      have hbn : banner ["-q".toList, "c.bas".toList, "-t".toList, "--trace-for".toList] = [] := if_pos (by decide)
      rw [hr, hbn] at h3
      have h3 : w'.out = t := by rw [h3]; simp
      rw [hps, hc.2, hc.1.1.1.1] at h4
      rw [h3]
      exact h4
    | _ => cases hc

example (h : Host) (hb : ∀ k, h.ctx.brk k = false) (hf : h.files "x".toList = some "10 LET N = N + 1 : ? N ; : GOTO 10\n".toList) :
    lbasic h ["x".toList, "-t".toList] {} = .halt .fuel := by
  have ha : RunsFile ["x".toList, "-t".toList] "x".toList := by
    refine ⟨?_, by decide, by decide, by decide, ?_, by decide⟩
    · intro a ha
      simp only [List.mem_cons, List.not_mem_nil, or_false] at ha
      rcases ha with rfl | rfl
      · exact .inl (by decide)
      · exact .inr ⟨.traceBasic, by decide, by decide, by decide⟩
    · intro a ha m
      simp only [List.mem_cons, List.not_mem_nil, or_false] at ha
      rcases ha with rfl | rfl <;> cases m <;> decide
  have hload : loadSourceFile "x".toList (some "10 LET N = N + 1 : ? N ; : GOTO 10\n".toList) = .ok (some ⟨some "x".toList, Demo.endless⟩) := by decide +kernel
  obtain ⟨_, hl, hasc, h0⟩ := (C03_load_iff _ _ _).1 hload
  have hps : linesOf (⟨some "x".toList, Demo.endless⟩ : Source).pairs = Demo.endless := by decide
  exact C57_traced_forever_partial ha (any := false) (by decide) hl hasc h0 (by rw [hps]; exact (Demo.endless_ready {}).lines) (Demo.endless_ready {}).fits (Demo.endless_ready {}).small
    (Demo.endless_ready {}).apart (fun k => Demo.endless_go _ k _ rfl (by show 0 < 3; decide)) hb hf

end LB
