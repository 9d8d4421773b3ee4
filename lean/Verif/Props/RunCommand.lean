import Verif.Props.Semantics
import Verif.Props.Fresh
import Verif.Proofs.Monitor
import Verif.Proofs.Ascending
/-
C52 for the command RUN, in any session.
-/
namespace LB
open LB.Spec _root_.Spec

theorem interactStep_run (ctx : Ctx) (s : LB.Session) {line rest : List Char} (hq : s.quit = false) (hin : s.vm.world.stdin = line ++ '\n' :: rest)
    (hl : SaysRun line) : interactStep ctx s =
      match runProgram ctx.env ctx.brk ctx.fuel (vmClearValues (afterPrompt s.vm rest)) with
      | .halt h => .halt h
      | .ok (_, vm) => .ok (some { s with vm := vm }) := by
  obtain ⟨⟨pre, w, tail, rfl, h1, h2, h3, h4⟩, h5, h6, h7⟩ := hl
  unfold interactStep
  rw [hq, hin, getLine_line _ _ rest h5 h6 h7]
  simp only [Bool.false_eq_true, if_false]
  rw [interpret_command ctx _ h1 h3 h4 (k := .run) (n := "RUN") (by decide) h2]
  simp only [command, LB.Session.withVm, putOut, afterPrompt]
  generalize runProgram ctx.env ctx.brk ctx.fuel _ = r
  cases r <;> simp [hq]

/-- A fresh machine that holds the lines. -/
def freshVm (any : Bool) (src : Source) (w : World) (line : CStr) : VM :=
  { newVm any false false w with stored := ⟨some src, none, none⟩, input := line }

theorem freshVm_ready {any : Bool} {vm : VM} {src : Source} {prog : Src.Program} (hp : Src.Holds any vm src prog) (hs : Ascending (src.lines.map (·.num))) (w : World) (line : CStr) :
    Src.Ready (vmClearValues (freshVm any src w line)) src prog :=
  ⟨rfl, rfl, rfl, hs, hp.lines, hp.fits, hp.small, hp.apart⟩

/-- In a session, RUN does what it would do if the program had just been typed. -/
theorem holds_run {any : Bool} {may : Cmd → VM → Prop} (hm : ∀ vm, ¬ may .renum vm) {vm : VM} (h : State may .idle vm) {src : Source} {prog : Src.Program}
    (hp : Src.Holds any vm src prog) (hn : vm.st.psym.length ≤ 65536) :
    Src.start prog (vmClearValues (freshVm any src vm.world vm.input)) = Src.start prog vm ∧
    (∀ vm', ensureProgramCompiled (vmClearValues vm) = .ok (true, vm') → vm'.st.psym.length ≤ 65536) ∧
      ∀ env brk n, (∃ e a' b', runProgram env brk n (vmClearValues vm) = .ok (e, a') ∧
          runProgram env brk n (vmClearValues (freshVm any src vm.world vm.input)) = .ok (e, b') ∧ a'.world = b'.world ∧ (e ≠ none → a'.input = b'.input ∧ a'.stopped = b'.stopped)) ∨
        ∃ x, runProgram env brk n (vmClearValues vm) = .halt x ∧ runProgram env brk n (vmClearValues (freshVm any src vm.world vm.input)) = .halt x := by
  have hr := state_rooted hm h
  have hn' : ∀ vm', ensureProgramCompiled (vmClearValues vm) = .ok (true, vm') → vm'.st.psym.length ≤ 65536 := by
    intro vm' hc
    cases hb : vm.stored.bcode with
    | some b =>
      simp only [ensureProgramCompiled, vmClearValues, hp.source, hb, Outcome.ok.injEq, Prod.mk.injEq, true_and] at hc
      subst hc
      simpa [clearSymbolTableValues] using hn
    | none =>
      obtain ⟨code, d, st', h1, h2, h3, h4, h5, h6⟩ := program_source (wellNamed_fresh (vmClearValues vm).st) (ready_proper hp.apart _) hp.lines
      have hi : vm.stored.index = none := (state_base h).noIndex hb
      have e1 : (vmClearValues vm).stored = vm.stored := rfl
      have e2 : (vmClearValues vm).keywordsAnywhere = vm.keywordsAnywhere := rfl
      simp only [ensureProgramCompiled, e1, e2, hp.source, hb, hi, hp.keywords, h1, Option.isSome_none, Bool.false_eq_true, if_false] at hc
      have hst : vm'.st = symMakeUnknownArray st' := by
        split at hc
        · cases hc
        · simp only [Outcome.ok.injEq, Prod.mk.injEq, true_and] at hc
          subst hc; rfl
      have hps : (initBuiltins (clearSymbolTableNames (vmClearValues vm).st)).psym = builtinSymbols := initBuiltins_psym
      have hs := hp.small
      have h26 : builtinSymbols.length = 26 := by decide
      have := h5.most
      rw [hps, h26] at this
      rw [hst]
      simp only [symMakeUnknownArray, List.length_map]
      omega
  refine ⟨?_, hn', fun env brk n => ?_⟩
  · simp only [Src.start, vmClearValues, freshVm, newVm, hr.prompt]
  · exact readies_run hp.source rfl (ready hm h hp.source) (b := freshVm any src vm.world vm.input)
      (readies_uncompiled (vm := freshVm any src vm.world vm.input) rfl rfl rfl ⟨rfl, rfl⟩ rfl) hp.keywords hp.traceBasic hp.traceFor rfl rfl hn' env brk n

/-- What a run leaves alone. -/
theorem runProgram_keeps {env : Env} {brk : Nat → Bool} {n : Nat} {vm vm' : VM} {e : RunEnd} (hr : runProgram env brk n vm = .ok (some e, vm')) :
    ∃ w, ensureProgramCompiled vm = .ok (true, w) ∧ vm'.st.psym.length = w.st.psym.length ∧ vm'.stored.source = vm.stored.source ∧
      vm'.keywordsAnywhere = vm.keywordsAnywhere ∧ vm'.traceBasic = vm.traceBasic ∧ vm'.traceFor = vm.traceFor := by
  have hloop : ∀ {m k : Nat} {a b : VM} {e : RunEnd}, vmLoop env brk m k a = .ok (e, b) → b.st.psym.length = a.st.psym.length ∧ b.stored = a.stored ∧
      b.keywordsAnywhere = a.keywordsAnywhere ∧ b.traceBasic = a.traceBasic ∧ b.traceFor = a.traceFor := by
    intro m
    induction m with
    | zero => intro k a b e h; simp [vmLoop] at h
    | succ m ih =>
      intro k a b e h
      have hstep : ∀ {r : Res Unit} {c : VM}, V.execute env a = r → (∃ i, At a i) → (r = .ok () c ∨ ∃ e, r = .err e c) → c.st.psym.length = a.st.psym.length ∧ c.stored = a.stored ∧
          c.keywordsAnywhere = a.keywordsAnywhere ∧ c.traceBasic = a.traceBasic ∧ c.traceFor = a.traceFor := by
        rintro r c hx ⟨i, hat⟩ hv
        have hmv : Moved a c := execute_moved hat (by rcases hv with rfl | ⟨e, rfl⟩; exact .inl hx; exact .inr ⟨e, hx⟩)
        have hcl : V.Closed (fun _ => True) (fun w => (w.keywordsAnywhere, w.traceBasic, w.traceFor) = (a.keywordsAnywhere, a.traceBasic, a.traceFor)) := by
          refine V.closed_of_field _ (fun w => (w.keywordsAnywhere, w.traceBasic, w.traceFor)) _ ?_ ?_ ?_ ?_ ?_ ?_ ?_ ?_
            (.inl trivial) ?_ ?_ ?_ <;> intros <;> rfl
        have h := V.keeps_execute hcl env a rfl
        rw [hx] at h
        refine ⟨hmv.length, hmv.stored, ?_⟩
        rcases hv with rfl | ⟨e, rfl⟩ <;>
        · simp only [Res.All, Prod.mk.injEq] at h
          exact h
      simp only [vmLoop] at h
      split at h
      · cases h
      · rename_i used hu
        split at h
        · rename_i hg
          have hat : ∃ i, At a i := by
            unfold curUsed V.curBcode at hu
            cases hc : a.cs.code with
            | none => rw [hc] at hu; cases hu
            | some r =>
              rw [hc] at hu
              cases hb : (V.codeOf a r).bcode with
              | none => simp only [hb] at hu; cases hu
              | some bc =>
                simp only [hb] at hu
                cases hu
                exact ⟨bc.inst[a.cs.pc]'hg.1, r, bc, hc, hb, List.getElem?_eq_getElem hg.1⟩
          split at h
          · rename_i hx
            obtain ⟨k1, k2, k3, k4, k5⟩ := hstep hx hat (.inl rfl)
            obtain ⟨l1, l2, l3, l4, l5⟩ := ih h
            exact ⟨l1.trans k1, l2.trans k2, l3.trans k3, l4.trans k4, l5.trans k5⟩
          · rename_i hx
            simp only [Outcome.ok.injEq, Prod.mk.injEq] at h
            obtain ⟨-, rfl⟩ := h
            exact hstep hx hat (.inr ⟨_, rfl⟩)
          · cases h
        · simp only [Outcome.ok.injEq, Prod.mk.injEq] at h
          obtain ⟨-, rfl⟩ := h
          exact ⟨rfl, rfl, rfl, rfl, rfl⟩
  unfold runProgram at hr
  split at hr
  · simp at hr
  · split at hr
    · simp at hr
    · simp at hr
    · rename_i w hc
      have hw : w.stored.source = vm.stored.source ∧ w.keywordsAnywhere = vm.keywordsAnywhere ∧ w.traceBasic = vm.traceBasic ∧ w.traceFor = vm.traceFor := by
        unfold ensureProgramCompiled at hc
        split at hc
        · split at hc
          · simp at hc
          · split at hc
            · simp at hc
            · simp at hc
            · split at hc
              · simp at hc
              · simp at hc; subst hc; simp [resetControlState]
        · simp at hc; rw [hc]; simp
      rw [run_loop (by simp)] at hr
      cases hl : vmLoop env brk n 0 { ({ resetControlState w with cs := { code := some .stored, sourceLine := 0, pc := 0 } } : VM) with stopped := false } with
      | halt x => simp [hl] at hr
      | ok q =>
        obtain ⟨e', w'⟩ := q
        simp only [hl, Outcome.ok.injEq, Prod.mk.injEq, Option.some.injEq] at hr
        obtain ⟨rfl, rfl⟩ := hr
        obtain ⟨k1, k2, k3, k4, k5⟩ := hloop hl
        obtain ⟨x, y, hxy⟩ := recordStopped_frame e' w'
        rw [hxy]
        refine ⟨w, hc, k1, ?_, k3.trans hw.2.1, k4.trans hw.2.2.1, k5.trans hw.2.2.2⟩
        show w'.stored.source = _
        rw [k2]; exact hw.1

/-- A session in which RUN was typed. -/
structure RunDone (may : Cmd → VM → Prop) (s s' : LB.Session) (c : Src.Config) : Prop where
  state : State may .idle s'.vm
  quit : s'.quit = false
  files : s'.files = s.files
  stdin : s'.vm.world.stdin = c.stdin
  rng : s'.vm.world.rng = c.rng
  ticks : s'.vm.world.ticks = c.ticks
  input : s'.vm.input = c.line
  source : s'.vm.stored.source = s.vm.stored.source
  keywords : s'.vm.keywordsAnywhere = s.vm.keywordsAnywhere
  traceBasic : s'.vm.traceBasic = s.vm.traceBasic
  traceFor : s'.vm.traceFor = s.vm.traceFor
  names : s'.vm.st.psym.length ≤ 65536

theorem session_run {any : Bool} {may : Cmd → VM → Prop} (hm : ∀ vm, ¬ may .renum vm) {src : Source} {prog : Src.Program} {env : Env} {w : World} {buf rest : CStr} {k : Nat} {e : Src.Ending} {c : Src.Config}
    (hs : Src.steps env prog k (Src.start prog (freshVm any src { w with stdin := rest } buf)) = .stop e c) (hu : e ≠ .unknown) :
    ∃ n0, ∀ (ctx : Ctx) (s : LB.Session) (line : List Char), State may .idle s.vm → s.quit = false → Src.Holds any s.vm src prog → s.vm.st.psym.length ≤ 65536 → SaysRun line →
      s.vm.world = { w with stdin := line ++ '\n' :: rest } → s.vm.input = buf → ctx.env = env → (∀ k, ctx.brk k = false) →
      (ctx.fuel < n0 → interactStep ctx s = .halt .fuel) ∧
      (n0 ≤ ctx.fuel → ∃ s', interactStep ctx s = .ok (some s') ∧ RunDone may s s' c ∧
        (e ≠ .error .forTooDeep → s'.vm.world.out = w.out ++ "> ".toList ++ c.out ++ e.message src.lines c.place) ∧ (e ≠ .stopped → NoCont s'.vm)) := by
  by_cases hex : ∃ s : LB.Session, State may .idle s.vm ∧ Src.Holds any s.vm src prog
  · obtain ⟨s0, hst0, hp0⟩ := hex
    have hready := freshVm_ready hp0 (state_sorted hm hst0 src hp0.source) { w with out := w.out ++ "> ".toList, stdin := rest } buf
    obtain ⟨n0, u, h1, h2, h3, h4, h5, h6, h7⟩ := C52_ends_partial (brk := fun _ => false) hready (fun _ => rfl) (show Src.steps env prog k (Src.start prog _) = _ from hs) hu
    refine ⟨n0, fun ctx s line h hq hp hn hl hin hib he hb => ?_⟩
    subst he
    have hap : afterPrompt s.vm rest = { s.vm with world := { w with out := w.out ++ "> ".toList, stdin := rest } } := by
      unfold afterPrompt; rw [hin]
    have hw : State may .idle (afterPrompt s.vm rest) := .world _ h
    have hp' : Src.Holds any (afterPrompt s.vm rest) src prog := ⟨hp.source, hp.keywords, hp.traceBasic, hp.traceFor, hp.lines, hp.fits, hp.small, hp.apart⟩
    obtain ⟨-, k2, k4⟩ := holds_run hm hw hp' hn
    have hfr : freshVm any src (afterPrompt s.vm rest).world (afterPrompt s.vm rest).input = freshVm any src { w with out := w.out ++ "> ".toList, stdin := rest } buf := by
      rw [hap]; simp only [hib]
    rw [hfr] at k4
    have hbr : ctx.brk = fun _ => false := funext hb
    rw [interactStep_run ctx s hq (by rw [hin]) hl, hbr]
    refine ⟨fun hf => ?_, fun hf => ?_⟩
    · rcases k4 ctx.env (fun _ => false) ctx.fuel with ⟨e', a', b', q1, q2, q3⟩ | ⟨x, q1, q2⟩
      · rw [h1 _ hf] at q2; cases q2
      · rw [h1 _ hf] at q2; cases q2
        rw [q1]
    · rcases k4 ctx.env (fun _ => false) ctx.fuel with ⟨e', a', b', q1, q2, q3, q4⟩ | ⟨x, q1, q2⟩
      · rw [h2 _ hf] at q2; cases q2
        rw [q1]
        obtain ⟨v, v1, v2, v3, v4, v5, v6⟩ := runProgram_keeps q1
        refine ⟨_, rfl, ⟨state_runProgram (.clearValues hw) q1, hq, rfl, ?_, ?_, ?_, ?_, v3, v4, v5, v6, ?_⟩, fun hd => ?_, fun hd => ?_⟩
        · show a'.world.stdin = _
          rw [q3, h4]
        · show a'.world.rng = _
          rw [q3]; exact congrArg Store.rng h3
        · show a'.world.ticks = _
          rw [q3]; exact congrArg Store.ticks h3
        · exact (q4 (by simp)).1.trans h6
        · show a'.st.psym.length ≤ _
          rw [v2]; exact k2 v v1
        · show a'.world.out = _
          rw [q3, h5 hd]; rfl
        · refine NoCont.ran q1 rfl ?_
          rw [(q4 (by simp)).2]
          cases hst : u.stopped with
          | false => rfl
          | true => exact absurd (h7.1 hst) hd
      · rw [h2 _ hf] at q2; cases q2
  · exact ⟨0, fun ctx s line h hq hp => absurd ⟨s, h, hp⟩ hex⟩

/-- C52 in a session: whatever was typed before (but RENUM), and however often the program was run, stopped, interrupted or
ended by an error, a line that says RUN prints what the statements of the stored program print, from variables that are 0 or
empty, and reads the lines typed after it.  (`fuel` stands for a run of more than `ctx.fuel` instructions.)
Missing: as for `C52_ends_partial`; at most 65536 names are in use. -/
theorem C52_session_partial {any : Bool} {may : Cmd → VM → Prop} (hm : ∀ vm, ¬ may .renum vm) {s : LB.Session} (h : State may .idle s.vm) (hq : s.quit = false)
    {src : Source} {prog : Src.Program} (hp : Src.Holds any s.vm src prog) (hn : s.vm.st.psym.length ≤ 65536)
    {line rest : List Char} (hl : SaysRun line) (hin : s.vm.world.stdin = line ++ '\n' :: rest)
    {env : Env} {k : Nat} {e : Src.Ending} {c : Src.Config} (hs : Src.steps env prog k (Src.start prog (afterPrompt s.vm rest)) = .stop e c)
    (hu : e ≠ .unknown) :
    ∃ n0, ∀ ctx : Ctx, ctx.env = env → (∀ k, ctx.brk k = false) →
      (ctx.fuel < n0 → interactStep ctx s = .halt .fuel) ∧
      (n0 ≤ ctx.fuel → ∃ s', interactStep ctx s = .ok (some s') ∧ State may .idle s'.vm ∧ s'.quit = false ∧ s'.vm.world.stdin = c.stdin ∧
        (e ≠ .error .forTooDeep → s'.vm.world.out = s.vm.world.out ++ "> ".toList ++ c.out ++ e.message src.lines c.place)) := by
  have hst : Src.start prog (freshVm any src { s.vm.world with stdin := rest } s.vm.input) = Src.start prog (afterPrompt s.vm rest) := by
    have hr := state_rooted hm h
    simp only [Src.start, afterPrompt, freshVm, newVm, hr.prompt]
  obtain ⟨n0, hn0⟩ := session_run (may := may) hm (any := any) (src := src) (w := s.vm.world) (buf := s.vm.input) (rest := rest) (by rw [hst]; exact hs) hu
  refine ⟨n0, fun ctx he hb => ?_⟩
  obtain ⟨h1, h2⟩ := hn0 ctx s line h hq hp hn hl (by rw [← hin]) rfl he hb
  refine ⟨h1, fun hf => ?_⟩
  obtain ⟨s', k1, k2, k3⟩ := h2 hf
  exact ⟨s', k1, k2.state, k2.quit, k2.stdin, k3.1⟩

/-- C52 in a session, for programs that run for ever. -/
theorem C52_session_forever_partial {any : Bool} {may : Cmd → VM → Prop} (hm : ∀ vm, ¬ may .renum vm) {s : LB.Session} (h : State may .idle s.vm) (hq : s.quit = false)
    {src : Source} {prog : Src.Program} (hp : Src.Holds any s.vm src prog) (hn : s.vm.st.psym.length ≤ 65536)
    {line rest : List Char} (hl : SaysRun line) (hin : s.vm.world.stdin = line ++ '\n' :: rest)
    {ctx : Ctx} (hb : ∀ k, ctx.brk k = false) (hs : ∀ k, ∃ c, Src.steps ctx.env prog k (Src.start prog (afterPrompt s.vm rest)) = .go c) :
    interactStep ctx s = .halt .fuel := by
  have hw : State may .idle (afterPrompt s.vm rest) := .world _ h
  have hp' : Src.Holds any (afterPrompt s.vm rest) src prog := ⟨hp.source, hp.keywords, hp.traceBasic, hp.traceFor, hp.lines, hp.fits, hp.small, hp.apart⟩
  obtain ⟨k2, -, k4⟩ := holds_run hm hw hp' hn
  rw [← k2] at hs
  have hf := C52_forever_partial (freshVm_ready hp' (state_sorted hm hw src hp'.source) _ _) hb hs ctx.fuel
  rw [interactStep_run ctx s hq hin hl]
  rcases k4 ctx.env ctx.brk ctx.fuel with ⟨e', a', b', q1, q2, q3⟩ | ⟨x, q1, q2⟩
  · rw [hf] at q2; cases q2
  · rw [hf] at q2; cases q2
    rw [q1]

/-- Lines that say RUN. -/
theorem Demo.saysRun : SaysRun " Run 2".toList where
  word := ⟨" ".toList, "Run".toList, " 2".toList, by decide, by unfold Blanks; decide, by decide, by decide, by intro c hc; cases hc; decide⟩
  whole := by decide

open Demo in
set_option maxRecDepth 100000 in
/-- The program of `Demo.counting` has run and stopped inside a session; it is run again. -/
example : ∃ s : LB.Session, State (fun k _ => k ≠ .renum) .idle s.vm ∧ s.vm.stored.bcode ≠ none ∧ numNamed s.vm.st "a".toList = .fin 4 ∧
    ∃ n0, ∀ ctx : Ctx, ctx.env = Demo.env → (∀ k, ctx.brk k = false) → n0 ≤ ctx.fuel → ∃ s', interactStep ctx s = .ok (some s') ∧
      s'.vm.world.out = ">  1      two 9   \nend\n60 STOP\nStopped\n".toList ∧ s'.vm.world.stdin = "LIST\n".toList := by
  obtain ⟨vm, h1, h2⟩ := Demo.left_with (may := fun k _ => k ≠ .renum) (stdin := "") (brk := fun _ => false)
    (lines := [(10, "FOR I=1 TO 3"), (20, "IF I=2 THEN PRINT \"two\";:GOTO 40 ELSE GOSUB 70"), (30, "PRINT I*I,"), (40, "NEXT I"),
      (50, "PRINT:LET S$=\"end\":PRINT S$"), (60, "STOP"), (70, "A=A+I:RETURN:REM sum")])
    (P := fun vm => vm.stored.source == some ⟨none, counting⟩ && !vm.keywordsAnywhere && !vm.traceBasic && !vm.traceFor && vm.stored.bcode.isSome &&
      decide (numNamed vm.st "a".toList = .fin 4) && decide (vm.st.psym.length ≤ 65536) && vm.input.isEmpty && vm.inputPrompt && decide (vm.world = {})) (by decide +kernel)
  simp only [Bool.and_eq_true, beq_iff_eq, Bool.not_eq_true', decide_eq_true_eq, List.isEmpty_iff, Option.isSome_iff_ne_none] at h2
  obtain ⟨⟨⟨⟨⟨⟨⟨⟨⟨k1, k2⟩, k3⟩, k4⟩, k5⟩, k6⟩, k7⟩, k8⟩, k9⟩, k10⟩ := h2
  let s : LB.Session := { vm := { vm with world := { stdin := " Run 2\nLIST\n".toList } }, files := fun _ => none, quit := false }
  have hp : Src.Holds false s.vm ⟨none, counting⟩ countingProgram := ⟨k1, k2, k3, k4, counting_lines, counting_ready.fits, counting_ready.small, counting_ready.apart⟩
  refine ⟨s, .world _ h1, k5, k6, ?_⟩
  have hst : Src.start countingProgram (afterPrompt s.vm "LIST\n".toList) = Src.start countingProgram { countingVm with world := { stdin := "LIST\n".toList } } := by
    simp only [Src.start, afterPrompt, s, k8, k9, countingVm, newVm]
  have hc : counted (Src.steps Demo.env countingProgram 100 (Src.start countingProgram (afterPrompt s.vm "LIST\n".toList))) = true := by rw [hst]; decide +kernel
  have hi : (match Src.steps Demo.env countingProgram 100 (Src.start countingProgram (afterPrompt s.vm "LIST\n".toList)) with
      | .stop _ c => c.stdin == "LIST\n".toList | _ => false) = true := by rw [hst]; decide +kernel
  cases hs : Src.steps Demo.env countingProgram 100 (Src.start countingProgram (afterPrompt s.vm "LIST\n".toList)) with
  | go c => rw [hs] at hc; cases hc
  | stop e c =>
    rw [hs] at hc hi
    cases e with
    | stopped =>
      simp only [counted, Bool.and_eq_true, decide_eq_true_eq] at hc
      obtain ⟨n0, h⟩ := C52_session_partial (fun _ h => absurd rfl h) (s := s) (.world _ h1) rfl hp k7 Demo.saysRun rfl hs (by intro h; cases h)
      refine ⟨n0, fun ctx he hb hf => ?_⟩
      obtain ⟨s', q1, -, -, q2, q3⟩ := (h ctx he hb).2 hf
      refine ⟨s', q1, ?_, q2.trans (by simpa using hi)⟩
      rw [q3 (by intro h; cases h), hc.2, hc.1.1.1.1, show s.vm.world.out = [] from rfl]
      decide +kernel
    | finished => cases hc
    | error er => cases hc
    | unknown => cases hc

example (ctx : Ctx) (hb : ∀ k, ctx.brk k = false) (rest : List Char) :
    interactStep ctx ⟨{ newVm false false false { stdin := "run".toList ++ '\n' :: rest } with stored := ⟨some ⟨none, Demo.endless⟩, none, none⟩ }, fun _ => none, false⟩ = .halt .fuel := by
  have he : Demo.entered [(10, "LET N = N + 1 : ? N ; : GOTO 10")] (some (newVm false false false { stdin := "run".toList ++ '\n' :: rest })) =
      some { newVm false false false { stdin := "run".toList ++ '\n' :: rest } with stored := ⟨some ⟨none, Demo.endless⟩, none, none⟩ } := rfl
  have hr := Demo.endless_ready { stdin := "run".toList ++ '\n' :: rest }
  exact C52_session_forever_partial (may := fun _ _ => False) (fun _ h => h) (Demo.entered_state (.start ..) he) rfl
    ⟨rfl, rfl, rfl, rfl, hr.lines, hr.fits, hr.small, hr.apart⟩ (show (initBuiltins newSymbolTable).psym.length ≤ 65536 by decide +kernel) ⟨⟨[], "run".toList, [], rfl, by unfold Blanks; decide, by decide, by decide, by decide⟩, by decide⟩ rfl hb
    (fun k => Demo.endless_go _ k _ rfl (by show 0 < 3; decide))

end LB
