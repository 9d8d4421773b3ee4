import Verif.Props.CommandLine
import Verif.Props.Program
import Verif.Props.Semantics
/- C57: running a file named on the command line. -/
namespace LB
open LB.Spec _root_.Spec

/-- What is printed before anything else. -/
def Spec.banner (args : List CStr) : CStr := if ∃ a ∈ args, Says a .quiet then [] else versionText

/-- What is printed at the very end. -/
def Spec.report (args : List CStr) (memory : CStr) : CStr := if ∃ a ∈ args, Says a .memory then memory else []

/-- The lines of a file. -/
def Spec.linesOf (ps : List (Nat × List Char)) : List SrcLine := ps.map (fun p => ⟨p.1, p.2⟩)

/-- The arguments ask for running a file with nothing traced. -/
structure Spec.AsksRun (args : List CStr) (f : CStr) : Prop where
  usable : ∀ a ∈ args, Usable a
  one : named args ≤ 1
  mem : f ∈ args
  file : IsFile f
  mode : ∀ a ∈ args, ∀ m, Says a (.mode m) → m = .run
  plain : ∀ a ∈ args, ∀ s ∈ [Switch.version, .traceBasic, .traceFor], ¬ Says a s

/-- The arguments ask for running the file, with any switches. -/
structure Spec.RunsFile (args : List CStr) (f : CStr) : Prop where
  usable : ∀ a ∈ args, Usable a
  one : named args ≤ 1
  mem : f ∈ args
  file : IsFile f
  mode : ∀ a ∈ args, ∀ m, Says a (.mode m) → m = .run
  version : ∀ a ∈ args, ¬ Says a .version

/-- The machine was started with the switches that the arguments ask for. -/
structure Spec.Switched (args : List CStr) (vm : VM) : Prop where
  keywords : vm.keywordsAnywhere = true ↔ ∃ a ∈ args, Says a .keywords
  traceBasic : vm.traceBasic = true ↔ ∃ a ∈ args, Says a .traceBasic
  traceFor : vm.traceFor = true ↔ ∃ a ∈ args, Says a .traceFor

theorem lbasic_file (h : Host) {args : List CStr} {f : CStr} (w : World) (ha : RunsFile args f) {vm : VM} (hv : Switched args vm) :
    lbasic h args w =
      match vmLoadSource (newVm vm.keywordsAnywhere vm.traceBasic vm.traceFor ((seeded h.ctx.env w (seedings args)).put (banner args))) f (h.files f) with
      | .halt e => .halt e
      | .ok (false, vm) => .ok (0, vm.world.put (report args h.memory))
      | .ok (true, vm) =>
        match runProgram h.ctx.env h.ctx.brk h.ctx.fuel vm with
        | .halt e => .halt e
        | .ok (_, vm') => .ok (0, vm'.world.put (report args h.memory)) := by
  obtain ⟨opt, h1, h2⟩ := C56_options h.ctx.env w args ha.usable ha.one
  have b : ∀ {x : Bool} {p : Prop}, (x = true ↔ p) → ¬ p → x = false := by intro x p h1 h2; cases x <;> simp_all
  have s : ∀ {x y : Bool} {p : Prop}, (x = true ↔ p) → (y = true ↔ p) → x = y := by intro x y p h1 h2; cases x <;> cases y <;> simp_all
  have hver := b h2.version (fun ⟨a, h3, h4⟩ => ha.version a h3 h4)
  have hk := s h2.keywords hv.keywords
  have ht := s h2.traceBasic hv.traceBasic
  have hf := s h2.traceFor hv.traceFor
  have hn := (h2.file f).2 ⟨ha.mem, ha.file⟩
  have hm : opt.mode = .no ∨ opt.mode = .run := by
    rcases (h2.mode opt.mode).1 rfl with ⟨h3, _⟩ | ⟨b1, a, b2, rfl, h4, _⟩
    · exact .inl h3
    · exact .inr (ha.mode a (by simp) _ h4)
  have hq : (if opt.quiet = true then seeded h.ctx.env w (seedings args) else (seeded h.ctx.env w (seedings args)).put versionText) =
      (seeded h.ctx.env w (seedings args)).put (banner args) := by
    unfold banner
    by_cases hq : ∃ a ∈ args, Says a .quiet
    · rw [if_pos hq, if_pos (h2.quiet.2 hq)]; simp [World.put]
    · rw [if_neg hq, if_neg (fun h => hq (h2.quiet.1 h))]
  have hfin : ∀ w : World, finish h opt 0 w = (0, w.put (report args h.memory)) := by
    intro w
    unfold report finish
    by_cases hq : ∃ a ∈ args, Says a .memory
    · rw [if_pos hq, h2.memory.2 hq]; rfl
    · rw [if_neg hq, b h2.memory hq]; simp [World.put]
  simp only [lbasic, h1, hver, hn, hq, Bool.false_eq_true, if_false]
  have hp : processFile h opt f ((seeded h.ctx.env w (seedings args)).put (banner args)) =
      match vmLoadSource (newVm vm.keywordsAnywhere vm.traceBasic vm.traceFor ((seeded h.ctx.env w (seedings args)).put (banner args))) f (h.files f) with
      | .halt e => .halt e
      | .ok (false, vm) => .ok (0, vm.world)
      | .ok (true, vm) =>
        match runProgram h.ctx.env h.ctx.brk h.ctx.fuel vm with
        | .halt e => .halt e
        | .ok (_, vm') => .ok (0, vm'.world) := by
    rw [processFile]
    rcases hm with hm | hm <;> simp only [hm, hk, ht, hf] <;> rfl
  rw [hp]
  generalize vmLoadSource _ f (h.files f) = r
  cases r with
  | halt e => rfl
  | ok r =>
    obtain ⟨ok, vm⟩ := r
    cases ok with
    | false => simp only [hfin]
    | true =>
      simp only
      generalize runProgram h.ctx.env h.ctx.brk h.ctx.fuel vm = q
      cases q with
      | halt e => rfl
      | ok q => simp only [hfin]

theorem lbasic_runs (h : Host) {args : List CStr} {f : CStr} (w : World) (ha : AsksRun args f) {any : Bool} (hk : any = true ↔ ∃ a ∈ args, Says a .keywords) :
    lbasic h args w =
      match vmLoadSource (newVm any false false ((seeded h.ctx.env w (seedings args)).put (banner args))) f (h.files f) with
      | .halt e => .halt e
      | .ok (false, vm) => .ok (0, vm.world.put (report args h.memory))
      | .ok (true, vm) =>
        match runProgram h.ctx.env h.ctx.brk h.ctx.fuel vm with
        | .halt e => .halt e
        | .ok (_, vm') => .ok (0, vm'.world.put (report args h.memory)) := by
  have b : ∀ {p : Prop}, ¬ p → (false = true ↔ p) := by intro p h; simp [h]
  exact lbasic_file h w ⟨ha.usable, ha.one, ha.mem, ha.file, ha.mode, fun a h1 => ha.plain a h1 .version (by simp)⟩ (vm := newVm any false false w)
    ⟨hk, b fun ⟨a, h3, h4⟩ => ha.plain a h3 .traceBasic (by simp) h4,
      b fun ⟨a, h3, h4⟩ => ha.plain a h3 .traceFor (by simp) h4⟩

theorem file_ready {any : Bool} {text f : CStr} {ps : List (Nat × List Char)} {prog : Src.Program} {w : World} (hl : Listing text ps)
    (hasc : Ascending (ps.map (·.1))) (h0 : ∀ n t, (n, t) ∈ ps → n ≠ 0) (hp : Src.LinesAs any (linesOf ps) prog) (hfit : prog.Fits) (hsm : prog.vars ≤ 65510) (hap : prog.Apart) :
    ∃ vm, vmLoadSource (newVm any false false w) f (some text) = .ok (true, vm) ∧ Src.Ready vm ⟨some f, linesOf ps⟩ prog ∧ vm.world = w ∧
      Src.start prog vm = Src.start prog (newVm false false false w) := by
  have hpairs : (⟨some f, linesOf ps⟩ : Source).pairs = ps := by
    simp [Source.pairs, linesOf, List.map_map, Function.comp_def, SrcLine.pair]
  have hload : loadSourceFile f (some text) = .ok (some ⟨some f, linesOf ps⟩) := by
    rw [C03_load_iff]
    rw [hpairs]
    exact ⟨rfl, hl, hasc, h0⟩
  refine ⟨storedProgramChanged { newVm any false false w with stored := ⟨some ⟨some f, linesOf ps⟩, none, none⟩ }, by simp only [vmLoadSource, hload]; rfl, ⟨rfl, rfl, rfl, ?_, hp, hfit, hsm, hap⟩, rfl, rfl⟩
  simpa [linesOf, List.map_map, Function.comp_def] using hasc

/-- C57.  Running a file named on the command line: it prints the version (unless `--quiet`), then what the statements of
the file print, then the report of memory if asked for; it reads the same part of the input; and the process ends with
success, however the program ends.  The text of the file is read as `--keywords-anywhere` says, if given.
Missing: as for `C52_ends_partial`. -/
theorem C57_run_partial {args : List CStr} {f text : CStr} (ha : AsksRun args f) {any : Bool} (hk : any = true ↔ ∃ a ∈ args, Says a .keywords) {ps : List (Nat × List Char)} (hl : Listing text ps)
    (hasc : Ascending (ps.map (·.1))) (h0 : ∀ n t, (n, t) ∈ ps → n ≠ 0)
    {prog : Src.Program} (hp : Src.LinesAs any (linesOf ps) prog) (hfit : prog.Fits) (hsm : prog.vars ≤ 65510) (hap : prog.Apart)
    {env : Env} {w : World} {k : Nat} {e : Src.Ending} {c : Src.Config}
    (hs : Src.steps env prog k (Src.start prog (newVm false false false (seeded env w (seedings args)))) = .stop e c) (hu : e ≠ .unknown) :
    ∃ n0, ∀ h : Host, h.ctx.env = env → (∀ k, h.ctx.brk k = false) → h.files f = some text →
      (h.ctx.fuel < n0 → lbasic h args w = .halt .fuel) ∧
      (n0 ≤ h.ctx.fuel → ∃ w', lbasic h args w = .ok (0, w') ∧ w'.stdin = c.stdin ∧
        (e ≠ .error .forTooDeep → w'.out = w.out ++ banner args ++ c.out ++ e.message (linesOf ps) c.place ++ report args h.memory)) := by
  obtain ⟨vm, h1, h2, h3, h4⟩ := file_ready (f := f) (w := (seeded env w (seedings args)).put (banner args)) hl hasc h0 hp hfit hsm hap
  have hs' : Src.steps env prog k (Src.start prog vm) = .stop e c := by rw [h4]; exact hs
  obtain ⟨n0, vm', k1, k2, _, k4, k5, -⟩ := C52_ends_partial (brk := fun _ => false) h2 (fun _ => rfl) hs' hu
  refine ⟨n0, fun h he hb hf => ?_⟩
  subst he
  have hbr : h.ctx.brk = fun _ => false := funext hb
  rw [lbasic_runs h w ha hk, hf, h1, hbr]
  refine ⟨fun hlt => by simp only [k1 _ hlt], fun hge => ?_⟩
  simp only [k2 _ hge]
  refine ⟨_, rfl, k4, fun hd => ?_⟩
  have hwo : (seeded h.ctx.env w (seedings args)).out = w.out := by cases seedings args <;> rfl
  simp only [World.put, k5 hd, h3, hwo, List.append_assoc]

/-- C57.  If the statements can be performed for ever, the process never ends. -/
theorem C57_forever_partial {args : List CStr} {f text : CStr} (ha : AsksRun args f) {any : Bool} (hk : any = true ↔ ∃ a ∈ args, Says a .keywords) {ps : List (Nat × List Char)} (hl : Listing text ps)
    (hasc : Ascending (ps.map (·.1))) (h0 : ∀ n t, (n, t) ∈ ps → n ≠ 0)
    {prog : Src.Program} (hp : Src.LinesAs any (linesOf ps) prog) (hfit : prog.Fits) (hsm : prog.vars ≤ 65510) (hap : prog.Apart) {w : World} {h : Host}
    (hs : ∀ k, ∃ c, Src.steps h.ctx.env prog k (Src.start prog (newVm false false false (seeded h.ctx.env w (seedings args)))) = .go c)
    (hb : ∀ k, h.ctx.brk k = false) (hf : h.files f = some text) : lbasic h args w = .halt .fuel := by
  obtain ⟨vm, h1, h2, h3, h4⟩ := file_ready (f := f) (w := (seeded h.ctx.env w (seedings args)).put (banner args)) hl hasc h0 hp hfit hsm hap
  rw [lbasic_runs h w ha hk, hf, h1]
  simp only [C52_forever_partial h2 hb (by rw [h4]; exact hs)]

/-- C57.  A file that is no listing with ascending numbers is refused: nothing is run and the process ends with failure.
A file that cannot be opened ends with success. -/
theorem C57_unreadable {args : List CStr} {f : CStr} (ha : AsksRun args f) (h : Host) (w : World) :
    (h.files f = none → ∃ w', lbasic h args w = .ok (0, w') ∧ w'.out = w.out ++ banner args ++ report args h.memory ∧ w'.stdin = w.stdin) ∧
    (∀ text, h.files f = some text → (¬ ∃ ps, Listing text ps ∧ Ascending (ps.map (·.1)) ∧ ∀ n t, (n, t) ∈ ps → n ≠ 0) →
      ∃ m, lbasic h args w = .halt (.exit m)) := by
  have hwo : (seeded h.ctx.env w (seedings args)).out = w.out := by cases seedings args <;> rfl
  have hwi : (seeded h.ctx.env w (seedings args)).stdin = w.stdin := by cases seedings args <;> rfl
  constructor
  · intro hf
    rw [lbasic_runs h w ha (decide_eq_true_iff (p := ∃ a ∈ args, Says a .keywords)), hf]
    exact ⟨_, rfl, by simp [World.put, newVm, hwo], by simp [World.put, newVm, hwi]⟩
  · intro text hf hno
    rw [lbasic_runs h w ha (decide_eq_true_iff (p := ∃ a ∈ args, Says a .keywords)), hf]
    rcases C03_load_total f text with ⟨src, hl⟩ | ⟨m, hl⟩
    · have := (C03_load_iff f text src).1 hl
      exact absurd ⟨src.pairs, this.2⟩ hno
    · exact ⟨m, by simp only [vmLoadSource, hl]⟩

open Demo in
/-- The program of `Demo.counting` as a file, run with the usual options. -/
example : ∃ n0, ∀ h : Host, h.ctx.env = Demo.env → (∀ k, h.ctx.brk k = false) → h.files "c.bas".toList =
      some "10 FOR I=1 TO 3\n20 IF I=2 THEN PRINT \"two\";:GOTO 40 ELSE GOSUB 70\n30 PRINT I*I,\n40NEXT I\n50 PRINT:LET S$=\"end\":PRINT S$\n60 STOP\n70 A=A+I:RETURN:REM sum\n".toList →
      n0 ≤ h.ctx.fuel → ∃ w', lbasic h ["-q".toList, "c.bas".toList, "--run".toList] {} = .ok (0, w') ∧
        w'.out = " 1      two 9   \nend\n60 STOP\nStopped\n".toList := by
  have ha : AsksRun ["-q".toList, "c.bas".toList, "--run".toList] "c.bas".toList := by
    refine ⟨?_, by decide, by decide, by decide, ?_, by decide⟩
    · intro a ha
      simp only [List.mem_cons, List.not_mem_nil, or_false] at ha
      rcases ha with rfl | rfl | rfl
      · exact .inr ⟨.quiet, by decide, by decide, by decide⟩
      · exact .inl (by decide)
      · exact .inr ⟨.mode .run, by decide, by decide, by decide⟩
    · intro a ha m
      simp only [List.mem_cons, List.not_mem_nil, or_false] at ha
      rcases ha with rfl | rfl | rfl <;> cases m <;> decide
  have hload : loadSourceFile "c.bas".toList (some "10 FOR I=1 TO 3\n20 IF I=2 THEN PRINT \"two\";:GOTO 40 ELSE GOSUB 70\n30 PRINT I*I,\n40NEXT I\n50 PRINT:LET S$=\"end\":PRINT S$\n60 STOP\n70 A=A+I:RETURN:REM sum\n".toList) =
      .ok (some ⟨some "c.bas".toList, counting⟩) := by decide +kernel
  obtain ⟨_, hl, hasc, h0⟩ := (C03_load_iff _ _ _).1 hload
  have hps : linesOf (⟨some "c.bas".toList, counting⟩ : Source).pairs = counting := by decide
  have hst : Src.start countingProgram (newVm false false false (seeded Demo.env {} (seedings ["-q".toList, "c.bas".toList, "--run".toList]))) =
      Src.start countingProgram countingVm := rfl
  have hc : counted (Src.steps Demo.env countingProgram 100 (Src.start countingProgram countingVm)) = true := by decide +kernel
  cases hs : Src.steps Demo.env countingProgram 100 (Src.start countingProgram countingVm) with
  | go c => rw [hs] at hc; cases hc
  | stop e c =>
    rw [hs] at hc
    cases e with
    | stopped =>
      simp only [counted, Bool.and_eq_true, decide_eq_true_eq] at hc
      obtain ⟨n0, h⟩ := C57_run_partial ha (any := false) (by decide) hl hasc h0 (prog := countingProgram) (by rw [hps]; exact counting_lines) counting_ready.fits counting_ready.small
        counting_ready.apart (env := Demo.env) (w := {}) (k := 100) (e := .stopped) (c := c) (by rw [hst]; exact hs) (by intro h; cases h)
      refine ⟨n0, fun h' he hb hf hn => ?_⟩
      obtain ⟨w', h1, h2, h3⟩ := (h h' he hb hf).2 hn
      refine ⟨w', h1, ?_⟩
      rw [h3 (by intro h; cases h), hps]
      have hr : report ["-q".toList, "c.bas".toList, "--run".toList] h'.memory = [] := if_neg (by decide)
      have hbn : banner ["-q".toList, "c.bas".toList, "--run".toList] = [] := if_pos (by decide)
      rw [hr, hbn]
      rw [hc.2, hc.1.1.1.1]
      decide +kernel
    | _ => cases hc

example (h : Host) (hf : h.files "x".toList = none) : ∃ w', lbasic h ["x".toList, "-q".toList] {} = .ok (0, w') ∧ w'.out = [] := by
  have ha : AsksRun ["x".toList, "-q".toList] "x".toList := by
    refine ⟨?_, by decide, by decide, by decide, ?_, by decide⟩
    · intro a ha
      simp only [List.mem_cons, List.not_mem_nil, or_false] at ha
      rcases ha with rfl | rfl
      · exact .inl (by decide)
      · exact .inr ⟨.quiet, by decide, by decide, by decide⟩
    · intro a ha m
      simp only [List.mem_cons, List.not_mem_nil, or_false] at ha
      rcases ha with rfl | rfl <;> cases m <;> decide
  obtain ⟨w', h1, h2, -⟩ := (C57_unreadable ha h {}).1 hf
  refine ⟨w', h1, ?_⟩
  have hr : report ["x".toList, "-q".toList] h.memory = [] := if_neg (by decide)
  have hbn : banner ["x".toList, "-q".toList] = [] := if_pos (by decide)
  rw [h2, hr, hbn]; rfl

example (h : Host) (hb : ∀ k, h.ctx.brk k = false) (hf : h.files "x".toList = some "10 LET N = N + 1 : ? N ; : GOTO 10\n".toList) :
    lbasic h ["x".toList, "-q".toList] {} = .halt .fuel := by
  have ha : AsksRun ["x".toList, "-q".toList] "x".toList := by
    refine ⟨?_, by decide, by decide, by decide, ?_, by decide⟩
    · intro a ha
      simp only [List.mem_cons, List.not_mem_nil, or_false] at ha
      rcases ha with rfl | rfl
      · exact .inl (by decide)
      · exact .inr ⟨.quiet, by decide, by decide, by decide⟩
    · intro a ha m
      simp only [List.mem_cons, List.not_mem_nil, or_false] at ha
      rcases ha with rfl | rfl <;> cases m <;> decide
  have hload : loadSourceFile "x".toList (some "10 LET N = N + 1 : ? N ; : GOTO 10\n".toList) = .ok (some ⟨some "x".toList, Demo.endless⟩) := by decide +kernel
  obtain ⟨_, hl, hasc, h0⟩ := (C03_load_iff _ _ _).1 hload
  have hps : linesOf (⟨some "x".toList, Demo.endless⟩ : Source).pairs = Demo.endless := by decide
  exact C57_forever_partial ha (any := false) (by decide) hl hasc h0 (by rw [hps]; exact (Demo.endless_ready {}).lines) (Demo.endless_ready {}).fits (Demo.endless_ready {}).small
    (Demo.endless_ready {}).apart (fun k => Demo.endless_go _ k _ rfl (by show 0 < 3; decide)) hb hf

end LB
