import Verif.Proofs.Dialogue
import Verif.Props.Batch
/- C59: whole dialogues with the interpreter. -/
namespace LB
open LB.Spec _root_.Spec

theorem named_none {args : List CStr} (h : ∀ a ∈ args, ¬ IsFile a) : named args ≤ 1 := by
  have : args.filter (fun a => decide (IsFile a)) = [] := by
    rw [List.filter_eq_nil_iff]
    intro a ha
    simpa using h a ha
  simp only [named, this, List.length_nil, Nat.zero_le]

theorem lbasic_talks (h : Host) {args : List CStr} (w : World) (ha : AsksTalk args) {any : Bool} (hany : any = true ↔ ∃ a ∈ args, Says a .keywords) :
    lbasic h args w =
      match interactLoop h.ctx h.turns (newSession any false false ((seeded h.ctx.env w (seedings args)).put (greeting args)) h.files) with
      | .halt e => .halt e
      | .ok w' => .ok (0, w'.put (report args h.memory)) := by
  obtain ⟨opt, h1, h2⟩ := C56_options h.ctx.env w args ha.usable (named_none ha.noFile)
  have hno : ∀ s ∈ [Switch.version, .traceBasic, .traceFor], ¬ ∃ a ∈ args, Says a s := fun s hs ⟨a, h3, h4⟩ => ha.plain a h3 s hs h4
  have b : ∀ {x : Bool} {p : Prop}, (x = true ↔ p) → ¬ p → x = false := by intro x p h1 h2; cases x <;> simp_all
  have hv := b h2.version (hno _ (by simp))
  have hk : opt.keywordsAnywhere = any := Bool.eq_iff_iff.2 (h2.keywords.trans hany.symm)
  have ht := b h2.traceBasic (hno _ (by simp))
  have hf := b h2.traceFor (hno _ (by simp))
  have hn : opt.fileName = none := by
    cases hx : opt.fileName with
    | none => rfl
    | some f => exact absurd ((h2.file f).1 hx).2 (ha.noFile f ((h2.file f).1 hx).1)
  have hm : opt.mode = .no := by
    rcases (h2.mode opt.mode).1 rfl with ⟨h3, _⟩ | ⟨b1, a, b2, rfl, h4, _⟩
    · exact h3
    · exact absurd h4 (ha.mode a (by simp) _)
  have hfin : ∀ w : World, finish h opt 0 w = (0, w.put (report args h.memory)) := by
    intro w
    unfold report finish
    by_cases hq : ∃ a ∈ args, Says a .memory
    · rw [if_pos hq, h2.memory.2 hq]; rfl
    · rw [if_neg hq, b h2.memory hq]; simp [World.put]
  have hi : interact h opt (if opt.quiet = true then seeded h.ctx.env w (seedings args) else (seeded h.ctx.env w (seedings args)).put versionText) =
      interactLoop h.ctx h.turns (newSession any false false ((seeded h.ctx.env w (seedings args)).put (greeting args)) h.files) := by
    unfold interact greeting
    by_cases hq : ∃ a ∈ args, Says a .quiet
    · simp only [if_pos hq, h2.quiet.2 hq, hk, ht, hf, if_true]; simp [World.put]
    · simp only [if_neg hq, b h2.quiet hq, hk, ht, hf, Bool.false_eq_true, if_false]; simp [World.put]
  simp only [lbasic, h1, hv, hn, hm, Bool.false_eq_true, if_false, ne_eq, not_true, hi]
  generalize interactLoop h.ctx h.turns _ = q
  cases q with
  | halt e => rfl
  | ok q => simp only [hfin]

/-- C59.  The whole process without a file: whatever is typed, line by line, it prints the greeting, then for every line
the prompt and what that line makes the interpreter print - the listing for LIST; for RUN what the statements of the program
as it then stands print, with INPUT reading the lines typed after RUN - and ends with success at BYE or the end of the input.
Nothing that was done before - runs, edits, loads, names used - has any other effect on what a later line prints than
through the program, the files, the generator and clock, and the last line read by INPUT.
Missing: RENUM, CONT after STOP, and statements typed without a line number; COMPILE for other programs; as for `C52_ends_partial`. -/
theorem C59_dialogue_partial {args : List CStr} (ha : AsksTalk args) {any : Bool} (hany : any = true ↔ ∃ a ∈ args, Says a .keywords) {env : Env} {can : CStr → Bool} {w : World} {files : CStr → Option CStr} {out : List Char}
    (ht : Talk env can ⟨emptyProg, none, files, (seeded env w (seedings args)).rng, (seeded env w (seedings args)).ticks, [], any, false⟩ w.stdin out) :
    ∃ n0 t0, ∀ h : Host, h.ctx.env = env → (∀ k, h.ctx.brk k = false) → h.ctx.canWrite = can → h.files = files →
      n0 ≤ h.ctx.fuel → t0 ≤ h.turns →
      ∃ w', lbasic h args w = .ok (0, w') ∧ w'.out = w.out ++ greeting args ++ out ++ report args h.memory := by
  obtain ⟨n0, t0, hx⟩ := talks ht (w.out ++ greeting args)
  refine ⟨n0, t0, fun h he hb hc hf hn hT => ?_⟩
  subst he
  have hwo : (seeded h.ctx.env w (seedings args)).out = w.out := by cases seedings args <;> rfl
  have hwi : (seeded h.ctx.env w (seedings args)).stdin = w.stdin := by cases seedings args <;> rfl
  have hd : AtDesk (newSession any false false ((seeded h.ctx.env w (seedings args)).put (greeting args)) h.files)
      ⟨emptyProg, none, files, (seeded h.ctx.env w (seedings args)).rng, (seeded h.ctx.env w (seedings args)).ticks, [], any, false⟩ w.stdin (w.out ++ greeting args) :=
    ⟨.start any false false _, rfl, ⟨(show Ascending [] by decide), fun n t => by simp [lines, newSession, newVm, emptyProg]⟩, fun n hn => absurd rfl hn,
      fun src hs => (by cases hs), fun _ => rfl, hf, rfl, rfl, rfl, (show (initBuiltins newSymbolTable).psym.length ≤ 65536 by decide +kernel),
      by simp only [newSession, newVm, World.put, hwo, hwi], rfl, fun _ => .inl rfl⟩
  obtain ⟨w', k1, k2⟩ := hx h.ctx _ rfl hb hc hn hd h.turns hT
  rw [lbasic_talks h w ha hany, k1]
  exact ⟨_, rfl, by simp only [World.put, k2]⟩

/-- C59.  A mode asked for without a file is refused, whatever is typed. -/
theorem C59_mode_alone (h : Host) {args : List CStr} (w : World) (hu : ∀ a ∈ args, Usable a) (hn : ∀ a ∈ args, ¬ IsFile a)
    (hv : ∀ a ∈ args, ¬ Says a .version) (hm : ∃ a ∈ args, ∃ m, Says a (.mode m)) : ∃ m, lbasic h args w = .halt (.exit m) := by
  obtain ⟨opt, h1, h2⟩ := C56_options h.ctx.env w args hu (named_none hn)
  have hv' : opt.printVersion = false := by
    cases hx : opt.printVersion with
    | false => rfl
    | true => obtain ⟨a, k1, k2⟩ := h2.version.1 hx; exact absurd k2 (hv a k1)
  have hf : opt.fileName = none := by
    cases hx : opt.fileName with
    | none => rfl
    | some f => exact absurd ((h2.file f).1 hx).2 (hn f ((h2.file f).1 hx).1)
  have hmo : opt.mode ≠ .no := by
    intro hx
    rcases (h2.mode .no).1 hx with ⟨_, k⟩ | ⟨b1, a, b2, rfl, k1, _⟩
    · obtain ⟨a, k1, m, k2⟩ := hm
      exact k a k1 m k2
    · exact absurd k1 (by simp [Says, spellings])
  exact ⟨_, by simp only [lbasic, h1, hv', hf, Bool.false_eq_true, if_false, ne_eq, hmo, not_false_eq_true, if_true]; rfl⟩

namespace Demo

/-- A program that squares. -/
def squaring : List (Nat × List Char) := [(10, "INPUT A".toList), (20, "PRINT A*A".toList)]

/-- The same as statements. -/
def squaringProgram : Src.Program :=
  [(10, [.input none [.var (.num ['A'])]]), (20, [.print [.value (.arith .mul (.numVar ['A']) (.numVar ['A']))]])]

theorem squaring_lines (name : Option CStr) : Src.Lines (sourceOf squaring name).lines squaringProgram := by
  have hA : builtin ['A'] = none := by decide +kernel
  refine .cons ⟨(Src.kw .INPUT :: ([] ++ [.name ['A']])) ++ [opTok '\n'], [], split_spec 40 (by decide +kernel), ?_⟩
    (.cons ⟨[Src.kw .PRINT, .name ['A'], opTok '*', .name ['A']] ++ [opTok '\n'], [], split_spec 40 (by decide +kernel), ?_⟩ .nil)
  · exact .last (.simple (.input .none (.one (.var hA))))
  · exact .last (.simple (.print (.value (l := [.name ['A'], opTok '*', .name ['A']]) (l' := [])
      (.conj (.not (.rel (.sum (.mult (.mul (l := [.name ['A']]) (.neg (.power (.primary (.numVar hA (by decide))))) (.power (.primary (.numVar hA (by decide))))))))))
      (by intro w hw; cases hw; decide +kernel) (by intro a ha; cases ha) .nil)))

theorem squaring_fits : squaringProgram.Fits := by
  have hr : squaringProgram.room = (0, 0) := by decide +kernel
  simp only [Src.Program.Fits, hr]
  simp only [squaringProgram, List.forall_mem_cons, Src.Stmt.Fits, Src.Slot.Fits, Src.Item.Fits, Src.Fits]
  simp [Expr.nums, Expr.strs]

/-- The program as a function. -/
def squareProg : Prog := fun n => if n = 10 then some "INPUT A".toList else if n = 20 then some "PRINT A*A".toList else none

theorem squaring_shows : _root_.Spec.Shows squaring squareProg := by
  refine ⟨by decide, fun n t => ?_⟩
  simp only [squaring, squareProg, List.mem_cons, Prod.mk.injEq, List.not_mem_nil, or_false]
  by_cases h1 : n = 10
  · subst h1; simp [eq_comm]
  · by_cases h2 : n = 20
    · subst h2; simp [eq_comm]
    · simp [h1, h2]

/-- What a run comes to. -/
def squared (stdin out line : CStr) : Src.Next → Bool
  | .stop .finished c => decide (c.stdin = stdin) && decide (c.out = out) && decide (c.line = line) && decide (c.rng = 0) && decide (c.ticks = 0)
  | _ => false

theorem squared_spec {stdin out line : CStr} {n : Src.Next} (h : squared stdin out line n = true) :
    ∃ c, n = .stop .finished c ∧ c.stdin = stdin ∧ c.out = out ∧ c.line = line ∧ c.rng = 0 ∧ c.ticks = 0 := by
  match n, h with
  | .stop .finished c, h =>
    simp only [squared, Bool.and_eq_true, decide_eq_true_eq] at h
    exact ⟨c, rfl, h.1.1.1.1, h.1.1.1.2, h.1.1.2, h.1.2, h.2⟩

/-- One more run in a dialogue. -/
theorem squares {env : Env} {can : CStr → Bool} {f : CStr → Option CStr} {name : Option CStr} {buf' line stdin out : List Char} (answer : List Char) {shown buf : List Char} (hl : SaysRun line)
    (hs : squared stdin shown buf (Src.steps env squaringProgram 20 (Src.start squaringProgram { newVm false false false ⟨answer ++ stdin, [], 0, 0⟩ with input := buf' })) = true)
    (ht : Talk env can ⟨squareProg, name, f, 0, 0, buf, false, false⟩ stdin out) : Talk env can ⟨squareProg, name, f, 0, 0, buf', false, false⟩ (line ++ '\n' :: (answer ++ stdin)) ("> ".toList ++ shown ++ out) := by
  obtain ⟨c, h1, h2, h3, h4, h5, h6⟩ := squared_spec hs
  have := Talk.run (d := ⟨squareProg, name, f, 0, 0, buf', false, false⟩) hl squaring_shows (squaring_lines name) squaring_fits (by decide +kernel) (fun f hf => absurd (show f ∈ ([] : List CStr) from hf) (by simp)) h1 (by intro h; cases h)
    (by intro h; cases h) (out := out) (by rw [h2, h4, h5, h6]; exact ht)
  rw [h3] at this
  simpa [Src.Ending.message] using this

theorem says {word : String} (pre w tail : List Char) (h : WholeLine (pre ++ w ++ tail) ∧ (∀ c ∈ pre, c = ' ' ∨ c = '\t') ∧ SameIgnoringCase word.toList w ∧ ∀ c ∈ w, IsLetter c) :
    SaysWord word (pre ++ w ++ tail) tail := ⟨h.1, pre, w, rfl, h.2.1, h.2.2.1, h.2.2.2⟩

theorem ends {tail : List Char} (h : tail.head?.all (fun c => !decide (IsLetter c)) = true) : EndsWord tail := by
  intro c hc
  rw [hc] at h
  simpa using h

theorem talk_as {env : Env} {can : CStr → Bool} {d : Desk} {typed typed' out out' : List Char} (h : Talk env can d typed out) (h1 : typed = typed') (h2 : out = out') : Talk env can d typed' out' := by
  subst h1 h2
  exact h

/-- Only the file `sq` can be written. -/
def onlySq (f : CStr) : Bool := f == "sq".toList

/-- A dialogue in which a program is entered, listed, run, saved, erased, loaded, and run again. -/
theorem dialogue (files : CStr → Option CStr) : Talk Demo.env onlySq ⟨emptyProg, none, files, 0, 0, [], false, false⟩
    "20 PRINT A*A\n10 INPUT A\nlist\n * note\nCOMPILE\nNew !\nSAVE sq\nLOAD \"x\"y\nRENUM !\nlist p\nSAVE\"x\"\nRUN\n7\nSAVE \"sq\"\nNEW\nLOAD \"sq\"\n Run 2\n5\ncont\nLIST 11-\nBYE\nignored".toList
    "> > > 10 INPUT A\n20 PRINT A*A\n> > > Command syntax error\n> Quoted file name expected\n> Command syntax error\nQuoted file name expected\n> Command syntax error\n> 10 INPUT A\n20 PRINT A*A\n> > ?  49 \n> > > > ?  25 \n> Cannot continue\n> 20 PRINT A*A\n> ".toList := by
  have hb : Blanks [] := fun c hc => by cases hc
  have hl : Listing (listing squaring) squaring := ((C03_load_iff "sq".toList _ (sourceOf squaring (some "sq".toList))).1 (by decide +kernel)).2.1
  have h13 : ∀ d, Talk Demo.env onlySq d ("BYE".toList ++ '\n' :: "ignored".toList) _ := fun d => .bye (says [] "BYE".toList [] (by decide)) hb
  have h12 : ∀ f, Talk Demo.env onlySq ⟨squareProg, some "sq".toList, f, 0, 0, "5\n".toList, false, false⟩ _ _ := fun f =>
    .range (sp := " ".toList) (ps := squaring) (some 11) none (says [] "LIST".toList _ (by decide)) (by unfold Blanks; decide) (by decide) (by simp) squaring_shows (h13 _)
  have h11 : ∀ f, Talk Demo.env onlySq ⟨squareProg, some "sq".toList, f, 0, 0, "7\n".toList, false, false⟩ _ _ := fun f =>
    squares "5\n".toList (shown := "?  25 \n".toList) Demo.saysRun (by decide +kernel) (.cont (tail := []) (says [] "cont".toList [] (by decide)) (ends (by decide)) rfl (h12 f))
  have h10 : ∀ f n, f "sq".toList = some (listing squaring) → Talk Demo.env onlySq ⟨emptyProg, n, f, 0, 0, "7\n".toList, false, false⟩ _ _ := fun f n hf =>
    .load (tail := " \"sq\"".toList) (f := "sq".toList) (says [] "LOAD".toList _ (by decide))
      ⟨" ".toList, ['"'], rfl, by unfold Blanks; decide, .inr ⟨[], rfl, hb⟩, by decide, by decide⟩ hf hl (fun n t hm => (show ∀ l ∈ squaring, l.1 ≠ 0 by decide) (n, t) hm) squaring_shows (h11 f)
  have h9 : ∀ f n, f "sq".toList = some (listing squaring) → Talk Demo.env onlySq ⟨squareProg, n, f, 0, 0, "7\n".toList, false, false⟩ _ _ := fun f n hf =>
    .edit .new trivial (by decide) (h10 f n hf)
  have h8 : Talk Demo.env onlySq ⟨squareProg, none, files, 0, 0, "7\n".toList, false, false⟩ _ _ :=
    .save (tail := " \"sq\"".toList) (f := "sq".toList) (ps := squaring) (says [] "SAVE".toList _ (by decide))
      ⟨" ".toList, ['"'], rfl, by unfold Blanks; decide, .inr ⟨[], rfl, hb⟩, by decide, by decide⟩ (by decide) squaring_shows (by decide) (h9 _ none (if_pos rfl))
  have h7 : Talk Demo.env onlySq ⟨squareProg, none, files, 0, 0, [], false, false⟩ _ _ :=
    squares "7\n".toList (line := "RUN".toList) (shown := "?  49 \n".toList)
      ⟨⟨[], "RUN".toList, [], rfl, hb, by decide, by decide, by decide⟩, by decide⟩ (by decide +kernel) h8
  have h6d : Talk Demo.env onlySq ⟨squareProg, none, files, 0, 0, [], false, false⟩ _ _ :=
    .unsaved (tail := "\"x\"".toList) (f := "x".toList) (says [] "SAVE".toList _ (by decide)) ⟨[], ['"'], rfl, hb, .inr ⟨[], rfl, hb⟩, by decide, by decide⟩ (by decide) h7
  have h6e : Talk Demo.env onlySq ⟨squareProg, none, files, 0, 0, [], false, false⟩ _ _ :=
    .pages (sp := " ".toList) (sp' := []) (t := []) (p := 'p') (ps := squaring) none (says [] "list".toList _ (by decide)) (by unfold Blanks; decide) hb hb (.inl rfl) (by decide) (by simp) squaring_shows h6d
  have h6f : Talk Demo.env onlySq ⟨squareProg, none, files, 0, 0, [], false, false⟩ _ _ :=
    .junk (word := "RENUM") (tail := " !".toList) (.inr rfl) (says [] "RENUM".toList _ (by decide)) (ends (by decide)) (c := '!') ⟨[' '], [], rfl, by unfold Blanks; decide, by decide, by decide⟩ (by decide) (by decide) h6e
  have h6g : Talk Demo.env onlySq ⟨squareProg, none, files, 0, 0, [], false, false⟩ _ _ :=
    .trailing (word := "LOAD") (sp := " ".toList) (f := "x".toList) (more := "y".toList) (c := 'y') (.inl rfl) (says [] "LOAD".toList _ (by decide)) (by unfold Blanks; decide) (by decide)
      ⟨[], [], rfl, hb, by decide, by decide⟩ h6f
  have h6c : Talk Demo.env onlySq ⟨squareProg, none, files, 0, 0, [], false, false⟩ _ _ :=
    .unquoted (word := "SAVE") (tail := " sq".toList) (.inr rfl) (says [] "SAVE".toList _ (by decide)) (ends (by decide)) (.inr ⟨'s', ⟨[' '], ['q'], rfl, by unfold Blanks; decide, by decide, by decide⟩, by decide⟩) h6g
  have h6b : Talk Demo.env onlySq ⟨squareProg, none, files, 0, 0, [], false, false⟩ _ _ :=
    .refused (word := "NEW") (tail := " !".toList) (.inr rfl) (says [] "New".toList _ (by decide)) (ends (by decide)) (c := '!') ⟨[' '], [], rfl, by unfold Blanks; decide, by decide, by decide⟩ h6c
  have h6a : Talk Demo.env onlySq ⟨squareProg, none, files, 0, 0, [], false, false⟩ _ _ :=
    .compile (tail := []) (says [] "COMPILE".toList _ (by decide)) (ends (by decide)) squaring_shows (squaring_lines none) (by decide +kernel)
      (fun f hf => absurd (show f ∈ ([] : List CStr) from hf) (by simp)) h6b
  have h6 : Talk Demo.env onlySq ⟨squareProg, none, files, 0, 0, [], false, false⟩ _ _ := .remark (pre := " ".toList) (text := " note".toList) (by decide) (by unfold Blanks; decide) h6a
  have h5 : Talk Demo.env onlySq ⟨squareProg, none, files, 0, 0, [], false, false⟩ _ _ :=
    .list (sp := []) (sp' := []) (ps := squaring) none (says [] "list".toList [] (by decide)) hb hb (by simp) squaring_shows h6
  have h4 : Talk Demo.env onlySq ⟨(Typed.edit (.enter 20 "PRINT A*A".toList)).apply emptyProg, none, files, 0, 0, [], false, false⟩ _ _ :=
    .edit (.edit (.enter 10 "INPUT A".toList)) (by unfold Typed.Fits; decide) (by decide) h5
  have h3 : Talk Demo.env onlySq ⟨emptyProg, none, files, 0, 0, [], false, false⟩ _ _ := .edit (.edit (.enter 20 "PRINT A*A".toList)) (by unfold Typed.Fits; decide) (by decide) h4
  exact talk_as h3 (by decide +kernel) (by decide +kernel)

end Demo

set_option maxRecDepth 10000 in
example : ∃ n0 t0, ∀ h : Host, h.ctx.env = Demo.env → (∀ k, h.ctx.brk k = false) → h.ctx.canWrite = Demo.onlySq →
    n0 ≤ h.ctx.fuel → t0 ≤ h.turns → h.files = (fun _ => none) → ∃ w', lbasic h ["--quiet".toList]
      { stdin := "20 PRINT A*A\n10 INPUT A\nlist\n * note\nCOMPILE\nNew !\nSAVE sq\nLOAD \"x\"y\nRENUM !\nlist p\nSAVE\"x\"\nRUN\n7\nSAVE \"sq\"\nNEW\nLOAD \"sq\"\n Run 2\n5\ncont\nLIST 11-\nBYE\nignored".toList } = .ok (0, w') ∧
      w'.out = "> > > 10 INPUT A\n20 PRINT A*A\n> > > Command syntax error\n> Quoted file name expected\n> Command syntax error\nQuoted file name expected\n> Command syntax error\n> 10 INPUT A\n20 PRINT A*A\n> > ?  49 \n> > > > ?  25 \n> Cannot continue\n> 20 PRINT A*A\n> ".toList := by
  have ha : AsksTalk ["--quiet".toList] := by
    refine ⟨?_, by decide, ?_, by decide⟩
    · intro a ha
      simp only [List.mem_cons, List.not_mem_nil, or_false] at ha
      subst ha
      exact .inr ⟨.quiet, by decide, by decide, by decide⟩
    · intro a ha m
      simp only [List.mem_cons, List.not_mem_nil, or_false] at ha
      subst ha
      cases m <;> decide
  obtain ⟨n0, t0, hx⟩ := C59_dialogue_partial ha (any := false) (by decide) (w := { stdin := _ }) (Demo.dialogue (fun _ => none))
  refine ⟨n0, t0, fun h h1 h2 h3 h4 h5 h6 => ?_⟩
  obtain ⟨w', k1, k2⟩ := hx h h1 h2 h3 h6 h4 h5
  refine ⟨w', k1, ?_⟩
  have hr : report ["--quiet".toList] h.memory = [] := if_neg (by decide)
  have hg : greeting ["--quiet".toList] = [] := if_pos (by decide)
  rw [k2, hr, hg, List.append_nil]
  rfl

example (h : Host) (w : World) : ∃ m, lbasic h ["-q".toList, "-l".toList] w = .halt (.exit m) := by
  refine C59_mode_alone h w ?_ (by decide) (by decide) ⟨"-l".toList, by decide, .list, by decide⟩
  intro a ha
  simp only [List.mem_cons, List.not_mem_nil, or_false] at ha
  rcases ha with rfl | rfl
  · exact .inr ⟨.quiet, by decide, by decide, by decide⟩
  · exact .inr ⟨.mode .list, by decide, by decide, by decide⟩

end LB
