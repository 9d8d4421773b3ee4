import Verif.Spec.CommandLine
/- The arguments of the command line. -/
namespace LB
open LB.Spec

/-- The options with one more switch. -/
def setSwitch (opt : Options) : Switch → Options
  | .mode m => { opt with mode := m }
  | .keywords => { opt with keywordsAnywhere := true }
  | .quiet => { opt with quiet := true }
  | .memory => { opt with reportMemory := true }
  | .traceBasic => { opt with traceBasic := true }
  | .traceFor => { opt with traceFor := true }
  | .traceLog => { opt with traceLog := true }
  | .version => { opt with printVersion := true }
  | .help | .helpFull | .randomize => opt

/-- The world after one more switch. -/
def seedSwitch (env : Env) (w : World) (s : Switch) : World :=
  if s = .randomize then { w with rng := env.srand (env.time w.ticks % 4294967296), ticks := w.ticks + 1 } else w

theorem parseOptions_switch (env : Env) (opt : Options) (w : World) (a : CStr) (rest : List CStr) {s : Switch} (hs : s ≠ .help) (hs' : s ≠ .helpFull)
    (h : Says a s) : parseOptions env opt w (a :: rest) = parseOptions env (setSwitch opt s) (seedSwitch env w s) rest := by
  unfold Says at h
  cases s with
  | help => exact absurd rfl hs
  | helpFull => exact absurd rfl hs'
  | mode m =>
    cases m with
    | no => cases h
    | _ =>
      simp only [spellings, List.mem_cons, List.not_mem_nil, or_false] at h
      rcases h with rfl | rfl <;> rw [parseOptions] <;> rfl
  | _ =>
    simp only [spellings, List.mem_cons, List.not_mem_nil, or_false] at h
    rcases h with rfl | rfl <;> rw [parseOptions] <;> rfl

/-- All options. -/
def switches : List Switch :=
  [.help, .helpFull, .mode .no, .mode .list, .mode .listNames, .mode .parse, .mode .code, .mode .run, .keywords, .quiet, .randomize, .memory,
    .traceBasic, .traceFor, .traceLog, .version]

theorem mem_switches (s : Switch) : s ∈ switches := by
  cases s with
  | mode m => cases m <;> decide
  | _ => decide

theorem says_unique {a : CStr} {s t : Switch} (h : Says a s) (h' : Says a t) : s = t := by
  have key : ∀ s ∈ switches, ∀ t ∈ switches, ∀ b ∈ spellings s, b ∈ spellings t → s = t := by decide +kernel
  exact key s (mem_switches s) t (mem_switches t) a h h'

theorem says_dash {a : CStr} {s : Switch} (h : Says a s) (hs : s ≠ .help) : a.head? = some '-' := by
  have key : ∀ s ∈ switches, s ≠ .help → ∀ b ∈ spellings s, b.head? = some '-' := by decide +kernel
  exact key s (mem_switches s) hs a h

theorem file_says {a : CStr} (h : IsFile a) (s : Switch) : ¬ Says a s := by
  intro hs
  by_cases he : s = .help
  · subst he; exact h.2 hs
  · exact h.1 (says_dash hs he)

theorem isOption_iff {a : CStr} {x y : String} : isOption a x y = true ↔ a = x.toList ∨ a = y.toList := by simp [isOption]

theorem isOption_false {a : CStr} {x y : String} (h : ¬ (a = x.toList ∨ a = y.toList)) : isOption a x y = false := by
  rw [← Bool.not_eq_true, isOption_iff]; exact h

/-- An argument that is no option. -/
theorem parseOptions_other (env : Env) (opt : Options) (w : World) (a : CStr) (rest : List CStr) (h : ∀ s, ¬ Says a s) :
    parseOptions env opt w (a :: rest) = if a.head? = some '-' then .halt (.exit "unrecognised option")
      else if opt.fileName.isNone then parseOptions env { opt with fileName := some a } w rest
      else .halt (.exit "unexpected argument") := by
  have no : ∀ s, ∀ b ∈ spellings s, a ≠ b := fun s b hb e => h s (e ▸ hb)
  rw [parseOptions]
  rw [isOption_false (x := "--help") (y := "-h"), isOption_false (x := "-?") (y := "/?"), isOption_false (x := "--help-full") (y := "-hh"),
    isOption_false (x := "--list") (y := "-l"), isOption_false (x := "--list-names") (y := "-n"), isOption_false (x := "--parse") (y := "-p"),
    isOption_false (x := "--code") (y := "-c"), isOption_false (x := "--run") (y := "-r"), isOption_false (x := "--keywords-anywhere") (y := "-k"),
    isOption_false (x := "--quiet") (y := "-q"), isOption_false (x := "--randomize") (y := "-z"), isOption_false (x := "--report-memory") (y := "-m"),
    isOption_false (x := "--trace-basic") (y := "-t"), isOption_false (x := "--trace-for") (y := "-f"), isOption_false (x := "--trace-log") (y := "-g"),
    isOption_false (x := "--version") (y := "-v")]
  · rfl
  all_goals rintro (e | e)
  · exact no .version _ (by simp [spellings]) e
  · exact no .version _ (by simp [spellings]) e
  · exact no .traceLog _ (by simp [spellings]) e
  · exact no .traceLog _ (by simp [spellings]) e
  · exact no .traceFor _ (by simp [spellings]) e
  · exact no .traceFor _ (by simp [spellings]) e
  · exact no .traceBasic _ (by simp [spellings]) e
  · exact no .traceBasic _ (by simp [spellings]) e
  · exact no .memory _ (by simp [spellings]) e
  · exact no .memory _ (by simp [spellings]) e
  · exact no .randomize _ (by simp [spellings]) e
  · exact no .randomize _ (by simp [spellings]) e
  · exact no .quiet _ (by simp [spellings]) e
  · exact no .quiet _ (by simp [spellings]) e
  · exact no .keywords _ (by simp [spellings]) e
  · exact no .keywords _ (by simp [spellings]) e
  · exact no (.mode .run) _ (by simp [spellings]) e
  · exact no (.mode .run) _ (by simp [spellings]) e
  · exact no (.mode .code) _ (by simp [spellings]) e
  · exact no (.mode .code) _ (by simp [spellings]) e
  · exact no (.mode .parse) _ (by simp [spellings]) e
  · exact no (.mode .parse) _ (by simp [spellings]) e
  · exact no (.mode .listNames) _ (by simp [spellings]) e
  · exact no (.mode .listNames) _ (by simp [spellings]) e
  · exact no (.mode .list) _ (by simp [spellings]) e
  · exact no (.mode .list) _ (by simp [spellings]) e
  · exact no .helpFull _ (by simp [spellings]) e
  · exact no .helpFull _ (by simp [spellings]) e
  · exact no .help _ (by simp [spellings]) e
  · exact no .help _ (by simp [spellings]) e
  · exact no .help _ (by simp [spellings]) e
  · exact no .help _ (by simp [spellings]) e

theorem parseOptions_file (env : Env) (opt : Options) (w : World) {a : CStr} (rest : List CStr) (h : IsFile a) :
    parseOptions env opt w (a :: rest) = if opt.fileName.isNone then parseOptions env { opt with fileName := some a } w rest
      else .halt (.exit "unexpected argument") := by
  rw [parseOptions_other env opt w a rest (file_says h), if_neg h.1]

/-- What the arguments add to the options. -/
structure AddsTo (opt : Options) (args : List CStr) (opt' : Options) : Prop where
  file : ∀ f, opt'.fileName = some f ↔ opt.fileName = some f ∨ (f ∈ args ∧ IsFile f)
  mode : (opt'.mode = opt.mode ∧ ∀ a ∈ args, ∀ m', ¬ Says a (.mode m')) ∨
    ∃ before a after, args = before ++ a :: after ∧ Says a (.mode opt'.mode) ∧ ∀ b ∈ after, ∀ m', ¬ Says b (.mode m')
  keywords : opt'.keywordsAnywhere = true ↔ opt.keywordsAnywhere = true ∨ ∃ a ∈ args, Says a .keywords
  quiet : opt'.quiet = true ↔ opt.quiet = true ∨ ∃ a ∈ args, Says a .quiet
  memory : opt'.reportMemory = true ↔ opt.reportMemory = true ∨ ∃ a ∈ args, Says a .memory
  traceBasic : opt'.traceBasic = true ↔ opt.traceBasic = true ∨ ∃ a ∈ args, Says a .traceBasic
  traceFor : opt'.traceFor = true ↔ opt.traceFor = true ∨ ∃ a ∈ args, Says a .traceFor
  traceLog : opt'.traceLog = true ↔ opt.traceLog = true ∨ ∃ a ∈ args, Says a .traceLog
  version : opt'.printVersion = true ↔ opt.printVersion = true ∨ ∃ a ∈ args, Says a .version

theorem addsTo_nil (opt : Options) : AddsTo opt [] opt := by
  constructor <;> simp

theorem says_ne {a : CStr} {s t : Switch} (h : Says a s) (ht : t ≠ s) : ¬ Says a t := fun h' => ht (says_unique h' h)

theorem mode_cons {opt opt' : Options} {a : CStr} {args : List CStr} (h : ∀ m, ¬ Says a (.mode m))
    (hm : (opt'.mode = opt.mode ∧ ∀ a ∈ args, ∀ m', ¬ Says a (.mode m')) ∨
      ∃ before a after, args = before ++ a :: after ∧ Says a (.mode opt'.mode) ∧ ∀ b ∈ after, ∀ m', ¬ Says b (.mode m')) :
    (opt'.mode = opt.mode ∧ ∀ b ∈ a :: args, ∀ m', ¬ Says b (.mode m')) ∨
      ∃ before b after, a :: args = before ++ b :: after ∧ Says b (.mode opt'.mode) ∧ ∀ b ∈ after, ∀ m', ¬ Says b (.mode m') := by
  rcases hm with ⟨h1, h2⟩ | ⟨before, b, after, rfl, h2, h3⟩
  · refine .inl ⟨h1, fun b hb m' => ?_⟩
    rcases List.mem_cons.1 hb with rfl | hb
    · exact h m'
    · exact h2 b hb m'
  · exact .inr ⟨a :: before, b, after, rfl, h2, h3⟩

theorem flag_cons {a : CStr} {args : List CStr} {s t : Switch} {x y z : Prop} (h : Says a s) (hx : x ↔ y ∨ ∃ b ∈ args, Says b t) (hy : y ↔ z ∨ t = s) :
    x ↔ z ∨ ∃ b ∈ a :: args, Says b t := by
  rw [hx, hy]
  constructor
  · rintro ((h1 | rfl) | ⟨b, h1, h2⟩)
    · exact .inl h1
    · exact .inr ⟨a, List.mem_cons_self, h⟩
    · exact .inr ⟨b, List.mem_cons_of_mem _ h1, h2⟩
  · rintro (h1 | ⟨b, h1, h2⟩)
    · exact .inl (.inl h1)
    · rcases List.mem_cons.1 h1 with rfl | h1
      · exact .inl (.inr (says_unique h2 h))
      · exact .inr ⟨b, h1, h2⟩

theorem AddsTo.switch {opt opt' : Options} {a : CStr} {args : List CStr} {s : Switch} (hs : s ≠ .help) (h : Says a s) (h' : AddsTo (setSwitch opt s) args opt') :
    AddsTo opt (a :: args) opt' := by
  have hf : ¬ IsFile a := fun hf => file_says hf s h
  refine ⟨?_, ?_, ?_, ?_, ?_, ?_, ?_, ?_, ?_⟩
  · intro f
    rw [h'.file f]
    have e : (setSwitch opt s).fileName = opt.fileName := by cases s <;> rfl
    rw [e]
    constructor
    · rintro (h1 | ⟨h1, h2⟩)
      · exact .inl h1
      · exact .inr ⟨List.mem_cons_of_mem _ h1, h2⟩
    · rintro (h1 | ⟨h1, h2⟩)
      · exact .inl h1
      · rcases List.mem_cons.1 h1 with rfl | h1
        · exact absurd h2 hf
        · exact .inr ⟨h1, h2⟩
  · cases s with
    | mode m =>
      rcases h'.mode with ⟨h1, h2⟩ | ⟨before, b, after, rfl, h2, h3⟩
      · exact .inr ⟨[], a, args, rfl, by rw [h1]; exact h, h2⟩
      · exact .inr ⟨a :: before, b, after, rfl, h2, h3⟩
    | _ => exact mode_cons (fun m => says_ne h (by intro e; cases e)) h'.mode
  · exact flag_cons h h'.keywords (by cases s <;> simp [setSwitch])
  · exact flag_cons h h'.quiet (by cases s <;> simp [setSwitch])
  · exact flag_cons h h'.memory (by cases s <;> simp [setSwitch])
  · exact flag_cons h h'.traceBasic (by cases s <;> simp [setSwitch])
  · exact flag_cons h h'.traceFor (by cases s <;> simp [setSwitch])
  · exact flag_cons h h'.traceLog (by cases s <;> simp [setSwitch])
  · exact flag_cons h h'.version (by cases s <;> simp [setSwitch])

theorem AddsTo.file_cons {opt opt' : Options} {a : CStr} {args : List CStr} (h : IsFile a) (hn : opt.fileName = none)
    (h' : AddsTo { opt with fileName := some a } args opt') : AddsTo opt (a :: args) opt' := by
  have no := file_says h
  refine ⟨?_, mode_cons (fun m => no _) h'.mode, ?_, ?_, ?_, ?_, ?_, ?_, ?_⟩
  · intro f
    rw [h'.file f, hn]
    simp only [Option.some.injEq, List.mem_cons, reduceCtorEq, false_or]
    constructor
    · rintro (rfl | ⟨h1, h2⟩)
      · exact ⟨.inl rfl, h⟩
      · exact ⟨.inr h1, h2⟩
    · rintro ⟨rfl | h1, h2⟩
      · exact .inl rfl
      · exact .inr ⟨h1, h2⟩
  · have := h'.keywords; simp_all
  · have := h'.quiet; simp_all
  · have := h'.memory; simp_all
  · have := h'.traceBasic; simp_all
  · have := h'.traceFor; simp_all
  · have := h'.traceLog; simp_all
  · have := h'.version; simp_all

end LB
