import Verif.Proofs.CommandLine
import Verif.Proofs.Demo
/- C56: the command line. -/
namespace LB
open LB.Spec

theorem seeded_switch (env : Env) (w : World) (n : Nat) : seeded env (seedSwitch env w .randomize) n = seeded env w (n + 1) := by
  cases n with
  | zero => rfl
  | succ n => simp only [seedSwitch, seeded, if_true, Nat.add_assoc, Nat.add_comm 1]

theorem seedings_cons (a : CStr) (args : List CStr) : seedings (a :: args) = (if Says a .randomize then 1 else 0) + seedings args := by
  unfold seedings
  rw [List.filter_cons]
  by_cases h : Says a .randomize
  · simp [h]; omega
  · simp [h]

theorem named_cons (a : CStr) (args : List CStr) : named (a :: args) = (if IsFile a then 1 else 0) + named args := by
  unfold named
  rw [List.filter_cons]
  by_cases h : IsFile a
  · simp [h]; omega
  · simp [h]

theorem parseOptions_usable (env : Env) (rest : List CStr) (args : List CStr) (opt : Options) (w : World) (h : ∀ a ∈ args, Usable a)
    (hn : named args + (if opt.fileName.isSome then 1 else 0) ≤ 1) :
    ∃ opt', parseOptions env opt w (args ++ rest) = parseOptions env opt' (seeded env w (seedings args)) rest ∧ AddsTo opt args opt' ∧
      (opt'.fileName.isSome = true ↔ 0 < named args + (if opt.fileName.isSome then 1 else 0)) := by
  induction args generalizing opt w with
  | nil => refine ⟨opt, rfl, addsTo_nil opt, ?_⟩; cases hx : opt.fileName <;> simp [named]
  | cons a args ih =>
    have ha := h a List.mem_cons_self
    have hr : ∀ b ∈ args, Usable b := fun b hb => h b (List.mem_cons_of_mem _ hb)
    rw [named_cons] at hn ⊢
    rw [seedings_cons]
    by_cases hf : IsFile a
    · rw [if_pos hf] at hn ⊢
      have hno : opt.fileName = none := by
        cases ho : opt.fileName with
        | none => rfl
        | some x => rw [ho] at hn; simp at hn
      rw [hno] at hn ⊢
      obtain ⟨opt', h1, h2, h3⟩ := ih { opt with fileName := some a } w hr (by simp at hn ⊢; omega)
      rw [if_neg (file_says hf .randomize)]
      refine ⟨opt', ?_, .file_cons hf hno h2, by rw [h3]; simp; omega⟩
      rw [List.cons_append, parseOptions_file env opt w _ hf, hno]
      simp only [Option.isNone_none, if_true]
      rw [h1, Nat.zero_add]
    · obtain hf' | ⟨s, hs, hs', hsay⟩ := ha
      · exact absurd hf' hf
      · rw [if_neg hf] at hn ⊢
        have e : (setSwitch opt s).fileName = opt.fileName := by cases s <;> rfl
        obtain ⟨opt', h1, h2, h3⟩ := ih (setSwitch opt s) (seedSwitch env w s) hr (by rw [e]; omega)
        refine ⟨opt', ?_, .switch hs hsay h2, by rw [h3, e]; omega⟩
        rw [List.cons_append, parseOptions_switch env opt w a _ hs hs' hsay, h1]
        by_cases hz : s = .randomize
        · subst hz
          rw [if_pos hsay, seeded_switch, Nat.add_comm 1]
        · rw [if_neg (says_ne hsay (fun h => hz h.symm)), Nat.zero_add]
          simp only [seedSwitch, if_neg hz]

theorem understood_of_adds {args : List CStr} {opt : Options} (h : AddsTo {} args opt) : Understood args opt where
  file f := by rw [h.file f]; simp
  mode m := by
    constructor
    · rintro rfl
      rcases h.mode with ⟨h1, h2⟩ | h1
      · exact .inl ⟨h1, h2⟩
      · exact .inr h1
    · intro hm
      rcases h.mode with ⟨h1, h2⟩ | ⟨b1, a1, c1, rfl, k1, k2⟩
      · rcases hm with ⟨rfl, _⟩ | ⟨b, a, c, rfl, h3, _⟩
        · exact h1
        · exact absurd h3 (h2 a (by simp) m)
      · rcases hm with ⟨_, h2⟩ | ⟨b2, a2, c2, he, k3, k4⟩
        · exact absurd k1 (h2 a1 (by simp) _)
        · rcases List.append_eq_append_iff.1 he with ⟨d, e1, e2⟩ | ⟨d, e1, e2⟩
          · cases d with
            | nil =>
              simp only [List.nil_append, List.cons.injEq] at e2
              have := says_unique k1 (e2.1 ▸ k3)
              simpa using this
            | cons x d =>
              simp only [List.cons_append, List.cons.injEq] at e2
              exact absurd k3 (k2 a2 (by rw [e2.2]; simp) m)
          · cases d with
            | nil =>
              simp only [List.nil_append, List.cons.injEq] at e2
              have := says_unique k1 (e2.1 ▸ k3)
              simpa using this
            | cons x d =>
              simp only [List.cons_append, List.cons.injEq] at e2
              exact absurd k1 (k4 a1 (by rw [e2.2]; simp) _)
  keywords := by rw [h.keywords]; simp
  quiet := by rw [h.quiet]; simp
  memory := by rw [h.memory]; simp
  traceBasic := by rw [h.traceBasic]; simp
  traceFor := by rw [h.traceFor]; simp
  traceLog := by rw [h.traceLog]; simp
  version := by rw [h.version]; simp

/-- C56.  Arguments that are options (other than those for help) and at most one file name are understood: a switch is on
exactly if it occurs in one of its spellings, of several modes the last counts, and the generator is seeded from the clock
as often as this is asked for. -/
theorem C56_options (env : Env) (w : World) (args : List CStr) (h : ∀ a ∈ args, Usable a) (hn : named args ≤ 1) :
    ∃ opt, parseOptions env {} w args = .ok (.options opt (seeded env w (seedings args))) ∧ Understood args opt := by
  obtain ⟨opt, h1, h2, _⟩ := parseOptions_usable env [] args {} w h (by simpa using hn)
  rw [List.append_nil] at h1
  exact ⟨opt, h1, understood_of_adds h2⟩

/-- C56.  The options are determined by what the arguments ask for. -/
theorem C56_determined {args : List CStr} {opt opt' : Options} (h : Understood args opt) (h' : Understood args opt') : opt = opt' := by
  have b : ∀ {x y : Bool} {p : Prop}, (x = true ↔ p) → (y = true ↔ p) → x = y := by
    intro x y p h1 h2
    cases x <;> cases y <;> simp_all
  have hm := (h'.mode opt.mode).2 ((h.mode _).1 rfl)
  have hf : opt.fileName = opt'.fileName := by
    cases hx : opt.fileName with
    | none =>
      cases hy : opt'.fileName with
      | none => rfl
      | some y => exact absurd ((h.file y).2 ((h'.file y).1 hy)) (by rw [hx]; simp)
    | some x => exact ((h'.file x).2 ((h.file x).1 hx)).symm
  cases opt; cases opt'
  simp only [Options.mk.injEq]
  exact ⟨hm.symm, hf, b h.keywords h'.keywords, b h.version h'.version, b h.quiet h'.quiet, b h.memory h'.memory,
    b h.traceBasic h'.traceBasic, b h.traceFor h'.traceFor, b h.traceLog h'.traceLog⟩

/-- C56.  The first option for help shows the usage, in full if asked for, and the process ends with failure, whatever
comes behind it. -/
theorem C56_help (h : Host) (w : World) (before : List CStr) (a : CStr) (after : List CStr) (hb : ∀ a ∈ before, Usable a) (hn : named before ≤ 1) :
    (Says a .help → lbasic h (before ++ a :: after) w = .ok (1, (seeded h.ctx.env w (seedings before)).put (usageText false))) ∧
    (Says a .helpFull → lbasic h (before ++ a :: after) w = .ok (1, (seeded h.ctx.env w (seedings before)).put (usageText true))) := by
  obtain ⟨opt, h1, _, _⟩ := parseOptions_usable h.ctx.env (a :: after) before {} w hb (by simpa using hn)
  constructor <;> intro hs
  · have : parseOptions h.ctx.env opt (seeded h.ctx.env w (seedings before)) (a :: after) = .ok (.usage false (seeded h.ctx.env w (seedings before))) := by
      simp only [Says, spellings, List.mem_cons, List.not_mem_nil, or_false] at hs
      rcases hs with rfl | rfl | rfl | rfl <;> rw [parseOptions] <;> rfl
    simp only [lbasic, h1, this]
  · have : parseOptions h.ctx.env opt (seeded h.ctx.env w (seedings before)) (a :: after) = .ok (.usage true (seeded h.ctx.env w (seedings before))) := by
      simp only [Says, spellings, List.mem_cons, List.not_mem_nil, or_false] at hs
      rcases hs with rfl | rfl <;> rw [parseOptions] <;> rfl
    simp only [lbasic, h1, this]

/-- How the usage shows an option. -/
def Spec.usageRow (s : Switch) : CStr := (spellings s)[0]?.getD [] ++ ", ".toList ++ (spellings s)[1]?.getD [] ++ ['\n']

/-- The options in the order of the usage. -/
def Spec.listed : List Switch := [.mode .code, .help, .helpFull, .keywords, .mode .list, .mode .listNames, .mode .parse, .quiet, .randomize, .memory, .mode .run,
  .traceBasic, .traceFor, .traceLog, .version]

theorem flatten_zip {α β : Type} (f g : α → CStr) (r : β → CStr) (k : CStr → CStr) : ∀ (es : List α) (ls : List β), es.map (fun e => f e ++ ['\n']) = ls.map r →
    (es.map (fun e => f e ++ '\n' :: k (g e))).flatten = ((ls.zip (es.map g)).map (fun p => r p.1 ++ k p.2)).flatten
  | [], [], _ => rfl
  | e :: es, l :: ls, h => by
    simp only [List.map_cons, List.cons.injEq] at h
    simp only [List.map_cons, List.zip_cons_cons, List.flatten_cons, flatten_zip f g r k es ls h.2, ← h.1, List.append_assoc, List.cons_append, List.nil_append]

/-- C56.  The usage has a heading and names every option once with its two main spellings, in a row of its own; in full, each
option is followed by an explanation, which is indented and ends with an empty row. -/
theorem C56_usage : (∀ s, s ≠ .mode .no → s ∈ listed) ∧ listed.Nodup ∧ ∃ texts : List CStr, texts.length = listed.length ∧
    (∀ t ∈ texts, t.take 4 = "    ".toList ∧ t.length > 6 ∧ t.reverse.take 2 = ['\n', '\n']) ∧
    ∀ full, usageText full = "Usage: legacy-basic [options] name.bas\n\n".toList ++
      ((listed.zip texts).map (fun p => usageRow p.1 ++ if full = true then p.2 else [])).flatten := by
  refine ⟨?_, by decide, usageEntries.map (fun e => e.2.toList), by decide, by decide +kernel, fun full => ?_⟩
  · intro s hs
    cases s with
    | mode m => cases m <;> first | exact absurd rfl hs | decide
    | _ => decide
  · have h : usageEntries.map (fun e => e.1.toList ++ ['\n']) = listed.map usageRow := by decide +kernel
    unfold usageText
    rw [flatten_zip (fun e => e.1.toList) (fun e => e.2.toList) usageRow (fun t => if full = true then t else []) usageEntries listed h]

/-- C56.  An argument that looks like an option but is none, and a second file name, are refused with nothing done. -/
theorem C56_refused (h : Host) (w : World) (before : List CStr) (a : CStr) (after : List CStr) (hb : ∀ a ∈ before, Usable a) (hn : named before ≤ 1)
    (ha : (a.head? = some '-' ∧ ∀ s, ¬ Says a s) ∨ (IsFile a ∧ named before = 1)) :
    ∃ m, lbasic h (before ++ a :: after) w = .halt (.exit m) := by
  obtain ⟨opt, h1, _, h3⟩ := parseOptions_usable h.ctx.env (a :: after) before {} w hb (by simpa using hn)
  rcases ha with ⟨ha, hs⟩ | ⟨ha, he⟩
  · rw [parseOptions_other _ _ _ _ _ hs, if_pos ha] at h1
    exact ⟨_, by simp only [lbasic, h1]; rfl⟩
  · have : opt.fileName.isSome = true := h3.2 (by omega)
    have hno : opt.fileName.isNone = false := by cases hx : opt.fileName <;> simp_all
    rw [parseOptions_file _ _ _ _ ha, hno] at h1
    simp only [Bool.false_eq_true, if_false] at h1
    exact ⟨_, by simp only [lbasic, h1]; rfl⟩

/-- C56.  These are all the cases. -/
theorem C56_cases (args : List CStr) : ((∀ a ∈ args, Usable a) ∧ named args ≤ 1) ∨
    ∃ before a after, args = before ++ a :: after ∧ (∀ b ∈ before, Usable b) ∧ named before ≤ 1 ∧
      (Says a .help ∨ Says a .helpFull ∨ (a.head? = some '-' ∧ ∀ s, ¬ Says a s) ∨ (IsFile a ∧ named before = 1)) := by
  have key : ∀ args : List CStr, ∀ seen : List CStr, (∀ b ∈ seen, Usable b) → named seen ≤ 1 →
      ((∀ a ∈ args, Usable a) ∧ named (seen ++ args) ≤ 1) ∨ ∃ before a after, args = before ++ a :: after ∧ (∀ b ∈ seen ++ before, Usable b) ∧
        named (seen ++ before) ≤ 1 ∧ (Says a .help ∨ Says a .helpFull ∨ (a.head? = some '-' ∧ ∀ s, ¬ Says a s) ∨ (IsFile a ∧ named (seen ++ before) = 1)) := by
    intro args
    induction args with
    | nil => intro seen _ h; exact .inl ⟨(by simp), by simpa using h⟩
    | cons a args ih =>
      intro seen hu hn
      by_cases hbad : Says a .help ∨ Says a .helpFull ∨ (a.head? = some '-' ∧ ∀ s, ¬ Says a s) ∨ (IsFile a ∧ named seen = 1)
      · exact .inr ⟨[], a, args, rfl, by simpa using hu, by simpa using hn, by simpa using hbad⟩
      · simp only [not_or, not_and] at hbad
        obtain ⟨b1, b2, b3, b4⟩ := hbad
        have hua : Usable a := by
          by_cases hd : a.head? = some '-'
          · obtain ⟨s, hs⟩ := Classical.not_forall.1 (b3 hd)
            have hs := Classical.not_not.1 hs
            exact .inr ⟨s, fun e => b1 (e ▸ hs), fun e => b2 (e ▸ hs), hs⟩
          · exact .inl ⟨hd, b1⟩
        have happ : named (seen ++ [a]) = named seen + (if IsFile a then 1 else 0) := by
          unfold named; rw [List.filter_append, List.length_append]; by_cases h : IsFile a <;> simp [h]
        have hna : named (seen ++ [a]) ≤ 1 := by
          rw [happ]
          split
          · rename_i hf; have := b4 hf; omega
          · omega
        rcases ih (seen ++ [a]) (by intro b hb; rcases List.mem_append.1 hb with hb | hb; exact hu b hb; rw [List.mem_singleton.1 hb]; exact hua) hna with
          ⟨h1, h2⟩ | ⟨before, x, after, rfl, h1, h2, h3⟩
        · refine .inl ⟨fun b hb => ?_, by simpa using h2⟩
          rcases List.mem_cons.1 hb with rfl | hb
          · exact hua
          · exact h1 b hb
        · exact .inr ⟨a :: before, x, after, rfl, by simpa using h1, by simpa using h2, by simpa using h3⟩
  have := key args [] (by simp) (by decide)
  simpa using this

/-- C56.  `--version` prints the version and ends with failure; without a file a mode is refused. -/
theorem C56_version (h : Host) (w : World) (args : List CStr) (hu : ∀ a ∈ args, Usable a) (hn : named args ≤ 1) (a : CStr) (ha : a ∈ args) (hs : Says a .version) :
    lbasic h args w = .ok (1, (seeded h.ctx.env w (seedings args)).put versionText) := by
  obtain ⟨opt, h1, h2⟩ := C56_options h.ctx.env w args hu hn
  have hv : opt.printVersion = true := h2.version.2 ⟨a, ha, hs⟩
  simp only [lbasic, h1, hv, if_true]

/-- A mode twice, switches in both spellings, a file. -/
example : let args := ["-l".toList, "game.bas".toList, "--quiet".toList, "-z".toList, "--run".toList]
    (∀ a ∈ args, Usable a) ∧ named args ≤ 1 ∧ seedings args = 1 ∧
    Understood args { mode := .run, fileName := some "game.bas".toList, quiet := true } := by
  intro args
  have hu : ∀ a ∈ args, Usable a := by
    intro a ha
    simp only [args, List.mem_cons, List.not_mem_nil, or_false] at ha
    rcases ha with rfl | rfl | rfl | rfl | rfl
    · exact .inr ⟨.mode .list, by decide, by decide, by decide⟩
    · exact .inl (by decide)
    · exact .inr ⟨.quiet, by decide, by decide, by decide⟩
    · exact .inr ⟨.randomize, by decide, by decide, by decide⟩
    · exact .inr ⟨.mode .run, by decide, by decide, by decide⟩
  have hn : named args ≤ 1 := by decide
  obtain ⟨opt, h1, h2⟩ := C56_options Demo.env {} args hu hn
  refine ⟨hu, hn, by decide, ?_⟩
  have : parseOptions Demo.env {} {} args = .ok (.options { mode := .run, fileName := some "game.bas".toList, quiet := true } (seeded Demo.env {} 1)) := by
    decide +kernel
  rw [this] at h1
  simp only [Outcome.ok.injEq, Parsed.options.injEq] at h1
  rw [h1.1]
  exact h2

/-- Arguments that are refused. -/
example : ("-x".toList.head? = some '-' ∧ ∀ s, ¬ Says "-x".toList s) ∧ IsFile "b.bas".toList ∧ named ["-q".toList, "a.bas".toList] = 1 ∧
    Says "/?".toList .help ∧ Says "-hh".toList .helpFull ∧ Says "-v".toList .version := by
  refine ⟨⟨by decide, fun s h => ?_⟩, by decide, by decide, by decide, by decide, by decide⟩
  have key : ∀ s ∈ switches, ¬ Says "-x".toList s := by decide +kernel
  exact key s (mem_switches s) h

end LB
