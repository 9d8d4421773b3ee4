import Verif.Props.Batch
/- C58: listing, checking and showing the code of a file named on the command line. -/
namespace LB
open LB.Spec _root_.Spec

/-- The arguments name the file and ask, at last, for the mode. -/
structure Spec.Wants (args : List CStr) (f : CStr) (m : Mode) : Prop where
  usable : ∀ a ∈ args, Usable a
  one : named args ≤ 1
  mem : f ∈ args
  file : IsFile f
  mode : ∃ before a after, args = before ++ a :: after ∧ Says a (.mode m) ∧ ∀ b ∈ after, ∀ m', ¬ Says b (.mode m')
  version : ∀ a ∈ args, ¬ Says a .version

/-- A number with spaces before it to fill five columns. -/
def Spec.inFive (n : Nat) : CStr := List.replicate (5 - (numeral n).length) ' ' ++ numeral n

/-- A line of a program as listed. -/
def Spec.row (p : Nat × CStr) : CStr := inFive p.1 ++ ' ' :: p.2 ++ ['\n']

namespace Demo

/-- A small program in a file. -/
def smallText : CStr := "10 FOR I=1 TO 3:PRINT I;TAB(5);left$(a$,2)\n200NEXT i\n".toList

/-- Its lines. -/
def smallLines : List (Nat × CStr) := [(10, "FOR I=1 TO 3:PRINT I;TAB(5);left$(a$,2)".toList), (200, "NEXT i".toList)]

/-- A host with that file. -/
def smallHost : Host := ⟨Demo.ctx, fun f => if f = "c.bas".toList then some smallText else none, 100, "malloc".toList⟩

/-- Arguments for a mode. -/
def smallArgs (a : String) : List CStr := ["-q".toList, "c.bas".toList, a.toList]

theorem smallWants {m : Mode} {a : String} (hs : (a, m) ∈ [("--list", Mode.list), ("-n", .listNames), ("-p", .parse), ("--code", .code), ("-r", .run)]) :
    Wants (smallArgs a) "c.bas".toList m := by
  have h1 : ∀ p ∈ [("--list", Mode.list), ("-n", .listNames), ("-p", .parse), ("--code", .code), ("-r", .run)], Says p.1.toList (.mode p.2) ∧ named (smallArgs p.1) ≤ 1 ∧
      ∀ a ∈ smallArgs p.1, ¬ Says a .version := by decide +kernel
  obtain ⟨h1, h2, h3⟩ := h1 _ hs
  refine ⟨?_, h2, by simp [smallArgs], by decide, ⟨["-q".toList, "c.bas".toList], _, [], rfl, h1, by simp⟩, h3⟩
  intro b hb
  simp only [smallArgs, List.mem_cons, List.not_mem_nil, or_false] at hb
  rcases hb with rfl | rfl | rfl
  · exact .inr ⟨.quiet, by decide, by decide, by decide⟩
  · exact .inl (by decide)
  · exact .inr ⟨.mode m, (by intro h; cases h), (by intro h; cases h), h1⟩

theorem small_load : loadSourceFile "c.bas".toList (some smallText) = .ok (some ⟨some "c.bas".toList, linesOf smallLines⟩) := by decide +kernel

theorem small_listing : Listing smallText smallLines ∧ Ascending (smallLines.map (·.1)) ∧ ∀ n t, (n, t) ∈ smallLines → n ≠ 0 :=
  ((C03_load_iff _ _ _).1 small_load).2

end Demo

theorem lbasic_wants (h : Host) {args : List CStr} {f : CStr} {m : Mode} (w : World) (ha : Wants args f m) :
    ∃ opt, Understood args opt ∧ opt.mode = m ∧ lbasic h args w =
      match processFile h opt f ((seeded h.ctx.env w (seedings args)).put (banner args)) with
      | .halt e => .halt e
      | .ok (0, w) => .ok (0, w.put (report args h.memory))
      | .ok (n + 1, w) => .ok (n + 1, w) := by
  obtain ⟨opt, h1, h2⟩ := C56_options h.ctx.env w args ha.usable ha.one
  have b : ∀ {x : Bool} {p : Prop}, (x = true ↔ p) → ¬ p → x = false := by intro x p h1 h2; cases x <;> simp_all
  have hv := b h2.version (fun ⟨a, h3, h4⟩ => ha.version a h3 h4)
  have hn := (h2.file f).2 ⟨ha.mem, ha.file⟩
  have hq : (if opt.quiet = true then seeded h.ctx.env w (seedings args) else (seeded h.ctx.env w (seedings args)).put versionText) =
      (seeded h.ctx.env w (seedings args)).put (banner args) := by
    unfold banner
    by_cases hq : ∃ a ∈ args, Says a .quiet
    · rw [if_pos hq, if_pos (h2.quiet.2 hq)]; simp [World.put]
    · rw [if_neg hq, if_neg (fun h => hq (h2.quiet.1 h))]
  have hfin : ∀ w : World, finish h opt 0 w = (0, w.put (report args h.memory)) := by
    intro w
    unfold report finish
    by_cases hq : ∃ a ∈ args, Says a .memory
    · rw [if_pos hq, h2.memory.2 hq]; rfl
    · rw [if_neg hq, b h2.memory hq]; simp [World.put]
  refine ⟨opt, h2, (h2.mode m).2 (.inr ha.mode), ?_⟩
  simp only [lbasic, h1, hv, hn, hq, Bool.false_eq_true, if_false]
  generalize processFile h opt f ((seeded h.ctx.env w (seedings args)).put (banner args)) = r
  cases r with
  | halt e => rfl
  | ok r =>
    obtain ⟨n, w⟩ := r
    cases n with
    | zero => simp only [hfin]
    | succ n => simp [finish]

theorem load_listing {text f : CStr} {ps : List (Nat × CStr)} (hl : Listing text ps) (hasc : Ascending (ps.map (·.1))) (h0 : ∀ n t, (n, t) ∈ ps → n ≠ 0) :
    loadSourceFile f (some text) = .ok (some ⟨some f, linesOf ps⟩) := by
  have hpairs : (⟨some f, linesOf ps⟩ : Source).pairs = ps := by
    simp [Source.pairs, linesOf, List.map_map, Function.comp_def, SrcLine.pair]
  rw [C03_load_iff, hpairs]
  exact ⟨rfl, hl, hasc, h0⟩

theorem seeded_frame (env : Env) (w : World) (n : Nat) : (seeded env w n).out = w.out ∧ (seeded env w n).stdin = w.stdin := by
  cases n <;> exact ⟨rfl, rfl⟩

/-- C58.  `--list` shows each line of the file with its number in five columns, and does nothing else. -/
theorem C58_list {args : List CStr} {f text : CStr} (ha : Wants args f .list) {ps : List (Nat × CStr)} (hl : Listing text ps)
    (hasc : Ascending (ps.map (·.1))) (h0 : ∀ n t, (n, t) ∈ ps → n ≠ 0) (h : Host) (hf : h.files f = some text) (w : World) :
    ∃ w', lbasic h args w = .ok (0, w') ∧ w'.stdin = w.stdin ∧ w'.out = w.out ++ banner args ++ (ps.map row).flatten ++ report args h.memory := by
  obtain ⟨opt, h1, h2, h3⟩ := lbasic_wants h w ha
  rw [h3, processFile, h2, hf, load_listing hl hasc h0]
  refine ⟨_, rfl, (seeded_frame _ _ _).2, ?_⟩
  simp only [World.put, (seeded_frame _ _ _).1, listFile, linesOf, List.map_map]
  congr 3

example : ∃ w', lbasic Demo.smallHost (Demo.smallArgs "--list") {} = .ok (0, w') ∧
    w'.out = "   10 FOR I=1 TO 3:PRINT I;TAB(5);left$(a$,2)\n  200 NEXT i\n".toList := by
  obtain ⟨w', h1, -, h2⟩ := C58_list (Demo.smallWants (a := "--list") (by decide)) Demo.small_listing.1 Demo.small_listing.2.1 Demo.small_listing.2.2 Demo.smallHost (by decide) {}
  exact ⟨w', h1, by rw [h2]; decide +kernel⟩

/-- C58.  What `--list` shows can be loaded again if every number has five digits or more … -/
theorem C58_list_reload {ps : List (Nat × CStr)} (hasc : Ascending (ps.map (·.1)))
    (hp : ∀ n t, (n, t) ∈ ps → 10000 ≤ n ∧ n < 2 ^ 32 ∧ '\n' ∉ t ∧ '\x00' ∉ t ∧ (numeral n).length + 1 + t.length ≤ 254) (name : CStr) :
    loadSourceFile name (some (ps.map row).flatten) = .ok (some ⟨some name, linesOf ps⟩) := by
  refine load_listing ?_ hasc (fun n t h => by have := (hp n t h).1; omega)
  have := save_listing (linesOf ps) (by
    intro l hl
    simp only [linesOf, List.mem_map] at hl
    obtain ⟨p, hm, rfl⟩ := hl
    obtain ⟨h1, h2, h3, h4, h5⟩ := hp p.1 p.2 hm
    refine ⟨h2, h3, h4, ?_⟩
    simp only [saveLine, List.length_append, List.length_cons, List.length_nil]
    have : (fmtU p.1).length = (numeral p.1).length := rfl
    omega)
  have e : (linesOf ps).map SrcLine.pair = ps := by simp [linesOf, List.map_map, Function.comp_def, SrcLine.pair]
  rw [e] at this
  have e2 : (linesOf ps).map saveLine = ps.map row := by
    simp only [linesOf, List.map_map]
    apply List.map_congr_left
    intro p hm
    obtain ⟨h1, -⟩ := hp p.1 p.2 hm
    have hlen : 5 ≤ (numeral p.1).length := by
      have := Nat.length_toDigits_le_iff (b := 10) (n := p.1) (k := 4) (by omega) (by omega)
      simp only [numeral]
      omega
    show saveLine ⟨p.1, p.2⟩ = row p
    have hz : 5 - (numeral p.1).length = 0 := by omega
    simp only [saveLine, row, inFive, hz]
    rfl
  rwa [e2] at this

example : loadSourceFile "x".toList (some "10000 PRINT 1\n12345 END\n".toList) = .ok (some ⟨some "x".toList, linesOf [(10000, "PRINT 1".toList), (12345, "END".toList)]⟩) :=
  C58_list_reload (ps := [(10000, "PRINT 1".toList), (12345, "END".toList)]) (by decide) (by
    intro n t h
    simp only [List.mem_cons, Prod.mk.injEq, List.not_mem_nil, or_false] at h
    rcases h with ⟨rfl, rfl⟩ | ⟨rfl, rfl⟩ <;> decide) _

/-- C58.  … but is refused if the first number has fewer digits. -/
theorem C58_list_not_reloadable {n : Nat} {t : CStr} {ps : List (Nat × CStr)} (hn : n < 10000) (name : CStr) :
    ∃ m, loadSourceFile name (some (((n, t) :: ps).map row).flatten) = .halt (.exit m) := by
  rcases C03_load_total name (((n, t) :: ps).map row).flatten with ⟨src, hl⟩ | h
  · exfalso
    obtain ⟨-, hl, -⟩ := (C03_load_iff _ _ _).1 hl
    have hlen : (numeral n).length < 5 := by
      have := Nat.length_toDigits_le_iff (b := 10) (n := n) (k := 4) (by omega) (by omega)
      simp only [numeral]
      omega
    obtain ⟨k, hk⟩ : ∃ k, 5 - (numeral n).length = k + 1 := ⟨4 - (numeral n).length, by omega⟩
    have hd : ∃ r, (((n, t) :: ps).map row).flatten = ' ' :: r := by
      simp only [List.map_cons, List.flatten_cons, row, inFive, hk, List.replicate_succ, List.cons_append]
      exact ⟨_, rfl⟩
    obtain ⟨r, hr⟩ := hd
    rw [hr] at hl
    generalize src.pairs = qs at hl
    generalize hc : ' ' :: r = c0 at hl
    cases hl with
    | nil => cases hc
    | cons hw _ =>
      obtain ⟨ds, sep, rfl, hne, hds, -⟩ := hw
      cases ds with
      | nil => exact hne rfl
      | cons d ds =>
        simp only [List.cons_append, List.cons.injEq] at hc
        have := hds d List.mem_cons_self
        rw [← hc.1] at this
        exact absurd this (by decide)
  · exact h

example : ∃ m, loadSourceFile "x".toList (some "   10 PRINT 1\n   20 END\n".toList) = .halt (.exit m) :=
  C58_list_not_reloadable (n := 10) (t := "PRINT 1".toList) (ps := [(20, "END".toList)]) (by decide) _

/-- C58.  In every mode, a file that cannot be opened ends with success and nothing done, and a file that is no listing with ascending
numbers ends the process with failure. -/
theorem C58_unreadable {args : List CStr} {f : CStr} {m : Mode} (ha : Wants args f m) (h : Host) (w : World) :
    (h.files f = none → ∃ w', lbasic h args w = .ok (0, w') ∧ w'.out = w.out ++ banner args ++ report args h.memory ∧ w'.stdin = w.stdin) ∧
    (∀ text, h.files f = some text → (¬ ∃ ps, Listing text ps ∧ Ascending (ps.map (·.1)) ∧ ∀ n t, (n, t) ∈ ps → n ≠ 0) →
      ∃ e, lbasic h args w = .halt (.exit e)) := by
  obtain ⟨opt, h1, h2, h3⟩ := lbasic_wants h w ha
  constructor
  · intro hf
    have hp : processFile h opt f ((seeded h.ctx.env w (seedings args)).put (banner args)) = .ok (0, (seeded h.ctx.env w (seedings args)).put (banner args)) := by
      rw [processFile, hf]
      cases opt.mode <;> rfl
    rw [h3, hp]
    exact ⟨_, rfl, by simp only [World.put, (seeded_frame _ _ _).1], (seeded_frame _ _ _).2⟩
  · intro text hf hno
    rcases C03_load_total f text with ⟨src, hl⟩ | ⟨e, hl⟩
    · exact absurd ⟨src.pairs, ((C03_load_iff f text src).1 hl).2⟩ hno
    · refine ⟨e, ?_⟩
      have hp : processFile h opt f ((seeded h.ctx.env w (seedings args)).put (banner args)) = .halt (.exit e) := by
        rw [processFile, hf]
        cases opt.mode <;> simp only [vmLoadSource, hl]
      rw [h3, hp]

example : ∃ w', lbasic { Demo.smallHost with files := fun _ => none } (Demo.smallArgs "--code") {} = .ok (0, w') ∧ w'.out = [] := by
  obtain ⟨w', h1, h2, -⟩ := (C58_unreadable (Demo.smallWants (a := "--code") (m := .code) (by decide)) { Demo.smallHost with files := fun _ => none } {}).1 rfl
  have hr : report (Demo.smallArgs "--code") Demo.smallHost.memory = [] := if_neg (by decide)
  have hbn : banner (Demo.smallArgs "--code") = [] := if_pos (by decide)
  exact ⟨w', h1, by rw [h2, hr, hbn]; rfl⟩

theorem runProgram_refused {env : Env} {brk : Nat → Bool} {n : Nat} {vm : VM} {src : Source} {st : SymTab} (hs : vm.stored = ⟨some src, none, none⟩)
    (hp : parseSource src (initBuiltins newSymbolTable) vm.keywordsAnywhere = .ok (none, st)) :
    runProgram env brk n vm = .ok (none, { vm with st := st }) := by
  have hp' : parseSource src (initBuiltins (clearSymbolTableNames vm.st)) vm.keywordsAnywhere = .ok (none, st) := hp
  unfold runProgram ensureProgramCompiled
  simp only [hs, Option.isNone_some, Option.isSome_none, Bool.false_eq_true, if_false, hp']

theorem runProgram_halted {env : Env} {brk : Nat → Bool} {n : Nat} {vm : VM} {src : Source} {e : Halt} (hs : vm.stored = ⟨some src, none, none⟩)
    (hp : parseSource src (initBuiltins newSymbolTable) vm.keywordsAnywhere = .halt e) :
    runProgram env brk n vm = .halt e := by
  have hp' : parseSource src (initBuiltins (clearSymbolTableNames vm.st)) vm.keywordsAnywhere = .halt e := hp
  unfold runProgram ensureProgramCompiled
  simp only [hs, Option.isNone_some, Option.isSome_none, Bool.false_eq_true, if_false, hp']

theorem wants_loaded (h : Host) {f text : CStr} {opt : Options} {w : World} {ps : List (Nat × CStr)} (hl : Listing text ps)
    (hasc : Ascending (ps.map (·.1))) (h0 : ∀ n t, (n, t) ∈ ps → n ≠ 0) (hf : h.files f = some text) (hm : opt.mode = .run) :
    processFile h opt f w =
      match runProgram h.ctx.env h.ctx.brk h.ctx.fuel (storedProgramChanged
        { newVm opt.keywordsAnywhere opt.traceBasic opt.traceFor w with stored := ⟨some ⟨some f, linesOf ps⟩, none, none⟩ }) with
      | .halt e => .halt e
      | .ok (_, vm') => .ok (0, vm'.world) := by
  rw [processFile, hm, hf]
  simp only [vmLoadSource, load_listing hl hasc h0]
  rfl

/-- C58.  `--parse` shows nothing but the version and the report of memory.  Its status says whether the program can be run:
with status 1 the program is refused and running it shows nothing either; with status 0 … see `C58_check_accepts`.  If
checking ends the process, so does running. -/
theorem C58_check {args args' : List CStr} {f text : CStr} (ha : Wants args f .parse) (ha' : Wants args' f .run)
    (hk : (∃ a ∈ args, Says a .keywords) ↔ ∃ a ∈ args', Says a .keywords) {ps : List (Nat × CStr)} (hl : Listing text ps)
    (hasc : Ascending (ps.map (·.1))) (h0 : ∀ n t, (n, t) ∈ ps → n ≠ 0) (h : Host) (hf : h.files f = some text) (w : World) :
    (∃ w1, lbasic h args w = .ok (0, w1) ∧ w1.out = w.out ++ banner args ++ report args h.memory ∧ w1.stdin = w.stdin) ∨
    (∃ w1 w2, lbasic h args w = .ok (1, w1) ∧ w1.out = w.out ++ banner args ∧ w1.stdin = w.stdin ∧
      lbasic h args' w = .ok (0, w2) ∧ w2.out = w.out ++ banner args' ++ report args' h.memory ∧ w2.stdin = w.stdin) ∨
    ∃ e, lbasic h args w = .halt e ∧ lbasic h args' w = .halt e := by
  obtain ⟨opt, h1, h2, h3⟩ := lbasic_wants h w ha
  obtain ⟨opt', h1', h2', h3'⟩ := lbasic_wants h w ha'
  have hkw : opt'.keywordsAnywhere = opt.keywordsAnywhere := by
    have a1 := h1.keywords
    have a2 := h1'.keywords
    rw [← hk, ← a1] at a2
    exact Bool.eq_iff_iff.2 a2
  rw [h3, h3', wants_loaded h hl hasc h0 hf h2', processFile, h2, hf, load_listing hl hasc h0]
  simp only
  cases hp : parseSource ⟨some f, linesOf ps⟩ (initBuiltins newSymbolTable) opt.keywordsAnywhere with
  | halt e =>
    refine .inr (.inr ⟨e, rfl, ?_⟩)
    rw [runProgram_halted (vm := storedProgramChanged _) rfl (by rw [← hkw] at hp; exact hp)]
  | ok r =>
    obtain ⟨r, st⟩ := r
    cases r with
    | none =>
      refine .inr (.inl ⟨_, ((seeded h.ctx.env w (seedings args')).put (banner args')).put (report args' h.memory), rfl, ?_, (seeded_frame _ _ _).2, ?_⟩)
      · simp only [World.put, (seeded_frame _ _ _).1]
      · rw [runProgram_refused (vm := storedProgramChanged _) rfl (by rw [← hkw] at hp; exact hp)]
        exact ⟨rfl, by simp [World.put, (seeded_frame _ _ _).1], by simp [World.put, (seeded_frame _ _ _).2]⟩
    | some bc =>
      refine .inl ⟨_, rfl, ?_, (seeded_frame _ _ _).2⟩
      simp [World.put, (seeded_frame _ _ _).1]

example : (∃ w1, lbasic Demo.smallHost (Demo.smallArgs "-p") {} = .ok (0, w1)) ∨ (∃ w1, lbasic Demo.smallHost (Demo.smallArgs "-p") {} = .ok (1, w1)) ∨
    ∃ e, lbasic Demo.smallHost (Demo.smallArgs "-p") {} = .halt e := by
  rcases C58_check (args' := Demo.smallArgs "-r") (Demo.smallWants (a := "-p") (m := .parse) (by decide)) (Demo.smallWants (by decide)) (by decide) Demo.small_listing.1
    Demo.small_listing.2.1 Demo.small_listing.2.2 Demo.smallHost (by decide) {} with ⟨w, h, -⟩ | ⟨w, _, h, -⟩ | ⟨e, h, -⟩
  · exact .inl ⟨w, h⟩
  · exact .inr (.inl ⟨w, h⟩)
  · exact .inr (.inr ⟨e, h⟩)

/-- C58.  `--parse` accepts every program of statements whose meaning is given by `Src.steps`. -/
theorem C58_check_accepts {args : List CStr} {f text : CStr} (ha : Wants args f .parse) {any : Bool} (hk : any = true ↔ ∃ a ∈ args, Says a .keywords)
    {ps : List (Nat × CStr)} (hl : Listing text ps) (hasc : Ascending (ps.map (·.1))) (h0 : ∀ n t, (n, t) ∈ ps → n ≠ 0)
    {prog : Src.Program} (hp : Src.LinesAs any (linesOf ps) prog) (hap : prog.Apart) (h : Host) (hf : h.files f = some text) (w : World) :
    ∃ w', lbasic h args w = .ok (0, w') ∧ w'.out = w.out ++ banner args ++ report args h.memory ∧ w'.stdin = w.stdin := by
  obtain ⟨opt, h1, h2, h3⟩ := lbasic_wants h w ha
  have hkw : opt.keywordsAnywhere = any := Bool.eq_iff_iff.2 (h1.keywords.trans hk.symm)
  obtain ⟨code, d, st', h4, -⟩ := program_source (src := ⟨some f, linesOf ps⟩) (wellNamed_fresh newSymbolTable) (ready_proper hap newSymbolTable) hp
  have h4 : parseSource ⟨some f, linesOf ps⟩ (initBuiltins newSymbolTable) any = .ok (some ⟨code, d⟩, symMakeUnknownArray st') := h4
  rw [h3, processFile, h2, hf, load_listing hl hasc h0]
  simp only [hkw, h4]
  exact ⟨_, rfl, by simp [World.put, (seeded_frame _ _ _).1], (seeded_frame _ _ _).2⟩

theorem symOperand_total {st : SymTab} (ht : Tab st) {id : Nat} {F : Symbol → Prop} (hi : Ident st id F) (n : Option Nat) : ∃ t, symOperand st id n = .ok t := by
  obtain ⟨q, s, h1, h2, -⟩ := hi
  have hq := (List.getElem?_eq_some_iff.1 h1).1
  have := ht.ids q s h1
  have hlt : id < st.psym.length := by have := Nat.mod_le q 65536; omega
  unfold symOperand symName
  rw [List.getElem?_eq_getElem hlt]
  cases n <;> exact ⟨_, rfl⟩

theorem operandText_total {src : Source} {st : SymTab} (ht : Tab st) {i : Inst} (hi : Fits st i) (hl : ∀ k, lineOf i = some k → k < src.lines.length) :
    ∃ t, operandText src st i = .ok t := by
  cases i
  case sourceLine k =>
    have hk := hl k rfl
    exact ⟨fmtU k ++ ": ".toList ++ fmtU src.lines[k].num ++ ' ' :: src.lines[k].text, by simp [operandText, sourceLinenum, sourceText, List.getElem?_eq_getElem hk]⟩
  case inputBuf s => cases s <;> exact ⟨_, rfl⟩
  case def_ id n => exact symOperand_total ht hi.2 _
  all_goals first | exact symOperand_total ht hi _ | exact ⟨_, rfl⟩

/-- The rows of code. -/
def Spec.numberedFrom (j : Nat) : List CStr → List CStr
  | [] => []
  | r :: rs => (inFive j ++ ' ' :: r ++ ['\n']) :: numberedFrom (j + 1) rs

theorem name_line (i : Inst) (t : CStr) : "LINE ".toList.isPrefixOf ((bcodeName i).toList ++ ' ' :: t) = (lineOf i).isSome := by
  cases i
  case arith o => cases o <;> simp [bcodeName, arithName, lineOf, List.isPrefixOf]
  case cmpNum o => cases o <;> simp [bcodeName, relName, lineOf, List.isPrefixOf]
  case cmpStr o => cases o <;> simp [bcodeName, relName, lineOf, List.isPrefixOf]
  case bi b => cases b <;> simp [bcodeName, biName, lineOf, List.isPrefixOf]
  all_goals simp [bcodeName, lineOf, List.isPrefixOf]

/-- A row that shows a line of the program. -/
def Spec.showsLine (r : CStr) : Option CStr := if "LINE ".toList.isPrefixOf r then some (r.drop 5) else none

/-- A line of the program as shown among the code. -/
def Spec.shownLine (k : Nat) (l : SrcLine) : CStr := numeral k ++ ": ".toList ++ numeral l.num ++ ' ' :: l.text

theorem listCode_total {src : Source} {st : SymTab} (ht : Tab st) {code : List Inst} (j : Nat) (hf : ∀ i ∈ code, Fits st i)
    (hl : ∀ k ∈ code.filterMap lineOf, k < src.lines.length) :
    ∃ rows, listCode src st code j = .ok (numberedFrom j rows).flatten ∧ rows.length = code.length ∧
      rows.filterMap showsLine = (code.filterMap lineOf).filterMap (fun k => src.lines[k]?.map (shownLine k)) := by
  induction code generalizing j with
  | nil => exact ⟨[], rfl, rfl, rfl⟩
  | cons i code ih =>
    obtain ⟨rows, h1, h2, h3⟩ := ih (j + 1) (fun i hi => hf i (List.mem_cons_of_mem _ hi)) (fun k hk => hl k (by
      rw [List.mem_filterMap] at hk ⊢
      obtain ⟨a, b, c⟩ := hk
      exact ⟨a, List.mem_cons_of_mem _ b, c⟩))
    have hk : ∀ k, lineOf i = some k → k < src.lines.length := fun k hk => hl k (by
      rw [List.mem_filterMap]; exact ⟨i, List.mem_cons_self, hk⟩)
    obtain ⟨t, ht'⟩ := operandText_total (src := src) ht (hf i List.mem_cons_self) hk
    refine ⟨((bcodeName i).toList ++ ' ' :: t) :: rows, ?_, by simp [h2], ?_⟩
    · simp only [listCode, printBinst, ht', h1, numberedFrom, List.flatten_cons]
      simp [padLeft5, inFive, fmtU, numeral]
    · rw [List.filterMap_cons, List.filterMap_cons, showsLine, name_line]
      cases hlo : lineOf i with
      | none => simp only [Option.isSome_none, Bool.false_eq_true, if_false, h3]
      | some k =>
        cases i <;> simp only [lineOf, Option.some.injEq, reduceCtorEq] at hlo
        subst hlo
        have hk := hk _ rfl
        simp only [operandText, sourceLinenum, sourceText, List.getElem?_eq_getElem hk, Outcome.ok.injEq] at ht'
        subst ht'
        simp only [Option.isSome_some, if_true, h3, List.filterMap_cons, List.getElem?_eq_getElem hk, Option.map_some]
        simp [bcodeName, shownLine, fmtU, numeral]

/-- The lines of a program as shown among its code, in order. -/
def Spec.shownLines (ps : List (Nat × CStr)) : List CStr := ps.zipIdx.map (fun p => shownLine p.2 ⟨p.1.1, p.1.2⟩)

theorem shown_range (ps : List (Nat × CStr)) :
    (List.range (linesOf ps).length).filterMap (fun k => (linesOf ps)[k]?.map (shownLine k)) = shownLines ps := by
  have : (List.range (linesOf ps).length).filterMap (fun k => (linesOf ps)[k]?.map (shownLine k)) =
      (List.range (linesOf ps).length).map (fun k => shownLine k ((linesOf ps)[k]?.getD ⟨0, []⟩)) := by
    have key : ∀ ks : List Nat, (∀ k ∈ ks, k < (linesOf ps).length) → ks.filterMap (fun k => (linesOf ps)[k]?.map (shownLine k)) =
        ks.map (fun k => shownLine k ((linesOf ps)[k]?.getD ⟨0, []⟩)) := by
      intro ks
      induction ks with
      | nil => intro _; rfl
      | cons k ks ih =>
        intro h
        have hk := h k List.mem_cons_self
        rw [List.filterMap_cons, ih (fun k hk => h k (List.mem_cons_of_mem _ hk)), List.getElem?_eq_getElem hk]
        simp [List.getElem?_eq_getElem hk]
    exact key _ (fun k hk => List.mem_range.1 hk)
  rw [this]
  apply List.ext_getElem
  · simp [linesOf, shownLines]
  · intro k h1 h2
    simp only [List.length_map, List.length_range] at h1
    simp only [List.getElem_map, List.getElem_range, shownLines, List.getElem_zipIdx, Nat.zero_add]
    rw [List.getElem?_eq_getElem h1]
    simp [linesOf]

/-- C58.  `--code` accepts the same programs as `--parse`.  It shows the code in rows that are numbered from 0 on; among them
is every line of the program, in order; and it never fails on a program that is accepted. -/
theorem C58_code {args args' : List CStr} {f text : CStr} (ha : Wants args f .code) (ha' : Wants args' f .parse)
    (hk : (∃ a ∈ args, Says a .keywords) ↔ ∃ a ∈ args', Says a .keywords) {ps : List (Nat × CStr)} (hl : Listing text ps)
    (hasc : Ascending (ps.map (·.1))) (h0 : ∀ n t, (n, t) ∈ ps → n ≠ 0) (h : Host) (hf : h.files f = some text) (w : World) :
    (∃ w1 w2 rows, lbasic h args' w = .ok (0, w2) ∧ lbasic h args w = .ok (0, w1) ∧ w1.stdin = w.stdin ∧
      w1.out = w.out ++ banner args ++ (numberedFrom 0 rows).flatten ++ report args h.memory ∧ rows.filterMap showsLine = shownLines ps) ∨
    (∃ w1 w2, lbasic h args' w = .ok (1, w2) ∧ lbasic h args w = .ok (1, w1) ∧ w1.out = w.out ++ banner args ∧ w1.stdin = w.stdin) ∨
    ∃ e, lbasic h args w = .halt e ∧ lbasic h args' w = .halt e := by
  obtain ⟨opt, h1, h2, h3⟩ := lbasic_wants h w ha
  obtain ⟨opt', h1', h2', h3'⟩ := lbasic_wants h w ha'
  have hkw : opt'.keywordsAnywhere = opt.keywordsAnywhere := by
    have a1 := h1.keywords
    have a2 := h1'.keywords
    rw [← hk, ← a1] at a2
    exact Bool.eq_iff_iff.2 a2
  simp only [h3, h3', processFile, h2, h2', hf, load_listing hl hasc h0, hkw]
  cases hp : parseSource ⟨some f, linesOf ps⟩ (initBuiltins newSymbolTable) opt.keywordsAnywhere with
  | halt e => exact .inr (.inr ⟨e, rfl, rfl⟩)
  | ok r =>
    obtain ⟨r, st⟩ := r
    cases r with
    | none =>
      refine .inr (.inl ⟨_, _, rfl, rfl, ?_, (seeded_frame _ _ _).2⟩)
      simp only [World.put, (seeded_frame _ _ _).1]
    | some bc =>
      obtain ⟨hg, -, hc⟩ := parseSource_compiled (wellNamed_fresh newSymbolTable).tab hp
      have hc := hc bc rfl
      obtain ⟨rows, k1, -, k3⟩ := listCode_total (src := ⟨some f, linesOf ps⟩) hg.tab 0 hc.fits (by
        intro k hk; rw [hc.lines] at hk; exact List.mem_range.1 hk)
      refine .inl ⟨(((seeded h.ctx.env w (seedings args)).put (banner args)).put (numberedFrom 0 rows).flatten).put (report args h.memory), _, rows, rfl, ?_, (seeded_frame _ _ _).2, ?_, ?_⟩
      · simp only [if_true, k1]
      · simp only [World.put, (seeded_frame _ _ _).1]
      · rw [k3, hc.lines]
        exact shown_range ps

example : ∃ w1 rows, lbasic Demo.smallHost (Demo.smallArgs "--code") {} = .ok (0, w1) ∧ w1.out = (numberedFrom 0 rows).flatten ∧
    rows.filterMap showsLine = ["0: 10 FOR I=1 TO 3:PRINT I;TAB(5);left$(a$,2)".toList, "1: 200 NEXT i".toList] := by
  rcases C58_code (args' := Demo.smallArgs "-p") (Demo.smallWants (a := "--code") (m := .code) (by decide)) (Demo.smallWants (by decide)) (by decide) Demo.small_listing.1
    Demo.small_listing.2.1 Demo.small_listing.2.2 Demo.smallHost (by decide) {} with ⟨w, _, rows, -, h, -, h2, h3⟩ | ⟨w, _, -, h, -⟩ | ⟨e, h, -⟩
  · refine ⟨w, rows, h, ?_, by rw [h3]; decide⟩
    have hr : report (Demo.smallArgs "--code") Demo.smallHost.memory = [] := if_neg (by decide)
    have hbn : banner (Demo.smallArgs "--code") = [] := if_pos (by decide)
    rw [h2, hr, hbn]; simp
  · exfalso
    have : ∀ r, lbasic Demo.smallHost (Demo.smallArgs "--code") {} = r → (match r with | .ok (0, _) => true | _ => false) = true := by
      intro r hr; subst hr; decide +kernel
    simpa using this _ h
  · exfalso
    have : ∀ r, lbasic Demo.smallHost (Demo.smallArgs "--code") {} = r → (match r with | .ok (0, _) => true | _ => false) = true := by
      intro r hr; subst hr; decide +kernel
    simpa using this _ h

end LB
