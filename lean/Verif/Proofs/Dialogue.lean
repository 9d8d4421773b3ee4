import Verif.Spec.Dialogue
import Verif.Props.RunCommand
import Verif.Props.Monitor
import Verif.Props.Program
/- Whole dialogues. -/
namespace LB
open LB.Spec _root_.Spec

/-- The session is at the desk, with the input `typed` and the output `o`. -/
structure AtDesk (s : LB.Session) (d : Desk) (typed o : List Char) : Prop where
  state : State (fun k _ => k ≠ .renum) .idle s.vm
  quit : s.quit = false
  shows : _root_.Spec.Shows (lines s.vm) d.prog
  bound : ∀ n, d.prog n ≠ none → n < 2 ^ 32
  name : ∀ src, s.vm.stored.source = some src → src.name = d.name
  unnamed : s.vm.stored.source = none → d.name = none
  files : s.files = d.files
  keywords : s.vm.keywordsAnywhere = d.anywhere
  traceBasic : s.vm.traceBasic = false
  traceFor : s.vm.traceFor = false
  names : s.vm.st.psym.length ≤ 65536
  world : s.vm.world = ⟨typed, o, d.rng, d.ticks⟩
  input : s.vm.input = d.line
  cont : d.paused = false → NoCont s.vm

theorem AtDesk.prompted {s : LB.Session} {d : Desk} {line rest o : List Char} (h : AtDesk s d (line ++ '\n' :: rest) o) :
    AtDesk { s with vm := afterPrompt s.vm rest } d rest (o ++ "> ".toList) :=
  ⟨.world _ h.state, h.quit, h.shows, h.bound, h.name, h.unnamed, h.files, h.keywords, h.traceBasic, h.traceFor, h.names,
    by simp only [afterPrompt, h.world], h.input, h.cont⟩

/-- A line is read and interpreted. -/
theorem interactLoop_line (ctx : Ctx) (n : Nat) {s : LB.Session} {line rest : List Char} (hq : s.quit = false) (hin : s.vm.world.stdin = line ++ '\n' :: rest) (h1 : WholeLine line) :
    interactLoop ctx (n + 1) s = match interpret ctx { s with vm := afterPrompt s.vm rest } line with
      | .halt h => .halt h
      | .ok s' => interactLoop ctx n s' := by
  obtain ⟨h1, h2, h3⟩ := h1
  have hs : interactStep ctx s = match interpret ctx { s with vm := afterPrompt s.vm rest } line with
      | .halt h => .halt h
      | .ok s' => .ok (some s') := by
    unfold interactStep
    rw [hq, hin, getLine_line _ _ rest h1 h2 h3]
    simp only [Bool.false_eq_true, if_false]
    rfl
  simp only [interactLoop, hs]
  generalize interpret ctx _ line = r
  cases r <;> rfl

/-- The session ends because the line was BYE. -/
theorem interactLoop_quit (ctx : Ctx) (n : Nat) {s : LB.Session} (hq : s.quit = true) : interactLoop ctx (n + 1) s = .ok s.vm.world := by
  simp [interactLoop, interactStep, hq]

/-- The session ends with the input. -/
theorem interactLoop_over (ctx : Ctx) (n : Nat) {s : LB.Session} (hq : s.quit = false) (hin : s.vm.world.stdin = []) :
    interactLoop ctx (n + 1) s = .ok (s.vm.world.put "> ".toList) := by
  have hg : getLine 1 [] = ("> ".toList, none, []) := rfl
  simp only [interactLoop, interactStep, hq, hin, List.length_nil, Nat.zero_add, hg, Bool.false_eq_true, if_false]
  congr 1
  simp only [World.put, ← hin]

theorem tail_letters {tail : List Char} (h : Blanks tail) : ∀ c, tail.head? = some c → ¬ IsLetter c := by
  intro c hc
  rcases h c (List.mem_of_head? hc) with rfl | rfl <;> decide

theorem tail_quote {tail f : List Char} (h : Quoting tail f) : ∀ c, tail.head? = some c → ¬ IsLetter c := by
  obtain ⟨sp, sp', rfl, h1, -⟩ := h
  intro c hc
  cases sp with
  | nil => simp only [List.nil_append, List.cons_append, List.head?_cons, Option.some.injEq] at hc; subst hc; decide
  | cons d ds =>
    simp only [List.cons_append, List.head?_cons, Option.some.injEq] at hc
    subst hc
    rcases h1 d (by simp) with rfl | rfl <;> decide

theorem skipSpace_all {s : List Char} (h : Blanks s) : skipSpace s = [] := by
  have := skipSpace_blanks h []
  rwa [List.append_nil] at this

theorem demarcate_quoting {tail f : List Char} (h : Quoting tail f) : ∃ sp', demarcateString tail = some (f, sp') ∧ checkEol sp' = true := by
  obtain ⟨sp, last, rfl, h1, h2, h3, h4⟩ := h
  have e : skipSpace (sp ++ '"' :: f ++ last) = '"' :: (f ++ last) := by
    rw [List.append_assoc, skipSpace_blanks h1]
    exact skipSpace_stays (by decide)
  have hin : ∀ c ∈ f, (c != '\n' && c != '"') = true := by
    intro c hc
    have k1 : c ≠ '\n' := fun h => h4 (h ▸ hc)
    have k2 : c ≠ '"' := fun h => h3 (h ▸ hc)
    simp [k1, k2]
  rcases h2 with rfl | ⟨sp', rfl, h2⟩
  · refine ⟨[], ?_, rfl⟩
    have hd : (f ++ []).dropWhile (fun c => c != '\n' && c != '"') = [] := by
      rw [List.dropWhile_append_of_pos hin]; rfl
    have ht : (f ++ []).takeWhile (fun c => c != '\n' && c != '"') = f := by
      rw [List.takeWhile_append_of_pos hin]; simp
    simp only [demarcateString, e, hd, ht]
  · refine ⟨sp', ?_, by simp only [checkEol, skipSpace_all h2, atEol]⟩
    have hd : (f ++ '"' :: sp').dropWhile (fun c => c != '\n' && c != '"') = '"' :: sp' := by
      rw [List.dropWhile_append_of_pos hin]; rfl
    have ht : (f ++ '"' :: sp').takeWhile (fun c => c != '\n' && c != '"') = f := by
      rw [List.takeWhile_append_of_pos hin]; simp
    simp only [demarcateString, e, hd, ht]

theorem shows_unique {a b : List (Nat × List Char)} {p : Prog} (ha : _root_.Spec.Shows a p) (hb : _root_.Spec.Shows b p) : a = b := by
  obtain ⟨a1, a2⟩ := ha
  obtain ⟨b1, b2⟩ := hb
  have hm : ∀ x, x ∈ a ↔ x ∈ b := fun x => (a2 x.1 x.2).trans (b2 x.1 x.2).symm
  clear a2 b2
  induction a generalizing b with
  | nil =>
    cases b with
    | nil => rfl
    | cons y b => exact absurd ((hm y).2 (by simp)) (by simp)
  | cons x a ih =>
    cases b with
    | nil => exact absurd ((hm x).1 (by simp)) (by simp)
    | cons y b =>
      simp only [Ascending, List.map_cons, List.pairwise_cons, List.mem_map] at a1 b1
      have hxy : x = y := by
        rcases List.mem_cons.1 ((hm x).1 (by simp)) with h | h
        · exact h
        · rcases List.mem_cons.1 ((hm y).2 (by simp)) with h' | h'
          · exact h'.symm
          · have k1 := b1.1 x.1 ⟨x, h, rfl⟩
            have k2 := a1.1 y.1 ⟨y, h', rfl⟩
            omega
      subst hxy
      congr 1
      refine ih a1.2 b1.2 (fun z => ⟨fun hz => ?_, fun hz => ?_⟩)
      · rcases List.mem_cons.1 ((hm z).1 (by simp [hz])) with h | h
        · subst h; have := a1.1 z.1 ⟨z, hz, rfl⟩; omega
        · exact h
      · rcases List.mem_cons.1 ((hm z).2 (by simp [hz])) with h | h
        · subst h; have := b1.1 z.1 ⟨z, hz, rfl⟩; omega
        · exact h

theorem AtDesk.source {s : LB.Session} {d : Desk} {typed o : List Char} (h : AtDesk s d typed o) {ps : List (Nat × List Char)} (hp : _root_.Spec.Shows ps d.prog)
    {src : Source} (hs : s.vm.stored.source = some src) : src = sourceOf ps d.name := by
  have h1 : lines s.vm = ps := shows_unique h.shows hp
  unfold lines at h1
  rw [hs] at h1
  subst h1
  have h2 := h.name src hs
  cases src with
  | mk nm ls =>
    simp only at h2
    simp only [sourceOf, List.map_map, Function.comp_def, ← h2, Source.mk.injEq, true_and]
    exact (List.map_id' ls).symm

theorem AtDesk.edited {ctx : Ctx} {s : LB.Session} {d : Desk} {rest o : List Char} (h : AtDesk s d rest o) {t : Typed} (hf : t.Fits) (h1 : WholeLine t.text) :
    ∃ s', interpret ctx s t.text = .ok s' ∧ AtDesk s' { d with prog := t.apply d.prog, paused := d.paused && !t.changes d.prog } rest o := by
  match t, hf with
  | .edit (.enter n x), hf =>
    have hdn : decimal (numeral n) = n := decimal_fmtU n
    have hi := interpret_number ctx s (pre := []) (t := ' ' :: x) (show Blanks [] from fun c hc => by cases hc) (numeral_ne_nil n) (fun c hc => (isdigit_iff c).1 (fmtU_digits n c hc))
      (by intro c hc; simp only [List.head?_cons, Option.some.injEq] at hc; subst hc; decide)
    have he : atEol (' ' :: x) = false := rfl
    have ha : afterSpace (' ' :: x) = x := rfl
    rw [he, ha, hdn, Nat.mod_eq_of_lt hf.2] at hi
    have hl : lines s.vm = (s.vm.stored.source.getD (newSource none)).pairs := by
      unfold lines
      cases s.vm.stored.source <;> rfl
    obtain ⟨src', k1, k2, k3⟩ := enter_shows (s.vm.stored.source.getD (newSource none)) d.prog n x (by rw [← hl]; exact h.shows) (fun h0 => by have := hf.1; omega)
    have hv : vmEnterSourceLine s.vm n x = .ok (storedProgramChanged { s.vm with stored := { s.vm.stored with source := some src' } }) := by
      simp only [vmEnterSourceLine, k1]
    rw [hv] at hi
    refine ⟨_, hi, ?_⟩
    have hlen : x.length < cmdSize := by
      have := h1.2.2
      simp only [Typed.text, List.length_append, List.length_cons] at this
      simp only [cmdSize]; omega
    refine ⟨.enter n x h.state hlen hv, h.quit, k3, fun m hm => ?_, fun src hs => ?_, fun hs => (by cases hs), h.files, h.keywords, h.traceBasic, h.traceFor, h.names, h.world, h.input, fun _ => NoCont.cleared (have q := state_stopped h.state; q) rfl⟩
    · by_cases hmn : m = n
      · rw [hmn]; exact hf.2
      · exact h.bound m (by simpa [Typed.apply, applyEdit, hmn] using hm)
    · cases hs
      rw [k2]
      cases hso : s.vm.stored.source with
      | none => rw [h.unnamed hso]; rfl
      | some src0 => exact h.name src0 hso
  | .edit (.erase n), hf =>
    have hdn : decimal (numeral n) = n := decimal_fmtU n
    have hi := interpret_number ctx s (pre := []) (t := []) (show Blanks [] from fun c hc => by cases hc) (numeral_ne_nil n) (fun c hc => (isdigit_iff c).1 (fmtU_digits n c hc)) (by simp)
    rw [List.append_nil, hdn, Nat.mod_eq_of_lt (show n < 2 ^ 32 from hf)] at hi
    refine ⟨_, hi, ?_⟩
    have hfr : ∃ b src, vmDeleteSourceLine s.vm n = { s.vm with stored := b } ∧ b.source = src ∧ (∀ x, src = some x → x.name = d.name) ∧ (src = none → d.name = none) ∧ (b = s.vm.stored ∧ d.prog n = none ∨ b.bcode = none) := by
      unfold vmDeleteSourceLine
      cases hso : s.vm.stored.source with
      | none => exact ⟨s.vm.stored, none, rfl, hso, by simp, fun _ => h.unnamed hso, .inr ((state_base h.state).noCode hso)⟩
      | some src0 =>
        simp only
        cases hfi : findSourceLinenum src0 n with
        | none => exact ⟨s.vm.stored, some src0, rfl, hso, fun x hx => by cases hx; exact h.name _ hso, by simp, .inl ⟨rfl, (find_shows src0 d.prog n (lines_pairs hso ▸ h.shows)).mp hfi⟩⟩
        | some i =>
          refine ⟨_, _, rfl, rfl, fun x hx => ?_, fun hx => (by cases hx), .inr rfl⟩
          cases hx
          have := h.name _ hso
          unfold deleteSourceLine
          split <;> exact this
    obtain ⟨b, src, k1, k2, k3, k4, k5⟩ := hfr
    have hst := State.delete n h.state
    have hsh := delete_lines s.vm d.prog n h.shows
    rw [k1] at hst hsh ⊢
    refine ⟨hst, h.quit, hsh, fun m hm => ?_, fun x hx => k3 x (k2.symm.trans hx), fun hx => k4 (k2.symm.trans hx), h.files, h.keywords, h.traceBasic, h.traceFor, h.names, h.world, h.input, fun hx => ?_⟩
    · by_cases hmn : m = n
      · rw [hmn]; exact hf
      · exact h.bound m (by simpa [Typed.apply, applyEdit, hmn] using hm)
    · rcases k5 with ⟨rfl, k5⟩ | k5
      · exact h.cont (by simpa [Typed.changes, k5] using hx)
      · exact NoCont.cleared (have q := state_stopped h.state; q) k5
  | .new, _ =>
    refine ⟨_, interpret_new ctx s, ?_⟩
    refine ⟨.new h.state, h.quit, ?_, fun m hm => absurd rfl hm, fun x hx => ?_, fun hx => ?_, h.files, h.keywords, h.traceBasic, h.traceFor, ?_, h.world, h.input, fun _ => NoCont.cleared (have q := state_stopped h.state; q) rfl⟩
    · show _root_.Spec.Shows (lines (vmClearNames (vmNewProgram s.vm))) emptyProg
      rw [lines_new]
      exact ⟨by decide, fun n t => by simp [emptyProg]⟩
    · have hx : s.vm.stored.source.map clearSource = some x := hx
      cases hso : s.vm.stored.source with
      | none => rw [hso] at hx; cases hx
      | some src0 => rw [hso] at hx; cases hx; exact h.name src0 hso
    · have hx : s.vm.stored.source.map clearSource = none := hx
      cases hso : s.vm.stored.source with
      | none => exact h.unnamed hso
      | some src0 => rw [hso] at hx; cases hx
    · show (initBuiltins (clearSymbolTableNames _)).psym.length ≤ 65536
      have e : clearSymbolTableNames (vmNewProgram s.vm).st = newSymbolTable := rfl
      rw [e, initBuiltins_psym]
      decide

theorem AtDesk.listed {ctx : Ctx} {s : LB.Session} {d : Desk} {rest o line sp sp' : List Char} {ps : List (Nat × List Char)} {a : Option Nat} (h : AtDesk s d rest o)
    (hb : ctx.brk = fun _ => false) (h1 : SaysWord "LIST" line (sp ++ maybe a ++ sp')) (h2 : Blanks sp) (h3 : Blanks sp') (h4 : ∀ n, a = some n → n < 2 ^ 32)
    (hp : _root_.Spec.Shows ps d.prog) :
    ∃ s', interpret ctx s line = .ok s' ∧ AtDesk s' d rest (o ++ listing (ps.filter (fun l => decide (a.getD 0 ≤ l.1)))) := by
  obtain ⟨-, pre, w, rfl, k1, k2, k3⟩ := h1
  have hl : lines s.vm = ps := shows_unique h.shows hp
  have h32 : ∀ l ∈ lines s.vm, l.1 < 2 ^ 32 := by
    intro l hm
    refine h.bound l.1 ?_
    rw [(h.shows.2 l.1 l.2).1 hm]; simp
  have := C04_list_from ctx s pre w sp sp' a h.shows.1 h32 k1 k2 k3 h2 h3 h4 hb
  rw [hl] at this
  refine ⟨_, this, ⟨.world _ h.state, h.quit, h.shows, h.bound, h.name, h.unnamed, h.files, h.keywords, h.traceBasic, h.traceFor, h.names, ?_, h.input, h.cont⟩⟩
  simp only [putOut, h.world]

theorem AtDesk.ranged {ctx : Ctx} {s : LB.Session} {d : Desk} {rest o line sp : List Char} {ps : List (Nat × List Char)} {a b : Option Nat} (h : AtDesk s d rest o)
    (hb : ctx.brk = fun _ => false) (h1 : SaysWord "LIST" line (sp ++ maybe a ++ '-' :: maybe b)) (h2 : Blanks sp) (h3 : ∀ n, a = some n → n < 2 ^ 32)
    (h4 : ∀ n, b = some n → n < 2 ^ 32) (hp : _root_.Spec.Shows ps d.prog) :
    ∃ s', interpret ctx s line = .ok s' ∧ AtDesk s' d rest (o ++ listing (ps.filter (fun l => decide (a.getD 0 ≤ l.1 ∧ l.1 ≤ b.getD (2 ^ 32 - 1))))) := by
  obtain ⟨-, pre, w, rfl, k1, k2, k3⟩ := h1
  have := C04_list_range ctx s pre w sp a b h.shows.1 k1 k2 k3 h2 h3 h4 hb
  rw [shows_unique h.shows hp] at this
  refine ⟨_, this, ⟨.world _ h.state, h.quit, h.shows, h.bound, h.name, h.unnamed, h.files, h.keywords, h.traceBasic, h.traceFor, h.names, ?_, h.input, h.cont⟩⟩
  simp only [putOut, h.world]

theorem AtDesk.missed {ctx : Ctx} {s : LB.Session} {d : Desk} {rest o line tail f : List Char} (h : AtDesk s d rest o)
    (h1 : SaysWord "LOAD" line tail) (h2 : Quoting tail f) (hf : d.files f = none) : interpret ctx s line = .ok s := by
  obtain ⟨-, pre, w, rfl, k1, k2, k3⟩ := h1
  rw [interpret_command ctx s k1 k3 (tail_quote h2) (n := "LOAD") (k := .load) (by decide) k2]
  obtain ⟨sp', e1, e2⟩ := demarcate_quoting h2
  simp only [command, loadCommand, e1, e2, if_true, vmLoadSource, show s.files f = none by rw [h.files, hf], loadSourceFile]

/-- A line that is too long. -/
theorem interactLoop_long (ctx : Ctx) (n : Nat) {s : LB.Session} {line rest : List Char} (hq : s.quit = false) (hin : s.vm.world.stdin = line ++ '\n' :: rest)
    (h1 : '\n' ∉ line) (h2 : '\x00' ∉ line) (h3 : 127 ≤ line.length) :
    interactLoop ctx (n + 1) s = interactLoop ctx (n + 1) { s with vm := { s.vm with world := { s.vm.world with
      out := s.vm.world.out ++ "> Command line too long\n".toList, stdin := rest } } } := by
  simp only [interactLoop]
  rw [C46_long_line ctx s line rest hin h1 h2 h3]
  generalize interactStep ctx _ = r
  cases r with
  | halt h => rfl
  | ok r =>
    cases r with
    | some s' => rfl
    | none =>
      simp only [hq, Bool.false_eq_true, if_false]
      rw [hin, getLine_long _ line rest h1 h2 h3]
      have hf := getLine_fuel (line ++ '\n' :: rest).length (rest.length + 1) rest
        (by simp only [List.length_append, List.length_cons]; omega) (by omega)
      rw [hf]
      simp only [World.put, List.append_assoc]

theorem AtDesk.saved {ctx : Ctx} {s : LB.Session} {d : Desk} {rest o line tail f : List Char} {ps : List (Nat × List Char)} (h : AtDesk s d rest o)
    (hc : ctx.canWrite f = true) (h1 : SaysWord "SAVE" line tail) (h2 : Quoting tail f) (hp : _root_.Spec.Shows ps d.prog) (hne : ps ≠ []) :
    ∃ s', interpret ctx s line = .ok s' ∧ AtDesk s' { d with files := fun n => if n = f then some (listing ps) else d.files n } rest o := by
  obtain ⟨-, pre, w, rfl, k1, k2, k3⟩ := h1
  rw [interpret_command ctx s k1 k3 (tail_quote h2) (n := "SAVE") (k := .save) (by decide) k2]
  obtain ⟨sp', e1, e2⟩ := demarcate_quoting h2
  cases hso : s.vm.stored.source with
  | none =>
    have hl : lines s.vm = ps := shows_unique h.shows hp
    unfold lines at hl
    rw [hso] at hl
    exact absurd hl.symm hne
  | some src =>
    have hs := h.source hp hso
    have ht : saveSourceFile src = listing ps := by
      rw [hs]
      simp only [saveSourceFile, sourceOf, listing, List.map_map, Function.comp_def, saveLine, numeral, fmtU]
    refine ⟨_, by simp only [command, saveCommand, e1, e2, if_true, hso, hc]; rfl, ?_⟩
    refine ⟨h.state, h.quit, h.shows, h.bound, h.name, h.unnamed, ?_, h.keywords, h.traceBasic, h.traceFor, h.names, h.world, h.input, h.cont⟩
    simp only [ht, h.files]

theorem AtDesk.loaded {ctx : Ctx} {s : LB.Session} {d : Desk} {rest o line tail f text : List Char} {ps : List (Nat × List Char)} {p : Prog} (h : AtDesk s d rest o)
    (h1 : SaysWord "LOAD" line tail) (h2 : Quoting tail f) (hf : d.files f = some text) (hl : Listing text ps) (h0 : ∀ n t, (n, t) ∈ ps → n ≠ 0)
    (hp : _root_.Spec.Shows ps p) :
    ∃ s', interpret ctx s line = .ok s' ∧ AtDesk s' { d with prog := p, name := some f, paused := false } rest o := by
  obtain ⟨-, pre, w, rfl, k1, k2, k3⟩ := h1
  rw [interpret_command ctx s k1 k3 (tail_quote h2) (n := "LOAD") (k := .load) (by decide) k2]
  obtain ⟨sp', e1, e2⟩ := demarcate_quoting h2
  have hpairs : (sourceOf ps (some f)).pairs = ps := by
    simp [Source.pairs, sourceOf, List.map_map, Function.comp_def, SrcLine.pair]
  have hload : loadSourceFile f (some text) = .ok (some (sourceOf ps (some f))) := by
    rw [C03_load_iff]
    rw [hpairs]
    exact ⟨rfl, hl, hp.1, h0⟩
  have hv : vmLoadSource s.vm f (s.files f) = .ok (true, storedProgramChanged { s.vm with stored := { s.vm.stored with source := some (sourceOf ps (some f)) } }) := by
    rw [h.files, hf]
    simp only [vmLoadSource, hload]
  refine ⟨_, by simp only [command, loadCommand, e1, e2, if_true, hv]; rfl, ?_⟩
  refine ⟨.load _ _ _ h.state hv, h.quit, ?_, fun n hn => ?_, fun src hs => (by cases hs; rfl), fun hs => (by cases hs), h.files, h.keywords, h.traceBasic, h.traceFor, h.names, h.world, h.input, fun _ => NoCont.cleared (have q := state_stopped h.state; q) rfl⟩
  · show _root_.Spec.Shows ((sourceOf ps (some f)).pairs) p
    rw [hpairs]; exact hp
  · cases hpn : p n with
    | none => exact absurd hpn hn
    | some t =>
      have hm := (hp.2 n t).2 hpn
      clear hpn hn hp h0 hpairs hload hv hf
      induction hl with
      | nil => cases hm
      | cons hw _ ih =>
        rcases List.mem_cons.1 hm with he | hm
        · obtain ⟨ds, sep, -, -, -, hn, -⟩ := hw
          cases he
          rw [hn]; exact Nat.mod_lt _ (by decide)
        · exact ih hm

theorem Spec.SaysWord.command {word : String} {k : Cmd} {line tail : List Char} (h : SaysWord word line tail) (ht : EndsWord tail) (hk : (word, k) ∈ commandNames) (ctx : Ctx) (s : LB.Session) :
    interpret ctx s line = command ctx s k tail := by
  obtain ⟨-, pre, w, rfl, k1, k2, k3⟩ := h
  exact interpret_command ctx s k1 k3 ht hk k2

theorem skipSpace_behind {tail : List Char} {c : Char} (h : Behind tail c) : ∃ more, skipSpace tail = c :: more := by
  obtain ⟨sp, more, rfl, h1, h2, h3⟩ := h
  refine ⟨more, ?_⟩
  rw [skipSpace_blanks h1]
  exact skipSpace_stays (by simp [V.isSpTab, h2, h3])

theorem AtDesk.told {s : LB.Session} {d : Desk} {rest o : List Char} (h : AtDesk s d rest o) (m : CStr) : AtDesk { s with vm := putOut s.vm m } d rest (o ++ m) :=
  ⟨.world _ h.state, h.quit, h.shows, h.bound, h.name, h.unnamed, h.files, h.keywords, h.traceBasic, h.traceFor, h.names, by simp only [putOut, h.world], h.input, h.cont⟩

theorem AtDesk.helped {ctx : Ctx} {s : LB.Session} {d : Desk} {rest o line tail : List Char} (h : AtDesk s d rest o) (h1 : SaysWord "HELP" line tail) (h2 : EndsWord tail) :
    ∃ s', interpret ctx s line = .ok s' ∧ AtDesk s' d rest (o ++ helpText) :=
  ⟨_, (h1.command h2 (k := .help) (by decide) ctx s).trans rfl, h.told _⟩

theorem AtDesk.refuses {ctx : Ctx} {s : LB.Session} {d : Desk} {word : String} {rest o line tail : List Char} {c : Char} (h : AtDesk s d rest o) (hw : word = "BYE" ∨ word = "NEW")
    (h1 : SaysWord word line tail) (h2 : EndsWord tail) (h3 : Behind tail c) :
    ∃ s', interpret ctx s line = .ok s' ∧ AtDesk s' d rest (o ++ "Command syntax error\n".toList) := by
  have hn : '\n' ∉ tail := by
    obtain ⟨⟨h, -⟩, pre, w, rfl, -⟩ := h1
    intro hm
    exact h (by simp [hm])
  have hc : checkEol tail = false := by
    obtain ⟨more, hm⟩ := skipSpace_behind h3
    have : c ≠ '\n' := by
      obtain ⟨sp, more, rfl, -⟩ := h3
      rintro rfl
      exact hn (by simp)
    simp [checkEol, hm, atEol, this]
  refine ⟨_, ?_, h.told _⟩
  rcases hw with rfl | rfl
  · rw [h1.command h2 (k := .bye) (by decide) ctx s]
    simp only [command, LB.Session.ifEol, hc, Bool.false_eq_true, if_false]
    rfl
  · rw [h1.command h2 (k := .new) (by decide) ctx s]
    simp only [command, LB.Session.ifEol, hc, Bool.false_eq_true, if_false]
    rfl

theorem AtDesk.unquotes {ctx : Ctx} {s : LB.Session} {d : Desk} {word : String} {rest o line tail : List Char} (h : AtDesk s d rest o) (hw : word = "LOAD" ∨ word = "SAVE")
    (h1 : SaysWord word line tail) (h2 : EndsWord tail) (h3 : Blanks tail ∨ ∃ c, Behind tail c ∧ c ≠ '"') :
    ∃ s', interpret ctx s line = .ok s' ∧ AtDesk s' d rest (o ++ "Quoted file name expected\n".toList) := by
  have hc : demarcateString tail = none := by
    rcases h3 with h3 | ⟨c, h3, h4⟩
    · simp only [demarcateString, skipSpace_all h3]
    · obtain ⟨more, hm⟩ := skipSpace_behind h3
      unfold demarcateString
      rw [hm]
      split
      · rename_i he; cases he; exact absurd rfl h4
      · rfl
  refine ⟨_, ?_, h.told _⟩
  rcases hw with rfl | rfl
  · rw [h1.command h2 (k := .load) (by decide) ctx s]
    simp only [command, loadCommand, hc]
    rfl
  · rw [h1.command h2 (k := .save) (by decide) ctx s]
    simp only [command, saveCommand, hc]
    rfl

theorem junk_refused {tail : List Char} {c : Char} (hn : '\n' ∉ tail) (h : Behind tail c) (hi : ¬ IsDigit c) (hc : c ∉ ['-', ',', 'p', 'P']) :
    checkEol (getPageFlag (getListNumbers tail).2.2).2 = false ∧ checkEol (getRenumNumbers tail).2.2.2 = false := by
  obtain ⟨more, hm⟩ := skipSpace_behind h
  have hnl : c ≠ '\n' := by
    obtain ⟨sp, more, rfl, -⟩ := h
    rintro rfl
    exact hn (by simp)
  have hsp : skipSpace (c :: more) = c :: more := by
    obtain ⟨sp, more', rfl, h1, h2, h3⟩ := h
    exact skipSpace_stays (by simp [V.isSpTab, h2, h3])
  have hd : isdigit c = false := by
    cases hdc : isdigit c with
    | false => rfl
    | true => exact absurd ((isdigit_iff c).1 hdc) hi
  have hmi : c ≠ '-' := by rintro rfl; exact hc (by decide)
  have hco : c ≠ ',' := by rintro rfl; exact hc (by decide)
  have hlo : tolower c ≠ 'p' := by
    intro hp
    unfold tolower at hp
    split at hp
    · rename_i hu
      have hu' : 65 ≤ c.toNat ∧ c.toNat ≤ 90 := by simpa [isupper] using hu
      have hall : ∀ n, n < 91 → 65 ≤ n → Char.ofNat (n + 32) = 'p' → n = 80 := by decide
      have h80 := hall c.toNat (by omega) hu'.1 hp
      have : c = 'P' := by rw [← Char.ofNat_toNat c, h80]
      exact hc (by simp [this])
    · exact hc (by simp [hp])
  have e1 : getListNumbers tail = (0, 2 ^ 32 - 1, c :: more) := by
    simp only [getListNumbers, hm, startsDigit, hd, Bool.false_eq_true, if_false]
    split
    · rename_i he; cases he; exact absurd rfl hmi
    · rfl
  have e2 : getRenumNumbers tail = (10, 1, 10, c :: more) := by
    have : ∀ n, commaNum (c :: more) n = (n, c :: more) := by
      intro n
      unfold commaNum
      split
      · rename_i he; cases he; exact absurd rfl hco
      · rfl
    simp only [getRenumNumbers, hm, startsDigit, hd, Bool.false_eq_true, if_false, this]
  constructor
  · rw [e1]
    simp only [getPageFlag, hsp, hlo, if_false, checkEol, atEol]
    simp [hnl]
  · rw [e2]
    simp only [checkEol, hsp, atEol]
    simp [hnl]

theorem AtDesk.junked {ctx : Ctx} {s : LB.Session} {d : Desk} {word : String} {rest o line tail : List Char} {c : Char} (h : AtDesk s d rest o) (hw : word = "LIST" ∨ word = "RENUM")
    (h1 : SaysWord word line tail) (h2 : EndsWord tail) (h3 : Behind tail c) (hi : ¬ IsDigit c) (h4 : c ∉ ['-', ',', 'p', 'P']) :
    ∃ s', interpret ctx s line = .ok s' ∧ AtDesk s' d rest (o ++ "Command syntax error\n".toList) := by
  have hn : '\n' ∉ tail := by
    obtain ⟨⟨h, -⟩, pre, w, rfl, -⟩ := h1
    intro hm
    exact h (by simp [hm])
  obtain ⟨e1, e2⟩ := junk_refused hn h3 hi h4
  refine ⟨_, ?_, h.told _⟩
  rcases hw with rfl | rfl
  · rw [h1.command h2 (k := .list) (by decide) ctx s]
    simp only [command, LB.Session.ifEol, e1, Bool.false_eq_true, if_false]
    rfl
  · rw [h1.command h2 (k := .renum) (by decide) ctx s]
    simp only [command, LB.Session.ifEol, e2, Bool.false_eq_true, if_false]
    rfl

theorem AtDesk.trailed {ctx : Ctx} {s : LB.Session} {d : Desk} {word : String} {rest o line sp f more : List Char} {c : Char} (h : AtDesk s d rest o) (hw : word = "LOAD" ∨ word = "SAVE")
    (h1 : SaysWord word line (sp ++ '"' :: f ++ '"' :: more)) (h2 : Blanks sp) (h3 : '"' ∉ f) (h4 : Behind more c) :
    ∃ s', interpret ctx s line = .ok s' ∧ AtDesk s' d rest (o ++ "Command syntax error\nQuoted file name expected\n".toList) := by
  have hn : '\n' ∉ sp ++ '"' :: f ++ '"' :: more := by
    obtain ⟨⟨h, -⟩, pre, w, rfl, -⟩ := h1
    intro hm
    exact h (List.mem_append_right _ hm)
  have hc : checkEol more = false := by
    obtain ⟨m, hm⟩ := skipSpace_behind h4
    have : c ≠ '\n' := by
      obtain ⟨sp, more, rfl, -⟩ := h4
      rintro rfl
      exact hn (by simp)
    simp [checkEol, hm, atEol, this]
  have hd : demarcateString (sp ++ '"' :: f ++ '"' :: more) = some (f, more) := by
    have e : skipSpace (sp ++ '"' :: f ++ '"' :: more) = '"' :: (f ++ '"' :: more) := by
      rw [List.append_assoc, skipSpace_blanks h2]
      exact skipSpace_stays (by decide)
    have hin : ∀ c ∈ f, (c != '\n' && c != '"') = true := by
      intro c hc
      have k1 : c ≠ '\n' := by rintro rfl; exact hn (by simp [hc])
      have k2 : c ≠ '"' := fun h => h3 (h ▸ hc)
      simp [k1, k2]
    have hd : (f ++ '"' :: more).dropWhile (fun c => c != '\n' && c != '"') = '"' :: more := by
      rw [List.dropWhile_append_of_pos hin]; rfl
    have ht : (f ++ '"' :: more).takeWhile (fun c => c != '\n' && c != '"') = f := by
      rw [List.takeWhile_append_of_pos hin]; simp
    simp only [demarcateString, e, hd, ht]
  have he : EndsWord (sp ++ '"' :: f ++ '"' :: more) := by
    intro c hc
    cases sp with
    | nil => simp only [List.nil_append, List.cons_append, List.head?_cons, Option.some.injEq] at hc; subst hc; decide
    | cons d ds =>
      simp only [List.cons_append, List.head?_cons, Option.some.injEq] at hc
      subst hc
      rcases h2 d (by simp) with rfl | rfl <;> decide
  have ht := (h.told "Command syntax error\n".toList).told "Quoted file name expected\n".toList
  refine ⟨_, ?_, by rw [List.append_assoc] at ht; exact ht⟩
  rcases hw with rfl | rfl
  · rw [h1.command he (k := .load) (by decide) ctx s]
    simp only [command, loadCommand, hd, hc, Bool.false_eq_true, if_false]
    rfl
  · rw [h1.command he (k := .save) (by decide) ctx s]
    simp only [command, saveCommand, hd, hc, Bool.false_eq_true, if_false]
    rfl

theorem AtDesk.paged {ctx : Ctx} {s : LB.Session} {d : Desk} {rest o line sp sp' t : List Char} {p : Char} {ps : List (Nat × List Char)} {a : Option Nat} (h : AtDesk s d rest o)
    (hb : ctx.brk = fun _ => false) (h1 : SaysWord "LIST" line (sp ++ maybe a ++ (sp' ++ p :: t))) (h2 : Blanks sp) (h3 : Blanks sp') (ht : Blanks t) (hpc : p = 'p' ∨ p = 'P')
    (hne : sp ++ maybe a ++ sp' ≠ []) (h4 : ∀ n, a = some n → n < 2 ^ 32) (hp : _root_.Spec.Shows ps d.prog) :
    ∃ s', interpret ctx s line = .ok s' ∧
      AtDesk s' d (afterLines (((ps.filter (fun l => decide (a.getD 0 ≤ l.1))).zipIdx.filter (turnsPage (ps.getLast?.map (·.1)))).length) rest)
        (o ++ pagedListing (ps.getLast?.map (·.1)) (ps.filter (fun l => decide (a.getD 0 ≤ l.1))).zipIdx) := by
  obtain ⟨-, pre, w, rfl, k1, k2, k3⟩ := h1
  have hl : lines s.vm = ps := shows_unique h.shows hp
  have h32 : ∀ l ∈ lines s.vm, l.1 < 2 ^ 32 := by
    intro l hm
    refine h.bound l.1 ?_
    rw [(h.shows.2 l.1 l.2).1 hm]; simp
  have := C04_list_paged ctx s pre w sp sp' t p a h.shows.1 h32 k1 k2 k3 h2 h3 ht hpc hne h4 hb
  simp only [hl] at this
  refine ⟨_, this, ⟨.world _ h.state, h.quit, h.shows, h.bound, h.name, h.unnamed, h.files, h.keywords, h.traceBasic, h.traceFor, h.names, ?_, h.input, h.cont⟩⟩
  simp only [h.world]

theorem AtDesk.noCont {ctx : Ctx} {s : LB.Session} {d : Desk} {rest o line tail : List Char} (h : AtDesk s d rest o) (h1 : SaysWord "CONT" line tail) (h2 : EndsWord tail)
    (h3 : d.paused = false) : ∃ s', interpret ctx s line = .ok s' ∧ AtDesk s' d rest (o ++ "Cannot continue\n".toList) := by
  refine ⟨_, ?_, h.told _⟩
  rw [h1.command h2 (k := .cont) (by decide) ctx s]
  simp only [command, (h.cont h3).refused]
  rfl

theorem AtDesk.notSaved {ctx : Ctx} {s : LB.Session} {line tail f : List Char}
    (hc : ctx.canWrite f = false) (h1 : SaysWord "SAVE" line tail) (h2 : Quoting tail f) : interpret ctx s line = .ok s := by
  rw [h1.command (tail_quote h2) (k := .save) (by decide)]
  obtain ⟨sp', e1, e2⟩ := demarcate_quoting h2
  simp only [command, saveCommand, e1, e2, if_true, hc]
  split <;> rfl

theorem AtDesk.compiled {ctx : Ctx} {s : LB.Session} {d : Desk} {rest o line tail : List Char} {ps : List (Nat × List Char)} {prog : Src.Program} (h : AtDesk s d rest o)
    (h1 : SaysWord "COMPILE" line tail) (h2 : EndsWord tail) (hp : _root_.Spec.Shows ps d.prog) (hl : Src.LinesAs d.anywhere (sourceOf ps d.name).lines prog) (hv : prog.vars ≤ 65510)
    (ha : prog.Apart) : ∃ s', interpret ctx s line = .ok s' ∧ AtDesk s' d rest o := by
  rw [h1.command h2 (k := .compile) (by decide) ctx s]
  have hkeep : ∀ {b vm'}, ensureProgramCompiled s.vm = .ok (b, vm') → vm'.stored.source = s.vm.stored.source ∧ vm'.keywordsAnywhere = s.vm.keywordsAnywhere ∧ vm'.traceBasic = s.vm.traceBasic ∧
      vm'.traceFor = s.vm.traceFor ∧ vm'.world = s.vm.world ∧ vm'.input = s.vm.input := by
    intro b vm' hc
    unfold ensureProgramCompiled at hc
    split at hc
    · split at hc
      · cases hc
      · split at hc
        · cases hc
        · cases hc; exact ⟨rfl, rfl, rfl, rfl, rfl, rfl⟩
        · split at hc
          · cases hc
          · cases hc; exact ⟨rfl, rfl, rfl, rfl, rfl, rfl⟩
    · cases hc; exact ⟨rfl, rfl, rfl, rfl, rfl, rfl⟩
  have hok : ∃ b vm', ensureProgramCompiled s.vm = .ok (b, vm') ∧ vm'.st.psym.length ≤ 65536 := by
    cases hso : s.vm.stored.source with
    | none => exact ⟨true, s.vm, by simp only [ensureProgramCompiled, hso], h.names⟩
    | some src =>
      cases hb : s.vm.stored.bcode with
      | some b => exact ⟨true, s.vm, by simp only [ensureProgramCompiled, hso, hb], h.names⟩
      | none =>
        have hsrc := h.source hp hso
        subst hsrc
        obtain ⟨code, dd, st', k1, k2, k3, k4, k5, k6⟩ := program_source (wellNamed_fresh s.vm.st) (ready_proper ha _) hl
        obtain ⟨idx, hidx⟩ := bcodeIndex_total (bc := ⟨code, dd⟩) (src := sourceOf ps d.name) (by
          intro l hm
          obtain ⟨pc, hpc⟩ := List.getElem?_of_mem hm
          have := (lines_at k2 hpc).2.1
          have hlen : prog.length = (sourceOf ps d.name).lines.length := by simpa using congrArg List.length (program_nums hl)
          omega)
        have hi : s.vm.stored.index = none := (state_base h.state).noIndex hb
        refine ⟨true, _, by simp only [ensureProgramCompiled, hso, hb, hi, h.keywords, k1, hidx, Option.isSome_none, Bool.false_eq_true, if_false]; rfl, ?_⟩
        have hps : (initBuiltins (clearSymbolTableNames s.vm.st)).psym = builtinSymbols := initBuiltins_psym
        have h26 : builtinSymbols.length = 26 := by decide
        have := k5.most
        rw [hps, h26] at this
        show (symMakeUnknownArray st').psym.length ≤ 65536
        simp only [symMakeUnknownArray, List.length_map]
        omega
  obtain ⟨b, vm', hc, hn⟩ := hok
  obtain ⟨e1, e2, e3, e4, e5, e6⟩ := hkeep hc
  refine ⟨{ s with vm := vm' }, by simp only [command, hc], ?_⟩
  exact ⟨.compile b h.state hc, h.quit, by simp only [lines, e1]; exact h.shows, h.bound, fun src hs => h.name src (e1 ▸ hs), fun hs => h.unnamed (e1 ▸ hs), h.files, e2.trans h.keywords,
    e3.trans h.traceBasic, e4.trans h.traceFor, hn, e5.trans h.world, e6.trans h.input, fun hx => (h.cont hx).compile hc⟩

theorem steps_empty {env : Env} {k : Nat} {c c' : Src.Config} {e : Src.Ending} (hc : c.place = (0, 0)) (h : Src.steps env [] k c = .stop e c') : e = .finished ∧ c' = c := by
  cases k with
  | zero => cases h
  | succ k =>
    simp only [Src.steps, Src.step, hc, List.getElem?_nil, Src.Next.stop.injEq] at h
    exact ⟨h.1.symm, h.2.symm⟩

theorem interactLoop_step (ctx : Ctx) (n : Nat) {s s' : LB.Session} (h : interactStep ctx s = .ok (some s')) : interactLoop ctx (n + 1) s = interactLoop ctx n s' := by
  simp only [interactLoop, h]

/-- The interpreter prints what the dialogue prints. -/
theorem talks {env : Env} {can : CStr → Bool} {d : Desk} {typed out : List Char} (h : Talk env can d typed out) : ∀ o, ∃ n0 t0, ∀ (ctx : Ctx) (s : LB.Session), ctx.env = env →
    (∀ k, ctx.brk k = false) → ctx.canWrite = can → n0 ≤ ctx.fuel → AtDesk s d typed o →
    ∀ n, t0 ≤ n → ∃ w', interactLoop ctx n s = .ok w' ∧ w'.out = o ++ out := by
  -- a line that is interpreted in one step
  have go : ∀ {d d' : Desk} {line rest rest' o o' out : List Char}, WholeLine line →
      (∀ (ctx : Ctx) (s : LB.Session), ctx.env = env → ctx.brk = (fun _ => false) → ctx.canWrite = can → AtDesk s d rest (o ++ "> ".toList) →
        ∃ s', interpret ctx s line = .ok s' ∧ AtDesk s' d' rest' (o ++ "> ".toList ++ o')) →
      (∃ n0 t0, ∀ (ctx : Ctx) (s : LB.Session), ctx.env = env → (∀ k, ctx.brk k = false) → ctx.canWrite = can → n0 ≤ ctx.fuel →
        AtDesk s d' rest' (o ++ "> ".toList ++ o') → ∀ n, t0 ≤ n → ∃ w', interactLoop ctx n s = .ok w' ∧ w'.out = o ++ "> ".toList ++ o' ++ out) →
      ∃ n0 t0, ∀ (ctx : Ctx) (s : LB.Session), ctx.env = env → (∀ k, ctx.brk k = false) → ctx.canWrite = can → n0 ≤ ctx.fuel →
        AtDesk s d (line ++ '\n' :: rest) o → ∀ n, t0 ≤ n → ∃ w', interactLoop ctx n s = .ok w' ∧ w'.out = o ++ ("> ".toList ++ o' ++ out) := by
    intro d d' line rest rest' o o' out hl hi hrest
    obtain ⟨n0, t0, hr⟩ := hrest
    refine ⟨n0, t0 + 1, fun ctx s he hb hw hn hd n ht => ?_⟩
    obtain ⟨m, rfl⟩ : ∃ m, n = m + 1 := ⟨n - 1, by omega⟩
    obtain ⟨s', k1, k2⟩ := hi ctx _ he (funext hb) hw hd.prompted
    rw [interactLoop_line ctx m hd.quit (by rw [hd.world]) hl, k1]
    obtain ⟨w', q1, q2⟩ := hr ctx s' he hb hw hn k2 m (by omega)
    exact ⟨w', q1, by rw [q2]; simp only [List.append_assoc]⟩
  have one : ∀ {d d' : Desk} {line rest o o' out : List Char}, WholeLine line →
      (∀ (ctx : Ctx) (s : LB.Session), ctx.env = env → ctx.brk = (fun _ => false) → ctx.canWrite = can → AtDesk s d rest (o ++ "> ".toList) →
        ∃ s', interpret ctx s line = .ok s' ∧ AtDesk s' d' rest (o ++ "> ".toList ++ o')) →
      (∃ n0 t0, ∀ (ctx : Ctx) (s : LB.Session), ctx.env = env → (∀ k, ctx.brk k = false) → ctx.canWrite = can → n0 ≤ ctx.fuel →
        AtDesk s d' rest (o ++ "> ".toList ++ o') → ∀ n, t0 ≤ n → ∃ w', interactLoop ctx n s = .ok w' ∧ w'.out = o ++ "> ".toList ++ o' ++ out) →
      ∃ n0 t0, ∀ (ctx : Ctx) (s : LB.Session), ctx.env = env → (∀ k, ctx.brk k = false) → ctx.canWrite = can → n0 ≤ ctx.fuel →
        AtDesk s d (line ++ '\n' :: rest) o → ∀ n, t0 ≤ n → ∃ w', interactLoop ctx n s = .ok w' ∧ w'.out = o ++ ("> ".toList ++ o' ++ out) := go
  induction h with
  | over d =>
    intro o
    refine ⟨0, 1, fun ctx s he hb hw hn hd n ht => ?_⟩
    obtain ⟨m, rfl⟩ : ∃ m, n = m + 1 := ⟨n - 1, by omega⟩
    exact ⟨_, interactLoop_over ctx m hd.quit (by rw [hd.world]), by simp only [World.put, hd.world]⟩
  | @bye d line tail rest h1 h2 =>
    intro o
    refine ⟨0, 2, fun ctx s he hb hw hn hd n ht => ?_⟩
    obtain ⟨m, rfl⟩ : ∃ m, n = m + 1 + 1 := ⟨n - 2, by omega⟩
    obtain ⟨h1, pre, w, rfl, k1, k2, k3⟩ := h1
    rw [interactLoop_line ctx (m + 1) hd.quit (by rw [hd.world]) h1, (C46_bye ctx _ pre w tail k1 k2 k3 h2).1]
    simp only
    rw [interactLoop_quit ctx m rfl]
    exact ⟨_, rfl, by simp only [afterPrompt, hd.world]⟩
  | @blank d line rest out h1 h2 _ ih =>
    intro o
    obtain ⟨n0, t0, hr⟩ := ih (o ++ "> ".toList)
    have := one (o' := []) h1 (d := d) (d' := d) (rest := rest) (o := o) (out := out) (fun ctx s _ _ _ hd => ⟨s, ?_, by simpa using hd⟩) ⟨n0, t0, by simpa using hr⟩
    · simpa using this
    · simp only [interpret, skipSpace_all h2]
  | @edit d rest out t h1 h2 _ ih =>
    intro o
    obtain ⟨n0, t0, hr⟩ := ih (o ++ "> ".toList)
    have := one (o' := []) h2 (d := d) (d' := { d with prog := t.apply d.prog, paused := d.paused && !t.changes d.prog }) (rest := rest) (o := o) (out := out)
      (fun ctx s _ _ _ hd => by simpa using hd.edited h1 h2) ⟨n0, t0, by simpa using hr⟩
    simpa using this
  | @remark d pre text rest out h1 h2 _ ih =>
    intro o
    obtain ⟨n0, t0, hr⟩ := ih (o ++ "> ".toList)
    have := one (o' := []) h1 (d := d) (d' := d) (rest := rest) (o := o) (out := out) (fun ctx s _ _ _ hd => ⟨s, ?_, by simpa using hd⟩) ⟨n0, t0, by simpa using hr⟩
    · simpa using this
    · have e : skipSpace (pre ++ '*' :: text) = '*' :: text := by
        rw [skipSpace_blanks h2]; exact skipSpace_stays (by decide)
      have e' : isdigit '*' = false := by decide
      simp only [interpret, e, e', Bool.false_eq_true, if_false, if_true]
  | @long d line rest out h1 h2 h3 _ ih =>
    intro o
    obtain ⟨n0, t0, hr⟩ := ih (o ++ "> Command line too long\n".toList)
    refine ⟨n0, t0 + 1, fun ctx s he hb hw hn hd n ht => ?_⟩
    obtain ⟨m, rfl⟩ : ∃ m, n = m + 1 := ⟨n - 1, by omega⟩
    rw [interactLoop_long ctx m hd.quit (by rw [hd.world]) h1 h2 h3]
    obtain ⟨w', k1, k2⟩ := hr ctx { s with vm := { s.vm with world := { s.vm.world with
      out := s.vm.world.out ++ "> Command line too long\n".toList, stdin := rest } } } he hb hw hn ⟨.world _ hd.state, hd.quit, hd.shows, hd.bound, hd.name, hd.unnamed, hd.files, hd.keywords, hd.traceBasic, hd.traceFor, hd.names,
      by simp only [hd.world], hd.input, hd.cont⟩ (m + 1) (by omega)
    exact ⟨w', k1, by rw [k2, List.append_assoc]⟩
  | @list d line sp sp' rest out ps a h1 h2 h3 h4 h5 _ ih =>
    intro o
    exact one h1.1 (fun ctx s _ hb _ hd => hd.listed hb h1 h2 h3 h4 h5) (ih _)
  | @range d line sp rest out ps a b h1 h2 h3 h4 h5 _ ih =>
    intro o
    exact one h1.1 (fun ctx s _ hb _ hd => hd.ranged hb h1 h2 h3 h4 h5) (ih _)
  | @missing d line tail f rest out h1 h2 h3 _ ih =>
    intro o
    obtain ⟨n0, t0, hr⟩ := ih (o ++ "> ".toList)
    have := one (o' := []) h1.1 (d := d) (d' := d) (rest := rest) (o := o) (out := out)
      (fun ctx s _ _ _ hd => ⟨s, hd.missed h1 h2 h3, by simpa using hd⟩) ⟨n0, t0, by simpa using hr⟩
    simpa using this
  | @unsaved d line tail f rest out h1 h2 h3 _ ih =>
    intro o
    obtain ⟨n0, t0, hr⟩ := ih (o ++ "> ".toList)
    have := one (o' := []) h1.1 (d := d) (d' := d) (rest := rest) (o := o) (out := out)
      (fun ctx s _ _ hw hd => ⟨s, AtDesk.notSaved (by rw [hw]; exact h3) h1 h2, by simpa using hd⟩) ⟨n0, t0, by simpa using hr⟩
    simpa using this
  | @help d line tail rest out h1 h2 _ ih =>
    intro o
    exact one h1.1 (fun ctx s _ _ _ hd => hd.helped h1 h2) (ih _)
  | @refused d word line tail rest out c hw h1 h2 h3 _ ih =>
    intro o
    exact one h1.1 (fun ctx s _ _ _ hd => hd.refuses hw h1 h2 h3) (ih _)
  | @unquoted d word line tail rest out hw h1 h2 h3 _ ih =>
    intro o
    exact one h1.1 (fun ctx s _ _ _ hd => hd.unquotes hw h1 h2 h3) (ih _)
  | @junk d word line tail rest out c hw h1 h2 h3 hi h4 _ ih =>
    intro o
    exact one h1.1 (fun ctx s _ _ _ hd => hd.junked hw h1 h2 h3 hi h4) (ih _)
  | @trailing d word line sp f more rest out c hw h1 h2 h3 h4 _ ih =>
    intro o
    exact one h1.1 (fun ctx s _ _ _ hd => hd.trailed hw h1 h2 h3 h4) (ih _)
  | @pages d line sp sp' t rest out p ps a h1 h2 h3 h4 h5 h6 h7 h8 _ ih =>
    intro o
    exact go h1.1 (fun ctx s _ hb _ hd => hd.paged hb h1 h2 h3 h4 h5 h6 h7 h8) (ih _)
  | @cont d line tail rest out h1 h2 h3 _ ih =>
    intro o
    exact one h1.1 (fun ctx s _ _ _ hd => hd.noCont h1 h2 h3) (ih _)
  | @compile d line tail rest out ps prog h1 h2 h3 h4 h5 h6 _ ih =>
    intro o
    obtain ⟨n0, t0, hr⟩ := ih (o ++ "> ".toList)
    have := one (o' := []) h1.1 (d := d) (d' := d) (rest := rest) (o := o) (out := out)
      (fun ctx s _ _ _ hd => by simpa using hd.compiled h1 h2 h3 h4 h5 h6) ⟨n0, t0, by simpa using hr⟩
    simpa using this
  | @save d line tail f rest out ps h1 h2 hcan h3 h4 _ ih =>
    intro o
    obtain ⟨n0, t0, hr⟩ := ih (o ++ "> ".toList)
    have := one (o' := []) h1.1 (d := d) (d' := { d with files := fun n => if n = f then some (listing ps) else d.files n }) (rest := rest) (o := o) (out := out)
      (fun ctx s _ _ hw hd => by simpa using hd.saved (by rw [hw]; exact hcan) h1 h2 h3 h4) ⟨n0, t0, by simpa using hr⟩
    simpa using this
  | @load d line tail f text rest out ps p h1 h2 h3 h4 h5 h6 _ ih =>
    intro o
    obtain ⟨n0, t0, hr⟩ := ih (o ++ "> ".toList)
    have := one (o' := []) h1.1 (d := d) (d' := { d with prog := p, name := some f, paused := false }) (rest := rest) (o := o) (out := out)
      (fun ctx s _ _ _ hd => by simpa using hd.loaded h1 h2 h3 h4 h5 h6) ⟨n0, t0, by simpa using hr⟩
    simpa using this
  | @run d line rest out ps prog k e c h1 h2 h3 h4 h5 h6 h7 h8 h9 _ ih =>
    intro o
    obtain ⟨n1, t1, hr⟩ := ih (o ++ "> ".toList ++ c.out ++ e.message (sourceOf ps d.name).lines c.place)
    obtain ⟨n0, hn0⟩ := session_run (may := fun k _ => k ≠ .renum) (fun _ h => absurd rfl h) (any := d.anywhere) (src := sourceOf ps d.name) (w := ⟨[], o, d.rng, d.ticks⟩) (buf := d.line) (rest := rest)
      (env := env) (prog := prog) (k := k) (e := e) (c := c) h7 h8
    refine ⟨max n0 n1, t1 + 1, fun ctx s he hb hw hn hd n ht => ?_⟩
    obtain ⟨m, rfl⟩ : ∃ m, n = m + 1 := ⟨n - 1, by omega⟩
    cases hso : s.vm.stored.source with
    | some src =>
      have hsrc := hd.source h2 hso
      subst hsrc
      obtain ⟨s', q1, q2, q3, q4⟩ := (hn0 ctx s line hd.state hd.quit ⟨hso, hd.keywords, hd.traceBasic, hd.traceFor, h3, h4, h5, h6⟩ hd.names h1 hd.world hd.input he hb).2 (by omega)
      have hd' : AtDesk s' { d with rng := c.rng, ticks := c.ticks, line := c.line, paused := e.isStop } c.stdin (o ++ "> ".toList ++ c.out ++ e.message (sourceOf ps d.name).lines c.place) := by
        have hlines : lines s'.vm = lines s.vm := by unfold lines; rw [q2.source]
        refine ⟨q2.state, q2.quit, by rw [hlines]; exact hd.shows, hd.bound, fun x hx => hd.name x (q2.source.symm.trans hx), fun hx => hd.unnamed (q2.source.symm.trans hx),
          q2.files.trans hd.files, q2.keywords.trans hd.keywords, q2.traceBasic.trans hd.traceBasic, q2.traceFor.trans hd.traceFor, q2.names, ?_, q2.input, fun hx => q4 (fun he => by rw [he] at hx; cases hx)⟩
        have := q3 h9
        cases hw' : s'.vm.world with
        | mk a b x y =>
          have r1 := q2.stdin; have r2 := q2.rng; have r3 := q2.ticks
          rw [hw'] at this r1 r2 r3
          simp only at this r1 r2 r3
          rw [this, r1, r2, r3]
      rw [interactLoop_step ctx m q1]
      obtain ⟨w', k1, k2⟩ := hr ctx s' he hb hw (by omega) hd' m (by omega)
      exact ⟨w', k1, by rw [k2]; simp only [List.append_assoc]⟩
    | none =>
      have hps : ps = [] := by
        have hl : lines s.vm = ps := shows_unique hd.shows h2
        unfold lines at hl
        rw [hso] at hl
        exact hl.symm
      subst hps
      cases h3
      obtain ⟨rfl, rfl⟩ := steps_empty rfl h7
      have hx : interactStep ctx s = .ok (some { s with vm := vmClearValues (afterPrompt s.vm rest) }) := by
        rw [interactStep_run ctx s hd.quit (by rw [hd.world]) h1]
        have : runProgram ctx.env ctx.brk ctx.fuel (vmClearValues (afterPrompt s.vm rest)) = .ok (none, vmClearValues (afterPrompt s.vm rest)) := by
          simp [runProgram, vmClearValues, afterPrompt, hso]
        rw [this]
      have hd0 := hd.prompted
      have hd' : AtDesk { s with vm := vmClearValues (afterPrompt s.vm rest) } { d with paused := false } rest (o ++ "> ".toList) :=
        ⟨.clearValues hd0.state, hd0.quit, hd0.shows, hd0.bound, hd0.name, hd0.unnamed, hd0.files, hd0.keywords, hd0.traceBasic, hd0.traceFor,
          by simpa [vmClearValues, clearSymbolTableValues] using hd0.names, hd0.world, hd0.input, fun _ => NoCont.cleared (have q := state_stopped hd.state; q) (have q := (state_base hd.state).noCode hso; q)⟩
      rw [interactLoop_step ctx m hx]
      obtain ⟨w', k1, k2⟩ := hr ctx _ he hb hw (by omega) (by simpa [Src.start, Desk.machine, newVm, Src.Ending.message, Src.Ending.isStop] using hd') m (by omega)
      exact ⟨w', k1, by rw [k2]; simp only [List.append_assoc]⟩

end LB
