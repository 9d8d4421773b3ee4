import Verif.Proofs.Monitor
import Verif.Proofs.Demo
/- C01, C04, C05, C46: what typed lines mean. -/
namespace LB
open LB.Spec _root_.Spec

/-- The prompt adds a space or tab at most. -/
private theorem noBlanks : Blanks [] := by intro c hc; simp at hc

/-- A session with a small program. -/
private def demo : LB.Session :=
  { newSession false false false {} (fun _ => none) with
    vm := { newVm false false false {} with stored :=
      { source := some { name := none, lines := [⟨10, "A=1".toList⟩, ⟨30, "END".toList⟩] } } } }

private theorem demo_shows : Shows (lines demo.vm)
    (fun n => if n = 10 then some "A=1".toList else if n = 30 then some "END".toList else none) := by
  refine ⟨by decide, ?_⟩
  intro n t
  simp only [demo, lines, List.map_cons, List.map_nil, List.mem_cons, Prod.mk.injEq,
    List.not_mem_nil, or_false]
  by_cases h1 : n = 10
  · subst h1; simp [eq_comm]
  · by_cases h2 : n = 30
    · subst h2; simp [eq_comm]
    · simp [h1, h2]

/-- C05, for values below 2^32.  A number typed alone deletes exactly the line with that decimal number;
variables and files are untouched. -/
theorem C05_delete_partial (ctx : Ctx) (s : LB.Session) (p : Prog) (pre ds : List Char) (hs : Shows (lines s.vm) p)
    (hp : Blanks pre) (hn : ds ≠ []) (hd : ∀ c ∈ ds, IsDigit c) (hv : decimal ds < 2 ^ 32) :
    ∃ s', interpret ctx s (pre ++ ds) = .ok s' ∧ Shows (lines s'.vm) (applyEdit p (.erase (decimal ds))) ∧
      s'.vm.st = s.vm.st ∧ s'.files = s.files := by
  have h := interpret_number ctx s (t := []) hp hn hd (by simp)
  rw [List.append_nil, Nat.mod_eq_of_lt hv] at h
  refine ⟨_, h, delete_lines s.vm p _ hs, ?_, rfl⟩
  simp only [vmDeleteSourceLine]
  cases s.vm.stored.source with
  | none => rfl
  | some src => simp only; cases findSourceLinenum src (decimal ds) <;> rfl

example : interpret (Demo.ctx) demo " 030".toList =
    .ok { demo with vm := { demo.vm with stored :=
      { source := some { name := none, lines := [⟨10, "A=1".toList⟩] }, bcode := none, index := none } } } := rfl

/-- C05, for values below 2^32 other than 0 in an empty program.  Anything after the number is entered
as the text of the line with that decimal number, one separating space removed. -/
theorem C05_enter_partial (ctx : Ctx) (s : LB.Session) (p : Prog) (pre ds t : List Char) (sep : List Char)
    (hs : Shows (lines s.vm) p) (hp : Blanks pre) (hn : ds ≠ []) (hd : ∀ c ∈ ds, IsDigit c)
    (hv : decimal ds < 2 ^ 32) (h0 : decimal ds = 0 → lines s.vm ≠ [])
    (ht : sep = [' '] ∨ (sep = [] ∧ ∃ c, t.head? = some c ∧ ¬ IsDigit c ∧ c ≠ ' ' ∧ c ≠ '\n')) :
    ∃ s', interpret ctx s (pre ++ ds ++ (sep ++ t)) = .ok s' ∧
      Shows (lines s'.vm) (applyEdit p (.enter (decimal ds) t)) ∧ s'.vm.st = s.vm.st ∧ s'.files = s.files := by
  have hnd : ∀ c, (sep ++ t).head? = some c → ¬ IsDigit c := by
    intro c hc
    rcases ht with rfl | ⟨rfl, d, hd', h1, -⟩
    · simp only [List.cons_append, List.head?_cons, Option.some.injEq] at hc
      subst hc; decide
    · rw [List.nil_append] at hc
      rw [hc] at hd'
      cases hd'
      exact h1
  have h := interpret_number ctx s (t := sep ++ t) hp hn hd hnd
  have he : atEol (sep ++ t) = false := by
    rcases ht with rfl | ⟨rfl, d, hd', -, -, h2⟩
    · rfl
    · cases t with
      | nil => simp at hd'
      | cons c cs =>
        simp only [List.head?_cons, Option.some.injEq] at hd'
        subst hd'
        simp [atEol, h2]
  have ha : afterSpace (sep ++ t) = t := by
    rcases ht with rfl | ⟨rfl, d, hd', -, h2, -⟩
    · rfl
    · cases t with
      | nil => simp at hd'
      | cons c cs =>
        simp only [List.head?_cons, Option.some.injEq] at hd'
        subst hd'
        rw [List.nil_append]
        unfold afterSpace
        split
        · next q hq => cases hq; exact absurd rfl h2
        · rfl
  rw [he, ha, Nat.mod_eq_of_lt hv] at h
  obtain ⟨vm', hvm, hsh⟩ := enter_lines s.vm p (decimal ds) t hs h0
  rw [hvm] at h
  refine ⟨_, h, hsh, ?_, rfl⟩
  unfold vmEnterSourceLine at hvm
  cases hx : enterSourceLine (s.vm.stored.source.getD (newSource none)) (decimal ds) t with
  | halt h => rw [hx] at hvm; simp at hvm
  | ok src => rw [hx] at hvm; simp only [Outcome.ok.injEq] at hvm; subst hvm; rfl

example : interpret (Demo.ctx) demo "20  B=2".toList =
    .ok { demo with vm := { demo.vm with stored :=
      { source := some { name := none, lines := [⟨10, "A=1".toList⟩, ⟨20, " B=2".toList⟩, ⟨30, "END".toList⟩] },
        bcode := none, index := none } } } := rfl

/-- C05 fails for values from 2^32 on: they denote another line, for example 4294967306 denotes line 10. -/
theorem C05_violated : ∃ (s : LB.Session) (p : Prog) (ds : List Char), Shows (lines s.vm) p ∧ ds ≠ [] ∧
    (∀ c ∈ ds, IsDigit c) ∧ ∃ s', interpret (Demo.ctx) s ds = .ok s' ∧
      ¬ Shows (lines s'.vm) (applyEdit p (.erase (decimal ds))) := by
  refine ⟨demo, _, "4294967306".toList, demo_shows, by decide, by decide, _, rfl, ?_⟩
  intro h
  have := (h.2 10 "A=1".toList).2 (by decide)
  exact absurd this (by decide)

/-- C05 and C01 fail for number 0 in an empty program: the process ends. -/
theorem C05_zero_violated (ctx : Ctx) (kw tb tf : Bool) (w : World) (f : CStr → Option CStr) :
    interpret ctx (newSession kw tb tf w f) "0 END".toList = .halt (.exit "invalid line number") := rfl

/-- C01.  After any sequence of typed program lines, deletions and NEW the program shows, in ascending
order, exactly what the sequence means line by line.  (Number 0 is excluded: see C05_zero_violated.) -/
theorem C01_edits_partial (ctx : Ctx) (es : List Typed) (s : LB.Session) (p : Prog) (hs : Shows (lines s.vm) p)
    (he : ∀ e ∈ es, e.Fits) :
    ∃ s', typeLines ctx (es.map Typed.text) s = .ok s' ∧ Shows (lines s'.vm) (es.foldl Typed.apply p) := by
  induction es generalizing s p with
  | nil => exact ⟨s, rfl, hs⟩
  | cons e es ih =>
    have hstep : ∃ s', interpret ctx s e.text = .ok s' ∧ Shows (lines s'.vm) (e.apply p) := by
      have hfit := he e (by simp)
      match e, hfit with
      | .edit (.enter n t), hfit =>
        have hdn : decimal (numeral n) = n := decimal_fmtU n
        obtain ⟨s', h1, h2, -⟩ := C05_enter_partial ctx s p [] (numeral n) t [' '] hs noBlanks (numeral_ne_nil n)
          (fun c hc => (isdigit_iff c).1 (fmtU_digits n c hc)) (by rw [hdn]; exact hfit.2)
          (by rw [hdn]; have := hfit.1; omega) (Or.inl rfl)
        rw [hdn] at h2
        exact ⟨s', h1, h2⟩
      | .edit (.erase n), hfit =>
        have hdn : decimal (numeral n) = n := decimal_fmtU n
        obtain ⟨s', h1, h2, -⟩ := C05_delete_partial ctx s p [] (numeral n) hs noBlanks (numeral_ne_nil n)
          (fun c hc => (isdigit_iff c).1 (fmtU_digits n c hc)) (by rw [hdn]; exact hfit)
        rw [hdn] at h2
        exact ⟨s', h1, h2⟩
      | .new, _ =>
        refine ⟨_, interpret_new ctx s, ?_⟩
        rw [lines_new]
        exact ⟨by decide, fun n t => by simp [Typed.apply, emptyProg]⟩
    obtain ⟨s1, h1, h2⟩ := hstep
    obtain ⟨s', h3, h4⟩ := ih s1 _ h2 (fun e' he' => he e' (by simp [he']))
    exact ⟨s', by simp only [List.map_cons, typeLines, h1, h3], h4⟩

example : (∃ p, Shows (lines demo.vm) p) ∧
    (∀ e ∈ [Typed.edit (.enter 20 "B=2".toList), .edit (.erase 10), .edit (.enter 20 "C=3".toList)], e.Fits) := by
  refine ⟨⟨_, demo_shows⟩, ?_⟩
  intro e he
  simp only [List.mem_cons, List.not_mem_nil, or_false] at he
  rcases he with rfl | rfl | rfl <;> simp [Typed.Fits]

/-- C04.  `LIST s-e` shows exactly the lines numbered from `s` to `e`, each once and in ascending order, as
number, space and text; without `s` or `e` that side is unbounded (numbers are below 2^32). -/
theorem C04_list_range (ctx : Ctx) (s : LB.Session) (pre w sp : List Char) (a b : Option Nat)
    (hasc : Ascending ((lines s.vm).map (·.1))) (hp : Blanks pre) (hw : SameIgnoringCase "LIST".toList w)
    (hl : ∀ c ∈ w, IsLetter c) (hsp : Blanks sp)
    (ha : ∀ n, a = some n → n < 2 ^ 32) (hb : ∀ n, b = some n → n < 2 ^ 32) (hbrk : ctx.brk = fun _ => false) :
    interpret ctx s (pre ++ w ++ (sp ++ maybe a ++ '-' :: maybe b)) =
      .ok { s with vm := putOut s.vm (listing ((lines s.vm).filter
        (fun l => decide (a.getD 0 ≤ l.1 ∧ l.1 ≤ b.getD (2 ^ 32 - 1))))) } := by
  have hr : ∀ c, (sp ++ maybe a ++ '-' :: maybe b).head? = some c → ¬ IsLetter c := by
    intro c hc
    cases sp with
    | nil =>
      cases a with
      | none => simp only [maybe, List.nil_append, List.head?_cons, Option.some.injEq] at hc; subst hc; decide
      | some n =>
        obtain ⟨d, ds, hd, hdig⟩ := numeral_cons n
        simp only [maybe, hd, List.nil_append, List.cons_append, List.head?_cons, Option.some.injEq] at hc
        subst hc
        intro h
        rw [(letter_facts h).2.1] at hdig
        exact absurd hdig (by decide)
    | cons d ds =>
      simp only [List.cons_append, List.head?_cons, Option.some.injEq] at hc
      subst hc
      rcases hsp d (by simp) with rfl | rfl <;> decide
  rw [interpret_command ctx s hp hl hr (n := "LIST") (k := .list) (by decide) hw]
  simp only [command, getListNumbers_range sp a b hsp ha hb]
  simp only [getPageFlag, skipSpace, List.dropWhile_nil, LB.Session.ifEol, checkEol, atEol, if_true, hbrk]
  rw [listProgram_eq _ _ _ hasc]

example : interpret (Demo.ctx) demo "list 10-20".toList =
    .ok { demo with vm := putOut demo.vm "10 A=1\n".toList } := rfl

/-- C04.  `LIST` shows the whole program, `LIST s` everything from line `s` on. -/
theorem C04_list_from (ctx : Ctx) (s : LB.Session) (pre w sp sp' : List Char) (a : Option Nat)
    (hasc : Ascending ((lines s.vm).map (·.1))) (h32 : ∀ l ∈ lines s.vm, l.1 < 2 ^ 32)
    (hp : Blanks pre) (hw : SameIgnoringCase "LIST".toList w)
    (hl : ∀ c ∈ w, IsLetter c) (hsp : Blanks sp) (hsp' : Blanks sp')
    (ha : ∀ n, a = some n → n < 2 ^ 32) (hbrk : ctx.brk = fun _ => false) :
    interpret ctx s (pre ++ w ++ (sp ++ maybe a ++ sp')) =
      .ok { s with vm := putOut s.vm (listing ((lines s.vm).filter (fun l => decide (a.getD 0 ≤ l.1)))) } := by
  have hr : ∀ c, (sp ++ maybe a ++ sp').head? = some c → ¬ IsLetter c := by
    intro c hc
    have hmem := List.mem_of_head? hc
    simp only [List.mem_append] at hmem
    rcases hmem with (h | h) | h
    · rcases hsp c h with rfl | rfl <;> decide
    · intro hlc
      cases a with
      | none => simp [maybe] at h
      | some n =>
        have := fmtU_digits n c h
        rw [(letter_facts hlc).2.1] at this
        exact absurd this (by decide)
    · rcases hsp' c h with rfl | rfl <;> decide
  rw [interpret_command ctx s hp hl hr (n := "LIST") (k := .list) (by decide) hw]
  obtain ⟨r, hg, hrb⟩ := getListNumbers_from sp sp' a hsp hsp' ha
  have hs0 : skipSpace r = [] := by
    have := skipSpace_blanks hrb []
    rwa [List.append_nil] at this
  have hpf : getPageFlag r = (false, []) := by unfold getPageFlag; rw [hs0]
  simp only [command, hg, hpf, LB.Session.ifEol, checkEol, skipSpace, List.dropWhile_nil, atEol, if_true, hbrk]
  rw [listProgram_eq _ _ _ hasc]
  congr 4
  apply List.filter_congr
  intro l hl'
  have := h32 l hl'
  rw [decide_eq_decide]
  constructor
  · exact fun h => h.1
  · intro h
    exact ⟨h, by show l.1 ≤ 4294967295; omega⟩

/-- C04.  `LIST P` and `LIST s P` show the same lines with the same text, but after the 23rd line and after every 24th
that follows they wait for Enter, which takes the place of the newline; nothing else of the input is used.  They do not
wait after the last line of the program. -/
theorem C04_list_paged (ctx : Ctx) (s : LB.Session) (pre w sp sp' t : List Char) (p : Char) (a : Option Nat)
    (hasc : Ascending ((lines s.vm).map (·.1))) (h32 : ∀ l ∈ lines s.vm, l.1 < 2 ^ 32)
    (hp : Blanks pre) (hw : SameIgnoringCase "LIST".toList w) (hl : ∀ c ∈ w, IsLetter c) (hsp : Blanks sp)
    (hsp' : Blanks sp') (ht : Blanks t) (hpc : p = 'p' ∨ p = 'P') (hne : sp ++ maybe a ++ sp' ≠ [])
    (ha : ∀ n, a = some n → n < 2 ^ 32) (hbrk : ctx.brk = fun _ => false) :
    let last := (lines s.vm).getLast?.map (·.1)
    let shown := ((lines s.vm).filter (fun l => decide (a.getD 0 ≤ l.1))).zipIdx
    interpret ctx s (pre ++ w ++ (sp ++ maybe a ++ (sp' ++ p :: t))) =
      .ok { s with vm := { s.vm with world := { s.vm.world with
        out := s.vm.world.out ++ pagedListing last shown,
        stdin := afterLines (shown.filter (turnsPage last)).length s.vm.world.stdin } } } := by
  intro last shown
  have hr : ∀ c, (sp ++ maybe a ++ (sp' ++ p :: t)).head? = some c → ¬ IsLetter c := by
    intro c hc
    have hc' : (sp ++ maybe a ++ sp').head? = some c := by
      rw [← List.append_assoc] at hc
      generalize sp ++ maybe a ++ sp' = q at hc hne
      cases q with
      | nil => exact absurd rfl hne
      | cons d ds => exact hc
    have hmem := List.mem_of_head? hc'
    simp only [List.mem_append] at hmem
    rcases hmem with (h | h) | h
    · rcases hsp c h with rfl | rfl <;> decide
    · intro hlc
      cases a with
      | none => simp [maybe] at h
      | some n =>
        have := fmtU_digits n c h
        rw [(letter_facts hlc).2.1] at this
        exact absurd this (by decide)
    · rcases hsp' c h with rfl | rfl <;> decide
  rw [interpret_command ctx s hp hl hr (n := "LIST") (k := .list) (by decide) hw]
  obtain ⟨r, hg, hpf⟩ := getListNumbers_page sp sp' a p t hsp hsp' ha hpc
  have hs0 : skipSpace t = [] := by
    have := skipSpace_blanks ht []
    rwa [List.append_nil] at this
  simp only [command, hg, hpf, LB.Session.ifEol, checkEol, hs0, atEol, if_true, hbrk]
  have hf : (lines s.vm).filter (fun l => decide (a.getD 0 ≤ l.1 ∧ l.1 ≤ 2 ^ 32 - 1)) =
      (lines s.vm).filter (fun l => decide (a.getD 0 ≤ l.1)) := by
    apply List.filter_congr
    intro l hl'
    have := h32 l hl'
    rw [decide_eq_decide]
    constructor
    · exact fun h => h.1
    · intro h
      exact ⟨h, by show l.1 ≤ 4294967295; omega⟩
  rw [listProgram_paged _ _ _ hasc, hf]

/-- C04.  Seen with the typed newlines, a listing in pages is the ordinary listing. -/
theorem C04_paged_same (last : Option Nat) (ls : List ((Nat × List Char) × Nat)) :
    (ls.map (fun l => numeral l.1.1 ++ ' ' :: l.1.2 ++ (if turnsPage last l then [] else ['\n']) ++
      (if turnsPage last l then ['\n'] else []))).flatten = listing (ls.map (·.1)) := by
  induction ls with
  | nil => rfl
  | cons l ls ih =>
    rw [List.map_cons, List.flatten_cons, ih]
    cases turnsPage last l <;> simp [listing]

/-- A program of forty lines. -/
private def forty : List (Nat × List Char) := (List.range 40).map (fun i => (10 * i + 10, ['A', '=', '1']))

example : (forty.zipIdx.filter (turnsPage (forty.getLast?.map (·.1)))).map (·.1.1) = [230] ∧
    ((forty.take 23).zipIdx.filter (turnsPage ((forty.take 23).getLast?.map (·.1)))).map (·.1.1) = [] := by
  decide +kernel

example : interpret (Demo.ctx) demo "List 20 p".toList =
    .ok { demo with vm := putOut demo.vm "30 END\n".toList } := rfl

example : interpret (Demo.ctx) demo "LIST".toList =
    .ok { demo with vm := putOut demo.vm "10 A=1\n30 END\n".toList } := rfl

/-- C46.  A leading word that spells a command, in any case, runs that command on the rest of the line. -/
theorem C46_command (ctx : Ctx) (s : LB.Session) (pre w rest : List Char) (n : String) (k : Cmd) (hp : Blanks pre)
    (hw : ∀ c ∈ w, IsLetter c) (hr : ∀ c, rest.head? = some c → ¬ IsLetter c) (hk : (n, k) ∈ commandNames)
    (h : SameIgnoringCase n.toList w) : interpret ctx s (pre ++ w ++ rest) = command ctx s k rest :=
  interpret_command ctx s hp hw hr hk h

example : ("RENUMBER", Cmd.renum) ∈ commandNames ∧ SameIgnoringCase "RENUMBER".toList "ReNumber".toList := by decide

/-- C46.  A line whose leading word is not exactly a command, and that starts with neither a digit nor
`*`, is executed as a statement. -/
theorem C46_statement (ctx : Ctx) (s : LB.Session) (pre w rest : List Char) (hp : Blanks pre)
    (hw : ∀ c ∈ w, IsLetter c) (hr : ∀ c, rest.head? = some c → ¬ IsLetter c)
    (hk : ∀ n k, (n, k) ∈ commandNames → ¬ SameIgnoringCase n.toList w)
    (hs : w = [] → ∃ c, rest.head? = some c ∧ c ≠ ' ' ∧ c ≠ '\t' ∧ c ≠ '*' ∧ c ≠ '\n' ∧ ¬ IsDigit c) :
    interpret ctx s (pre ++ w ++ rest) =
      s.withVm (runImmediate ctx.env ctx.brk ctx.fuel s.vm (w ++ rest)) :=
  interpret_statement ctx s hp hw hr hk hs

example : ∀ x ∈ commandNames, ¬ SameIgnoringCase x.1.toList "NEWT".toList := by decide

/-- C46.  A complete line of at most 126 characters is interpreted exactly as typed. -/
theorem C46_line_read (ctx : Ctx) (s : LB.Session) (l rest : List Char) (hq : s.quit = false)
    (hin : s.vm.world.stdin = l ++ '\n' :: rest) (h1 : '\n' ∉ l) (h2 : '\x00' ∉ l) (h3 : l.length ≤ 126) :
    interactStep ctx s =
      match interpret ctx { s with vm := { s.vm with world := { s.vm.world with
          out := s.vm.world.out ++ "> ".toList, stdin := rest } } } l with
      | .halt h => .halt h
      | .ok s' => .ok (some s') := by
  unfold interactStep
  rw [hq, hin, getLine_line _ l rest h1 h2 h3]
  rfl

/-- C46.  A longer line is not executed at all: the session goes on as if only the message had been shown. -/
theorem C46_long_line (ctx : Ctx) (s : LB.Session) (l rest : List Char)
    (hin : s.vm.world.stdin = l ++ '\n' :: rest) (h1 : '\n' ∉ l) (h2 : '\x00' ∉ l) (h3 : 127 ≤ l.length) :
    interactStep ctx s = interactStep ctx { s with vm := { s.vm with world := { s.vm.world with
      out := s.vm.world.out ++ "> Command line too long\n".toList, stdin := rest } } } := by
  unfold interactStep
  by_cases hq : s.quit
  · simp [hq]
  · simp only [hq]
    rw [hin, getLine_long _ l rest h1 h2 h3]
    have hf := getLine_fuel (l ++ '\n' :: rest).length (rest.length + 1) rest
      (by simp only [List.length_append, List.length_cons]; omega) (by omega)
    rw [hf]
    simp only [putOut, List.append_assoc]

example : (List.replicate 127 'X').length ≥ 127 ∧ '\n' ∉ List.replicate 127 'X' := by
  simp [List.mem_replicate]

/-- C46.  Whatever is executed is one whole line of the input, unless the input contains NUL bytes. -/
theorem C46_whole_lines_partial (stdin out line rest : List Char) (n : Nat) (hz : '\x00' ∉ stdin)
    (h : getLine n stdin = (out, some line, rest)) :
    ∃ before, stdin = before ++ line ++ '\n' :: rest ∧ (before = [] ∨ before.getLast? = some '\n') ∧
      '\n' ∉ line :=
  getLine_whole n stdin out line rest hz h

example : getLine 3 "A\nB\n".toList = ("> ".toList, some "A".toList, "B\n".toList) := by decide

/-- C46 fails for a line that starts with a NUL byte and is too long: its tail is executed. -/
theorem C46_violated : ∃ pre : List Char, '\n' ∉ pre ∧
    getLine 3 (pre ++ "BYE\n".toList) = ("> > ".toList, some "BYE".toList, []) := by
  refine ⟨'\x00' :: List.replicate 126 'X', ?_, ?_⟩
  · simp [List.mem_replicate]
  · decide +kernel

/-- C46.  `BYE` alone on its line ends the session: nothing is shown, no more input is read and nothing is stored. -/
theorem C46_bye (ctx : Ctx) (s : LB.Session) (pre w rest : List Char) (hp : Blanks pre)
    (hw : SameIgnoringCase "BYE".toList w) (hl : ∀ c ∈ w, IsLetter c) (hr : Blanks rest) :
    interpret ctx s (pre ++ w ++ rest) = .ok { s with quit := true } ∧
      ∀ ctx', interactStep ctx' { s with quit := true } = .ok none := by
  refine ⟨?_, fun ctx' => rfl⟩
  have hr' : ∀ c, rest.head? = some c → ¬ IsLetter c := by
    intro c hc
    rcases hr c (List.mem_of_head? hc) with rfl | rfl <;> decide
  rw [interpret_command ctx s hp hl hr' (n := "BYE") (k := .bye) (by decide) hw]
  have hs0 : skipSpace rest = [] := by
    have := skipSpace_blanks hr []
    rwa [List.append_nil] at this
  simp only [command, LB.Session.ifEol, checkEol, hs0, atEol, if_true]

example : interpret Demo.ctx demo " bye ".toList = .ok { demo with quit := true } ∧
    interpret Demo.ctx demo "BYE 1".toList = .ok (demo.error "Command syntax error".toList) := ⟨rfl, rfl⟩

/-- C46.  No other line ends the session: if one has, its leading word was `BYE` with nothing behind it. -/
theorem C46_only_bye (ctx : Ctx) (s s' : LB.Session) (line : List Char) (hq : s.quit = false)
    (h : interpret ctx s line = .ok s') (hq' : s'.quit = true) :
    ∃ pre w sp t, line = pre ++ w ++ (sp ++ t) ∧ Blanks pre ∧ SameIgnoringCase "BYE".toList w ∧ Blanks sp ∧
      (t = [] ∨ t.head? = some '\n') ∧ s' = { s with quit := true } :=
  interpret_quit hq h hq'

end LB
