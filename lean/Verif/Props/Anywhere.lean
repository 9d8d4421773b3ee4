import Verif.Props.Batch
import Verif.Props.Expressions
import Verif.Props.Dialogue
/- C57 and C62: programs read with `--keywords-anywhere`. -/
namespace LB
open LB.Spec _root_.Spec

/-- No keyword occurs inside the word. -/
def Spec.Plainly (w : CStr) : Prop := ∀ p q s, w = p ++ q ++ s → ∀ v k, (v, k) ∈ reservedWords → ¬ SameIgnoringCase v.toList q

/-- The text is a line with these statements, and no name on it contains a keyword. -/
def Spec.PlainLine (text : CStr) (ss : List Src.Stmt) : Prop :=
  ∃ l r, Spells text l r ∧ Src.Clauses l ss ∧ ∀ w, .name w ∈ l → Plainly w

/-- The stored lines are this program, and no name in them contains a keyword. -/
inductive Spec.PlainLines : List SrcLine → Src.Program → Prop
  | nil : PlainLines [] []
  | cons {l ls ss prog} : PlainLine l.text ss → PlainLines ls prog → PlainLines (l :: ls) ((l.num, ss) :: prog)

theorem keyword_letters {u : String} {k : Kw} {q : CStr} (hk : (u, k) ∈ reservedWords) (hs : SameIgnoringCase u.toList q) : ∀ c ∈ q, isalpha c = true := by
  have h1 : ∀ p ∈ reservedWords, ∀ c ∈ p.1.toList, isalpha c = true := by decide
  have h1 := h1 _ hk
  simp only at h1
  intro c hc
  obtain ⟨d, hd, he⟩ := List.mem_map.1 (show c.toUpper ∈ u.toList.map Char.toUpper by rw [hs]; exact List.mem_map_of_mem hc)
  exact alpha_upper he (h1 d hd)

/-- A keyword that begins in a name without keywords would go on behind it; no name ends so. -/
theorem plainly_unbroken {w r : CStr} (hw : Plainly w) (hr : NameEnds w r) : Unbroken w r := by
  intro p q e hq v k hk hs
  have hlen := congrArg List.length hs
  simp only [List.length_map, List.length_take, List.length_append] at hlen
  by_cases hle : v.toList.length ≤ q.length
  · rw [List.take_append_of_le_length hle] at hs
    exact hw p (q.take v.toList.length) (q.drop v.toList.length) (by rw [e, List.append_assoc, List.take_append_drop]) v k hk hs
  · have hal := keyword_letters hk hs
    rw [List.take_append, List.take_of_length_le (by omega)] at hal
    rcases hr.2 with h | h
    · have hm : '$' ∈ q := by
        rw [e, List.getLast?_append] at h
        cases hq' : q.getLast? with
        | none => exact absurd (List.getLast?_eq_none_iff.1 hq') hq
        | some d =>
          rw [hq'] at h
          cases h
          exact List.mem_of_getLast? hq'
      have := hal _ (List.mem_append_left _ hm)
      revert this; decide
    · cases r with
      | nil => simp only [List.length_nil] at hlen; omega
      | cons d r =>
        have h1 := (h d rfl).1
        have h2 := hal d (List.mem_append_right _ (by
          rw [show v.toList.length - q.length = (v.toList.length - q.length - 1) + 1 by omega, List.take_succ_cons]
          exact List.mem_cons_self))
        rw [← isalnum_eq] at h1
        simp [isalnum, h2] at h1

/-- A text whose names contain no keyword is read the same when keywords are recognised everywhere. -/
theorem spells_anywhere {r : CStr} {l : List Lexeme} {r' : CStr} (h : Spells r l r') : (∀ w, .name w ∈ l → Plainly w) → SpellsAs true r l r' := by
  induction h with
  | done => exact fun _ => .done
  | eol hb => exact fun _ => .eol hb
  | num h1 h2 h3 h4 _ ih => exact fun hn => .num h1 h2 h3 h4 (ih fun w hw => hn w (List.mem_cons_of_mem _ hw))
  | str h1 h2 h3 _ ih => exact fun hn => .str h1 h2 h3 (ih fun w hw => hn w (List.mem_cons_of_mem _ hw))
  | name h1 h2 h3 h4 h5 h6 _ ih =>
    intro hn
    have h4 := h4.resolve_right (fun g => by cases g.1)
    exact .name h1 h2 h3 (.inl h4) (fun _ => plainly_unbroken (hn _ List.mem_cons_self) h4) h6 (ih fun w hw => hn w (List.mem_cons_of_mem _ hw))
  | keyword h1 h2 _ h4 h5 _ ih => exact fun hn => .keyword h1 h2 (.inr rfl) h4 h5 (ih fun w hw => hn w (List.mem_cons_of_mem _ hw))
  | sign h1 h2 _ ih => exact fun hn => .sign h1 h2 (ih fun w hw => hn w (List.mem_cons_of_mem _ hw))
  | less h1 h2 h3 h4 _ ih => exact fun hn => .less h1 h2 h3 h4 (ih fun w hw => hn w (List.mem_cons_of_mem _ hw))
  | greater h1 h2 h3 _ ih => exact fun hn => .greater h1 h2 h3 (ih fun w hw => hn w (List.mem_cons_of_mem _ hw))
  | ne h1 _ ih => exact fun hn => .ne h1 (ih fun w hw => hn w (List.mem_cons_of_mem _ hw))
  | le h1 _ ih => exact fun hn => .le h1 (ih fun w hw => hn w (List.mem_cons_of_mem _ hw))
  | ge h1 _ ih => exact fun hn => .ge h1 (ih fun w hw => hn w (List.mem_cons_of_mem _ hw))
  | dataLast h1 h2 h3 _ h5 => exact fun _ => .dataLast h1 h2 h3 (.inr rfl) h5
  | dataColon h1 h2 h3 _ h5 _ ih => exact fun hn => .dataColon h1 h2 h3 (.inr rfl) h5 (ih fun w hw => hn w (List.mem_cons_of_mem _ (List.mem_cons_of_mem _ hw)))

theorem plainLines_both {ls : List SrcLine} {prog : Src.Program} (h : PlainLines ls prog) (any : Bool) : Src.LinesAs any ls prog := by
  induction h with
  | nil => exact .nil
  | cons h _ ih =>
    obtain ⟨l, r, h1, h2, h3⟩ := h
    cases any with
    | false => exact .cons ⟨l, r, h1, h2⟩ ih
    | true => exact .cons ⟨l, r, spells_anywhere h1 h3, h2⟩ ih

/-- Adding `-k` to the arguments. -/
theorem asksRun_anywhere {args : List CStr} {f : CStr} (ha : AsksRun args f) : AsksRun (args ++ ["-k".toList]) f where
  usable a h := by
    rcases List.mem_append.1 h with h | h
    · exact ha.usable a h
    · rw [List.mem_singleton.1 h]; exact .inr ⟨.keywords, by decide, by decide, by decide⟩
  one := by
    have h1 := ha.one
    unfold named at *
    rw [List.filter_append, List.length_append, show (["-k".toList].filter fun a => decide (IsFile a)) = [] by decide]
    exact h1
  mem := List.mem_append_left _ ha.mem
  file := ha.file
  mode a h m hm := by
    rcases List.mem_append.1 h with h | h
    · exact ha.mode a h m hm
    · rw [List.mem_singleton.1 h] at hm; revert hm; cases m <;> decide
  plain a h := by
    rcases List.mem_append.1 h with h | h
    · exact ha.plain a h
    · rw [List.mem_singleton.1 h]; decide

theorem anywhere_banner (args : List CStr) : banner (args ++ ["-k".toList]) = banner args := by
  have : ¬ Says "-k".toList .quiet := by decide
  simp only [banner, List.mem_append, List.mem_singleton, or_and_right, exists_or, exists_eq_left, this, or_false]

theorem anywhere_report (args : List CStr) (m : CStr) : report (args ++ ["-k".toList]) m = report args m := by
  have : ¬ Says "-k".toList .memory := by decide
  simp only [report, List.mem_append, List.mem_singleton, or_and_right, exists_or, exists_eq_left, this, or_false]

theorem anywhere_seedings (args : List CStr) : seedings (args ++ ["-k".toList]) = seedings args := by
  unfold seedings
  rw [List.filter_append, show (["-k".toList].filter _) = [] by decide, List.append_nil]

/-- C62.  If no name in a program contains a keyword, running its file with `--keywords-anywhere` ends when running it
without ends, prints the same and reads the same part of the input.
Missing: as for `C52_ends_partial`. -/
theorem C62_same_partial {args : List CStr} {f text : CStr} (ha : AsksRun args f) {ps : List (Nat × List Char)} (hl : Listing text ps)
    (hasc : Ascending (ps.map (·.1))) (h0 : ∀ n t, (n, t) ∈ ps → n ≠ 0)
    {prog : Src.Program} (hp : PlainLines (linesOf ps) prog) (hfit : prog.Fits) (hsm : prog.vars ≤ 65510) (hap : prog.Apart)
    {env : Env} {w : World} {k : Nat} {e : Src.Ending} {c : Src.Config}
    (hs : Src.steps env prog k (Src.start prog (newVm false false false (seeded env w (seedings args)))) = .stop e c) (hu : e ≠ .unknown) (hd : e ≠ .error .forTooDeep) :
    ∃ n0, ∀ h : Host, h.ctx.env = env → (∀ k, h.ctx.brk k = false) → h.files f = some text → n0 ≤ h.ctx.fuel →
      ∃ w1 w2, lbasic h args w = .ok (0, w1) ∧ lbasic h (args ++ ["-k".toList]) w = .ok (0, w2) ∧ w2.out = w1.out ∧ w2.stdin = w1.stdin := by
  obtain ⟨n1, k1⟩ := C57_run_partial ha (decide_eq_true_iff (p := ∃ a ∈ args, Says a .keywords)) hl hasc h0 (plainLines_both hp _) hfit hsm hap hs hu
  obtain ⟨n2, k2⟩ := C57_run_partial (asksRun_anywhere ha) (any := true) (by simp only [true_iff]; exact ⟨_, List.mem_append_right _ List.mem_cons_self, by decide⟩)
    hl hasc h0 (plainLines_both hp true) hfit hsm hap (by rw [anywhere_seedings]; exact hs) hu
  refine ⟨max n1 n2, fun h he hb hf hn => ?_⟩
  obtain ⟨w1, a1, a2, a3⟩ := (k1 h he hb hf).2 (by omega)
  obtain ⟨w2, b1, b2, b3⟩ := (k2 h he hb hf).2 (by omega)
  refine ⟨w1, w2, a1, b1, ?_, b2.trans a2.symm⟩
  rw [a3 hd, b3 hd, anywhere_banner, anywhere_report]

/-- C62.  And if the program can run for ever, both runs do.
Missing: as for `C52_forever_partial`. -/
theorem C62_forever_partial {args : List CStr} {f text : CStr} (ha : AsksRun args f) {ps : List (Nat × List Char)} (hl : Listing text ps)
    (hasc : Ascending (ps.map (·.1))) (h0 : ∀ n t, (n, t) ∈ ps → n ≠ 0)
    {prog : Src.Program} (hp : PlainLines (linesOf ps) prog) (hfit : prog.Fits) (hsm : prog.vars ≤ 65510) (hap : prog.Apart) {w : World} {h : Host}
    (hs : ∀ k, ∃ c, Src.steps h.ctx.env prog k (Src.start prog (newVm false false false (seeded h.ctx.env w (seedings args)))) = .go c)
    (hb : ∀ k, h.ctx.brk k = false) (hf : h.files f = some text) : lbasic h args w = .halt .fuel ∧ lbasic h (args ++ ["-k".toList]) w = .halt .fuel :=
  ⟨C57_forever_partial ha (decide_eq_true_iff (p := ∃ a ∈ args, Says a .keywords)) hl hasc h0 (plainLines_both hp _) hfit hsm hap hs hb hf,
    C57_forever_partial (asksRun_anywhere ha) (any := true) (by simp only [true_iff]; exact ⟨_, List.mem_append_right _ List.mem_cons_self, by decide⟩)
      hl hasc h0 (plainLines_both hp true) hfit hsm hap (by rw [anywhere_seedings]; exact hs) hb hf⟩

/- ### Examples -/

namespace Demo

/-- Short words can be checked part by part. -/
theorem plainly_check {w : CStr} (h : ∀ i, i < w.length + 1 → ∀ j, j < w.length + 1 → ∀ x ∈ reservedWords, ¬ SameIgnoringCase x.1.toList ((w.drop i).take j)) : Plainly w := by
  intro p q s e v k hk hs
  have h1 : w.length = p.length + q.length + s.length := by rw [e]; simp only [List.length_append]
  refine h p.length (by omega) q.length (by omega) (v, k) hk ?_
  rw [e, List.append_assoc, List.drop_left, List.take_left]
  exact hs

theorem unbroken_letter {c : Char} {r : CStr} (h : ∀ x ∈ reservedWords, ¬ SameIgnoringCase x.1.toList ((c :: r).take x.1.toList.length)) : Unbroken [c] r := by
  intro p q e hq v k hk
  cases p with
  | nil =>
    have e : [c] = q := e
    subst e
    exact h (v, k) hk
  | cons a p =>
    simp only [List.cons_append, List.cons.injEq] at e
    exact absurd (List.append_eq_nil_iff.1 e.2.symm).2 hq

/-- The tokens of the line of the example. -/
def loopTokens : List Lexeme :=
  [.name ['B'], opTok '=', .num (.fin 2)] ++ opTok ':' :: ([Src.kw .FOR, .name ['I'], opTok '=', .name ['A'], Src.kw .TO, .name ['B']] ++ opTok ':' ::
    ([Src.kw .PRINT, .name ['I'], opTok ';'] ++ opTok ':' :: ([Src.kw .NEXT] ++ [opTok '\n'])))

/-- The statements of the line. -/
def loopProgram : Src.Program :=
  [(10, [.letNum ['B'] (.num (.fin 2)), .for_ ['I'] (.numVar ['A']) (.numVar ['B']) (.num (.fin 1)), .print [.value (.numVar ['I']), .semicolon], .nextAny])]

/-- Without blanks. -/
def crowded : List (Nat × List Char) := [(10, "B=2:FORI=ATOB:PRINTI;:NEXT".toList)]

/-- With blanks. -/
def spaced : List (Nat × List Char) := [(10, "B=2:FOR I=A TO B:PRINT I;:NEXT".toList)]

theorem loop_clauses : Src.Clauses loopTokens [.letNum ['B'] (.num (.fin 2)), .for_ ['I'] (.numVar ['A']) (.numVar ['B']) (.num (.fin 1)),
    .print [.value (.numVar ['I']), .semicolon], .nextAny] := by
  have hI : builtin ['I'] = none := by decide +kernel
  have hA : builtin ['A'] = none := by decide +kernel
  have hB : builtin ['B'] = none := by decide +kernel
  exact .colon (.simple (.assign (.num hB (by decide) (orNum _))))
    (.colon (.simple (.for_ (l := [.name ['A']]) hI (by decide) (orVar hA (by decide)) (orVar hB (by decide))))
    (.colon (.simple (.print (.value (l := [.name ['I']]) (orVar hI (by decide)) (by intro w hw; cases hw; decide +kernel) (by intro a ha; cases ha; decide) (.semicolon .nil))))
    (.last (.simple .nextAny))))

theorem spaced_lines : PlainLines (linesOf spaced) loopProgram := by
  refine .cons ⟨loopTokens, [], split_spec 40 (by decide +kernel), loop_clauses, ?_⟩ .nil
  intro w hw
  have h : w ∈ [['B'], ['I'], ['A'], ['B'], ['I']] := by
    simpa [loopTokens, opTok, Src.kw] using hw
  have hall : ∀ w ∈ [['B'], ['I'], ['A'], ['B'], ['I']], ∀ i, i < w.length + 1 → ∀ j, j < w.length + 1 → ∀ x ∈ reservedWords, ¬ SameIgnoringCase x.1.toList ((w.drop i).take j) := by
    decide +kernel
  exact plainly_check (hall w h)

theorem crowded_spells : SpellsAs true "B=2:FORI=ATOB:PRINTI;:NEXT".toList loopTokens [] := by
  have nm : ∀ {c : Char} {r : CStr} {l : List Lexeme}, c.isAlpha = true → (NameEnds [c] r ∨ '$' ≠ c ∧ KeywordNext r) →
      (∀ x ∈ reservedWords, ¬ SameIgnoringCase x.1.toList ((c :: r).take x.1.toList.length)) → (∀ x ∈ reservedWords, ¬ SameIgnoringCase x.1.toList [c]) →
      SpellsAs true r l [] → SpellsAs true (c :: r) (.name [c] :: l) [] := by
    intro c r l h1 h2 h3 h4 h5
    refine .name (b := []) (w := [c]) (by decide) ⟨c, [], [], rfl, h1, by simp, .inl rfl⟩ (by simp) ?_ (fun _ => unbroken_letter h3) (fun v k hm => h4 (v, k) hm) h5
    exact h2.imp_right fun h => ⟨rfl, by simpa using h.1, h.2⟩
  have ends : ∀ {c d : Char} {r : CStr}, Plain d → d.isAlphanum = false ∧ d ≠ '$' → NameEnds [c] (d :: r) := fun h h' => Demo.nameEnds _ _ h h' _
  have sg : ∀ {c : Char} {r : CStr} {l : List Lexeme}, c ∈ "()^*/+-=:;,?".toList → SpellsAs true r l [] → SpellsAs true (c :: r) (opTok c :: l) [] :=
    fun h h' => .sign (b := []) (by decide) h h'
  have key : ∀ {w r : CStr} {v : String} {k : Kw} {l : List Lexeme}, Name w → (v, k) ∈ reservedWords → SameIgnoringCase v.toList w → SpellsAs true r l [] →
      SpellsAs true (w ++ r) (Src.kw k :: l) [] := fun h1 h2 h3 h4 => .keyword (b := []) (by decide) h1 (.inr rfl) h2 h3 h4
  refine nm (c := 'B') (r := "=2:FORI=ATOB:PRINTI;:NEXT".toList) (by decide) (.inl (ends (by decide) (by decide))) (by decide +kernel) (by decide +kernel) (sg (by decide) ?_)
  refine .num (b := []) (w := ['2']) (r := ":FORI=ATOB:PRINTI;:NEXT".toList) (by decide) Demo.two (by decide)
    ⟨by intro c hc; cases hc; decide, by intro c hc; cases hc; simp only [IsDigit]; decide⟩ (sg (by decide) ?_)
  refine key (w := "FOR".toList) (r := "I=ATOB:PRINTI;:NEXT".toList) (v := "FOR") ⟨'F', "OR".toList, [], rfl, rfl, by decide, .inl rfl⟩ (by decide +kernel) (by decide +kernel) ?_
  refine nm (c := 'I') (r := "=ATOB:PRINTI;:NEXT".toList) (by decide) (.inl (ends (by decide) (by decide))) (by decide +kernel) (by decide +kernel) (sg (by decide) ?_)
  refine nm (c := 'A') (r := "TOB:PRINTI;:NEXT".toList) (by decide) (.inr ⟨by decide, "TO", .TO, by decide +kernel, by decide +kernel⟩) (by decide +kernel) (by decide +kernel) ?_
  refine key (w := "TO".toList) (r := "B:PRINTI;:NEXT".toList) (v := "TO") ⟨'T', "O".toList, [], rfl, rfl, by decide, .inl rfl⟩ (by decide +kernel) (by decide +kernel) ?_
  refine nm (c := 'B') (r := ":PRINTI;:NEXT".toList) (by decide) (.inl (ends (by decide) (by decide))) (by decide +kernel) (by decide +kernel) (sg (by decide) ?_)
  refine key (w := "PRINT".toList) (r := "I;:NEXT".toList) (v := "PRINT") ⟨'P', "RINT".toList, [], rfl, rfl, by decide, .inl rfl⟩ (by decide +kernel) (by decide +kernel) ?_
  refine nm (c := 'I') (r := ";:NEXT".toList) (by decide) (.inl (ends (by decide) (by decide))) (by decide +kernel) (by decide +kernel) (sg (by decide) (sg (by decide) ?_))
  exact key (w := "NEXT".toList) (r := []) (v := "NEXT") ⟨'N', "EXT".toList, [], rfl, rfl, by decide, .inl rfl⟩ (by decide +kernel) (by decide +kernel) (.eol (by decide))

theorem crowded_lines : Src.LinesAs true (linesOf crowded) loopProgram := .cons ⟨loopTokens, [], crowded_spells, loop_clauses⟩ .nil

theorem loop_fits : loopProgram.Fits := by
  have hr : loopProgram.room = (0, 0) := by decide +kernel
  simp only [Src.Program.Fits, hr]
  simp only [loopProgram, List.forall_mem_cons, Src.Stmt.Fits, Src.Item.Fits, Src.Fits]
  simp [Expr.nums, Expr.strs]

theorem loop_apart : loopProgram.Apart := fun f hf => absurd (show f ∈ ([] : List CStr) from hf) (by simp)

/-- What the run comes to. -/
def looped : Src.Next → Bool
  | .stop .finished c => decide (c.out = " 0  1  2 ".toList)
  | _ => false

theorem loop_runs : looped (Src.steps Demo.env loopProgram 100 (Src.start loopProgram (newVm false false false {}))) = true := by decide +kernel

end Demo

open Demo in
theorem Demo.asks : AsksRun ["-q".toList, "l.bas".toList] "l.bas".toList := by
  refine ⟨?_, by decide, by decide, by decide, ?_, by decide⟩
  · intro a ha
    simp only [List.mem_cons, List.not_mem_nil, or_false] at ha
    rcases ha with rfl | rfl
    · exact .inr ⟨.quiet, by decide, by decide, by decide⟩
    · exact .inl (by decide)
  · intro a ha m
    simp only [List.mem_cons, List.not_mem_nil, or_false] at ha
    rcases ha with rfl | rfl <;> cases m <;> decide

open Demo in
/-- A program without blanks, run with `-k`. -/
example : ∃ n0, ∀ h : Host, h.ctx.env = Demo.env → (∀ k, h.ctx.brk k = false) → h.files "l.bas".toList = some "10 B=2:FORI=ATOB:PRINTI;:NEXT\n".toList →
      n0 ≤ h.ctx.fuel → ∃ w', lbasic h ["-q".toList, "l.bas".toList, "-k".toList] {} = .ok (0, w') ∧ w'.out = " 0  1  2 ".toList := by
  have hload : loadSourceFile "l.bas".toList (some "10 B=2:FORI=ATOB:PRINTI;:NEXT\n".toList) = .ok (some ⟨some "l.bas".toList, linesOf crowded⟩) := by decide +kernel
  obtain ⟨_, hl, hasc, h0⟩ := (C03_load_iff _ _ _).1 hload
  have hc := loop_runs
  cases hs : Src.steps Demo.env loopProgram 100 (Src.start loopProgram (newVm false false false {})) with
  | go c => rw [hs] at hc; cases hc
  | stop e c =>
    rw [hs] at hc
    cases e with
    | finished =>
      simp only [looped, decide_eq_true_eq] at hc
      obtain ⟨n0, h⟩ := C57_run_partial (asksRun_anywhere asks) (any := true) (by decide) hl hasc h0 (prog := loopProgram) crowded_lines loop_fits (by decide +kernel)
        loop_apart (env := Demo.env) (w := {}) (k := 100) (e := .finished) (c := c) hs (by intro h; cases h)
      refine ⟨n0, fun h' he hb hf hn => ?_⟩
      obtain ⟨w', h1, h2, h3⟩ := (h h' he hb hf).2 hn
      refine ⟨w', h1, ?_⟩
      rw [h3 (by intro h; cases h)]
      have hr : report (["-q".toList, "l.bas".toList] ++ ["-k".toList]) h'.memory = [] := if_neg (by decide)
      have hbn : banner (["-q".toList, "l.bas".toList] ++ ["-k".toList]) = [] := if_pos (by decide)
      rw [hr, hbn, hc]
      rfl
    | _ => cases hc

open Demo in
/-- A program with blanks, run without and with `-k`. -/
example : ∃ n0, ∀ h : Host, h.ctx.env = Demo.env → (∀ k, h.ctx.brk k = false) → h.files "l.bas".toList = some "10 B=2:FOR I=A TO B:PRINT I;:NEXT\n".toList →
      n0 ≤ h.ctx.fuel → ∃ w1 w2, lbasic h ["-q".toList, "l.bas".toList] {} = .ok (0, w1) ∧ lbasic h ["-q".toList, "l.bas".toList, "-k".toList] {} = .ok (0, w2) ∧
        w2.out = w1.out ∧ w2.stdin = w1.stdin := by
  have hload : loadSourceFile "l.bas".toList (some "10 B=2:FOR I=A TO B:PRINT I;:NEXT\n".toList) = .ok (some ⟨some "l.bas".toList, linesOf spaced⟩) := by decide +kernel
  obtain ⟨_, hl, hasc, h0⟩ := (C03_load_iff _ _ _).1 hload
  have hc := loop_runs
  cases hs : Src.steps Demo.env loopProgram 100 (Src.start loopProgram (newVm false false false {})) with
  | go c => rw [hs] at hc; cases hc
  | stop e c =>
    rw [hs] at hc
    cases e with
    | finished =>
      exact C62_same_partial asks hl hasc h0 (prog := loopProgram) spaced_lines loop_fits (by decide +kernel)
        loop_apart (env := Demo.env) (w := {}) (k := 100) (e := .finished) (c := c) hs (by intro h; cases h) (by intro h; cases h)
    | _ => cases hc

/-- A loop without end runs for ever either way. -/
example (h : Host) (hb : ∀ k, h.ctx.brk k = false) (hf : h.files "l.bas".toList = some "10 LET N = N + 1 : ? N ; : GOTO 10\n".toList) :
    lbasic h ["-q".toList, "l.bas".toList] {} = .halt .fuel ∧ lbasic h ["-q".toList, "l.bas".toList, "-k".toList] {} = .halt .fuel := by
  have hload : loadSourceFile "l.bas".toList (some "10 LET N = N + 1 : ? N ; : GOTO 10\n".toList) = .ok (some ⟨some "l.bas".toList, Demo.endless⟩) := by decide +kernel
  obtain ⟨_, hl, hasc, h0⟩ := (C03_load_iff _ _ _).1 hload
  have hps : linesOf (⟨some "l.bas".toList, Demo.endless⟩ : Source).pairs = Demo.endless := by decide
  have hN : builtin ['N'] = none := by decide +kernel
  have hp : PlainLines Demo.endless Demo.endlessProgram := by
    refine .cons ⟨[Src.kw .LET, .name ['N'], opTok '=', .name ['N'], opTok '+', .num (.fin 1)] ++ opTok ':' :: ([opTok '?', .name ['N'], opTok ';'] ++ opTok ':' ::
      ([Src.kw .GOTO, Src.lineNo 10] ++ [opTok '\n'])), [], Demo.split_spec 40 (by decide +kernel), ?_, fun w hw => ?_⟩ .nil
    · exact .colon (.simple (.letKw (.num hN (by decide)
          (.conj (.not (.rel (.sum (.add (l := [.name ['N']]) (Demo.addVar hN (by decide)) (.neg (.power (.primary .num)))))))))))
        (.colon (.simple (.query (.value (l := [.name ['N']]) (Demo.orVar hN (by decide)) (by intro w hw; cases hw; decide +kernel) (by intro a ha; cases ha; decide) (.semicolon .nil))))
        (.last (.simple (.goto (by decide) (by decide)))))
    · have : w = ['N'] := by simpa [opTok, Src.kw, Src.lineNo] using hw
      subst this
      exact Demo.plainly_check (by decide +kernel)
  exact C62_forever_partial Demo.asks hl hasc h0 (by rw [hps]; exact hp) (Demo.endless_ready {}).fits (Demo.endless_ready {}).small
    (Demo.endless_ready {}).apart (fun k => Demo.endless_go _ k _ rfl (by show 0 < 3; decide)) hb hf

/-- The condition on names is needed: `TOTAL` is read as `TO`, `TAL`. -/
example : ¬ Plainly "TOTAL".toList := fun h => h [] "TO".toList "TAL".toList rfl "TO" .TO (by decide +kernel) (by decide +kernel)

namespace Demo

/-- The program as a function. -/
def crowdedProg : Prog := fun n => if n = 10 then some "B=2:FORI=ATOB:PRINTI;:NEXT".toList else none

theorem crowded_shows : _root_.Spec.Shows crowded crowdedProg := by
  refine ⟨by decide, fun n t => ?_⟩
  simp only [crowded, crowdedProg, List.mem_cons, Prod.mk.injEq, List.not_mem_nil, or_false]
  by_cases h1 : n = 10
  · subst h1; simp [eq_comm]
  · simp [h1]

theorem crowded_steps : squared [] " 0  1  2 ".toList []
    (Src.steps Demo.env loopProgram 100 (Src.start loopProgram { newVm false false false ⟨[], [], 0, 0⟩ with input := [] })) = true := by decide +kernel

theorem crowded_entered : (Typed.edit (.enter 10 "B=2:FORI=ATOB:PRINTI;:NEXT".toList)).apply emptyProg = crowdedProg := by
  funext n
  show (if n = 10 then _ else emptyProg n) = crowdedProg n
  unfold crowdedProg emptyProg
  rfl

/-- A dialogue in which the program without blanks is entered and run. -/
theorem crowded_talk (files : CStr → Option CStr) (can : CStr → Bool) : Talk Demo.env can ⟨emptyProg, none, files, 0, 0, [], true, false⟩
    "10 B=2:FORI=ATOB:PRINTI;:NEXT\nRUN\n".toList "> >  0  1  2 > ".toList := by
  have hb : Blanks [] := fun c hc => by cases hc
  obtain ⟨c, h1, h2, h3, h4, h5, h6⟩ := squared_spec crowded_steps
  have hr := Talk.run (can := can) (d := ⟨crowdedProg, none, files, 0, 0, [], true, false⟩) (line := "RUN".toList) (rest := []) (out := "> ".toList) (ps := crowded)
    ⟨⟨[], "RUN".toList, [], rfl, hb, by decide, by decide, by decide⟩, by decide⟩ crowded_shows crowded_lines loop_fits (by decide +kernel) loop_apart h1 (by intro h; cases h)
    (by intro h; cases h) (by rw [h2, h4, h5, h6]; exact .over _)
  rw [h3] at hr
  simp only [Src.Ending.message] at hr
  have he : Talk Demo.env can ⟨emptyProg, none, files, 0, 0, [], true, false⟩ _ _ :=
    .edit (.edit (.enter 10 "B=2:FORI=ATOB:PRINTI;:NEXT".toList)) (by unfold Typed.Fits; decide) (by decide) (by rw [crowded_entered]; exact hr)
  exact talk_as he (by decide +kernel) (by decide +kernel)

end Demo

/-- A dialogue with `-k`. -/
example : ∃ n0 t0, ∀ h : Host, h.ctx.env = Demo.env → (∀ k, h.ctx.brk k = false) → n0 ≤ h.ctx.fuel → t0 ≤ h.turns → h.files = (fun _ => none) → h.ctx.canWrite = (fun _ => true) →
    ∃ w', lbasic h ["-q".toList, "-k".toList] { stdin := "10 B=2:FORI=ATOB:PRINTI;:NEXT\nRUN\n".toList } = .ok (0, w') ∧ w'.out = "> >  0  1  2 > ".toList := by
  have ha : AsksTalk ["-q".toList, "-k".toList] := by
    refine ⟨?_, by decide, ?_, by decide⟩
    · intro a ha
      simp only [List.mem_cons, List.not_mem_nil, or_false] at ha
      rcases ha with rfl | rfl
      · exact .inr ⟨.quiet, by decide, by decide, by decide⟩
      · exact .inr ⟨.keywords, by decide, by decide, by decide⟩
    · intro a ha m
      simp only [List.mem_cons, List.not_mem_nil, or_false] at ha
      rcases ha with rfl | rfl <;> cases m <;> decide
  obtain ⟨n0, t0, hx⟩ := C59_dialogue_partial ha (any := true) (by decide) (w := { stdin := _ }) (Demo.crowded_talk (fun _ => none) (fun _ => true))
  refine ⟨n0, t0, fun h h1 h2 h4 h5 h6 h3 => ?_⟩
  obtain ⟨w', k1, k2⟩ := hx h h1 h2 h3 h6 h4 h5
  refine ⟨w', k1, ?_⟩
  have hr : report ["-q".toList, "-k".toList] h.memory = [] := if_neg (by decide)
  have hg : greeting ["-q".toList, "-k".toList] = [] := if_pos (by decide)
  rw [k2, hr, hg, List.append_nil]
  rfl

end LB
