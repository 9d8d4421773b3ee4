import Verif.Props.BatchModes
import Verif.Props.NameList
import Verif.Proofs.DemoSpell
/- C58: listing the names in a file named on the command line. -/
namespace LB
open LB.Spec _root_.Spec

/-- The name that a token is, if it is one. -/
def Spec.Lexeme.name? : Lexeme → Option CStr
  | .name w => some w
  | _ => none

/-- The names on a line, before any remark. -/
def Spec.LineNames (text : CStr) (ns : List CStr) : Prop :=
  ∃ l e r, Spells text (l ++ [e]) r ∧ (e = opTok '\n' ∨ e = .op (.kw .REM)) ∧ (∀ a ∈ l, Bare a ∧ a ≠ opTok '\n' ∧ a ≠ .op (.kw .REM)) ∧ ns = l.filterMap Lexeme.name?

/-- The names of functions the language has or reserves. -/
def Spec.functionNames : List String := ["ABS", "ASC", "ATN", "CHR$", "COS", "EXP", "FIX", "GET$", "HEX$", "INKEY$", "INT", "LEFT$", "LEN", "LOG", "MID$",
  "RIGHT$", "RND", "SGN", "SIN", "SPACE$", "SQR", "STR$", "TAN", "TIME$", "USR", "VAL"]

/-- How a name is shown: flagged if it is that of a function or of an operator of PRINT. -/
def Spec.flagged (name : CStr) : CStr :=
  (if ∃ f ∈ functionNames, SameIgnoringCase f.toList name then '*'
    else if SameIgnoringCase "SPC".toList name ∨ SameIgnoringCase "TAB".toList name then '=' else ' ') :: ' ' :: name ++ ['\n']

theorem spells_marks {r : CStr} {l : List Lexeme} {r' : CStr} (h : Spells r l r') : ∀ a ∈ l, a ≠ .op .id := by
  induction h with
  | done => intro a ha; cases ha
  | eol => intro a ha; simp only [List.mem_singleton] at ha; subst ha; decide
  | dataLast => intro a ha; simp only [List.mem_cons, List.not_mem_nil, or_false] at ha; rcases ha with rfl | rfl <;> intro h <;> cases h
  | dataColon _ _ _ _ _ _ ih =>
    intro a ha; simp only [List.mem_cons] at ha
    rcases ha with rfl | rfl | ha
    · intro h; cases h
    · intro h; cases h
    · exact ih a ha
  | num _ _ _ _ _ ih | name _ _ _ _ _ _ _ ih | keyword _ _ _ _ _ _ ih | str _ _ _ _ ih | sign _ _ _ ih | less _ _ _ _ _ ih | greater _ _ _ _ ih
  | ne _ _ ih | le _ _ ih | ge _ _ ih =>
    intro a ha; simp only [List.mem_cons] at ha
    rcases ha with rfl | ha
    · intro h; cases h
    · exact ih a ha

/-- A token that neither ends the line nor begins a remark. -/
def Inside (a : Lexeme) : Prop := Bare a ∧ a ≠ opTok '\n' ∧ a ≠ .op (.kw .REM) ∧ a ≠ .op .id

theorem current_token {lex : Lex} {a : Lexeme} (h : Spec.Current lex a) (hi : Inside a) :
    ¬ (lex.token = .ch '\n' ∨ lex.token = .kw .REM) ∧ ∀ ns : List CStr, (if lex.token = .id then lex.word :: ns else ns) = (a.name?.toList ++ ns) := by
  obtain ⟨hb, ha, hr, hd⟩ := hi
  cases a with
  | num x => simp [Spec.Current] at h; simp [h.1, Lexeme.name?]
  | str x => simp [Spec.Current] at h; simp [h.1, Lexeme.name?]
  | name x => simp [Spec.Current] at h; simp [h.1, h.2, Lexeme.name?]
  | data x => exact absurd rfl (hb x)
  | op t =>
    simp only [Spec.Current] at h
    subst h
    refine ⟨fun h => ?_, fun ns => ?_⟩
    · rcases h with h | h
      · rw [h] at ha; exact ha rfl
      · rw [h] at hr; exact hr rfl
    · rw [if_neg (fun h => hd (by rw [h]))]; rfl

theorem next_within {txt : CStr} {lex lex' : Lex} {t : Tok} (h : lexNext lex = .ok (t, lex')) (hw : LB.Within txt false 0 lex) : LB.Within txt false 0 lex' := by
  have := lexNext_tame hw
  rw [h] at this
  exact this.1.mono (Nat.zero_le _)

theorem namesOnLine_lexes {txt : CStr} {e : Lexeme} (he : e = opTok '\n' ∨ e = .op (.kw .REM)) : ∀ (l : List Lexeme) {a : Lexeme} {lex lex' : Lex} {n : Nat}, l.length + 1 < n →
    Inside a → (∀ b ∈ l, Inside b) → Spec.Current lex a → Lexes a lex (l ++ [e]) lex' → LB.Within txt false 0 lex →
    ∃ lex'', namesOnLine n lex.token lex = .ok (a.name?.toList ++ l.filterMap Lexeme.name?, lex'') ∧ LB.Within txt false 0 lex''
  | l, a, lex, lex', 0, hn, _, _, _, _, _ => absurd hn (by omega)
  | [], a, lex, lex', n + 1, hn, ha, _, hc, hx, hm => by
    obtain ⟨h1, h2⟩ := current_token hc ha
    generalize hg : [] ++ [e] = g at hx
    cases hx with
    | done => cases hg
    | @more _ _ b m t lex1 _ h3 h4 h5 =>
      simp only [List.nil_append, List.cons.injEq] at hg
      obtain ⟨rfl, rfl⟩ := hg
      rw [moves_bare ha.1] at h3
      have ht := lexNext_token h3
      have hend : t = .ch '\n' ∨ t = .kw .REM := by
        rcases he with rfl | rfl
        · exact .inl (ht.symm.trans h4)
        · exact .inr (ht.symm.trans h4)
      obtain ⟨n, rfl⟩ : ∃ k, n = k + 1 := ⟨n - 1, by simp only [List.length_nil] at hn; omega⟩
      refine ⟨lex1, ?_, next_within h3 hm⟩
      rw [namesOnLine, if_neg h1, h3]
      simp only [namesOnLine, if_pos hend]
      rw [h2]; rfl
  | b :: l, a, lex, lex', n + 1, hn, ha, hl, hc, hx, hm => by
    obtain ⟨h1, h2⟩ := current_token hc ha
    generalize hg : b :: l ++ [e] = g at hx
    cases hx with
    | done => cases hg
    | @more _ _ b' m t lex1 _ h3 h4 h5 =>
      simp only [List.cons_append, List.cons.injEq] at hg
      obtain ⟨rfl, rfl⟩ := hg
      rw [moves_bare ha.1] at h3
      have ht := lexNext_token h3
      obtain ⟨lex2, k1, k2⟩ := namesOnLine_lexes he l (n := n) (by simp only [List.length_cons] at hn; omega) (hl b List.mem_cons_self)
        (fun b hb => hl b (List.mem_cons_of_mem _ hb)) h4 h5 (next_within h3 hm)
      refine ⟨lex2, ?_, k2⟩
      rw [namesOnLine, if_neg h1, h3]
      simp only [← ht, k1]
      rw [h2]
      cases hb : b.name? <;> simp [hb]

theorem namesOnLine_line {text : CStr} {ns : List CStr} (h : LineNames text ns) {lex : Lex} (hm : lex.prefixes = false) (num : Nat) {n : Nat} (hn : text.length + 1 < n) :
    ∃ tok lex1 lex2, lexLine lex num text = .ok (tok, lex1) ∧ namesOnLine n tok lex1 = .ok (ns, lex2) ∧ lex2.prefixes = false := by
  obtain ⟨l, e, r, h1, he, hl, rfl⟩ := h
  have hid := spells_marks h1
  have hlen := spells_length h1
  simp only [List.length_append, List.length_cons, List.length_nil] at hlen
  obtain ⟨lex', k1, -, -, -⟩ := spells_lexes h1 (a := opTok ':') (lex := { lex with lineno := num, text := some text, pos := 0 }) (fun vs h => by cases h) hm
    ⟨text, rfl, Nat.zero_le _, rfl⟩
  have hm : LB.Within text false 0 { lex with lineno := num, text := some text, pos := 0 } := ⟨rfl, Nat.zero_le _, Nat.zero_le _, hm⟩
  have hin : ∀ b ∈ l, Inside b := fun b hb => ⟨(hl b hb).1, (hl b hb).2.1, (hl b hb).2.2, hid b (by simp [hb])⟩
  cases l with
  | nil =>
    generalize hg : [] ++ [e] = g at k1
    cases k1 with
    | done => cases hg
    | @more _ _ b m t lex1 _ h3 h4 h5 =>
      simp only [List.nil_append, List.cons.injEq] at hg
      obtain ⟨rfl, rfl⟩ := hg
      rw [moves_bare (fun vs h => by cases h)] at h3
      have ht := lexNext_token h3
      have hend : t = .ch '\n' ∨ t = .kw .REM := by
        rcases he with rfl | rfl
        · exact .inl (ht.symm.trans h4)
        · exact .inr (ht.symm.trans h4)
      obtain ⟨n, rfl⟩ : ∃ k, n = k + 1 := ⟨n - 1, by omega⟩
      exact ⟨t, lex1, lex1, h3, by simp only [namesOnLine, if_pos hend]; rfl, (next_within h3 hm).mode⟩
  | cons b l =>
    generalize hg : b :: l ++ [e] = g at k1
    cases k1 with
    | done => cases hg
    | @more _ _ b' m t lex1 _ h3 h4 h5 =>
      simp only [List.cons_append, List.cons.injEq] at hg
      obtain ⟨rfl, rfl⟩ := hg
      rw [moves_bare (fun vs h => by cases h)] at h3
      have ht := lexNext_token h3
      obtain ⟨lex2, j1, j2⟩ := namesOnLine_lexes he l (n := n) (by simp only [List.length_cons] at hlen; omega) (hin b List.mem_cons_self)
        (fun b hb => hin b (List.mem_cons_of_mem _ hb)) h4 h5 (next_within h3 hm)
      refine ⟨t, lex1, lex2, h3, ?_, j2.mode⟩
      rw [← ht, j1]
      cases hb : b.name? <;> simp [hb]

theorem namesInLines_listing {ps : List (Nat × CStr)} {ns : Nat × CStr → List CStr} (h : ∀ p ∈ ps, LineNames p.2 (ns p)) {n : Nat}
    (hn : ∀ p ∈ ps, p.2.length + 1 < n) : ∀ {lex : Lex}, lex.prefixes = false → namesInLines n (linesOf ps) lex = .ok (ps.flatMap ns) := by
  induction ps with
  | nil => intro lex _; rfl
  | cons p ps ih =>
    intro lex hm
    obtain ⟨tok, lex1, lex2, h1, h2, h3⟩ := namesOnLine_line (h p List.mem_cons_self) hm p.1 (hn p List.mem_cons_self)
    show namesInLines n (⟨p.1, p.2⟩ :: linesOf ps) lex = _
    simp only [namesInLines, h1, h2, ih (fun p hp => h p (List.mem_cons_of_mem _ hp)) (fun p hp => hn p (List.mem_cons_of_mem _ hp)) h3]
    rfl

theorem builtin_known (name : CStr) : (builtin name).isSome = true ↔ ∃ f ∈ functionNames, SameIgnoringCase f.toList name := by
  unfold builtin
  rw [List.find?_isSome]
  have h : functionNames.map String.toList = builtins.map (·.name) := by decide
  constructor
  · rintro ⟨b, hb, he⟩
    have : b.name ∈ functionNames.map String.toList := by rw [h]; exact List.mem_map_of_mem hb
    obtain ⟨f, hf, e⟩ := List.mem_map.1 this
    exact ⟨f, hf, by rw [e]; exact (strcasecmp_eq_zero_iff _ _).1 (by simpa using he)⟩
  · rintro ⟨f, hf, he⟩
    have : f.toList ∈ builtins.map (·.name) := by rw [← h]; exact List.mem_map_of_mem hf
    obtain ⟨b, hb, e⟩ := List.mem_map.1 this
    exact ⟨b, hb, by rw [e]; simpa using (strcasecmp_eq_zero_iff _ _).2 he⟩

theorem printName_flagged (name : CStr) : printName name = flagged name := by
  unfold printName flagged nameIsPrintBuiltin
  congr 1
  by_cases h : ∃ f ∈ functionNames, SameIgnoringCase f.toList name
  · rw [if_pos h, if_pos ((builtin_known name).2 h)]
  · rw [if_neg h, if_neg (fun hb => h ((builtin_known name).1 hb))]
    have e : ∀ s : CStr, (strcasecmp name s == 0) = true ↔ SameIgnoringCase s name := by
      intro s
      rw [beq_iff_eq, strcasecmp_eq_zero_iff]
      exact ⟨fun h => h.symm, fun h => h.symm⟩
    simp only [Bool.or_eq_true, e]

theorem listing_short {text : CStr} {ps : List (Nat × CStr)} (hl : Listing text ps) : ∀ p ∈ ps, p.2.length ≤ 253 := by
  induction hl with
  | nil => intro p hp; cases hp
  | cons hw _ ih =>
    intro p hp
    rcases List.mem_cons.1 hp with rfl | hp
    · obtain ⟨ds, sep, rfl, hne, -, -, -, -, -, hlen⟩ := hw
      simp only [List.length_append] at hlen
      have : ds.length ≠ 0 := fun h => hne (List.length_eq_zero_iff.1 h)
      simp only
      omega
    · exact ih p hp

/-- C58.  `--list-names` shows the names on the lines of the file: in dictionary order, ignoring case, each once, with the
names of functions and of `SPC` and `TAB` flagged. -/
theorem C58_names {args : List CStr} {f text : CStr} (ha : Wants args f .listNames) (hk : ∀ a ∈ args, ¬ Says a .keywords)
    {ps : List (Nat × CStr)} (hl : Listing text ps) (hasc : Ascending (ps.map (·.1))) (h0 : ∀ n t, (n, t) ∈ ps → n ≠ 0)
    {ns : Nat × CStr → List CStr} (hn : ∀ p ∈ ps, LineNames p.2 (ns p)) (h : Host) (hf : h.files f = some text)
    (hfuel : 256 ≤ h.ctx.fuel) (w : World) :
    ∃ (w' : World) (names : List CStr), lbasic h args w = .ok (0, w') ∧ w'.stdin = w.stdin ∧
      w'.out = w.out ++ banner args ++ (names.map flagged).flatten ++ report args h.memory ∧
      names.Pairwise Precedes ∧ names.Pairwise (fun a b => ¬ SameIgnoringCase a b) ∧
      (∀ x ∈ names, ∃ p ∈ ps, x ∈ ns p) ∧ ∀ p ∈ ps, ∀ s ∈ ns p, ∃ x ∈ names, SameIgnoringCase x s := by
  obtain ⟨opt, h1, h2, h3⟩ := lbasic_wants h w ha
  have hkw : opt.keywordsAnywhere = false := by
    cases hx : opt.keywordsAnywhere with
    | false => rfl
    | true => obtain ⟨a, b, c⟩ := h1.keywords.1 hx; exact absurd c (hk a b)
  have hlen : ∀ p ∈ ps, p.2.length + 1 < h.ctx.fuel := by
    intro p hp
    have := listing_short hl p hp
    omega
  have hns := namesInLines_listing hn hlen (lex := newLex false) rfl
  obtain ⟨c1, c2, c3, c4⟩ := C16_names_sorted_unique (ps.flatMap ns)
  refine ⟨(((seeded h.ctx.env w (seedings args)).put (banner args)).put ((uniqueStrings (ps.flatMap ns)).map flagged).flatten).put (report args h.memory),
    uniqueStrings (ps.flatMap ns), ?_, (seeded_frame _ _ _).2, ?_, c1, c4, ?_, ?_⟩
  · rw [h3, processFile, h2, hf, load_listing hl hasc h0]
    simp only [hkw, listNames, hns, funext printName_flagged]
  · simp only [World.put, (seeded_frame _ _ _).1]
  · intro x hx; obtain ⟨p, h1, h2⟩ := List.mem_flatMap.1 (c2 x hx); exact ⟨p, h1, h2⟩
  · intro p hp s hs; exact c3 s (List.mem_flatMap.2 ⟨p, hp, hs⟩)

theorem Demo.small_names : ∀ p ∈ smallLines, LineNames p.2 (if p.1 = 10 then ["I".toList, "I".toList, "TAB".toList, "left$".toList, "a$".toList] else ["i".toList]) := by
  intro p hp
  simp only [smallLines, List.mem_cons, List.not_mem_nil, or_false] at hp
  rcases hp with rfl | rfl
  · have h : split 100 "FOR I=1 TO 3:PRINT I;TAB(5);left$(a$,2)".toList = some ([.op (.kw .FOR), .name "I".toList, opTok '=', .num (.fin 1), .op (.kw .TO), .num (.fin 3), opTok ':',
        .op (.kw .PRINT), .name "I".toList, opTok ';', .name "TAB".toList, opTok '(', .num (.fin 5), opTok ')', opTok ';', .name "left$".toList, opTok '(',
        .name "a$".toList, opTok ',', .num (.fin 2), opTok ')'] ++ [opTok '\n'], []) := by decide +kernel
    exact ⟨_, _, _, split_spec _ h, .inl rfl, by simp [opTok, Bare], rfl⟩
  · have h : split 100 "NEXT i".toList = some ([.op (.kw .NEXT), .name "i".toList] ++ [opTok '\n'], []) := by decide +kernel
    exact ⟨_, _, _, split_spec _ h, .inl rfl, by simp [opTok, Bare], rfl⟩

example : ∃ (w' : World) (names : List CStr), lbasic { Demo.smallHost with ctx := { Demo.ctx with fuel := 300 } } (Demo.smallArgs "-n") {} = .ok (0, w') ∧ w'.out = (names.map flagged).flatten ∧
    (∃ x ∈ names, SameIgnoringCase x "TAB".toList) ∧ flagged "TAB".toList = "= TAB\n".toList ∧ flagged "left$".toList = "* left$\n".toList := by
  obtain ⟨w', names, h1, -, h2, -, -, -, h3⟩ := C58_names (Demo.smallWants (a := "-n") (by decide)) (by decide) Demo.small_listing.1 Demo.small_listing.2.1 Demo.small_listing.2.2
    Demo.small_names { Demo.smallHost with ctx := { Demo.ctx with fuel := 300 } } (by decide) (by decide) {}
  have hr : report (Demo.smallArgs "-n") Demo.smallHost.memory = [] := if_neg (by decide)
  have hbn : banner (Demo.smallArgs "-n") = [] := if_pos (by decide)
  refine ⟨w', names, h1, ?_, h3 _ List.mem_cons_self "TAB".toList (by decide), by decide, by decide⟩
  rw [h2, hbn]
  have hr : report (Demo.smallArgs "-n") ({ Demo.smallHost with ctx := { Demo.ctx with fuel := 300 } } : Host).memory = [] := hr
  rw [hr]; simp

theorem namesOnLine_ends {t : CStr} {pre : Bool} : ∀ {n : Nat} {lex : Lex} {tok : Tok}, LB.Within t pre 0 lex → (tok = .ch '\n' ∨ t.length - lex.pos + 1 < n) → 0 < n →
    (∃ ns lex', namesOnLine n tok lex = .ok (ns, lex') ∧ lex'.prefixes = pre) ∨ namesOnLine n tok lex = .halt (.exit "invalid character on line")
  | 0, _, _, _, _, h => absurd h (by omega)
  | n + 1, lex, tok, hw, hn, _ => by
    rw [namesOnLine]
    by_cases he : tok = .ch '\n' ∨ tok = .kw .REM
    · rw [if_pos he]; exact .inl ⟨_, _, rfl, hw.mode⟩
    · rw [if_neg he]
      have hn : t.length - lex.pos + 1 < n + 1 := hn.resolve_left (fun h => he (.inl h))
      have ht := lexNext_tame hw
      cases hx : lexNext lex with
      | halt e => rw [hx] at ht; exact .inr (by rw [ht.1])
      | ok r =>
        obtain ⟨tok', lex'⟩ := r
        rw [hx] at ht
        obtain ⟨h1, h2, h3⟩ := ht
        have hle := hw.le
        have hle' : lex'.pos ≤ t.length := h1.le
        rcases namesOnLine_ends (n := n) (tok := tok') (h1.mono (Nat.zero_le _)) (by
            by_cases hp : lex.pos = t.length
            · exact .inl (h3 hp).1
            · have : lex.pos < lex'.pos := h2 (by omega)
              exact .inr (by omega)) (by omega) with ⟨ns, l, h4, h5⟩ | h4
        · simp only [h4]; exact .inl ⟨_, _, rfl, h5⟩
        · simp only [h4]; exact .inr trivial

theorem namesInLines_ends {n : Nat} {pre : Bool} : ∀ {ls : List SrcLine} {lex : Lex}, (∀ l ∈ ls, l.text.length + 1 < n) → lex.prefixes = pre →
    (∃ ns, namesInLines n ls lex = .ok ns) ∨ namesInLines n ls lex = .halt (.exit "invalid character on line")
  | [], _, _, _ => .inl ⟨_, rfl⟩
  | l :: ls, lex, hn, hm => by
    have hl := hn l List.mem_cons_self
    have ht := lexNext_tame (t := l.text) (pre := pre) (p := 0) (lex := { lex with lineno := l.num, text := some l.text, pos := 0 }) ⟨rfl, Nat.zero_le _, Nat.zero_le _, hm⟩
    simp only [namesInLines, lexLine]
    cases hx : lexNext { lex with lineno := l.num, text := some l.text, pos := 0 } with
    | halt e => rw [hx] at ht; exact .inr (by rw [ht.1])
    | ok r =>
      obtain ⟨tok, lex1⟩ := r
      rw [hx] at ht
      rcases namesOnLine_ends (n := n) (tok := tok) (ht.1.mono (Nat.zero_le _)) (.inr (by omega)) (by omega) with ⟨ns, l2, h4, h5⟩ | h4
      · rcases namesInLines_ends (ls := ls) (lex := l2) (fun l hl => hn l (List.mem_cons_of_mem _ hl)) h5 with ⟨ms, h6⟩ | h6
        · simp only [h4, h6]; exact .inl ⟨_, rfl⟩
        · simp only [h4, h6]; exact .inr trivial
      · simp only [h4]; exact .inr trivial

/-- C58.  Listing names ends on every file, whatever its lines contain: with the list, or with a message about a character
that no line may contain. -/
theorem C58_names_ends {args : List CStr} {f text : CStr} (ha : Wants args f .listNames) {ps : List (Nat × CStr)} (hl : Listing text ps)
    (hasc : Ascending (ps.map (·.1))) (h0 : ∀ n t, (n, t) ∈ ps → n ≠ 0) (h : Host) (hf : h.files f = some text) (hfuel : 256 ≤ h.ctx.fuel) (w : World) :
    (∃ w', lbasic h args w = .ok (0, w') ∧ w'.stdin = w.stdin) ∨ lbasic h args w = .halt (.exit "invalid character on line") := by
  obtain ⟨opt, h1, h2, h3⟩ := lbasic_wants h w ha
  rw [h3, processFile, h2, hf, load_listing hl hasc h0]
  rcases namesInLines_ends (n := h.ctx.fuel) (pre := opt.keywordsAnywhere) (ls := linesOf ps) (lex := newLex opt.keywordsAnywhere) (by
    intro l hm
    simp only [linesOf, List.mem_map] at hm
    obtain ⟨p, hp, rfl⟩ := hm
    have := listing_short hl p hp
    simp only
    omega) rfl with ⟨ns, h4⟩ | h4
  · simp only [listNames, h4]; exact .inl ⟨_, rfl, (seeded_frame _ _ _).2⟩
  · simp only [listNames, h4]; exact .inr trivial

example : (∃ w', lbasic { Demo.smallHost with ctx := { Demo.ctx with fuel := 300 } } (Demo.smallArgs "-n") {} = .ok (0, w') ∧ w'.stdin = []) ∨
    lbasic { Demo.smallHost with ctx := { Demo.ctx with fuel := 300 } } (Demo.smallArgs "-n") {} = .halt (.exit "invalid character on line") :=
  C58_names_ends (Demo.smallWants (a := "-n") (by decide)) Demo.small_listing.1 Demo.small_listing.2.1 Demo.small_listing.2.2 _ (by decide) (by decide) {}

end LB
