import Verif.Proofs.Items
import Verif.Props.Keywords
/- C09, C10, C11, C51: what the lexer reads. -/
namespace LB
open LB.Spec _root_.Spec

/-- A lexer about to read the line `t`. -/
def lexerAt (t : String) (anywhere : Bool) : Lex := { newLex anywhere with text := some t.toList }

theorem lexerAt_left (t : String) (a : Bool) : Left (lexerAt t a) t.toList := ⟨_, rfl, Nat.zero_le _, rfl⟩

/-- C09.  Wherever the lexer stands in a line, reading a token either ends the program because the line holds a byte that
is not ASCII, or succeeds: the word fits its buffer, the position stays inside the line and moves strictly forward, except at
the end of the line where the end-of-line token is read again and again. -/
theorem C09_next {lex : Lex} {t : CStr} (ht : lex.text = some t) (hp : lex.pos ≤ t.length) (hw : lex.word.length ≤ 127) :
    (∃ tok lex', lexNext lex = .ok (tok, lex') ∧ lex'.text = some t ∧ lex'.prefixes = lex.prefixes ∧ lex'.word.length ≤ 127 ∧
      lex'.pos ≤ t.length ∧ (lex.pos < t.length → lex.pos < lex'.pos) ∧
      (lex.pos = t.length → tok = .ch '\n' ∧ lex'.pos = t.length)) ∨
    (lexNext lex = .halt (.exit "invalid character on line") ∧ ∃ c ∈ t, c.toNat ≠ 255 ∧ 127 ≤ c.toNat) := by
  have h : Within t lex.prefixes lex.pos lex := ⟨ht, hp, Nat.le_refl _, rfl⟩
  have := lexNext_tame h
  cases hn : lexNext lex with
  | halt e =>
    rw [hn] at this
    obtain ⟨rfl, h2⟩ := this
    exact .inr ⟨rfl, h2⟩
  | ok r =>
    rw [hn] at this
    obtain ⟨h1, h2, h3⟩ := this
    have hf := lexNext_fits (t := r.1) (lex' := r.2) hn (by unfold Lex.Fits maxWord; omega)
    unfold Lex.Fits maxWord at hf
    exact .inl ⟨r.1, r.2, rfl, h1.text, h1.mode, by omega, h1.le, h2, fun e => ⟨(h3 e).1, by rw [(h3 e).2, e]⟩⟩

example : ∃ lex t, (lex : Lex).text = some t ∧ lex.pos ≤ t.length ∧ lex.word.length ≤ 127 ∧ lex.pos < t.length :=
  ⟨lexerAt "PRINT A" false, _, rfl, Nat.zero_le _, by decide, by decide⟩

/-- C09.  Reading an item of `DATA` stays inside the line and the word buffer; it ends the program only for a byte that is
not ASCII, a text of more than 127 characters or a missing closing quote. -/
theorem C09_data {lex : Lex} {t : CStr} (ht : lex.text = some t) (hp : lex.pos ≤ t.length) :
    (∃ w lex', lexNextData lex = .ok (w, lex') ∧ lex'.text = some t ∧ w.length ≤ 127 ∧ lex.pos ≤ lex'.pos ∧ lex'.pos ≤ t.length) ∨
    (lexNextData lex = .halt (.exit "invalid character on line") ∧ ∃ c ∈ t, c.toNat ≠ 255 ∧ 127 ≤ c.toNat) ∨
    (lexNextData lex = .halt (.exit "a string is too long") ∧ '"' ∈ t ∧ 128 ≤ t.length) ∨
    (lexNextData lex = .halt (.exit "unterminated string") ∧ '"' ∈ t) ∨
    (lexNextData lex = .halt (.exit "data is too long") ∧ 128 ≤ t.length) := by
  have h : Within t lex.prefixes lex.pos lex := ⟨ht, hp, Nat.le_refl _, rfl⟩
  have := lexNextData_tame h
  cases hn : lexNextData lex with
  | halt e =>
    rw [hn] at this
    rcases this with ⟨rfl, h2⟩ | ⟨rfl, h2, h3⟩ | ⟨rfl, h2⟩ | ⟨rfl, h2⟩
    · exact .inr (.inl ⟨rfl, h2⟩)
    · exact .inr (.inr (.inl ⟨rfl, h2, h3⟩))
    · exact .inr (.inr (.inr (.inl ⟨rfl, h2⟩)))
    · exact .inr (.inr (.inr (.inr ⟨rfl, h2⟩)))
  | ok r =>
    rw [hn] at this
    have hf := (lexNextData_fits (w := r.1) (lex' := r.2) hn).2
    unfold maxWord at hf
    exact .inl ⟨r.1, r.2, rfl, this.text, by omega, this.ge, this.le⟩

/-- `toks` are read one after another. -/
inductive Reads : Lex → List Tok → Lex → Prop
  | done {lex} : Reads lex [] lex
  | read {lex lex' lex'' tok toks} : lexNext lex = .ok (tok, lex') → Reads lex' toks lex'' → Reads lex (tok :: toks) lex''

/-- C09.  Every line is used up by reading at most as many tokens as it has characters, unless a byte that is not ASCII ends
the program before. -/
theorem C09_terminates {lex : Lex} {t : CStr} (ht : lex.text = some t) (hp : lex.pos ≤ t.length) (hw : lex.word.length ≤ 127) :
    ∃ toks lex', toks.length ≤ t.length - lex.pos ∧ Reads lex toks lex' ∧
      ((∃ lex'', lexNext lex' = .ok (.ch '\n', lex'') ∧ lex'.pos = t.length ∧ lex''.pos = t.length) ∨
        (lexNext lex' = .halt (.exit "invalid character on line") ∧ ∃ c ∈ t, c.toNat ≠ 255 ∧ 127 ≤ c.toNat)) := by
  generalize hk : t.length - lex.pos = k
  induction k using Nat.strongRecOn generalizing lex with
  | _ k ih =>
    rcases C09_next ht hp hw with ⟨tok, lex', h1, h2, h3, h4, h5, h6, h7⟩ | hbad
    · by_cases he : lex.pos = t.length
      · obtain ⟨rfl, h8⟩ := h7 he
        exact ⟨[], lex, Nat.zero_le _, .done, .inl ⟨lex', h1, he, h8⟩⟩
      · have hlt := h6 (by omega)
        obtain ⟨toks, l, r1, r2, r3⟩ := ih (t.length - lex'.pos) (by omega) h2 h5 h4 rfl
        exact ⟨tok :: toks, l, by simp only [List.length_cons]; omega, .read h1 r2, r3⟩
    · exact ⟨[], lex, Nat.zero_le _, .done, .inr hbad⟩

/-- C10.  A name of at most 126 characters is read whole, with its dollar sign, whatever follows, and the token is a name
unless it is a reserved word. -/
theorem C10_name {lex : Lex} {b w r : CStr} (hm : lex.prefixes = false) (h : Left lex (b ++ w ++ r)) (hb : Space b) (hw : Name w)
    (hr : NameEnds w r) (hl : w.length ≤ 126) (hk : ∀ v k, (v, k) ∈ reservedWords → ¬ SameIgnoringCase v.toList w) :
    ∃ lex', lexNext lex = .ok (.id, lex') ∧ lex'.word = w ∧ Left lex' r := by
  rw [next_name hm h hb hw hr hl, (C07_otherwise_name w).2 hk]
  exact ⟨_, rfl, rfl, moved_left h (by simp)⟩

example : ∃ lex', lexNext (lexerAt " count2$(I)" false) = .ok (.id, lex') ∧ lex'.word = "count2$".toList ∧ Left lex' "(I)".toList :=
  C10_name (b := [' ']) rfl (lexerAt_left _ _) (by decide) ⟨'c', "ount2".toList, ['$'], rfl, by decide, by decide, .inr rfl⟩
    ⟨by intro c hc; cases hc; decide, .inl (by decide)⟩ (by decide)
    (by
      have key : ∀ p ∈ reservedWords, ¬ SameIgnoringCase p.1.toList "count2$".toList := by decide
      exact fun v k h => key (v, k) h)

/-- C10.  A reserved word is read whole and denotes its keyword. -/
theorem C10_keyword {lex : Lex} {b w r : CStr} {v : String} {k : Kw} (hm : lex.prefixes = false) (h : Left lex (b ++ w ++ r)) (hb : Space b)
    (hw : Name w) (hr : NameEnds w r) (hk : (v, k) ∈ reservedWords) (hs : SameIgnoringCase v.toList w) :
    ∃ lex', lexNext lex = .ok (.kw k, lex') ∧ Left lex' r := by
  have hlen : w.length ≤ 126 := by
    have h1 := congrArg List.length hs
    simp only [List.length_map] at h1
    have h2 : ∀ p ∈ reservedWords, p.1.toList.length ≤ 126 := by decide
    have := h2 _ hk
    simp only at this
    omega
  rw [next_name hm h hb hw hr hlen, (C07_keyword_iff w k).2 ⟨v, hk, hs⟩]
  exact ⟨_, rfl, moved_left h (by simp)⟩

example : ∃ lex', lexNext (lexerAt "print:" false) = .ok (.kw .PRINT, lex') ∧ Left lex' ":".toList :=
  C10_keyword (b := []) (v := "PRINT") rfl (lexerAt_left _ _) (by decide) ⟨'p', "rint".toList, [], rfl, by decide, by decide, .inl rfl⟩
    ⟨by intro c hc; cases hc; decide, .inr (by intro c hc; cases hc; decide)⟩ (by decide) (by decide)

/-- Some reserved word begins the text. -/
def StartsReserved (s : CStr) : Prop := ∃ v k, (v, k) ∈ reservedWords ∧ SameIgnoringCase v.toList (s.take v.toList.length)

instance (s : CStr) : Decidable (StartsReserved s) :=
  decidable_of_iff (∃ p ∈ reservedWords, SameIgnoringCase p.1.toList (s.take p.1.toList.length))
    ⟨fun ⟨p, h1, h2⟩ => ⟨p.1, p.2, h1, h2⟩, fun ⟨v, k, h1, h2⟩ => ⟨(v, k), h1, h2⟩⟩

theorem keywordPrefix_none {s : CStr} (h : ¬ StartsReserved s) : keywordPrefix s = none := by
  cases hk : keywordPrefix s with
  | none => rfl
  | some w =>
    obtain ⟨v, h1, h2⟩ := (C08_prefix_iff s w.token).1 ⟨w, hk, rfl⟩
    exact absurd ⟨v, _, h1, h2⟩ h

/-- C10.  When keywords are recognised anywhere, a name reaches up to the next reserved word or to a character that is
neither a letter nor a digit, where a dollar sign is included. -/
theorem C10_name_anywhere {lex : Lex} {b x r : CStr} {c : Char} (hm : lex.prefixes = true) (h : Left lex (b ++ (c :: (x ++ r)))) (hb : Space b)
    (hc : c.isAlpha = true) (hx : ∀ d ∈ x, d.isAlphanum = true) (hcl : Clean r)
    (hk : ∀ p d q, c :: x = p ++ d :: q → d.isAlpha = true → ¬ StartsReserved (d :: q ++ r))
    (hr : (∀ d, r.head? = some d → d.isAlphanum = false) ∨ (∃ d, r.head? = some d ∧ d.isAlpha = true ∧ StartsReserved r)) (hl : x.length ≤ 125) :
    ∃ lex', lexNext lex = .ok (.id, lex') ∧
      if r.head? = some '$' then lex'.word = c :: x ++ ['$'] ∧ Left lex' r.tail else lex'.word = c :: x ∧ Left lex' r := by
  have h1 := next_anywhere (lex := lex) (bs := b) (x := x) (r := r) (c := c) hm h (space_blank hb) (by rw [isalpha_eq]; exact hc)
    (fun d hd => by rw [isalnum_eq]; exact hx d hd) hcl
    (fun p d q e hd => keywordPrefix_none (hk p d q e (by rw [← isalpha_eq]; exact hd)))
    (by
      rcases hr with hr | ⟨d, hd, ha, v, k, hs⟩
      · left
        cases r with
        | nil => rfl
        | cons d r => rw [headCh_cons]; simp only [testCh]; rw [isalnum_eq]; exact hr d rfl
      · right
        cases r with
        | nil => cases hd
        | cons e r =>
          cases hd
          rw [headCh_cons]
          simp only [testCh]
          rw [isalpha_eq]
          obtain ⟨w, hw, _⟩ := (C08_prefix_iff (d :: r) k).2 ⟨v, hs⟩
          exact ⟨ha, by rw [hw]; rfl⟩) hl
  rw [h1]
  by_cases hd : r.head? = some '$'
  · simp only [if_pos hd]
    refine ⟨_, rfl, rfl, ?_⟩
    cases r with
    | nil => cases hd
    | cons d r =>
      cases hd
      have h2 : Left lex ((b ++ (c :: x ++ ['$'])) ++ r) := by simpa using h
      exact moved_left h2 (by simp only [List.length_append, List.length_cons, List.length_nil]; omega)
  · simp only [if_neg hd]
    have h2 : Left lex ((b ++ (c :: x)) ++ r) := by simpa using h
    exact ⟨_, rfl, rfl, moved_left h2 (by simp only [List.length_append, List.length_cons]; omega)⟩

example : ∃ lex', lexNext (lexerAt "COUNTTO7" true) = .ok (.id, lex') ∧ lex'.word = "COUNT".toList ∧ Left lex' "TO7".toList := by
  obtain ⟨lex', h1, h2⟩ := C10_name_anywhere (lex := lexerAt "COUNTTO7" true) (b := []) (x := "OUNT".toList) (r := "TO7".toList) (c := 'C') rfl
    (lexerAt_left _ _) (by decide) (by decide) (by decide) (by intro c hc; cases hc; decide)
    (by
      intro p d q e _
      have key : ∀ i : Fin 5, ¬ StartsReserved (("COUNT".toList).drop i ++ "TO7".toList) := by decide
      have hl := congrArg List.length e
      have e2 : "COUNT".toList.drop p.length = d :: q := by
        have : "COUNT".toList = p ++ d :: q := e
        rw [this]; simp
      have hp : p.length < 5 := by
        simp only [List.length_append, List.length_cons] at hl
        have : "OUNT".toList.length = 4 := by decide
        omega
      have := key ⟨p.length, hp⟩
      simp only at this
      rwa [e2] at this)
    (.inr ⟨'T', rfl, by decide, by decide⟩) (by decide)
  exact ⟨lex', h1, h2⟩

/-- C10.  A literal of at most 127 characters denotes the characters between its quotes, whatever follows. -/
theorem C10_string {lex : Lex} {b s r : CStr} (h : Left lex (b ++ '"' :: (s ++ '"' :: r))) (hb : Space b) (hs : Quotable s) (hl : s.length ≤ 127) :
    ∃ lex', lexNext lex = .ok (.str, lex') ∧ lex'.word = s ∧ Left lex' r := by
  have := next_string h (space_blank hb) hs.1 hs.2 hl
  rw [this]
  have h2 : Left lex ((b ++ ('"' :: (s ++ ['"']))) ++ r) := by simpa using h
  exact ⟨_, rfl, rfl, moved_left h2 (by simp only [List.length_append, List.length_cons, List.length_nil]; omega)⟩

example : ∃ lex', lexNext (lexerAt " \"REM: a,b\";X" true) = .ok (.str, lex') ∧ lex'.word = "REM: a,b".toList ∧ Left lex' ";X".toList :=
  C10_string (b := [' ']) (lexerAt_left _ _) (by decide) ⟨by decide, by decide⟩ (by decide)

/-- C10.  A longer literal is an error, never a shortened string. -/
theorem C10_string_long {lex : Lex} {b s r : CStr} (h : Left lex (b ++ '"' :: (s ++ r))) (hb : Space b) (hs : Quotable s) (hl : 127 < s.length) :
    ∃ lex', lexNext lex = .ok (.error, lex') := next_string_long h hb hs hl

example : ∃ lex', lexNext { lexerAt "" false with text := some ('"' :: (List.replicate 128 'x' ++ ['"'])) } = .ok (.error, lex') :=
  C10_string_long (b := []) (s := List.replicate 128 'x') (r := ['"']) ⟨_, rfl, Nat.zero_le _, rfl⟩ (by decide)
    ⟨fun c hc => by rw [List.eq_of_mem_replicate hc]; decide, fun hc => absurd (List.eq_of_mem_replicate hc) (by decide)⟩ (by rw [List.length_replicate]; decide)

/-- C11.  One item of `DATA` yields its value: for an item in quotes exactly the characters between the quotes, for
another item its characters without the blanks around it. -/
theorem C11_item {lex : Lex} {t v r : CStr} (h : Left lex (t ++ r)) (hi : DataItem t v) (hr : Clean r)
    (hh : r.head? = none ∨ r.head? = some ',' ∨ r.head? = some ':') :
    ∃ lex' b, lexNextData lex = .ok (v, lex') ∧ Space b ∧ Left lex' (b ++ r) := by
  obtain ⟨l, b, h1, h2, h3, _⟩ := next_item h hi hr hh
  exact ⟨l, b, h1, h2, h3⟩

/-- C11.  What follows `DATA`, items separated by commas up to a colon or the end of the line, compiles to the values of
the items in order. -/
theorem C11_statement {p : Parser} {i : CStr × CStr} {items : List (CStr × CStr)} {r : CStr} (hi : ∀ j ∈ i :: items, DataItem j.1 j.2)
    (hr : r = [] ∨ ∃ r', r = ':' :: r') (h : Left p.lex (i.1 ++ (items.flatMap (fun j => ',' :: j.1) ++ r))) :
    ∃ p', P.dataStatement p = .ok () p' ∧ p'.bcode.inst = p.bcode.inst ++ (i :: items).map (fun j => Inst.data j.2) ∧ p'.st = p.st ∧
      p'.lex.token = (if r = [] then .ch '\n' else .ch ':') ∧ Left p'.lex r.tail := by
  obtain ⟨p', h1, h2, h3, _, h5, h6⟩ := dataStatement_reads i items hi r p hr h
  exact ⟨p', h1, h2, h3, h5, h6⟩

example : ∃ (i : CStr × CStr) (items : List (CStr × CStr)) (r : CStr), (∀ j ∈ i :: items, DataItem j.1 j.2) ∧ (r = [] ∨ ∃ r', r = ':' :: r') ∧
    Left (lexerAt " a b , \"x,y:z\" ,,3:PRINT" false) (i.1 ++ (items.flatMap (fun j => ',' :: j.1) ++ r)) ∧
    (i :: items).map (·.2) = ["a b".toList, "x,y:z".toList, [], ['3']] := by
  refine ⟨(" a b ".toList, "a b".toList), [(" \"x,y:z\" ".toList, "x,y:z".toList), ([], []), (['3'], ['3'])], ":PRINT".toList, ?_,
    .inr ⟨_, rfl⟩, lexerAt_left _ _, by decide⟩
  have hb : Blank [' '] := by unfold Blank; decide
  have hn : Blank [] := by unfold Blank; decide
  simp only [List.mem_cons, List.not_mem_nil, or_false]
  rintro j (rfl | rfl | rfl | rfl)
  · exact DataItem.plain (b := [' ']) (v := "a b".toList) (b' := [' ']) hb hb (by decide) (by intro c hc; rcases hc with hc | hc <;> cases hc <;> decide)
      (by decide) (by decide)
  · exact DataItem.quoted (b := [' ']) (v := "x,y:z".toList) (b' := [' ']) hb hb ⟨by decide, by decide⟩ (by decide)
  · exact DataItem.plain (b := []) (v := []) (b' := []) hn hn (by decide) (by intro c hc; rcases hc with hc | hc <;> cases hc)
      (by decide) (by decide)
  · exact DataItem.plain (b := []) (v := ['3']) (b' := []) hn hn (by decide) (by intro c hc; rcases hc with hc | hc <;> cases hc <;> decide)
      (by decide) (by decide)

/-- C51.  A number in the text of a program denotes the double nearest to its decimal value. -/
theorem C51_number {lex : Lex} {b w r : CStr} {x : Dbl} (h : Left lex (b ++ w ++ r)) (hb : Space b) (hw : Literal w x) (hr : NumberEnds r)
    (hl : w.length ≤ 127) : ∃ lex', lexNext lex = .ok (.num, lex') ∧ lex'.num = x ∧ lex'.word = w ∧ Left lex' r := by
  rw [next_literal h hb hw hr hl]
  refine ⟨_, rfl, rfl, rfl, ?_⟩
  exact (moved_left (a := b ++ w) (n := b.length + w.length) (b := b.length) (t := .num) (w := w) h (by simp)).set rfl rfl

example : ∃ lex', lexNext (lexerAt " 12.5e-1:" true) = .ok (.num, lex') ∧
    lex'.num = .fin (5/4) ∧ lex'.word = "12.5e-1".toList ∧ Left lex' ":".toList :=
  C51_number (b := [' ']) (w := "12.5e-1".toList) (lexerAt_left _ _) (by decide)
    ⟨"12.5".toList, "12".toList, "5".toList, "e-1".toList, -1, rfl,
      ⟨by simp only [IsDigit]; decide, by decide, .inr rfl⟩, .inr ⟨'e', ['1'], by decide, by decide, by simp only [IsDigit]; decide, .inr (.inr ⟨rfl, by decide⟩)⟩,
      by decide, Dbl.rounded_iff.2 (by decide +kernel)⟩
      ⟨by intro c hc; cases hc; decide, by intro c hc; cases hc; simp only [IsDigit]; decide⟩ (by decide)

/-- C51 fails when keywords are recognised anywhere: the number in `10ELSE` is not recognised, although `10 ELSE` is. -/
theorem C51_else_violated :
    (∃ l, lexNext (lexerAt "10ELSE20" true) = .ok (.error, l)) ∧
    (∃ l, lexNext (lexerAt "10 ELSE20" true) = .ok (.num, l)) ∧ (∃ l, lexNext (lexerAt "10THEN20" true) = .ok (.num, l)) :=
  ⟨⟨_, rfl⟩, ⟨_, rfl⟩, ⟨_, rfl⟩⟩

end LB
