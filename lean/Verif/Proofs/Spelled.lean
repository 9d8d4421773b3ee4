import Verif.Proofs.Grammar
import Verif.Proofs.Items
import Verif.Proofs.Halting
import Verif.Props.Lexer
/- From the text of an expression to its code. -/
namespace LB
open LB.Spec _root_.Spec

/-- Not DATA. -/
def Bare (a : Lexeme) : Prop := ∀ vs, a ≠ .data vs

theorem moves_bare {a : Lexeme} {lex lex' : Lex} {t : Tok} (ha : Bare a) : Moves a lex t lex' ↔ lexNext lex = .ok (t, lex') := by
  cases a with
  | data vs => exact absurd rfl (ha vs)
  | _ => exact Iff.rfl

/-- Reading on from the token `a`, the lexer comes to these tokens. -/
inductive Lexes : Lexeme → Lex → List Lexeme → Lex → Prop
  | done {a lex} : Lexes a lex [] lex
  | more {lex a b l t lex' lex''} : Moves a lex t lex' → Current lex' b → Lexes b lex' l lex'' → Lexes a lex (b :: l) lex''

/-- The items of a DATA statement are read. -/
theorem items_moves {t : CStr} {vs : List CStr} (h : DataItems t vs) : ∀ {lex : Lex} {b r : CStr}, (r = [] ∨ ∃ r', r = ':' :: r') → Left lex (t ++ r) →
    ∃ lex', DataMoves vs lex (if r = [] then .ch '\n' else .ch ':') lex' ∧ lex'.token = (if r = [] then .ch '\n' else .ch ':') ∧ Left lex' r.tail ∧
      lex'.text = lex.text ∧ lex'.prefixes = lex.prefixes := by
  induction h with
  | @one t v hi =>
    intro lex b r hr hl
    have hcr : Clean r := by
      rcases hr with rfl | ⟨r', rfl⟩
      · intro c hc; cases hc
      · intro c hc; cases hc; decide
    have hhr : r.head? = none ∨ r.head? = some ',' ∨ r.head? = some ':' := by
      rcases hr with rfl | ⟨r', rfl⟩
      · exact .inl rfl
      · exact .inr (.inr rfl)
    obtain ⟨lex1, b2, e1, e2, e3, e4, e5⟩ := next_item hl hi hcr hhr
    rcases hr with rfl | ⟨r', rfl⟩
    · rw [if_pos rfl]
      refine ⟨_, .last e1 (next_eol (by simpa using e3) (space_blank e2)) (by decide), rfl, ?_, e4, e5⟩
      exact (e3.adv : Left (adv lex1 b2.length) []).set rfl rfl
    · rw [if_neg (by simp)]
      refine ⟨_, .last e1 (next_single e3 (space_blank e2) (by decide) (by decide)) (by decide), rfl, ?_, e4, e5⟩
      have h2 : Left lex1 ((b2 ++ [':']) ++ r') := by simpa using e3
      exact h2.adv.set rfl (by simp [moved, adv])
  | @more t v r0 l hi _ ih =>
    intro lex b r hr hl
    rw [List.append_assoc, List.cons_append] at hl
    obtain ⟨lex1, b2, e1, e2, e3, e4, e5⟩ := next_item hl hi (fun c hc => by cases hc; decide) (.inr (.inl rfl))
    have h2 : Left lex1 ((b2 ++ [',']) ++ (r0 ++ r)) := by simpa using e3
    obtain ⟨lex', k1, k2, k3, k4, k5⟩ := ih (lex := moved lex1 b2.length (b2.length + 1) (.ch ',') lex1.word) (b := []) hr (moved_left h2 (by simp))
    exact ⟨lex', .more e1 (next_single e3 (space_blank e2) (by decide) (by decide)) k1, k2, k3, k4.trans e4, k5.trans e5⟩

theorem sign_single {c : Char} (h : c ∈ "()^*/+-=:;,?".toList) : Plain c ∧ isSingle c = true := by
  revert c
  decide

theorem alpha_upper {c d : Char} (h : Char.toUpper c = Char.toUpper d) (hc : isalpha c = true) : isalpha d = true := by
  have h := (tolower_eq_iff c d).2 h
  have h1 := tolower_toNat c
  have h2 := tolower_toNat d
  rw [h] at h1
  simp only [isalpha, isupper, islower, Bool.or_eq_true, decide_eq_true_eq] at hc ⊢
  split at h1 <;> split at h2 <;> omega

/-- A keyword begins with a letter. -/
theorem keyword_first {u : String} {k : Kw} {s : CStr} (hk : (u, k) ∈ reservedWords) (hs : SameIgnoringCase u.toList (s.take u.toList.length)) :
    ∃ c t, s = c :: t ∧ isalpha c = true := by
  have h1 : ∀ p ∈ reservedWords, (p.1.toList.head?.map isalpha) = some true := by decide
  have h1 := h1 _ hk
  simp only at h1
  unfold SameIgnoringCase at hs
  generalize u.toList = l at *
  cases l with
  | nil => cases h1
  | cons d l =>
    cases s with
    | nil => cases hs
    | cons c t =>
      simp only [List.length_cons, List.take_succ_cons, List.map_cons, List.cons.injEq] at hs
      simp only [List.head?_cons, Option.map_some, Option.some.injEq] at h1
      exact ⟨c, t, rfl, alpha_upper hs.1 h1⟩

theorem keyword_len {w : CStr} {k : Kw} {u : String} (hk : (u, k) ∈ reservedWords) (hs : SameIgnoringCase u.toList w) : w.length ≤ 126 := by
  have h1 := congrArg List.length hs
  simp only [List.length_map] at h1
  have h2 : ∀ p ∈ reservedWords, p.1.toList.length ≤ 126 := by decide
  have := h2 _ hk
  simp only at this
  omega

/-- A name when keywords are recognised everywhere. -/
theorem next_nameAs {any : Bool} {lex : Lex} {b w r : CStr} (hm : lex.prefixes = any) (h : Left lex (b ++ w ++ r)) (hb : Space b) (hw : Name w)
    (hr : NameEnds w r ∨ any = true ∧ '$' ∉ w ∧ KeywordNext r) (hu : any = true → Unbroken w r) (hk : ∀ v k, (v, k) ∈ reservedWords → ¬ SameIgnoringCase v.toList w)
    (hl : w.length ≤ 126) : lexNext lex = .ok (.id, moved lex b.length (b.length + w.length) .id w) := by
  cases any with
  | false =>
    have := next_name hm h hb hw (hr.resolve_right (fun g => by cases g.1)) hl
    rwa [(C07_otherwise_name w).2 hk] at this
  | true =>
    have hu := hu rfl
    obtain ⟨c, x, d, rfl, hc, hx, hd⟩ := hw
    have hc' : isalpha c = true := by rw [isalpha_eq]; exact hc
    have hx' : ∀ e ∈ x, isalnum e = true := fun e he => by rw [isalnum_eq]; exact hx e he
    have hb' := space_blank hb
    have none : ∀ t : CStr, (∀ v k, (v, k) ∈ reservedWords → ¬ SameIgnoringCase v.toList (t.take v.toList.length)) → keywordPrefix t = none := by
      intro t ht
      cases hp : keywordPrefix t with
      | none => rfl
      | some kw =>
        obtain ⟨v, h1, h2⟩ := (C08_prefix_iff t kw.token).1 ⟨kw, hp, rfl⟩
        exact absurd h2 (ht v _ h1)
    rcases hd with rfl | rfl
    · simp only [List.append_nil, List.length_cons] at h hl hr hu ⊢
      have hne : ∀ y ∈ c :: x, y ≠ '$' := by
        rintro y hy rfl
        rcases List.mem_cons.1 hy with e | e
        · rw [← e] at hc; revert hc; decide
        · have := hx _ e; revert this; decide
      rw [List.append_assoc] at h
      have hnext : (Clean r ∧ r.head? ≠ some '$') ∧ (testCh isalnum (headCh r) = false ∨ (testCh isalpha (headCh r) = true ∧ (keywordPrefix r).isSome = true)) := by
        rcases hr with hr | ⟨-, -, v, k, h1, h2⟩
        · have hr2 := hr.2.resolve_left (fun g => hne _ (List.mem_of_getLast? g) rfl)
          refine ⟨⟨hr.1, fun g => absurd rfl (hr2 _ g).2⟩, .inl ?_⟩
          cases r with
          | nil => rfl
          | cons e r => simp only [headCh_cons, testCh]; rw [isalnum_eq]; exact (hr2 e rfl).1
        · have ha := keyword_first h1 h2
          obtain ⟨e, r0, rfl, he⟩ := ha
          refine ⟨⟨fun y hy => by cases hy; exact alnum_plain (by simp [isalnum, he]), fun g => ?_⟩, .inr ⟨he, ?_⟩⟩
          · cases g; revert he; decide
          · obtain ⟨kw, h3, -⟩ := (C08_prefix_iff (e :: r0) k).2 ⟨v, h1, h2⟩
            rw [h3]; rfl
      have := next_anywhere (x := x) (r := r) hm h hb' hc' hx' hnext.1.1 (fun p d q e hd => none _ (hu p (d :: q) e (by simp))) hnext.2 (by omega)
      rw [if_neg hnext.1.2] at this
      rw [this]
      simp only [Nat.add_assoc]
    · simp only [List.cons_append, List.append_assoc, List.length_cons, List.length_append, List.length_nil, List.nil_append] at h hl ⊢
      have := next_anywhere (x := x) (r := '$' :: r) hm h hb' hc' hx' (fun y hy => by cases hy; decide)
        (fun p d q e hd => none _ (by
          have := hu p (d :: q ++ ['$']) (by rw [e]; simp) (by simp)
          simpa using this)) (.inl rfl) (by omega)
      rw [if_pos (by rfl)] at this
      rw [this, show b.length + (x.length + (0 + 1) + 1) = b.length + x.length + 2 by omega]
      rfl

/-- A keyword. -/
theorem next_keywordAs {any : Bool} {lex : Lex} {b w r : CStr} {u : String} {k : Kw} (hm : lex.prefixes = any) (h : Left lex (b ++ w ++ r)) (hb : Space b) (hw : Name w)
    (hr : NameEnds w r ∨ any = true) (hk : (u, k) ∈ reservedWords) (hs : SameIgnoringCase u.toList w) :
    ∃ w', lexNext lex = .ok (.kw k, moved lex b.length (b.length + w.length) (.kw k) w') := by
  cases any with
  | false =>
    have h1 := next_name hm h hb hw (hr.resolve_right (fun g => by cases g)) (keyword_len hk hs)
    rw [(C07_keyword_iff w k).2 ⟨u, hk, hs⟩] at h1
    exact ⟨w, h1⟩
  | true =>
    have hlen : u.toList.length = w.length := by
      have h1 := congrArg List.length hs
      simpa only [List.length_map] using h1
    have hs' : SameIgnoringCase u.toList ((w ++ r).take u.toList.length) := by
      rw [hlen, List.take_left]; exact hs
    obtain ⟨c, t, e, hc⟩ := keyword_first hk hs'
    obtain ⟨kw, h1, rfl⟩ := (C08_prefix_iff (w ++ r) k).2 ⟨u, hk, hs'⟩
    rw [List.append_assoc, e] at h
    have h2 := next_keywordAnywhere hm h (space_blank hb) hc (e ▸ h1)
    have h3 : kw.len = w.length := by
      have h4 : ∀ x ∈ keywords, ∀ p ∈ reservedWords, x.token = p.2 → x.len = p.1.toList.length := by decide
      rw [← hlen]
      exact h4 kw ((keywordPrefix_some_iff _ kw).1 h1).1 _ hk rfl
    exact ⟨kw.name, by rw [h2, h3]⟩

theorem spells_lexes {any : Bool} {r : CStr} {l : List Lexeme} {r' : CStr} (h : SpellsAs any r l r') : ∀ {a : Lexeme} {lex : Lex}, Bare a → lex.prefixes = any → Left lex r →
    ∃ lex', Lexes a lex l lex' ∧ Left lex' r' ∧ lex'.prefixes = any ∧ lex'.text = lex.text := by
  induction h with
  | done => exact fun _ hm hl => ⟨_, .done, hl, hm, rfl⟩
  | @eol b hb =>
    intro a lex ha hm hl
    refine ⟨_, .more ((moves_bare ha).2 (next_eol hl (space_blank hb))) rfl .done, ?_, hm, rfl⟩
    have h' : Left lex (b ++ []) := by rwa [List.append_nil]
    exact h'.adv.set rfl rfl
  | @num b w x r l r' hb hw hlen hr _ ih =>
    intro a lex ha hm hl
    have h1 := next_literal hl hb hw hr hlen
    obtain ⟨lex', h2, h3, h4, h5⟩ := ih (a := .num x) (lex := { moved lex b.length (b.length + w.length) .num w with num := x }) (fun _ h => by cases h) hm
      ((moved_left (a := b ++ w) (n := b.length + w.length) (b := b.length) (t := .num) (w := w) hl (by simp)).set rfl rfl)
    exact ⟨lex', .more ((moves_bare ha).2 h1) ⟨rfl, rfl⟩ h2, h3, h4, h5⟩
  | @str b s r l r' hb hs hlen _ ih =>
    intro a lex ha hm hl
    have h1 := next_string hl (space_blank hb) hs.1 hs.2 hlen
    have h0 : Left lex ((b ++ ('"' :: (s ++ ['"']))) ++ r) := by simpa using hl
    obtain ⟨lex', h2, h3, h4, h5⟩ := ih (a := .str s) (lex := moved lex b.length (b.length + s.length + 2) .str s) (fun _ h => by cases h) hm
      (moved_left h0 (by simp only [List.length_append, List.length_cons, List.length_nil]; omega))
    exact ⟨lex', .more ((moves_bare ha).2 h1) ⟨rfl, rfl⟩ h2, h3, h4, h5⟩
  | @name b w r l r' hb hw hlen hr hu hk _ ih =>
    intro a lex ha hm hl
    have h1 := next_nameAs hm hl hb hw hr hu hk hlen
    obtain ⟨lex', h2, h3, h4, h5⟩ := ih (a := .name w) (lex := moved lex b.length (b.length + w.length) .id w) (fun _ h => by cases h) hm (moved_left hl (by simp))
    exact ⟨lex', .more ((moves_bare ha).2 h1) ⟨rfl, rfl⟩ h2, h3, h4, h5⟩
  | @keyword b w r l r' v k hb hw hr hk hs _ ih =>
    intro a lex ha hm hl
    obtain ⟨w', h1⟩ := next_keywordAs hm hl hb hw hr hk hs
    obtain ⟨lex', h2, h3, h4, h5⟩ := ih (a := .op (.kw k)) (lex := moved lex b.length (b.length + w.length) (.kw k) w') (fun _ h => by cases h) hm (moved_left hl (by simp))
    exact ⟨lex', .more ((moves_bare ha).2 h1) rfl h2, h3, h4, h5⟩
  | @sign b c r l r' hb hc _ ih =>
    intro a lex ha hm hl
    have h1 := next_single hl (space_blank hb) (sign_single hc).1 (sign_single hc).2
    have h0 : Left lex ((b ++ [c]) ++ r) := by simpa using hl
    obtain ⟨lex', h2, h3, h4, h5⟩ := ih (a := opTok c) (lex := moved lex b.length (b.length + 1) (.ch c) lex.word) (fun _ h => by cases h) hm (moved_left h0 (by simp))
    exact ⟨lex', .more ((moves_bare ha).2 h1) rfl h2, h3, h4, h5⟩
  | @less b r l r' hb hr hn he _ ih =>
    intro a lex ha hm hl
    have h1 := next_less hl (space_blank hb) hr
    rw [if_neg hn, if_neg he] at h1
    have h0 : Left lex ((b ++ ['<']) ++ r) := by simpa using hl
    obtain ⟨lex', h2, h3, h4, h5⟩ := ih (a := opTok '<') (lex := moved lex b.length (b.length + 1) (.ch '<') lex.word) (fun _ h => by cases h) hm (moved_left h0 (by simp))
    exact ⟨lex', .more ((moves_bare ha).2 h1) rfl h2, h3, h4, h5⟩
  | @greater b r l r' hb hr he _ ih =>
    intro a lex ha hm hl
    have h1 := next_greater hl (space_blank hb) hr
    rw [if_neg he] at h1
    have h0 : Left lex ((b ++ ['>']) ++ r) := by simpa using hl
    obtain ⟨lex', h2, h3, h4, h5⟩ := ih (a := opTok '>') (lex := moved lex b.length (b.length + 1) (.ch '>') lex.word) (fun _ h => by cases h) hm (moved_left h0 (by simp))
    exact ⟨lex', .more ((moves_bare ha).2 h1) rfl h2, h3, h4, h5⟩
  | @ne b r l r' hb _ ih =>
    intro a lex ha hm hl
    have h1 := next_less hl (space_blank hb) (fun c hc => by cases hc; decide)
    rw [if_pos (by simp)] at h1
    have h0 : Left lex ((b ++ ['<', '>']) ++ r) := by simpa using hl
    obtain ⟨lex', h2, h3, h4, h5⟩ := ih (a := .op .ne) (lex := moved lex b.length (b.length + 2) .ne lex.word) (fun _ h => by cases h) hm (moved_left h0 (by simp))
    exact ⟨lex', .more ((moves_bare ha).2 h1) rfl h2, h3, h4, h5⟩
  | @le b r l r' hb _ ih =>
    intro a lex ha hm hl
    have h1 := next_less hl (space_blank hb) (fun c hc => by cases hc; decide)
    rw [if_neg (by simp), if_pos (by simp)] at h1
    have h0 : Left lex ((b ++ ['<', '=']) ++ r) := by simpa using hl
    obtain ⟨lex', h2, h3, h4, h5⟩ := ih (a := .op .le) (lex := moved lex b.length (b.length + 2) .le lex.word) (fun _ h => by cases h) hm (moved_left h0 (by simp))
    exact ⟨lex', .more ((moves_bare ha).2 h1) rfl h2, h3, h4, h5⟩
  | @ge b r l r' hb _ ih =>
    intro a lex ha hm hl
    have h1 := next_greater hl (space_blank hb) (fun c hc => by cases hc; decide)
    rw [if_pos (by simp)] at h1
    have h0 : Left lex ((b ++ ['>', '=']) ++ r) := by simpa using hl
    obtain ⟨lex', h2, h3, h4, h5⟩ := ih (a := .op .ge) (lex := moved lex b.length (b.length + 2) .ge lex.word) (fun _ h => by cases h) hm (moved_left h0 (by simp))
    exact ⟨lex', .more ((moves_bare ha).2 h1) rfl h2, h3, h4, h5⟩

  | @dataLast b w r vs hb hw hs hr hi =>
    intro a lex ha hm hl
    obtain ⟨w', h1⟩ := next_keywordAs hm hl hb hw hr (k := .DATA) (by decide) hs
    obtain ⟨lex', k1, k2, k3, k4, k5⟩ := items_moves hi (lex := moved lex b.length (b.length + w.length) (.kw .DATA) w') (b := []) (r := []) (.inl rfl)
      (by rw [List.append_nil]; exact moved_left hl (by simp))
    exact ⟨lex', .more ((moves_bare ha).2 h1) rfl (.more (show Moves (.data vs) _ _ _ from k1) k2 .done), k3, k5.trans hm, k4⟩
  | @dataColon b w t vs r l r' hb hw hs hr hi _ ih =>
    intro a lex ha hm hl
    obtain ⟨w', h1⟩ := next_keywordAs hm hl hb hw hr (k := .DATA) (by decide) hs
    obtain ⟨lex1, k1, k2, k3, k4, k5⟩ := items_moves hi (lex := moved lex b.length (b.length + w.length) (.kw .DATA) w') (b := []) (r := ':' :: r) (.inr ⟨_, rfl⟩)
      (moved_left hl (by simp))
    obtain ⟨lex', j2, j3, j4, j5⟩ := ih (a := opTok ':') (lex := lex1) (fun _ h => by cases h) (k5.trans hm) k3
    exact ⟨lex', .more ((moves_bare ha).2 h1) rfl (.more (show Moves (.data vs) _ _ _ from k1) k2 j2), j3, j4, j5.trans k4⟩

theorem data_moves_tame {vs : List CStr} {lex lex' : Lex} {tok : Tok} (h : DataMoves vs lex tok lex') : ∀ {t : CStr} {pre : Bool} {p : Nat}, Within t pre p lex →
    (Within t pre lex.pos lex' ∧ (lex.pos < t.length → lex.pos < lex'.pos) ∧ (lex.pos = t.length → tok = .ch '\n' ∧ lex'.pos = lex.pos)) ∧
      lex'.token = tok ∧ vs.length + lex.pos ≤ t.length + 1 := by
  induction h with
  | @last v lex lex1 tok lex' h1 h2 _ =>
    intro t pre p hw
    have k1 := lexNextData_tame hw
    rw [h1] at k1
    have k2 := lexNext_tame k1
    rw [h2] at k2
    obtain ⟨k3, k4, k5⟩ := k2
    simp only at k3 k4 k5
    have := k1.ge
    have := k1.le
    have := k3.ge
    refine ⟨⟨⟨k3.text, k3.le, by omega, k3.mode⟩, fun h => ?_, fun h => ?_⟩, lexNext_token h2, ?_⟩
    · by_cases hlt : lex1.pos < t.length
      · have := k4 hlt; omega
      · have := (k5 (by omega)).2; omega
    · have := k5 (by omega)
      exact ⟨this.1, by omega⟩
    · simp only [List.length_cons, List.length_nil]
      have := hw.le
      omega
  | @more v lex lex1 lex2 vs tok lex' h1 h2 _ ih =>
    intro t pre p hw
    have k1 := lexNextData_tame hw
    rw [h1] at k1
    have k2 := lexNext_tame k1
    rw [h2] at k2
    obtain ⟨k3, k4, k5⟩ := k2
    simp only at k3 k4 k5
    have hlt : lex1.pos < t.length := by
      rcases Nat.lt_or_ge lex1.pos t.length with h | h
      · exact h
      · have := (k5 (Nat.le_antisymm k1.le h)).1
        cases this
    have := k4 hlt
    have := k1.ge
    have := k1.le
    obtain ⟨⟨j1, j2, j3⟩, j4, j5⟩ := ih k3
    have := j1.ge
    refine ⟨⟨⟨j1.text, j1.le, by omega, j1.mode⟩, fun h => by omega, fun h => by omega⟩, j4, ?_⟩
    simp only [List.length_cons]
    omega

/-- Going on from a token. -/
theorem moves_tame {a : Lexeme} {lex lex' : Lex} {tok : Tok} {t : CStr} {pre : Bool} {p : Nat} (h : Moves a lex tok lex') (hw : Within t pre p lex) :
    (Within t pre lex.pos lex' ∧ (lex.pos < t.length → lex.pos < lex'.pos) ∧ (lex.pos = t.length → tok = .ch '\n' ∧ lex'.pos = lex.pos)) ∧ lex'.token = tok := by
  have bare : lexNext lex = .ok (tok, lex') → _ := fun h2 => by
    have := lexNext_tame hw
    rw [h2] at this
    exact And.intro this (lexNext_token h2)
  cases a with
  | data vs =>
    have := data_moves_tame (show DataMoves vs lex tok lex' from h) hw
    exact ⟨this.1, this.2.1⟩
  | _ => exact bare h

/-- Up to the last token. -/
theorem Lexes.scans {l : List Lexeme} {k : Lexeme} : ∀ {a b : Lexeme} {lex lex' : Lex}, Lexes b lex (a :: l ++ [k]) lex' →
    ∃ t lex1, Moves b lex t lex1 ∧ Scans lex1 (a :: l) lex' ∧ Current lex' k := by
  induction l with
  | nil =>
    intro a b lex lex' h
    cases h with
    | more h1 h2 h3 =>
      cases h3 with
      | more h4 h5 h6 => cases h6; exact ⟨_, _, h1, .more h2 h4 .done, h5⟩
  | cons c l ih =>
    intro a b lex lex' h
    cases h with
    | more h1 h2 h3 =>
      obtain ⟨t, lex1, h4, h5, h6⟩ := ih h3
      exact ⟨_, _, h1, .more h2 h4 h5, h6⟩

/-- There are not more tokens than characters, and one. -/
theorem scans_length {l : List Lexeme} : ∀ {lex lex' : Lex} {t : CStr}, Scans lex l lex' → lex.text = some t → lex.pos ≤ t.length →
    (∀ a ∈ l, a ≠ opTok '\n') → l.length ≤ t.length - lex.pos + 1 ∧ lex'.text = some t ∧ lex'.pos ≤ t.length := by
  induction l with
  | nil => intro lex lex' t h ht hp _; cases h; exact ⟨Nat.zero_le _, ht, hp⟩
  | cons a l ih =>
    intro lex lex' t h ht hp hn
    cases h with
    | @more _ _ _ tok lex1 _ h1 h2 h3 =>
      obtain ⟨⟨k1, k2, k3⟩, htok⟩ := moves_tame (pre := lex.prefixes) (p := lex.pos) h2 ⟨ht, hp, Nat.le_refl _, rfl⟩
      have h4 := ih h3 k1.text k1.le (fun a ha => hn a (List.mem_cons_of_mem _ ha))
      refine ⟨?_, h4.2⟩
      simp only [List.length_cons]
      by_cases hlt : lex.pos < t.length
      · have := k2 hlt
        have := k1.le
        omega
      · have he : lex.pos = t.length := by omega
        rw [(k3 he).1] at htok
        cases l with
        | nil => simp
        | cons b l =>
          cases h3 with
          | more h5 =>
            exfalso
            refine hn b (by simp) ?_
            cases b with
            | num => exact absurd (htok.symm.trans h5.1) (by decide)
            | str => exact absurd (htok.symm.trans h5.1) (by decide)
            | name => exact absurd (htok.symm.trans h5.1) (by decide)
            | op t => have : t = .ch '\n' := h5.symm.trans htok; rw [this]; rfl
            | data => exact absurd (htok.symm.trans h5) (by decide)

theorem phrase_no_eol {v : Level} {l : List Lexeme} {t : Ty} {e : Expr t} (h : Phrase v l e) : ∀ a ∈ l, a ≠ opTok '\n' := by
  have hr : ∀ r, Lexeme.op (relTok r) ≠ opTok '\n' := by intro r; cases r <;> decide
  induction h with
  | num | str | numVar | strVar | rnd | time => intro a ha; simp at ha; subst ha; intro h; cases h
  | paren _ ih => intro a ha; simp at ha; rcases ha with rfl | ha | rfl; · decide
                  · exact ih a ha
                  · decide
  | rndEmpty | timeEmpty =>
    intro a ha
    simp only [List.mem_cons, List.not_mem_nil, or_false] at ha
    rcases ha with rfl | rfl | rfl
    · intro h; cases h
    · decide
    · decide
  | numFn _ _ ih | strFn _ _ ih | textFn _ _ ih | elem _ _ ih | rndOf _ _ ih | timeOf _ _ ih =>
    intro a ha
    simp only [List.mem_cons, List.mem_append, List.not_mem_nil, or_false] at ha
    rcases ha with rfl | rfl | ha | rfl
    · intro h; cases h
    · decide
    · exact ih a ha
    · decide
  | endFn _ _ _ ih1 ih2 | elem2 _ _ _ ih1 ih2 =>
    intro a ha
    simp only [List.mem_cons, List.mem_append, List.not_mem_nil, or_false] at ha
    rcases ha with rfl | rfl | ha | rfl | ha | rfl
    · intro h; cases h
    · decide
    · exact ih1 a ha
    · decide
    · exact ih2 a ha
    · decide
  | mid _ _ _ _ ih1 ih2 ih3 =>
    intro a ha
    simp only [List.mem_cons, List.mem_append, List.not_mem_nil, or_false] at ha
    rcases ha with rfl | rfl | ha | rfl | ha | rfl | ha | rfl
    · intro h; cases h
    · decide
    · exact ih1 a ha
    · decide
    · exact ih2 a ha
    · decide
    · exact ih3 a ha
    · decide
  | primary _ ih | power _ ih | neg _ ih | mult _ ih | sum _ ih | rel _ ih | not _ ih | conj _ ih => exact ih
  | minus _ ih | nots _ ih =>
    intro a ha
    rcases List.mem_append.1 ha with ha | ha
    · rw [List.eq_of_mem_replicate ha]; decide
    · exact ih a ha
  | cmp _ _ ih1 ih2 | cmpStr _ _ ih1 ih2 =>
    intro a ha
    simp only [List.mem_append, List.mem_cons] at ha
    rcases ha with ha | rfl | ha
    · exact ih1 a ha
    · exact hr _
    · exact ih2 a ha
  | pow _ _ ih1 ih2 | mul _ _ ih1 ih2 | div _ _ ih1 ih2 | add _ _ ih1 ih2 | sub _ _ ih1 ih2 | concat _ _ ih1 ih2 | and _ _ ih1 ih2 | or _ _ ih1 ih2 =>
    intro a ha
    simp only [List.mem_append, List.mem_cons] at ha
    rcases ha with ha | rfl | ha
    · exact ih1 a ha
    · decide
    · exact ih2 a ha

theorem strength_or {t : Tok} (h : ¬ Continues t) : strength t < Level.limit .or := by
  rw [strength_continues h]; decide

/-- An expression is compiled to its code. -/
theorem expression_put {p : Parser} {l : List Lexeme} {t : Ty} {e : Expr t} {lex' : Lex} (hw : WellNamed p.st) (h : Phrase .or l e) {text : CStr}
    (ht : p.lex.text = some text) (hp : p.lex.pos ≤ text.length) (hs : Scans p.lex l lex') (hk : ¬ Continues lex'.token) :
    ∃ p', P.expression p = .ok t p' ∧ Put p e lex' p' := by
  obtain ⟨hl, _, _⟩ := scans_length hs ht hp (phrase_no_eol h)
  obtain ⟨p', h1, h2⟩ := P.parses_phrase h (text.length + 1) (text.length + 2) p lex' hw hs (by omega) (by omega) (strength_or hk)
  refine ⟨p', ?_, h1⟩
  have : P.expression p = P.expressionN (text.length + 2) p := by
    simp only [P.expression, P.bind_ok (show P.fuel p = .ok (text.length + 2) p by simp [P.fuel, ht])]
  rw [this]
  exact P.or_close h2 (by omega) (by rw [h1.lex, strength_continues hk]; decide)

end LB
