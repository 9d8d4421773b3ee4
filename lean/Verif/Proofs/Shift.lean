import Verif.Proofs.Lexer
import Verif.Proofs.Scan
/- Reading a token depends only on what is left of the line. -/
namespace LB
open LB.Spec

/-- Both outcomes are the same halt, or they are results related by `R`. -/
def Both {α β : Type} (R : α → β → Prop) (x : Outcome α) (y : Outcome β) : Prop :=
  (∃ a b, x = .ok a ∧ y = .ok b ∧ R a b) ∨ ∃ h, x = .halt h ∧ y = .halt h

/-- The lexer `a` is in a line that has the text `p` before the line of the lexer `b`. -/
structure Aligned (p : CStr) (a b : Lex) : Prop where
  text : ∃ r, b.text = some r ∧ a.text = some (p ++ r)
  pos : a.pos = p.length + b.pos
  prefixes : a.prefixes = b.prefixes

theorem Aligned.set {p : CStr} {a b a' b' : Lex} (h : Aligned p a b) (h1 : a'.text = a.text) (h2 : a'.pos = a.pos)
    (h3 : a'.prefixes = a.prefixes) (h4 : b'.text = b.text) (h5 : b'.pos = b.pos) (h6 : b'.prefixes = b.prefixes) : Aligned p a' b' := by
  obtain ⟨r, t1, t2⟩ := h.text
  exact ⟨⟨r, h4.trans t1, h1.trans t2⟩, by rw [h2, h5, h.pos], by rw [h3, h6, h.prefixes]⟩

theorem Aligned.peek {p : CStr} {a b : Lex} (h : Aligned p a b) : lexPeek a = lexPeek b := by
  obtain ⟨r, t1, t2⟩ := h.text
  unfold lexPeek
  rw [t1, t2, h.pos]
  simp only [List.length_append]
  rw [List.getElem?_append_right (by omega), Nat.add_sub_cancel_left]
  by_cases hl : b.pos > r.length
  · rw [if_pos hl, if_pos (by omega)]
  · rw [if_neg hl, if_neg (by omega)]

theorem Aligned.fuel {p : CStr} {a b : Lex} (h : Aligned p a b) : lexFuel a = lexFuel b := by
  obtain ⟨r, t1, t2⟩ := h.text
  simp only [lexFuel, t1, t2, h.pos, List.length_append]
  omega

theorem Aligned.remaining {p : CStr} {a b : Lex} (h : Aligned p a b) : lexRemaining a = lexRemaining b := by
  obtain ⟨r, t1, t2⟩ := h.text
  simp only [lexRemaining, t1, t2, h.pos, List.drop_append]
  rw [List.drop_eq_nil_of_le (by omega), List.nil_append, Nat.add_sub_cancel_left]

/-- Something has been read: a character before the position, or the end of the line. -/
def Begun (c : Option Char) (b : Lex) : Prop := 1 ≤ b.pos ∨ (c = some '\n' ∧ ∀ t, b.text = some t → b.pos = t.length)

theorem Aligned.char {p : CStr} {a b : Lex} (h : Aligned p a b) :
    Both (fun x y => x.1 = y.1 ∧ Aligned p x.2 y.2 ∧ Begun y.1 y.2 ∧ b.pos ≤ y.2.pos) (lexChar a) (lexChar b) := by
  obtain ⟨r, t1, t2⟩ := h.text
  unfold lexChar
  rw [h.peek]
  cases hp : lexPeek b with
  | halt e => exact .inr ⟨e, rfl, rfl⟩
  | ok c =>
    rw [t1, t2]
    simp only
    refine .inl ⟨_, _, rfl, rfl, rfl, ?_, ?_, ?_⟩
    · simp only
      by_cases hl : b.pos < r.length
      · rw [if_pos (by simp only [h.pos, List.length_append]; omega), if_pos hl]
        exact ⟨⟨r, rfl, rfl⟩, by simp only [h.pos]; omega, h.prefixes⟩
      · rw [if_neg (by simp only [h.pos, List.length_append]; omega), if_neg hl]
        exact h
    · simp only
      by_cases hl : b.pos < r.length
      · rw [if_pos hl]; exact .inl (by simp only; omega)
      · rw [if_neg hl]
        by_cases h0 : 1 ≤ b.pos
        · exact .inl h0
        · refine .inr ⟨?_, ?_⟩
          · unfold lexPeek at hp
            rw [t1] at hp
            simp only at hp
            rw [if_neg (by omega), List.getElem?_eq_none (by omega)] at hp
            simp only [Outcome.ok.injEq] at hp
            exact hp.symm
          · intro t ht
            rw [t1] at ht
            simp only [Option.some.injEq] at ht
            subst ht
            omega
    · simp only
      split
      · simp only; omega
      · exact Nat.le_refl _

theorem Aligned.read {p : CStr} {a b : Lex} (h : Aligned p a b) :
    (∃ c l l', lexChar a = .ok (c, l) ∧ lexChar b = .ok (c, l') ∧ Aligned p l l' ∧ Begun c l') ∨
      ∃ e, lexChar a = .halt e ∧ lexChar b = .halt e := by
  rcases h.char with ⟨x, y, hx, hy, hc, hal, hbg, _⟩ | ⟨e, hx, hy⟩
  · obtain ⟨c, l⟩ := x
    obtain ⟨c', l'⟩ := y
    simp only at hc hal hbg
    subst hc
    exact .inl ⟨c, l, l', hx, hy, hal, hbg⟩
  · exact .inr ⟨e, hx, hy⟩

theorem Aligned.pushback {p : CStr} {a b : Lex} {c : Option Char} (h : Aligned p a b) (hb : Begun c b) :
    Both (Aligned p) (pushback a c) (pushback b c) := by
  obtain ⟨r, t1, t2⟩ := h.text
  unfold LB.pushback
  rw [t1, t2]
  simp only [h.pos, List.length_append]
  by_cases hl : b.pos > r.length
  · rw [if_pos hl, if_pos (by omega)]; exact .inr ⟨_, rfl, rfl⟩
  · rw [if_neg hl, if_neg (by omega)]
    by_cases hn : c = some '\n' ∧ b.pos = r.length
    · rw [if_pos hn, if_pos ⟨hn.1, by omega⟩]; exact .inl ⟨_, _, rfl, rfl, h⟩
    · have hn' : ¬ (c = some '\n' ∧ p.length + b.pos = p.length + r.length) := fun e => hn ⟨e.1, by omega⟩
      rw [if_neg hn, if_neg hn']
      have h1 : 1 ≤ b.pos := by
        rcases hb with hb | ⟨hb, he⟩
        · exact hb
        · exact absurd ⟨hb, he _ t1⟩ hn
      rw [if_neg (show ¬ p.length + b.pos = 0 by omega), if_neg (show ¬ b.pos = 0 by omega)]
      have : (p ++ r)[p.length + b.pos - 1]? = r[b.pos - 1]? := by
        rw [List.getElem?_append_right (by omega)]
        congr 1
        omega
      rw [this]
      split
      · exact .inl ⟨_, _, rfl, rfl, ⟨r, rfl, rfl⟩, by simp only; omega, h.prefixes⟩
      · exact .inr ⟨_, rfl, rfl⟩

theorem Aligned.skip {p : CStr} {blank : Char → Bool} {n : Nat} {a b : Lex} (h : Aligned p a b) :
    Both (fun x y => x.1 = y.1 ∧ x.2.1 = p.length + y.2.1 ∧ Aligned p x.2.2 y.2.2 ∧ Begun y.1 y.2.2)
      (skipBlanks blank n a) (skipBlanks blank n b) := by
  induction n generalizing a b with
  | zero => exact .inr ⟨_, rfl, rfl⟩
  | succ n ih =>
    simp only [skipBlanks, lexCharPos]
    rcases h.read with ⟨d, l, l', hx, hy, hal, hbg⟩ | ⟨e, hx, hy⟩
    · rw [hx, hy]
      simp only
      split
      · exact ih hal
      · obtain ⟨r, t1, t2⟩ := h.text
        refine .inl ⟨_, _, rfl, rfl, rfl, ?_, hal, hbg⟩
        simp only [t1, t2, reduceCtorEq, if_false, h.pos]
    · rw [hx, hy]; exact .inr ⟨_, rfl, rfl⟩

/-- The same token was read. -/
def SameTok (p : CStr) (q q' : Nat) (x y : Tok × Lex) : Prop :=
  x.1 = y.1 ∧ Aligned p x.2 y.2 ∧ (x.1 = .num → x.2.word = y.2.word ∧ x.2.num = y.2.num) ∧ x.2.tokenPos = q ∧ y.2.tokenPos = q'

theorem same_plain {p : CStr} {q q' : Nat} {t : Tok} {a b : Lex} (h : Aligned p a b) (ha : a.tokenPos = q) (hb : b.tokenPos = q') (ht : t ≠ .num) :
    Both (SameTok p q q') (.ok (setToken a t)) (.ok (setToken b t)) :=
  .inl ⟨_, _, rfl, rfl, rfl, h.set rfl rfl rfl rfl rfl rfl, fun e => absurd e ht, ha, hb⟩

/-- Storing the word: the same outcome on both sides, and nothing else changes. -/
theorem same_word {p : CStr} {q q' : Nat} {t : Tok} {w : CStr} {a b : Lex} (h : Aligned p a b) (ha : a.tokenPos = q) (hb : b.tokenPos = q') (ht : t ≠ .num) :
    Both (SameTok p q q')
      (match endWord a w with
        | .halt h => .halt h
        | .ok l => .ok (setToken l t))
      (match endWord b w with
        | .halt h => .halt h
        | .ok l => .ok (setToken l t)) := by
  unfold endWord
  by_cases hw : w.length < maxWord
  · simp only [if_pos hw]
    exact same_plain (h.set rfl rfl rfl rfl rfl rfl) ha hb ht
  · simp only [if_neg hw]
    exact .inr ⟨_, rfl, rfl⟩

theorem char_tokenPos {a a' : Lex} {c : Option Char} (h : lexChar a = .ok (c, a')) : a'.tokenPos = a.tokenPos := by
  unfold lexChar at h
  split at h
  · simp at h
  · split at h
    · simp only [Outcome.ok.injEq, Prod.mk.injEq] at h; rw [← h.2]
    · simp only [Outcome.ok.injEq, Prod.mk.injEq] at h; rw [← h.2]; split <;> rfl

theorem pushback_tokenPos {a a' : Lex} {c : Option Char} (h : LB.pushback a c = .ok a') : a'.tokenPos = a.tokenPos := by
  unfold LB.pushback at h
  split at h
  · simp at h
  · split at h
    · simp at h
    · split at h
      · simp only [Outcome.ok.injEq] at h; rw [← h]
      · split at h
        · simp at h
        · split at h
          · simp only [Outcome.ok.injEq] at h; rw [← h]
          · simp at h

theorem identifierToken_num (w : CStr) : identifierToken w ≠ .num := by
  simp only [identifierToken, identifierTokenIn]
  split <;> simp

theorem Aligned.anywhere {p : CStr} {q q' n : Nat} {w : CStr} {a b : Lex} (h : Aligned p a b) (ha : a.tokenPos = q) (hb : b.tokenPos = q') :
    Both (SameTok p q q') (nameLoopAnywhere n a w) (nameLoopAnywhere n b w) := by
  induction n generalizing a b w with
  | zero => exact .inr ⟨_, rfl, rfl⟩
  | succ n ih =>
    simp only [nameLoopAnywhere]
    rw [h.peek, h.remaining]
    cases lexPeek b with
    | halt e => exact .inr ⟨_, rfl, rfl⟩
    | ok c =>
      simp only
      split
      · split
        · exact same_word h ha hb (by simp)
        · split
          · exact same_word h ha hb (by simp)
          · rcases h.read with ⟨d, l, l', hx, hy, hal, hbg⟩ | ⟨e, hx, hy⟩
            · rw [hx, hy]
              simp only
              cases putWord w (byteOf d) with
              | halt e => exact .inr ⟨_, rfl, rfl⟩
              | ok w' => exact ih hal ((char_tokenPos hx).trans ha) ((char_tokenPos hy).trans hb)
            · rw [hx, hy]; exact .inr ⟨_, rfl, rfl⟩
      · split
        · rcases h.read with ⟨d, l, l', hx, hy, hal, hbg⟩ | ⟨e, hx, hy⟩
          · rw [hx, hy]
            simp only
            cases putWord w (byteOf d) with
            | halt e => exact .inr ⟨_, rfl, rfl⟩
            | ok w' => exact same_word hal ((char_tokenPos hx).trans ha) ((char_tokenPos hy).trans hb) (by simp)
          · rw [hx, hy]; exact .inr ⟨_, rfl, rfl⟩
        · exact same_word h ha hb (by simp)

theorem Aligned.names {p : CStr} {q q' n : Nat} {w : CStr} {a b : Lex} (h : Aligned p a b) (ha : a.tokenPos = q) (hb : b.tokenPos = q') :
    Both (SameTok p q q') (nameLoop n a w) (nameLoop n b w) := by
  induction n generalizing a b w with
  | zero => exact .inr ⟨_, rfl, rfl⟩
  | succ n ih =>
    simp only [nameLoop]
    rcases h.read with ⟨d, l, l', hx, hy, hal, hbg⟩ | ⟨e, hx, hy⟩
    · rw [hx, hy]
      simp only
      have ha' := (char_tokenPos hx).trans ha
      have hb' := (char_tokenPos hy).trans hb
      split
      · split
        · exact same_word hal ha' hb' (by simp)
        · cases putWord w (byteOf d) with
          | halt e => exact .inr ⟨_, rfl, rfl⟩
          | ok w' => exact ih hal ha' hb'
      · split
        · cases putWord w '$' with
          | halt e => exact .inr ⟨_, rfl, rfl⟩
          | ok w' => exact same_word hal ha' hb' (identifierToken_num _)
        · rcases hal.pushback hbg with ⟨l, l', h1, h2, h3⟩ | ⟨e, h1, h2⟩
          · rw [h1, h2]
            exact same_word h3 ((pushback_tokenPos h1).trans ha') ((pushback_tokenPos h2).trans hb') (identifierToken_num _)
          · rw [h1, h2]; exact .inr ⟨_, rfl, rfl⟩
    · rw [hx, hy]; exact .inr ⟨_, rfl, rfl⟩

/-- The same part of a number was read. -/
def SameNum (p : CStr) (q q' : Nat) : NumScan → NumScan → Prop
  | .tooLong w a, .tooLong w' b => w = w' ∧ Aligned p a b ∧ a.tokenPos = q ∧ b.tokenPos = q'
  | .ok w c a, .ok w' c' b => w = w' ∧ c = c' ∧ Aligned p a b ∧ Begun c b ∧ a.tokenPos = q ∧ b.tokenPos = q'
  | _, _ => False

theorem Aligned.digits {p : CStr} {q q' n : Nat} {w : CStr} {c : Option Char} {a b : Lex} (h : Aligned p a b) (hg : Begun c b)
    (ha : a.tokenPos = q) (hb : b.tokenPos = q') : Both (SameNum p q q') (digitRun n a w c) (digitRun n b w c) := by
  induction n generalizing a b w c with
  | zero => exact .inr ⟨_, rfl, rfl⟩
  | succ n ih =>
    simp only [digitRun]
    split
    · cases appendCh w c with
      | none => exact .inl ⟨_, _, rfl, rfl, rfl, h, ha, hb⟩
      | some w' =>
        simp only
        rcases h.read with ⟨d, l, l', hx, hy, hal, hbg⟩ | ⟨e, hx, hy⟩
        · rw [hx, hy]
          exact ih hal hbg ((char_tokenPos hx).trans ha) ((char_tokenPos hy).trans hb)
        · rw [hx, hy]; exact .inr ⟨_, rfl, rfl⟩
    · exact .inl ⟨_, _, rfl, rfl, rfl, rfl, h, hg, ha, hb⟩

theorem Aligned.appended {p : CStr} {q q' : Nat} {w : CStr} {c : Option Char} {a b : Lex} (h : Aligned p a b)
    (ha : a.tokenPos = q) (hb : b.tokenPos = q') : Both (SameNum p q q') (appendThenDigits a w c) (appendThenDigits b w c) := by
  simp only [appendThenDigits]
  cases appendCh w c with
  | none => exact .inl ⟨_, _, rfl, rfl, rfl, h, ha, hb⟩
  | some w' =>
    simp only
    rcases h.read with ⟨d, l, l', hx, hy, hal, hbg⟩ | ⟨e, hx, hy⟩
    · rw [hx, hy]
      simp only
      rw [hal.fuel]
      exact hal.digits hbg ((char_tokenPos hx).trans ha) ((char_tokenPos hy).trans hb)
    · rw [hx, hy]; exact .inr ⟨_, rfl, rfl⟩

theorem Aligned.fraction {p : CStr} {q q' : Nat} {w : CStr} {c : Option Char} {a b : Lex} (h : Aligned p a b) (hg : Begun c b)
    (ha : a.tokenPos = q) (hb : b.tokenPos = q') : Both (SameNum p q q') (scanFraction a w c) (scanFraction b w c) := by
  unfold scanFraction
  split
  · exact h.appended ha hb
  · exact .inl ⟨_, _, rfl, rfl, rfl, rfl, h, hg, ha, hb⟩

theorem Aligned.exponent {p : CStr} {q q' : Nat} {w : CStr} {c : Option Char} {a b : Lex} (h : Aligned p a b) (hg : Begun c b)
    (ha : a.tokenPos = q) (hb : b.tokenPos = q') : Both (SameNum p q q') (scanExp a w c) (scanExp b w c) := by
  unfold scanExp
  split
  · cases appendCh w c with
    | none => exact .inl ⟨_, _, rfl, rfl, rfl, h, ha, hb⟩
    | some w' =>
      simp only
      rcases h.read with ⟨d, l, l', hx, hy, hal, hbg⟩ | ⟨e, hx, hy⟩
      · rw [hx, hy]
        simp only
        have ha' := (char_tokenPos hx).trans ha
        have hb' := (char_tokenPos hy).trans hb
        split
        · exact hal.appended ha' hb'
        · rw [hal.fuel]; exact hal.digits hbg ha' hb'
      · rw [hx, hy]; exact .inr ⟨_, rfl, rfl⟩
  · exact .inl ⟨_, _, rfl, rfl, rfl, rfl, h, hg, ha, hb⟩

theorem both_andThen {p : CStr} {q q' : Nat} {x y : Outcome NumScan} {k : Lex → CStr → Option Char → Outcome NumScan}
    (h : Both (SameNum p q q') x y) (hk : ∀ a b w c, Aligned p a b → Begun c b → a.tokenPos = q → b.tokenPos = q' → Both (SameNum p q q') (k a w c) (k b w c)) :
    Both (SameNum p q q') (NumScan.andThen x k) (NumScan.andThen y k) := by
  rcases h with ⟨u, v, rfl, rfl, h⟩ | ⟨e, rfl, rfl⟩
  · cases u <;> cases v
    · exact .inl ⟨_, _, rfl, rfl, h⟩
    · exact h.elim
    · exact h.elim
    · obtain ⟨rfl, rfl, h1, h2, h3, h4⟩ := h
      exact hk _ _ _ _ h1 h2 h3 h4
  · exact .inr ⟨_, rfl, rfl⟩

theorem Aligned.number {p : CStr} {q q' : Nat} {c : Option Char} {a b : Lex} (h : Aligned p a b) (hg : Begun c b)
    (ha : a.tokenPos = q) (hb : b.tokenPos = q') : Both (SameTok p q q') (lexNumber a c) (lexNumber b c) := by
  have hn : Both (SameNum p q q') (numberChars a c) (numberChars b c) := by
    unfold numberChars
    rw [h.fuel]
    exact both_andThen (both_andThen (h.digits hg ha hb) fun _ _ _ _ => Aligned.fraction) fun _ _ _ _ => Aligned.exponent
  unfold lexNumber
  rcases hn with ⟨u, v, hu, hv, hn⟩ | ⟨e, hu, hv⟩
  · rw [hu, hv]
    cases u <;> cases v
    · obtain ⟨rfl, h1, h2, h3⟩ := hn
      exact same_word h1 h2 h3 (by simp)
    · exact hn.elim
    · exact hn.elim
    · obtain ⟨rfl, rfl, h1, h2, h3, h4⟩ := hn
      simp only
      rcases h1.pushback h2 with ⟨l, l', hl, hl', h5⟩ | ⟨e, hl, hl'⟩
      · rw [hl, hl']
        rename_i w c lex lex'
        unfold endWord
        by_cases hw : w.length < maxWord
        · simp only [if_pos hw]
          split
          · exact .inl ⟨_, _, rfl, rfl, rfl, h5.set rfl rfl rfl rfl rfl rfl, fun _ => ⟨rfl, rfl⟩, (pushback_tokenPos hl).trans h3,
              (pushback_tokenPos hl').trans h4⟩
          · exact same_plain (h5.set rfl rfl rfl rfl rfl rfl) ((pushback_tokenPos hl).trans h3) ((pushback_tokenPos hl').trans h4) (by simp)
        · simp only [if_neg hw]
          exact .inr ⟨_, rfl, rfl⟩
      · rw [hl, hl']; exact .inr ⟨_, rfl, rfl⟩
  · rw [hu, hv]; exact .inr ⟨_, rfl, rfl⟩

/-- The same text up to a delimiter was read. -/
def SameRunScan (p : CStr) (q q' : Nat) : RunScan → RunScan → Prop
  | .tooLong w a, .tooLong w' b => w = w' ∧ Aligned p a b ∧ a.tokenPos = q ∧ b.tokenPos = q'
  | .ok w c a, .ok w' c' b => w = w' ∧ c = c' ∧ Aligned p a b ∧ a.tokenPos = q ∧ b.tokenPos = q'
  | _, _ => False

theorem Aligned.run {p : CStr} {q q' n : Nat} {stop : Option Char → Bool} {w : CStr} {c : Option Char} {a b : Lex} (h : Aligned p a b)
    (ha : a.tokenPos = q) (hb : b.tokenPos = q') : Both (SameRunScan p q q') (runLoop stop n a w c) (runLoop stop n b w c) := by
  induction n generalizing a b w c with
  | zero => exact .inr ⟨_, rfl, rfl⟩
  | succ n ih =>
    simp only [runLoop]
    split
    · exact .inl ⟨_, _, rfl, rfl, rfl, rfl, h, ha, hb⟩
    · split
      · exact .inl ⟨_, _, rfl, rfl, rfl, h, ha, hb⟩
      · cases putWord w (byteOf c) with
        | halt e => exact .inr ⟨_, rfl, rfl⟩
        | ok w' =>
          simp only
          rcases h.read with ⟨d, l, l', hx, hy, hal, hbg⟩ | ⟨e, hx, hy⟩
          · rw [hx, hy]
            exact ih hal ((char_tokenPos hx).trans ha) ((char_tokenPos hy).trans hb)
          · rw [hx, hy]; exact .inr ⟨_, rfl, rfl⟩

theorem Aligned.quoted {p : CStr} {q q' : Nat} {a b : Lex} (h : Aligned p a b) (ha : a.tokenPos = q) (hb : b.tokenPos = q') :
    Both (SameTok p q q') (lexString a) (lexString b) := by
  have hq : Both (SameRunScan p q q') (quotedRun a) (quotedRun b) := by
    unfold quotedRun
    rcases h.read with ⟨d, l, l', hx, hy, hal, hbg⟩ | ⟨e, hx, hy⟩
    · rw [hx, hy]
      simp only
      rw [hal.fuel]
      exact hal.run ((char_tokenPos hx).trans ha) ((char_tokenPos hy).trans hb)
    · rw [hx, hy]; exact .inr ⟨_, rfl, rfl⟩
  unfold lexString
  rcases hq with ⟨u, v, hu, hv, hn⟩ | ⟨e, hu, hv⟩
  · rw [hu, hv]
    cases u <;> cases v
    · obtain ⟨rfl, h1, h2, h3⟩ := hn
      exact same_word h1 h2 h3 (by simp)
    · exact hn.elim
    · exact hn.elim
    · obtain ⟨rfl, rfl, h1, h2, h3⟩ := hn
      rename_i w c lex lex'
      by_cases hq : c = some '"'
      · simp only [if_pos hq]
        exact same_word h1 h2 h3 (by simp)
      · simp only [if_neg hq]
        exact same_word h1 h2 h3 (by simp)
  · rw [hu, hv]; exact .inr ⟨_, rfl, rfl⟩

theorem Aligned.pushed {p : CStr} {q q' : Nat} {t : Tok} {c : Option Char} {a b : Lex} (h : Aligned p a b) (hg : Begun c b)
    (ha : a.tokenPos = q) (hb : b.tokenPos = q') (ht : t ≠ .num) :
    Both (SameTok p q q')
      (match LB.pushback a c with
        | .halt h => .halt h
        | .ok l => .ok (setToken l t))
      (match LB.pushback b c with
        | .halt h => .halt h
        | .ok l => .ok (setToken l t)) := by
  rcases h.pushback hg with ⟨l, l', hl, hl', h5⟩ | ⟨e, hl, hl'⟩
  · rw [hl, hl']
    exact same_plain h5 ((pushback_tokenPos hl).trans ha) ((pushback_tokenPos hl').trans hb) ht
  · rw [hl, hl']; exact .inr ⟨_, rfl, rfl⟩

theorem Aligned.token {p : CStr} {q q' : Nat} {c : Option Char} {a b : Lex} (h : Aligned p a b) (hg : Begun c b)
    (ha : a.tokenPos = q) (hb : b.tokenPos = q') : Both (SameTok p q q') (lexToken a c) (lexToken b c) := by
  unfold lexToken
  rw [h.prefixes]
  split
  · split
    · unfold wordAnywhere
      rcases h.pushback hg with ⟨l, l', hl, hl', h5⟩ | ⟨e, hl, hl'⟩
      · rw [hl, hl']
        have ha' := (pushback_tokenPos hl).trans ha
        have hb' := (pushback_tokenPos hl').trans hb
        simp only
        rw [h5.remaining]
        cases keywordPrefix (lexRemaining l') with
        | some kw =>
          obtain ⟨r, t1, t2⟩ := h5.text
          exact same_plain ⟨⟨r, t1, t2⟩, by simp only [h5.pos]; omega, h5.prefixes⟩ ha' hb' (by simp)
        | none =>
          simp only
          rcases h5.read with ⟨d, l, l', hx, hy, hal, hbg⟩ | ⟨e, hx, hy⟩
          · rw [hx, hy]
            simp only
            cases putWord [] (byteOf d) with
            | halt e => exact .inr ⟨_, rfl, rfl⟩
            | ok w' =>
              simp only
              rw [hal.fuel]
              exact hal.anywhere ((char_tokenPos hx).trans ha') ((char_tokenPos hy).trans hb')
          · rw [hx, hy]; exact .inr ⟨_, rfl, rfl⟩
      · rw [hl, hl']; exact .inr ⟨_, rfl, rfl⟩
    · unfold wordSeparate
      cases putWord [] (byteOf c) with
      | halt e => exact .inr ⟨_, rfl, rfl⟩
      | ok w' => simp only; rw [h.fuel]; exact h.names ha hb
  · split
    · exact h.number hg ha hb
    · split
      · exact h.quoted ha hb
      · split
        · unfold lexLess
          rcases h.read with ⟨d, l, l', hx, hy, hal, hbg⟩ | ⟨e, hx, hy⟩
          · rw [hx, hy]
            simp only
            have ha' := (char_tokenPos hx).trans ha
            have hb' := (char_tokenPos hy).trans hb
            split
            · exact same_plain hal ha' hb' (by simp)
            · split
              · exact same_plain hal ha' hb' (by simp)
              · exact hal.pushed hbg ha' hb' (by simp)
          · rw [hx, hy]; exact .inr ⟨_, rfl, rfl⟩
        · split
          · unfold lexGreater
            rcases h.read with ⟨d, l, l', hx, hy, hal, hbg⟩ | ⟨e, hx, hy⟩
            · rw [hx, hy]
              simp only
              have ha' := (char_tokenPos hx).trans ha
              have hb' := (char_tokenPos hy).trans hb
              split
              · exact same_plain hal ha' hb' (by simp)
              · exact hal.pushed hbg ha' hb' (by simp)
            · rw [hx, hy]; exact .inr ⟨_, rfl, rfl⟩
          · split
            · exact same_plain h ha hb (by simp)
            · exact same_plain h ha hb (by simp)

/-- The next token depends only on what is left of the line. -/
theorem Aligned.next {p : CStr} {a b : Lex} (h : Aligned p a b) :
    Both (fun x y => x.1 = y.1 ∧ Aligned p x.2 y.2 ∧ (x.1 = .num → x.2.word = y.2.word ∧ x.2.num = y.2.num) ∧
      x.2.tokenPos = p.length + y.2.tokenPos) (lexNext a) (lexNext b) := by
  unfold lexNext
  rw [h.fuel]
  rcases h.skip (blank := isBlank) (n := lexFuel b) with ⟨x, y, hx, hy, hc, hq, hal, hbg⟩ | ⟨e, hx, hy⟩
  · obtain ⟨c, q, l⟩ := x
    obtain ⟨c', q', l'⟩ := y
    rw [hx, hy]
    simp only at hc hq hal hbg ⊢
    subst hc
    rcases (hal.set rfl rfl rfl rfl rfl rfl : Aligned p { l with tokenPos := q } { l' with tokenPos := q' }).token hbg rfl rfl with
      ⟨u, v, hu, hv, h1, h2, h3, h4, h5⟩ | ⟨e, hu, hv⟩
    · exact .inl ⟨u, v, hu, hv, h1, h2, h3, by rw [h4, h5]; exact hq⟩
    · exact .inr ⟨e, hu, hv⟩
  · rw [hx, hy]; exact .inr ⟨_, rfl, rfl⟩

end LB
