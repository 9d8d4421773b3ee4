import Verif.Proofs.Words
import Verif.Proofs.Token
/- Reading tokens: bounds and progress. -/
namespace LB

/-- A byte the lexer refuses. -/
def Invalid (c : Char) : Prop := c.toNat ≠ 255 ∧ 127 ≤ c.toNat

/-- The outcome is as described, or the process ends because the text has a byte that is not allowed. -/
def Tame (t : CStr) {α : Type} (Q : α → Prop) : Outcome α → Prop
  | .ok a => Q a
  | .halt h => h = .exit "invalid character on line" ∧ ∃ c ∈ t, Invalid c

theorem Tame.imp {t : CStr} {α : Type} {Q R : α → Prop} {o : Outcome α} (h : Tame t Q o) (hi : ∀ a, Q a → R a) : Tame t R o := by
  cases o with
  | ok a => exact hi a h
  | halt _ => exact h

/-- The lexer is inside the text `t`, not before `p`. -/
structure Within (t : CStr) (pre : Bool) (p : Nat) (lex : Lex) : Prop where
  text : lex.text = some t
  le : lex.pos ≤ t.length
  ge : p ≤ lex.pos
  mode : lex.prefixes = pre

/-- `c` is the character before the position (or the end of the line). -/
structure JustRead (t : CStr) (pre : Bool) (p : Nat) (lex : Lex) (c : Option Char) : Prop extends Within t pre p lex where
  was : (c = some '\n' ∧ lex.pos = t.length) ∨ (p < lex.pos ∧ t[lex.pos - 1]? = some (byteOf c))

theorem Within.word {t pre p lex} (h : Within t pre p lex) (w : CStr) : Within t pre p { lex with word := w } := ⟨h.1, h.2, h.3, h.4⟩
theorem Within.token {t pre p lex} (h : Within t pre p lex) (w : Tok) : Within t pre p { lex with token := w } := ⟨h.1, h.2, h.3, h.4⟩
theorem Within.mono {t pre p q lex} (h : Within t pre p lex) (hq : q ≤ p) : Within t pre q lex := ⟨h.1, h.2, Nat.le_trans hq h.3, h.4⟩
theorem JustRead.mono {t pre p q lex c} (h : JustRead t pre p lex c) (hq : q ≤ p) : JustRead t pre q lex c :=
  ⟨h.toWithin.mono hq, h.was.imp _root_.id (fun ⟨a, b⟩ => ⟨by omega, b⟩)⟩

theorem byteOf_asInt (c : Char) : byteOf (asInt c) = c := by
  unfold asInt
  split
  · rename_i h
    simp only [byteOf, ← h, Char.ofNat_toNat]
  · rfl

/-- Reading a character. -/
theorem lexPeek_tame {t pre p lex} (h : Within t pre p lex) :
    Tame t (fun c => (c = some '\n' ∧ lex.pos = t.length) ∨ (lex.pos < t.length ∧ t[lex.pos]? = some (byteOf c))) (lexPeek lex) := by
  unfold lexPeek
  simp only [h.text]
  rw [if_neg (by have := h.le; omega)]
  cases hc : t[lex.pos]? with
  | none =>
    have := List.getElem?_eq_none_iff.1 hc
    exact .inl ⟨rfl, by have := h.le; omega⟩
  | some c =>
    have hlt : lex.pos < t.length := by
      have := List.getElem?_eq_some_iff.1 hc
      exact this.1
    simp only [validate]
    by_cases hv : c.toNat ≠ 255 ∧ 127 ≤ c.toNat
    · simp only [if_pos hv]
      exact ⟨rfl, c, List.mem_of_getElem? hc, hv⟩
    · simp only [if_neg hv]
      exact .inr ⟨hlt, by rw [byteOf_asInt]⟩

theorem lexChar_tame {t pre p lex} (h : Within t pre p lex) :
    Tame t (fun r => JustRead t pre lex.pos r.2 r.1 ∧ (lex.pos < t.length → r.2.pos = lex.pos + 1) ∧
      (lex.pos = t.length → r.1 = some '\n' ∧ r.2.pos = lex.pos)) (lexChar lex) := by
  have hp := lexPeek_tame h
  unfold lexChar
  cases hc : lexPeek lex with
  | halt => rw [hc] at hp; exact hp
  | ok c =>
    rw [hc] at hp
    simp only [h.text]
    rcases hp with ⟨rfl, he⟩ | ⟨hl, hg⟩
    · rw [if_neg (by omega)]
      exact ⟨⟨⟨h.text, h.le, Nat.le_refl _, h.mode⟩, .inl ⟨rfl, he⟩⟩, fun _ => by omega, fun _ => ⟨rfl, rfl⟩⟩
    · rw [if_pos hl]
      exact ⟨⟨⟨rfl, hl, Nat.le_succ _, h.mode⟩, .inr ⟨Nat.lt_succ_self _, hg⟩⟩, fun _ => rfl, fun _ => by omega⟩

theorem pushback_tame {t pre p lex c} (h : JustRead t pre p lex c) : Tame t (fun l => Within t pre p l) (pushback lex c) := by
  unfold pushback
  simp only [h.text]
  rw [if_neg (by have := h.le; omega)]
  split
  · exact h.toWithin
  · rename_i hn
    rcases h.was with hw | ⟨hp, hg⟩
    · exact absurd hw hn
    · rw [if_neg (by omega), if_pos hg]
      exact ⟨rfl, by have := h.le; show lex.pos - 1 ≤ _; omega, by show p ≤ lex.pos - 1; omega, h.mode⟩

theorem testCh_newline {c : Option Char} {p : Char → Bool} (h : testCh p c = true) (hp : p '\n' = false) : c ≠ some '\n' := by
  rintro rfl
  simp [testCh, hp] at h

theorem JustRead.lt {t pre p lex c} (h : JustRead t pre p lex c) (hc : c ≠ some '\n') : p < lex.pos := by
  rcases h.was with ⟨a, _⟩ | ⟨a, _⟩
  · exact absurd a hc
  · exact a

theorem skipBlanks_tame {t pre} {b : Char → Bool} (hb : b '\n' = false) {n : Nat} {lex : Lex} {p : Nat} (h : Within t pre p lex)
    (hn : t.length - lex.pos < n) :
    Tame t (fun r => JustRead t pre lex.pos r.2.2 r.1 ∧ (lex.pos < t.length → lex.pos < r.2.2.pos) ∧
      (lex.pos = t.length → r.1 = some '\n' ∧ r.2.2.pos = lex.pos) ∧ lex.pos ≤ r.2.1 ∧ r.2.1 ≤ r.2.2.pos) (skipBlanks b n lex) := by
  induction n generalizing lex p with
  | zero => omega
  | succ n ih =>
    simp only [skipBlanks, lexCharPos]
    have hc := lexChar_tame h
    cases he : lexChar lex with
    | halt => rw [he] at hc; exact hc
    | ok r =>
      obtain ⟨c, l⟩ := r
      rw [he] at hc
      obtain ⟨hj, hlt, heq⟩ := hc
      simp only at hj hlt heq
      simp only [h.text, reduceCtorEq, if_false]
      have hle := h.le
      split
      · rename_i hbl
        have hne := testCh_newline hbl hb
        have hpos : lex.pos < t.length := by
          rcases Nat.lt_or_ge lex.pos t.length with h1 | h1
          · exact h1
          · exact absurd (heq (by omega)).1 hne
        have h1 := hlt hpos
        have := ih hj.toWithin (by omega)
        refine this.imp ?_
        rintro ⟨c2, q, l2⟩ ⟨a1, a2, a3, a4, a5⟩
        refine ⟨a1.mono (by omega), fun _ => ?_, fun _ => by omega, by simp only at a4 ⊢; omega, a5⟩
        rcases Nat.lt_or_ge l.pos t.length with h3 | h3
        · have := a2 h3; simp only at *; omega
        · have := (a3 (by have := hj.le; omega)).2; simp only at *; omega
      · exact ⟨hj, fun g => by have := hlt g; simp only; omega, fun g => heq g, Nat.le_refl _, hj.ge⟩

theorem putWord_tame {w : CStr} {c : Char} (h : w.length < maxWord) :
    putWord w c = .ok (w ++ [c]) := if_pos h

theorem endWord_ok {lex : Lex} {w : CStr} (h : w.length < maxWord) : endWord lex w = .ok { lex with word := w } := if_pos h

/-- The claims about a token read from position `p` on. -/
abbrev Read (t : CStr) (pre : Bool) (p : Nat) : Outcome (Tok × Lex) → Prop := Tame t (fun r => Within t pre p r.2)

theorem read_setToken {t pre p} {lex : Lex} (tok : Tok) (h : Within t pre p lex) : Read t pre p (.ok (setToken lex tok)) := h.token tok

theorem nameLoop_tame {t pre} {n : Nat} {lex : Lex} {p : Nat} {w : CStr} (h : Within t pre p lex) (hw : w.length + 2 ≤ maxWord)
    (hn : t.length - lex.pos < n) : Read t pre p (nameLoop n lex w) := by
  induction n generalizing lex w with
  | zero => omega
  | succ n ih =>
    simp only [nameLoop]
    have hc := lexChar_tame h
    cases he : lexChar lex with
    | halt => rw [he] at hc; exact hc
    | ok r =>
      obtain ⟨c, l⟩ := r
      rw [he] at hc
      obtain ⟨hj, hlt, heq⟩ := hc
      simp only at hj hlt heq
      have hj' := hj.mono h.ge
      have hle := h.le
      simp only
      split
      · rename_i ha
        have hne := testCh_newline ha (by decide)
        have hpos : lex.pos < t.length := by
          rcases Nat.lt_or_ge lex.pos t.length with h1 | h1
          · exact h1
          · exact absurd (heq (by omega)).1 hne
        split
        · rw [endWord_ok (by omega)]; exact read_setToken _ (hj'.toWithin.word _)
        · rw [putWord_tame (by omega)]
          exact ih hj'.toWithin (by simp only [List.length_append, List.length_singleton]; omega) (by have := hlt hpos; omega)
      · split
        · rw [putWord_tame (by omega)]
          simp only
          rw [endWord_ok (by simp only [List.length_append, List.length_singleton]; omega)]
          exact read_setToken _ (hj'.toWithin.word _)
        · have hp := pushback_tame hj'
          cases hb : pushback l c with
          | halt => rw [hb] at hp; exact hp
          | ok l2 =>
            rw [hb] at hp
            simp only
            rw [endWord_ok (by omega)]
            exact read_setToken _ (hp.word _)

theorem nameLoopAnywhere_tame {t pre} {n : Nat} {lex : Lex} {p : Nat} {w : CStr} (h : Within t pre p lex) (hw : w.length + 2 ≤ maxWord)
    (hn : t.length - lex.pos < n) : Read t pre p (nameLoopAnywhere n lex w) := by
  induction n generalizing lex w with
  | zero => omega
  | succ n ih =>
    simp only [nameLoopAnywhere]
    have hk := lexPeek_tame h
    cases hpk : lexPeek lex with
    | halt => rw [hpk] at hk; exact hk
    | ok c =>
      rw [hpk] at hk
      have hle := h.le
      simp only
      have hc := lexChar_tame h
      split
      · rename_i ha
        have hne := testCh_newline ha (by decide)
        have hpos : lex.pos < t.length := by
          rcases hk with ⟨hk, _⟩ | ⟨hk, _⟩
          · exact absurd hk hne
          · exact hk
        split
        · rw [endWord_ok (by omega)]; exact read_setToken _ (h.word _)
        · split
          · rw [endWord_ok (by omega)]; exact read_setToken _ (h.word _)
          · cases he : lexChar lex with
            | halt => rw [he] at hc; exact hc
            | ok r =>
              obtain ⟨c', l⟩ := r
              rw [he] at hc
              obtain ⟨hj, hlt, heq⟩ := hc
              simp only at hj hlt heq
              simp only
              rw [putWord_tame (by omega)]
              exact ih (hj.mono h.ge).toWithin (by simp only [List.length_append, List.length_singleton]; omega) (by have := hlt hpos; omega)
      · split
        · cases he : lexChar lex with
          | halt => rw [he] at hc; exact hc
          | ok r =>
            obtain ⟨c', l⟩ := r
            rw [he] at hc
            obtain ⟨hj, hlt, heq⟩ := hc
            simp only at hj hlt heq
            simp only
            rw [putWord_tame (by omega)]
            simp only
            rw [endWord_ok (by simp only [List.length_append, List.length_singleton]; omega)]
            exact read_setToken _ ((hj.mono h.ge).toWithin.word _)
        · rw [endWord_ok (by omega)]; exact read_setToken _ (h.word _)

theorem digitRun_tame {t pre} {n : Nat} {lex : Lex} {p : Nat} {w : CStr} {c : Option Char} (h : JustRead t pre p lex c) (hw : w.length < maxWord)
    (hn : t.length - lex.pos + 1 < n) :
    Tame t (fun r => match r with
      | .tooLong w l => w.length < maxWord ∧ Within t pre p l
      | .ok w c l => w.length < maxWord ∧ JustRead t pre p l c) (digitRun n lex w c) := by
  induction n generalizing lex w c with
  | zero => omega
  | succ n ih =>
    simp only [digitRun, appendCh]
    by_cases hd : testCh isdigit c = true
    · rw [if_pos hd]
      have hne := testCh_newline hd (by decide)
      by_cases hl : w.length + 1 ≥ maxWord
      · simp only [if_pos hl]; exact ⟨hw, h.toWithin⟩
      · simp only [if_neg hl]
        have hc := lexChar_tame h.toWithin
        cases he : lexChar lex with
        | halt => rw [he] at hc; exact hc
        | ok r =>
          obtain ⟨c', l⟩ := r
          rw [he] at hc
          obtain ⟨hj, hlt, heq⟩ := hc
          simp only at hj hlt heq
          simp only
          by_cases hpos : lex.pos < t.length
          · exact ih (hj.mono h.ge) (by simp only [List.length_append, List.length_singleton]; omega) (by have := hlt hpos; omega)
          · have h2 := heq (by have := h.le; omega)
            cases n with
            | zero => omega
            | succ m =>
              rw [h2.1]
              simp only [digitRun]
              rw [if_neg (by decide)]
              exact ⟨by simp only [List.length_append, List.length_singleton]; omega, by rw [← h2.1]; exact hj.mono h.ge⟩
    · rw [if_neg hd]
      exact ⟨hw, h⟩

/-- What a part of a number scan claims. -/
abbrev NumTame (t : CStr) (pre : Bool) (p : Nat) : Outcome NumScan → Prop := Tame t (fun r => match r with
      | .tooLong w l => w.length < maxWord ∧ Within t pre p l
      | .ok w c l => w.length < maxWord ∧ JustRead t pre p l c)

theorem lexFuel_eq {t pre p lex} (h : Within t pre p lex) : lexFuel lex = t.length - lex.pos + 2 := by
  simp only [lexFuel, h.text]

theorem appendThenDigits_tame {t pre p} {lex : Lex} {w : CStr} {c : Option Char} (h : JustRead t pre p lex c) (hw : w.length < maxWord) :
    NumTame t pre p (appendThenDigits lex w c) := by
  simp only [appendThenDigits, appendCh]
  by_cases hl : w.length + 1 ≥ maxWord
  · simp only [if_pos hl]; exact ⟨hw, h.toWithin⟩
  · simp only [if_neg hl]
    have hc := lexChar_tame h.toWithin
    cases he : lexChar lex with
    | halt => rw [he] at hc; exact hc
    | ok r =>
      obtain ⟨c', l⟩ := r
      rw [he] at hc
      obtain ⟨hj, _⟩ := hc
      have hj' := hj.mono h.ge
      exact digitRun_tame hj' (by simp only [List.length_append, List.length_singleton]; omega) (by rw [lexFuel_eq hj'.toWithin]; simp only; omega)

theorem scanFraction_tame {t pre p} {lex : Lex} {w : CStr} {c : Option Char} (h : JustRead t pre p lex c) (hw : w.length < maxWord) :
    NumTame t pre p (scanFraction lex w c) := by
  unfold scanFraction
  split
  · exact appendThenDigits_tame h hw
  · exact ⟨hw, h⟩

theorem scanExp_tame {t pre p} {lex : Lex} {w : CStr} {c : Option Char} (h : JustRead t pre p lex c) (hw : w.length < maxWord) :
    NumTame t pre p (scanExp lex w c) := by
  unfold scanExp
  split
  · simp only [appendCh]
    by_cases hl : w.length + 1 ≥ maxWord
    · simp only [if_pos hl]; exact ⟨hw, h.toWithin⟩
    · simp only [if_neg hl]
      have hc := lexChar_tame h.toWithin
      cases he : lexChar lex with
      | halt => rw [he] at hc; exact hc
      | ok r =>
        obtain ⟨c', l⟩ := r
        rw [he] at hc
        obtain ⟨hj, _⟩ := hc
        have hj' := hj.mono h.ge
        have hw' : (w ++ [byteOf c]).length < maxWord := by simp only [List.length_append, List.length_singleton]; omega
        simp only
        split
        · exact appendThenDigits_tame hj' hw'
        · exact digitRun_tame hj' hw' (by rw [lexFuel_eq hj'.toWithin]; simp only; omega)
  · exact ⟨hw, h⟩

theorem andThen_tame {t pre p} {r : Outcome NumScan} {k : Lex → CStr → Option Char → Outcome NumScan} (hr : NumTame t pre p r)
    (hk : ∀ lex w c, JustRead t pre p lex c → w.length < maxWord → NumTame t pre p (k lex w c)) : NumTame t pre p (NumScan.andThen r k) := by
  unfold NumScan.andThen
  split
  · exact hr
  · exact hr
  · exact hk _ _ _ hr.2 hr.1

theorem numberChars_tame {t pre p} {lex : Lex} {c : Option Char} (h : JustRead t pre p lex c) : NumTame t pre p (numberChars lex c) := by
  unfold numberChars
  refine andThen_tame (andThen_tame ?_ (fun _ _ _ => scanFraction_tame)) (fun _ _ _ => scanExp_tame)
  exact digitRun_tame h (by decide) (by rw [lexFuel_eq h.toWithin]; omega)

theorem runLoop_tame {t pre} {stop : Option Char → Bool} (hs : stop (some '\n') = true) {n : Nat} {lex : Lex} {p : Nat} {w : CStr}
    {c : Option Char} (h : JustRead t pre p lex c) (hw : w.length < maxWord) (hn : t.length - lex.pos + 1 < n) :
    Tame t (fun r => match r with
      | .tooLong w l => w.length < maxWord ∧ Within t pre p l
      | .ok w c l => w.length < maxWord ∧ JustRead t pre p l c) (runLoop stop n lex w c) := by
  induction n generalizing lex w c with
  | zero => omega
  | succ n ih =>
    simp only [runLoop]
    by_cases hd : stop c = true
    · rw [if_pos hd]; exact ⟨hw, h⟩
    · rw [if_neg hd]
      by_cases hl : w.length + 1 ≥ maxWord
      · simp only [if_pos hl]; exact ⟨hw, h.toWithin⟩
      · simp only [if_neg hl]
        rw [putWord_tame hw]
        have hc := lexChar_tame h.toWithin
        cases he : lexChar lex with
        | halt => rw [he] at hc; exact hc
        | ok r =>
          obtain ⟨c', l⟩ := r
          rw [he] at hc
          obtain ⟨hj, hlt, heq⟩ := hc
          simp only at hj hlt heq
          simp only
          have hw' : (w ++ [byteOf c]).length < maxWord := by simp only [List.length_append, List.length_singleton]; omega
          by_cases hpos : lex.pos < t.length
          · exact ih (hj.mono h.ge) hw' (by have := hlt hpos; omega)
          · have h2 := heq (by have := h.le; omega)
            cases n with
            | zero => omega
            | succ m =>
              rw [h2.1]
              simp only [runLoop, hs, if_true]
              exact ⟨hw', by rw [← h2.1]; exact hj.mono h.ge⟩

theorem runLoop_tooLong {t pre} {stop : Option Char → Bool} (hs : stop (some '\n') = true) {n : Nat} {lex l : Lex} {p : Nat} {w w' : CStr}
    {c : Option Char} (h : JustRead t pre p lex c) (hw : stop c = false → w.length + 1 ≤ lex.pos) (hr : runLoop stop n lex w c = .ok (.tooLong w' l)) :
    maxWord ≤ t.length := by
  induction n generalizing lex w c with
  | zero => cases hr
  | succ n ih =>
    simp only [runLoop] at hr
    by_cases hd : stop c = true
    · rw [if_pos hd] at hr; cases hr
    · rw [if_neg hd] at hr
      have hw := hw (by simpa using hd)
      by_cases hl : w.length + 1 ≥ maxWord
      · have := h.le; omega
      · simp only [if_neg hl] at hr
        rw [putWord_tame (by omega)] at hr
        have hc := lexChar_tame h.toWithin
        cases he : lexChar lex with
        | halt => rw [he] at hr; cases hr
        | ok r =>
          obtain ⟨c', l2⟩ := r
          rw [he] at hc hr
          obtain ⟨hj, hlt, heq⟩ := hc
          simp only at hj hlt heq hr
          refine ih (hj.mono h.ge) (fun hst => ?_) hr
          by_cases hpos : lex.pos < t.length
          · have := hlt hpos
            simp only [List.length_append, List.length_singleton]; omega
          · have h2 := heq (by have := h.le; omega)
            rw [h2.1, hs] at hst; cases hst

theorem runLoop_tooLong0 {t pre} {stop : Option Char → Bool} (hs : stop (some '\n') = true) {n : Nat} {lex l : Lex} {p : Nat} {w' : CStr}
    {c : Option Char} (h : JustRead t pre p lex c) (hr : runLoop stop n lex [] c = .ok (.tooLong w' l)) : maxWord ≤ t.length := by
  refine runLoop_tooLong hs h (fun hst => ?_) hr
  rcases h.was with h2 | h2
  · rw [h2.1, hs] at hst; cases hst
  · simp only [List.length_nil]; omega

theorem quotedRun_long {t pre p} {lex l : Lex} {w : CStr} (h : Within t pre p lex) (hr : quotedRun lex = .ok (.tooLong w l)) : maxWord ≤ t.length := by
  unfold quotedRun at hr
  have hc := lexChar_tame h
  cases he : lexChar lex with
  | halt => rw [he] at hr; cases hr
  | ok r =>
    obtain ⟨c', l⟩ := r
    rw [he] at hc hr
    exact runLoop_tooLong0 (by decide) hc.1 hr

theorem quotedRun_tame {t pre p} {lex : Lex} (h : Within t pre p lex) :
    Tame t (fun r => match r with
      | .tooLong w l => w.length < maxWord ∧ Within t pre p l
      | .ok w c l => w.length < maxWord ∧ JustRead t pre p l c) (quotedRun lex) := by
  unfold quotedRun
  have hc := lexChar_tame h
  cases he : lexChar lex with
  | halt => rw [he] at hc; exact hc
  | ok r =>
    obtain ⟨c', l⟩ := r
    rw [he] at hc
    have hj := hc.1.mono h.ge
    exact runLoop_tame (by decide) hj (by decide) (by rw [lexFuel_eq hj.toWithin]; simp only; omega)

theorem keywordPrefix_len {s : CStr} {kw : Keyword} (h : keywordPrefix s = some kw) : 0 < kw.len ∧ kw.len ≤ s.length := by
  have hall : ∀ k ∈ keywords, 0 < k.len ∧ k.len = k.name.length := by decide +kernel
  obtain ⟨hm, hs⟩ := (keywordPrefix_some_iff s kw).1 h
  have h1 := hall kw hm
  refine ⟨h1.1, ?_⟩
  have := sic_length _ _ hs
  rw [List.length_take] at this
  omega

theorem lexRemaining_length {t pre p lex} (h : Within t pre p lex) : (lexRemaining lex).length = t.length - lex.pos := by
  simp only [lexRemaining, h.text, List.length_drop]

theorem wordAnywhere_tame {t pre p} {lex : Lex} {c : Option Char} (h : JustRead t pre p lex c) (hc : testCh isalpha c = true) :
    Read t pre (p + 1) (wordAnywhere lex c) := by
  unfold wordAnywhere
  have hne := testCh_newline hc (by decide)
  have hp := pushback_tame h
  cases hb : pushback lex c with
  | halt => rw [hb] at hp; exact hp
  | ok l =>
    rw [hb] at hp
    have hp : Within t pre p l := hp
    simp only
    -- the character is there again
    have hlt : l.pos < t.length := by
      have hpos := h.lt hne
      unfold pushback at hb
      simp only [h.text] at hb
      rw [if_neg (by have := h.le; omega), if_neg (fun g => hne g.1), if_neg (by omega)] at hb
      split at hb
      · cases hb
        have := h.le
        show lex.pos - 1 < _
        omega
      · cases hb
    split
    · rename_i kw hk
      obtain ⟨h1, h2⟩ := keywordPrefix_len hk
      rw [lexRemaining_length hp] at h2
      refine read_setToken _ ⟨hp.text, ?_, ?_, hp.mode⟩
      · show l.pos + kw.len ≤ t.length; omega
      · have := hp.ge; show p + 1 ≤ l.pos + kw.len; omega
    · have hch := lexChar_tame hp
      cases he : lexChar l with
      | halt => rw [he] at hch; exact hch
      | ok r =>
        obtain ⟨c', l'⟩ := r
        rw [he] at hch
        obtain ⟨hj, hl, _⟩ := hch
        simp only at hj hl
        have hl := hl hlt
        simp only
        rw [putWord_tame (by decide)]
        have hw : Within t pre (p + 1) l' := ⟨hj.text, hj.le, by have := hp.ge; omega, hj.mode⟩
        exact nameLoopAnywhere_tame hw (by simp [maxWord]) (by rw [lexFuel_eq hw]; omega)

theorem wordSeparate_tame {t pre p} {lex : Lex} {c : Option Char} (h : Within t pre p lex) : Read t pre p (wordSeparate lex c) := by
  unfold wordSeparate
  rw [putWord_tame (by decide)]
  exact nameLoop_tame h (by simp [maxWord]) (by rw [lexFuel_eq h]; omega)

theorem lexNumber_tame {t pre p q} {lex : Lex} {c : Option Char} (h : JustRead t pre p lex c)
    (hq : ∀ w c' l, numberChars lex c = .ok (.ok w c' l) → JustRead t pre q l c')
    (hq2 : ∀ w l, numberChars lex c = .ok (.tooLong w l) → Within t pre q l) : Read t pre q (lexNumber lex c) := by
  unfold lexNumber
  have hn := numberChars_tame h
  cases he : numberChars lex c with
  | halt => rw [he] at hn; exact hn
  | ok r =>
    rw [he] at hn
    cases r with
    | tooLong w l =>
      simp only
      rw [endWord_ok hn.1]
      exact read_setToken _ ((hq2 w l he).word _)
    | ok w c' l =>
      simp only
      have hp := pushback_tame (hq w c' l he)
      cases hb : pushback l c' with
      | halt => rw [hb] at hp; exact hp
      | ok l2 =>
        rw [hb] at hp
        simp only
        rw [endWord_ok hn.1]
        have : Within t pre q { l2 with word := w, num := (strtod w).1 } := ⟨hp.text, hp.le, hp.ge, hp.mode⟩
        simp only
        split
        · exact read_setToken _ this
        · exact read_setToken _ this

theorem lexString_tame {t pre p} {lex : Lex} (h : Within t pre p lex) : Read t pre p (lexString lex) := by
  unfold lexString
  have hn := quotedRun_tame h
  cases he : quotedRun lex with
  | halt => rw [he] at hn; exact hn
  | ok r =>
    rw [he] at hn
    cases r with
    | tooLong w l =>
      simp only
      rw [endWord_ok hn.1]
      exact read_setToken _ (hn.2.word _)
    | ok w c' l =>
      simp only
      rw [endWord_ok hn.1]
      simp only
      split <;> exact read_setToken _ (hn.2.toWithin.word _)

theorem lexLess_tame {t pre p} {lex : Lex} (h : Within t pre p lex) : Read t pre p (lexLess lex) := by
  unfold lexLess
  have hc := lexChar_tame h
  cases he : lexChar lex with
  | halt => rw [he] at hc; exact hc
  | ok r =>
    obtain ⟨c', l⟩ := r
    rw [he] at hc
    have hj := hc.1.mono h.ge
    simp only at hj
    simp only
    split
    · exact read_setToken _ hj.toWithin
    · split
      · exact read_setToken _ hj.toWithin
      · have hp := pushback_tame hj
        cases hb : pushback l c' with
        | halt => rw [hb] at hp; exact hp
        | ok l2 => rw [hb] at hp; exact read_setToken _ hp

theorem lexGreater_tame {t pre p} {lex : Lex} (h : Within t pre p lex) : Read t pre p (lexGreater lex) := by
  unfold lexGreater
  have hc := lexChar_tame h
  cases he : lexChar lex with
  | halt => rw [he] at hc; exact hc
  | ok r =>
    obtain ⟨c', l⟩ := r
    rw [he] at hc
    have hj := hc.1.mono h.ge
    simp only at hj
    simp only
    split
    · exact read_setToken _ hj.toWithin
    · have hp := pushback_tame hj
      cases hb : pushback l c' with
      | halt => rw [hb] at hp; exact hp
      | ok l2 => rw [hb] at hp; exact read_setToken _ hp

/-- A number scan that starts with a digit or a point consumes it. -/
theorem numberChars_past {t pre p} {lex : Lex} {c : Option Char} (h : JustRead t pre p lex c)
    (hc : testCh isdigit c = true ∨ c = some '.') : NumTame t pre lex.pos (numberChars lex c) := by
  have step : ∀ {w : CStr} {n : Nat}, w.length < maxWord → ∀ (o : Outcome (Option Char × Lex)), o = lexChar lex → t.length - lex.pos + 1 < n →
      NumTame t pre lex.pos (match o with
        | .halt h => .halt h
        | .ok (c', lex') => digitRun n lex' w c') := by
    intro w n hw o ho hn
    have hch := lexChar_tame h.toWithin
    rw [← ho] at hch
    cases o with
    | halt => exact hch
    | ok r =>
      obtain ⟨c', l⟩ := r
      have hg : lex.pos ≤ l.pos := hch.1.ge
      have hj : JustRead t pre lex.pos l c' := hch.1
      exact digitRun_tame hj hw (by omega)
  unfold numberChars
  refine andThen_tame ?_ (fun _ _ _ => scanExp_tame)
  by_cases hd : testCh isdigit c = true
  · refine andThen_tame ?_ (fun _ _ _ => scanFraction_tame)
    rw [lexFuel_eq h.toWithin]
    show NumTame _ _ _ (digitRun (t.length - lex.pos + 2 + 1) lex [] c)
    simp only [digitRun, if_pos hd, appendCh]
    rw [if_neg (by decide)]
    have := step (w := [] ++ [byteOf c]) (n := t.length - lex.pos + 2) (by simp [maxWord]) (lexChar lex) rfl (by omega)
    exact this
  · have hc : c = some '.' := hc.resolve_left hd
    subst hc
    rw [lexFuel_eq h.toWithin]
    show NumTame _ _ _ (NumScan.andThen (digitRun (t.length - lex.pos + 2 + 1) lex [] (some '.')) scanFraction)
    simp only [digitRun, if_neg hd, NumScan.andThen, scanFraction, if_pos, appendThenDigits, appendCh]
    rw [if_neg (by decide)]
    simp only
    have hch := lexChar_tame h.toWithin
    cases he : lexChar lex with
    | halt => rw [he] at hch; exact hch
    | ok r =>
      obtain ⟨c', l⟩ := r
      rw [he] at hch
      have hj : JustRead t pre lex.pos l c' := hch.1
      simp only
      have g := digitRun_tame (w := ['.']) (n := lexFuel l + 1) hj (by decide) (by rw [lexFuel_eq hj.toWithin]; omega)
      exact g

theorem lexNumber_past {t pre p} {lex : Lex} {c : Option Char} (h : JustRead t pre p lex c)
    (hc : testCh isdigit c = true ∨ c = some '.') : Read t pre lex.pos (lexNumber lex c) := by
  have hn := numberChars_past h hc
  refine lexNumber_tame h ?_ ?_
  · intro w c' l he; rw [he] at hn; exact hn.2
  · intro w l he; rw [he] at hn; exact hn.2

theorem lexToken_tame {t pre p} {lex : Lex} {c : Option Char} (h : JustRead t pre p lex c) :
    Tame t (fun r => Within t pre p r.2 ∧ (p < lex.pos → p < r.2.pos) ∧
      (c = some '\n' → r.1 = .ch '\n' ∧ r.2.pos = lex.pos)) (lexToken lex c) := by
  have self : Within t pre lex.pos lex := ⟨h.text, h.le, Nat.le_refl _, h.mode⟩
  have up : ∀ {o : Outcome (Tok × Lex)}, Read t pre lex.pos o → c ≠ some '\n' →
      Tame t (fun r => Within t pre p r.2 ∧ (p < lex.pos → p < r.2.pos) ∧ (c = some '\n' → r.1 = .ch '\n' ∧ r.2.pos = lex.pos)) o := by
    intro o ho hne
    refine ho.imp (fun r hr => ⟨hr.mono h.ge, fun g => by have := hr.ge; omega, fun g => absurd g hne⟩)
  unfold lexToken
  split
  · rename_i ha
    have hne := testCh_newline ha (by decide)
    split
    · refine (wordAnywhere_tame h ha).imp (fun r hr => ⟨hr.mono (by omega), fun _ => ?_, fun g => absurd g hne⟩)
      have := hr.ge; omega
    · exact up (wordSeparate_tame self) hne
  · split
    · rename_i hd
      have hd' : testCh isdigit c = true ∨ c = some '.' := by
        simpa using hd
      have hne : c ≠ some '\n' := by
        rintro rfl
        rcases hd' with hd' | hd' <;> revert hd' <;> decide
      exact up (lexNumber_past h hd') hne
    · split
      · rename_i hc; exact up (lexString_tame self) (by rw [hc]; decide)
      · split
        · rename_i hc; exact up (lexLess_tame self) (by rw [hc]; decide)
        · split
          · rename_i hc; exact up (lexGreater_tame self) (by rw [hc]; decide)
          · split
            · exact ⟨h.toWithin.token _, fun g => g, fun g => by cases g⟩
            · exact ⟨h.toWithin.token _, fun g => g, fun g => by cases g; exact ⟨rfl, rfl⟩⟩

theorem lexNext_tame {t pre p} {lex : Lex} (h : Within t pre p lex) :
    Tame t (fun r => Within t pre lex.pos r.2 ∧ (lex.pos < t.length → lex.pos < r.2.pos) ∧
      (lex.pos = t.length → r.1 = .ch '\n' ∧ r.2.pos = lex.pos)) (lexNext lex) := by
  unfold lexNext
  have hs := skipBlanks_tame (b := isBlank) (by decide) h (n := lexFuel lex) (by rw [lexFuel_eq h]; omega)
  cases he : skipBlanks isBlank (lexFuel lex) lex with
  | halt => rw [he] at hs; exact hs
  | ok r =>
    obtain ⟨c, pos, l⟩ := r
    rw [he] at hs
    obtain ⟨hj, hlt, heq, _⟩ := hs
    simp only at hj hlt heq
    have hj' : JustRead t pre lex.pos { l with tokenPos := pos } c := ⟨⟨hj.text, hj.le, hj.ge, hj.mode⟩, hj.was⟩
    refine (lexToken_tame hj').imp ?_
    rintro r ⟨h1, h2, h3⟩
    refine ⟨h1, fun g => h2 (hlt g), fun g => ?_⟩
    obtain ⟨a, b⟩ := heq g
    obtain ⟨d, e⟩ := h3 a
    exact ⟨d, by rw [e]; exact b⟩

/-- The messages with which reading an item of `DATA` ends the process. -/
def DataHalt (t : CStr) (h : Halt) : Prop :=
  (h = .exit "invalid character on line" ∧ ∃ c ∈ t, Invalid c) ∨ (h = .exit "a string is too long" ∧ '"' ∈ t ∧ maxWord ≤ t.length) ∨
    (h = .exit "unterminated string" ∧ '"' ∈ t) ∨ (h = .exit "data is too long" ∧ maxWord ≤ t.length)

theorem trimRight_length (w : CStr) : (trimRight w).length ≤ w.length := by
  unfold trimRight
  have := (List.dropWhile_sublist isDataBlank (l := w.reverse)).length_le
  simpa using this

theorem lexNextData_tame {t pre p} {lex : Lex} (h : Within t pre p lex) :
    match lexNextData lex with
    | .ok (_, lex') => Within t pre lex.pos lex'
    | .halt e => DataHalt t e := by
  unfold lexNextData
  have hs := skipBlanks_tame (b := isDataBlank) (by decide) h (n := lexFuel lex) (by rw [lexFuel_eq h]; omega)
  cases he : skipBlanks isDataBlank (lexFuel lex) lex with
  | halt => rw [he] at hs; exact .inl hs
  | ok r =>
    obtain ⟨c, pos, l⟩ := r
    rw [he] at hs
    obtain ⟨hj, hlt, heq, _⟩ := hs
    simp only at hj hlt heq
    have hj' : JustRead t pre lex.pos { l with tokenPos := pos } c := ⟨⟨hj.text, hj.le, hj.ge, hj.mode⟩, hj.was⟩
    simp only
    by_cases hq : c = some '"'
    · have hmem : '"' ∈ t := by
        rcases hj.was with h2 | h2
        · rw [h2.1] at hq; cases hq
        · rw [hq] at h2; exact List.mem_of_getElem? h2.2
      simp only [if_pos hq]
      have hn := quotedRun_tame hj'.toWithin
      cases hr : quotedRun { l with tokenPos := pos } with
      | halt => rw [hr] at hn; exact .inl hn
      | ok r =>
        rw [hr] at hn
        cases r with
        | tooLong w l => exact .inr (.inl ⟨rfl, hmem, quotedRun_long hj'.toWithin hr⟩)
        | ok w c' l2 =>
          simp only
          by_cases hc' : c' = some '"'
          · simp only [if_pos hc']
            rw [endWord_ok hn.1]
            exact hn.2.toWithin.word _
          · simp only [if_neg hc']
            exact .inr (.inr (.inl ⟨rfl, hmem⟩))
    · simp only [if_neg hq]
      have hn := runLoop_tame (stop := endsDatum) (by decide) hj' (w := []) (by decide)
        (n := lexFuel { l with tokenPos := pos } + 1) (by rw [lexFuel_eq hj'.toWithin]; omega)
      cases hr : runLoop endsDatum (lexFuel { l with tokenPos := pos } + 1) { l with tokenPos := pos } [] c with
      | halt => rw [hr] at hn; exact .inl hn
      | ok r =>
        rw [hr] at hn
        cases r with
        | tooLong w l => exact .inr (.inr (.inr ⟨rfl, runLoop_tooLong0 (by decide) hj' hr⟩))
        | ok w c' l2 =>
          simp only
          have hp := pushback_tame hn.2
          cases hb : pushback l2 c' with
          | halt => rw [hb] at hp; exact .inl hp
          | ok l3 =>
            rw [hb] at hp
            simp only
            rw [endWord_ok (Nat.lt_of_le_of_lt (trimRight_length w) hn.1)]
            exact hp.word _

end LB
