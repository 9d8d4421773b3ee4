import Verif.Model.Lexer
/- The word of the lexer stays within its buffer. -/
namespace LB

/-- The word fits its buffer, with the terminating NUL. -/
def Lex.Fits (lex : Lex) : Prop := lex.word.length < maxWord

theorem fits_of_word {a b : Lex} (h : a.Fits) (hw : b.word = a.word) : b.Fits := by
  unfold Lex.Fits at *; rw [hw]; exact h

theorem keywordPrefix_short {s : CStr} {kw : Keyword} (h : keywordPrefix s = some kw) : kw.name.length < maxWord := by
  have hall : ∀ k ∈ keywords, k.name.length < maxWord := by decide +kernel
  unfold keywordPrefix keywordPrefixIn at h
  exact hall kw (List.mem_of_find?_eq_some h)

theorem lexChar_word {lex lex' : Lex} {c : Option Char} (h : lexChar lex = .ok (c, lex')) : lex'.word = lex.word := by
  unfold lexChar at h
  split at h
  · simp at h
  · split at h
    · simp only [Outcome.ok.injEq, Prod.mk.injEq] at h; rw [← h.2]
    · simp only [Outcome.ok.injEq, Prod.mk.injEq] at h
      rw [← h.2]
      split <;> rfl

theorem lexCharPos_word {lex lex' : Lex} {c : Option Char} {n : Nat} (h : lexCharPos lex = .ok (c, n, lex')) :
    lex'.word = lex.word := by
  unfold lexCharPos at h
  split at h
  · simp at h
  · rename_i hc
    simp only [Outcome.ok.injEq, Prod.mk.injEq] at h
    rw [← h.2.2]
    exact lexChar_word hc

theorem pushback_word {lex lex' : Lex} {c : Option Char} (h : pushback lex c = .ok lex') : lex'.word = lex.word := by
  unfold pushback at h
  split at h
  · simp at h
  · split at h
    · simp at h
    · split at h
      · simp only [Outcome.ok.injEq] at h; rw [← h]
      · split at h
        · simp at h
        · split at h
          · simp only [Outcome.ok.injEq] at h; rw [← h]
          · simp at h

theorem endWord_fits {lex lex' : Lex} {w : CStr} (h : endWord lex w = .ok lex') : lex'.Fits := by
  unfold endWord at h
  split at h
  · rename_i hw
    simp only [Outcome.ok.injEq] at h
    rw [← h]
    exact hw
  · simp at h

theorem skipBlanks_word {b : Char → Bool} {n : Nat} {lex lex' : Lex} {c : Option Char} {pos : Nat}
    (h : skipBlanks b n lex = .ok (c, pos, lex')) : lex'.word = lex.word := by
  induction n generalizing lex with
  | zero => simp [skipBlanks] at h
  | succ n ih =>
    simp only [skipBlanks] at h
    split at h
    · simp at h
    · rename_i hc
      split at h
      · rw [ih h, lexCharPos_word hc]
      · simp only [Outcome.ok.injEq, Prod.mk.injEq] at h
        rw [← h.2.2, lexCharPos_word hc]

theorem setToken_fits {lex lex' : Lex} {t t' : Tok} (h : (Outcome.ok (setToken lex t) : Outcome (Tok × Lex)) = .ok (t', lex'))
    (hw : lex.Fits) : lex'.Fits := by
  simp only [setToken, Outcome.ok.injEq, Prod.mk.injEq] at h
  rw [← h.2]
  exact hw

theorem nameLoopAnywhere_fits {n : Nat} {lex lex' : Lex} {w : CStr} {t : Tok}
    (h : nameLoopAnywhere n lex w = .ok (t, lex')) : lex'.Fits := by
  induction n generalizing lex w with
  | zero => simp [nameLoopAnywhere] at h
  | succ n ih =>
    simp only [nameLoopAnywhere] at h
    repeat' (first | (split at h) | exact ih h | (simp at h; done) |
      (rename_i hw; exact setToken_fits h (endWord_fits hw)))

theorem nameLoop_fits {n : Nat} {lex lex' : Lex} {w : CStr} {t : Tok}
    (h : nameLoop n lex w = .ok (t, lex')) : lex'.Fits := by
  induction n generalizing lex w with
  | zero => simp [nameLoop] at h
  | succ n ih =>
    simp only [nameLoop] at h
    repeat' (first | (split at h) | exact ih h | (simp at h; done) |
      (rename_i hw; exact setToken_fits h (endWord_fits hw)))

theorem lexToken_fits {lex lex' : Lex} {c : Option Char} {t : Tok} (h : lexToken lex c = .ok (t, lex')) (hw : lex.Fits) :
    lex'.Fits := by
  unfold lexToken at h
  split at h
  · split at h
    · unfold wordAnywhere at h
      split at h
      · simp at h
      · rename_i hp
        split at h
        · rename_i kw hk
          exact setToken_fits h (keywordPrefix_short hk)
        · repeat' (first | (split at h) | exact nameLoopAnywhere_fits h | (simp at h; done))
    · unfold wordSeparate at h
      split at h
      · simp at h
      · exact nameLoop_fits h
  · split at h
    · unfold lexNumber at h
      repeat' (first | (split at h) | (simp at h; done) | (rename_i hw; exact setToken_fits h (endWord_fits hw)))
      all_goals
        rename_i lex3 hw _ _ _ _ _
        exact setToken_fits h (show Lex.Fits lex3 from endWord_fits hw)
    · split at h
      · unfold lexString at h
        repeat' (first | (split at h) | (simp at h; done) | (rename_i hw; exact setToken_fits h (endWord_fits hw)))
        all_goals (rename_i hw _; exact setToken_fits h (endWord_fits hw))
      · split at h
        · unfold lexLess at h
          split at h
          · simp at h
          · rename_i hc
            have hw' := fits_of_word hw (lexChar_word hc)
            split at h
            · exact setToken_fits h hw'
            · split at h
              · exact setToken_fits h hw'
              · split at h
                · simp at h
                · rename_i hp
                  exact setToken_fits h (fits_of_word hw' (pushback_word hp))
        · split at h
          · unfold lexGreater at h
            split at h
            · simp at h
            · rename_i hc
              have hw' := fits_of_word hw (lexChar_word hc)
              split at h
              · exact setToken_fits h hw'
              · split at h
                · simp at h
                · rename_i hp
                  exact setToken_fits h (fits_of_word hw' (pushback_word hp))
          · split at h <;> exact setToken_fits h hw

theorem lexNext_fits {lex lex' : Lex} {t : Tok} (h : lexNext lex = .ok (t, lex')) (hw : lex.Fits) : lex'.Fits := by
  unfold lexNext at h
  split at h
  · simp at h
  · rename_i hs
    refine lexToken_fits h ?_
    have := skipBlanks_word hs
    unfold Lex.Fits at *
    simp only [this]
    exact hw

theorem lexNextData_fits {lex lex' : Lex} {w : CStr} (h : lexNextData lex = .ok (w, lex')) :
    lex'.Fits ∧ w.length < maxWord := by
  have key : ∀ {l : Lex} {w' : CStr}, endWord l w' = .ok lex' → w' = w → lex'.Fits ∧ w.length < maxWord := by
    intro l w' he hw
    subst hw
    refine ⟨endWord_fits he, ?_⟩
    unfold endWord at he
    split at he
    · assumption
    · simp at he
  unfold lexNextData at h
  split at h
  · simp at h
  · simp only at h
    split at h
    · split at h
      · simp at h
      · simp at h
      · split at h
        · split at h
          · simp at h
          · rename_i he
            simp only [Outcome.ok.injEq, Prod.mk.injEq] at h
            rw [h.2] at he
            exact key he h.1
        · simp at h
    · split at h
      · simp at h
      · simp at h
      · split at h
        · simp at h
        · split at h
          · simp at h
          · rename_i he
            simp only [Outcome.ok.injEq, Prod.mk.injEq] at h
            rw [h.2] at he
            exact key he h.1

end LB
