import Verif.Proofs.Words
import Verif.Proofs.Arith
/- The numbers in the text of a program are doubles. -/
namespace LB
open LB.Spec

theorem valid_rnd (q : Rat) : Valid (Dbl.rnd q) := Dbl.rounded_valid (Dbl.rnd_rounded q)

theorem valid_zero : Valid (.fin 0) := Dbl.isDouble_zero

theorem valid_one : Valid (.fin 1) := ⟨1, 0, by decide, by decide, by decide, by decide +kernel⟩

theorem valid_minusOne : Valid (.fin (-1)) := ⟨-1, 0, by decide, by decide, by decide, by decide +kernel⟩

theorem valid_scan {s r : CStr} {x : Dbl} (h : scanUnsigned s = some (x, r)) : Valid x := by
  unfold scanUnsigned at h
  repeat' (first | split at h | (simp only [Option.some.injEq, Prod.mk.injEq] at h; obtain ⟨rfl, _⟩ := h; first | trivial | exact valid_rnd _) | cases h)

theorem valid_strtod (s : CStr) : Valid (strtod s).1 := by
  unfold strtod
  have sign : ∀ {x : Dbl} (b : Bool), Valid x → Valid (if b = true then x.neg else x) := by
    intro x b h
    cases b
    · exact h
    · exact Dbl.valid_neg h
  dsimp only
  split
  · exact valid_zero
  · rename_i h
    exact sign _ (valid_scan h)

theorem lexChar_number {lex lex' : Lex} {c : Option Char} (h : lexChar lex = .ok (c, lex')) : lex'.num = lex.num := by
  unfold lexChar at h
  split at h
  · simp at h
  · split at h
    · simp only [Outcome.ok.injEq, Prod.mk.injEq] at h; rw [← h.2]
    · simp only [Outcome.ok.injEq, Prod.mk.injEq] at h
      rw [← h.2]
      split <;> rfl

theorem lexCharPos_number {lex lex' : Lex} {c : Option Char} {n : Nat} (h : lexCharPos lex = .ok (c, n, lex')) :
    lex'.num = lex.num := by
  unfold lexCharPos at h
  split at h
  · simp at h
  · rename_i hc
    simp only [Outcome.ok.injEq, Prod.mk.injEq] at h
    rw [← h.2.2]
    exact lexChar_number hc

theorem pushback_number {lex lex' : Lex} {c : Option Char} (h : pushback lex c = .ok lex') : lex'.num = lex.num := by
  unfold pushback at h
  repeat' (first | split at h | (simp at h; done) | (simp only [Outcome.ok.injEq] at h; rw [← h]))

theorem endWord_number {lex lex' : Lex} {w : CStr} (h : endWord lex w = .ok lex') : lex'.num = lex.num := by
  unfold endWord at h
  repeat' (first | split at h | (simp at h; done) | (simp only [Outcome.ok.injEq] at h; rw [← h]))

theorem skipBlanks_number {b : Char → Bool} {n : Nat} {lex lex' : Lex} {c : Option Char} {pos : Nat}
    (h : skipBlanks b n lex = .ok (c, pos, lex')) : lex'.num = lex.num := by
  induction n generalizing lex with
  | zero => simp [skipBlanks] at h
  | succ n ih =>
    simp only [skipBlanks] at h
    split at h
    · simp at h
    · rename_i hc
      split at h
      · rw [ih h, lexCharPos_number hc]
      · simp only [Outcome.ok.injEq, Prod.mk.injEq] at h
        rw [← h.2.2, lexCharPos_number hc]

theorem setToken_number {lex lex' : Lex} {t t' : Tok} (h : (Outcome.ok (setToken lex t) : Outcome (Tok × Lex)) = .ok (t', lex')) :
    lex'.num = lex.num := by
  simp only [setToken, Outcome.ok.injEq, Prod.mk.injEq] at h
  rw [← h.2]

theorem nameLoopAnywhere_number {n : Nat} {lex lex' : Lex} {w : CStr} {t : Tok}
    (h : nameLoopAnywhere n lex w = .ok (t, lex')) : lex'.num = lex.num := by
  induction n generalizing lex w with
  | zero => simp [nameLoopAnywhere] at h
  | succ n ih =>
    simp only [nameLoopAnywhere] at h
    split at h
    · cases h
    · split at h
      · split at h
        · split at h
          · cases h
          · rename_i hw; exact (setToken_number h).trans (endWord_number hw)
        · split at h
          · split at h
            · cases h
            · rename_i hw; exact (setToken_number h).trans (endWord_number hw)
          · split at h
            · cases h
            · rename_i hc
              split at h
              · cases h
              · exact (ih h).trans (lexChar_number hc)
      · split at h
        · split at h
          · cases h
          · rename_i hc
            split at h
            · cases h
            · split at h
              · cases h
              · rename_i hw
                exact (setToken_number h).trans ((endWord_number hw).trans (lexChar_number hc))
        · split at h
          · cases h
          · rename_i hw; exact (setToken_number h).trans (endWord_number hw)

theorem nameLoop_number {n : Nat} {lex lex' : Lex} {w : CStr} {t : Tok}
    (h : nameLoop n lex w = .ok (t, lex')) : lex'.num = lex.num := by
  induction n generalizing lex w with
  | zero => simp [nameLoop] at h
  | succ n ih =>
    simp only [nameLoop] at h
    split at h
    · simp at h
    · rename_i hc
      refine Eq.trans ?_ (lexChar_number hc)
      split at h
      · split at h
        · split at h
          · cases h
          · rename_i hw; exact (setToken_number h).trans (endWord_number hw)
        · split at h
          · cases h
          · exact ih h
      · split at h
        · split at h
          · cases h
          · split at h
            · cases h
            · rename_i hw; exact (setToken_number h).trans (endWord_number hw)
        · split at h
          · cases h
          · rename_i hp
            split at h
            · cases h
            · rename_i hw; exact (setToken_number h).trans ((endWord_number hw).trans (pushback_number hp))

/-- The lexer after a part of a number. -/
def NumScan.lex : NumScan → Lex
  | .tooLong _ l => l
  | .ok _ _ l => l

/-- The lexer after characters up to a delimiter. -/
def RunScan.lex : RunScan → Lex
  | .tooLong _ l => l
  | .ok _ _ l => l

theorem digitRun_number {n : Nat} {lex : Lex} {w : CStr} {c : Option Char} {r : NumScan} (h : digitRun n lex w c = .ok r) :
    r.lex.num = lex.num := by
  induction n generalizing lex w c with
  | zero => simp [digitRun] at h
  | succ n ih =>
    simp only [digitRun] at h
    split at h
    · split at h
      · simp only [Outcome.ok.injEq] at h; rw [← h]; rfl
      · split at h
        · simp at h
        · rename_i hc
          exact (ih h).trans (lexChar_number hc)
    · simp only [Outcome.ok.injEq] at h; rw [← h]; rfl

theorem appendThenDigits_number {lex : Lex} {w : CStr} {c : Option Char} {r : NumScan} (h : appendThenDigits lex w c = .ok r) :
    r.lex.num = lex.num := by
  unfold appendThenDigits at h
  split at h
  · simp only [Outcome.ok.injEq] at h; rw [← h]; rfl
  · split at h
    · simp at h
    · rename_i hc
      exact (digitRun_number h).trans (lexChar_number hc)

theorem scanFraction_number {lex : Lex} {w : CStr} {c : Option Char} {r : NumScan} (h : scanFraction lex w c = .ok r) :
    r.lex.num = lex.num := by
  unfold scanFraction at h
  split at h
  · exact appendThenDigits_number h
  · simp only [Outcome.ok.injEq] at h; rw [← h]; rfl

theorem scanExp_number {lex : Lex} {w : CStr} {c : Option Char} {r : NumScan} (h : scanExp lex w c = .ok r) :
    r.lex.num = lex.num := by
  unfold scanExp at h
  split at h
  · split at h
    · simp only [Outcome.ok.injEq] at h; rw [← h]; rfl
    · split at h
      · simp at h
      · rename_i hc
        split at h
        · exact (appendThenDigits_number h).trans (lexChar_number hc)
        · exact (digitRun_number h).trans (lexChar_number hc)
  · simp only [Outcome.ok.injEq] at h; rw [← h]; rfl

theorem andThen_number {lex : Lex} {o : Outcome NumScan} {k : Lex → CStr → Option Char → Outcome NumScan} {r : NumScan}
    (ho : ∀ s, o = .ok s → s.lex.num = lex.num) (hk : ∀ l w c s, k l w c = .ok s → s.lex.num = l.num)
    (h : NumScan.andThen o k = .ok r) : r.lex.num = lex.num := by
  unfold NumScan.andThen at h
  split at h
  · simp at h
  · simp only [Outcome.ok.injEq] at h; rw [← h]; exact ho _ rfl
  · exact (hk _ _ _ _ h).trans (ho _ rfl)

theorem numberChars_number {lex : Lex} {c : Option Char} {r : NumScan} (h : numberChars lex c = .ok r) : r.lex.num = lex.num :=
  andThen_number (fun _ hs => andThen_number (fun _ h' => digitRun_number h') (fun _ _ _ _ h' => scanFraction_number h') hs)
    (fun _ _ _ _ h' => scanExp_number h') h

theorem runLoop_number {stop : Option Char → Bool} {n : Nat} {lex : Lex} {w : CStr} {c : Option Char} {r : RunScan}
    (h : runLoop stop n lex w c = .ok r) : r.lex.num = lex.num := by
  induction n generalizing lex w c with
  | zero => simp [runLoop] at h
  | succ n ih =>
    simp only [runLoop] at h
    split at h
    · simp only [Outcome.ok.injEq] at h; rw [← h]; rfl
    · split at h
      · simp only [Outcome.ok.injEq] at h; rw [← h]; rfl
      · split at h
        · simp at h
        · split at h
          · simp at h
          · rename_i hc
            exact (ih h).trans (lexChar_number hc)

theorem quotedRun_number {lex : Lex} {r : RunScan} (h : quotedRun lex = .ok r) : r.lex.num = lex.num := by
  unfold quotedRun at h
  split at h
  · simp at h
  · rename_i hc
    exact (runLoop_number h).trans (lexChar_number hc)

theorem lexToken_number {lex lex' : Lex} {c : Option Char} {t : Tok} (h : lexToken lex c = .ok (t, lex')) (hv : Valid lex.num) :
    Valid lex'.num := by
  have same : ∀ {l : Lex}, l.num = lex.num → Valid l.num := fun e => e ▸ hv
  unfold lexToken at h
  split at h
  · split at h
    · unfold wordAnywhere at h
      split at h
      · simp at h
      · rename_i hp
        split at h
        · refine same ((setToken_number h).trans ?_)
          exact (pushback_number hp :)
        · split at h
          · simp at h
          · rename_i hc
            split at h
            · simp at h
            · exact same ((nameLoopAnywhere_number h).trans ((lexChar_number hc).trans (pushback_number hp)))
    · unfold wordSeparate at h
      split at h
      · simp at h
      · exact same (nameLoop_number h)
  · split at h
    · unfold lexNumber at h
      split at h
      · simp at h
      · rename_i hn
        split at h
        · simp at h
        · rename_i hw
          exact same ((setToken_number h).trans ((endWord_number hw).trans (numberChars_number hn)))
      · split at h
        · simp at h
        · split at h
          · simp at h
          · dsimp only at h
            split at h <;> rw [setToken_number h] <;> exact valid_strtod _
    · split at h
      · unfold lexString at h
        split at h
        · simp at h
        · rename_i hn
          split at h
          · simp at h
          · rename_i hw
            exact same ((setToken_number h).trans ((endWord_number hw).trans (quotedRun_number hn)))
        · rename_i hn
          split at h
          · simp at h
          · rename_i hw
            split at h <;> exact same ((setToken_number h).trans ((endWord_number hw).trans (quotedRun_number hn)))
      · split at h
        · unfold lexLess at h
          split at h
          · simp at h
          · rename_i hc
            repeat' (first | split at h | (simp at h; done) | exact same ((setToken_number h).trans (lexChar_number hc)) |
              (rename_i hp; exact same ((setToken_number h).trans ((pushback_number hp).trans (lexChar_number hc)))))
        · split at h
          · unfold lexGreater at h
            split at h
            · simp at h
            · rename_i hc
              repeat' (first | split at h | (simp at h; done) | exact same ((setToken_number h).trans (lexChar_number hc)) |
                (rename_i hp; exact same ((setToken_number h).trans ((pushback_number hp).trans (lexChar_number hc)))))
          · split at h <;> exact same (setToken_number h)

theorem lexNext_number {lex lex' : Lex} {t : Tok} (h : lexNext lex = .ok (t, lex')) (hv : Valid lex.num) : Valid lex'.num := by
  unfold lexNext at h
  split at h
  · simp at h
  · rename_i hs
    refine lexToken_number h ?_
    exact skipBlanks_number hs ▸ hv

theorem lexNextData_number {lex lex' : Lex} {w : CStr} (h : lexNextData lex = .ok (w, lex')) : lex'.num = lex.num := by
  unfold lexNextData at h
  split at h
  · simp at h
  · rename_i hs
    refine Eq.trans ?_ (skipBlanks_number hs)
    simp only at h
    split at h
    · split at h
      · simp at h
      · simp at h
      · rename_i hq
        split at h
        · split at h
          · simp at h
          · rename_i he
            simp only [Outcome.ok.injEq, Prod.mk.injEq] at h
            rw [← h.2]
            exact (endWord_number he).trans (quotedRun_number hq)
        · simp at h
    · split at h
      · simp at h
      · simp at h
      · rename_i hq
        split at h
        · simp at h
        · rename_i hp
          split at h
          · simp at h
          · rename_i he
            simp only [Outcome.ok.injEq, Prod.mk.injEq] at h
            rw [← h.2]
            exact (endWord_number he).trans ((pushback_number hp).trans (runLoop_number hq))

/-- The word fits its buffer and the number is a double. -/
structure Lex.Sound (lex : Lex) : Prop where
  fits : lex.Fits
  num : Valid lex.num

theorem sound_new (pre : Bool) : (newLex pre).Sound := ⟨(by show 0 < maxWord; decide), valid_zero⟩

theorem lexNext_sound {lex lex' : Lex} {t : Tok} (h : lexNext lex = .ok (t, lex')) (hw : lex.Sound) : lex'.Sound :=
  ⟨lexNext_fits h hw.fits, lexNext_number h hw.num⟩

end LB
