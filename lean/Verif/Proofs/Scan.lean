import Verif.Spec.Lexing
import Verif.Proofs.Lexer
/- Which token is read from which text. -/
namespace LB
open LB.Spec

/-- The lexer `n` characters ahead. -/
def adv (lex : Lex) (n : Nat) : Lex := { lex with pos := lex.pos + n }

/-- What the lexer sees next. -/
def headCh : CStr → Option Char
  | [] => some '\n'
  | c :: _ => some c

theorem adv_zero (lex : Lex) : adv lex 0 = lex := rfl
theorem adv_adv (lex : Lex) (a b : Nat) : adv (adv lex a) b = adv lex (a + b) := by
  simp only [adv, Nat.add_assoc]

theorem Spec.Left.adv {lex : Lex} {a r : CStr} (h : Left lex (a ++ r)) : Left (LB.adv lex a.length) r := by
  obtain ⟨t, h1, h2, h3⟩ := h
  refine ⟨t, h1, ?_, ?_⟩
  · have := congrArg List.length h3
    simp only [List.length_drop, List.length_append] at this
    show lex.pos + a.length ≤ t.length
    omega
  · show t.drop (lex.pos + a.length) = r
    rw [← List.drop_drop, h3, List.drop_left]

theorem Spec.Left.tail {lex : Lex} {c : Char} {r : CStr} (h : Left lex (c :: r)) : Left (LB.adv lex 1) r :=
  Spec.Left.adv (a := [c]) h

theorem plain_not_invalid {c : Char} (h : Plain c) : ¬ (c.toNat ≠ 255 ∧ 127 ≤ c.toNat) := by
  have := h.1; omega

theorem asInt_plain {c : Char} (h : Plain c) : asInt c = some c := by
  have := h.1
  unfold asInt
  rw [if_neg (by omega)]

theorem lexPeek_left {lex : Lex} {r : CStr} (h : Left lex r) (hr : Clean r) : lexPeek lex = .ok (headCh r) := by
  obtain ⟨t, h1, h2, h3⟩ := h
  unfold lexPeek
  simp only [h1]
  rw [if_neg (by omega)]
  cases r with
  | nil =>
    have : t[lex.pos]? = none := by
      have := congrArg List.length h3
      simp only [List.length_drop, List.length_nil] at this
      exact List.getElem?_eq_none (by omega)
    rw [this]
    rfl
  | cons c r =>
    have : t[lex.pos]? = some c := by
      have := List.getElem?_drop (xs := t) (i := lex.pos) (j := 0)
      rw [h3] at this
      simpa using this.symm
    rw [this]
    have hc := hr c rfl
    simp only [validate]
    rw [if_neg (plain_not_invalid hc), asInt_plain hc]
    rfl

theorem lexChar_left {lex : Lex} {r : CStr} (h : Left lex r) (hr : Clean r) :
    lexChar lex = .ok (headCh r, adv lex (min 1 r.length)) := by
  unfold lexChar
  rw [lexPeek_left h hr]
  obtain ⟨t, h1, h2, h3⟩ := h
  simp only [h1]
  have := congrArg List.length h3
  simp only [List.length_drop] at this
  cases r with
  | nil =>
    simp only [List.length_nil] at this
    rw [if_neg (by omega)]
    rfl
  | cons c r =>
    simp only [List.length_cons] at this
    rw [if_pos (by omega)]
    simp [adv, h1]

theorem lexChar_cons {lex : Lex} {c : Char} {r : CStr} (h : Left lex (c :: r)) (hc : Plain c) :
    lexChar lex = .ok (some c, adv lex 1) := by
  rw [lexChar_left h (fun d hd => by cases hd; exact hc)]
  simp only [List.length_cons, headCh]
  rw [Nat.min_eq_left (by omega)]

theorem lexChar_nil {lex : Lex} (h : Left lex []) : lexChar lex = .ok (some '\n', lex) := by
  rw [lexChar_left h (fun d hd => by cases hd)]
  rfl

theorem pushback_left {lex : Lex} {r : CStr} (h : Left lex r) (hr : Clean r) :
    pushback (adv lex (min 1 r.length)) (headCh r) = .ok lex := by
  obtain ⟨t, h1, h2, h3⟩ := h
  have hl := congrArg List.length h3
  simp only [List.length_drop] at hl
  unfold pushback
  simp only [adv, h1]
  cases r with
  | nil =>
    simp only [List.length_nil] at hl
    simp only [List.length_nil, Nat.min_eq_right (Nat.zero_le 1), Nat.add_zero]
    rw [if_neg (by omega), if_pos ⟨rfl, by omega⟩]
    simp [← h1]
  | cons c r =>
    simp only [List.length_cons] at hl
    have hm : min 1 (c :: r).length = 1 := by simp only [List.length_cons]; omega
    rw [hm]
    have hc := hr c rfl
    rw [if_neg (by omega), if_neg (by simp only [headCh, Option.some.injEq]; exact fun g => hc.2 g.1), if_neg (by omega)]
    have : t[lex.pos]? = some c := by
      have := List.getElem?_drop (xs := t) (i := lex.pos) (j := 0)
      rw [h3] at this
      simpa using this.symm
    simp only [Nat.add_sub_cancel]
    rw [if_pos (by rw [this]; rfl)]
    simp [← h1]

theorem left_fuel {lex : Lex} {r : CStr} (h : Left lex r) : lexFuel lex = r.length + 2 := by
  obtain ⟨t, h1, h2, h3⟩ := h
  have hl := congrArg List.length h3
  simp only [List.length_drop] at hl
  simp only [lexFuel, h1]
  omega

theorem left_remaining {lex : Lex} {r : CStr} (h : Left lex r) : lexRemaining lex = r := by
  obtain ⟨t, h1, h2, h3⟩ := h
  simp only [lexRemaining, h1, h3]

theorem left_text {lex : Lex} {r : CStr} (h : Left lex r) : lex.text ≠ none := by
  obtain ⟨t, h1, _⟩ := h
  rw [h1]; exact fun g => by cases g

theorem Spec.Left.set {lex lex' : Lex} {r : CStr} (h : Left lex r) (h1 : lex'.text = lex.text) (h2 : lex'.pos = lex.pos) : Left lex' r := by
  obtain ⟨t, a, b, c⟩ := h
  exact ⟨t, h1.trans a, h2 ▸ b, h2 ▸ c⟩

/-! White space -/

theorem skipBlanks_left {blank : Char → Bool} (hp : ∀ c, blank c = true → Plain c) {bs r : CStr} {n : Nat} {lex : Lex}
    (h : Left lex (bs ++ r)) (hb : ∀ c ∈ bs, blank c = true) (hr : Clean r) (hh : testCh blank (headCh r) = false) (hn : bs.length < n) :
    skipBlanks blank n lex = .ok (headCh r, lex.pos + bs.length, adv lex (bs.length + min 1 r.length)) := by
  induction bs generalizing lex n with
  | nil =>
    cases n with
    | zero => omega
    | succ n =>
      simp only [skipBlanks, lexCharPos, lexChar_left (h : Left lex r) hr]
      rw [if_neg (left_text h)]
      simp [hh]
  | cons c bs ih =>
    cases n with
    | zero => omega
    | succ n =>
      have hc := hb c List.mem_cons_self
      simp only [skipBlanks, lexCharPos, lexChar_cons (h : Left lex (c :: (bs ++ r))) (hp c hc)]
      rw [if_pos (show testCh blank (some c) = true from hc)]
      rw [ih (Spec.Left.tail h) (fun d hd => hb d (List.mem_cons_of_mem _ hd)) (by simp only [List.length_cons] at hn; omega)]
      simp only [adv_adv, List.length_cons]
      simp only [adv]
      congr 3
      · omega
      · congr 2; omega

theorem blank_plain : ∀ c, isBlank c = true → Plain c := by
  intro c h
  simp only [isBlank, Bool.or_eq_true, beq_iff_eq] at h
  rcases h with (rfl | rfl) | rfl <;> decide

theorem dataBlank_plain : ∀ c, isDataBlank c = true → Plain c := by
  intro c h
  simp only [isDataBlank, Bool.or_eq_true, beq_iff_eq] at h
  rcases h with rfl | rfl <;> decide

/-- A token starts at the first character that is not blank. -/
theorem lexNext_left {lex : Lex} {bs r : CStr} (h : Left lex (bs ++ r)) (hb : ∀ c ∈ bs, isBlank c = true) (hr : Clean r)
    (hh : testCh isBlank (headCh r) = false) :
    lexNext lex = lexToken { adv lex (bs.length + min 1 r.length) with tokenPos := lex.pos + bs.length } (headCh r) := by
  unfold lexNext
  rw [skipBlanks_left blank_plain h hb hr hh (by rw [left_fuel h]; simp only [List.length_append]; omega)]

/-! Names -/

theorem alnum_plain {c : Char} (h : isalnum c = true) : Plain c := by
  simp only [isalnum, isalpha, isupper, islower, isdigit, Bool.or_eq_true, decide_eq_true_eq] at h
  refine ⟨by omega, ?_⟩
  rintro rfl
  revert h; decide

theorem nameLoop_left {n : Nat} {lex : Lex} {w x r : CStr} (h : Left lex (x ++ r)) (hx : ∀ c ∈ x, isalnum c = true) (hr : Clean r)
    (hh : testCh isalnum (headCh r) = false) (hl : w.length + x.length ≤ 126) (hn : x.length < n) :
    nameLoop n lex w =
      (if r.head? = some '$' then
        .ok (setToken { adv lex (x.length + 1) with word := w ++ x ++ ['$'] } (identifierToken (w ++ x ++ ['$'])))
      else .ok (setToken { adv lex x.length with word := w ++ x } (identifierToken (w ++ x)))) := by
  induction x generalizing lex n w with
  | nil =>
    cases n with
    | zero => omega
    | succ n =>
      have h : Left lex r := h
      simp only [List.length_nil, Nat.add_zero] at hl
      simp only [nameLoop, lexChar_left h hr, hh, Bool.false_eq_true, if_false, List.append_nil, List.length_nil, Nat.zero_add, adv_zero]
      by_cases hd : r.head? = some '$'
      · cases r with
        | nil => cases hd
        | cons c r =>
          simp only [List.head?_cons, Option.some.injEq] at hd
          subst hd
          simp only [headCh, if_true, List.head?_cons]
          rw [putWord_tame (by simp only [maxWord]; omega)]
          simp only
          rw [endWord_ok (by simp only [List.length_append, List.length_singleton, maxWord]; omega)]
          have : min 1 ('$' :: r).length = 1 := by simp only [List.length_cons]; omega
          simp only [this, adv]
      · rw [if_neg (show ¬ headCh r = some '$' from by
          cases r with
          | nil => simp [headCh]
          | cons c r => exact hd), pushback_left h hr, if_neg hd]
        simp only
        rw [endWord_ok (by simp only [maxWord]; omega)]
  | cons c x ih =>
    cases n with
    | zero => omega
    | succ n =>
      have hc := hx c List.mem_cons_self
      simp only [List.length_cons] at hl hn
      simp only [nameLoop, lexChar_cons (h : Left lex (c :: (x ++ r))) (alnum_plain hc)]
      rw [if_pos (show testCh isalnum (some c) = true from hc), if_neg (by simp only [maxWord]; omega), putWord_tame (by simp only [maxWord]; omega)]
      simp only [byteOf]
      rw [ih (Spec.Left.tail h) (fun d hd => hx d (List.mem_cons_of_mem _ hd)) (by simp only [List.length_append, List.length_singleton]; omega) (by omega)]
      simp only [adv_adv, List.append_assoc, List.singleton_append, List.length_cons]
      have e1 : 1 + (x.length + 1) = x.length + 1 + 1 := by omega
      have e2 : 1 + x.length = x.length + 1 := by omega
      rw [e1, e2]

/-! Quoted strings -/

theorem runLoop_left {stop : Option Char → Bool} {n : Nat} {lex : Lex} {w x r : CStr} {c : Char} (h : Left lex (x ++ r))
    (hs : ∀ d ∈ c :: x, stop (some d) = false) (hp : ∀ d ∈ x, Plain d) (hr : Clean r) (hh : stop (headCh r) = true)
    (hl : w.length + x.length + 1 ≤ 127) (hn : x.length + 1 < n) :
    runLoop stop n lex w (some c) = .ok (.ok (w ++ c :: x) (headCh r) (adv lex (x.length + min 1 r.length))) := by
  induction x generalizing lex n w c with
  | nil =>
    obtain ⟨n, rfl⟩ : ∃ m, n = m + 2 := ⟨n - 2, by omega⟩
    simp only [List.length_nil] at hl
    have h : Left lex r := h
    simp only [runLoop, hs c List.mem_cons_self, Bool.false_eq_true, if_false]
    rw [if_neg (by simp only [maxWord]; omega), putWord_tame (by simp only [maxWord]; omega), lexChar_left h hr]
    simp only [hh, if_true, byteOf, List.length_nil, Nat.zero_add]
  | cons d x ih =>
    obtain ⟨n, rfl⟩ : ∃ m, n = m + 1 := ⟨n - 1, by omega⟩
    simp only [List.length_cons] at hl hn
    simp only [runLoop, hs c List.mem_cons_self, Bool.false_eq_true, if_false]
    rw [if_neg (by simp only [maxWord]; omega), putWord_tame (by simp only [maxWord]; omega),
      lexChar_cons (h : Left lex (d :: (x ++ r))) (hp d List.mem_cons_self)]
    simp only [byteOf]
    rw [ih (Spec.Left.tail h) (fun e he => hs e (List.mem_cons_of_mem _ he)) (fun e he => hp e (List.mem_cons_of_mem _ he))
      (by simp only [List.length_append, List.length_singleton]; omega) (by omega)]
    simp only [adv_adv, List.append_assoc, List.singleton_append, List.length_cons]
    have e1 : 1 + (x.length + min 1 r.length) = x.length + 1 + min 1 r.length := by omega
    rw [e1]

theorem runLoop_stop {stop : Option Char → Bool} {n : Nat} {lex : Lex} {w : CStr} {c : Option Char} (hs : stop c = true) :
    runLoop stop (n + 1) lex w c = .ok (.ok w c lex) := by
  simp only [runLoop, hs, if_true]

/-- The text up to the delimiter, starting after a character already read. -/
theorem quotedRun_left {lex : Lex} {x r : CStr} (h : Left lex (x ++ r)) (hs : ∀ d ∈ x, endsString (some d) = false) (hp : ∀ d ∈ x, Plain d)
    (hr : Clean r) (hh : endsString (headCh r) = true) (hl : x.length ≤ 127) :
    quotedRun lex = .ok (.ok x (headCh r) (adv lex (x.length + min 1 r.length))) := by
  unfold quotedRun
  cases x with
  | nil =>
    have h : Left lex r := h
    rw [lexChar_left h hr]
    simp only
    rw [runLoop_stop hh]
    simp
  | cons c x =>
    rw [lexChar_cons (h : Left lex (c :: (x ++ r))) (hp c List.mem_cons_self)]
    simp only
    have ht : Left (adv lex 1) (x ++ r) := Spec.Left.tail h
    rw [runLoop_left (w := []) (n := lexFuel (adv lex 1) + 1) ht hs (fun e he => hp e (List.mem_cons_of_mem _ he)) hr hh
      (by simp only [List.length_cons] at hl; simp only [List.length_nil]; omega) (by rw [left_fuel ht]; simp only [List.length_append]; omega)]
    simp only [adv_adv, List.nil_append, List.length_cons]
    have e1 : 1 + (x.length + min 1 r.length) = x.length + 1 + min 1 r.length := by omega
    rw [e1]

/-! Numbers -/

/-- The lexer just after reading the next character of `r`. -/
def ahead (lex : Lex) (r : CStr) : Lex := adv lex (min 1 r.length)

theorem headCh_cons (c : Char) (r : CStr) : headCh (c :: r) = some c := rfl

theorem ahead_cons (lex : Lex) (c : Char) (r : CStr) : ahead lex (c :: r) = adv lex 1 := by
  unfold ahead
  rw [Nat.min_eq_left (by simp only [List.length_cons]; omega)]

theorem digit_plain {c : Char} (h : isdigit c = true) : Plain c := alnum_plain (by simp [isalnum, h])

theorem digitRun_left {n : Nat} {lex : Lex} {w x r : CStr} (h : Left lex (x ++ r)) (hx : ∀ d ∈ x, isdigit d = true) (hr : Clean r)
    (hh : testCh isdigit (headCh r) = false) (hl : w.length + x.length ≤ 127) (hn : x.length < n) :
    digitRun n (ahead lex (x ++ r)) w (headCh (x ++ r)) = .ok (.ok (w ++ x) (headCh r) (ahead (adv lex x.length) r)) := by
  induction x generalizing lex n w with
  | nil =>
    obtain ⟨n, rfl⟩ : ∃ m, n = m + 1 := ⟨n - 1, by omega⟩
    simp only [List.nil_append, digitRun, hh, Bool.false_eq_true, if_false, List.append_nil, List.length_nil, adv_zero]
  | cons c x ih =>
    obtain ⟨n, rfl⟩ : ∃ m, n = m + 1 := ⟨n - 1, by omega⟩
    simp only [List.length_cons] at hl hn
    have hc := hx c List.mem_cons_self
    have ht : Left (adv lex 1) (x ++ r) := Spec.Left.tail h
    have hcl : Clean (x ++ r) := by
      cases x with
      | nil => exact hr
      | cons d x => intro e he; cases he; exact digit_plain (hx d (by simp))
    simp only [List.cons_append, headCh_cons, ahead_cons, digitRun]
    rw [if_pos (show testCh isdigit (some c) = true from hc)]
    simp only [appendCh]
    rw [if_neg (by simp only [maxWord]; omega), lexChar_left ht hcl]
    simp only [byteOf]
    have := ih (w := w ++ [c]) (n := n) ht (fun d hd => hx d (List.mem_cons_of_mem _ hd))
      (by simp only [List.length_append, List.length_singleton]; omega) (by omega)
    unfold ahead at this ⊢
    rw [this]
    simp only [adv_adv, List.append_assoc, List.singleton_append, List.length_cons]
    have e1 : 1 + x.length = x.length + 1 := by omega
    rw [e1]

theorem appendThenDigits_left {lex : Lex} {w x r : CStr} {c : Char} (h : Left lex (c :: (x ++ r))) (hx : ∀ d ∈ x, isdigit d = true) (hr : Clean r)
    (hh : testCh isdigit (headCh r) = false) (hl : w.length + x.length + 1 ≤ 127) :
    appendThenDigits (adv lex 1) w (some c) = .ok (.ok (w ++ c :: x) (headCh r) (ahead (adv lex (x.length + 1)) r)) := by
  have ht : Left (adv lex 1) (x ++ r) := Spec.Left.tail h
  have hcl : Clean (x ++ r) := by
    cases x with
    | nil => exact hr
    | cons d x => intro e he; cases he; exact digit_plain (hx d (by simp))
  simp only [appendThenDigits, appendCh]
  rw [if_neg (by simp only [maxWord]; omega), lexChar_left ht hcl]
  simp only [byteOf]
  have hf : lexFuel (adv (adv lex 1) (min 1 (x ++ r).length)) = (x ++ r).length - min 1 (x ++ r).length + 2 := by
    obtain ⟨t, h1, h2, h3⟩ := ht
    have hle := congrArg List.length h3
    simp only [List.length_drop, adv] at hle h2
    have h1' : lex.text = some t := h1
    simp only [lexFuel, adv, h1']
    omega
  have := digitRun_left (w := w ++ [c]) (n := lexFuel (adv (adv lex 1) (min 1 (x ++ r).length)) + 1) ht hx hr hh
    (by simp only [List.length_append, List.length_singleton]; omega) (by rw [hf]; simp only [List.length_append]; omega)
  unfold ahead at this
  rw [this]
  simp only [adv_adv, List.append_assoc, List.singleton_append, ahead]
  have e1 : 1 + x.length = x.length + 1 := by omega
  rw [e1]

/-- Digits, or nothing and a point, possibly with more digits. -/
def FracText (f : CStr) : Prop := f = [] ∨ ∃ x, f = '.' :: x ∧ ∀ d ∈ x, isdigit d = true

/-- Nothing, or the letter E, an optional minus and digits. -/
def ExpText (e : CStr) : Prop := e = [] ∨ ∃ c x, tolower c = 'e' ∧ (∀ d ∈ x, isdigit d = true) ∧ (e = c :: x ∨ e = c :: '-' :: x)

/-- The number ends before `r`. -/
structure NumEnd (f e r : CStr) : Prop where
  digit : testCh isdigit (headCh r) = false
  point : f = [] → e = [] → headCh r ≠ some '.'
  letter : e = [] → testCh (fun c => tolower c == 'e') (headCh r) = false
  minus : ∀ c, e = [c] → headCh r ≠ some '-'

theorem tolower_e {c : Char} (h : tolower c = 'e') : c = 'e' ∨ c = 'E' := by
  by_cases hu : isupper c = true
  · have key : ∀ n : Fin 26, tolower (Char.ofNat (65 + n.val)) = 'e' → Char.ofNat (65 + n.val) = 'E' := by decide
    simp only [isupper, decide_eq_true_eq] at hu
    have := key ⟨c.toNat - 65, by omega⟩
    simp only at this
    rw [show 65 + (c.toNat - 65) = c.toNat by omega, Char.ofNat_toNat] at this
    exact .inr (this h)
  · unfold tolower at h
    rw [if_neg hu] at h
    exact .inl h

theorem e_plain {c : Char} (h : tolower c = 'e') : Plain c ∧ isdigit c = false ∧ c ≠ '.' := by
  rcases tolower_e h with rfl | rfl <;> decide

theorem scanFraction_left {lex : Lex} {w f r : CStr} (h : Left lex (f ++ r)) (hf : FracText f) (hr : Clean r)
    (h1 : testCh isdigit (headCh r) = false) (h2 : f = [] → headCh r ≠ some '.') (hl : w.length + f.length ≤ 127) :
    scanFraction (ahead lex (f ++ r)) w (headCh (f ++ r)) = .ok (.ok (w ++ f) (headCh r) (ahead (adv lex f.length) r)) := by
  unfold scanFraction
  rcases hf with rfl | ⟨x, rfl, hx⟩
  · simp only [List.nil_append]
    rw [if_neg (h2 rfl)]
    simp only [List.append_nil, List.length_nil, adv_zero]
  · simp only [List.cons_append, headCh_cons, if_true, ahead_cons]
    simp only [List.length_cons] at hl
    rw [appendThenDigits_left (r := r) h hx hr h1 (by omega)]
    simp only [List.length_cons]

theorem scanExp_left {lex : Lex} {w e r : CStr} (h : Left lex (e ++ r)) (he : ExpText e) (hr : Clean r)
    (h1 : testCh isdigit (headCh r) = false) (h2 : e = [] → testCh (fun c => tolower c == 'e') (headCh r) = false)
    (h3 : ∀ c, e = [c] → headCh r ≠ some '-') (hl : w.length + e.length ≤ 127) :
    scanExp (ahead lex (e ++ r)) w (headCh (e ++ r)) = .ok (.ok (w ++ e) (headCh r) (ahead (adv lex e.length) r)) := by
  unfold scanExp
  rcases he with rfl | ⟨c, x, hc, hx, rfl | rfl⟩
  · simp only [List.nil_append, h2 rfl, Bool.false_eq_true, if_false, List.append_nil, List.length_nil, adv_zero]
  · have ht : Left (adv lex 1) (x ++ r) := Spec.Left.tail h
    have hcl : Clean (x ++ r) := by
      cases x with
      | nil => exact hr
      | cons d x => intro e he; cases he; exact digit_plain (hx d (by simp))
    simp only [List.length_cons] at hl
    simp only [List.cons_append, headCh_cons, ahead_cons, testCh, hc, beq_self_eq_true, if_true, appendCh]
    rw [if_neg (by simp only [maxWord]; omega), lexChar_left ht hcl]
    simp only [byteOf]
    have hne : headCh (x ++ r) ≠ some '-' := by
      cases x with
      | nil => exact h3 c rfl
      | cons d x =>
        have := hx d List.mem_cons_self
        simp only [List.cons_append, headCh_cons, ne_eq, Option.some.injEq]
        rintro rfl
        revert this; decide
    rw [if_neg hne]
    have hf : lexFuel (adv (adv lex 1) (min 1 (x ++ r).length)) = (x ++ r).length - min 1 (x ++ r).length + 2 := by
      obtain ⟨t, h1, h2, h3⟩ := ht
      have hle := congrArg List.length h3
      simp only [List.length_drop, adv] at hle h2
      have h1' : lex.text = some t := h1
      simp only [lexFuel, adv, h1']
      omega
    have := digitRun_left (w := w ++ [c]) (n := lexFuel (adv (adv lex 1) (min 1 (x ++ r).length)) + 1) ht hx hr h1
      (by simp only [List.length_append, List.length_singleton]; omega) (by rw [hf]; simp only [List.length_append]; omega)
    unfold ahead at this
    rw [this]
    simp only [adv_adv, List.append_assoc, List.singleton_append, ahead, List.length_cons]
    have e1 : 1 + x.length = x.length + 1 := by omega
    rw [e1]
  · have ht : Left (adv lex 1) ('-' :: (x ++ r)) := Spec.Left.tail h
    simp only [List.length_cons] at hl
    simp only [List.cons_append, headCh_cons, ahead_cons, testCh, hc, beq_self_eq_true, if_true, appendCh]
    rw [if_neg (by simp only [maxWord]; omega), lexChar_cons ht (by decide)]
    simp only [byteOf, if_true]
    rw [appendThenDigits_left (r := r) ht hx hr h1 (by simp only [List.length_append, List.length_singleton]; omega)]
    simp only [adv_adv, List.append_assoc, List.singleton_append, List.length_cons]
    have e1 : 1 + (x.length + 1) = x.length + 1 + 1 := by omega
    rw [e1]

theorem clean_append {a r : CStr} (ha : ∀ c, a.head? = some c → Plain c) (hr : Clean r) : Clean (a ++ r) := by
  cases a with
  | nil => exact hr
  | cons d a => intro e he; cases he; exact ha d rfl

theorem numberChars_left {lex : Lex} {a f e r : CStr} (h : Left lex (a ++ (f ++ (e ++ r)))) (ha : ∀ d ∈ a, isdigit d = true) (hf : FracText f)
    (he : ExpText e) (hr : Clean r) (hend : NumEnd f e r) (hl : a.length + f.length + e.length ≤ 127) :
    numberChars (ahead lex (a ++ (f ++ (e ++ r)))) (headCh (a ++ (f ++ (e ++ r)))) =
      .ok (.ok (a ++ f ++ e) (headCh r) (ahead (adv lex (a.length + f.length + e.length)) r)) := by
  have ce : Clean (e ++ r) := by
    refine clean_append ?_ hr
    rcases he with rfl | ⟨c, x, hc, hx, rfl | rfl⟩ <;> intro d hd <;> cases hd <;> exact (e_plain hc).1
  have cf : Clean (f ++ (e ++ r)) := by
    refine clean_append ?_ ce
    rcases hf with rfl | ⟨x, rfl, hx⟩ <;> intro d hd <;> cases hd
    decide
  have de : testCh isdigit (headCh (e ++ r)) = false := by
    rcases he with rfl | ⟨c, x, hc, hx, rfl | rfl⟩
    · exact hend.digit
    · exact (e_plain hc).2.1
    · exact (e_plain hc).2.1
  have df : testCh isdigit (headCh (f ++ (e ++ r))) = false := by
    rcases hf with rfl | ⟨x, rfl, hx⟩
    · exact de
    · rfl
  have pe : f = [] → headCh (e ++ r) ≠ some '.' := by
    intro hf0
    rcases he with rfl | ⟨c, x, hc, hx, rfl | rfl⟩
    · exact hend.point hf0 rfl
    · simp only [List.cons_append, headCh_cons, ne_eq, Option.some.injEq]; exact (e_plain hc).2.2
    · simp only [List.cons_append, headCh_cons, ne_eq, Option.some.injEq]; exact (e_plain hc).2.2
  have l1 : Left (adv lex a.length) (f ++ (e ++ r)) := h.adv
  have l2 : Left (adv (adv lex a.length) f.length) (e ++ r) := l1.adv
  have hfu : lexFuel (ahead lex (a ++ (f ++ (e ++ r)))) + 1 > a.length := by
    obtain ⟨t, h1, h2, h3⟩ := h
    have hle := congrArg List.length h3
    simp only [List.length_drop, List.length_append] at hle
    simp only [lexFuel, ahead, adv, h1]
    omega
  unfold numberChars
  rw [digitRun_left h ha cf df (by simp only [List.length_nil]; omega) hfu]
  simp only [NumScan.andThen, List.nil_append]
  rw [scanFraction_left l1 hf ce de pe (by omega)]
  simp only
  rw [scanExp_left l2 he hr hend.digit hend.letter hend.minus (by simp only [List.length_append]; omega)]
  simp only [adv_adv]

theorem lexNumber_left {lex : Lex} {a f e r : CStr} (h : Left lex (a ++ (f ++ (e ++ r)))) (ha : ∀ d ∈ a, isdigit d = true) (hf : FracText f)
    (he : ExpText e) (hr : Clean r) (hend : NumEnd f e r) (hl : a.length + f.length + e.length ≤ 127) :
    lexNumber (ahead lex (a ++ (f ++ (e ++ r)))) (headCh (a ++ (f ++ (e ++ r)))) =
      .ok (setToken { adv lex (a.length + f.length + e.length) with word := a ++ f ++ e, num := (strtod (a ++ f ++ e)).1 }
        (if (strtod (a ++ f ++ e)).2.isEmpty then .num else .error)) := by
  unfold lexNumber
  rw [numberChars_left h ha hf he hr hend hl]
  have l3 : Left (adv lex (a.length + f.length + e.length)) r := by
    have := h.adv.adv.adv
    rwa [adv_adv, adv_adv, ← Nat.add_assoc] at this
  simp only [ahead]
  rw [pushback_left l3 hr]
  simp only
  rw [endWord_ok (by simp only [List.length_append, maxWord]; omega)]
  simp only
  split <;> rfl

/-! Names where keywords are recognised anywhere -/

theorem headCh_append_cons (c : Char) (x r : CStr) : headCh (c :: x ++ r) = some c := rfl

theorem nameLoopAnywhere_left {n : Nat} {lex : Lex} {w x r : CStr} (h : Left lex (x ++ r)) (hx : ∀ c ∈ x, isalnum c = true) (hr : Clean r)
    (hk : ∀ p c q, x = p ++ c :: q → isalpha c = true → keywordPrefix (c :: q ++ r) = none)
    (hh : testCh isalnum (headCh r) = false ∨ (testCh isalpha (headCh r) = true ∧ (keywordPrefix r).isSome = true))
    (hl : w.length + x.length ≤ 126) (hn : x.length < n) :
    nameLoopAnywhere n lex w =
      (if r.head? = some '$' then .ok (setToken { adv lex (x.length + 1) with word := w ++ x ++ ['$'] } .id)
      else .ok (setToken { adv lex x.length with word := w ++ x } .id)) := by
  induction x generalizing lex n w with
  | nil =>
    obtain ⟨n, rfl⟩ : ∃ m, n = m + 1 := ⟨n - 1, by omega⟩
    have h : Left lex r := h
    simp only [List.length_nil, Nat.add_zero] at hl
    simp only [nameLoopAnywhere, lexPeek_left h hr, List.append_nil, List.length_nil, Nat.zero_add, adv_zero]
    rcases hh with hh | ⟨hh, hkw⟩
    · simp only [hh, Bool.false_eq_true, if_false]
      by_cases hd : r.head? = some '$'
      · cases r with
        | nil => cases hd
        | cons c r =>
          simp only [List.head?_cons, Option.some.injEq] at hd
          subst hd
          simp only [headCh, if_true, List.head?_cons]
          rw [lexChar_cons h (by decide)]
          simp only [byteOf]
          rw [putWord_tame (by simp only [maxWord]; omega)]
          simp only
          rw [endWord_ok (by simp only [List.length_append, List.length_singleton, maxWord]; omega)]
      · rw [if_neg (show ¬ headCh r = some '$' from by
          cases r with
          | nil => simp [headCh]
          | cons c r => exact hd), if_neg hd]
        rw [endWord_ok (by simp only [maxWord]; omega)]
    · have ha : testCh isalnum (headCh r) = true := by
        cases hc : headCh r with
        | none => rw [hc] at hh; cases hh
        | some c => rw [hc] at hh; simp only [testCh, isalnum, Bool.or_eq_true] at hh ⊢; exact .inl hh
      have hd : ¬ r.head? = some '$' := by
        intro hd
        cases r with
        | nil => cases hd
        | cons c r =>
          simp only [List.head?_cons, Option.some.injEq] at hd
          subst hd
          revert hh
          simp only [headCh_cons, testCh]
          decide
      rw [if_pos ha, if_pos (by rw [left_remaining h, hh, hkw]; rfl), if_neg hd]
      rw [endWord_ok (by simp only [maxWord]; omega)]
  | cons c x ih =>
    obtain ⟨n, rfl⟩ : ∃ m, n = m + 1 := ⟨n - 1, by omega⟩
    have hc := hx c List.mem_cons_self
    simp only [List.length_cons] at hl hn
    have hcl : Clean (c :: (x ++ r)) := by intro e he; cases he; exact alnum_plain hc
    have h' : Left lex (c :: (x ++ r)) := h
    simp only [nameLoopAnywhere, lexPeek_left h' hcl, headCh_cons]
    rw [if_pos (show testCh isalnum (some c) = true from hc)]
    have hnk : ¬ (testCh isalpha (some c) && (keywordPrefix (lexRemaining lex)).isSome) = true := by
      rw [left_remaining h', Bool.and_eq_true]
      rintro ⟨g1, g2⟩
      have := hk [] c x rfl g1
      rw [List.cons_append] at this
      rw [this] at g2
      cases g2
    rw [if_neg hnk, if_neg (by simp only [maxWord]; omega), lexChar_cons h' (alnum_plain hc)]
    simp only [byteOf]
    rw [putWord_tame (by simp only [maxWord]; omega)]
    simp only
    rw [ih (Spec.Left.tail h') (fun d hd => hx d (List.mem_cons_of_mem _ hd))
      (fun p d q e hd => hk (c :: p) d q (by rw [e]; rfl) hd) (by simp only [List.length_append, List.length_singleton]; omega) (by omega)]
    simp only [adv_adv, List.append_assoc, List.singleton_append, List.length_cons]
    have e1 : 1 + (x.length + 1) = x.length + 1 + 1 := by omega
    have e2 : 1 + x.length = x.length + 1 := by omega
    rw [e1, e2]

/-! Tokens -/

/-- The lexer just after the first character of a token that starts `b` characters ahead. -/
def opened (lex : Lex) (b : Nat) : Lex := { lex with pos := lex.pos + b + 1, tokenPos := lex.pos + b }

/-- The lexer before that character. -/
def before (lex : Lex) (b : Nat) : Lex := { lex with pos := lex.pos + b, tokenPos := lex.pos + b }

theorem opened_eq (lex : Lex) (b : Nat) : opened lex b = adv (before lex b) 1 := rfl

theorem before_left {lex : Lex} {bs r : CStr} (h : Left lex (bs ++ r)) : Left (before lex bs.length) r := h.adv.set rfl rfl

theorem opened_left {lex : Lex} {bs r : CStr} {c : Char} (h : Left lex (bs ++ c :: r)) : Left (opened lex bs.length) r :=
  Spec.Left.tail (before_left h)

theorem lexNext_cons {lex : Lex} {bs r : CStr} {c : Char} (h : Left lex (bs ++ c :: r)) (hb : ∀ c ∈ bs, isBlank c = true) (hp : Plain c)
    (hh : isBlank c = false) : lexNext lex = lexToken (opened lex bs.length) (some c) := by
  rw [lexNext_left h hb (fun e he => by cases he; exact hp) hh]
  have hmin : min 1 (c :: r).length = 1 := by simp only [List.length_cons]; omega
  rw [hmin]
  rfl

theorem next_eol {lex : Lex} {bs : CStr} (h : Left lex bs) (hb : ∀ c ∈ bs, isBlank c = true) :
    lexNext lex = .ok (.ch '\n', { adv lex bs.length with tokenPos := lex.pos + bs.length, token := .ch '\n' }) := by
  have h' : Left lex (bs ++ []) := by rwa [List.append_nil]
  rw [lexNext_left h' hb (fun c hc => by cases hc) (by decide)]
  rfl

theorem alpha_not_blank {c : Char} (h : isalpha c = true) : isBlank c = false := by
  cases hb : isBlank c with
  | false => rfl
  | true =>
    simp only [isBlank, Bool.or_eq_true, beq_iff_eq] at hb
    rcases hb with (rfl | rfl) | rfl <;> revert h <;> decide

theorem next_word {lex : Lex} {bs x r : CStr} {c : Char} (hm : lex.prefixes = false) (h : Left lex (bs ++ (c :: (x ++ r)))) (hb : ∀ c ∈ bs, isBlank c = true)
    (hc : isalpha c = true) (hx : ∀ c ∈ x, isalnum c = true) (hr : Clean r) (hh : testCh isalnum (headCh r) = false)
    (hd : r.head? ≠ some '$') (hl : x.length ≤ 125) :
    lexNext lex = .ok (identifierToken (c :: x), moved lex bs.length (bs.length + x.length + 1) (identifierToken (c :: x)) (c :: x)) := by
  have hp : Plain c := alnum_plain (by simp [isalnum, hc])
  rw [lexNext_cons h hb hp (alpha_not_blank hc)]
  have hA : testCh isalpha (some c) = true := hc
  have hm' : (opened lex bs.length).prefixes = false := hm
  simp only [lexToken, hA, if_true, hm', Bool.false_eq_true, if_false, wordSeparate]
  rw [putWord_tame (by decide)]
  have ht := opened_left h
  simp only
  rw [nameLoop_left ht hx hr hh (by simp only [List.nil_append, List.length_singleton]; omega)
    (by rw [left_fuel ht]; simp only [List.length_append]; omega), if_neg hd]
  simp only [byteOf, List.nil_append, List.singleton_append, setToken, moved, adv, opened]
  congr 3
  omega

theorem next_wordDollar {lex : Lex} {bs x r : CStr} {c : Char} (hm : lex.prefixes = false) (h : Left lex (bs ++ (c :: (x ++ '$' :: r)))) (hb : ∀ c ∈ bs, isBlank c = true)
    (hc : isalpha c = true) (hx : ∀ c ∈ x, isalnum c = true) (hl : x.length ≤ 125) :
    lexNext lex = .ok (identifierToken (c :: x ++ ['$']), moved lex bs.length (bs.length + x.length + 2) (identifierToken (c :: x ++ ['$'])) (c :: x ++ ['$'])) := by
  have hp : Plain c := alnum_plain (by simp [isalnum, hc])
  rw [lexNext_cons h hb hp (alpha_not_blank hc)]
  have hA : testCh isalpha (some c) = true := hc
  have hm' : (opened lex bs.length).prefixes = false := hm
  simp only [lexToken, hA, if_true, hm', Bool.false_eq_true, if_false, wordSeparate]
  rw [putWord_tame (by decide)]
  have ht := opened_left h
  simp only
  rw [nameLoop_left ht hx (fun e he => by cases he; decide) (by rfl) (by simp only [List.nil_append, List.length_singleton]; omega)
    (by rw [left_fuel ht]; simp only [List.length_append]; omega), if_pos (show ('$' :: r).head? = some '$' from rfl)]
  simp only [byteOf, List.nil_append, List.singleton_append, List.cons_append, setToken, moved, adv, opened]
  congr 3
  omega

theorem next_anywhere {lex : Lex} {bs x r : CStr} {c : Char} (hm : lex.prefixes = true) (h : Left lex (bs ++ (c :: (x ++ r)))) (hb : ∀ c ∈ bs, isBlank c = true)
    (hc : isalpha c = true) (hx : ∀ c ∈ x, isalnum c = true) (hr : Clean r)
    (hk : ∀ p d q, c :: x = p ++ d :: q → isalpha d = true → keywordPrefix (d :: q ++ r) = none)
    (hh : testCh isalnum (headCh r) = false ∨ (testCh isalpha (headCh r) = true ∧ (keywordPrefix r).isSome = true)) (hl : x.length ≤ 125) :
    lexNext lex = .ok (if r.head? = some '$' then
        (.id, moved lex bs.length (bs.length + x.length + 2) .id (c :: x ++ ['$']))
      else (.id, moved lex bs.length (bs.length + x.length + 1) .id (c :: x))) := by
  have hp : Plain c := alnum_plain (by simp [isalnum, hc])
  have hcl : Clean (c :: (x ++ r)) := fun e he => by cases he; exact hp
  rw [lexNext_cons h hb hp (alpha_not_blank hc)]
  have hA : testCh isalpha (some c) = true := hc
  have hm' : (opened lex bs.length).prefixes = true := hm
  simp only [lexToken, hA, if_true, hm', wordAnywhere]
  have ht := before_left h
  have hpb : pushback (opened lex bs.length) (some c) = .ok (before lex bs.length) := by
    have := pushback_left ht hcl
    rwa [headCh_cons, Nat.min_eq_left (by simp only [List.length_cons]; omega), ← opened_eq] at this
  rw [hpb]
  simp only
  rw [left_remaining ht]
  have hk0 := hk [] c x rfl hc
  rw [List.cons_append] at hk0
  rw [hk0]
  simp only
  rw [lexChar_cons ht hp]
  simp only
  rw [putWord_tame (by decide)]
  have ht2 := Spec.Left.tail ht
  simp only
  rw [nameLoopAnywhere_left ht2 hx hr (fun p d q e hd => hk (c :: p) d q (by rw [e]; rfl) hd) hh
    (by simp only [List.nil_append, List.length_singleton]; omega)
    (by rw [left_fuel ht2]; simp only [List.length_append]; omega)]
  simp only [byteOf, List.nil_append, List.cons_append, setToken, moved, adv, before]
  by_cases hd : r.head? = some '$'
  · rw [if_pos hd, if_pos hd]
    congr 3
    omega
  · rw [if_neg hd, if_neg hd]
    congr 3
    omega

theorem next_keywordAnywhere {lex : Lex} {bs r : CStr} {c : Char} {kw : Keyword} (hm : lex.prefixes = true) (h : Left lex (bs ++ (c :: r))) (hb : ∀ c ∈ bs, isBlank c = true)
    (hc : isalpha c = true) (hk : keywordPrefix (c :: r) = some kw) :
    lexNext lex = .ok (.kw kw.token, moved lex bs.length (bs.length + kw.len) (.kw kw.token) kw.name) := by
  have hp : Plain c := alnum_plain (by simp [isalnum, hc])
  have hcl : Clean (c :: r) := fun e he => by cases he; exact hp
  rw [lexNext_cons h hb hp (alpha_not_blank hc)]
  have hA : testCh isalpha (some c) = true := hc
  have hm' : (opened lex bs.length).prefixes = true := hm
  simp only [lexToken, hA, if_true, hm', wordAnywhere]
  have ht := before_left h
  have hpb : pushback (opened lex bs.length) (some c) = .ok (before lex bs.length) := by
    have := pushback_left ht hcl
    rwa [headCh_cons, Nat.min_eq_left (by simp only [List.length_cons]; omega), ← opened_eq] at this
  rw [hpb]
  simp only
  rw [left_remaining ht, hk]
  simp only [setToken, moved, before, Nat.add_assoc]

theorem next_string {lex : Lex} {bs x r : CStr} (h : Left lex (bs ++ ('"' :: (x ++ '"' :: r)))) (hb : ∀ c ∈ bs, isBlank c = true)
    (hp : ∀ d ∈ x, Plain d) (hq : '"' ∉ x) (hl : x.length ≤ 127) :
    lexNext lex = .ok (.str, moved lex bs.length (bs.length + x.length + 2) .str x) := by
  rw [lexNext_cons h hb (by decide) (by decide)]
  have ht := opened_left h
  simp only [lexToken]
  rw [if_neg (by decide), if_neg (by decide), if_pos trivial]
  have hs : ∀ d ∈ x, endsString (some d) = false := by
    intro d hd
    have h1 : d ≠ '"' := fun e => hq (e ▸ hd)
    have h2 : d ≠ '\n' := (hp d hd).2
    simp [endsString, h1, h2]
  simp only [lexString]
  rw [quotedRun_left ht hs hp (fun e he => by cases he; decide) (by rfl) hl]
  simp only [headCh_cons]
  rw [endWord_ok (by simp only [maxWord]; omega)]
  have hmin : min 1 ('"' :: r).length = 1 := by simp only [List.length_cons]; omega
  simp only [if_true, setToken, moved, adv, opened, hmin]
  congr 3
  omega

/-- A character that is a token of its own. -/
def isSingle (c : Char) : Bool :=
  !(isalpha c) && !(isdigit c) && !(isBlank c) && c != '.' && c != '"' && c != '<' && c != '>'

theorem next_single {lex : Lex} {bs r : CStr} {c : Char} (h : Left lex (bs ++ (c :: r))) (hb : ∀ c ∈ bs, isBlank c = true) (hp : Plain c)
    (hs : isSingle c = true) :
    lexNext lex = .ok (.ch c, moved lex bs.length (bs.length + 1) (.ch c) lex.word) := by
  simp only [isSingle, Bool.and_eq_true, Bool.not_eq_true', bne_iff_ne] at hs
  obtain ⟨⟨⟨⟨⟨⟨h1, h2⟩, h3⟩, h4⟩, h5⟩, h6⟩, h7⟩ := hs
  rw [lexNext_cons h hb hp h3]
  have h4' : (some c == some '.') = false := by simpa using h4
  simp only [lexToken, testCh, h1, h2, Bool.false_eq_true, if_false, Option.some.injEq, h5, h6, h7, Bool.false_or, h4']
  rfl

/-- Comparison signs. -/
theorem next_less {lex : Lex} {bs r : CStr} (h : Left lex (bs ++ ('<' :: r))) (hb : ∀ c ∈ bs, isBlank c = true) (hr : Clean r) :
    lexNext lex = .ok (if r.head? = some '>' then (.ne, moved lex bs.length (bs.length + 2) .ne lex.word)
      else if r.head? = some '=' then (.le, moved lex bs.length (bs.length + 2) .le lex.word)
      else (.ch '<', moved lex bs.length (bs.length + 1) (.ch '<') lex.word)) := by
  rw [lexNext_cons h hb (by decide) (by decide)]
  have ht := opened_left h
  simp only [lexToken]
  rw [if_neg (by decide), if_neg (by decide), if_neg (by decide), if_pos trivial]
  unfold lexLess
  rw [lexChar_left ht hr]
  simp only
  cases r with
  | nil =>
    simp only [headCh, List.head?_nil, reduceCtorEq, if_false, Option.some.injEq]
    rw [if_neg (by decide), if_neg (by decide)]
    have := pushback_left ht hr
    simp only [headCh] at this
    rw [this]
    rfl
  | cons c r =>
    simp only [headCh_cons, List.head?_cons, Option.some.injEq]
    have hmin : min 1 (c :: r).length = 1 := by simp only [List.length_cons]; omega
    by_cases h1 : c = '>'
    · simp only [if_pos h1, hmin]; rfl
    · simp only [if_neg h1]
      by_cases h2 : c = '='
      · simp only [if_pos h2, hmin]; rfl
      · simp only [if_neg h2]
        have := pushback_left ht hr
        rw [headCh_cons] at this
        rw [this]
        rfl

theorem next_greater {lex : Lex} {bs r : CStr} (h : Left lex (bs ++ ('>' :: r))) (hb : ∀ c ∈ bs, isBlank c = true) (hr : Clean r) :
    lexNext lex = .ok (if r.head? = some '=' then (.ge, moved lex bs.length (bs.length + 2) .ge lex.word)
      else (.ch '>', moved lex bs.length (bs.length + 1) (.ch '>') lex.word)) := by
  rw [lexNext_cons h hb (by decide) (by decide)]
  have ht := opened_left h
  simp only [lexToken]
  rw [if_neg (by decide), if_neg (by decide), if_neg (by decide), if_neg (by decide), if_pos trivial]
  unfold lexGreater
  rw [lexChar_left ht hr]
  simp only
  cases r with
  | nil =>
    simp only [headCh, List.head?_nil, reduceCtorEq, if_false, Option.some.injEq]
    rw [if_neg (by decide)]
    have := pushback_left ht hr
    simp only [headCh] at this
    rw [this]
    rfl
  | cons c r =>
    simp only [headCh_cons, List.head?_cons, Option.some.injEq]
    have hmin : min 1 (c :: r).length = 1 := by simp only [List.length_cons]; omega
    by_cases h2 : c = '='
    · simp only [if_pos h2, hmin]; rfl
    · simp only [if_neg h2]
      have := pushback_left ht hr
      rw [headCh_cons] at this
      rw [this]
      rfl

theorem next_number {lex : Lex} {bs a f e r : CStr} (h : Left lex (bs ++ (a ++ (f ++ (e ++ r))))) (hb : ∀ c ∈ bs, isBlank c = true)
    (ha : ∀ d ∈ a, isdigit d = true) (hf : FracText f) (he : ExpText e) (hr : Clean r) (hend : NumEnd f e r) (hne : a ≠ [] ∨ f ≠ [])
    (hl : a.length + f.length + e.length ≤ 127) :
    lexNext lex = .ok (let tok : Tok := if (strtod (a ++ f ++ e)).2.isEmpty then .num else .error
      (tok, { moved lex bs.length (bs.length + (a.length + f.length + e.length)) tok (a ++ f ++ e) with num := (strtod (a ++ f ++ e)).1 })) := by
  obtain ⟨c, u, hcu, hc⟩ : ∃ c u, a ++ (f ++ (e ++ r)) = c :: u ∧ (isdigit c = true ∨ c = '.') := by
    cases a with
    | cons d a => exact ⟨d, a ++ (f ++ (e ++ r)), rfl, .inl (ha d List.mem_cons_self)⟩
    | nil =>
      rcases hf with rfl | ⟨x, rfl, _⟩
      · simp at hne
      · exact ⟨'.', x ++ (e ++ r), rfl, .inr rfl⟩
  have hp : Plain c ∧ isBlank c = false ∧ isalpha c = false := by
    rcases hc with hc | rfl
    · refine ⟨digit_plain hc, ?_, ?_⟩
      · cases hb : isBlank c with
        | false => rfl
        | true =>
          simp only [isBlank, Bool.or_eq_true, beq_iff_eq] at hb
          rcases hb with (rfl | rfl) | rfl <;> revert hc <;> decide
      · simp only [isdigit, decide_eq_true_eq] at hc
        simp only [isalpha, isupper, islower, Bool.or_eq_false_iff, decide_eq_false_iff_not]
        omega
    · decide
  have h' := h
  rw [hcu] at h'
  rw [lexNext_cons h' hb hp.1 hp.2.1]
  have hA : testCh isalpha (some c) = false := hp.2.2
  have hD : (testCh isdigit (some c) || some c == some '.') = true := by
    rcases hc with hc | rfl
    · simp only [testCh, hc, Bool.true_or]
    · rfl
  simp only [lexToken, hA, Bool.false_eq_true, if_false, hD, if_true]
  have hl2 := lexNumber_left (before_left h) ha hf he hr hend hl
  rw [hcu] at hl2
  rw [ahead_cons, headCh_cons, ← opened_eq] at hl2
  rw [hl2]
  simp only [setToken, moved, adv, before, Nat.add_assoc]

/-! Items of DATA -/

/-- The lexer after an item of `DATA`. -/
def afterItem (lex : Lex) (b n : Nat) (w : CStr) : Lex := { lex with pos := lex.pos + n, tokenPos := lex.pos + b, word := w }

theorem data_quoted {lex : Lex} {bs x r : CStr} (h : Left lex (bs ++ ('"' :: (x ++ '"' :: r)))) (hb : ∀ c ∈ bs, isDataBlank c = true)
    (hp : ∀ d ∈ x, Plain d) (hq : '"' ∉ x) (hl : x.length ≤ 127) :
    lexNextData lex = .ok (x, afterItem lex bs.length (bs.length + x.length + 2) x) := by
  have hs : ∀ d ∈ x, endsString (some d) = false := by
    intro d hd
    have h1 : d ≠ '"' := fun e => hq (e ▸ hd)
    have h2 : d ≠ '\n' := (hp d hd).2
    simp [endsString, h1, h2]
  unfold lexNextData
  rw [skipBlanks_left dataBlank_plain h hb (fun e he => by cases he; decide) (by rfl) (by rw [left_fuel h]; simp only [List.length_append]; omega)]
  have hmin : min 1 ('"' :: (x ++ '"' :: r)).length = 1 := by simp only [List.length_cons]; omega
  simp only [headCh_cons, hmin]
  rw [if_pos trivial]
  have ht := opened_left h
  have e0 : { adv lex (bs.length + 1) with tokenPos := lex.pos + bs.length } = opened lex bs.length := rfl
  simp only [e0]
  rw [quotedRun_left ht hs hp (fun e he => by cases he; decide) (by rfl) hl]
  simp only [headCh_cons, if_true]
  rw [endWord_ok (by simp only [maxWord]; omega)]
  have hmin : min 1 ('"' :: r).length = 1 := by simp only [List.length_cons]; omega
  simp only [adv, opened, hmin, afterItem]
  congr 3
  omega

theorem data_plain {lex : Lex} {bs x r : CStr} (h : Left lex (bs ++ (x ++ r))) (hb : ∀ c ∈ bs, isDataBlank c = true)
    (hx : ∀ d ∈ x, Plain d ∧ endsDatum (some d) = false) (h0 : ∀ d, x.head? = some d → isDataBlank d = false) (hr : Clean r)
    (hh : endsDatum (headCh r) = true) (hq : x = [] → r.head? ≠ some '"') (hl : x.length ≤ 127) :
    lexNextData lex = .ok (trimRight x, afterItem lex bs.length (bs.length + x.length) (trimRight x)) := by
  have hcl : Clean (x ++ r) := clean_append (fun c hc => (hx c (List.mem_of_mem_head? hc)).1) hr
  have hnb : testCh isDataBlank (headCh (x ++ r)) = false := by
    cases x with
    | cons c x => exact h0 c rfl
    | nil =>
      cases r with
      | nil => rfl
      | cons c r =>
        simp only [List.nil_append, headCh_cons, testCh]
        cases hb : isDataBlank c with
        | false => rfl
        | true =>
          simp only [isDataBlank, Bool.or_eq_true, beq_iff_eq] at hb
          rcases hb with rfl | rfl <;> simp [headCh, endsDatum] at hh
  have hnq : headCh (x ++ r) ≠ some '"' := by
    cases x with
    | cons c x =>
      have := (hx c List.mem_cons_self).2
      simp only [List.cons_append, headCh_cons, ne_eq, Option.some.injEq]
      rintro rfl
      simp [endsDatum] at this
    | nil =>
      have := hq rfl
      cases r with
      | nil => simp [headCh]
      | cons c r => exact this
  unfold lexNextData
  rw [skipBlanks_left dataBlank_plain h hb hcl hnb (by rw [left_fuel h]; simp only [List.length_append]; omega)]
  simp only
  rw [if_neg hnq]
  have hbl := before_left h
  have hrun : runLoop endsDatum (lexFuel { adv lex (bs.length + min 1 (x ++ r).length) with tokenPos := lex.pos + bs.length } + 1)
      { adv lex (bs.length + min 1 (x ++ r).length) with tokenPos := lex.pos + bs.length } [] (headCh (x ++ r)) =
      .ok (.ok x (headCh r) (adv (adv (before lex bs.length) x.length) (min 1 r.length))) := by
    cases x with
    | nil =>
      simp only [List.nil_append]
      rw [runLoop_stop hh]
      simp only [adv, before, List.length_nil, Nat.add_zero, Nat.add_assoc]
    | cons c x =>
      have hmin : min 1 (c :: x ++ r).length = 1 := by simp only [List.cons_append, List.length_cons]; omega
      have e0 : { adv lex (bs.length + min 1 (c :: x ++ r).length) with tokenPos := lex.pos + bs.length } = opened lex bs.length := by
        rw [hmin]; rfl
      rw [e0]
      have ht : Left (opened lex bs.length) (x ++ r) := opened_left h
      rw [List.cons_append, headCh_cons, runLoop_left (w := []) (n := lexFuel (opened lex bs.length) + 1) ht (fun d hd => (hx d hd).2)
        (fun d hd => (hx d (List.mem_cons_of_mem _ hd)).1) hr hh (by simp only [List.length_cons] at hl; simp only [List.length_nil]; omega)
        (by rw [left_fuel ht]; simp only [List.length_append]; omega)]
      simp only [List.nil_append, opened_eq, adv_adv, List.length_cons]
      have e1 : 1 + (x.length + min 1 r.length) = x.length + 1 + min 1 r.length := by omega
      rw [e1]
  rw [hrun]
  simp only
  have l3 : Left (adv (before lex bs.length) x.length) r := hbl.adv
  rw [pushback_left l3 hr]
  simp only
  rw [endWord_ok (by have := trimRight_length x; simp only [maxWord]; omega)]
  simp only [adv, before, afterItem, Nat.add_assoc]

end LB
