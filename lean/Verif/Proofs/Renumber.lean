import Verif.Spec.Renumber
import Verif.Proofs.Shift
import Verif.Proofs.Items
import Verif.Proofs.Commands
import Verif.Proofs.LineMap
import Verif.Proofs.Calls
/- Lemmas about the second part of RENUM. -/
namespace LB
open LB.Spec _root_.Spec

/-! The spelling of a number -/

/-- The characters `w` of the text `t`, from `st` on, have been collected, and `c` is the next one, already read. -/
structure Spelt (t : CStr) (st : Nat) (w : CStr) (c : Option Char) (lex : Lex) : Prop where
  text : lex.text = some t
  le : st + w.length ≤ t.length
  word : (t.drop st).take w.length = w
  was : (c = some '\n' ∧ lex.pos = t.length ∧ st + w.length = t.length) ∨
    (c ≠ some '\n' ∧ lex.pos = st + w.length + 1 ∧ t[st + w.length]? = some (byteOf c))

theorem Spelt.append {t : CStr} {st : Nat} {w : CStr} {c c' : Option Char} {lex lex' : Lex} (hnl : ∀ d ∈ t, d ≠ '\n')
    (h : Spelt t st w c lex) (hc : c ≠ some '\n') (hr : lexChar lex = .ok (c', lex')) : Spelt t st (w ++ [byteOf c]) c' lex' := by
  rcases h.was with ⟨h1, _⟩ | ⟨_, h2, h3⟩
  · exact absurd h1 hc
  · have hlt : st + w.length < t.length := by
      rcases Nat.lt_or_ge (st + w.length) t.length with g | g
      · exact g
      · rw [List.getElem?_eq_none g] at h3; simp at h3
    have hw : (t.drop st).take (w ++ [byteOf c]).length = w ++ [byteOf c] := by
      simp only [List.length_append, List.length_singleton]
      rw [List.take_add_one, h.word]
      simp [List.getElem?_drop, h3]
    unfold lexChar lexPeek at hr
    rw [h.text] at hr
    simp only at hr
    rw [if_neg (by omega)] at hr
    by_cases hl : lex.pos < t.length
    · rw [List.getElem?_eq_getElem hl] at hr
      simp only at hr
      split at hr
      · simp at hr
      · rename_i c1 hv
        rw [if_pos hl] at hr
        simp only [Outcome.ok.injEq, Prod.mk.injEq] at hr
        obtain ⟨rfl, rfl⟩ := hr
        have hne : asInt t[lex.pos] ≠ some '\n' := by
          unfold asInt
          split
          · simp
          · simp only [ne_eq, Option.some.injEq]; exact hnl _ (List.getElem_mem _)
        split at hv
        · simp at hv
        · simp only [Outcome.ok.injEq] at hv
          subst hv
          refine ⟨rfl, by simp only [List.length_append, List.length_singleton]; omega, hw, .inr ⟨hne, ?_, ?_⟩⟩
          · simp only [List.length_append, List.length_singleton]; omega
          · rw [byteOf_asInt]
            simp only [List.length_append, List.length_singleton]
            rw [← List.getElem?_eq_getElem hl]
            congr 1
            omega
    · rw [List.getElem?_eq_none (by omega)] at hr
      simp only [if_neg hl, Outcome.ok.injEq, Prod.mk.injEq] at hr
      obtain ⟨rfl, rfl⟩ := hr
      exact ⟨h.text, by simp only [List.length_append, List.length_singleton]; omega, hw,
        .inl ⟨rfl, by omega, by simp only [List.length_append, List.length_singleton]; omega⟩⟩

theorem digitRun_spelt {t : CStr} {st n : Nat} {w w' : CStr} {c c' : Option Char} {lex lex' : Lex} (hnl : ∀ d ∈ t, d ≠ '\n')
    (h : Spelt t st w c lex) (hr : digitRun n lex w c = .ok (.ok w' c' lex')) : Spelt t st w' c' lex' := by
  induction n generalizing lex w c with
  | zero => simp [digitRun] at hr
  | succ n ih =>
    simp only [digitRun, appendCh] at hr
    split at hr
    · rename_i hd
      have hc := testCh_newline hd (by decide)
      split at hr
      · simp at hr
      · rename_i w1 ha
        split at ha
        · simp at ha
        · simp only [Option.some.injEq] at ha
          subst ha
          split at hr
          · simp at hr
          · rename_i hx
            exact ih (h.append hnl hc hx) hr
    · simp only [Outcome.ok.injEq, NumScan.ok.injEq] at hr
      obtain ⟨rfl, rfl, rfl⟩ := hr
      exact h

theorem appendThenDigits_spelt {t : CStr} {st : Nat} {w w' : CStr} {c c' : Option Char} {lex lex' : Lex} (hnl : ∀ d ∈ t, d ≠ '\n')
    (h : Spelt t st w c lex) (hc : c ≠ some '\n') (hr : appendThenDigits lex w c = .ok (.ok w' c' lex')) : Spelt t st w' c' lex' := by
  simp only [appendThenDigits, appendCh] at hr
  split at hr
  · simp at hr
  · rename_i w1 ha
    split at ha
    · simp at ha
    · simp only [Option.some.injEq] at ha
      subst ha
      split at hr
      · simp at hr
      · rename_i hx
        exact digitRun_spelt hnl (h.append hnl hc hx) hr

theorem numberChars_spelt {t : CStr} {st : Nat} {w' : CStr} {c c' : Option Char} {lex lex' : Lex} (hnl : ∀ d ∈ t, d ≠ '\n')
    (h : Spelt t st [] c lex) (hr : numberChars lex c = .ok (.ok w' c' lex')) : Spelt t st w' c' lex' := by
  unfold numberChars at hr
  cases h1 : digitRun (lexFuel lex + 1) lex [] c with
  | halt e => rw [h1] at hr; simp [NumScan.andThen] at hr
  | ok x1 =>
    cases x1 with
    | tooLong w l => rw [h1] at hr; simp [NumScan.andThen] at hr
    | ok w1 c1 l1 =>
      have s1 := digitRun_spelt hnl h h1
      rw [h1] at hr
      simp only [NumScan.andThen] at hr
      cases h2 : scanFraction l1 w1 c1 with
      | halt e => rw [h2] at hr; simp at hr
      | ok x2 =>
        cases x2 with
        | tooLong w l => rw [h2] at hr; simp at hr
        | ok w2 c2 l2 =>
          have s2 : Spelt t st w2 c2 l2 := by
            unfold scanFraction at h2
            split at h2
            · rename_i hd
              exact appendThenDigits_spelt hnl s1 (by rw [hd]; decide) h2
            · simp only [Outcome.ok.injEq, NumScan.ok.injEq] at h2
              obtain ⟨rfl, rfl, rfl⟩ := h2
              exact s1
          rw [h2] at hr
          simp only at hr
          unfold scanExp at hr
          split at hr
          · rename_i he
            have hc := testCh_newline he (by decide)
            simp only [appendCh] at hr
            split at hr
            · simp at hr
            · rename_i w3 ha
              split at ha
              · simp at ha
              · simp only [Option.some.injEq] at ha
                subst ha
                split at hr
                · simp at hr
                · rename_i hx
                  have s3 := s2.append hnl hc hx
                  split at hr
                  · rename_i hd
                    exact appendThenDigits_spelt hnl s3 (by rw [hd]; decide) hr
                  · exact digitRun_spelt hnl s3 hr
          · simp only [Outcome.ok.injEq, NumScan.ok.injEq] at hr
            obtain ⟨rfl, rfl, rfl⟩ := hr
            exact s2

theorem lexNumber_spelt {t : CStr} {st : Nat} {c : Option Char} {lex lex' : Lex} (hnl : ∀ d ∈ t, d ≠ '\n')
    (h : Spelt t st [] c lex) (hr : lexNumber lex c = .ok (.num, lex')) :
    lex'.pos = st + lex'.word.length ∧ (t.drop st).take lex'.word.length = lex'.word := by
  unfold lexNumber at hr
  split at hr
  · simp at hr
  · split at hr
    · simp at hr
    · simp [setToken] at hr
  · rename_i hn
    have s := numberChars_spelt hnl h hn
    split at hr
    · simp at hr
    · rename_i lex1 hp
      split at hr
      · simp at hr
      · rename_i lex2 he
        unfold endWord at he
        split at he
        · simp only [Outcome.ok.injEq] at he
          subst he
          simp only at hr
          split at hr
          · simp only [setToken, Outcome.ok.injEq, Prod.mk.injEq, true_and] at hr
            subst hr
            refine ⟨?_, s.word⟩
            simp only
            unfold pushback at hp
            rw [s.text] at hp
            simp only at hp
            split at hp
            · simp at hp
            · split at hp
              · rename_i hq
                simp only [Outcome.ok.injEq] at hp
                subst hp
                rcases s.was with ⟨_, _, _⟩ | ⟨hne, _⟩
                · omega
                · exact absurd hq.1 hne
              · rename_i hq
                split at hp
                · simp at hp
                · split at hp
                  · simp only [Outcome.ok.injEq] at hp
                    subst hp
                    rcases s.was with ⟨h1, h2, _⟩ | ⟨hne, h2, _⟩
                    · exact absurd ⟨h1, h2⟩ hq
                    · simp only; omega
                  · simp at hp
          · simp [setToken] at hr
        · simp at he

/-! The next token -/

theorem takeWhile_test {p : Char → Bool} (s : CStr) : ∀ c ∈ s.takeWhile p, p c = true := by
  induction s with
  | nil => simp
  | cons a s ih =>
    intro c hc
    rw [List.takeWhile_cons] at hc
    split at hc
    · rename_i ha
      rcases List.mem_cons.mp hc with rfl | hc
      · exact ha
      · exact ih c hc
    · simp at hc

theorem dropWhile_headCh {p : Char → Bool} (hp : p '\n' = false) (s : CStr) : testCh p (headCh (s.dropWhile p)) = false := by
  induction s with
  | nil => exact hp
  | cons a s ih =>
    rw [List.dropWhile_cons]
    split
    · exact ih
    · rename_i h
      simpa [headCh, testCh] using h

theorem endWord_num {a : Lex} {w : CStr} {t : Tok} {l : Lex} (ht : t ≠ .num)
    (h : (match endWord a w with
      | .halt h => .halt h
      | .ok l => .ok (setToken l t)) = Outcome.ok (Tok.num, l)) : False := by
  split at h
  · simp at h
  · simp only [setToken, Outcome.ok.injEq, Prod.mk.injEq] at h
    exact ht h.1

theorem nameLoopAnywhere_num {n : Nat} {a l : Lex} {w : CStr} (h : nameLoopAnywhere n a w = .ok (.num, l)) : False := by
  induction n generalizing a w with
  | zero => simp [nameLoopAnywhere] at h
  | succ n ih =>
    simp only [nameLoopAnywhere] at h
    split at h
    · simp at h
    · split at h
      · split at h
        · exact endWord_num (by simp) h
        · split at h
          · exact endWord_num (by simp) h
          · split at h
            · simp at h
            · split at h
              · simp at h
              · exact ih h
      · split at h
        · split at h
          · simp at h
          · split at h
            · simp at h
            · exact endWord_num (by simp) h
        · exact endWord_num (by simp) h

theorem nameLoop_num {n : Nat} {a l : Lex} {w : CStr} (h : nameLoop n a w = .ok (.num, l)) : False := by
  induction n generalizing a w with
  | zero => simp [nameLoop] at h
  | succ n ih =>
    simp only [nameLoop] at h
    split at h
    · simp at h
    · split at h
      · split at h
        · exact endWord_num (by simp) h
        · split at h
          · simp at h
          · exact ih h
      · split at h
        · split at h
          · simp at h
          · exact endWord_num (identifierToken_num _) h
        · split at h
          · simp at h
          · exact endWord_num (identifierToken_num _) h

theorem lexToken_num {a l : Lex} {c : Option Char} (h : lexToken a c = .ok (.num, l)) : lexNumber a c = .ok (.num, l) := by
  unfold lexToken at h
  split at h
  · split at h
    · unfold wordAnywhere at h
      split at h
      · simp at h
      · split at h
        · simp [setToken] at h
        · split at h
          · simp at h
          · split at h
            · simp at h
            · exact (nameLoopAnywhere_num h).elim
    · unfold wordSeparate at h
      split at h
      · simp at h
      · exact (nameLoop_num h).elim
  · split at h
    · exact h
    · split at h
      · unfold lexString at h
        split at h
        · simp at h
        · exact (endWord_num (by simp) h).elim
        · split at h
          · simp at h
          · split at h <;> simp [setToken] at h
      · split at h
        · unfold lexLess at h
          split at h
          · simp at h
          · split at h
            · simp [setToken] at h
            · split at h
              · simp [setToken] at h
              · split at h <;> simp [setToken] at h
        · split at h
          · unfold lexGreater at h
            split at h
            · simp at h
            · split at h
              · simp [setToken] at h
              · split at h <;> simp [setToken] at h
          · split at h <;> simp [setToken] at h

/-- What the next token is, in terms of what is left of the line. -/
theorem next_begins {lex lex' : Lex} {s : CStr} {t : Tok} (h : Left lex s) (hp : ∀ c ∈ s, Plain c) (hn : lexNext lex = .ok (t, lex')) :
    ∃ b w r, s = b ++ w ++ r ∧ Begins lex.prefixes b w r t lex'.num ∧ Left lex' r ∧ lex'.text = lex.text ∧ lex'.prefixes = lex.prefixes ∧
      lex'.tokenPos = lex.pos + b.length ∧ lex'.pos = lex.pos + b.length + w.length ∧ (t = .num → lex'.word = w ∧ w ≠ []) ∧
      (s ≠ [] → r.length < s.length) := by
  obtain ⟨txt, ht, hle, hd⟩ := h
  let lb : Lex := { newLex lex.prefixes with lineno := 0, text := some s, pos := 0 }
  have hal : Aligned (txt.take lex.pos) lex lb := by
    refine ⟨⟨s, rfl, ?_⟩, ?_, rfl⟩
    · rw [ht, ← hd, List.take_append_drop]
    · simp only [List.length_take, lb]; omega
  have hpl : (txt.take lex.pos).length = lex.pos := by simp only [List.length_take]; omega
  rcases hal.next with ⟨u, v, hu, hv, h1, h2, h3, h4⟩ | ⟨e, hu, _⟩
  · rw [hn] at hu
    simp only [Outcome.ok.injEq] at hu
    subst hu
    obtain ⟨t', lb'⟩ := v
    simp only at h1 h2 h3 h4
    subst h1
    have hlb : Left lb s := ⟨s, rfl, Nat.zero_le _, rfl⟩
    have hsp : s = s.takeWhile isBlank ++ s.dropWhile isBlank := List.takeWhile_append_dropWhile.symm
    have hbl := takeWhile_test (p := isBlank) s
    have hhd := dropWhile_headCh (p := isBlank) (by decide) s
    revert hsp hbl hhd
    generalize s.takeWhile isBlank = bs
    generalize s.dropWhile isBlank = s'
    intro hsp hbl hhd
    have hcl : Clean s' := by
      intro c hc
      apply hp c
      rw [hsp]
      cases s' with
      | nil => simp at hc
      | cons d s' => simp only [List.head?_cons, Option.some.injEq] at hc; subst hc; simp
    have hnx := lexNext_left (lex := lb) (bs := bs) (r := s') (by rw [← hsp]; exact hlb) hbl hcl hhd
    rw [hv] at hnx
    have hlen : s.length = bs.length + s'.length := by rw [hsp]; simp
    have hnl : ∀ d ∈ s, d ≠ '\n' := fun d hd => (hp d hd).2
    revert hnx
    generalize hA : ({ adv lb (bs.length + min 1 s'.length) with tokenPos := lb.pos + bs.length } : Lex) = A
    intro hnx
    have hAt : A.text = some s := by rw [← hA]; rfl
    have hAp : A.pos = bs.length + min 1 s'.length := by rw [← hA]; simp [adv, lb]
    have hAk : A.tokenPos = bs.length := by rw [← hA]; simp [lb]
    have hAm : A.prefixes = lex.prefixes := by rw [← hA]; rfl
    have hwas : (headCh s' = some '\n' ∧ A.pos = s.length ∧ bs.length = s.length) ∨
        (headCh s' ≠ some '\n' ∧ A.pos = bs.length + 1 ∧ s[bs.length]? = some (byteOf (headCh s'))) := by
      cases s' with
      | nil => exact .inl ⟨rfl, by rw [hAp, hlen]; simp, by rw [hlen]; simp⟩
      | cons d s' =>
        refine .inr ⟨?_, by rw [hAp]; simp only [List.length_cons]; omega, ?_⟩
        · simp only [headCh, ne_eq, Option.some.injEq]
          exact hnl d (by rw [hsp]; simp)
        · rw [hsp]; simp [headCh, byteOf]
    have hj : JustRead s lex.prefixes bs.length A (headCh s') := by
      refine ⟨⟨hAt, ?_, ?_, hAm⟩, ?_⟩
      · rcases hwas with ⟨_, h, _⟩ | ⟨_, h, h'⟩
        · omega
        · have := (List.getElem?_eq_some_iff.mp h').1; omega
      · omega
      · rcases hwas with ⟨h, h', _⟩ | ⟨_, h, h'⟩
        · exact .inl ⟨h, h'⟩
        · exact .inr ⟨by omega, by rw [h, Nat.add_sub_cancel]; exact h'⟩
    have htm := lexToken_tame hj
    rw [← hnx] at htm
    obtain ⟨hw, hgt, _⟩ := htm
    simp only at hw hgt
    have htp : lb'.tokenPos = bs.length := by
      have al : Aligned [] A A := ⟨⟨s, hAt, hAt⟩, by simp, rfl⟩
      have hbg : Begun (headCh s') A := by
        rcases hwas with ⟨h, h', _⟩ | ⟨_, h, _⟩
        · exact .inr ⟨h, fun t ht => by rw [hAt] at ht; cases ht; exact h'⟩
        · exact .inl (by omega)
      rcases al.token hbg hAk hAk with ⟨u, v, hu, hv, _, _, _, h, _⟩ | ⟨e, hu, _⟩
      · rw [← hnx] at hu
        cases hu
        exact h
      · rw [← hnx] at hu; cases hu
    have hwle := hw.le
    have hwge := hw.ge
    have hcut : s' = s'.take (lb'.pos - bs.length) ++ s'.drop (lb'.pos - bs.length) := (List.take_append_drop _ _).symm
    have hsr : s.drop lb'.pos = s'.drop (lb'.pos - bs.length) := by
      rw [hsp, List.drop_append, List.drop_eq_nil_of_le hwge, List.nil_append]
    refine ⟨bs, s'.take (lb'.pos - bs.length), s'.drop (lb'.pos - bs.length), ?_, ⟨?_, lb', ?_, htp, ?_, ?_⟩, ?_, ?_, ?_, ?_, ?_, ?_, ?_⟩
    · rw [List.append_assoc, ← hcut]; exact hsp
    · intro c hc
      have := hbl c hc
      simp only [isBlank, Bool.or_eq_true, beq_iff_eq] at this
      rcases this with (h | h) | h
      · exact .inl h
      · exact .inr (.inl h)
      · exact .inr (.inr h)
    · rw [List.append_assoc, ← hcut, ← hsp]; exact hv
    · simp only [List.length_append, List.length_take]; omega
    · intro hnum; exact (h3 hnum).2.symm
    · obtain ⟨r, t1, t2⟩ := h2.text
      rw [hw.text] at t1
      cases t1
      refine ⟨_, t2, ?_, ?_⟩
      · rw [h2.pos]; simp only [List.length_append]; omega
      · rw [h2.pos, List.drop_append, List.drop_eq_nil_of_le (by omega), List.nil_append, Nat.add_sub_cancel_left]; exact hsr
    · obtain ⟨r, t1, t2⟩ := h2.text
      rw [hw.text] at t1
      cases t1
      rw [t2, ht, ← hd, List.take_append_drop]
    · rw [h2.prefixes, hw.mode]
    · rw [h4, htp, hpl]
    · rw [h2.pos, hpl]; simp only [List.length_take]; omega
    · intro hnum
      subst hnum
      have hnb := lexToken_num hnx.symm
      have hst : Spelt s bs.length [] (headCh s') A := by
        refine ⟨hAt, by simp only [List.length_nil]; omega, rfl, ?_⟩
        rcases hwas with ⟨h, h', h''⟩ | h
        · exact .inl ⟨h, h', h''⟩
        · exact .inr h
      obtain ⟨q1, q2⟩ := lexNumber_spelt hnl hst hnb
      have hds : s.drop bs.length = s' := by rw [hsp, List.drop_left]
      have hlw : lb'.pos - bs.length = lb'.word.length := by omega
      rw [(h3 rfl).1, hlw, ← hds, q2]
      refine ⟨rfl, ?_⟩
      have hpos : bs.length < lb'.pos := by
        apply hgt
        rcases hwas with ⟨h, h', h''⟩ | h
        · rw [h] at hnb
          rw [h] at hnx
          simp [lexToken, testCh, setToken, isalpha, isupper, islower, isdigit] at hnx
        · omega
      intro e
      rw [e] at hlw
      simp only [List.length_nil] at hlw
      omega
    · intro hne
      simp only [List.length_drop]
      have : 0 < s.length := List.length_pos_iff.mpr hne
      rcases hwas with ⟨h, h', h''⟩ | h
      · omega
      · have := hgt (by omega); omega
  · rw [hn] at hu; cases hu

/-! The numbers -/

theorem lineNumber_nat {x : Dbl} (h : (Dbl.lt (.fin 0) x && Dbl.le x (.fin 65535) && Dbl.eq (Dbl.floor x) x) = true) :
    x = .fin (Dbl.toNat x : Nat) ∧ 1 ≤ Dbl.toNat x ∧ Dbl.toNat x ≤ 65535 := by
  cases x with
  | nan => simp [Dbl.lt] at h
  | pinf => simp [Dbl.lt, Dbl.le, Dbl.eq] at h
  | ninf => simp [Dbl.lt] at h
  | nzero => simp [Dbl.lt] at h
  | fin q =>
    simp only [Dbl.lt, Dbl.le, Dbl.eq, Dbl.floor, Bool.and_eq_true, Bool.or_eq_true, decide_eq_true_eq] at h
    obtain ⟨⟨h1, h2⟩, h3⟩ := h
    have hf1 : 0 < q.floor := by
      have : ((0 : Int) : Rat) < (q.floor : Rat) := by rw [h3]; simpa using h1
      exact Rat.intCast_lt_intCast.1 this
    have hf2 : ¬ (65535 < q.floor) := by
      intro hlt
      have : ((65535 : Int) : Rat) < (q.floor : Rat) := Rat.intCast_lt_intCast.2 hlt
      rw [h3] at this
      have e : ((65535 : Int) : Rat) = 65535 := rfl
      rw [e] at this
      rcases h2 with h2 | h2
      · exact absurd h2 (Rat.not_lt.2 (Rat.le_of_lt this))
      · rw [h2] at this; exact absurd this Rat.lt_irrefl
    simp only [Dbl.toNat, Dbl.fin.injEq]
    refine ⟨?_, by omega, by omega⟩
    have : ((q.floor.toNat : Nat) : Int) = q.floor := by omega
    rw [← Rat.intCast_natCast, this, h3]

theorem lineNumber_of_nat {n : Nat} (h1 : 1 ≤ n) (h2 : n ≤ 65535) :
    (Dbl.lt (.fin 0) (.fin (n : Rat)) && Dbl.le (.fin (n : Rat)) (.fin 65535) && Dbl.eq (Dbl.floor (.fin (n : Rat))) (.fin (n : Rat))) = true := by
  have a : (0 : Rat) < n := by
    have := (Rat.natCast_lt_natCast (a := 0) (b := n)).2 (by omega)
    simpa using this
  have b : (n : Rat) < 65535 ∨ (n : Rat) = 65535 := by
    rcases Nat.lt_or_ge n 65535 with h | h
    · exact .inl ((Rat.natCast_lt_natCast (a := n) (b := 65535)).2 h)
    · have : n = 65535 := by omega
      subst this
      exact .inr rfl
  rw [V.floor_nat]
  simp only [Dbl.lt, Dbl.le, Dbl.eq, Bool.and_eq_true, Bool.or_eq_true, decide_eq_true_eq]
  exact ⟨⟨a, b⟩, trivial⟩

theorem renumTarget_refers {m : LineMap} {to : Nat → Nat → Prop} (hto : ∀ n k, lookupLineMapping m n = some k ↔ to n k) {tok : Tok} {lex : Lex} {k : Nat} :
    renumTarget m tok lex = some k ↔ Refers to tok lex.num k := by
  unfold renumTarget
  constructor
  · intro h
    split at h
    · rename_i hc
      simp only [Bool.and_assoc] at hc
      rw [Bool.and_eq_true, ← Bool.and_assoc] at hc
      obtain ⟨h1, h2, h3⟩ := lineNumber_nat hc.2
      exact ⟨_, by simpa using hc.1, h1, h2, h3, (hto _ _).1 h⟩
    · simp at h
  · rintro ⟨n, rfl, hx, h1, h2, h3⟩
    have := lineNumber_of_nat h1 h2
    rw [hx, V.toNat_nat]
    simp only [beq_self_eq_true, Bool.true_and]
    rw [if_pos this]
    exact (hto _ _).2 h3

theorem takesLineNumber_iff (t : Tok) : takesLineNumber t = true ↔ ∃ k ∈ jumpWords, t = .kw k := by
  simp only [takesLineNumber, Bool.or_eq_true, beq_iff_eq, jumpWords]
  constructor
  · rintro ((((h | h) | h) | h) | h) <;> exact ⟨_, by decide, h⟩
  · rintro ⟨k, hk, rfl⟩
    simp only [List.mem_cons, List.not_mem_nil, or_false] at hk
    rcases hk with rfl | rfl | rfl | rfl | rfl <;> simp

/-! One line -/

theorem Orderly_tail {kw : Bool} {a s : CStr} (h : Orderly kw (a ++ s)) : Orderly kw s :=
  ⟨fun c hc => h.1 c (by simp [hc]), fun a' b w r x he hb => h.2 (a ++ a') b w r x (by rw [he]; simp) hb⟩

theorem decimal_literal {n : Nat} : ∃ x, Literal (fmtU n) x := by
  refine ⟨_, fmtU n, fmtU n, [], [], 0, by simp, ⟨fun c hc => ?_, ?_, .inl ⟨rfl, rfl⟩⟩, .inl ⟨rfl, rfl⟩, by simp, Dbl.rnd_rounded _⟩
  · simp only [List.append_nil] at hc
    have := fmtU_digits n c hc
    exact (isdigit_iff c).1 this
  · simpa using fmtU_ne_nil n

theorem fmtU_short {n : Nat} (h : n < 2 ^ 32) : (fmtU n).length ≤ 127 := by
  have : (Nat.toDigits 10 n).length ≤ 10 := (Nat.length_toDigits_le_iff (by decide) (by decide)).2 (by omega)
  exact Nat.le_trans this (by decide)

/-- The source with another text in one line. -/
def withText (src : Source) (line : Nat) (sl : SrcLine) (t : CStr) : Source :=
  { src with lines := src.lines.set line { sl with text := t } }

theorem withText_same {src : Source} {line : Nat} {sl : SrcLine} (h : src.lines[line]? = some sl) : withText src line sl sl.text = src := by
  obtain ⟨hl, he⟩ := List.getElem?_eq_some_iff.mp h
  unfold withText
  have : src.lines.set line { sl with text := sl.text } = src.lines := by
    rw [show ({ sl with text := sl.text } : SrcLine) = src.lines[line] from he.symm]
    exact List.set_getElem_self hl
  rw [this]

theorem withText_twice {src : Source} {line : Nat} {sl : SrcLine} {t t' : CStr} :
    withText (withText src line sl t) line { sl with text := t } t' = withText src line sl t' := by
  simp [withText, List.set_set]

theorem withText_get {src : Source} {line : Nat} {sl : SrcLine} {t : CStr} (h : src.lines[line]? = some sl) :
    (withText src line sl t).lines[line]? = some { sl with text := t } := by
  have hl := (List.getElem?_eq_some_iff.mp h).1
  simp [withText, hl]

theorem renumTokens_text {m : LineMap} {to : Nat → Nat → Prop} (hto : ∀ n k, lookupLineMapping m n = some k ↔ to n k)
    (hsm : ∀ n k, to n k → k < 2 ^ 32) {kw : Bool} {line n : Nat} {src : Source} {sl : SrcLine} {tok : Tok} {lex0 lex : Lex} {a s : CStr} {res : RenumRes}
    (hsl : src.lines[line]? = some sl) (htx : sl.text = a ++ s) (hlx : lex0.text = some sl.text) (hps : lex0.pos = a.length)
    (hkw : lex0.prefixes = kw) (ho : Orderly kw s) (hn : lexNext lex0 = .ok (tok, lex)) (h : renumTokens m line n src tok lex = .ok res) :
    ∃ lex' s', res = .done (withText src line sl (a ++ s')) lex' ∧ lex'.prefixes = kw ∧ Retargeted kw to s s' := by
  induction n generalizing src sl tok lex0 lex a s with
  | zero => simp [renumTokens] at h
  | succ n ih =>
    have hleft : Left lex0 s := ⟨sl.text, hlx, by rw [htx, hps]; simp, by rw [htx, hps]; simp⟩
    obtain ⟨b, w, r, hs, hbg, hl1, ht1, hm1, hk1, hp1, hnum1, _⟩ := next_begins hleft ho.1 hn
    rw [hkw] at hbg hm1
    subst hs
    have ht1' : lex.text = some sl.text := ht1.trans hlx
    simp only [renumTokens] at h
    split at h
    · rename_i hend
      simp only [Outcome.ok.injEq] at h
      subst h
      refine ⟨lex, b ++ w ++ r, ?_, hm1, .done hbg hend.symm⟩
      rw [← htx, withText_same hsl]
    · rename_i hend
      simp only [not_or] at hend
      split at h
      · rename_i htk
        obtain ⟨k, hk, rfl⟩ := (takesLineNumber_iff _).1 htk
        split at h
        · simp at h
        · rename_i t2 lex2 hn2
          have ho1 : Orderly kw r := Orderly_tail ho
          obtain ⟨b', w', r', hs', hbg', hl2, ht2, hm2, hk2, hp2, hnum2, _⟩ := next_begins hl1 ho1.1 hn2
          rw [hm1] at hbg' hm2
          subst hs'
          have ht2' : lex2.text = some sl.text := ht2.trans ht1'
          have htx2 : sl.text = (a ++ b ++ w ++ b' ++ w') ++ r' := by rw [htx]; simp
          have ho2 : Orderly kw r' := Orderly_tail ho1
          split at h
          · rename_i hnone
            split at h
            · simp at h
            · rename_i t3 lex3 hn3
              obtain ⟨lex', s', h1, h2, h3⟩ := ih hsl htx2 ht2' (by rw [hp2, hp1, hps]; simp only [List.length_append]) hm2 ho2 hn3 h
              refine ⟨lex', b ++ w ++ (b' ++ w' ++ s'), ?_, h2, .other hbg hk hbg' ?_ h3⟩
              · rw [h1]; simp
              · intro k' hk'
                rw [(renumTarget_refers hto).2 hk'] at hnone
                cases hnone
          · rename_i k' hsome
            have hrf := (renumTarget_refers hto).1 hsome
            obtain ⟨x, rfl, hx, hx1, hx2, hx3⟩ := hrf
            have hword := (hnum2 rfl).1
            have hpos : lex2.tokenPos = (a ++ b ++ w ++ b').length := by rw [hk2, hp1, hps]; simp only [List.length_append]
            have htx3 : sl.text = (a ++ b ++ w ++ b') ++ (w' ++ r') := by rw [htx]; simp
            have hrep : sourceReplace src line lex2.tokenPos lex2.word (fmtU k') =
                some (withText src line sl ((a ++ b ++ w ++ b') ++ fmtU k' ++ r')) := by
              unfold sourceReplace
              rw [hsl, hword]
              simp only
              have hsub : sl.text.drop lex2.tokenPos = w' ++ r' := by rw [htx3, hpos, List.drop_left]
              have hlen : sl.text.length = lex2.tokenPos + w'.length + r'.length := by rw [htx3, hpos]; simp only [List.length_append]; omega
              rw [if_pos ⟨by omega, by omega, by rw [hsub, List.take_left]⟩]
              have h5 : sl.text.take lex2.tokenPos = a ++ b ++ w ++ b' := by rw [htx3, hpos, List.take_left]
              have h6 : sl.text.drop (lex2.tokenPos + w'.length) = r' := by
                rw [← List.drop_drop, hsub, List.drop_left]
              rw [h5, h6]
              rfl
            rw [hrep] at h
            simp only [sourceText, withText_get hsl] at h
            have hends : NumberEnds r' := ho1.2 [] b' w' r' lex2.num (by simp) hbg'
            obtain ⟨xx, hlit⟩ := decimal_literal (n := k')
            have hleft2 : Left { lex2 with text := some ((a ++ b ++ w ++ b') ++ fmtU k' ++ r'), pos := lex2.tokenPos } ([] ++ fmtU k' ++ r') := by
              refine ⟨_, rfl, ?_, ?_⟩
              · simp only [hpos, List.length_append]; omega
              · simp only [hpos, List.append_assoc, List.nil_append]
                rw [show a ++ (b ++ (w ++ (b' ++ (fmtU k' ++ r')))) = (a ++ (b ++ (w ++ b'))) ++ (fmtU k' ++ r') by simp, List.drop_left]
            have hrl := next_literal hleft2 (by intro c hc; simp at hc) hlit hends (fmtU_short (hsm _ _ hx3))
            rw [lexRefresh, hrl] at h
            revert h
            generalize hlx3 : ({ moved { lex2 with text := some ((a ++ b ++ w ++ b') ++ fmtU k' ++ r'), pos := lex2.tokenPos } ([] : CStr).length (([] : CStr).length + (fmtU k').length) .num (fmtU k') with num := xx } : Lex) = lx
            intro h
            have e1 : lx.text = some ((a ++ b ++ w ++ b') ++ fmtU k' ++ r') := by rw [← hlx3]; rfl
            have e2 : lx.pos = (a ++ b ++ w ++ b' ++ fmtU k').length := by rw [← hlx3]; simp only [moved, hpos, List.length_append, List.length_nil]; omega
            have e3 : lx.prefixes = kw := by rw [← hlx3]; exact hm2
            simp only [ne_eq, not_true_eq_false, if_false] at h
            split at h
            · simp at h
            · rename_i t3 lex3 hn3
              obtain ⟨lex', s', h1, h2, h3⟩ := ih (a := a ++ b ++ w ++ b' ++ fmtU k') (withText_get hsl) rfl e1 e2 e3 ho2 hn3 h
              refine ⟨lex', b ++ w ++ (b' ++ fmtU k' ++ s'), ?_, h2, .reference hbg hk hbg' ⟨x, rfl, hx, hx1, hx2, hx3⟩ h3⟩
              rw [h1, withText_twice]; simp
      · rename_i htk
        split at h
        · simp at h
        · rename_i t2 lex2 hn2
          have htx2 : sl.text = (a ++ b ++ w) ++ r := by rw [htx]; simp
          obtain ⟨lex', s', h1, h2, h3⟩ := ih hsl htx2 ht1' (by rw [hp1, hps]; simp only [List.length_append]) hm1 (Orderly_tail ho) hn2 h
          refine ⟨lex', b ++ w ++ s', ?_, h2, .token hbg hend.2 hend.1 ?_ h3⟩
          · rw [h1]; simp
          · intro k hk e
            exact htk ((takesLineNumber_iff _).2 ⟨k, hk, e⟩)

/-! All lines -/

theorem renumLines_text {m : LineMap} {to : Nat → Nat → Prop} (hto : ∀ n k, lookupLineMapping m n = some k ↔ to n k)
    (hsm : ∀ n k, to n k → k < 2 ^ 32) {kw : Bool} {todo line : Nat} {src src' : Source} {lex : Lex} {msg : Option String}
    (hkw : lex.prefixes = kw) (htodo : line + todo = src.lines.length)
    (ho : ∀ (i : Nat) (sl : SrcLine), line ≤ i → src.lines[i]? = some sl → Orderly kw sl.text)
    (h : renumLines m todo line src lex = .ok (src', msg)) :
    msg = none ∧ src'.lines.length = src.lines.length ∧ (∀ i : Nat, i < line → src'.lines[i]? = src.lines[i]?) ∧
      ∀ (i : Nat) (sl : SrcLine), line ≤ i → src.lines[i]? = some sl → ∃ t', src'.lines[i]? = some { sl with text := t' } ∧ Retargeted kw to sl.text t' := by
  induction todo generalizing line src lex with
  | zero =>
    simp only [renumLines, Outcome.ok.injEq, Prod.mk.injEq] at h
    obtain ⟨rfl, rfl⟩ := h
    refine ⟨rfl, rfl, fun _ _ => rfl, fun i sl hi hsl => ?_⟩
    have := (List.getElem?_eq_some_iff.mp hsl).1
    omega
  | succ todo ih =>
    simp only [renumLines] at h
    have hlt : line < src.lines.length := by omega
    have hsl : src.lines[line]? = some src.lines[line] := List.getElem?_eq_getElem hlt
    simp only [sourceText, hsl] at h
    split at h
    · simp at h
    · rename_i tok lex1 hn
      have key : ∀ res, renumTokens m line (src.lines[line].text.length + 2) src tok lex1 = .ok res →
          ∃ lex' s', res = .done (withText src line src.lines[line] s') lex' ∧ lex'.prefixes = kw ∧ Retargeted kw to src.lines[line].text s' := by
        intro res hr
        have := renumTokens_text (a := []) (s := src.lines[line].text) hto hsm hsl rfl
          (lex0 := { lex with lineno := line, text := some src.lines[line].text, pos := 0 }) rfl rfl hkw (ho _ _ (Nat.le_refl _) hsl) hn hr
        simpa using this
      split at h
      · simp at h
      · rename_i hb
        obtain ⟨_, _, he, _⟩ := key _ hb
        cases he
      · rename_i hb
        obtain ⟨lex', s', he, hk', hre⟩ := key _ hb
        cases he
        have hget : ∀ i : Nat, line + 1 ≤ i → (withText src line src.lines[line] s').lines[i]? = src.lines[i]? := by
          intro i hi
          simp only [withText]
          rw [List.getElem?_set_ne (by omega)]
        obtain ⟨h1, h2, h3, h4⟩ := ih hk' (by simp only [withText, List.length_set]; omega)
          (fun i sl hi hs => ho i sl (by omega) (by rw [← hget i hi]; exact hs)) h
        refine ⟨h1, by rw [h2]; simp [withText], ?_, ?_⟩
        · intro i hi
          rw [h3 i (by omega)]
          simp only [withText]
          rw [List.getElem?_set_ne (by omega)]
        · intro i sl hi hs
          rcases Nat.eq_or_lt_of_le hi with rfl | hi
          · rw [hsl] at hs
            cases hs
            refine ⟨s', ?_, hre⟩
            rw [h3 _ (by omega)]
            exact withText_get hsl
          · exact h4 i sl hi (by rw [hget i hi]; exact hs)

/-- The numbers at the same places of two programs. -/
def Pairs (ls ls' : List SrcLine) (n k : Nat) : Prop := ∃ (i : Nat) (l l' : SrcLine), ls[i]? = some l ∧ ls'[i]? = some l' ∧ l.num = n ∧ l'.num = k

theorem pairs_cons {l l' : SrcLine} {ls ls' : List SrcLine} {n k : Nat} :
    Pairs (l :: ls) (l' :: ls') n k ↔ (l.num = n ∧ l'.num = k) ∨ Pairs ls ls' n k := by
  constructor
  · rintro ⟨i, a, b, h1, h2, h3, h4⟩
    cases i with
    | zero => cases h1; cases h2; exact .inl ⟨h3, h4⟩
    | succ i => exact .inr ⟨i, a, b, h1, h2, h3, h4⟩
  · rintro (⟨h1, h2⟩ | ⟨i, a, b, h1, h2, h3, h4⟩)
    · exact ⟨0, l, l', rfl, rfl, h1, h2⟩
    · exact ⟨i + 1, a, b, h1, h2, h3, h4⟩

theorem pairs_mem {ls ls' : List SrcLine} {n k : Nat} (h : Pairs ls ls' n k) : n ∈ nums ls := by
  obtain ⟨i, a, b, h1, _, h3, _⟩ := h
  simp only [nums, List.mem_map]
  exact ⟨a, List.mem_of_getElem? h1, h3⟩

theorem renumLoop_map {old inc : Nat} {ls ls' : List SrcLine} {new prev : Nat} {m m' : LineMap}
    (hs : Ascending (nums ls)) (hc : m.count + ls.length ≤ m.allocated)
    (h : renumLoop old inc ls new prev m = .ok (ls', m', none)) :
    ls'.length = ls.length ∧ (∀ (i : Nat) (l : SrcLine), ls[i]? = some l → ∃ k, ls'[i]? = some { l with num := k }) ∧
      (∀ n k, lookupLineMapping m' n = some k ↔ Pairs ls ls' n k ∨ (n ∉ nums ls ∧ lookupLineMapping m n = some k)) ∧
      (new < 2 ^ 32 → (∀ l ∈ ls, l.num < 2 ^ 32) → ∀ l ∈ ls', l.num < 2 ^ 32) := by
  induction ls generalizing ls' new prev m with
  | nil =>
    simp only [renumLoop, Outcome.ok.injEq, Prod.mk.injEq] at h
    obtain ⟨rfl, rfl, _⟩ := h
    refine ⟨rfl, fun i l hl => by simp at hl, fun n k => ?_, fun _ _ l hl => by simp at hl⟩
    simp [Pairs, nums]
  | cons l ls ih =>
    simp only [List.length_cons] at hc
    have hs' : Ascending (nums ls) := (List.pairwise_cons.mp hs).2
    have hlt : ∀ n ∈ nums ls, l.num < n := (List.pairwise_cons.mp hs).1
    have step : ∀ (k : Nat) (m1 : LineMap) (ls1 : List SrcLine), (∀ n, lookupLineMapping m1 n = if n = l.num then some k else lookupLineMapping m n) →
        (∀ n k', lookupLineMapping m' n = some k' ↔ Pairs ls ls1 n k' ∨ (n ∉ nums ls ∧ lookupLineMapping m1 n = some k')) →
        ∀ n k', lookupLineMapping m' n = some k' ↔
          Pairs (l :: ls) ({ l with num := k } :: ls1) n k' ∨ (n ∉ nums (l :: ls) ∧ lookupLineMapping m n = some k') := by
      intro k m1 ls1 hm1 h3 n k'
      rw [h3, pairs_cons, hm1]
      simp only [nums, List.map_cons, List.mem_cons, not_or]
      have hmem : l.num ∉ ls.map (·.num) := fun hm => Nat.lt_irrefl _ (hlt _ hm)
      by_cases hn : n = l.num
      · subst hn
        simp only [if_true, Option.some.injEq, true_and]
        constructor
        · rintro (h | ⟨_, h⟩)
          · exact .inl (.inr h)
          · exact .inl (.inl h)
        · rintro ((h | h) | ⟨⟨h, _⟩, _⟩)
          · exact .inr ⟨hmem, h⟩
          · exact .inl h
          · exact absurd trivial h
      · rw [if_neg hn]
        constructor
        · rintro (h | ⟨h, h'⟩)
          · exact .inl (.inr h)
          · exact .inr ⟨⟨hn, h⟩, h'⟩
        · rintro ((⟨h, _⟩ | h) | ⟨⟨_, h⟩, h'⟩)
          · exact absurd h.symm hn
          · exact .inl h
          · exact .inr ⟨h, h'⟩
    have build : ∀ (k : Nat) (ls1 : List SrcLine), (∀ (i : Nat) (l : SrcLine), ls[i]? = some l → ∃ k, ls1[i]? = some { l with num := k }) →
        ∀ (i : Nat) (l0 : SrcLine), (l :: ls)[i]? = some l0 → ∃ k', (({ l with num := k } : SrcLine) :: ls1)[i]? = some { l0 with num := k' } := by
      intro k ls1 h2 i l0 hi
      cases i with
      | zero => cases hi; exact ⟨k, rfl⟩
      | succ i => exact h2 i l0 hi
    simp only [renumLoop] at h
    split at h
    · split at h
      · simp at h
      · obtain ⟨m1, hi, hc1, ha1, hm1⟩ := insert_ok m l.num new (by omega)
        rw [hi] at h
        simp only at h
        split at h
        · simp at h
        · rename_i ls1 m2 e hr
          simp only [Outcome.ok.injEq, Prod.mk.injEq] at h
          obtain ⟨rfl, rfl, rfl⟩ := h
          obtain ⟨h1, h2, h3, h4⟩ := ih hs' (by omega) hr
          refine ⟨by simp [h1], build _ _ h2, step _ _ _ hm1 h3, ?_⟩
          intro hn hl x hx
          rcases List.mem_cons.mp hx with rfl | hx
          · exact hn
          · exact h4 (Nat.mod_lt _ (by decide)) (fun l hl' => hl l (List.mem_cons_of_mem _ hl')) x hx
    · obtain ⟨m1, hi, hc1, ha1, hm1⟩ := insert_ok m l.num l.num (by omega)
      rw [hi] at h
      simp only at h
      split at h
      · simp at h
      · rename_i ls1 m2 e hr
        simp only [Outcome.ok.injEq, Prod.mk.injEq] at h
        obtain ⟨rfl, rfl, rfl⟩ := h
        obtain ⟨h1, h2, h3, h4⟩ := ih hs' (by omega) hr
        refine ⟨by simp [h1], build l.num _ h2, step l.num _ _ hm1 h3, ?_⟩
        intro hn hl x hx
        rcases List.mem_cons.mp hx with rfl | hx
        · exact hl _ List.mem_cons_self
        · exact h4 hn (fun l hl' => hl l (List.mem_cons_of_mem _ hl')) x hx

theorem putOut_world {vm : VM} {o : CStr} {s : Char} {v : VM} (h : (putOut v (o ++ [s])).world = vm.world) (hv : v.world = vm.world) : False := by
  rw [← hv] at h
  have := congrArg (fun w => w.out.length) h
  simp [putOut] at this

theorem renumber_text {vm vm' : VM} {new old inc : Nat} (hs : Ascending ((lines vm).map (·.1))) (hnew : new < 2 ^ 32)
    (hl : ∀ l ∈ lines vm, l.1 < 2 ^ 32 ∧ Orderly vm.keywordsAnywhere l.2) (h : renumber vm new old inc = .ok vm') (hq : vm'.world = vm.world) :
    (lines vm').length = (lines vm).length ∧ ∀ (i : Nat) (n n' : Nat) (t t' : CStr), (lines vm)[i]? = some (n, t) → (lines vm')[i]? = some (n', t') →
      Retargeted vm.keywordsAnywhere (MovedTo vm vm') t t' := by
  unfold renumber at h
  split at h
  · rename_i hsrc
    simp only [Outcome.ok.injEq] at h
    subst h
    refine ⟨rfl, fun i n n' t t' hi => ?_⟩
    simp [lines, hsrc] at hi
  · rename_i src hsrc
    rw [lines_nums hsrc] at hs
    have hlines : lines vm = src.lines.map (fun l => (l.num, l.text)) := by simp [lines, hsrc]
    split at h
    · simp at h
    · simp only [Outcome.ok.injEq] at h
      subst h
      exact (putOut_world hq rfl).elim
    · rename_i ls m hr
      obtain ⟨h1, h2, h3, h4⟩ := renumLoop_map hs (by simp [newLineMap, sourceLines]) hr
      split at h
      · simp at h
      · rename_i src' msg hrl
        have hold : ∀ (i : Nat) (l : SrcLine), ls[i]? = some l → ∃ l0, src.lines[i]? = some l0 ∧ l = { l0 with num := l.num } := by
          intro i l hi
          have hlt := (List.getElem?_eq_some_iff.mp hi).1
          have hg : src.lines[i]? = some (src.lines[i]'(by omega)) := List.getElem?_eq_getElem (by omega)
          obtain ⟨k, hk⟩ := h2 i _ hg
          rw [hi] at hk
          cases hk
          exact ⟨_, hg, rfl⟩
        have hm : ∀ l0 ∈ src.lines, l0.num < 2 ^ 32 ∧ Orderly vm.keywordsAnywhere l0.text := by
          intro l0 h0
          exact hl (l0.num, l0.text) (by rw [hlines]; exact List.mem_map.mpr ⟨l0, h0, rfl⟩)
        have h4' := h4 hnew (fun l hl => (hm l hl).1)
        obtain ⟨g1, g2, _, g4⟩ := renumLines_text (to := Pairs src.lines ls) (kw := vm.keywordsAnywhere)
          (fun n k => by rw [h3]; simp [newLineMap, lookupLineMapping])
          (fun n k hp => by
            obtain ⟨i, a, b, _, hb, _, rfl⟩ := hp
            exact h4' b (List.mem_of_getElem? hb))
          rfl (by simp [sourceLines, h1]) (fun i sl _ hsl => by
            obtain ⟨l0, h0, he⟩ := hold i sl hsl
            rw [he]
            exact (hm l0 (List.mem_of_getElem? h0)).2) hrl
        subst g1
        simp only [Outcome.ok.injEq] at h
        subst h
        have hto : Pairs src.lines ls = MovedTo vm { vm with stored := { vm.stored with source := some src' } } := by
          funext n k
          apply propext
          simp only [Pairs, MovedTo, lines, hsrc, List.getElem?_map, Option.map_eq_some_iff, Prod.mk.injEq]
          constructor
          · rintro ⟨i, a, b, ha, hb, hn, hk⟩
            obtain ⟨t', ht', _⟩ := g4 i b (Nat.zero_le _) hb
            exact ⟨i, a.text, t', ⟨a, ha, hn, rfl⟩, ⟨_, ht', hk, rfl⟩⟩
          · rintro ⟨i, t, t', ⟨a, ha, hn, _⟩, ⟨b, hb, hk, _⟩⟩
            have hlt := (List.getElem?_eq_some_iff.mp hb).1
            have hg : ls[i]? = some (ls[i]'(by simp only at g2; omega)) := List.getElem?_eq_getElem (by simp only at g2; omega)
            obtain ⟨t2, ht2, _⟩ := g4 i _ (Nat.zero_le _) hg
            rw [hb] at ht2
            simp only [Option.some.injEq] at ht2
            rw [ht2] at hk
            exact ⟨i, a, _, ha, hg, hn, hk⟩
        refine ⟨by simp [lines, hsrc, g2, h1], ?_⟩
        intro i n n' t t' hi hi'
        rw [← hto]
        simp only [lines, hsrc, List.getElem?_map, Option.map_eq_some_iff, Prod.mk.injEq] at hi hi'
        obtain ⟨a, ha, rfl, rfl⟩ := hi
        obtain ⟨b, hb, rfl, rfl⟩ := hi'
        obtain ⟨k, hk⟩ := h2 i a ha
        obtain ⟨t2, ht2, hre⟩ := g4 i _ (Nat.zero_le _) hk
        rw [hb] at ht2
        cases ht2
        exact hre

end LB
