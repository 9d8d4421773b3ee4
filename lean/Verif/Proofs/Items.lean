import Verif.Proofs.Scan
import Verif.Proofs.Numbers
/- The words of the statements about tokens in terms of the model. -/
namespace LB
open LB.Spec

theorem isalpha_eq (c : Char) : isalpha c = c.isAlpha := by
  rw [Bool.eq_iff_iff]
  simp only [isalpha, isupper, islower, Char.isAlpha, Char.isUpper, Char.isLower, Bool.or_eq_true, Bool.and_eq_true, decide_eq_true_eq,
    UInt32.le_iff_toNat_le, ge_iff_le]
  rfl

theorem isdigit_eq (c : Char) : isdigit c = c.isDigit := by
  rw [Bool.eq_iff_iff]
  simp only [isdigit, Char.isDigit, Bool.and_eq_true, decide_eq_true_eq, UInt32.le_iff_toNat_le, ge_iff_le]
  rfl

theorem isalnum_eq (c : Char) : isalnum c = c.isAlphanum := by
  simp only [isalnum, Char.isAlphanum, isalpha_eq, isdigit_eq]

theorem space_blank {b : CStr} (h : Space b) : ∀ c ∈ b, isBlank c = true := by
  intro c hc
  rcases h c hc with rfl | rfl | rfl <;> decide

theorem blank_dataBlank {b : CStr} (h : Blank b) : ∀ c ∈ b, isDataBlank c = true := by
  intro c hc
  rcases h c hc with rfl | rfl <;> decide

theorem blank_space {b : CStr} (h : Blank b) : Space b := fun c hc => (h c hc).imp _root_.id .inl

theorem moved_left {lex : Lex} {a r w : CStr} {b n : Nat} {t : Tok} (h : Left lex (a ++ r)) (hn : a.length = n) : Left (moved lex b n t w) r := by
  subst hn
  exact h.adv.set rfl rfl

/-- A name is read as a whole. -/
theorem next_name {lex : Lex} {b w r : CStr} (hm : lex.prefixes = false) (h : Left lex (b ++ w ++ r)) (hb : Space b) (hw : Name w)
    (hr : NameEnds w r) (hl : w.length ≤ 126) :
    lexNext lex = .ok (identifierToken w, moved lex b.length (b.length + w.length) (identifierToken w) w) := by
  obtain ⟨c, x, d, rfl, hc, hx, hd⟩ := hw
  have hc' : isalpha c = true := by rw [isalpha_eq]; exact hc
  have hx' : ∀ e ∈ x, isalnum e = true := fun e he => by rw [isalnum_eq]; exact hx e he
  have hb' := space_blank hb
  rcases hd with rfl | rfl
  · simp only [List.append_nil, List.length_cons] at h hl hr ⊢
    have hne : ¬ (c :: x).getLast? = some '$' := by
      intro g
      have := List.mem_of_getLast? g
      rcases List.mem_cons.1 this with e | e
      · rw [← e] at hc; revert hc; decide
      · have := hx _ e; revert this; decide
    have hr2 := hr.2.resolve_left hne
    have hh : testCh isalnum (headCh r) = false := by
      cases r with
      | nil => rfl
      | cons e r => simp only [headCh_cons, testCh]; rw [isalnum_eq]; exact (hr2 e rfl).1
    rw [List.append_assoc] at h
    rw [next_word hm h hb' hc' hx' hr.1 hh (fun g => by exact absurd rfl (hr2 _ g).2) (by omega)]
    simp only [Nat.add_assoc]
  · simp only [List.cons_append, List.append_assoc, List.length_cons, List.length_append, List.length_nil, List.nil_append] at h hl ⊢
    have := next_wordDollar (r := r) hm h hb' hc' hx' (by omega)
    rw [List.cons_append] at this
    rw [this, show b.length + (x.length + (0 + 1) + 1) = b.length + x.length + 2 by omega]

theorem runLoop_long {stop : Option Char → Bool} {n : Nat} {lex : Lex} {w x r : CStr} {c : Char} (h : Left lex (x ++ r))
    (hs : ∀ d ∈ c :: x, stop (some d) = false) (hp : ∀ d ∈ x, Plain d)
    (hl : 127 < w.length + x.length + 1) (hw : w.length ≤ 127) (hn : x.length < n) :
    ∃ y, runLoop stop n lex w (some c) = .ok (.tooLong y (adv lex (127 - w.length))) ∧ y.length = 127 := by
  induction x generalizing lex n w c with
  | nil =>
    obtain ⟨n, rfl⟩ : ∃ m, n = m + 1 := ⟨n - 1, by omega⟩
    simp only [List.length_nil] at hl
    simp only [runLoop, hs c List.mem_cons_self, Bool.false_eq_true, if_false]
    rw [if_pos (by simp only [maxWord]; omega), show 127 - w.length = 0 by omega]
    exact ⟨w, rfl, by omega⟩
  | cons d x ih =>
    obtain ⟨n, rfl⟩ : ∃ m, n = m + 1 := ⟨n - 1, by omega⟩
    simp only [List.length_cons] at hl hn
    simp only [runLoop, hs c List.mem_cons_self, Bool.false_eq_true, if_false]
    by_cases hfull : w.length + 1 ≥ maxWord
    · rw [if_pos hfull, show 127 - w.length = 0 by simp only [maxWord] at hfull; omega]
      exact ⟨w, rfl, by simp only [maxWord] at hfull; omega⟩
    · rw [if_neg hfull, putWord_tame (by simp only [maxWord] at *; omega),
        lexChar_cons (h : Left lex (d :: (x ++ r))) (hp d List.mem_cons_self)]
      simp only [byteOf]
      obtain ⟨y, hy, hy2⟩ := ih (w := w ++ [c]) (n := n) (Spec.Left.tail h) (fun e he => hs e (List.mem_cons_of_mem _ he)) (fun e he => hp e (List.mem_cons_of_mem _ he))
        (by simp only [List.length_append, List.length_singleton]; omega)
        (by simp only [List.length_append, List.length_singleton]; simp only [maxWord] at hfull; omega) (by omega)
      refine ⟨y, ?_, hy2⟩
      rw [hy, adv_adv]
      simp only [List.length_append, List.length_singleton]
      rw [show 1 + (127 - (w.length + 1)) = 127 - w.length by simp only [maxWord] at hfull; omega]

/-- A literal that is too long is refused. -/
theorem next_string_long {lex : Lex} {b s r : CStr} (h : Left lex (b ++ '"' :: (s ++ r))) (hb : Space b) (hs : Quotable s) (hl : 127 < s.length) :
    ∃ lex', lexNext lex = .ok (.error, lex') := by
  rw [lexNext_cons h (space_blank hb) (by decide) (by decide)]
  have ht := opened_left h
  simp only [lexToken]
  rw [if_neg (by decide), if_neg (by decide), if_pos trivial]
  cases s with
  | nil => simp at hl
  | cons c s =>
    have hs' : ∀ d ∈ c :: s, endsString (some d) = false := by
      intro d hd
      have h1 : d ≠ '"' := fun e => hs.2 (e ▸ hd)
      have h2 : d ≠ '\n' := (hs.1 d hd).2
      simp [endsString, h1, h2]
    simp only [List.length_cons] at hl
    simp only [lexString, quotedRun]
    rw [lexChar_cons (ht : Left (opened lex b.length) (c :: (s ++ r))) (hs.1 c List.mem_cons_self)]
    have ht2 : Left (adv (opened lex b.length) 1) (s ++ r) := Spec.Left.tail ht
    obtain ⟨y, hy, hy2⟩ := runLoop_long (w := []) (n := lexFuel (adv (opened lex b.length) 1) + 1) ht2 hs' (fun d hd => hs.1 d (List.mem_cons_of_mem _ hd))
      (by simp only [List.length_nil]; omega) (by simp) (by rw [left_fuel ht2]; simp only [List.length_append]; omega)
    simp only
    rw [hy]
    simp only
    rw [endWord_ok (by rw [hy2]; decide)]
    exact ⟨_, rfl⟩

theorem trimRight_append {v b : CStr} (hb : ∀ c ∈ b, isDataBlank c = true) (hv : ∀ c, v.getLast? = some c → isDataBlank c = false) :
    trimRight (v ++ b) = v := by
  unfold trimRight
  rw [List.reverse_append]
  have h1 : (b.reverse ++ v.reverse).dropWhile isDataBlank = v.reverse := by
    have hb' : ∀ c ∈ b.reverse, isDataBlank c = true := fun c hc => hb c (List.mem_reverse.1 hc)
    rw [List.dropWhile_append_of_pos hb']
    cases hr : v.reverse with
    | nil => rfl
    | cons c t =>
      have : v.getLast? = some c := by
        rw [← List.head?_reverse, hr]; rfl
      rw [List.dropWhile_cons, if_neg (by rw [hv c this]; decide)]
  rw [h1, List.reverse_reverse]

/-- Reading an item of `DATA`. -/
theorem next_item {lex : Lex} {t v r : CStr} (h : Left lex (t ++ r)) (hi : DataItem t v) (hr : Clean r)
    (hh : r.head? = none ∨ r.head? = some ',' ∨ r.head? = some ':') :
    ∃ lex' b, lexNextData lex = .ok (v, lex') ∧ Space b ∧ Left lex' (b ++ r) ∧ lex'.text = lex.text ∧ lex'.prefixes = lex.prefixes := by
  cases hi with
  | @quoted b v b' hb hb' hq hl =>
    rw [List.append_assoc, List.append_assoc] at h
    have h' : Left lex (b ++ '"' :: (v ++ '"' :: (b' ++ r))) := h
    refine ⟨_, b', data_quoted h' (blank_dataBlank hb) hq.1 hq.2 hl, blank_space hb', ?_, rfl, rfl⟩
    have h2 : Left lex ((b ++ '"' :: v ++ ['"']) ++ (b' ++ r)) := by simpa using h'
    exact h2.adv.set rfl (by simp only [afterItem, adv, List.length_append, List.length_cons, List.length_nil]; omega)
  | @plain b v b' hb hb' hv hends hempty hl =>
    have h' : Left lex (b ++ ((v ++ b') ++ r)) := by simpa using h
    have hlast : ∀ c, v.getLast? = some c → isDataBlank c = false := by
      intro c hc
      have := hends c (.inr hc)
      simp [isDataBlank, this]
    have hx : ∀ d ∈ v ++ b', Plain d ∧ endsDatum (some d) = false := by
      intro d hd
      rcases List.mem_append.1 hd with hd | hd
      · obtain ⟨h1, h2, h3, h4⟩ := hv d hd
        exact ⟨h1, by simp [endsDatum, h2, h3, h4, h1.2]⟩
      · rcases hb' d hd with rfl | rfl <;> decide
    have h0 : ∀ d, (v ++ b').head? = some d → isDataBlank d = false := by
      intro d hd
      cases v with
      | nil => rw [hempty rfl] at hd; cases hd
      | cons c v =>
        have := hends d (.inl hd)
        simp [isDataBlank, this]
    have hhe : endsDatum (headCh r) = true := by
      cases r with
      | nil => rfl
      | cons c r =>
        rcases hh with hh | hh | hh
        · cases hh
        · simp only [List.head?_cons, Option.some.injEq] at hh; subst hh; rfl
        · simp only [List.head?_cons, Option.some.injEq] at hh; subst hh; rfl
    have hnq : v ++ b' = [] → r.head? ≠ some '"' := by
      intro _
      rcases hh with hh | hh | hh <;> rw [hh] <;> simp
    have := data_plain h' (blank_dataBlank hb) hx h0 hr hhe hnq (by simpa using hl)
    rw [trimRight_append (blank_dataBlank hb') hlast] at this
    refine ⟨_, [], this, (fun _ h => by cases h), ?_, rfl, rfl⟩
    have h2 : Left lex ((b ++ (v ++ b')) ++ r) := by simpa using h'
    exact h2.adv.set rfl (by simp only [afterItem, adv, List.length_append])

theorem dataLoop_reads (items : List (CStr × CStr)) (hi : ∀ i ∈ items, DataItem i.1 i.2) (r b : CStr) (hb : Space b) (n : Nat)
    (hn : items.length < n) (p : Parser) (hr : r = [] ∨ ∃ r', r = ':' :: r')
    (h : Left p.lex (b ++ ((items.flatMap (fun i => ',' :: i.1)) ++ r))) :
    ∃ p', P.dataLoop n p = .ok () p' ∧ p'.bcode.inst = p.bcode.inst ++ items.map (fun i => Inst.data i.2) ∧ p'.st = p.st ∧
      p'.ifThen = p.ifThen ∧ p'.lex.token = (if r = [] then .ch '\n' else .ch ':') ∧ Left p'.lex r.tail ∧
      p'.lex.text = p.lex.text ∧ p'.lex.prefixes = p.lex.prefixes := by
  have hcr : Clean r := by
    rcases hr with rfl | ⟨r', rfl⟩
    · intro c hc; cases hc
    · intro c hc; cases hc; decide
  have hhr : r.head? = none ∨ r.head? = some ',' ∨ r.head? = some ':' := by
    rcases hr with rfl | ⟨r', rfl⟩
    · exact .inl rfl
    · exact .inr (.inr rfl)
  induction items generalizing n p b with
  | nil =>
    obtain ⟨n, rfl⟩ : ∃ m, n = m + 1 := ⟨n - 1, by simp only [List.length_nil] at hn; omega⟩
    simp only [List.flatMap_nil, List.nil_append] at h
    simp only [P.dataLoop, bind, P.bind, P.next]
    rcases hr with rfl | ⟨r', rfl⟩
    · rw [next_eol (by simpa using h) (space_blank hb)]
      simp only [Tok.ch.injEq]
      rw [if_neg (by decide)]
      refine ⟨_, rfl, by simp, rfl, rfl, rfl, ?_, rfl, rfl⟩
      exact (h.adv : Left (adv p.lex b.length) []).set rfl rfl
    · rw [next_single h (space_blank hb) (by decide) (by decide)]
      simp only [Tok.ch.injEq]
      rw [if_neg (by decide)]
      refine ⟨_, rfl, by simp, rfl, rfl, rfl, ?_, rfl, rfl⟩
      have h2 : Left p.lex ((b ++ [':']) ++ r') := by simpa using h
      exact h2.adv.set rfl (by simp [moved, adv])
  | cons i items ih =>
    obtain ⟨n, rfl⟩ : ∃ m, n = m + 1 := ⟨n - 1, by simp only [List.length_cons] at hn; omega⟩
    simp only [List.length_cons] at hn
    simp only [List.flatMap_cons, List.cons_append, List.append_assoc] at h
    simp only [P.dataLoop, bind, P.bind, P.next]
    rw [next_single h (space_blank hb) (by decide) (by decide)]
    simp only [if_true, P.bind, P.nextData]
    have h2 : Left p.lex ((b ++ [',']) ++ (i.1 ++ (items.flatMap (fun i => ',' :: i.1) ++ r))) := by simpa using h
    have h3 : Left (moved p.lex b.length (b.length + 1) (.ch ',') p.lex.word) (i.1 ++ (items.flatMap (fun i => ',' :: i.1) ++ r)) :=
      moved_left h2 (by simp)
    have hcl : Clean (items.flatMap (fun i => ',' :: i.1) ++ r) := by
      cases items with
      | nil => exact hcr
      | cons j js => intro c hc; cases hc; decide
    have hhd : (items.flatMap (fun i => ',' :: i.1) ++ r).head? = none ∨ (items.flatMap (fun i => ',' :: i.1) ++ r).head? = some ',' ∨
        (items.flatMap (fun i => ',' :: i.1) ++ r).head? = some ':' := by
      cases items with
      | nil => exact hhr
      | cons j js => exact .inr (.inl rfl)
    obtain ⟨lex', b2, e1, e2, e3, e4, e5⟩ := next_item h3 (hi i List.mem_cons_self) hcl hhd
    rw [e1]
    simp only [P.emit]
    obtain ⟨p', q1, q2, q3, q4, q5, q6, q7, q8⟩ := ih (fun j hj => hi j (List.mem_cons_of_mem _ hj)) b2 e2 n (by omega)
      { p with lex := lex', bcode := emitInst p.bcode (.data i.2) } e3
    refine ⟨p', q1, ?_, q3, q4, q5, q6, q7.trans e4, q8.trans e5⟩
    rw [q2]
    simp [emitInst]

theorem dataStatement_reads (i : CStr × CStr) (items : List (CStr × CStr)) (hi : ∀ j ∈ i :: items, DataItem j.1 j.2) (r : CStr)
    (p : Parser) (hr : r = [] ∨ ∃ r', r = ':' :: r') (h : Left p.lex (i.1 ++ (items.flatMap (fun i => ',' :: i.1) ++ r))) :
    ∃ p', P.dataStatement p = .ok () p' ∧ p'.bcode.inst = p.bcode.inst ++ (i :: items).map (fun i => Inst.data i.2) ∧ p'.st = p.st ∧
      p'.ifThen = p.ifThen ∧ p'.lex.token = (if r = [] then .ch '\n' else .ch ':') ∧ Left p'.lex r.tail := by
  have hcl : Clean (items.flatMap (fun i => ',' :: i.1) ++ r) := by
    cases items with
    | nil =>
      rcases hr with rfl | ⟨r', rfl⟩
      · intro c hc; cases hc
      · intro c hc; cases hc; decide
    | cons j js => intro c hc; cases hc; decide
  have hhd : (items.flatMap (fun i => ',' :: i.1) ++ r).head? = none ∨ (items.flatMap (fun i => ',' :: i.1) ++ r).head? = some ',' ∨
      (items.flatMap (fun i => ',' :: i.1) ++ r).head? = some ':' := by
    cases items with
    | nil =>
      rcases hr with rfl | ⟨r', rfl⟩
      · exact .inl rfl
      · exact .inr (.inr rfl)
    | cons j js => exact .inr (.inl rfl)
  obtain ⟨lex', b2, e1, e2, e3, e4, e5⟩ := next_item h (hi i List.mem_cons_self) hcl hhd
  have hlen : items.length < (match lex'.text with | none => 2 | some t => t.length + 2) := by
    obtain ⟨t, t1, t2, t3⟩ := e3
    have hl := congrArg List.length t3
    simp only [List.length_drop, List.length_append, List.length_flatMap] at hl
    simp only [t1]
    have : items.length ≤ (items.map (fun i => (',' :: i.1).length)).sum := by
      clear hl e1 hi h hcl hhd t3
      induction items with
      | nil => simp
      | cons j js ih => simp only [List.map_cons, List.sum_cons, List.length_cons] at ih ⊢; omega
    omega
  obtain ⟨p', q1, q2, q3, q4, q5, q6, _⟩ := dataLoop_reads items (fun j hj => hi j (List.mem_cons_of_mem _ hj)) r b2 e2 _ hlen
    { p with lex := lex', bcode := emitInst p.bcode (.data i.2) } hr e3
  refine ⟨p', ?_, ?_, q3, q4, q5, q6⟩
  · unfold P.dataStatement
    simp only [bind, P.bind, P.nextData, e1, P.emit, P.fuel]
    exact q1
  · rw [q2]; simp [emitInst]

/-- Numbers. -/
theorem next_literal {lex : Lex} {b w r : CStr} {x : Dbl} (h : Left lex (b ++ w ++ r)) (hb : Space b) (hw : Literal w x) (hr : NumberEnds r)
    (hl : w.length ≤ 127) :
    lexNext lex = .ok (.num, { moved lex b.length (b.length + w.length) .num w with num := x }) := by
  obtain ⟨m, ip, fp, t, e, rfl, hm, ht, hplus, hx⟩ := hw
  obtain rfl := Dbl.rounded_iff.1 hx
  have hval : strtod (m ++ t) = (Dbl.rnd (_root_.Spec.decimal (ip ++ fp) * power 10 (e - fp.length)), []) := by
    have hu : NumberText (m ++ t) (Dbl.rnd (_root_.Spec.decimal (ip ++ fp) * power 10 (e - fp.length))) := by
      refine .plain (.decimal hm ht hx) ?_
      obtain ⟨hall, hne, (⟨rfl, rfl⟩ | rfl)⟩ := hm
      · cases m with
        | nil => simp at hne
        | cons c m => exact ⟨c, m ++ t, rfl, .inl (hall c (by simp))⟩
      · cases ip with
        | nil => exact ⟨'.', fp ++ t, rfl, .inr rfl⟩
        | cons c ip => exact ⟨c, ip ++ '.' :: fp ++ t, rfl, .inl (hall c (by simp))⟩
    have := strtod_complete (u := []) hu (fun _ _ h => by cases h)
    simpa using this
  obtain ⟨f, hmf, hf, hip, hne⟩ : ∃ f, m = ip ++ f ∧ FracText f ∧ (∀ d ∈ ip, isdigit d = true) ∧ (ip ≠ [] ∨ f ≠ []) := by
    obtain ⟨hall, hne, (⟨rfl, rfl⟩ | rfl)⟩ := hm
    · exact ⟨[], by simp, .inl rfl, fun d hd => (isdigit_iff d).2 (hall d (by simp [hd])), .inl (by simpa using hne)⟩
    · exact ⟨'.' :: fp, rfl, .inr ⟨fp, rfl, fun d hd => (isdigit_iff d).2 (hall d (by simp [hd]))⟩,
        fun d hd => (isdigit_iff d).2 (hall d (by simp [hd])), .inr (by simp)⟩
  have hexp : ExpText t ∧ ∀ c, t ≠ [c] := by
    rcases ht with ⟨rfl, _⟩ | ⟨c, ds, hc, hne, hds, hcase⟩
    · exact ⟨.inl rfl, fun c h => by cases h⟩
    · have hc' : tolower c = 'e' := by
        have hu : c = 'e' ∨ c = 'E' := by
          by_cases hlow : 'a'.val ≤ c.val ∧ c.val ≤ 'z'.val
          · left
            have key : ∀ n : Fin 26, (Char.ofNat (97 + n.val)).toUpper = 'E' → Char.ofNat (97 + n.val) = 'e' := by decide
            have h1 : 97 ≤ c.toNat ∧ c.toNat ≤ 122 := by
              simp only [UInt32.le_iff_toNat_le] at hlow
              exact hlow
            have := key ⟨c.toNat - 97, by omega⟩
            simp only at this
            rw [show 97 + (c.toNat - 97) = c.toNat by omega, Char.ofNat_toNat] at this
            exact this hc
          · right
            unfold Char.toUpper at hc
            rw [dif_neg hlow] at hc
            exact hc
        rcases hu with rfl | rfl <;> decide
      have hds' : ∀ d ∈ ds, isdigit d = true := fun d hd => (isdigit_iff d).2 (hds d hd)
      rcases hcase with ⟨rfl, _⟩ | ⟨rfl, _⟩ | ⟨rfl, _⟩
      · refine ⟨.inr ⟨c, ds, hc', hds', .inl rfl⟩, fun d h => ?_⟩
        simp only [List.cons.injEq] at h
        exact hne h.2
      · simp at hplus
      · refine ⟨.inr ⟨c, ds, hc', hds', .inr rfl⟩, fun d h => ?_⟩
        simp at h
  have hend : NumEnd f t r := by
    have hx := hr.2
    cases r with
    | nil => exact ⟨rfl, fun _ _ => by simp [headCh], fun _ => rfl, fun c h => absurd h (hexp.2 c)⟩
    | cons d r =>
      obtain ⟨h1, h2, h3, h4⟩ := hx d rfl
      refine ⟨isdigit_false h1, fun _ _ => by simpa [headCh] using h2, fun _ => ?_, fun c h => absurd h (hexp.2 c)⟩
      simp only [headCh_cons, testCh]
      cases hd : (tolower d == 'e') with
      | false => rfl
      | true =>
        rcases tolower_e (by simpa using hd) with rfl | rfl
        · exact absurd rfl h3
        · exact absurd rfl h4
  subst hmf
  have h' : Left lex (b ++ (ip ++ (f ++ (t ++ r)))) := by simpa using h
  simp only [List.length_append] at hl
  rw [next_number h' (space_blank hb) hip hf hexp.1 hr.1 hend hne (by omega), hval]
  simp only [List.isEmpty_nil, if_true, List.length_append]

end LB
