import Verif.Proofs.Lexer
import Verif.Proofs.EmitsExpr
/- The compiler comes to an end on every line. -/
namespace LB

/-! The token read is the one stored. -/

theorem setToken_token {lex lex' : Lex} {t t' : Tok} (h : (Outcome.ok (setToken lex t) : Outcome _) = .ok (t', lex')) : lex'.token = t' := by
  simp only [setToken, Outcome.ok.injEq, Prod.mk.injEq] at h
  rw [← h.2, ← h.1]

theorem nameLoop_token {n : Nat} {lex lex' : Lex} {w : CStr} {t : Tok} (h : nameLoop n lex w = .ok (t, lex')) : lex'.token = t := by
  induction n generalizing lex w with
  | zero => cases h
  | succ n ih =>
    unfold nameLoop at h
    repeat' (first | (split at h) | exact ih h | (exact setToken_token h) | (cases h; done))

theorem nameLoopAnywhere_token {n : Nat} {lex lex' : Lex} {w : CStr} {t : Tok} (h : nameLoopAnywhere n lex w = .ok (t, lex')) :
    lex'.token = t := by
  induction n generalizing lex w with
  | zero => cases h
  | succ n ih =>
    unfold nameLoopAnywhere at h
    repeat' (first | (split at h) | exact ih h | (exact setToken_token h) | (cases h; done))

theorem lexToken_token {lex lex' : Lex} {c : Option Char} {t : Tok} (h : lexToken lex c = .ok (t, lex')) : lex'.token = t := by
  unfold lexToken wordAnywhere wordSeparate lexNumber lexString lexLess lexGreater at h
  repeat' (first | (split at h) | exact nameLoopAnywhere_token h | exact nameLoop_token h | (exact setToken_token h) | (cases h; done))

theorem lexNext_token {lex lex' : Lex} {t : Tok} (h : lexNext lex = .ok (t, lex')) : lex'.token = t := by
  unfold lexNext at h
  split at h
  · cases h
  · exact lexToken_token h

namespace P

/-- The ways in which compiling can end the process. -/
def MayHalt (t : CStr) (h : Halt) : Prop := DataHalt t h ∨ h = .assertFail "read_item"

/-- The compiler is inside the line `t`. -/
structure Line (t : CStr) (p : Parser) : Prop where
  text : p.lex.text = some t
  le : p.lex.pos ≤ t.length
  ifThen : p.ifThen = 0 ∨ p.ifThen < p.bcode.inst.length

/-- What is left of the line, and the current token. -/
def rest (t : CStr) (p : Parser) : Nat := t.length - p.lex.pos
def weight (t : CStr) (p : Parser) : Nat := rest t p + if p.lex.token = .ch '\n' then 0 else 1

/-- Nothing is taken back. -/
structure Mono (p p' : Parser) : Prop where
  names : p.st.psym.length ≤ p'.st.psym.length
  code : p.bcode.inst.length ≤ p'.bcode.inst.length

theorem Mono.refl (p : Parser) : Mono p p := ⟨Nat.le_refl _, Nat.le_refl _⟩
theorem Mono.trans {a b c : Parser} (h : Mono a b) (k : Mono b c) : Mono a c := ⟨Nat.le_trans h.1 k.1, Nat.le_trans h.2 k.2⟩

/-- The outcome leaves at most `B` to do, or ends in an accepted way. -/
def Ends {α : Type} (t : CStr) (p : Parser) (B : Nat) (Q : α → Parser → Prop) : PRes α → Prop
  | .ok a p' => Line t p' ∧ Mono p p' ∧ weight t p' ≤ B ∧ Q a p'
  | .err _ _ => True
  | .halt h => MayHalt t h

variable {t : CStr} {p : Parser} {B : Nat} {α β : Type}

theorem ends_bind {x : P α} {f : α → P β} {B1 : Nat} {Q1 : α → Parser → Prop} {Q : β → Parser → Prop} (hx : Ends t p B1 Q1 (x p))
    (hf : ∀ a p1, Line t p1 → Mono p p1 → weight t p1 ≤ B1 → Q1 a p1 → Ends t p1 B Q (f a p1)) : Ends t p B Q ((x >>= f) p) := by
  simp only [bind_apply]
  cases h : x p with
  | ok a p1 =>
    rw [h] at hx
    obtain ⟨h1, h2, h3, h4⟩ := hx
    have := hf a p1 h1 h2 h3 h4
    show Ends t p B Q (f a p1)
    cases hr : f a p1 with
    | ok b p2 =>
      rw [hr] at this
      obtain ⟨k1, k2, k3, k4⟩ := this
      exact ⟨k1, h2.trans k2, k3, k4⟩
    | err => trivial
    | halt => rw [hr] at this; exact this
  | err => trivial
  | halt => rw [h] at hx; exact hx

theorem ends_pure {a : α} {Q : α → Parser → Prop} (hp : Line t p) (hw : weight t p ≤ B) (hq : Q a p) : Ends t p B Q ((Pure.pure a : P α) p) :=
  ⟨hp, Mono.refl p, hw, hq⟩

theorem ends_fail {m : String} {Q : α → Parser → Prop} : Ends t p B Q ((fail m : P α) p) := trivial

theorem weight_pos (h : p.lex.token ≠ .ch '\n') : 1 ≤ weight t p := by unfold weight; rw [if_neg h]; omega

theorem rest_le_weight : rest t p ≤ weight t p := by unfold weight; omega
theorem weight_le_rest : weight t p ≤ rest t p + 1 := by unfold weight; split <;> omega
theorem rest_le : rest t p ≤ t.length := by unfold rest; omega

/-- Reading a token. -/
theorem ends_next' (hp : Line t p) (hw : rest t p ≤ B) : Ends t p B (fun a p1 => p1.lex.token = a ∧ (a ≠ .ch '\n' → weight t p1 ≤ rest t p)) (next p) := by
  have h : Within t p.lex.prefixes p.lex.pos p.lex := ⟨hp.text, hp.le, Nat.le_refl _, rfl⟩
  have hl := lexNext_tame h
  simp only [next]
  cases hn : lexNext p.lex with
  | halt e => rw [hn] at hl; exact .inl (.inl hl)
  | ok r =>
    obtain ⟨a, lex⟩ := r
    rw [hn] at hl
    obtain ⟨h1, h2, h3⟩ := hl
    have ht := lexNext_token hn
    simp only at h1 h2 h3
    have key : weight t { p with lex := lex } ≤ rest t p := by
      have hle := hp.le
      have hle2 := h1.le
      simp only [weight, rest, ht]
      by_cases he : p.lex.pos = t.length
      · obtain ⟨e1, e2⟩ := h3 he
        rw [if_pos e1]; omega
      · have := h2 (by omega)
        split <;> omega
    exact ⟨⟨h1.text, h1.le, hp.ifThen⟩, ⟨Nat.le_refl _, Nat.le_refl _⟩, Nat.le_trans key hw, ht, fun _ => key⟩

/-- Reading the token after one that does not end the line. -/
theorem ends_next (hp : Line t p) (ht : p.lex.token ≠ .ch '\n') (hw : weight t p ≤ B + 1) : Ends t p B (fun a p1 => p1.lex.token = a) (next p) := by
  have h := ends_next' (B := B) hp (by unfold weight at hw; rw [if_neg ht] at hw; omega)
  revert h
  cases next p with
  | ok a p1 => exact fun h => ⟨h.1, h.2.1, h.2.2.1, h.2.2.2.1⟩
  | err => exact fun h => h
  | halt => exact fun h => h

theorem ends_emit {i : Inst} (hp : Line t p) (hw : weight t p ≤ B) :
    Ends t p B (fun _ p1 => p1.lex = p.lex ∧ p.bcode.inst.length < p1.bcode.inst.length) (emit i p) := by
  have hl : (emitInst p.bcode i).inst.length = p.bcode.inst.length + 1 := by simp [emitInst]
  refine ⟨⟨hp.text, hp.le, ?_⟩, ⟨Nat.le_refl _, by simp only [hl]; omega⟩, hw, rfl, by simp only [hl]; omega⟩
  rcases hp.ifThen with h | h
  · exact .inl h
  · exact .inr (by simp only [hl]; omega)

theorem ends_matchTok {tok : Tok} (hp : Line t p) (hn : tok ≠ .ch '\n') (hw : weight t p ≤ B + 1) : Ends t p B (fun _ _ => True) (matchTok tok p) := by
  simp only [matchTok, bind_apply, token]
  by_cases h : p.lex.token = tok
  · rw [if_neg (by simpa using h)]
    refine ends_bind (ends_next hp (h ▸ hn) hw) (fun a p1 h1 _ hw1 _ => ends_pure h1 hw1 trivial)
  · rw [if_pos h]; trivial

theorem ends_weaken {B' : Nat} {Q Q' : α → Parser → Prop} {r : PRes α} (h : Ends t p B Q r) (hB : B ≤ B') (hQ : ∀ a p1, Q a p1 → Q' a p1) :
    Ends t p B' Q' r := by
  cases r with
  | ok a p1 => exact ⟨h.1, h.2.1, Nat.le_trans h.2.2.1 hB, hQ _ _ h.2.2.2⟩
  | err => trivial
  | halt => exact h

/-- A symbol read by its position. -/
theorem ends_sym {q : Nat} {f : Symbol → P β} {Q : β → Parser → Prop} (hq : q < p.st.psym.length)
    (hf : ∀ s, p.st.psym[q]? = some s → Ends t p B Q (f s p)) : Ends t p B Q ((P.sym q >>= f) p) := by
  simp only [bind_apply, P.sym]
  rw [List.getElem?_eq_getElem hq]
  exact hf _ (List.getElem?_eq_getElem hq)

theorem ends_resolve (hp : Line t p) (hw : weight t p ≤ B) (name : CStr) (params : Nat) (kind : SymKind) :
    Ends t p B (fun q p1 => q < p1.st.psym.length) (resolve name params kind p) := by
  simp only [resolve, bind_apply, lookup]
  cases hf : symLookup p.st name (params != 0) with
  | some q =>
    obtain ⟨s, hs, hm, hn⟩ := lookup_some hf
    have hlt := (List.getElem?_eq_some_iff.1 hs).1
    simp only [bind_apply, sym, hs]
    split
    · split
      · simp only [bind_apply, setKind, pure_apply]
        have hl : (symUpdate p.st q (fun s => { s with kind := kind })).psym.length = p.st.psym.length := by simp [symUpdate]
        exact ⟨⟨hp.text, hp.le, hp.ifThen⟩, ⟨by simp only [hl]; omega, Nat.le_refl _⟩, hw, by simp only [hl]; omega⟩
      · split
        · trivial
        · exact ends_pure hp hw hlt
    · exact ends_pure hp hw hlt
  | none =>
    simp only [insert]
    refine ⟨⟨hp.text, hp.le, hp.ifThen⟩, ⟨by simp [symInsert], Nat.le_refl _⟩, hw, by simp [symInsert]⟩

theorem ends_defSymbol (hp : Line t p) (hw : weight t p ≤ B) (name : CStr) (type : Ty) :
    Ends t p B (fun q p1 => q < p1.st.psym.length ∧ p1.lex = p.lex) (defSymbol name type p) := by
  simp only [defSymbol, bind_apply, lookup]
  cases hf : symLookup p.st name true with
  | some q =>
    obtain ⟨s, hs, hm, hn⟩ := lookup_some hf
    have hlt := (List.getElem?_eq_some_iff.1 hs).1
    simp only [bind_apply, sym, hs]
    split
    · simp only [bind_apply, setKind, pure_apply]
      have hl : (symUpdate p.st q (fun s => { s with kind := .def_ })).psym.length = p.st.psym.length := by simp [symUpdate]
      exact ⟨⟨hp.text, hp.le, hp.ifThen⟩, ⟨by simp only [hl]; omega, Nat.le_refl _⟩, hw, by simp only [hl]; omega, rfl⟩
    · split
      · trivial
      · exact ends_pure hp hw ⟨hlt, rfl⟩
  | none =>
    simp only [insert]
    refine ⟨⟨hp.text, hp.le, hp.ifThen⟩, ⟨by simp [symInsert], Nat.le_refl _⟩, hw, by simp [symInsert], rfl⟩

theorem fuel_eq (hp : Line t p) : fuel p = .ok (t.length + 2) p := by simp [fuel, hp.text]

theorem weight_lt_fuel : weight t p < t.length + 2 := by
  have := weight_le_rest (t := t) (p := p)
  have := rest_le (t := t) (p := p)
  omega

theorem ends_lineNumber (hp : Line t p) (hw : weight t p ≤ B + 1) : Ends t p B (fun _ _ => True) (lineNumber p) := by
  simp only [lineNumber, bind_apply, token]
  by_cases h : p.lex.token = .num
  · simp only [h, if_true, bind_apply, num]
    split
    · exact ends_bind (ends_next hp (by rw [h]; decide) hw) (fun a p1 h1 _ hw1 _ => ends_pure h1 hw1 trivial)
    · trivial
  · rw [if_neg h]; trivial

/-! Reading the state. -/

theorem ends_token {f : Tok → P β} {Q : β → Parser → Prop} (h : Ends t p B Q (f p.lex.token p)) : Ends t p B Q ((token >>= f) p) := h
theorem ends_word {f : CStr → P β} {Q : β → Parser → Prop} (h : Ends t p B Q (f p.lex.word p)) : Ends t p B Q ((word >>= f) p) := h
theorem ends_num {f : Dbl → P β} {Q : β → Parser → Prop} (h : Ends t p B Q (f p.lex.num p)) : Ends t p B Q ((num >>= f) p) := h
theorem ends_unit {a : α} {f : α → P β} {Q : β → Parser → Prop} (h : Ends t p B Q (f a p)) : Ends t p B Q (((Pure.pure a : P α) >>= f) p) := h
theorem ends_fuel {f : Nat → P β} {Q : β → Parser → Prop} (hp : Line t p) (h : Ends t p B Q (f (t.length + 2) p)) : Ends t p B Q ((fuel >>= f) p) := by
  simp only [bind_apply, fuel_eq hp]; exact h

theorem ends_here {f : Nat → P β} {Q : β → Parser → Prop} (h : Ends t p B Q (f p.bcode.inst.length p)) : Ends t p B Q ((here >>= f) p) := h
theorem ends_getIfThen {f : Nat → P β} {Q : β → Parser → Prop} (h : Ends t p B Q (f p.ifThen p)) : Ends t p B Q ((getIfThen >>= f) p) := h
theorem ends_latest {f : Option Inst → P β} {Q : β → Parser → Prop} (h : Ends t p B Q (f (bcodeLatest p.bcode) p)) :
    Ends t p B Q ((latest >>= f) p) := h
/-- Does the statement end here? -/
def atEnd (tok : Tok) : Bool := tok == .eof || tok == .ch '\n' || tok == .ch ':' || tok == .kw .ELSE
theorem ends_eos {f : Bool → P β} {Q : β → Parser → Prop} (h : Ends t p B Q (f (atEnd p.lex.token) p)) : Ends t p B Q ((eos >>= f) p) := h

/-! Expressions. -/

/-- The parser of expressions works with `n` tokens or less. -/
def Eats (t : CStr) (n : Nat) (x : P α) : Prop :=
  ∀ p B, Line t p → weight t p < n → weight t p ≤ B + 1 → Ends t p B (fun _ _ => True) (x p)

variable {expr : P Ty} {n : Nat}

theorem ends_numeric (he : Eats t n expr) (hp : Line t p) (hn : weight t p < n) (hw : weight t p ≤ B + 1) :
    Ends t p B (fun _ _ => True) (numericExpression expr p) := by
  unfold numericExpression
  refine ends_bind (he p B hp hn hw) (fun a p1 h1 _ hw1 _ => ?_)
  split
  · trivial
  · exact ends_pure h1 hw1 trivial

theorem ends_string (he : Eats t n expr) (hp : Line t p) (hn : weight t p < n) (hw : weight t p ≤ B + 1) :
    Ends t p B (fun _ _ => True) (stringExpression expr p) := by
  unfold stringExpression
  refine ends_bind (he p B hp hn hw) (fun a p1 h1 _ hw1 _ => ?_)
  split
  · trivial
  · exact ends_pure h1 hw1 trivial

theorem ends_discard (he : Eats t n expr) (hp : Line t p) (hn : weight t p < n) (hw : weight t p ≤ B + 1) :
    Ends t p B (fun _ _ => True) (discardExpression expr p) := by
  unfold discardExpression
  refine ends_bind (he p B hp hn hw) (fun a p1 h1 _ hw1 _ => ?_)
  cases a
  · exact ends_pure h1 hw1 trivial
  · exact ends_weaken (ends_emit h1 hw1) (Nat.le_refl _) (fun _ _ _ => trivial)
  · exact ends_weaken (ends_emit h1 hw1) (Nat.le_refl _) (fun _ _ _ => trivial)

theorem ends_builtinArg (he : Eats t n expr) (hp : Line t p) (hn : weight t p < n) (hw : weight t p ≤ B + 1) (c : Char) :
    Ends t p B (fun _ _ => True) (builtinArg expr c p) := by
  unfold builtinArg
  split
  · exact ends_numeric he hp hn hw
  · split
    · exact ends_string he hp hn hw
    · trivial

theorem ends_builtinArgs (he : Eats t n expr) (cs : List Char) (hp : Line t p) (hn : weight t p < n) (hw : weight t p ≤ B) :
    Ends t p B (fun _ _ => True) (builtinArgs expr cs p) := by
  induction cs generalizing p B with
  | nil => exact ends_pure hp hw trivial
  | cons c cs ih =>
    unfold builtinArgs
    refine ends_bind (ends_matchTok (B := weight t p) hp (by decide) (by omega)) (fun a p1 h1 _ hw1 _ => ?_)
    refine ends_bind (ends_builtinArg (B := weight t p) he h1 (by omega) (by omega) c) (fun a p2 h2 _ hw2 _ => ?_)
    exact ih h2 (by omega) (by omega)

theorem ends_subscripts (he : Eats t n expr) (k count : Nat) (hp : Line t p) (hk : weight t p < k) (hn : weight t p < n + 1) (ht : p.lex.token ≠ .ch '\n')
    (hw : weight t p ≤ B + 1) : Ends t p B (fun _ _ => True) (subscripts expr k count p) := by
  induction k generalizing p B count with
  | zero => omega
  | succ k ih =>
    have hpos := weight_pos (t := t) ht
    unfold subscripts
    refine ends_bind (ends_next (B := weight t p - 1) hp ht (by omega)) (fun a p1 h1 _ hw1 _ => ?_)
    refine ends_bind (ends_numeric (B := weight t p - 1) he h1 (by omega) (by omega)) (fun a p2 h2 _ hw2 _ => ?_)
    refine ends_token ?_
    split
    · rename_i hc
      exact ih (count + 1) h2 (by omega) (by omega) (by rw [hc]; decide) (by omega)
    · exact ends_pure h2 (by omega) trivial

theorem ends_identifier (he : Eats t n expr) (kind : SymKind) (hp : Line t p) (hn : weight t p < n + 1) (hw : weight t p ≤ B + 1) :
    Ends t p B (fun q p1 => q.1 < p1.st.psym.length) (identifier expr kind p) := by
  unfold identifier
  refine ends_word (ends_bind (ends_matchTok (B := weight t p - 1) hp (by decide) (by omega)) (fun a p1 h1 _ hw1 _ => ends_token ?_))
  by_cases hc : p1.lex.token = .ch '('
  · rw [if_pos hc]
    have hpos1 := weight_pos (t := t) (p := p1) (by rw [hc]; decide)
    refine ends_fuel h1 ?_
    refine ends_bind (ends_subscripts (B := weight t p - 1) he _ _ h1 weight_lt_fuel (by omega) (by rw [hc]; decide) (by omega))
      (fun a p2 h2 _ hw2 _ => ?_)
    refine ends_bind (ends_matchTok (B := weight t p - 1) h2 (by decide) (by omega)) (fun a p3 h3 _ hw3 _ => ends_unit ?_)
    exact ends_bind (ends_resolve h3 (Nat.le_trans hw3 (show _ ≤ B by omega)) _ _ _) (fun q p3 h3 _ hw3 hq => ends_pure h3 hw3 hq)
  · rw [if_neg hc]
    refine ends_unit ?_
    exact ends_bind (ends_resolve h1 (Nat.le_trans hw1 (show _ ≤ B by omega)) _ _ _) (fun q p3 h3 _ hw3 hq => ends_pure h3 hw3 hq)

theorem ends_simpleVariable (he : Eats t n expr) (hp : Line t p) (hn : weight t p < n + 1) (hw : weight t p ≤ B + 1) :
    Ends t p B (fun q p1 => q < p1.st.psym.length) (simpleVariable expr p) := by
  unfold simpleVariable
  refine ends_bind (ends_identifier he _ hp hn hw) (fun q p1 h1 _ hw1 hq => ends_sym hq (fun s hs => ?_))
  split
  · trivial
  · exact ends_pure h1 hw1 hq

theorem ends_numericSimpleVariable (he : Eats t n expr) (hp : Line t p) (hn : weight t p < n + 1) (hw : weight t p ≤ B + 1) :
    Ends t p B (fun q p1 => q < p1.st.psym.length) (numericSimpleVariable expr p) := by
  unfold numericSimpleVariable
  refine ends_bind (ends_simpleVariable he hp hn hw) (fun q p1 h1 _ hw1 hq => ends_sym hq (fun s hs => ?_))
  split
  · trivial
  · exact ends_pure h1 hw1 hq

theorem ends_builtinCall (he : Eats t n expr) (args : List Char) (ha : args ≠ []) (hp : Line t p) (hn : weight t p < n) (hw : weight t p ≤ B) :
    Ends t p B (fun _ _ => True) (builtinCall expr args p) := by
  unfold builtinCall
  split
  · exact absurd rfl ha
  · refine ends_token ?_
    by_cases hc : p.lex.token = .ch '('
    · rw [if_pos hc]
      have hpos := weight_pos (t := t) (p := p) (by rw [hc]; decide)
      refine ends_bind (ends_next (B := weight t p - 1) hp (by rw [hc]; decide) (by omega)) (fun a p1 h1 _ hw1 _ => ?_)
      split
      · exact ends_bind (ends_discard (B := weight t p - 1) he h1 (by omega) (by omega))
          (fun a p2 h2 _ hw2 _ => ends_matchTok (B := B) h2 (by decide) (by omega))
      · exact ends_matchTok h1 (by decide) (by omega)
    · rw [if_neg hc]; exact ends_pure hp hw trivial
  · refine ends_bind (ends_matchTok (B := weight t p) hp (by decide) (by omega)) (fun a p1 h1 _ hw1 _ => ?_)
    refine ends_bind (ends_builtinArg (B := weight t p) he h1 (by omega) (by omega) _) (fun a p2 h2 _ hw2 _ => ?_)
    refine ends_bind (ends_builtinArgs (B := weight t p) he _ h2 (by omega) (by omega)) (fun a p3 h3 _ hw3 _ => ?_)
    exact ends_matchTok h3 (by decide) (by omega)

theorem ends_builtinPrimary (he : Eats t n expr) {b : Builtin} (hb : b ∈ builtins) (hp : Line t p) (ht : p.lex.token ≠ .ch '\n') (hn : weight t p < n + 1)
    (hw : weight t p ≤ B + 1) : Ends t p B (fun _ _ => True) (builtinPrimary expr b p) := by
  have key : ∀ b ∈ builtins, b.type = .err ∨ ∃ args op, b.args = some args ∧ b.opcode = some op ∧ args ≠ [] := by
    have k2 : ∀ b ∈ builtins, b.type = .err ∨ (b.args.isSome = true ∧ b.opcode.isSome = true ∧ b.args ≠ some []) := by decide
    intro b hb
    rcases k2 b hb with h | ⟨h1, h2, h3⟩
    · exact .inl h
    · obtain ⟨a, ha⟩ := Option.isSome_iff_exists.1 h1
      obtain ⟨o, ho⟩ := Option.isSome_iff_exists.1 h2
      exact .inr ⟨a, o, ha, ho, fun e => h3 (by rw [ha, e])⟩
  unfold builtinPrimary
  rcases key b hb with h | ⟨args, op, h1, h2, h3⟩
  · rw [if_pos h]; trivial
  · split
    · trivial
    · have hpos := weight_pos (t := t) (p := p) ht
      refine ends_bind (ends_next (B := weight t p - 1) hp ht (by omega)) (fun a p1 hl _ hw1 _ => ?_)
      simp only [h1, h2]
      refine ends_bind (ends_builtinCall (B := weight t p - 1) he args h3 hl (by omega) (by omega)) (fun a p2 hl2 _ hw2 _ => ?_)
      exact ends_bind (ends_emit (B := B) hl2 (by omega)) (fun a p3 hl3 _ hw3 _ => ends_pure hl3 hw3 trivial)

theorem ends_namePrimary (he : Eats t n expr) (hp : Line t p) (hn : weight t p < n + 1) (hw : weight t p ≤ B + 1) :
    Ends t p B (fun _ _ => True) (namePrimary expr p) := by
  unfold namePrimary
  refine ends_bind (ends_identifier he _ hp hn hw) (fun q p1 h1 _ hw1 hq => ?_)
  obtain ⟨q, params⟩ := q
  refine ends_sym hq (fun s hs => ?_)
  split
  · exact ends_bind (ends_emit h1 hw1) (fun a p2 h2 _ hw2 _ => ends_pure h2 hw2 trivial)
  · exact ends_bind (ends_emit h1 hw1) (fun a p2 h2 _ hw2 _ => ends_pure h2 hw2 trivial)

theorem ends_primary (he : Eats t n expr) : Eats t (n + 1) (primaryExpression expr) := by
  intro p B hp hn hw
  unfold primaryExpression
  refine ends_token ?_
  by_cases h1 : p.lex.token = .num
  · rw [if_pos h1]
    refine ends_num (ends_bind (ends_emit hp (Nat.le_refl _)) (fun a p1 hl _ hw1 hq => ?_))
    exact ends_bind (ends_next (B := B) hl (by rw [hq.1, h1]; decide) (by omega)) (fun a p2 h2 _ hw2 _ => ends_pure h2 hw2 trivial)
  · rw [if_neg h1]
    by_cases h2 : p.lex.token = .str
    · rw [if_pos h2]
      refine ends_word (ends_bind (ends_emit hp (Nat.le_refl _)) (fun a p1 hl _ hw1 hq => ?_))
      exact ends_bind (ends_next (B := B) hl (by rw [hq.1, h2]; decide) (by omega)) (fun a p2 h2 _ hw2 _ => ends_pure h2 hw2 trivial)
    · rw [if_neg h2]
      by_cases h3 : p.lex.token = .id
      · rw [if_pos h3]
        refine ends_word ?_
        cases hb : builtin p.lex.word with
        | some b =>
          exact ends_builtinPrimary he (List.mem_of_find?_eq_some hb) hp (by rw [h3]; decide) hn hw
        | none => exact ends_namePrimary he hp hn hw
      · rw [if_neg h3]
        by_cases h4 : p.lex.token = .ch '('
        · rw [if_pos h4]
          have hpos := weight_pos (t := t) (p := p) (by rw [h4]; decide)
          refine ends_bind (ends_next (B := weight t p - 1) hp (by rw [h4]; decide) (by omega)) (fun a p1 hl _ hw1 _ => ?_)
          refine ends_bind (he p1 (weight t p - 1) hl (by omega) (by omega)) (fun ty p2 hl2 _ hw2 _ => ?_)
          split
          · exact ends_bind (ends_matchTok (B := B) hl2 (by decide) (by omega)) (fun a p3 hl3 _ hw3 _ => ends_pure hl3 hw3 trivial)
          · exact ends_pure hl2 (by omega) trivial
        · rw [if_neg h4]; trivial

theorem ends_power (he : Eats t n expr) (k : Nat) (hp : Line t p) (hk : weight t p < k) (hn : weight t p < n + 1) (hw : weight t p ≤ B + 1) :
    Ends t p B (fun _ _ => True) (powerExpr expr k p) := by
  induction k generalizing p B with
  | zero => omega
  | succ k ih =>
    unfold powerExpr
    refine ends_bind (ends_primary he p (weight t p - 1) hp hn (by omega)) (fun ty p1 h1 _ hw1 _ => ?_)
    refine ends_token ?_
    split
    · rename_i hc
      have hpos := weight_pos (t := t) (p := p1) (by rw [hc.2]; decide)
      refine ends_bind (ends_next (B := weight t p1 - 1) h1 (by rw [hc.2]; decide) (by omega)) (fun a p2 h2 _ hw2 _ => ?_)
      refine ends_bind (ih (B := weight t p1 - 1) h2 (by omega) (by omega) (by omega)) (fun ty2 p3 h3 _ hw3 _ => ?_)
      split
      · exact ends_pure h3 (by omega) trivial
      · exact ends_bind (ends_emit (B := B) h3 (by omega)) (fun a p4 h4 _ hw4 _ => ends_pure h4 hw4 trivial)
    · exact ends_pure h1 (by omega) trivial

theorem ends_countPrefix {tok : Tok} (ht : tok ≠ .ch '\n') (k count : Nat) (hp : Line t p) (hk : weight t p < k) (hw : weight t p ≤ B) :
    Ends t p B (fun _ _ => True) (countPrefix tok k count p) := by
  induction k generalizing p B count with
  | zero => omega
  | succ k ih =>
    unfold countPrefix
    refine ends_token ?_
    split
    · rename_i hc
      have hpos := weight_pos (t := t) (p := p) (by rw [hc]; exact ht)
      refine ends_bind (ends_next (B := weight t p - 1) hp (by rw [hc]; exact ht) (by omega)) (fun a p1 h1 _ hw1 _ => ?_)
      exact ih (count + 1) h1 (by omega) (by omega)
    · exact ends_pure hp hw trivial

theorem ends_neg (he : Eats t n expr) : Eats t (n + 1) (negExpr expr (n + 1)) := by
  intro p B hp hn hw
  unfold negExpr
  refine ends_bind (ends_countPrefix (B := weight t p) (by decide) _ _ hp hn (by omega)) (fun k p1 h1 _ hw1 _ => ?_)
  refine ends_bind (ends_power (B := B) he _ h1 (by omega) (by omega) (by omega)) (fun ty p2 h2 _ hw2 _ => ?_)
  split
  · split
    · trivial
    · split
      · exact ends_bind (ends_emit h2 hw2) (fun a p4 h4 _ hw4 _ => ends_pure h4 hw4 trivial)
      · exact ends_pure h2 hw2 trivial
  · exact ends_pure h2 hw2 trivial

theorem ends_multLoop (he : Eats t n expr) (ty : Ty) (k : Nat) (hp : Line t p) (hk : weight t p < k) (hn : weight t p < n + 1) (hw : weight t p ≤ B) :
    Ends t p B (fun _ _ => True) (multLoop expr (n + 1) ty k p) := by
  induction k generalizing p B with
  | zero => omega
  | succ k ih =>
    unfold multLoop
    refine ends_token ?_
    split
    · rename_i hc
      have hne : p.lex.token ≠ .ch '\n' := by rcases hc with hc | hc <;> rw [hc] <;> decide
      have hpos := weight_pos (t := t) (p := p) hne
      refine ends_bind (ends_next (B := weight t p - 1) hp hne (by omega)) (fun a p1 h1 _ hw1 _ => ?_)
      refine ends_bind (ends_neg he p1 (weight t p - 1) h1 (by omega) (by omega)) (fun ty2 p2 h2 _ hw2 _ => ?_)
      split
      · refine ends_bind (ends_emit (B := weight t p - 1) h2 hw2) (fun a p3 h3 _ hw3 _ => ih h3 (by omega) (by omega) (by omega))
      · trivial
    · exact ends_pure hp hw trivial

theorem ends_mult (he : Eats t n expr) : Eats t (n + 1) (multExpr expr (n + 1)) := by
  intro p B hp hn hw
  unfold multExpr
  refine ends_bind (ends_neg he p (weight t p - 1) hp hn (by omega)) (fun ty p1 h1 _ hw1 _ => ?_)
  exact ends_bind (ends_multLoop (B := B) he ty _ h1 (by omega) (by omega) (by omega)) (fun a p2 h2 _ hw2 _ => ends_pure h2 hw2 trivial)

theorem ends_addLoop (he : Eats t n expr) (k : Nat) (hp : Line t p) (hk : weight t p < k) (hn : weight t p < n + 1) (hw : weight t p ≤ B) :
    Ends t p B (fun _ _ => True) (addLoop expr (n + 1) k p) := by
  induction k generalizing p B with
  | zero => omega
  | succ k ih =>
    unfold addLoop
    refine ends_token ?_
    split
    · rename_i hc
      have hne : p.lex.token ≠ .ch '\n' := by rcases hc with hc | hc <;> rw [hc] <;> decide
      have hpos := weight_pos (t := t) (p := p) hne
      refine ends_bind (ends_next (B := weight t p - 1) hp hne (by omega)) (fun a p1 h1 _ hw1 _ => ?_)
      refine ends_bind (ends_mult he p1 (weight t p - 1) h1 (by omega) (by omega)) (fun ty2 p2 h2 _ hw2 _ => ?_)
      split
      · trivial
      · refine ends_bind (ends_emit (B := weight t p - 1) h2 hw2) (fun a p3 h3 _ hw3 _ => ih h3 (by omega) (by omega) (by omega))
    · exact ends_pure hp hw trivial

theorem ends_concatLoop (he : Eats t n expr) (k : Nat) (hp : Line t p) (hk : weight t p < k) (hn : weight t p < n + 1) (hw : weight t p ≤ B) :
    Ends t p B (fun _ _ => True) (concatLoop expr (n + 1) k p) := by
  induction k generalizing p B with
  | zero => omega
  | succ k ih =>
    unfold concatLoop
    refine ends_token ?_
    split
    · rename_i hc
      have hne : p.lex.token ≠ .ch '\n' := by rw [hc]; decide
      have hpos := weight_pos (t := t) (p := p) hne
      refine ends_bind (ends_next (B := weight t p - 1) hp hne (by omega)) (fun a p1 h1 _ hw1 _ => ?_)
      refine ends_bind (ends_mult he p1 (weight t p - 1) h1 (by omega) (by omega)) (fun ty2 p2 h2 _ hw2 _ => ?_)
      split
      · trivial
      · refine ends_bind (ends_emit (B := weight t p - 1) h2 hw2) (fun a p3 h3 _ hw3 _ => ih h3 (by omega) (by omega) (by omega))
    · exact ends_pure hp hw trivial

theorem ends_add (he : Eats t n expr) : Eats t (n + 1) (addExpr expr (n + 1)) := by
  intro p B hp hn hw
  unfold addExpr
  refine ends_bind (ends_mult he p (weight t p - 1) hp hn (by omega)) (fun ty p1 h1 _ hw1 _ => ?_)
  cases ty
  · exact ends_pure h1 (by omega) trivial
  · exact ends_bind (ends_addLoop (B := B) he _ h1 (by omega) (by omega) (by omega)) (fun a p2 h2 _ hw2 _ => ends_pure h2 hw2 trivial)
  · exact ends_bind (ends_concatLoop (B := B) he _ h1 (by omega) (by omega) (by omega)) (fun a p2 h2 _ hw2 _ => ends_pure h2 hw2 trivial)

theorem ends_relational (he : Eats t n expr) : Eats t (n + 1) (relationalExpression expr (n + 1)) := by
  intro p B hp hn hw
  unfold relationalExpression
  refine ends_bind (ends_add he p (weight t p - 1) hp hn (by omega)) (fun ty p1 h1 _ hw1 _ => ?_)
  split
  · exact ends_pure h1 (by omega) trivial
  · refine ends_token ?_
    cases hr : relop p1.lex.token with
    | none => exact ends_pure h1 (by omega) trivial
    | some r =>
      have hne : p1.lex.token ≠ .ch '\n' := by intro h; rw [h] at hr; cases hr
      have hpos := weight_pos (t := t) (p := p1) hne
      refine ends_bind (ends_next (B := weight t p1 - 1) h1 hne (by omega)) (fun a p2 h2 _ hw2 _ => ?_)
      refine ends_bind (ends_add he p2 (weight t p1 - 1) h2 (by omega) (by omega)) (fun ty2 p3 h3 _ hw3 _ => ?_)
      by_cases e1 : ty2 = .err
      · rw [if_pos e1]; exact ends_pure h3 (by omega) trivial
      · rw [if_neg e1]
        by_cases e2 : ty ≠ ty2
        · rw [if_pos e2]; trivial
        · rw [if_neg e2]
          exact ends_bind (ends_emit (B := B) h3 (by omega)) (fun a p4 h4 _ hw4 _ => ends_pure h4 hw4 trivial)

theorem ends_not (he : Eats t n expr) : Eats t (n + 1) (notExpression expr (n + 1)) := by
  intro p B hp hn hw
  unfold notExpression
  refine ends_bind (ends_countPrefix (B := weight t p) (by decide) _ _ hp hn (by omega)) (fun k p1 h1 _ hw1 _ => ?_)
  refine ends_bind (ends_relational he p1 B h1 (by omega) (by omega)) (fun ty p2 h2 _ hw2 _ => ?_)
  split
  · split
    · trivial
    · split
      · exact ends_bind (ends_emit h2 hw2) (fun a p4 h4 _ hw4 _ => ends_pure h4 hw4 trivial)
      · exact ends_pure h2 hw2 trivial
  · exact ends_pure h2 hw2 trivial

theorem ends_andLoop (he : Eats t n expr) (ty : Ty) (k : Nat) (hp : Line t p) (hk : weight t p < k) (hn : weight t p < n + 1) (hw : weight t p ≤ B) :
    Ends t p B (fun _ _ => True) (andLoop expr (n + 1) ty k p) := by
  induction k generalizing p B with
  | zero => omega
  | succ k ih =>
    unfold andLoop
    refine ends_token ?_
    split
    · rename_i hc
      have hne : p.lex.token ≠ .ch '\n' := by rw [hc]; decide
      have hpos := weight_pos (t := t) (p := p) hne
      refine ends_bind (ends_next (B := weight t p - 1) hp hne (by omega)) (fun a p1 h1 _ hw1 _ => ?_)
      refine ends_bind (ends_not he p1 (weight t p - 1) h1 (by omega) (by omega)) (fun ty2 p2 h2 _ hw2 _ => ?_)
      split
      · refine ends_bind (ends_emit (B := weight t p - 1) h2 hw2) (fun a p3 h3 _ hw3 _ => ih h3 (by omega) (by omega) (by omega))
      · trivial
    · exact ends_pure hp hw trivial

theorem ends_and (he : Eats t n expr) : Eats t (n + 1) (andExpression expr (n + 1)) := by
  intro p B hp hn hw
  unfold andExpression
  refine ends_bind (ends_not he p (weight t p - 1) hp hn (by omega)) (fun ty p1 h1 _ hw1 _ => ?_)
  exact ends_bind (ends_andLoop (B := B) he ty _ h1 (by omega) (by omega) (by omega)) (fun a p2 h2 _ hw2 _ => ends_pure h2 hw2 trivial)

theorem ends_orLoop (he : Eats t n expr) (ty : Ty) (k : Nat) (hp : Line t p) (hk : weight t p < k) (hn : weight t p < n + 1) (hw : weight t p ≤ B) :
    Ends t p B (fun _ _ => True) (orLoop expr (n + 1) ty k p) := by
  induction k generalizing p B with
  | zero => omega
  | succ k ih =>
    unfold orLoop
    refine ends_token ?_
    split
    · rename_i hc
      have hne : p.lex.token ≠ .ch '\n' := by rw [hc]; decide
      have hpos := weight_pos (t := t) (p := p) hne
      refine ends_bind (ends_next (B := weight t p - 1) hp hne (by omega)) (fun a p1 h1 _ hw1 _ => ?_)
      refine ends_bind (ends_and he p1 (weight t p - 1) h1 (by omega) (by omega)) (fun ty2 p2 h2 _ hw2 _ => ?_)
      split
      · refine ends_bind (ends_emit (B := weight t p - 1) h2 hw2) (fun a p3 h3 _ hw3 _ => ih h3 (by omega) (by omega) (by omega))
      · trivial
    · exact ends_pure hp hw trivial

theorem ends_or (he : Eats t n expr) : Eats t (n + 1) (orExpression expr (n + 1)) := by
  intro p B hp hn hw
  unfold orExpression
  refine ends_bind (ends_and he p (weight t p - 1) hp hn (by omega)) (fun ty p1 h1 _ hw1 _ => ?_)
  exact ends_bind (ends_orLoop (B := B) he ty _ h1 (by omega) (by omega) (by omega)) (fun a p2 h2 _ hw2 _ => ends_pure h2 hw2 trivial)

theorem ends_expressionN (n : Nat) : Eats t n (expressionN n) := by
  induction n with
  | zero => intro p B hp hn; omega
  | succ n ih => exact ends_or ih

theorem ends_expression {m : Nat} : Eats t m expression := by
  intro p B hp _ hw
  unfold expression
  exact ends_fuel hp (ends_expressionN _ p B hp weight_lt_fuel hw)

/-- Statements, with a bound that no line reaches. -/
def big (t : CStr) : Nat := t.length + 2
theorem ends_numericE (hp : Line t p) (hw : weight t p ≤ B + 1) : Ends t p B (fun _ _ => True) (numericExpression expression p) :=
  ends_numeric (n := big t) ends_expression hp weight_lt_fuel hw
theorem ends_stringE (hp : Line t p) (hw : weight t p ≤ B + 1) : Ends t p B (fun _ _ => True) (stringExpression expression p) :=
  ends_string (n := big t) ends_expression hp weight_lt_fuel hw
theorem ends_expressionE (hp : Line t p) (hw : weight t p ≤ B + 1) : Ends t p B (fun _ _ => True) (expression p) :=
  ends_expression (m := big t) p B hp weight_lt_fuel hw
theorem ends_identifierE (kind : SymKind) (hp : Line t p) (hw : weight t p ≤ B + 1) :
    Ends t p B (fun q p1 => q.1 < p1.st.psym.length) (identifier expression kind p) :=
  ends_identifier (n := big t) ends_expression kind hp (Nat.lt_succ_of_lt weight_lt_fuel) hw
theorem ends_numericSimpleE (hp : Line t p) (hw : weight t p ≤ B + 1) :
    Ends t p B (fun q p1 => q < p1.st.psym.length) (numericSimpleVariable expression p) :=
  ends_numericSimpleVariable (n := big t) ends_expression hp (Nat.lt_succ_of_lt weight_lt_fuel) hw

theorem ends_emitU {i : Inst} (hp : Line t p) (hw : weight t p ≤ B) : Ends t p B (fun _ _ => True) (emit i p) :=
  ends_weaken (ends_emit hp hw) (Nat.le_refl _) (fun _ _ _ => trivial)

/-- A keyword, then an instruction. -/
theorem ends_simple {tok : Tok} {i : Inst} (ht : tok ≠ .ch '\n') (hp : Line t p) (hw : weight t p ≤ B + 1) :
    Ends t p B (fun _ _ => True) ((do matchTok tok; emit i : P Unit) p) :=
  ends_bind (ends_matchTok hp ht hw) (fun _ _ h1 _ hw1 _ => ends_emitU h1 hw1)

theorem ends_nextData (hp : Line t p) : Ends t p (rest t p + 1) (fun _ p1 => rest t p1 ≤ rest t p) (nextData p) := by
  have h : Within t p.lex.prefixes p.lex.pos p.lex := ⟨hp.text, hp.le, Nat.le_refl _, rfl⟩
  have hl := lexNextData_tame h
  simp only [nextData]
  cases hn : lexNextData p.lex with
  | halt e => rw [hn] at hl; exact .inl hl
  | ok r =>
    obtain ⟨a, lex⟩ := r
    rw [hn] at hl
    have hr : rest t { p with lex := lex } ≤ rest t p := by
      have := hl.ge
      simp only [rest]; omega
    refine ⟨⟨hl.text, hl.le, hp.ifThen⟩, ⟨Nat.le_refl _, Nat.le_refl _⟩, ?_, hr⟩
    exact Nat.le_trans weight_le_rest (by omega)

theorem ends_dataLoop (k : Nat) (hp : Line t p) (hk : rest t p < k) (hw : rest t p ≤ B) : Ends t p B (fun _ _ => True) (dataLoop k p) := by
  induction k generalizing p B with
  | zero => omega
  | succ k ih =>
    unfold dataLoop
    refine ends_bind (ends_next' (B := B) hp hw) (fun a p1 h1 _ hw1 hq => ?_)
    split
    · rename_i hc
      have hpos := weight_pos (t := t) (p := p1) (by rw [hq.1, hc]; decide)
      have h2 := hq.2 (by rw [hc]; decide)
      have h3 : rest t p1 + 1 = weight t p1 := by unfold weight; rw [if_neg (by rw [hq.1, hc]; decide)]
      refine ends_bind (ends_nextData h1) (fun w p2 hl2 _ hw2 hr => ?_)
      refine ends_bind (ends_emit hl2 hw2) (fun _ p3 hl3 _ hw3 he => ?_)
      have : rest t p3 = rest t p2 := by simp only [rest, he.1]
      exact ih hl3 (by omega) (by omega)
    · exact ends_pure h1 hw1 trivial

theorem ends_dataStatement (hp : Line t p) (ht : p.lex.token ≠ .ch '\n') (hw : weight t p ≤ B + 1) : Ends t p B (fun _ _ => True) (dataStatement p) := by
  have h3 : rest t p + 1 = weight t p := by unfold weight; rw [if_neg ht]
  unfold dataStatement
  refine ends_bind (ends_nextData hp) (fun w p2 hl2 _ hw2 hr => ?_)
  refine ends_bind (ends_emit hl2 hw2) (fun _ p3 hl3 _ hw3 he => ends_fuel hl3 ?_)
  have : rest t p3 = rest t p2 := by simp only [rest, he.1]
  have := rest_le (t := t) (p := p3)
  exact ends_dataLoop _ hl3 (by omega) (by omega)

/-- An item of a list. -/
def Item (t : CStr) (x : P Unit) : Prop := ∀ p B, Line t p → weight t p ≤ B + 1 → Ends t p B (fun _ _ => True) (x p)

theorem ends_commaLoop {x : P Unit} (hx : Item t x) (k : Nat) (hp : Line t p) (hk : weight t p < k) (hw : weight t p ≤ B) :
    Ends t p B (fun _ _ => True) (commaLoop x k p) := by
  induction k generalizing p B with
  | zero => omega
  | succ k ih =>
    unfold commaLoop
    refine ends_token ?_
    split
    · rename_i hc
      have hne : p.lex.token ≠ .ch '\n' := by rw [hc]; decide
      have hpos := weight_pos (t := t) (p := p) hne
      refine ends_bind (ends_next (B := weight t p - 1) hp hne (by omega)) (fun a p1 h1 _ hw1 _ => ?_)
      refine ends_bind (hx p1 (weight t p - 1) h1 (by omega)) (fun ty2 p2 h2 _ hw2 _ => ih h2 (by omega) (by omega))
    · exact ends_pure hp hw trivial

theorem item_read : Item t readItem := by
  intro p B hp hw
  unfold readItem
  refine ends_bind (ends_identifierE _ hp hw) (fun q p1 h1 _ hw1 hq => ?_)
  obtain ⟨q, dim⟩ := q
  refine ends_sym hq (fun s _ => ?_)
  split
  · exact ends_emitU h1 hw1
  · split
    · exact ends_emitU h1 hw1
    · exact .inr rfl

theorem item_dim : Item t dimArray := by
  intro p B hp hw
  unfold dimArray
  refine ends_bind (ends_identifierE _ hp hw) (fun q p1 h1 _ hw1 hq => ?_)
  obtain ⟨q, dim⟩ := q
  refine ends_sym hq (fun s _ => ?_)
  split
  · trivial
  · split
    · exact ends_emitU h1 hw1
    · exact ends_emitU h1 hw1

theorem item_next : Item t nextItem := by
  intro p B hp hw
  unfold nextItem
  exact ends_bind (ends_numericSimpleE hp hw) (fun q p1 h1 _ hw1 hq => ends_sym hq (fun s _ => ends_emitU h1 hw1))

theorem item_param : Item t defParameter := by
  intro p B hp hw
  unfold defParameter
  exact ends_bind (ends_numericSimpleE hp hw) (fun q p1 h1 _ hw1 hq => ends_sym hq (fun s _ => ends_emitU h1 hw1))

theorem item_input : Item t inputItem := by
  intro p B hp hw
  unfold inputItem
  refine ends_bind (ends_identifierE _ hp hw) (fun q p1 h1 _ hw1 hq => ?_)
  obtain ⟨q, dim⟩ := q
  exact ends_sym hq (fun s _ => ends_emitU h1 hw1)

theorem item_onLine : Item t onLine := by
  intro p B hp hw
  unfold onLine
  exact ends_bind (ends_lineNumber hp hw) (fun q p1 h1 _ hw1 hq => ends_emitU h1 hw1)

theorem ends_list {x : P Unit} (hx : Item t x) (hp : Line t p) (hw : weight t p ≤ B + 1) :
    Ends t p B (fun _ _ => True) ((do x; let n ← fuel; commaLoop x n : P Unit) p) :=
  ends_bind (hx p B hp hw) (fun _ _ h1 _ hw1 _ => ends_fuel h1 (ends_commaLoop hx _ h1 weight_lt_fuel hw1))

theorem item_readStatement : Item t readStatement := fun _ B hp hw =>
  ends_bind (ends_matchTok hp (by decide) hw) (fun _ _ h1 _ hw1 _ => ends_list (B := B) item_read h1 (by omega))

theorem item_dimStatement : Item t dimStatement := fun _ B hp hw =>
  ends_bind (ends_matchTok hp (by decide) hw) (fun _ _ h1 _ hw1 _ => ends_list (B := B) item_dim h1 (by omega))

theorem item_nextStatement : Item t nextStatement := fun _ B hp hw =>
  ends_bind (ends_matchTok hp (by decide) hw) (fun _ _ h1 _ hw1 _ => ends_token (by
    split
    · exact ends_list (B := B) item_next h1 (by omega)
    · exact ends_emitU h1 hw1))

theorem item_restore : Item t restoreStatement := fun _ B hp hw =>
  ends_bind (ends_matchTok hp (by decide) hw) (fun _ _ h1 _ hw1 _ => ends_token (by
    split
    · exact ends_bind (ends_lineNumber (B := B) h1 (by omega)) (fun _ _ h2 _ hw2 _ => ends_emitU h2 hw2)
    · exact ends_emitU h1 hw1))

theorem item_gosub : Item t gosubStatement := fun _ B hp hw =>
  ends_bind (ends_matchTok hp (by decide) hw) (fun _ _ h1 _ hw1 _ =>
    ends_bind (ends_lineNumber (B := B) h1 (by omega)) (fun _ _ h2 _ hw2 _ => ends_emitU h2 hw2))

theorem item_goto : Item t gotoStatement := fun _ B hp hw =>
  ends_bind (ends_matchTok hp (by decide) hw) (fun _ _ h1 _ hw1 _ =>
    ends_bind (ends_lineNumber (B := B) h1 (by omega)) (fun _ _ h2 _ hw2 _ => ends_emitU h2 hw2))

theorem item_def : Item t defStatement := by
  intro p B hp hw
  unfold defStatement
  refine ends_bind (ends_matchTok hp (by decide) hw) (fun _ p1 h1 _ hw1 _ => ends_token ?_)
  split
  · trivial
  · refine ends_word ?_
    refine ends_bind (ends_defSymbol h1 hw1 _ _) (fun q p2 h2 _ hw2 hq => ?_)
    refine ends_bind (ends_matchTok (B := B) h2 (by decide) (by omega)) (fun _ p3 h3 hm3 hw3 _ => ?_)
    refine ends_sym (Nat.lt_of_lt_of_le hq.1 hm3.names) (fun s _ => ?_)
    refine ends_bind (ends_emitU h3 hw3) (fun _ p4 h4 _ hw4 _ => ?_)
    refine ends_bind (ends_matchTok (B := B) h4 (by decide) (by omega)) (fun _ p5 h5 _ hw5 _ => ?_)
    refine ends_bind (item_param p5 B h5 (by omega)) (fun _ p6 h6 _ hw6 _ => ?_)
    refine ends_bind (ends_matchTok (B := B) h6 (by decide) (by omega)) (fun _ p7 h7 _ hw7 _ => ?_)
    refine ends_bind (ends_matchTok (B := B) h7 (by decide) (by omega)) (fun _ p8 h8 _ hw8 _ => ?_)
    dsimp only
    split
    · exact ends_bind (ends_stringE (B := B) h8 (by omega)) (fun _ _ h9 _ hw9 _ => ends_emitU h9 hw9)
    · exact ends_bind (ends_numericE (B := B) h8 (by omega)) (fun _ _ h9 _ hw9 _ => ends_emitU h9 hw9)

theorem item_for : Item t forStatement := by
  intro p B hp hw
  unfold forStatement
  refine ends_bind (ends_matchTok hp (by decide) hw) (fun _ p1 h1 _ hw1 _ => ?_)
  refine ends_bind (ends_numericSimpleE (B := B) h1 (by omega)) (fun q p2 h2 _ hw2 hq => ?_)
  refine ends_bind (ends_matchTok (B := B) h2 (by decide) (by omega)) (fun _ p3 h3 hm3 hw3 _ => ?_)
  refine ends_bind (ends_numericE (B := B) h3 (by omega)) (fun _ p4 h4 hm4 hw4 _ => ?_)
  refine ends_bind (ends_matchTok (B := B) h4 (by decide) (by omega)) (fun _ p5 h5 hm5 hw5 _ => ?_)
  refine ends_bind (ends_numericE (B := B) h5 (by omega)) (fun _ p6 h6 hm6 hw6 _ => ends_token ?_)
  have hq6 : q < p6.st.psym.length := Nat.lt_of_lt_of_le hq (((hm3.trans hm4).trans hm5).trans hm6).names
  split
  · rename_i hc
    refine ends_bind (ends_next (B := B) h6 (by rw [hc]; decide) (by omega)) (fun a p7 h7 hm7 hw7 _ => ?_)
    refine ends_bind (ends_numericE (B := B) h7 (by omega)) (fun _ p8 h8 hm8 hw8 _ => ?_)
    exact ends_sym (Nat.lt_of_lt_of_le hq6 (hm7.trans hm8).names) (fun s _ => ends_emitU h8 hw8)
  · refine ends_bind (ends_emitU h6 hw6) (fun _ p7 h7 hm7 hw7 _ => ?_)
    exact ends_sym (Nat.lt_of_lt_of_le hq6 hm7.names) (fun s _ => ends_emitU h7 hw7)

theorem item_inputBuffer (hp : Line t p) (hw : weight t p ≤ B) : Ends t p B (fun _ _ => True) (inputBuffer p) := by
  unfold inputBuffer
  refine ends_token ?_
  split
  · rename_i hc
    refine ends_word ?_
    refine ends_bind (ends_next (B := B) hp (by rw [hc]; decide) (by omega)) (fun a p1 h1 _ hw1 ha => ?_)
    split
    · rename_i hs
      refine ends_bind (ends_next (B := B) h1 (by rw [ha]; rcases hs with hs | hs <;> rw [hs] <;> decide) (by omega))
        (fun _ p2 h2 _ hw2 _ => ends_emitU h2 hw2)
    · exact ends_emitU h1 hw1
  · exact ends_emitU hp hw

theorem ends_inputLoop (k : Nat) (hp : Line t p) (hk : weight t p < k) (hw : weight t p ≤ B) :
    Ends t p B (fun _ _ => True) (inputLoop k p) := by
  induction k generalizing p B with
  | zero => omega
  | succ k ih =>
    unfold inputLoop
    refine ends_token ?_
    split
    · rename_i hc
      have hne : p.lex.token ≠ .ch '\n' := by rw [hc]; decide
      have hpos := weight_pos (t := t) (p := p) hne
      refine ends_bind (ends_next (B := weight t p - 1) hp hne (by omega)) (fun a p1 h1 _ hw1 _ => ?_)
      refine ends_bind (ends_emitU h1 hw1) (fun _ p2 h2 _ hw2 _ => ?_)
      refine ends_bind (item_input p2 (weight t p - 1) h2 (by omega)) (fun ty2 p3 h3 _ hw3 _ => ih h3 (by omega) (by omega))
    · exact ends_pure hp hw trivial

theorem item_inputStatement : Item t inputStatement := fun _ B hp hw =>
  ends_bind (ends_matchTok hp (by decide) hw) (fun _ _ h1 _ hw1 _ =>
    ends_bind (item_inputBuffer h1 hw1) (fun _ p2 h2 _ hw2 _ =>
      ends_bind (item_input p2 B h2 (by omega)) (fun _ _ h3 _ hw3 _ =>
        ends_fuel h3 (ends_bind (ends_inputLoop _ h3 weight_lt_fuel hw3) (fun _ _ h4 _ hw4 _ => ends_emitU h4 hw4)))))

theorem item_lineInput : Item t lineInputStatement := by
  intro p B hp hw
  unfold lineInputStatement
  refine ends_bind (ends_matchTok hp (by decide) hw) (fun _ p1 h1 _ hw1 _ => ?_)
  refine ends_bind (ends_matchTok (B := B) h1 (by decide) (by omega)) (fun _ p2 h2 _ hw2 _ => ?_)
  refine ends_bind (item_inputBuffer h2 hw2) (fun _ p3 h3 _ hw3 _ => ?_)
  refine ends_bind (ends_identifierE (B := B) _ h3 (by omega)) (fun q p4 h4 _ hw4 hq => ?_)
  obtain ⟨q, dim⟩ := q
  refine ends_sym hq (fun s _ => ?_)
  split
  · trivial
  · exact ends_emitU h4 hw4

theorem item_assignment : Item t assignment := by
  intro p B hp hw
  unfold assignment
  refine ends_bind (ends_identifierE _ hp hw) (fun q p1 h1 _ hw1 hq => ?_)
  obtain ⟨q, dim⟩ := q
  refine ends_bind (ends_matchTok (B := B) h1 (by decide) (by omega)) (fun _ p2 h2 hm2 hw2 _ => ?_)
  refine ends_bind (ends_expressionE (B := B) h2 (by omega)) (fun e p3 h3 hm3 hw3 _ => ?_)
  refine ends_sym (Nat.lt_of_lt_of_le hq (hm2.trans hm3).names) (fun s _ => ?_)
  split
  · trivial
  · split
    · exact ends_emitU h3 hw3
    · exact ends_emitU h3 hw3

theorem item_let : Item t letStatement := fun _ B hp hw =>
  ends_bind (ends_matchTok hp (by decide) hw) (fun _ p1 h1 _ hw1 _ => item_assignment p1 B h1 (by omega))

theorem ends_onLoop (k c : Nat) (hp : Line t p) (hk : weight t p < k) (hw : weight t p ≤ B) :
    Ends t p B (fun _ _ => True) (onLoop k c p) := by
  induction k generalizing p B c with
  | zero => omega
  | succ k ih =>
    unfold onLoop
    refine ends_token ?_
    split
    · rename_i hc
      have hne : p.lex.token ≠ .ch '\n' := by rw [hc]; decide
      have hpos := weight_pos (t := t) (p := p) hne
      refine ends_bind (ends_next (B := weight t p - 1) hp hne (by omega)) (fun a p1 h1 _ hw1 _ => ?_)
      refine ends_bind (item_onLine p1 (weight t p - 1) h1 (by omega)) (fun ty2 p2 h2 _ hw2 _ => ih _ h2 (by omega) (by omega))
    · exact ends_pure hp hw trivial

theorem ends_patch {i : Nat} {x : Inst} (hp : Line t p) (hw : weight t p ≤ B) (hi : i < p.bcode.inst.length) :
    Ends t p B (fun _ p1 => p1.lex = p.lex) (patch i x p) := by
  simp only [patch, patchInst]
  rw [if_pos (by simpa [Bcode.used] using hi)]
  exact ⟨⟨hp.text, hp.le, by simpa using hp.ifThen⟩, ⟨Nat.le_refl _, by simp⟩, hw, rfl⟩

theorem item_on : Item t onStatement := by
  intro p B hp hw
  unfold onStatement
  refine ends_bind (ends_matchTok hp (by decide) hw) (fun _ p1 h1 _ hw1 _ => ?_)
  refine ends_bind (ends_numericE (B := B) h1 (by omega)) (fun _ p2 h2 _ hw2 _ => ends_token ?_)
  split
  · rename_i hc
    refine ends_here ?_
    refine ends_bind (ends_emit h2 hw2) (fun _ p3 h3 _ hw3 he => ?_)
    refine ends_bind (ends_next (B := B) h3 (by rw [he.1]; rcases hc with hc | hc <;> rw [hc] <;> decide) (by omega))
        (fun _ p4 h4 hm4 hw4 _ => ?_)
    refine ends_bind (item_onLine p4 B h4 (by omega)) (fun _ p5 h5 hm5 hw5 _ => ends_fuel h5 ?_)
    refine ends_bind (ends_onLoop _ _ h5 weight_lt_fuel hw5) (fun c p6 h6 hm6 hw6 _ => ?_)
    refine ends_weaken (ends_patch h6 hw6 ?_) (Nat.le_refl _) (fun _ _ _ => trivial)
    exact Nat.lt_of_lt_of_le he.2 ((hm4.trans hm5).trans hm6).code
  · trivial

theorem ends_printBuiltin {i : Inst} (hp : Line t p) (ht : p.lex.token ≠ .ch '\n') (hw : weight t p ≤ B + 1) :
    Ends t p B (fun _ _ => True) (printBuiltin i p) := by
  unfold printBuiltin
  refine ends_bind (ends_next (B := B) hp ht (by omega)) (fun _ p1 h1 _ hw1 _ => ?_)
  refine ends_bind (ends_matchTok (B := B) h1 (by decide) (by omega)) (fun _ p2 h2 _ hw2 _ => ?_)
  refine ends_bind (ends_numericE (B := B) h2 (by omega)) (fun _ p3 h3 _ hw3 _ => ?_)
  exact ends_bind (ends_matchTok (B := B) h3 (by decide) (by omega)) (fun _ p4 h4 _ hw4 _ => ends_emitU h4 hw4)

theorem ends_printLoop (k : Nat) (sep : Bool) (hp : Line t p) (hk : weight t p < k) (hw : weight t p ≤ B) :
    Ends t p B (fun _ _ => True) (printLoop k sep p) := by
  induction k generalizing p B sep with
  | zero => omega
  | succ k ih =>
    unfold printLoop
    refine ends_eos ?_
    split
    · exact ends_pure hp hw trivial
    · rename_i he
      have hne : p.lex.token ≠ .ch '\n' := by intro h; rw [h] at he; exact he rfl
      have hpos := weight_pos (t := t) (p := p) hne
      refine ends_token (ends_word ?_)
      have hb : ∀ i, Ends t p B (fun _ _ => True) ((do printBuiltin i; printLoop k false : P Bool) p) := fun i =>
        ends_bind (ends_printBuiltin (B := weight t p - 1) hp hne (by omega)) (fun _ _ h1 _ hw1 _ => ih _ h1 (by omega) (by omega))
      split
      · exact hb _
      · split
        · exact hb _
        · split
          · exact ends_bind (ends_next (B := weight t p - 1) hp hne (by omega)) (fun _ _ h1 _ hw1 _ => ih _ h1 (by omega) (by omega))
          · split
            · exact ends_bind (ends_next (B := weight t p - 1) hp hne (by omega)) (fun _ _ h1 _ hw1 _ =>
                ends_bind (ends_emitU h1 hw1) (fun _ _ h2 _ hw2 _ => ih _ h2 (by omega) (by omega)))
            · refine ends_bind (ends_expressionE (B := weight t p - 1) hp (by omega)) (fun ty p1 h1 _ hw1 _ => ?_)
              cases ty
              · trivial
              · exact ends_bind (ends_emitU h1 hw1) (fun _ _ h2 _ hw2 _ => ih _ h2 (by omega) (by omega))
              · exact ends_bind (ends_emitU h1 hw1) (fun _ _ h2 _ hw2 _ => ih _ h2 (by omega) (by omega))

theorem item_print : Item t printStatement := by
  have tail : ∀ p1 B, Line t p1 → weight t p1 ≤ B →
      Ends t p1 B (fun _ _ => True) ((do let n ← fuel; let sep ← printLoop n false; if sep then pure () else emit .printLn : P Unit) p1) := by
    intro p1 B h1 hw1
    refine ends_fuel h1 (ends_bind (ends_printLoop _ _ h1 weight_lt_fuel hw1) (fun sep _ h2 _ hw2 _ => ?_))
    split
    · exact ends_pure h2 hw2 trivial
    · exact ends_emitU h2 hw2
  intro p B hp hw
  unfold printStatement
  refine ends_token ?_
  split
  · rename_i hc
    exact ends_bind (ends_next (B := B) hp (by rw [hc]; decide) hw) (fun _ p1 h1 _ hw1 _ => tail p1 B h1 hw1)
  · exact ends_bind (ends_matchTok (B := B) hp (by decide) hw) (fun _ p1 h1 _ hw1 _ => tail p1 B h1 hw1)

theorem item_randomize : Item t randomizeStatement := by
  intro p B hp hw
  unfold randomizeStatement
  refine ends_bind (ends_matchTok (B := B) hp (by decide) hw) (fun _ p1 h1 _ hw1 _ => ?_)
  refine ends_eos ?_
  split
  · exact ends_emitU h1 hw1
  · exact ends_bind (ends_numericE (B := B) h1 (by omega)) (fun _ p3 h3 _ hw3 _ => ends_emitU h3 hw3)

theorem item_rem : Item t remStatement := by
  intro p B hp hw
  refine ⟨⟨hp.text, by simp [lexDiscard, hp.text], hp.ifThen⟩, ⟨Nat.le_refl _, Nat.le_refl _⟩, ?_, trivial⟩
  simp [weight, rest, lexDiscard, hp.text]

/-- A statement that goes on uses up part of the line. -/
def Onward (t : CStr) (B : Nat) (c : Bool) (p1 : Parser) : Prop := c = true → weight t p1 + 1 ≤ B

theorem ends_plain {x : P Unit} (hx : Item t x) (hp : Line t p) (hw : weight t p ≤ B) : Ends t p B (Onward t B) (plain x p) :=
  ends_bind (hx p B hp (by omega)) (fun _ _ h1 _ hw1 _ => ends_pure h1 hw1 (fun h => by cases h))

theorem ends_setIfThen {i : Nat} (hp : Line t p) (hw : weight t p ≤ B) (hi : i = 0 ∨ i < p.bcode.inst.length) :
    Ends t p B (fun _ p1 => weight t p1 = weight t p) (setIfThen i p) := ⟨⟨hp.text, hp.le, hi⟩, ⟨Nat.le_refl _, Nat.le_refl _⟩, hw, rfl⟩

theorem ends_if (hp : Line t p) (hw : weight t p ≤ B) (ht : p.lex.token ≠ .ch '\n') : Ends t p B (Onward t B) (ifStatement p) := by
  have hpos := weight_pos (t := t) (p := p) ht
  unfold ifStatement
  refine ends_bind (ends_matchTok (B := weight t p - 1) hp (by decide) (by omega)) (fun _ p1 h1 _ hw1 _ => ?_)
  refine ends_bind (ends_numericE (B := weight t p - 1) h1 (by omega)) (fun _ p2 h2 _ hw2 _ => ?_)
  refine ends_bind (ends_matchTok (B := weight t p - 1) h2 (by decide) (by omega)) (fun _ p3 h3 _ hw3 _ => ends_token ?_)
  split
  · refine ends_bind (ends_lineNumber (B := B) h3 (by omega)) (fun _ p4 h4 _ hw4 _ => ?_)
    refine ends_bind (ends_emitU h4 hw4) (fun _ p5 h5 _ hw5 _ => ?_)
    exact ends_bind (ends_setIfThen h5 hw5 (.inl rfl)) (fun _ p6 h6 _ hw6 _ => ends_pure h6 hw6 (fun h => by cases h))
  · refine ends_here ?_
    refine ends_bind (ends_emit h3 hw3) (fun _ p4 h4 _ hw4 he => ?_)
    exact ends_bind (ends_setIfThen h4 hw4 (.inr he.2)) (fun _ p5 h5 _ hw5 _ => ends_pure h5 (by omega) (fun _ => by omega))

theorem ends_else (hp : Line t p) (hw : weight t p ≤ B) (ht : p.lex.token ≠ .ch '\n') : Ends t p B (Onward t B) (elseClause p) := by
  have hpos := weight_pos (t := t) (p := p) ht
  unfold elseClause
  refine ends_getIfThen ?_
  by_cases hi : p.ifThen = 0
  · rw [if_pos hi]
    refine ends_latest ?_
    split
    · refine ends_bind (ends_matchTok (B := B) hp (by decide) (by omega)) (fun _ p1 h1 _ hw1 _ => ?_)
      refine ends_bind (ends_lineNumber (B := B) h1 (by omega)) (fun _ p4 h4 _ hw4 _ => ?_)
      exact ends_bind (ends_emitU h4 hw4) (fun _ p5 h5 _ hw5 _ => ends_pure h5 hw5 (fun h => by cases h))
    · trivial
  · rw [if_neg hi]
    refine ends_bind (ends_matchTok (B := weight t p - 1) hp (by decide) (by omega)) (fun _ p1 h1 hm1 hw1 _ => ?_)
    refine ends_bind (ends_patch h1 hw1 (Nat.lt_of_lt_of_le (hp.ifThen.resolve_left hi) hm1.code)) (fun _ p2 h2 _ hw2 _ => ?_)
    refine ends_bind (ends_emitU h2 hw2) (fun _ p3 h3 _ hw3 _ => ?_)
    exact ends_bind (ends_setIfThen h3 hw3 (.inl rfl)) (fun _ p4 h4 _ hw4 _ => ends_pure h4 (by omega) (fun _ => by omega))

theorem ends_statementBody (hp : Line t p) (hw : weight t p ≤ B) : Ends t p B (Onward t B) (statementBody p.lex.token p) := by
  have hs : ∀ {tok : Tok} {i : Inst}, tok ≠ .ch '\n' → Item t (do matchTok tok; emit i) := fun h p B hp hw => ends_simple h hp hw
  have hdone : Ends t p B (Onward t B) ((Pure.pure false : P Bool) p) := ends_pure hp hw (fun h => by cases h)
  generalize htok : p.lex.token = tok
  unfold statementBody
  split
  · exact ends_plain (hs (by decide)) hp hw
  · exact ends_plain (hs (by decide)) hp hw
  · have h := htok
    exact ends_bind (ends_dataStatement (B := B) hp (by rw [h]; decide) (by omega)) (fun _ _ h1 _ hw1 _ => ends_pure h1 hw1 (fun h => by cases h))
  · exact ends_plain item_def hp hw
  · exact ends_plain item_dimStatement hp hw
  · exact ends_plain (hs (by decide)) hp hw
  · exact ends_plain item_for hp hw
  · exact ends_plain item_gosub hp hw
  · exact ends_plain item_goto hp hw
  · have h := htok
    exact ends_if hp hw (by rw [h]; decide)
  · exact ends_plain item_inputStatement hp hw
  · exact ends_plain item_let hp hw
  · exact ends_plain item_lineInput hp hw
  · exact ends_plain item_nextStatement hp hw
  · exact ends_plain item_on hp hw
  · exact ends_plain item_print hp hw
  · exact ends_plain item_print hp hw
  · exact ends_plain item_randomize hp hw
  · exact ends_plain item_readStatement hp hw
  · exact ends_plain item_rem hp hw
  · exact ends_plain item_restore hp hw
  · exact ends_plain (hs (by decide)) hp hw
  · exact ends_plain (hs (by decide)) hp hw
  · exact ends_plain item_assignment hp hw
  · exact hdone
  · exact hdone
  · trivial

theorem ends_statement (hp : Line t p) (hw : weight t p ≤ B) : Ends t p B (Onward t B) (statement p) := by
  unfold statement
  refine ends_token (ends_bind (ends_statementBody hp hw) (fun c p1 h1 _ hw1 ho => ends_token ?_))
  split
  · rename_i hc
    exact ends_else h1 hw1 (by rw [hc]; decide)
  · exact ends_pure h1 hw1 ho

theorem ends_complete (k : Nat) (hp : Line t p) (hk : weight t p < k) (hw : weight t p ≤ B) : Ends t p B (fun _ _ => True) (completeStatement k p) := by
  induction k generalizing p B with
  | zero => omega
  | succ k ih =>
    unfold completeStatement
    refine ends_bind (ends_statement (B := weight t p) hp (Nat.le_refl _)) (fun c p1 h1 _ hw1 ho => ?_)
    split
    · rename_i hc
      have := ho hc
      exact ih h1 (by omega) (by omega)
    · exact ends_pure h1 (by omega) trivial

theorem ends_colonLoop (k : Nat) (hp : Line t p) (hk : weight t p < k) (hw : weight t p ≤ B) :
    Ends t p B (fun _ _ => True) (colonLoop (t.length + 2) k p) := by
  induction k generalizing p B with
  | zero => omega
  | succ k ih =>
    unfold colonLoop
    refine ends_token ?_
    split
    · rename_i hc
      have hne : p.lex.token ≠ .ch '\n' := by rw [hc]; decide
      have hpos := weight_pos (t := t) (p := p) hne
      refine ends_bind (ends_next (B := weight t p - 1) hp hne (by omega)) (fun a p1 h1 _ hw1 _ => ?_)
      exact ends_bind (ends_complete _ h1 weight_lt_fuel hw1) (fun _ _ h2 _ hw2 _ => ih h2 (by omega) (by omega))
    · exact ends_pure hp hw trivial

/-- The compiler between lines. -/
def Between (p : Parser) : Prop := p.ifThen = 0 ∨ p.ifThen < p.bcode.inst.length

/-- The outcome of compiling lines. -/
def Finishes (ts : List CStr) : PRes Unit → Prop
  | .ok _ p => Between p
  | .err _ _ => True
  | .halt h => ∃ t ∈ ts, MayHalt t h

theorem finish_matchEnd (hp : Line t p) : Finishes [t] (matchTok (.ch '\n') p) := by
  simp only [matchTok, bind_apply, token]
  by_cases h : p.lex.token = .ch '\n'
  · rw [if_neg (by simpa using h)]
    have := ends_next' (B := t.length) hp rest_le
    simp only [bind_apply]
    revert this
    cases next p with
    | ok a p1 => exact fun this => this.1.ifThen
    | err => exact fun this => this
    | halt e => exact fun this => ⟨t, List.mem_singleton.2 rfl, this⟩
  · rw [if_pos h]; trivial

theorem finish_bind {x : P α} {f : α → P Unit} {B1 : Nat} {Q1 : α → Parser → Prop} (hx : Ends t p B1 Q1 (x p))
    (hf : ∀ a p1, Line t p1 → Mono p p1 → weight t p1 ≤ B1 → Q1 a p1 → Finishes [t] (f a p1)) : Finishes [t] ((x >>= f) p) := by
  rw [bind_apply]
  cases h : x p with
  | ok a p1 => rw [h] at hx; exact hf a p1 hx.1 hx.2.1 hx.2.2.1 hx.2.2.2
  | err => trivial
  | halt e => rw [h] at hx; exact ⟨t, List.mem_singleton.2 rfl, hx⟩

theorem finish_fuel {f : Nat → P Unit} (hp : Line t p) (h : Finishes [t] (f (t.length + 2) p)) : Finishes [t] ((fuel >>= f) p) := by
  rw [bind_apply, fuel_eq hp]; exact h

theorem parseLine_finishes (i num : Nat) (t : CStr) (p : Parser) (hp : Between p) : Finishes [t] (parseLine i num t p) := by
  unfold parseLine
  rw [bind_apply]
  have h := ends_next' (p := { p with lex := { p.lex with lineno := num, text := some t, pos := 0 } }) (t := t) (B := t.length)
    ⟨rfl, Nat.zero_le _, hp⟩ rest_le
  simp only [next] at h
  simp only [startLine, lexLine]
  cases hn : lexNext { p.lex with lineno := num, text := some t, pos := 0 } with
  | halt e => rw [hn] at h; exact ⟨t, List.mem_singleton.2 rfl, h⟩
  | ok r =>
    rw [hn] at h
    obtain ⟨tok, lex⟩ := r
    obtain ⟨h1, _, hw1, _⟩ := h
    refine finish_bind (ends_emitU h1 hw1) (fun _ p2 h2 _ hw2 _ => ?_)
    refine finish_bind (ends_setIfThen h2 hw2 (.inl rfl)) (fun _ p3 h3 _ hw3 _ => finish_fuel h3 ?_)
    refine finish_bind (ends_complete _ h3 weight_lt_fuel hw3) (fun _ p4 h4 _ hw4 _ => ?_)
    exact finish_bind (ends_colonLoop _ h4 weight_lt_fuel hw4) (fun _ p5 h5 _ hw5 _ => finish_matchEnd h5)

theorem parseLines_finishes (ls : List SrcLine) (i : Nat) (p : Parser) (hp : Between p) : Finishes (ls.map SrcLine.text) (parseLines ls i p) := by
  induction ls generalizing i p with
  | nil => exact hp
  | cons l ls ih =>
    unfold parseLines
    rw [bind_apply]
    have h := parseLine_finishes i l.num l.text p hp
    cases hl : parseLine i l.num l.text p with
    | ok a p1 =>
      rw [hl] at h
      have h2 := ih (i + 1) p1 h
      show Finishes _ (parseLines ls (i + 1) p1)
      cases hr : parseLines ls (i + 1) p1 with
      | ok => rw [hr] at h2; exact h2
      | err => trivial
      | halt e =>
        rw [hr] at h2
        obtain ⟨t, ht, hm⟩ := h2
        exact ⟨t, List.mem_cons_of_mem _ ht, hm⟩
    | err => trivial
    | halt e =>
      rw [hl] at h
      obtain ⟨t, ht, hm⟩ := h
      exact ⟨t, List.mem_cons.2 (.inl (List.mem_singleton.1 ht)), hm⟩

end P

theorem parseSource_ends (src : Source) (st : SymTab) (pre : Bool) :
    (∃ r, parseSource src st pre = .ok r) ∨ ∃ l ∈ src.lines, ∃ h, parseSource src st pre = .halt h ∧ P.MayHalt l.text h := by
  have h := P.parseLines_finishes src.lines 0 { lex := newLex pre, bcode := newBcode, st := st, ifThen := 0 } (.inl rfl)
  unfold parseSource
  cases hr : P.parseLines src.lines 0 { lex := newLex pre, bcode := newBcode, st := st, ifThen := 0 } with
  | ok => exact .inl ⟨_, rfl⟩
  | err => exact .inl ⟨_, rfl⟩
  | halt e =>
    rw [hr] at h
    obtain ⟨t, ht, hm⟩ := h
    obtain ⟨l, hl, rfl⟩ := List.mem_map.1 ht
    exact .inr ⟨l, hl, e, rfl, hm⟩

end LB
