import Verif.Spec.Expressions
import Verif.Proofs.Names
import Verif.Proofs.Halting
/- The expression compiler recognises the grammar. -/
namespace LB
open LB.Spec _root_.Spec

theorem Spec.Scans.split {l l' : List Lexeme} {lex lex'' : Lex} (h : Scans lex (l ++ l') lex'') :
    ∃ lex', Scans lex l lex' ∧ Scans lex' l' lex'' := by
  induction l generalizing lex with
  | nil => exact ⟨lex, .done, h⟩
  | cons a l ih =>
    cases h with
    | more h1 h2 h3 =>
      obtain ⟨x, h4, h5⟩ := ih h3
      exact ⟨x, .more h1 h2 h4, h5⟩

theorem Spec.Postfix.grow {st st' : SymTab} {t : Ty} {e : Expr t} {c : List Inst} (h : Postfix st e c) (hg : Grows st st') : Postfix st' e c := by
  induction h with
  | num => exact .num
  | str => exact .str
  | numVar h1 h2 h3 h4 =>
    obtain ⟨s', k1, k2, k3, k4, k5⟩ := hg _ _ h1
    rw [← k2]
    refine .numVar k1 (k4 ▸ h2) ?_ (k3.trans h4)
    rcases k5 with k5 | ⟨k5, _⟩
    · rw [k5, h3]
    · rw [h3] at k5; cases k5
  | strVar h1 h2 h3 h4 =>
    obtain ⟨s', k1, k2, k3, k4, k5⟩ := hg _ _ h1
    rw [← k2]
    refine .strVar k1 (k4 ▸ h2) ?_ (k3.trans h4)
    rcases k5 with k5 | ⟨k5, _⟩
    · rw [k5, h3]
    · rw [h3] at k5; cases k5
  | neg _ i => exact .neg i
  | arith _ _ i j => exact .arith i j
  | concat _ _ i j => exact .concat i j
  | cmp _ _ i j => exact .cmp i j
  | cmpStr _ _ i j => exact .cmpStr i j
  | not _ i => exact .not i
  | and _ _ i j => exact .and i j
  | or _ _ i j => exact .or i j
  | numFn _ i => exact .numFn i
  | strFn _ i => exact .strFn i
  | textFn _ i => exact .textFn i
  | endFn _ _ i j => exact .endFn i j
  | mid _ _ _ i j k => exact .mid i j k
  | elem _ h1 h2 h3 h4 h5 i =>
    obtain ⟨s', k1, k2, k3, k4, k5⟩ := hg _ _ h1
    rw [← k2]
    refine .elem i k1 (k4 ▸ h2) ?_ (k3.trans h4) h5
    rcases k5 with k5 | ⟨_, k5⟩
    · rw [k5]; exact h3
    · exact .inr k5
  | elem2 _ _ h1 h2 h3 h4 h5 i j =>
    obtain ⟨s', k1, k2, k3, k4, k5⟩ := hg _ _ h1
    rw [← k2]
    refine .elem2 i j k1 (k4 ▸ h2) ?_ (k3.trans h4) h5
    rcases k5 with k5 | ⟨_, k5⟩
    · rw [k5]; exact h3
    · exact .inr k5
  | rnd => exact .rnd
  | rndOf h _ i => exact .rndOf h i
  | time => exact .time
  | timeOf h _ i => exact .timeOf h i

/-- How strongly a token binds what precedes it. -/
def strength : Tok → Nat
  | .ch '(' => 9
  | .ch '^' => 8
  | .ch '*' => 6
  | .ch '/' => 6
  | .ch '+' => 5
  | .ch '-' => 5
  | .ch '=' => 4
  | .ch '<' => 4
  | .ch '>' => 4
  | .ne => 4
  | .le => 4
  | .ge => 4
  | .kw .AND => 2
  | .kw .OR => 1
  | _ => 0

/-- Tokens at least as strong as this could still belong to a phrase of the level. -/
def Spec.Level.limit : Level → Nat
  | .primary => 9
  | .power => 8
  | .neg => 8
  | .mult => 7
  | .add => 6
  | .rel => 4
  | .not => 4
  | .and => 3
  | .or => 2

theorem strength_continues {t : Tok} (h : ¬ Continues t) : strength t = 0 := by
  unfold strength
  split <;> first | rfl | (exfalso; apply h; simp [Continues])

theorem relop_some {r : Rel} : P.relop (relTok r) = some r := by cases r <;> rfl

theorem relop_none {t : Tok} (h : strength t < 4) : P.relop t = none := by
  unfold P.relop
  split <;> first | rfl | (revert h; decide)

/-- The first token of a phrase. -/
theorem Spec.Phrase.head {v : Level} {l : List Lexeme} {t : Ty} {e : Expr t} (h : Phrase v l e) :
    ∃ a l', l = a :: l' ∧ ((v = .primary ∨ v = .power) → a ≠ opTok '-') ∧
      ((v = .primary ∨ v = .power ∨ v = .neg ∨ v = .mult ∨ v = .add ∨ v = .rel) → a ≠ .op (.kw .NOT)) := by
  induction h with
  | num | str | numVar | strVar | paren | numFn | strFn | textFn | endFn | mid | elem | elem2 | rnd | rndEmpty | rndOf | time | timeEmpty | timeOf => exact ⟨_, _, rfl, fun _ h => by simp [opTok] at h, fun _ h => by simp [opTok] at h⟩
  | primary _ ih | power _ ih | neg _ ih | mult _ ih | sum _ ih | rel _ ih | not _ ih | conj _ ih =>
    obtain ⟨a, l', h1, h2, h3⟩ := ih
    exact ⟨a, l', h1, fun h => h2 (by simp_all), fun h => h3 (by simp_all)⟩
  | pow _ _ ih _ | mul _ _ ih _ | div _ _ ih _ | add _ _ ih _ | sub _ _ ih _ | concat _ _ ih _ | cmp _ _ ih _ | cmpStr _ _ ih _
  | and _ _ ih _ | or _ _ ih _ =>
    obtain ⟨a, l', h1, h2, h3⟩ := ih
    rw [h1]
    exact ⟨a, _, rfl, fun h => h2 (by simp_all), fun h => h3 (by simp_all)⟩
  | @minus k l x _ ih =>
    obtain ⟨a, l', h1, h2, h3⟩ := ih
    cases k with
    | zero => exact ⟨a, l', h1, fun h => by simp at h, fun _ => h3 (by simp)⟩
    | succ k => exact ⟨opTok '-', _, by rw [List.replicate_succ]; rfl, fun h => by simp at h, fun _ h => by simp [opTok] at h⟩
  | @nots k l x _ ih =>
    obtain ⟨a, l', h1, h2, h3⟩ := ih
    cases k with
    | zero => exact ⟨a, l', h1, fun h => by simp at h, fun h => by simp at h⟩
    | succ k => exact ⟨.op (.kw .NOT), _, by rw [List.replicate_succ]; rfl, fun h => by simp at h, fun h => by simp at h⟩

theorem Spec.Phrase.opens {v : Level} {l : List Lexeme} {t : Ty} {e : Expr t} (h : Phrase v l e) : ∃ a l', l = a :: l' ∧ a ≠ opTok ')' := by
  induction h with
  | num | str | numVar | strVar | paren | numFn | strFn | textFn | endFn | mid | elem | elem2 | rnd | rndEmpty | rndOf | time | timeEmpty | timeOf => exact ⟨_, _, rfl, fun h => by simp [opTok] at h⟩
  | primary _ ih | power _ ih | neg _ ih | mult _ ih | sum _ ih | rel _ ih | not _ ih | conj _ ih => exact ih
  | pow _ _ ih _ | mul _ _ ih _ | div _ _ ih _ | add _ _ ih _ | sub _ _ ih _ | concat _ _ ih _ | cmp _ _ ih _ | cmpStr _ _ ih _
  | and _ _ ih _ | or _ _ ih _ =>
    obtain ⟨a, l', h1, h2⟩ := ih
    rw [h1]
    exact ⟨a, _, rfl, h2⟩
  | @minus k l x _ ih =>
    cases k with
    | zero => exact ih
    | succ k => exact ⟨opTok '-', _, by rw [List.replicate_succ]; rfl, fun h => by simp [opTok] at h⟩
  | @nots k l x _ ih =>
    cases k with
    | zero => exact ih
    | succ k => exact ⟨.op (.kw .NOT), _, by rw [List.replicate_succ]; rfl, fun h => by simp [opTok] at h⟩

theorem Spec.Phrase.pos {v : Level} {l : List Lexeme} {t : Ty} {e : Expr t} (h : Phrase v l e) : 1 ≤ l.length := by
  obtain ⟨a, l', rfl, _⟩ := h.head
  simp

theorem current_op {lex : Lex} {a : Lexeme} {t : Tok} (h : Current lex a) (ht : lex.token = t) (h1 : t ≠ .num) (h2 : t ≠ .str) (h3 : t ≠ .id)
    (h4 : t ≠ .kw .DATA) : a = .op t := by
  cases a with
  | num => exact absurd (ht.symm.trans h.1) h1
  | str => exact absurd (ht.symm.trans h.1) h2
  | name => exact absurd (ht.symm.trans h.1) h3
  | op u =>
    have h : lex.token = u := h
    rw [← h, ht]
  | data => exact absurd (ht.symm.trans h) h4

/-- A name that has no value yet. -/
def Unused (s : Symbol) : Prop :=
  (s.kind = .variable ∨ s.kind = .array ∨ s.kind = .unknown ∨ s.kind = .def_) ∧ s.defined = false ∧ s.str = none ∧ s.numarr = none ∧ s.strarr = none ∧ s.def_ = none

/-- The name is one of these. -/
def Among (fs : List CStr) (w : CStr) : Prop := ∃ f ∈ fs, SameIgnoringCase f w

theorem Among.same {fs : List CStr} {v w : CStr} (h : Among fs v) (hs : SameIgnoringCase v w) : Among fs w := by
  obtain ⟨f, h1, h2⟩ := h
  exact ⟨f, h1, Eq.trans h2 hs⟩

/-- The names that can be those of symbols of the kind: `fs` are the names of functions. -/
def Suited (fs : List CStr) (k : SymKind) (w : CStr) : Prop := (k = .def_ → Among fs w) ∧ (k = .array → ¬ Among fs w)

/-- At most `n` names were added, and names of unknown kind may have become those of arrays or functions; `fs` are the names
of functions. -/
structure Added (fs : List CStr) (n : Nat) (st st' : SymTab) : Prop where
  more : st.psym.length ≤ st'.psym.length
  most : st'.psym.length ≤ st.psym.length + n
  old : ∀ (q : Nat) (s : Symbol), st.psym[q]? = some s → st'.psym[q]? = some s ∨ (s.kind = .unknown ∧ ∃ k, (k = .array ∨ k = .def_) ∧ st'.psym[q]? = some { s with kind := k } ∧ Suited fs k s.name)
  new : ∀ (q : Nat) (s : Symbol), st'.psym[q]? = some s → st.psym.length ≤ q → Unused s ∧ Suited fs s.kind s.name

section
variable {fs : List CStr}

theorem Added.refl {n : Nat} (st : SymTab) : Added fs n st st :=
  ⟨Nat.le_refl _, Nat.le_add_right _ _, fun _ _ h => .inl h, fun q s h hq => by rw [List.getElem?_eq_none hq] at h; cases h⟩

theorem Added.mono {m n : Nat} {st st' : SymTab} (h : Added fs m st st') (hm : m ≤ n) : Added fs n st st' :=
  ⟨h.more, Nat.le_trans h.most (by omega), h.old, h.new⟩

theorem Added.trans {m n : Nat} {a b c : SymTab} (h : Added fs m a b) (k : Added fs n b c) : Added fs (m + n) a c := by
  refine ⟨Nat.le_trans h.more k.more, by have := h.most; have := k.most; omega, ?_, ?_⟩
  · intro q s hs
    rcases h.old q s hs with h1 | ⟨hu, i, hi, h1, hn⟩
    · exact k.old q s h1
    · rcases k.old q _ h1 with h2 | ⟨hu', _⟩
      · exact .inr ⟨hu, i, hi, h2, hn⟩
      · rcases hi with rfl | rfl <;> cases hu'
  · intro q s hs hq
    by_cases hb : b.psym.length ≤ q
    · exact k.new q s hs hb
    · have hq' : q < b.psym.length := by omega
      have h1 : b.psym[q]? = some b.psym[q] := List.getElem?_eq_getElem hq'
      have h2 := h.new q _ h1 hq
      rcases k.old q _ h1 with h3 | ⟨_, i, hi, h3, hn⟩
      · rw [h3] at hs; cases hs; exact h2
      · rw [h3] at hs; cases hs; exact ⟨⟨hi.elim (fun h => .inr (.inl h)) (fun h => .inr (.inr (.inr h))), h2.1.2⟩, hn⟩

/-- The names of functions are among `fs`, and those of arrays are not. -/
def Apart (fs : List CStr) (st : SymTab) : Prop := ∀ s ∈ st.psym, Suited fs s.kind s.name

theorem Added.apart {n : Nat} {st st' : SymTab} (h : Added fs n st st') (hn : Apart fs st) : Apart fs st' := by
  intro s hs
  obtain ⟨q, hq⟩ := List.mem_iff_getElem?.1 hs
  by_cases hl : st.psym.length ≤ q
  · exact (h.new q s hq hl).2
  · have h1 : st.psym[q]? = some st.psym[q] := List.getElem?_eq_getElem (by omega)
    rcases h.old q _ h1 with h2 | ⟨_, i, hi, h2, hn⟩
    · rw [h2] at hq; cases hq; exact hn _ (List.getElem_mem _)
    · rw [h2] at hq; cases hq; exact hn

end

/-- The tokens of the expression were read, and its code was appended. -/
structure Put (p : Parser) {t : Ty} (e : Expr t) (lex' : Lex) (p' : Parser) : Prop where
  lex : p'.lex = lex'
  ifThen : p'.ifThen = p.ifThen
  code : ∃ c, p'.bcode = { p.bcode with inst := p.bcode.inst ++ c } ∧ Postfix p'.st e c
  names : WellNamed p'.st
  grows : Grows p.st p'.st
  added : ∀ {fs : List CStr}, Added fs e.vars p.st p'.st

/-- The code of subscripts. -/
inductive SubsCode (st : SymTab) : List (Expr .num) → List Inst → Prop
  | nil : SubsCode st [] []
  | cons {e es c d} : Postfix st e c → SubsCode st es d → SubsCode st (e :: es) (c ++ d)

theorem SubsCode.grow {st st' : SymTab} {es : List (Expr .num)} {c : List Inst} (h : SubsCode st es c) (hg : Grows st st') : SubsCode st' es c := by
  induction h with
  | nil => exact .nil
  | cons h _ ih => exact .cons (h.grow hg) ih

/-- The tokens of subscripts were read, and their code was appended. -/
structure PutSubs (p : Parser) (es : List (Expr .num)) (lex' : Lex) (p' : Parser) : Prop where
  lex : p'.lex = lex'
  ifThen : p'.ifThen = p.ifThen
  code : ∃ c, p'.bcode = { p.bcode with inst := p.bcode.inst ++ c } ∧ SubsCode p'.st es c
  names : WellNamed p'.st
  grows : Grows p.st p'.st
  added : ∀ {fs : List CStr}, Added fs (es.map Expr.vars).sum p.st p'.st

theorem typeOf_ne (w : CStr) : typeOf w ≠ .err := by
  unfold typeOf; split <;> decide

theorem Spec.Phrase.type_ne {v : Level} {l : List Lexeme} {t : Ty} {e : Expr t} (h : Phrase v l e) : t ≠ .err := by
  induction h <;> first | assumption | exact typeOf_ne _ | decide

namespace P

theorem bind_ok {α β : Type} {x : P α} {f : α → P β} {p p' : Parser} {a : α} (h : x p = .ok a p') : (x >>= f) p = f a p' := by
  rw [bind_apply, h]

theorem next_ok {p : Parser} {t : Tok} {lex' : Lex} (h : lexNext p.lex = .ok (t, lex')) : next p = .ok t { p with lex := lex' } := by
  unfold next
  rw [h]

theorem token_bind {β : Type} (f : Tok → P β) (p : Parser) : (token >>= f) p = f p.lex.token p := rfl

theorem match_ok {p : Parser} {t u : Tok} {lex' : Lex} (hc : p.lex.token = t) (hx : lexNext p.lex = .ok (u, lex')) : matchTok t p = .ok () { p with lex := lex' } := by
  rw [matchTok, token_bind, if_neg (by simp [hc]), bind_ok (next_ok hx)]
  rfl

/-- The loop over sums or concatenations. -/
def sumLoop (expr : P Ty) (n : Nat) (t : Ty) (k : Nat) : P Unit :=
  match t with
  | .num => addLoop expr n k
  | .str => concatLoop expr n k
  | .err => pure ()

/-- What parsing at a level does. -/
def AtLevel (v : Level) (expr : P Ty) (n len : Nat) (t : Ty) (p p' : Parser) : Prop :=
  match v with
  | .primary => primaryExpression expr p = .ok t p'
  | .power => powerExpr expr n p = .ok t p'
  | .neg => negExpr expr n p = .ok t p'
  | .mult => ∃ k, n < k + len ∧ multExpr expr n p = (multLoop expr n t k >>= fun _ => pure t) p'
  | .add => ∃ k, n < k + len ∧ addExpr expr n p = (sumLoop expr n t k >>= fun _ => pure t) p'
  | .rel => relationalExpression expr n p = .ok t p'
  | .not => notExpression expr n p = .ok t p'
  | .and => ∃ k, n < k + len ∧ andExpression expr n p = (andLoop expr n t k >>= fun _ => pure t) p'
  | .or => ∃ k, n < k + len ∧ orExpression expr n p = (orLoop expr n t k >>= fun _ => pure t) p'

/-- The phrase is parsed at its level. -/
def Parses (v : Level) (l : List Lexeme) {t : Ty} (e : Expr t) : Prop :=
  ∀ m n p lex', WellNamed p.st → Scans p.lex l lex' → l.length ≤ m + 1 → l.length ≤ n → strength lex'.token < v.limit →
    ∃ p', Put p e lex' p' ∧ AtLevel v (expressionN m) n l.length t p p'


theorem mult_close {expr : P Ty} {n len : Nat} {t : Ty} {p p' : Parser} (h : AtLevel .mult expr n len t p p') (hl : len ≤ n)
    (hs : strength p'.lex.token < 6) : multExpr expr n p = .ok t p' := by
  obtain ⟨k, hk, h⟩ := h
  obtain ⟨k, rfl⟩ : ∃ j, k = j + 1 := ⟨k - 1, by omega⟩
  rw [h, bind_ok (a := ()) (p' := p')]
  · rfl
  · rw [multLoop, token_bind, if_neg]
    · rfl
    · rintro (h | h) <;> rw [h] at hs <;> exact absurd hs (by decide)

theorem add_close {expr : P Ty} {n len : Nat} {t : Ty} {p p' : Parser} (h : AtLevel .add expr n len t p p') (hl : len ≤ n)
    (hs : strength p'.lex.token < 5) : addExpr expr n p = .ok t p' := by
  obtain ⟨k, hk, h⟩ := h
  obtain ⟨k, rfl⟩ : ∃ j, k = j + 1 := ⟨k - 1, by omega⟩
  rw [h, bind_ok (a := ()) (p' := p')]
  · rfl
  · cases t with
    | num =>
      rw [sumLoop, addLoop, token_bind, if_neg]
      · rfl
      · rintro (h | h) <;> rw [h] at hs <;> exact absurd hs (by decide)
    | str =>
      rw [sumLoop, concatLoop, token_bind, if_neg]
      · rfl
      · intro h; rw [h] at hs; exact absurd hs (by decide)
    | err => rfl

theorem and_close {expr : P Ty} {n len : Nat} {t : Ty} {p p' : Parser} (h : AtLevel .and expr n len t p p') (hl : len ≤ n)
    (hs : strength p'.lex.token < 2) : andExpression expr n p = .ok t p' := by
  obtain ⟨k, hk, h⟩ := h
  obtain ⟨k, rfl⟩ : ∃ j, k = j + 1 := ⟨k - 1, by omega⟩
  rw [h, bind_ok (a := ()) (p' := p')]
  · rfl
  · rw [andLoop, token_bind, if_neg]
    · rfl
    · intro h; rw [h] at hs; exact absurd hs (by decide)

theorem or_close {expr : P Ty} {n len : Nat} {t : Ty} {p p' : Parser} (h : AtLevel .or expr n len t p p') (hl : len ≤ n)
    (hs : strength p'.lex.token < 1) : orExpression expr n p = .ok t p' := by
  obtain ⟨k, hk, h⟩ := h
  obtain ⟨k, rfl⟩ : ∃ j, k = j + 1 := ⟨k - 1, by omega⟩
  rw [h, bind_ok (a := ()) (p' := p')]
  · rfl
  · rw [orLoop, token_bind, if_neg]
    · rfl
    · intro h; rw [h] at hs; exact absurd hs (by decide)

theorem count_prefix {t : Tok} (h1 : t ≠ .num) (h2 : t ≠ .str) (h3 : t ≠ .id) (h4 : t ≠ .kw .DATA) {k n c : Nat} {p : Parser} {a : Lexeme} {l : List Lexeme} {lex' : Lex}
    (h : Scans p.lex (List.replicate k (.op t) ++ a :: l) lex') (ha : a ≠ .op t) (hn : k < n) :
    ∃ lex1, countPrefix t n c p = .ok (c + k) { p with lex := lex1 } ∧ Scans lex1 (a :: l) lex' := by
  induction k generalizing n c p with
  | zero =>
    obtain ⟨n, rfl⟩ : ∃ j, n = j + 1 := ⟨n - 1, by omega⟩
    refine ⟨p.lex, ?_, h⟩
    cases h with
    | more hc _ _ =>
      rw [countPrefix, token_bind, if_neg]
      · rfl
      · exact fun ht => ha (current_op hc ht h1 h2 h3 h4)
  | succ k ih =>
    obtain ⟨n, rfl⟩ : ∃ j, n = j + 1 := ⟨n - 1, by omega⟩
    rw [List.replicate_succ, List.cons_append] at h
    cases h with
    | @more _ _ _ u lex1 _ hc hx hr =>
      obtain ⟨lex2, h4, h5⟩ := ih (n := n) (c := c + 1) (p := { p with lex := lex1 }) hr (by omega)
      refine ⟨lex2, ?_, h5⟩
      have hc : p.lex.token = t := hc
      rw [countPrefix, token_bind, if_pos hc, bind_ok (next_ok hx), h4]
      congr 1
      omega

end P

theorem Put.one {p p1 : Parser} {t u : Ty} {a : Expr t} {e : Expr u} {lex1 : Lex} {i : Inst} (ha : Put p a lex1 p1) (hi : i.isData = false)
    (hc : ∀ c, Postfix p1.st a c → Postfix p1.st e (c ++ [i])) (hv : e.vars = a.vars) : Put p e lex1 { p1 with bcode := emitInst p1.bcode i } := by
  obtain ⟨c, h1, h2⟩ := ha.code
  refine ⟨ha.lex, ha.ifThen, ⟨c ++ [i], ?_, hc c h2⟩, ha.names, ha.grows, hv ▸ ha.added⟩
  simp only [emitInst, h1, hi, Bool.or_false, List.append_assoc]

theorem Put.two {p p1 p3 : Parser} {t u v : Ty} {a : Expr t} {b : Expr u} {e : Expr v} {lex1 lex2 lex3 : Lex} {i : Inst}
    (ha : Put p a lex1 p1) (hb : Put { p1 with lex := lex2 } b lex3 p3) (hi : i.isData = false)
    (hc : ∀ c d, Postfix p3.st a c → Postfix p3.st b d → Postfix p3.st e (c ++ d ++ [i])) (hv : e.vars = a.vars + b.vars) :
    Put p e lex3 { p3 with bcode := emitInst p3.bcode i } := by
  obtain ⟨c, h1, h2⟩ := ha.code
  obtain ⟨d, h3, h4⟩ := hb.code
  refine ⟨hb.lex, hb.ifThen.trans ha.ifThen, ⟨c ++ d ++ [i], ?_, hc c d (h2.grow hb.grows) h4⟩, hb.names, ha.grows.trans hb.grows, hv ▸ ha.added.trans hb.added⟩
  simp only [emitInst, h3, h1, hi, Bool.or_false, List.append_assoc]

theorem Put.three {p p1 p3 p5 : Parser} {t u v x : Ty} {a : Expr t} {b : Expr u} {c : Expr v} {e : Expr x} {lex1 lex2 lex3 lex4 lex5 : Lex} {i : Inst}
    (ha : Put p a lex1 p1) (hb : Put { p1 with lex := lex2 } b lex3 p3) (hd : Put { p3 with lex := lex4 } c lex5 p5) (hi : i.isData = false)
    (hc : ∀ k l m, Postfix p5.st a k → Postfix p5.st b l → Postfix p5.st c m → Postfix p5.st e (k ++ l ++ m ++ [i])) (hv : e.vars = a.vars + b.vars + c.vars) :
    Put p e lex5 { p5 with bcode := emitInst p5.bcode i } := by
  obtain ⟨k, h1, h2⟩ := ha.code
  obtain ⟨l, h3, h4⟩ := hb.code
  obtain ⟨m, h5, h6⟩ := hd.code
  refine ⟨hd.lex, hd.ifThen.trans (hb.ifThen.trans ha.ifThen), ⟨k ++ l ++ m ++ [i], ?_, hc k l m ((h2.grow hb.grows).grow hd.grows) (h4.grow hd.grows) h6⟩, hd.names,
    (ha.grows.trans hb.grows).trans hd.grows, hv ▸ (ha.added.trans hb.added).trans hd.added⟩
  simp only [emitInst, h5, h3, h1, hi, Bool.or_false, List.append_assoc]

theorem Put.ahead {p p' : Parser} {lex' lex'' : Lex} {t : Ty} {e : Expr t} (h : Put p e lex' p') : Put p e lex'' { p' with lex := lex'' } :=
  ⟨rfl, h.ifThen, h.code, h.names, h.grows, h.added⟩

theorem builtin_same {v w : CStr} (h : SameIgnoringCase v w) : LB.builtin v = LB.builtin w := by
  unfold LB.builtin
  congr 1
  funext b
  have : ∀ x, (strcasecmp b.name x = 0) ↔ SameIgnoringCase b.name x := fun x => strcasecmp_eq_zero_iff ..
  rw [Bool.eq_iff_iff]
  simp only [beq_iff_eq, this]
  unfold SameIgnoringCase at *
  rw [h]

theorem Put.moved {p p' : Parser} {lex1 lex' : Lex} {t : Ty} {e : Expr t} (h : Put { p with lex := lex1 } e lex' p') : Put p e lex' p' :=
  ⟨h.lex, h.ifThen, h.code, h.names, h.grows, h.added⟩

theorem added_insert {fs : List CStr} {st : SymTab} {w : CStr} {k : SymKind} {t : Ty} (hk : k = .variable ∨ k = .array ∨ k = .unknown ∨ k = .def_) (hn : Suited fs k w) :
    Added fs 1 st (symInsert st w k t).1 := by
  refine ⟨by simp [symInsert], by simp [symInsert], fun q s hs => .inl ?_, fun q s hs hq => ?_⟩
  · simp only [symInsert]
    rw [List.getElem?_append_left (List.getElem?_eq_some_iff.1 hs).1]; exact hs
  · simp only [symInsert] at hs
    rw [List.getElem?_append_right hq] at hs
    cases hj : q - st.psym.length with
    | zero => rw [hj] at hs; cases hs; exact ⟨⟨hk, rfl, rfl, rfl, rfl, rfl⟩, hn⟩
    | succ j => rw [hj] at hs; cases hs

namespace P

/-- The entry for the name of a simple variable. -/
theorem resolve_variable {p : Parser} {w : CStr} (hw : WellNamed p.st) (hb : LB.builtin w = none) :
    ∃ q st' s, resolve w 0 .unknown p = .ok q { p with st := st' } ∧ st'.psym[q]? = some s ∧ SameIgnoringCase s.name w ∧ s.kind = .variable ∧
      s.type = nameType w ∧ WellNamed st' ∧ Grows p.st st' ∧ ∀ {fs : List CStr}, Added fs 1 p.st st' := by
  cases hf : symLookup p.st w false with
  | some q =>
    obtain ⟨s, hs, hm, hn⟩ := lookup_some hf
    have hb' : s.kind ≠ .builtin := by
      intro h
      have := builtin_found hw.tab hs hn h
      rw [hb] at this
      cases this
    have hv : s.kind = .variable := by
      revert hm hb'
      cases s.kind <;> decide
    refine ⟨q, p.st, s, ?_, hs, (strcasecmp_eq_zero_iff ..).1 hn, hv, ?_, hw, Grows.refl _, Added.refl _⟩
    · simp only [resolve, bind_apply, lookup, bne_self_eq_false, hf, sym, hs, ne_eq, not_true_eq_false, if_false, pure_apply]
    · rw [hw.tab.type q s hs hb']
      simp only [nameType, stringName_same hn]
  | none =>
    refine ⟨_, _, _, ?_, inserted p.st w .variable (nameType w) false, rfl, rfl, rfl,
      hw.insert (b := false) (by decide) (by decide) hf false, (hw.tab.insert w .variable (by decide) false).grows, added_insert (.inl rfl) ⟨fun h => (by cases h), fun h => (by cases h)⟩⟩
    simp only [resolve, bind_apply, lookup, bne_self_eq_false, hf, insert]
    rfl

/-- The entry for the name of an array, or of a function if it may be one. -/
theorem resolve_paren {p : Parser} {w : CStr} {n : Nat} {k : SymKind} (hw : WellNamed p.st) (hb : LB.builtin w = none) (hn : n ≠ 0)
    (hk : k = .unknown ∨ k = .array ∧ ∃ fs, Apart fs p.st ∧ ¬ Among fs w) :
    ∃ q st' s, resolve w n k p = .ok q { p with st := st' } ∧ st'.psym[q]? = some s ∧ SameIgnoringCase s.name w ∧ (s.kind = .unknown ∨ s.kind = .array ∨ s.kind = .def_) ∧
      (k = .array → s.kind = .array) ∧ s.type = nameType w ∧ WellNamed st' ∧ Grows p.st st' ∧
      ∀ {fs : List CStr}, (k = .array → ¬ Among fs w) → Added fs 1 p.st st' := by
  have hn' : (n != 0) = true := by simp [hn]
  have hkk : k = .unknown ∨ k = .array := hk.imp_right And.left
  cases hf : symLookup p.st w true with
  | some q =>
    obtain ⟨s, hs, hm, hsn⟩ := lookup_some hf
    have hb' : s.kind ≠ .builtin := by
      intro h
      have := builtin_found hw.tab hs hsn h
      rw [hb] at this
      cases this
    have ht : s.type = nameType w := by
      rw [hw.tab.type q s hs hb']
      simp only [nameType, stringName_same hsn]
    have hsame := (strcasecmp_eq_zero_iff ..).1 hsn
    by_cases hu : s.kind = .unknown
    · have hget : (symUpdate p.st q (fun s => { s with kind := k })).psym[q]? = some { s with kind := k } := by
        simp [symUpdate, hs]
      refine ⟨q, symUpdate p.st q (fun s => { s with kind := k }), { s with kind := k }, ?_, hget, hsame, ?_, fun h => h, ht,
        hw.setKind hs hu (hkk.imp_right .inl), ?_, fun {fs} hfs => ?_⟩
      · simp only [resolve, bind_apply, lookup, hn', hf, sym, hs, ne_eq, hn, not_false_eq_true, if_true, hu, setKind, pure_apply]
      · rcases hk with h | h
        · exact .inl h
        · exact .inr (.inl h.1)
      · exact (hw.tab.setKind hs hu k (hkk.imp_right .inl)).1.grows
      · refine ⟨by simp [symUpdate], by simp [symUpdate], fun q' s' hs' => ?_, fun q' s' hs' hq => ?_⟩
        · by_cases hq : q' = q
          · subst hq
            rw [hs] at hs'; cases hs'
            rcases hk with h | h
            · subst h
              left; rw [hget, ← hu]
            · exact .inr ⟨hu, k, .inl h.1, hget, fun h' => (by rw [h.1] at h'; cases h'), fun h' hn => hfs h' (hn.same hsame)⟩
          · left
            simp only [symUpdate, List.getElem?_modify, hs', Option.map_eq_map, Option.map_some]
            rw [if_neg (fun h => hq h.symm)]
        · rw [List.getElem?_eq_none (by simpa [symUpdate] using hq)] at hs'
          cases hs'
    · have hkind : s.kind = .array ∨ s.kind = .def_ := by
        revert hm hb' hu
        cases s.kind <;> decide
      have harr : k = .array → s.kind = .array := by
        intro h
        rcases hk with h' | ⟨_, hd⟩
        · rw [h] at h'; cases h'
        · obtain ⟨fs, hd, hn⟩ := hd
          exact hkind.resolve_right fun h => hn (((hd s (List.mem_of_getElem? hs)).1 h).same hsame)
      refine ⟨q, p.st, s, ?_, hs, hsame, .inr hkind, harr, ht, hw, Grows.refl _, fun _ => Added.refl _⟩
      simp only [resolve, bind_apply, lookup, hn', hf, sym, hs, ne_eq, hn, not_false_eq_true, if_true, hu, if_false]
      rw [if_neg]
      · rfl
      · rintro ⟨h1, h2⟩
        exact h2 (by rw [harr (hk.resolve_left h1).1, (hk.resolve_left h1).1])
  | none =>
    refine ⟨_, _, _, ?_, inserted p.st w k (nameType w) false, rfl, ?_, fun h => h, rfl,
      hw.insert (b := true) ?_ ?_ hf false, (hw.tab.insert w k ?_ false).grows, fun hfs => added_insert ?_ ⟨fun h => ?_, hfs⟩⟩
    · simp only [resolve, bind_apply, lookup, hn', hf, insert, ne_eq, hn, not_false_eq_true, if_true]
      rfl
    · rcases hkk with rfl | rfl <;> simp
    · rcases hkk with rfl | rfl <;> decide
    · rcases hkk with rfl | rfl <;> decide
    · rcases hkk with rfl | rfl <;> decide
    · rcases hkk with rfl | rfl <;> simp
    · rw [h] at hkk; rcases hkk with h | h <;> cases h

theorem name_primary {expr : P Ty} {p : Parser} {w : CStr} {t : Tok} {lex' : Lex} (hw : WellNamed p.st) (hb : LB.builtin w = none)
    (hc : Current p.lex (.name w)) (hn : lexNext p.lex = .ok (t, lex')) (hs : strength lex'.token < 9) :
    ∃ (q : Nat) (s : Symbol) (p' : Parser), namePrimary expr p = .ok (nameType w) p' ∧ p'.lex = lex' ∧ p'.ifThen = p.ifThen ∧
      p'.bcode = { p.bcode with inst := p.bcode.inst ++ [if nameType w = .str then .getSimpleStr s.id else .getSimpleNum s.id] } ∧
      p'.st.psym[q]? = some s ∧ SameIgnoringCase s.name w ∧ s.kind = .variable ∧ s.type = nameType w ∧ WellNamed p'.st ∧ Grows p.st p'.st ∧
      ∀ {fs : List CStr}, Added fs 1 p.st p'.st := by
  obtain ⟨hid, rfl⟩ := hc
  obtain ⟨q, st', s, h1, h2, h3, h4, h5, h6, h7, h8⟩ := resolve_variable (p := { p with lex := lex' }) hw hb
  have hi : identifier expr .unknown p = .ok (q, 0) { p with lex := lex', st := st' } := by
    unfold identifier
    rw [bind_ok (x := word) (p := p) rfl, bind_ok (x := matchTok .id) (a := ()) (p' := { p with lex := lex' })]
    · rw [token_bind, if_neg]
      · rw [bind_ok (x := pure 0) (p := { p with lex := lex' }) rfl]
        exact bind_ok h1
      · intro h
        have h : lex'.token = _ := h
        rw [h] at hs
        exact absurd hs (by decide)
    · unfold matchTok
      rw [token_bind, if_neg (by simp [hid]), bind_ok (next_ok hn)]
      rfl
  refine ⟨q, s, { p with lex := lex', st := st', bcode := emitInst p.bcode (if nameType p.lex.word = .str then .getSimpleStr s.id else .getSimpleNum s.id) },
    ?_, rfl, rfl, ?_, h2, h3, h4, h5, h6, h7, h8⟩
  · unfold namePrimary
    rw [bind_ok hi]
    simp only [bind_apply, sym, h2, ne_eq, not_true_eq_false, if_false, h5, emit, pure_apply]
  · simp only [emitInst]
    congr 1
    split <;> simp [Inst.isData]


/-- The expression is read as one that has to be numeric. -/
def NumAt (expr : P Ty) (I : Lex → Prop) (l : List Lexeme) (e : Expr .num) : Prop :=
  ∀ p lex', WellNamed p.st → I p.lex → Scans p.lex l lex' → strength lex'.token = 0 → ∃ p', numericExpression expr p = .ok () p' ∧ Put p e lex' p'

/-- Subscripts with commas between them. -/
inductive SubList (N : List Lexeme → Expr .num → Prop) : List Lexeme → List (Expr .num) → Prop
  | one {l e} : N l e → SubList N l [e]
  | more {l e l' es} : N l e → SubList N l' es → SubList N (l ++ opTok ',' :: l') (e :: es)

theorem subscripts_put {expr : P Ty} {I : Lex → Prop} (hI : ∀ {lex l lex'}, I lex → Scans lex l lex' → I lex') {l : List Lexeme} {es : List (Expr .num)}
    (h : SubList (NumAt expr I) l es) : ∀ {n k : Nat} {p : Parser} {a : Tok} {t : Tok} {lex1 lex' : Lex}, WellNamed p.st → I p.lex → p.lex.token = a → lexNext p.lex = .ok (t, lex1) →
    Scans lex1 l lex' → lex'.token = .ch ')' → es.length ≤ n →
    ∃ p', subscripts expr n k p = .ok (k + es.length) p' ∧ PutSubs p es lex' p' := by
  induction h with
  | @one l e hN =>
    intro n k p a t lex1 lex' hw hi ha hx hs hc hn
    obtain ⟨n, rfl⟩ : ∃ j, n = j + 1 := ⟨n - 1, by simp at hn; omega⟩
    obtain ⟨p1, h1, h2⟩ := hN { p with lex := lex1 } lex' hw (hI hi (.more (a := .op a) ha hx .done)) hs (by rw [hc]; decide)
    refine ⟨p1, ?_, ?_⟩
    · rw [subscripts, bind_ok (next_ok hx), bind_ok h1, token_bind, if_neg (by rw [h2.lex, hc]; decide)]
      rfl
    · obtain ⟨c, k1, k2⟩ := h2.code
      exact ⟨h2.lex, h2.ifThen, ⟨c ++ [], by simpa using k1, .cons k2 .nil⟩, h2.names, h2.grows, fun {fs} => by simpa using h2.added (fs := fs)⟩
  | @more l e l' es hN _ ih =>
    intro n k p a t lex1 lex' hw hi ha hx hs hc hn
    obtain ⟨n, rfl⟩ : ∃ j, n = j + 1 := ⟨n - 1, by simp at hn; omega⟩
    obtain ⟨lex2, hs1, hs2⟩ := hs.split
    cases hs2 with
    | @more _ _ _ u lex3 _ hc' hx' hr' =>
      have hc' : lex2.token = .ch ',' := hc'
      have hi1 := hI hi (.more (a := .op a) ha hx .done)
      obtain ⟨p1, h1, h2⟩ := hN { p with lex := lex1 } lex2 hw hi1 hs1 (by rw [hc']; decide)
      obtain ⟨p2, j1, j2⟩ := ih (n := n) (k := k + 1) (p := p1) (lex1 := lex3) h2.names (by rw [h2.lex]; exact hI hi1 hs1) rfl (by rw [h2.lex]; exact hx') hr' hc (by simpa using hn)
      refine ⟨p2, ?_, ?_⟩
      · rw [subscripts, bind_ok (next_ok hx), bind_ok h1, token_bind, if_pos (by rw [h2.lex, hc']), j1]
        congr 1
        simp only [List.length_cons]
        omega
      · obtain ⟨c, k1, k2⟩ := h2.code
        obtain ⟨d, k3, k4⟩ := j2.code
        exact ⟨j2.lex, j2.ifThen.trans h2.ifThen, ⟨c ++ d, by rw [k3, k1]; simp, .cons (k2.grow j2.grows) k4⟩, j2.names, h2.grows.trans j2.grows, fun {fs} => by
          simpa using (h2.added (fs := fs)).trans j2.added⟩

/-- A name with subscripts. -/
theorem identifier_put {expr : P Ty} {I : Lex → Prop} (hI : ∀ {lex l lex'}, I lex → Scans lex l lex' → I lex') {l : List Lexeme} {es : List (Expr .num)}
    (h : SubList (NumAt expr I) l es) (hes : es.length ≤ 2) {p : Parser} {w : CStr} {k : SymKind} {lex' : Lex} (hw : WellNamed p.st) (hi : I p.lex)
    (hb : LB.builtin w = none) (hk : k = .unknown ∨ k = .array ∧ ∃ fs, Apart fs p.st ∧ ¬ Among fs w) (hs : Scans p.lex (.name w :: opTok '(' :: (l ++ [opTok ')'])) lex') :
    ∃ q s c p', identifier expr k p = .ok (q, es.length) p' ∧ p'.lex = lex' ∧ p'.ifThen = p.ifThen ∧ p'.bcode = { p.bcode with inst := p.bcode.inst ++ c } ∧ SubsCode p'.st es c ∧
      p'.st.psym[q]? = some s ∧ SameIgnoringCase s.name w ∧ (s.kind = .unknown ∨ s.kind = .array ∨ s.kind = .def_) ∧ (k = .array → s.kind = .array) ∧ s.type = nameType w ∧
      WellNamed p'.st ∧ Grows p.st p'.st ∧ ∀ {fs : List CStr}, (k = .array → ¬ Among fs w) → Added fs ((es.map Expr.vars).sum + 1) p.st p'.st := by
  cases hs with
  | @more _ _ _ u lex1 _ hc hx hr =>
    cases hr with
    | @more _ _ _ u' lex2 _ hc' hx' hr' =>
      obtain ⟨lex3, hs1, hs2⟩ := hr'.split
      cases hs2 with
      | @more _ _ _ u'' lex4 _ hc'' hx'' hr'' =>
        cases hr''
        have hc' : lex1.token = .ch '(' := hc'
        have hc'' : lex3.token = .ch ')' := hc''
        obtain ⟨m, hm, hm'⟩ : ∃ m, 2 ≤ m ∧ fuel { p with lex := lex1 } = .ok m { p with lex := lex1 } := by
          unfold fuel
          refine ⟨_, ?_, rfl⟩
          split <;> omega
        obtain ⟨p1, h1, h2⟩ := subscripts_put hI h (n := m) (k := 0) (p := { p with lex := lex1 }) hw (hI hi (.more hc hx .done)) rfl hx' hs1 hc'' (by omega)
        have hne : es.length ≠ 0 := by cases h <;> simp
        obtain ⟨q, st', s, j1, j2, j3, j4, j5, j6, j7, j8, j9⟩ := resolve_paren (p := { p1 with lex := lex' }) (n := es.length) (k := k) h2.names hb hne
          (hk.imp_right (fun ⟨h, fs, h3, h4⟩ => ⟨h, fs, h2.added.apart h3, h4⟩))
        obtain ⟨c, i1, i2⟩ := h2.code
        refine ⟨q, s, c, { p1 with lex := lex', st := st' }, ?_, rfl, h2.ifThen, i1, i2.grow j8, j2, j3, j4, j5, j6, j7, h2.grows.trans j8, fun h => h2.added.trans (j9 h)⟩
        unfold identifier
        rw [bind_ok (x := word) (p := p) rfl, bind_ok (match_ok hc.1 hx), token_bind, if_pos hc']
        refine (bind_ok hm').trans ?_
        refine (bind_ok (h1.trans (by rw [Nat.zero_add]))).trans ?_
        refine (bind_ok (match_ok (by rw [h2.lex]; exact hc'') (by rw [h2.lex]; exact hx''))).trans ?_
        refine (bind_ok (x := pure es.length) (p := { p1 with lex := lex' }) rfl).trans ?_
        rw [show p.lex.word = w from hc.2]
        exact bind_ok j1

/-- The letter stands for the type. -/
def Letter (c : Char) (t : Ty) : Prop := (c = 'n' ∧ t = .num) ∨ (c = 's' ∧ t = .str)

theorem arg_ok {expr : P Ty} {c : Char} {t : Ty} {p p' : Parser} (h : expr p = .ok t p') (hc : Letter c t) : builtinArg expr c p = .ok () p' := by
  rcases hc with ⟨rfl, rfl⟩ | ⟨rfl, rfl⟩
  · rw [builtinArg, if_pos rfl, numericExpression, bind_ok h]; rfl
  · rw [builtinArg, if_neg (by decide), if_pos rfl, stringExpression, bind_ok h]; rfl

/-- An argument of a function and the token after it. -/
theorem call_arg {l l' : List Lexeme} {t : Ty} {e : Expr t} (h : Parses .or l e) {m : Nat} {p : Parser} {lex' : Lex} {k : Char} {c : Char} (hc : Letter c t)
    (hw : WellNamed p.st) (hs : Scans p.lex (l ++ opTok k :: l') lex') (hl : l.length ≤ m) (hl0 : 1 ≤ l.length) (hk : strength (.ch k) = 0) :
    ∃ lex2 lex3 u p1, Put p e lex2 p1 ∧ builtinArg (expressionN m) c p = .ok () p1 ∧ lex2.token = .ch k ∧ lexNext lex2 = .ok (u, lex3) ∧ Scans lex3 l' lex' := by
  obtain ⟨lex2, hs1, hs2⟩ := hs.split
  cases hs2 with
  | @more _ _ _ u lex3 _ hc' hx' hr' =>
    have hc' : lex2.token = .ch k := hc'
    cases m with
    | zero => omega
    | succ m =>
      obtain ⟨p1, hp, hd⟩ := h m (m + 1) p lex2 hw hs1 (by omega) (by omega) (by rw [hc', hk]; decide)
      have hd := or_close hd (by omega) (by rw [hp.lex, hc', hk]; decide)
      exact ⟨lex2, lex3, u, p1, hp, arg_ok hd hc, hc', hx', hr'⟩

/-- The start of a call of a function. -/
theorem call_starts {m : Nat} {p : Parser} {w : CStr} {l : List Lexeme} {lex' : Lex} {b : Builtin} {a : Char} {as : List Char} {op : Bi}
    (hs : Scans p.lex (.name w :: opTok '(' :: l) lex') (hb : LB.builtin w = some b) (ht : b.type ≠ .err) (ha : b.args = some (a :: as)) (hd : a ≠ 'd')
    (ho : b.opcode = some op) :
    ∃ lex1, Scans lex1 l lex' ∧ primaryExpression (expressionN m) p =
      (builtinArg (expressionN m) a >>= fun _ => builtinArgs (expressionN m) as >>= fun _ => matchTok (.ch ')') >>= fun _ => emit (.bi op) >>= fun _ => pure b.type) { p with lex := lex1 } := by
  cases hs with
  | @more _ _ _ u lex1 _ hc hx hr =>
    cases hr with
    | @more _ _ _ u' lex2 _ hc' hx' hr' =>
      have hc' : lex1.token = .ch '(' := hc'
      refine ⟨lex2, hr', ?_⟩
      rw [primaryExpression, token_bind, if_neg (by rw [hc.1]; decide), if_neg (by rw [hc.1]; decide), if_pos hc.1, bind_ok (x := word) (p := p) rfl]
      rw [hc.2, hb]
      show builtinPrimary (expressionN m) b p = _
      rw [builtinPrimary, if_neg ht, bind_ok (next_ok hx), ha, ho]
      show (builtinCall (expressionN m) (a :: as) >>= _) { p with lex := lex1 } = _
      have : builtinCall (expressionN m) (a :: as) = (do
          matchTok (.ch '(')
          builtinArg (expressionN m) a
          builtinArgs (expressionN m) as
          matchTok (.ch ')')) := by
        unfold builtinCall
        split
        · rename_i h; cases h
        · rename_i h; cases h; exact absurd rfl hd
        · rename_i h; cases h; rfl
      rw [this, bind_apply, bind_ok (match_ok (p := { p with lex := lex1 }) hc' hx')]
      simp only [bind_apply]
      cases builtinArg (expressionN m) a { p with lex := lex2 } with
      | ok x p1 =>
        simp only
        cases builtinArgs (expressionN m) as p1 with
        | ok x p2 => rfl
        | err => rfl
        | halt => rfl
      | err => rfl
      | halt => rfl

/-- A call with one argument. -/
theorem call_one {w : CStr} {l : List Lexeme} {t u : Ty} {a : Expr t} {e : Expr u} (h0 : Phrase .or l a) (h : Parses .or l a) {m : Nat} {p : Parser} {lex' : Lex} (hw : WellNamed p.st)
    {b : Builtin} {c : Char} {op : Bi} (hb : LB.builtin w = some b) (ht : b.type = u) (he : b.type ≠ .err) (ha : b.args = some [c]) (hl : Letter c t) (ho : b.opcode = some op)
    (hs : Scans p.lex (.name w :: opTok '(' :: (l ++ [opTok ')'])) lex') (h1 : (Lexeme.name w :: opTok '(' :: (l ++ [opTok ')'])).length ≤ m + 1)
    (hc : ∀ st k, Postfix st a k → Postfix st e (k ++ [.bi op])) (hv : e.vars = a.vars) :
    ∃ p', Put p e lex' p' ∧ primaryExpression (expressionN m) p = .ok u p' := by
  simp only [List.length_cons, List.length_append, List.length_nil] at h1
  subst ht
  obtain ⟨lex1, hs1, hx⟩ := call_starts (m := m) hs hb he ha (by rintro rfl; rcases hl with h | h <;> exact absurd h.1 (by decide)) ho
  obtain ⟨lex2, lex3, u, p1, k1, k2, k3, k4, k5⟩ := call_arg h (m := m) (p := { p with lex := lex1 }) hl hw hs1 (by omega) h0.pos rfl
  cases k5
  refine ⟨_, (k1.moved.ahead (lex'' := lex')).one (i := .bi op) rfl (fun k => hc _ k) hv, ?_⟩
  rw [hx, bind_ok k2]
  show (matchTok (.ch ')') >>= _) p1 = _
  rw [bind_ok (match_ok (by rw [k1.lex]; exact k3) (by rw [k1.lex]; exact k4))]
  rfl

/-- A call with two arguments. -/
theorem call_two {w : CStr} {l l' : List Lexeme} {t t' u : Ty} {a : Expr t} {b : Expr t'} {e : Expr u} (h0 : Phrase .or l a) (h0' : Phrase .or l' b) (h : Parses .or l a) (h' : Parses .or l' b)
    {m : Nat} {p : Parser} {lex' : Lex} (hw : WellNamed p.st)
    {f : Builtin} {c c' : Char} {op : Bi} (hb : LB.builtin w = some f) (ht : f.type = u) (he : f.type ≠ .err) (ha : f.args = some [c, c']) (hl : Letter c t) (hl' : Letter c' t') (ho : f.opcode = some op)
    (hs : Scans p.lex (.name w :: opTok '(' :: (l ++ opTok ',' :: (l' ++ [opTok ')']))) lex')
    (h1 : (Lexeme.name w :: opTok '(' :: (l ++ opTok ',' :: (l' ++ [opTok ')']))).length ≤ m + 1)
    (hc : ∀ st k k', Postfix st a k → Postfix st b k' → Postfix st e (k ++ k' ++ [.bi op])) (hv : e.vars = a.vars + b.vars) :
    ∃ p', Put p e lex' p' ∧ primaryExpression (expressionN m) p = .ok u p' := by
  simp only [List.length_cons, List.length_append, List.length_nil] at h1
  subst ht
  obtain ⟨lex1, hs1, hx⟩ := call_starts (m := m) hs hb he ha (by rintro rfl; rcases hl with h | h <;> exact absurd h.1 (by decide)) ho
  obtain ⟨lex2, lex3, u, p1, k1, k2, k3, k4, k5⟩ := call_arg h (m := m) (p := { p with lex := lex1 }) hl hw hs1 (by omega) h0.pos rfl
  obtain ⟨lex4, lex5, u', p2, j1, j2, j3, j4, j5⟩ := call_arg h' (m := m) (p := { p1 with lex := lex3 }) hl' k1.names k5 (by omega) h0'.pos rfl
  cases j5
  refine ⟨_, k1.moved.two (j1.ahead (lex'' := lex')) (i := .bi op) rfl (fun k k' => hc _ k k') hv, ?_⟩
  rw [hx, bind_ok k2]
  show ((matchTok (.ch ',') >>= fun _ => builtinArg (expressionN m) c' >>= fun _ => pure ()) >>= fun _ => matchTok (.ch ')') >>= _) p1 = _
  rw [bind_ok (x := matchTok (.ch ',') >>= _) (a := ()) (p' := p2)]
  · rw [bind_ok (match_ok (by rw [j1.lex]; exact j3) (by rw [j1.lex]; exact j4))]
    rfl
  · rw [bind_ok (match_ok (by rw [k1.lex]; exact k3) (by rw [k1.lex]; exact k4)), bind_ok j2]
    rfl

/-- A call with three arguments. -/
theorem call_three {w : CStr} {l l' l'' : List Lexeme} {t t' t'' u : Ty} {a : Expr t} {b : Expr t'} {d : Expr t''} {e : Expr u} (h0 : Phrase .or l a) (h0' : Phrase .or l' b) (h0'' : Phrase .or l'' d)
    (h : Parses .or l a) (h' : Parses .or l' b) (h'' : Parses .or l'' d) {m : Nat} {p : Parser} {lex' : Lex} (hw : WellNamed p.st)
    {f : Builtin} {c c' c'' : Char} {op : Bi} (hb : LB.builtin w = some f) (ht : f.type = u) (he : f.type ≠ .err) (ha : f.args = some [c, c', c'']) (hl : Letter c t) (hl' : Letter c' t')
    (hl'' : Letter c'' t'') (ho : f.opcode = some op)
    (hs : Scans p.lex (.name w :: opTok '(' :: (l ++ opTok ',' :: (l' ++ opTok ',' :: (l'' ++ [opTok ')'])))) lex')
    (h1 : (Lexeme.name w :: opTok '(' :: (l ++ opTok ',' :: (l' ++ opTok ',' :: (l'' ++ [opTok ')'])))).length ≤ m + 1)
    (hc : ∀ st k k' k'', Postfix st a k → Postfix st b k' → Postfix st d k'' → Postfix st e (k ++ k' ++ k'' ++ [.bi op])) (hv : e.vars = a.vars + b.vars + d.vars) :
    ∃ p', Put p e lex' p' ∧ primaryExpression (expressionN m) p = .ok u p' := by
  simp only [List.length_cons, List.length_append, List.length_nil] at h1
  subst ht
  obtain ⟨lex1, hs1, hx⟩ := call_starts (m := m) hs hb he ha (by rintro rfl; rcases hl with h | h <;> exact absurd h.1 (by decide)) ho
  obtain ⟨lex2, lex3, u, p1, k1, k2, k3, k4, k5⟩ := call_arg h (m := m) (p := { p with lex := lex1 }) hl hw hs1 (by omega) h0.pos rfl
  obtain ⟨lex4, lex5, u', p2, j1, j2, j3, j4, j5⟩ := call_arg h' (m := m) (p := { p1 with lex := lex3 }) hl' k1.names k5 (by omega) h0'.pos rfl
  obtain ⟨lex6, lex7, u'', p3, i1, i2, i3, i4, i5⟩ := call_arg h'' (m := m) (p := { p2 with lex := lex5 }) hl'' j1.names j5 (by omega) h0''.pos rfl
  cases i5
  refine ⟨_, k1.moved.three j1 (i1.ahead (lex'' := lex')) (i := .bi op) rfl (fun k k' k'' => hc _ k k' k'') hv, ?_⟩
  rw [hx, bind_ok k2]
  show ((matchTok (.ch ',') >>= fun _ => builtinArg (expressionN m) c' >>= fun _ => matchTok (.ch ',') >>= fun _ => builtinArg (expressionN m) c'' >>= fun _ => pure ()) >>=
    fun _ => matchTok (.ch ')') >>= _) p1 = _
  rw [bind_ok (x := matchTok (.ch ',') >>= _) (a := ()) (p' := p3)]
  · rw [bind_ok (match_ok (by rw [i1.lex]; exact i3) (by rw [i1.lex]; exact i4))]
    rfl
  · rw [bind_ok (match_ok (by rw [k1.lex]; exact k3) (by rw [k1.lex]; exact k4)), bind_ok j2,
      bind_ok (match_ok (by rw [j1.lex]; exact j3) (by rw [j1.lex]; exact j4)), bind_ok i2]
    rfl

theorem typeOf_name (w : CStr) : nameType w = typeOf w := by
  simp only [nameType, typeOf, stringName]
  by_cases h : w.getLast? = some '$' <;> simp [h]

/-- A number as an argument or a subscript. -/
theorem numAt_parses {l : List Lexeme} {e : Expr .num} (h0 : Phrase .or l e) (h : Parses .or l e) {m : Nat} (hl : l.length ≤ m) : NumAt (expressionN m) (fun _ => True) l e := by
  intro p lex' hw _ hs hk
  have := h0.pos
  obtain ⟨m, rfl⟩ : ∃ j, m = j + 1 := ⟨m - 1, by omega⟩
  obtain ⟨p1, hp, hd⟩ := h m (m + 1) p lex' hw hs (by omega) (by omega) (by rw [hk]; decide)
  have hd := or_close hd (by omega) (by rw [hp.lex, hk]; decide)
  refine ⟨p1, ?_, hp⟩
  rw [numericExpression, expressionN, bind_ok hd]
  rfl

/-- An element of an array. -/
theorem elem_primary {w : CStr} {l : List Lexeme} {es : List (Expr .num)} {e : Expr (typeOf w)} {m : Nat} {p : Parser} {lex' : Lex} (h : SubList (NumAt (expressionN m) (fun _ => True)) l es)
    (hes : es.length ≤ 2) (hw : WellNamed p.st) (hb : LB.builtin w = none) (hs : Scans p.lex (.name w :: opTok '(' :: (l ++ [opTok ')'])) lex')
    (hv : e.vars = (es.map Expr.vars).sum + 1)
    (hc : ∀ (st : SymTab) (q : Nat) (s : Symbol) (c : List Inst), SubsCode st es c → st.psym[q]? = some s → SameIgnoringCase s.name w → (s.kind = .unknown ∨ s.kind = .array ∨ s.kind = .def_) → s.type = typeOf w →
      Postfix st e (c ++ [getInst (typeOf w) s.id es.length])) :
    ∃ p', Put p e lex' p' ∧ primaryExpression (expressionN m) p = .ok (typeOf w) p' := by
  obtain ⟨q, s, c, p', h1, h2, h3, h4, h5, h6, h7, h8, _, h9, h10, h11, h12⟩ := identifier_put (k := .unknown) (fun _ _ => trivial) h hes hw trivial hb (.inl rfl) hs
  rw [typeOf_name] at h9
  have hne : es.length ≠ 0 := by cases h <;> simp
  refine ⟨{ p' with bcode := emitInst p'.bcode (getInst (typeOf w) s.id es.length) }, ⟨h2, h3, ⟨c ++ [getInst (typeOf w) s.id es.length], ?_, hc _ q s c h5 h6 h7 h8 h9⟩, h10, h11, hv ▸ h12 fun h => by cases h⟩, ?_⟩
  · simp only [emitInst, h4, List.append_assoc]
    congr 1
    unfold getInst
    split <;> simp [Inst.isData]
  · cases hs with
    | more hc hx hr =>
      rw [primaryExpression, token_bind, if_neg (by rw [hc.1]; decide), if_neg (by rw [hc.1]; decide), if_pos hc.1, bind_ok (x := word) (p := p) rfl]
      rw [hc.2, hb]
      show namePrimary (expressionN m) p = _
      rw [namePrimary, bind_ok h1]
      simp only [bind_apply, sym, h6, ne_eq, hne, not_false_eq_true, if_true, h9, emit, pure_apply, getInst]
      rw [Nat.mod_eq_of_lt (by omega)]

/-- The name of a function that needs no argument. -/
theorem drop_starts {m : Nat} {p : Parser} {w : CStr} {t : Tok} {lex1 : Lex} {b : Builtin} {op : Bi} (hc : Current p.lex (.name w)) (hx : lexNext p.lex = .ok (t, lex1))
    (hb : LB.builtin w = some b) (ht : b.type ≠ .err) (ha : b.args = some ['d']) (ho : b.opcode = some op) :
    primaryExpression (expressionN m) p = (builtinCall (expressionN m) ['d'] >>= fun _ => emit (.bi op) >>= fun _ => pure b.type) { p with lex := lex1 } := by
  rw [primaryExpression, token_bind, if_neg (by rw [hc.1]; decide), if_neg (by rw [hc.1]; decide), if_pos hc.1, bind_ok (x := word) (p := p) rfl]
  rw [hc.2, hb]
  show builtinPrimary (expressionN m) b p = _
  rw [builtinPrimary, if_neg ht, bind_ok (next_ok hx), ha, ho]

theorem put_op {p : Parser} {t : Ty} {e : Expr t} {op : Bi} (hw : WellNamed p.st) (he : ∀ st, Postfix st e [.bi op]) (lex' : Lex) :
    Put p e lex' { p with lex := lex', bcode := emitInst p.bcode (.bi op) } :=
  ⟨rfl, rfl, ⟨[.bi op], by simp [emitInst, Inst.isData], he _⟩, hw, Grows.refl _, Added.refl _⟩

theorem drop_bare {m : Nat} {p : Parser} {w : CStr} {lex' : Lex} {b : Builtin} {op : Bi} {e : Expr b.type} (hw : WellNamed p.st) (hs : Scans p.lex [.name w] lex')
    (hb : LB.builtin w = some b) (ht : b.type ≠ .err) (ha : b.args = some ['d']) (ho : b.opcode = some op) (hf : strength lex'.token < 9)
    (he : ∀ st, Postfix st e [.bi op]) : ∃ p', Put p e lex' p' ∧ primaryExpression (expressionN m) p = .ok b.type p' := by
  cases hs with
  | more hc hx hr =>
    cases hr
    refine ⟨_, put_op hw he lex', ?_⟩
    rw [drop_starts hc hx hb ht ha ho]
    refine (bind_ok (a := ()) (p' := { p with lex := lex' }) ?_).trans rfl
    rw [builtinCall, token_bind, if_neg]
    · rfl
    · intro h
      have h : lex'.token = _ := h
      rw [h] at hf
      exact absurd hf (by decide)

theorem drop_empty {m : Nat} {p : Parser} {w : CStr} {lex' : Lex} {b : Builtin} {op : Bi} {e : Expr b.type} (hw : WellNamed p.st) (hs : Scans p.lex [.name w, opTok '(', opTok ')'] lex')
    (hb : LB.builtin w = some b) (ht : b.type ≠ .err) (ha : b.args = some ['d']) (ho : b.opcode = some op)
    (he : ∀ st, Postfix st e [.bi op]) : ∃ p', Put p e lex' p' ∧ primaryExpression (expressionN m) p = .ok b.type p' := by
  cases hs with
  | @more _ _ _ _ lex1 _ hc hx hr =>
    cases hr with
    | @more _ _ _ t2 lex2 _ hc' hx' hr' =>
      cases hr' with
      | @more _ _ _ t3 lex3 _ hc'' hx'' hr'' =>
        cases hr''
        have hc' : lex1.token = .ch '(' := hc'
        have hc'' : lex2.token = .ch ')' := hc''
        have hx' : lexNext lex1 = .ok (t2, lex2) := hx'
        refine ⟨_, put_op hw he lex', ?_⟩
        rw [drop_starts hc hx hb ht ha ho]
        refine (bind_ok (a := ()) (p' := { p with lex := lex' }) ?_).trans rfl
        rw [builtinCall, token_bind, if_pos hc', bind_ok (next_ok (p := { p with lex := lex1 }) hx'), if_neg (by rw [← lexNext_token hx', hc'']; simp)]
        exact match_ok (p := { p with lex := lex2 }) hc'' hx''

theorem drop_arg {m : Nat} {p : Parser} {w : CStr} {l : List Lexeme} {lex' : Lex} {b : Builtin} {op : Bi} {t : Ty} {a : Expr t} {e : Expr b.type} (h0 : Phrase .or l a) (h : Parses .or l a)
    (hw : WellNamed p.st) (hs : Scans p.lex (.name w :: opTok '(' :: (l ++ [opTok ')'])) lex') (h1 : (Lexeme.name w :: opTok '(' :: (l ++ [opTok ')'])).length ≤ m + 1)
    (hb : LB.builtin w = some b) (ht : b.type ≠ .err) (ha : b.args = some ['d']) (ho : b.opcode = some op)
    (he : ∀ st c, Postfix st a c → Postfix st e (c ++ [popInst t] ++ [.bi op])) (hv : e.vars = a.vars) : ∃ p', Put p e lex' p' ∧ primaryExpression (expressionN m) p = .ok b.type p' := by
  simp only [List.length_cons, List.length_append, List.length_nil] at h1
  cases hs with
  | @more _ _ _ _ lex1 _ hc hx hr =>
    cases hr with
    | @more _ _ _ t2 lex2 _ hc' hx' hr' =>
      have hc' : lex1.token = .ch '(' := hc'
      have hx' : lexNext lex1 = .ok (t2, lex2) := hx'
      obtain ⟨lex3, hs1, hs2⟩ := hr'.split
      cases hs2 with
      | @more _ _ _ u'' lex4 _ hc'' hx'' hr'' =>
        cases hr''
        have hc'' : lex3.token = .ch ')' := hc''
        have := h0.pos
        obtain ⟨m, rfl⟩ : ∃ j, m = j + 1 := ⟨m - 1, by omega⟩
        obtain ⟨p1, hp, hd⟩ := h m (m + 1) { p with lex := lex2 } lex3 hw hs1 (by omega) (by omega) (by rw [hc'']; decide)
        have hd := or_close hd (by omega) (by rw [hp.lex, hc'']; decide)
        obtain ⟨c, k1, k2⟩ := hp.code
        refine ⟨{ p1 with lex := lex', bcode := emitInst (emitInst p1.bcode (popInst t)) (.bi op) },
          ⟨rfl, hp.ifThen, ⟨c ++ [popInst t] ++ [.bi op], ?_, he _ c k2⟩, hp.names, hp.grows, hv ▸ hp.added⟩, ?_⟩
        · simp only [emitInst, k1, List.append_assoc]
          congr 1
          unfold popInst
          split <;> simp [Inst.isData]
        · rw [drop_starts hc hx hb ht ha ho]
          refine (bind_ok (a := ()) (p' := { p1 with lex := lex', bcode := emitInst p1.bcode (popInst t) }) ?_).trans rfl
          rw [builtinCall, token_bind, if_pos hc', bind_ok (next_ok (p := { p with lex := lex1 }) hx'), if_pos]
          · refine (bind_ok (a := ()) (p' := { p1 with bcode := emitInst p1.bcode (popInst t) }) ?_).trans ?_
            · rw [discardExpression, expressionN, bind_ok hd]
              have := h0.type_ne
              cases t with
              | num => rfl
              | str => rfl
              | err => exact absurd rfl this
            · exact match_ok (by show p1.lex.token = _; rw [hp.lex]; exact hc'') (by show lexNext p1.lex = _; rw [hp.lex]; exact hx'')
          · rw [← lexNext_token hx']
            obtain ⟨x, l', rfl, hx3⟩ := h0.opens
            cases hs1 with
            | more hc1 _ _ => exact fun ht => hx3 (current_op hc1 ht (by decide) (by decide) (by decide) (by decide))

theorem numFn_builtin (f : NumFn) : ∃ op, LB.builtin f.name = some ⟨f.name, .num, some ['n'], some op⟩ ∧ f.code = .bi op := by
  cases f <;> refine ⟨_, ?_, rfl⟩ <;> decide

theorem strFn_builtin (f : StrFn) : ∃ op, LB.builtin f.name = some ⟨f.name, .num, some ['s'], some op⟩ ∧ f.code = .bi op := by
  cases f <;> refine ⟨_, ?_, rfl⟩ <;> decide

theorem textFn_builtin (f : TextFn) : ∃ op, LB.builtin f.name = some ⟨f.name, .str, some ['n'], some op⟩ ∧ f.code = .bi op := by
  cases f <;> refine ⟨_, ?_, rfl⟩ <;> decide

theorem endFn_builtin (f : EndFn) : ∃ op, LB.builtin f.name = some ⟨f.name, .str, some ['s', 'n'], some op⟩ ∧ f.code = .bi op := by
  cases f <;> refine ⟨_, ?_, rfl⟩ <;> decide

theorem parses_phrase {v : Level} {l : List Lexeme} {t : Ty} {e : Expr t} (h : Phrase v l e) : Parses v l e := by
  induction h with
  | num =>
    intro m n p lex' hw hs h1 h2 hf
    cases hs with
    | more hc hx hr =>
      cases hr
      refine ⟨{ p with lex := lex', bcode := emitInst p.bcode (.pushNum p.lex.num) },
        ⟨rfl, rfl, ⟨[.pushNum p.lex.num], by simp [emitInst, Inst.isData], hc.2 ▸ .num⟩, hw, Grows.refl _, Added.refl _⟩, ?_⟩
      show primaryExpression _ p = _
      rw [primaryExpression, token_bind, if_pos hc.1, bind_ok (x := num) (p := p) rfl, bind_ok (x := emit _) (p := p) rfl,
        bind_ok (next_ok (p := { p with bcode := emitInst p.bcode (.pushNum p.lex.num) }) hx)]
      rfl
  | str =>
    intro m n p lex' hw hs h1 h2 hf
    cases hs with
    | more hc hx hr =>
      cases hr
      refine ⟨{ p with lex := lex', bcode := emitInst p.bcode (.pushStr p.lex.word) },
        ⟨rfl, rfl, ⟨[.pushStr p.lex.word], by simp [emitInst, Inst.isData], hc.2 ▸ .str⟩, hw, Grows.refl _, Added.refl _⟩, ?_⟩
      show primaryExpression _ p = _
      rw [primaryExpression, token_bind, if_neg (by rw [hc.1]; decide), if_pos hc.1, bind_ok (x := word) (p := p) rfl, bind_ok (x := emit _) (p := p) rfl,
        bind_ok (next_ok (p := { p with bcode := emitInst p.bcode (.pushStr p.lex.word) }) hx)]
      rfl
  | @numVar w hb hd =>
    intro m n p lex' hw hs h1 h2 hf
    cases hs with
    | more hc hx hr =>
      cases hr
      obtain ⟨q, s, p', k1, k2, k3, k4, k5, k6, k7, k8, k9, k10, k11⟩ := name_primary (expr := expressionN m) hw hb hc hx hf
      have ht : nameType w = .num := by simp [nameType, stringName, hd]
      rw [ht] at k1 k4 k8
      refine ⟨p', ⟨k2, k3, ⟨_, k4, by simpa using Postfix.numVar k5 k6 k7 k8⟩, k9, k10, k11⟩, ?_⟩
      show primaryExpression _ p = _
      rw [primaryExpression, token_bind, if_neg (by rw [hc.1]; decide), if_neg (by rw [hc.1]; decide), if_pos hc.1, bind_ok (x := word) (p := p) rfl]
      rw [hc.2, hb]
      exact k1
  | @strVar w hb hd =>
    intro m n p lex' hw hs h1 h2 hf
    cases hs with
    | more hc hx hr =>
      cases hr
      obtain ⟨q, s, p', k1, k2, k3, k4, k5, k6, k7, k8, k9, k10, k11⟩ := name_primary (expr := expressionN m) hw hb hc hx hf
      have ht : nameType w = .str := by simp [nameType, stringName, hd]
      rw [ht] at k1 k4 k8
      refine ⟨p', ⟨k2, k3, ⟨_, k4, by simpa using Postfix.strVar k5 k6 k7 k8⟩, k9, k10, k11⟩, ?_⟩
      show primaryExpression _ p = _
      rw [primaryExpression, token_bind, if_neg (by rw [hc.1]; decide), if_neg (by rw [hc.1]; decide), if_pos hc.1, bind_ok (x := word) (p := p) rfl]
      rw [hc.2, hb]
      exact k1
  | @paren l t e h0 ih =>
    intro m n p lex' hw hs h1 h2 hf
    simp only [List.length_cons, List.length_append, List.length_nil] at h1
    cases hs with
    | @more _ _ _ u lex1 _ hc hx hr =>
      obtain ⟨lex2, hs1, hs2⟩ := hr.split
      cases hs2 with
      | @more _ _ _ u' lex3 _ hc' hx' hr' =>
        cases hr'
        have hc : p.lex.token = .ch '(' := hc
        have hc' : lex2.token = .ch ')' := hc'
        obtain ⟨m, rfl⟩ : ∃ j, m = j + 1 := ⟨m - 1, by omega⟩
        obtain ⟨p1, hp, hd⟩ := ih m (m + 1) { p with lex := lex1 } lex2 hw hs1 (by omega) (by omega) (by rw [hc']; decide)
        have hd := or_close hd (by omega) (by rw [hp.lex, hc']; decide)
        refine ⟨{ p1 with lex := lex' }, ⟨rfl, hp.ifThen, hp.code, hp.names, hp.grows, hp.added⟩, ?_⟩
        show primaryExpression _ p = _
        rw [primaryExpression, token_bind, if_neg (by rw [hc]; decide), if_neg (by rw [hc]; decide), if_neg (by rw [hc]; decide), if_pos hc,
          bind_ok (next_ok hx), expressionN, bind_ok hd]
        have hm : matchTok (.ch ')') p1 = .ok () { p1 with lex := lex' } := by
          rw [matchTok, token_bind, if_neg (by rw [hp.lex, hc']; simp), bind_ok (next_ok (by rw [hp.lex]; exact hx'))]
          rfl
        rw [if_pos h0.type_ne, bind_ok hm]
        rfl
  | @numFn w f l a hn h ih =>
    intro m n p lex' hw hs h1 h2 hf
    obtain ⟨op, k1, k5⟩ := numFn_builtin f
    exact call_one h ih hw ((builtin_same hn).trans k1) rfl (fun h => by cases h) rfl (.inl ⟨rfl, rfl⟩) rfl hs h1 (fun st k hk => k5 ▸ .numFn hk) rfl
  | @strFn w f l a hn h ih =>
    intro m n p lex' hw hs h1 h2 hf
    obtain ⟨op, k1, k5⟩ := strFn_builtin f
    exact call_one h ih hw ((builtin_same hn).trans k1) rfl (fun h => by cases h) rfl (.inr ⟨rfl, rfl⟩) rfl hs h1 (fun st k hk => k5 ▸ .strFn hk) rfl
  | @textFn w f l a hn h ih =>
    intro m n p lex' hw hs h1 h2 hf
    obtain ⟨op, k1, k5⟩ := textFn_builtin f
    exact call_one h ih hw ((builtin_same hn).trans k1) rfl (fun h => by cases h) rfl (.inl ⟨rfl, rfl⟩) rfl hs h1 (fun st k hk => k5 ▸ .textFn hk) rfl
  | @endFn w f l a l' n' hn h h' ih ih' =>
    intro m n p lex' hw hs h1 h2 hf
    obtain ⟨op, k1, k5⟩ := endFn_builtin f
    exact call_two h h' ih ih' hw ((builtin_same hn).trans k1) rfl (fun h => by cases h) rfl (.inr ⟨rfl, rfl⟩) (.inl ⟨rfl, rfl⟩) rfl hs h1 (fun st k k' hk hk' => k5 ▸ .endFn hk hk') rfl
  | @mid w l a l' i l'' n' hn h h' h'' ih ih' ih'' =>
    intro m n p lex' hw hs h1 h2 hf
    exact call_three h h' h'' ih ih' ih'' hw ((builtin_same hn).trans (by decide)) (f := ⟨"MID$".toList, .str, some "snn".toList, some .mid3⟩) rfl (by decide) rfl (.inr ⟨rfl, rfl⟩)
      (.inl ⟨rfl, rfl⟩) (.inl ⟨rfl, rfl⟩) rfl hs h1 (fun st k k' k'' hk hk' hk'' => .mid hk hk' hk'') rfl
  | @elem w l i hb h ih =>
    intro m n p lex' hw hs h1 h2 hf
    simp only [List.length_cons, List.length_append, List.length_nil] at h1
    refine elem_primary (es := [i]) (.one (numAt_parses h ih (by omega))) (by simp) hw hb hs (by simp [Expr.vars]) ?_
    intro st q s c hc k1 k2 k3 k4
    cases hc with
    | cons hc hd => cases hd; simpa using Postfix.elem hc k1 k2 k3 k4 (typeOf_ne w)
  | @elem2 w l i l' j hb h h' ih ih' =>
    intro m n p lex' hw hs h1 h2 hf
    simp only [List.length_cons, List.length_append, List.length_nil] at h1
    refine elem_primary (es := [i, j]) (.more (numAt_parses h ih (by omega)) (.one (numAt_parses h' ih' (by omega)))) (by simp) hw hb (by simpa using hs) (by simp [Expr.vars]) ?_
    intro st q s c hc k1 k2 k3 k4
    cases hc with
    | cons hc hd =>
      cases hd with
      | cons hd hn => cases hn; simpa using Postfix.elem2 hc hd k1 k2 k3 k4 (typeOf_ne w)
  | @rnd w hn =>
    intro m n p lex' hw hs h1 h2 hf
    exact drop_bare (b := ⟨"RND".toList, .num, some ['d'], some .rnd⟩) hw hs ((builtin_same hn).trans (by decide)) (by decide) rfl rfl hf (fun _ => .rnd)
  | @rndEmpty w hn =>
    intro m n p lex' hw hs h1 h2 hf
    exact drop_empty (b := ⟨"RND".toList, .num, some ['d'], some .rnd⟩) hw hs ((builtin_same hn).trans (by decide)) (by decide) rfl rfl (fun _ => .rnd)
  | @rndOf w l t a hn h ih =>
    intro m n p lex' hw hs h1 h2 hf
    exact drop_arg (b := ⟨"RND".toList, .num, some ['d'], some .rnd⟩) (e := Expr.rndOf a) h ih hw hs h1 ((builtin_same hn).trans (by decide)) (by decide) rfl rfl
      (fun _ _ hc => by simpa using Postfix.rndOf h.type_ne hc) rfl
  | @time w hn =>
    intro m n p lex' hw hs h1 h2 hf
    exact drop_bare (b := ⟨"TIME$".toList, .str, some ['d'], some .timeStr⟩) hw hs ((builtin_same hn).trans (by decide)) (by decide) rfl rfl hf (fun _ => .time)
  | @timeEmpty w hn =>
    intro m n p lex' hw hs h1 h2 hf
    exact drop_empty (b := ⟨"TIME$".toList, .str, some ['d'], some .timeStr⟩) hw hs ((builtin_same hn).trans (by decide)) (by decide) rfl rfl (fun _ => .time)
  | @timeOf w l t a hn h ih =>
    intro m n p lex' hw hs h1 h2 hf
    exact drop_arg (b := ⟨"TIME$".toList, .str, some ['d'], some .timeStr⟩) (e := Expr.timeOf a) h ih hw hs h1 ((builtin_same hn).trans (by decide)) (by decide) rfl rfl
      (fun _ _ hc => by simpa using Postfix.timeOf h.type_ne hc) rfl
  | @primary l t e h ih =>
    intro m n p lex' hw hs h1 h2 hf
    have hpos := h.pos
    obtain ⟨p', hp, hd⟩ := ih m n p lex' hw hs h1 h2 (Nat.lt_trans hf (by decide))
    obtain ⟨n, rfl⟩ : ∃ j, n = j + 1 := ⟨n - 1, by omega⟩
    refine ⟨p', hp, ?_⟩
    have hd : primaryExpression (expressionN m) p = .ok t p' := hd
    show powerExpr _ _ p = _
    rw [powerExpr, bind_ok hd, token_bind, if_neg]
    · rfl
    · rintro ⟨_, h⟩
      rw [hp.lex] at h
      rw [h] at hf
      exact absurd hf (by decide)
  | @pow l l' a b h h' ih ih' =>
    intro m n p lex' hw hs h1 h2 hf
    simp only [List.length_append, List.length_cons] at h1 h2
    obtain ⟨lex1, hs1, hs2⟩ := hs.split
    cases hs2 with
    | @more _ _ _ u lex2 _ hc hx hr =>
      have hc : lex1.token = .ch '^' := hc
      have hpos := h.pos
      obtain ⟨n, rfl⟩ : ∃ j, n = j + 1 := ⟨n - 1, by omega⟩
      obtain ⟨p1, hp, hd⟩ := ih m (n + 1) p lex1 hw hs1 (by omega) (by omega) (by rw [hc]; decide)
      obtain ⟨p2, hp', hd'⟩ := ih' m n { p1 with lex := lex2 } lex' hp.names hr (by omega) (by omega) hf
      have hd : primaryExpression (expressionN m) p = .ok .num p1 := hd
      have hd' : powerExpr (expressionN m) n _ = .ok .num p2 := hd'
      refine ⟨_, hp.two hp' (i := .arith .pow) rfl (fun _ _ => .arith) rfl, ?_⟩
      show powerExpr _ _ p = _
      rw [powerExpr, bind_ok hd, token_bind, if_pos ⟨rfl, by rw [hp.lex, hc]⟩, bind_ok (next_ok (by rw [hp.lex]; exact hx)), bind_ok hd']
      rfl
  | @power l t e h ih =>
    intro m n p lex' hw hs h1 h2 hf
    obtain ⟨p', hp, hd⟩ := ih m n p lex' hw hs h1 h2 hf
    refine ⟨p', hp, ?_⟩
    have hd : powerExpr (expressionN m) n p = .ok t p' := hd
    obtain ⟨a, l', rfl, ha, _⟩ := h.head
    cases n with
    | zero => simp at h2
    | succ n =>
      have hk' : countPrefix (.ch '-') (n + 1) 0 p = .ok 0 p := by
        rw [countPrefix, token_bind, if_neg]
        · rfl
        · cases hs with
          | more hc _ _ => exact fun ht => ha (.inr rfl) (current_op hc ht (by decide) (by decide) (by decide) (by decide))
      show negExpr _ _ p = _
      rw [negExpr, bind_ok hk', bind_ok hd]
      rfl
  | @minus k l a h ih =>
    intro m n p lex' hw hs h1 h2 hf
    simp only [List.length_append, List.length_replicate] at h1 h2
    obtain ⟨x, l', rfl, ha, _⟩ := h.head
    have hpos := h.pos
    obtain ⟨lex1, hk, hs1⟩ := count_prefix (t := .ch '-') (n := n) (c := 0) (by decide) (by decide) (by decide) (by decide) hs (ha (.inr rfl)) (by omega)
    obtain ⟨p1, hp, hd⟩ := ih m n { p with lex := lex1 } lex' hw hs1 (by omega) (by omega) hf
    have hd : powerExpr (expressionN m) n _ = .ok .num p1 := hd
    rw [Nat.zero_add] at hk
    have key : ∃ p', Put p (Spec.minus k a) lex' p' ∧ negExpr (expressionN m) n p = .ok .num p' := by
      by_cases hodd : k % 2 = 1
      · refine ⟨{ p1 with bcode := emitInst p1.bcode .neg }, ?_, ?_⟩
        rotate_left
        · rw [negExpr, bind_ok hk, bind_ok hd, if_pos (by omega), if_neg (by simp), if_pos (by omega)]
          rfl
        · rw [Spec.minus, if_pos hodd]
          exact hp.moved.one (i := .neg) rfl (fun _ => .neg) rfl
      · refine ⟨p1, ?_, ?_⟩
        · rw [Spec.minus, if_neg hodd]
          exact hp.moved
        · rw [negExpr, bind_ok hk, bind_ok hd]
          by_cases h0 : k = 0
          · rw [if_neg (by omega)]; rfl
          · rw [if_pos (by omega), if_neg (by simp), if_neg (by omega)]; rfl
    exact key
  | @neg l t e h ih =>
    intro m n p lex' hw hs h1 h2 hf
    have hpos := h.pos
    obtain ⟨p', hp, hd⟩ := ih m n p lex' hw hs h1 h2 (Nat.lt_trans hf (by decide))
    have hd : negExpr (expressionN m) n p = .ok t p' := hd
    refine ⟨p', hp, n, by omega, ?_⟩
    rw [multExpr, bind_ok hd]
  | @mul l l' a b h h' ih ih' =>
    intro m n p lex' hw hs h1 h2 hf
    simp only [List.length_append, List.length_cons] at h1 h2
    obtain ⟨lex1, hs1, hs2⟩ := hs.split
    cases hs2 with
    | @more _ _ _ u lex2 _ hc hx hr =>
      have hc : lex1.token = .ch '*' := hc
      obtain ⟨p1, hp, k, hk, hd⟩ := ih m n p lex1 hw hs1 (by omega) (by omega) (by rw [hc]; decide)
      obtain ⟨k, rfl⟩ : ∃ j, k = j + 1 := ⟨k - 1, by omega⟩
      obtain ⟨p2, hp', hd'⟩ := ih' m n { p1 with lex := lex2 } lex' hp.names hr (by omega) (by omega) (Nat.lt_trans hf (by decide))
      have hd' : negExpr (expressionN m) n _ = .ok .num p2 := hd'
      refine ⟨_, hp.two hp' (i := .arith .mul) rfl (fun _ _ => .arith) rfl, k, by simp; omega, ?_⟩
      rw [hd, multLoop, bind_apply, token_bind, if_pos (.inl (by rw [hp.lex, hc])), bind_ok (next_ok (by rw [hp.lex]; exact hx)), bind_ok hd',
        if_pos ⟨rfl, rfl⟩, if_pos (by rw [hp.lex, hc])]
      rfl
  | @div l l' a b h h' ih ih' =>
    intro m n p lex' hw hs h1 h2 hf
    simp only [List.length_append, List.length_cons] at h1 h2
    obtain ⟨lex1, hs1, hs2⟩ := hs.split
    cases hs2 with
    | @more _ _ _ u lex2 _ hc hx hr =>
      have hc : lex1.token = .ch '/' := hc
      obtain ⟨p1, hp, k, hk, hd⟩ := ih m n p lex1 hw hs1 (by omega) (by omega) (by rw [hc]; decide)
      obtain ⟨k, rfl⟩ : ∃ j, k = j + 1 := ⟨k - 1, by omega⟩
      obtain ⟨p2, hp', hd'⟩ := ih' m n { p1 with lex := lex2 } lex' hp.names hr (by omega) (by omega) (Nat.lt_trans hf (by decide))
      have hd' : negExpr (expressionN m) n _ = .ok .num p2 := hd'
      refine ⟨_, hp.two hp' (i := .arith .div) rfl (fun _ _ => .arith) rfl, k, by simp; omega, ?_⟩
      rw [hd, multLoop, bind_apply, token_bind, if_pos (.inr (by rw [hp.lex, hc])), bind_ok (next_ok (by rw [hp.lex]; exact hx)), bind_ok hd',
        if_pos ⟨rfl, rfl⟩, if_neg (by rw [hp.lex, hc]; decide)]
      rfl
  | @mult l t e h ih =>
    intro m n p lex' hw hs h1 h2 hf
    have hpos := h.pos
    obtain ⟨p', hp, hd⟩ := ih m n p lex' hw hs h1 h2 (Nat.lt_trans hf (by decide))
    have hd := mult_close hd h2 (by rw [hp.lex]; exact hf)
    refine ⟨p', hp, n, by omega, ?_⟩
    rw [addExpr, bind_ok hd]
    cases t <;> rfl
  | @add l l' a b h h' ih ih' =>
    intro m n p lex' hw hs h1 h2 hf
    simp only [List.length_append, List.length_cons] at h1 h2
    obtain ⟨lex1, hs1, hs2⟩ := hs.split
    cases hs2 with
    | @more _ _ _ u lex2 _ hc hx hr =>
      have hc : lex1.token = .ch '+' := hc
      obtain ⟨p1, hp, k, hk, hd⟩ := ih m n p lex1 hw hs1 (by omega) (by omega) (by rw [hc]; decide)
      obtain ⟨k, rfl⟩ : ∃ j, k = j + 1 := ⟨k - 1, by omega⟩
      obtain ⟨p2, hp', hd'⟩ := ih' m n { p1 with lex := lex2 } lex' hp.names hr (by omega) (by omega) (Nat.lt_trans hf (by decide))
      have hd' := mult_close hd' (by omega) (by rw [hp'.lex]; exact hf)
      refine ⟨_, hp.two hp' (i := .arith .add) rfl (fun _ _ => .arith) rfl, k, by simp; omega, ?_⟩
      rw [hd, sumLoop, addLoop, bind_apply, token_bind, if_pos (.inl (by rw [hp.lex, hc])), bind_ok (next_ok (by rw [hp.lex]; exact hx)), bind_ok hd',
        if_neg (by simp), if_pos (by rw [hp.lex, hc])]
      rfl
  | @sub l l' a b h h' ih ih' =>
    intro m n p lex' hw hs h1 h2 hf
    simp only [List.length_append, List.length_cons] at h1 h2
    obtain ⟨lex1, hs1, hs2⟩ := hs.split
    cases hs2 with
    | @more _ _ _ u lex2 _ hc hx hr =>
      have hc : lex1.token = .ch '-' := hc
      obtain ⟨p1, hp, k, hk, hd⟩ := ih m n p lex1 hw hs1 (by omega) (by omega) (by rw [hc]; decide)
      obtain ⟨k, rfl⟩ : ∃ j, k = j + 1 := ⟨k - 1, by omega⟩
      obtain ⟨p2, hp', hd'⟩ := ih' m n { p1 with lex := lex2 } lex' hp.names hr (by omega) (by omega) (Nat.lt_trans hf (by decide))
      have hd' := mult_close hd' (by omega) (by rw [hp'.lex]; exact hf)
      refine ⟨_, hp.two hp' (i := .arith .sub) rfl (fun _ _ => .arith) rfl, k, by simp; omega, ?_⟩
      rw [hd, sumLoop, addLoop, bind_apply, token_bind, if_pos (.inr (by rw [hp.lex, hc])), bind_ok (next_ok (by rw [hp.lex]; exact hx)), bind_ok hd',
        if_neg (by simp), if_neg (by rw [hp.lex, hc]; decide)]
      rfl
  | @concat l l' a b h h' ih ih' =>
    intro m n p lex' hw hs h1 h2 hf
    simp only [List.length_append, List.length_cons] at h1 h2
    obtain ⟨lex1, hs1, hs2⟩ := hs.split
    cases hs2 with
    | @more _ _ _ u lex2 _ hc hx hr =>
      have hc : lex1.token = .ch '+' := hc
      obtain ⟨p1, hp, k, hk, hd⟩ := ih m n p lex1 hw hs1 (by omega) (by omega) (by rw [hc]; decide)
      obtain ⟨k, rfl⟩ : ∃ j, k = j + 1 := ⟨k - 1, by omega⟩
      obtain ⟨p2, hp', hd'⟩ := ih' m n { p1 with lex := lex2 } lex' hp.names hr (by omega) (by omega) (Nat.lt_trans hf (by decide))
      have hd' := mult_close hd' (by omega) (by rw [hp'.lex]; exact hf)
      refine ⟨_, hp.two hp' (i := .concat) rfl (fun _ _ => .concat) rfl, k, by simp; omega, ?_⟩
      rw [hd, sumLoop, concatLoop, bind_apply, token_bind, if_pos (by rw [hp.lex, hc]), bind_ok (next_ok (by rw [hp.lex]; exact hx)), bind_ok hd',
        if_neg (by simp)]
      rfl
  | @sum l t e h ih =>
    intro m n p lex' hw hs h1 h2 hf
    obtain ⟨p', hp, hd⟩ := ih m n p lex' hw hs h1 h2 (Nat.lt_trans hf (by decide))
    have hd := add_close hd h2 (by rw [hp.lex]; exact Nat.lt_trans hf (by decide))
    refine ⟨p', hp, ?_⟩
    show relationalExpression _ _ p = _
    rw [relationalExpression, bind_ok hd, if_neg h.type_ne, token_bind, hp.lex, relop_none hf]
    rfl
  | @cmp l l' a b r h h' ih ih' =>
    intro m n p lex' hw hs h1 h2 hf
    simp only [List.length_append, List.length_cons] at h1 h2
    obtain ⟨lex1, hs1, hs2⟩ := hs.split
    cases hs2 with
    | @more _ _ _ u lex2 _ hc hx hr =>
      have hc : lex1.token = relTok r := hc
      have h4 : strength lex1.token = 4 := by rw [hc]; cases r <;> rfl
      obtain ⟨p1, hp, hd⟩ := ih m n p lex1 hw hs1 (by omega) (by omega) (by rw [h4]; decide)
      have hd := add_close hd (by omega) (by rw [hp.lex, h4]; decide)
      obtain ⟨p2, hp', hd'⟩ := ih' m n { p1 with lex := lex2 } lex' hp.names hr (by omega) (by omega) (Nat.lt_trans hf (by decide))
      have hd' := add_close hd' (by omega) (by rw [hp'.lex]; exact Nat.lt_trans hf (by decide))
      refine ⟨_, hp.two hp' (i := .cmpNum r) rfl (fun _ _ => .cmp) rfl, ?_⟩
      show relationalExpression _ _ p = _
      rw [relationalExpression, bind_ok hd, if_neg (by simp), token_bind, hp.lex, hc, relop_some]
      show (next >>= _) p1 = _
      rw [bind_ok (next_ok (by rw [hp.lex]; exact hx)), bind_ok hd', if_neg (by simp), if_neg (by simp)]
      rfl
  | @cmpStr l l' a b r h h' ih ih' =>
    intro m n p lex' hw hs h1 h2 hf
    simp only [List.length_append, List.length_cons] at h1 h2
    obtain ⟨lex1, hs1, hs2⟩ := hs.split
    cases hs2 with
    | @more _ _ _ u lex2 _ hc hx hr =>
      have hc : lex1.token = relTok r := hc
      have h4 : strength lex1.token = 4 := by rw [hc]; cases r <;> rfl
      obtain ⟨p1, hp, hd⟩ := ih m n p lex1 hw hs1 (by omega) (by omega) (by rw [h4]; decide)
      have hd := add_close hd (by omega) (by rw [hp.lex, h4]; decide)
      obtain ⟨p2, hp', hd'⟩ := ih' m n { p1 with lex := lex2 } lex' hp.names hr (by omega) (by omega) (Nat.lt_trans hf (by decide))
      have hd' := add_close hd' (by omega) (by rw [hp'.lex]; exact Nat.lt_trans hf (by decide))
      refine ⟨_, hp.two hp' (i := .cmpStr r) rfl (fun _ _ => .cmpStr) rfl, ?_⟩
      show relationalExpression _ _ p = _
      rw [relationalExpression, bind_ok hd, if_neg (by simp), token_bind, hp.lex, hc, relop_some]
      show (next >>= _) p1 = _
      rw [bind_ok (next_ok (by rw [hp.lex]; exact hx)), bind_ok hd', if_neg (by simp), if_neg (by simp)]
      rfl
  | @rel l t e h ih =>
    intro m n p lex' hw hs h1 h2 hf
    obtain ⟨p', hp, hd⟩ := ih m n p lex' hw hs h1 h2 hf
    refine ⟨p', hp, ?_⟩
    have hd : relationalExpression (expressionN m) n p = .ok t p' := hd
    obtain ⟨a, l', rfl, _, ha⟩ := h.head
    cases n with
    | zero => simp at h2
    | succ n =>
      have hk' : countPrefix (.kw .NOT) (n + 1) 0 p = .ok 0 p := by
        rw [countPrefix, token_bind, if_neg]
        · rfl
        · cases hs with
          | more hc _ _ => exact fun ht => ha (by simp) (current_op hc ht (by decide) (by decide) (by decide) (by decide))
      show notExpression _ _ p = _
      rw [notExpression, bind_ok hk', bind_ok hd]
      rfl
  | @nots k l a h ih =>
    intro m n p lex' hw hs h1 h2 hf
    simp only [List.length_append, List.length_replicate] at h1 h2
    obtain ⟨x, l', rfl, _, ha⟩ := h.head
    have hpos := h.pos
    obtain ⟨lex1, hk, hs1⟩ := count_prefix (t := .kw .NOT) (n := n) (c := 0) (by decide) (by decide) (by decide) (by decide) hs (ha (by simp)) (by omega)
    obtain ⟨p1, hp, hd⟩ := ih m n { p with lex := lex1 } lex' hw hs1 (by omega) (by omega) hf
    have hd : relationalExpression (expressionN m) n _ = .ok .num p1 := hd
    rw [Nat.zero_add] at hk
    have key : ∃ p', Put p (Spec.nots k a) lex' p' ∧ notExpression (expressionN m) n p = .ok .num p' := by
      by_cases hodd : k % 2 = 1
      · refine ⟨{ p1 with bcode := emitInst p1.bcode .not }, ?_, ?_⟩
        rotate_left
        · rw [notExpression, bind_ok hk, bind_ok hd, if_pos (by omega), if_neg (by simp), if_pos (by omega)]
          rfl
        · rw [Spec.nots, if_pos hodd]
          exact hp.moved.one (i := .not) rfl (fun _ => .not) rfl
      · refine ⟨p1, ?_, ?_⟩
        · rw [Spec.nots, if_neg hodd]
          exact hp.moved
        · rw [notExpression, bind_ok hk, bind_ok hd]
          by_cases h0 : k = 0
          · rw [if_neg (by omega)]; rfl
          · rw [if_pos (by omega), if_neg (by simp), if_neg (by omega)]; rfl
    exact key
  | @not l t e h ih =>
    intro m n p lex' hw hs h1 h2 hf
    have hpos := h.pos
    obtain ⟨p', hp, hd⟩ := ih m n p lex' hw hs h1 h2 (Nat.lt_trans hf (by decide))
    have hd : notExpression (expressionN m) n p = .ok t p' := hd
    refine ⟨p', hp, n, by omega, ?_⟩
    rw [andExpression, bind_ok hd]
  | @and l l' a b h h' ih ih' =>
    intro m n p lex' hw hs h1 h2 hf
    simp only [List.length_append, List.length_cons] at h1 h2
    obtain ⟨lex1, hs1, hs2⟩ := hs.split
    cases hs2 with
    | @more _ _ _ u lex2 _ hc hx hr =>
      have hc : lex1.token = .kw .AND := hc
      obtain ⟨p1, hp, k, hk, hd⟩ := ih m n p lex1 hw hs1 (by omega) (by omega) (by rw [hc]; decide)
      obtain ⟨k, rfl⟩ : ∃ j, k = j + 1 := ⟨k - 1, by omega⟩
      obtain ⟨p2, hp', hd'⟩ := ih' m n { p1 with lex := lex2 } lex' hp.names hr (by omega) (by omega) (Nat.lt_trans hf (by decide))
      have hd' : notExpression (expressionN m) n _ = .ok .num p2 := hd'
      refine ⟨_, hp.two hp' (i := .and) rfl (fun _ _ => .and) rfl, k, by simp; omega, ?_⟩
      rw [hd, andLoop, bind_apply, token_bind, if_pos (by rw [hp.lex, hc]), bind_ok (next_ok (by rw [hp.lex]; exact hx)), bind_ok hd',
        if_pos ⟨rfl, rfl⟩]
      rfl
  | @conj l t e h ih =>
    intro m n p lex' hw hs h1 h2 hf
    have hpos := h.pos
    obtain ⟨p', hp, hd⟩ := ih m n p lex' hw hs h1 h2 (Nat.lt_trans hf (by decide))
    have hd := and_close hd h2 (by rw [hp.lex]; exact hf)
    refine ⟨p', hp, n, by omega, ?_⟩
    rw [orExpression, bind_ok hd]
  | @or l l' a b h h' ih ih' =>
    intro m n p lex' hw hs h1 h2 hf
    simp only [List.length_append, List.length_cons] at h1 h2
    obtain ⟨lex1, hs1, hs2⟩ := hs.split
    cases hs2 with
    | @more _ _ _ u lex2 _ hc hx hr =>
      have hc : lex1.token = .kw .OR := hc
      obtain ⟨p1, hp, k, hk, hd⟩ := ih m n p lex1 hw hs1 (by omega) (by omega) (by rw [hc]; decide)
      obtain ⟨k, rfl⟩ : ∃ j, k = j + 1 := ⟨k - 1, by omega⟩
      obtain ⟨p2, hp', hd'⟩ := ih' m n { p1 with lex := lex2 } lex' hp.names hr (by omega) (by omega) (Nat.lt_trans hf (by decide))
      have hd' := and_close hd' (by omega) (by rw [hp'.lex]; exact hf)
      refine ⟨_, hp.two hp' (i := .or) rfl (fun _ _ => .or) rfl, k, by simp; omega, ?_⟩
      rw [hd, orLoop, bind_apply, token_bind, if_pos (by rw [hp.lex, hc]), bind_ok (next_ok (by rw [hp.lex]; exact hx)), bind_ok hd',
        if_pos ⟨rfl, rfl⟩]
      rfl

end P
end LB
