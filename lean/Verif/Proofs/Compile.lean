import Verif.Proofs.EmitsStmt
/- The code of whole programs. -/
namespace LB
open Code

/-- No instruction between two places marks a line or a branch of IF. -/
def Between (l : List Inst) (i j : Nat) : Prop := ∀ k x, i < k → k < j → l[k]? = some x → inert x = true

/-- Every IF with an ELSE has an ELSE and every ELSE has such an IF, with nothing of the kind between them. -/
structure ElseOk (l : List Inst) : Prop where
  ifs : ∀ i, l[i]? = some .ifElse → ∃ j, i < j ∧ l[j]? = some .else_ ∧ Between l i j
  elses : ∀ j, l[j]? = some .else_ → ∃ i, i < j ∧ l[i]? = some .ifElse ∧ Between l i j

/-- The IF that an ELSE would belong to. -/
def Pending (l : List Inst) (t : Nat) : Prop :=
  t ≠ 0 → l[t]? = some .ifThen ∧ ∀ k x, t < k → l[k]? = some x → inert x = true

theorem ElseOk.append {l e : List Inst} (h : ElseOk l) (he : ∀ x ∈ e, x ≠ .ifElse ∧ x ≠ .else_) : ElseOk (l ++ e) := by
  have low : ∀ i x, (l ++ e)[i]? = some x → x = .ifElse ∨ x = .else_ → i < l.length := by
    intro i x hi hx
    apply Classical.byContradiction
    intro hc
    rw [List.getElem?_append_right (by omega)] at hi
    have := he x (List.mem_of_getElem? hi)
    rcases hx with rfl | rfl
    · exact this.1 rfl
    · exact this.2 rfl
  constructor
  · intro i hi
    have hl := low i _ hi (.inl rfl)
    rw [List.getElem?_append_left hl] at hi
    obtain ⟨j, hij, hj, hb⟩ := h.ifs i hi
    have hjl := (List.getElem?_eq_some_iff.1 hj).1
    refine ⟨j, hij, by rw [List.getElem?_append_left hjl]; exact hj, ?_⟩
    intro k x h1 h2 hk
    rw [List.getElem?_append_left (by omega)] at hk
    exact hb k x h1 h2 hk
  · intro j hj
    have hl := low j _ hj (.inr rfl)
    rw [List.getElem?_append_left hl] at hj
    obtain ⟨i, hij, hi, hb⟩ := h.elses j hj
    refine ⟨i, hij, by rw [List.getElem?_append_left (by omega)]; exact hi, ?_⟩
    intro k x h1 h2 hk
    rw [List.getElem?_append_left (by omega)] at hk
    exact hb k x h1 h2 hk

theorem ElseOk.close {l : List Inst} {t : Nat} (h : ElseOk l) (ht : l[t]? = some .ifThen)
    (hp : ∀ k x, t < k → l[k]? = some x → inert x = true) : ElseOk (l.set t .ifElse ++ [.else_]) := by
  have htl := (List.getElem?_eq_some_iff.1 ht).1
  have hlen : (l.set t .ifElse).length = l.length := List.length_set
  have new : ∀ k x, t < k → k < l.length → (l.set t .ifElse ++ [.else_])[k]? = some x → inert x = true := by
    intro k x h1 h2 hk
    rw [List.getElem?_append_left (by omega), List.getElem?_set_ne (by omega)] at hk
    exact hp k x h1 hk
  have old : ∀ i j, Between l i j → j < l.length → i < j → l[j]? ≠ some .ifThen → l[i]? ≠ some .ifThen →
      Between (l.set t .ifElse ++ [.else_]) i j := by
    intro i j hb hjl hij hj hi k x h1 h2 hk
    rw [List.getElem?_append_left (by omega)] at hk
    by_cases hkt : k = t
    · subst hkt
      have := hb k _ h1 h2 ht
      simp [inert] at this
    · rw [List.getElem?_set_ne (by omega)] at hk
      exact hb k x h1 h2 hk
  constructor
  · intro i hi
    by_cases hil : i < l.length
    · by_cases hit : i = t
      · subst hit
        refine ⟨l.length, htl, by rw [List.getElem?_append_right (by omega), hlen]; simp, ?_⟩
        intro k x h1 h2 hk
        exact new k x h1 h2 hk
      · rw [List.getElem?_append_left (by omega), List.getElem?_set_ne (by omega)] at hi
        obtain ⟨j, hij, hj, hb⟩ := h.ifs i hi
        have hjl := (List.getElem?_eq_some_iff.1 hj).1
        have hjt : j ≠ t := by rintro rfl; rw [ht] at hj; cases hj
        refine ⟨j, hij, ?_, old i j hb hjl hij (by rw [hj]; simp) (by rw [hi]; simp)⟩
        rw [List.getElem?_append_left (by omega), List.getElem?_set_ne (by omega)]
        exact hj
    · rw [List.getElem?_append_right (by omega)] at hi
      have := List.mem_of_getElem? hi
      simp at this
  · intro j hj
    by_cases hjl : j < l.length
    · rw [List.getElem?_append_left (by omega)] at hj
      have hjt : j ≠ t := by
        rintro rfl
        rw [List.getElem?_set_self (by omega)] at hj
        cases hj
      rw [List.getElem?_set_ne (by omega)] at hj
      obtain ⟨i, hij, hi, hb⟩ := h.elses j hj
      have hit : i ≠ t := by rintro rfl; rw [ht] at hi; cases hi
      refine ⟨i, hij, ?_, old i j hb hjl hij (by rw [hj]; simp) (by rw [hi]; simp)⟩
      rw [List.getElem?_append_left (by omega), List.getElem?_set_ne (by omega)]
      exact hi
    · have hjlt := (List.getElem?_eq_some_iff.1 hj).1
      simp only [List.length_append, List.length_set, List.length_singleton] at hjlt
      have hje : j = l.length := by omega
      subst hje
      refine ⟨t, htl, ?_, ?_⟩
      · rw [List.getElem?_append_left (by omega), List.getElem?_set_self (by omega)]
      · intro k x h1 h2 hk
        exact new k x h1 h2 hk

theorem Code.Items.noIf {l : List Inst} (h : Items l) : .ifThen ∉ l := by
  induction h with
  | last hr hi =>
    intro hm
    simp only [List.mem_append, List.mem_cons, List.not_mem_nil, or_false] at hm
    rcases hm with hm | rfl | hm
    · have := hr.isExpr _ hm; cases this
    · cases hi
    · cases hm
  | more hr hi _ ih =>
    intro hm
    simp only [List.mem_append, List.mem_cons] at hm
    rcases hm with hm | rfl | hm | hm
    · have := hr.isExpr _ hm; cases this
    · cases hi
    · cases hm
    · exact ih hm

/-- Where an IF is in a piece of code. -/
theorem Code.Ready.ifThen {T : Nat → Ty → Prop} {r : List Inst} {h : Nat × Nat} (hr : Ready T False r h) {i : Nat}
    (hi : r[i]? = some .ifThen) : ∃ e, r = e ++ [.ifThen] ∧ i = e.length ∧ Runs e h (1, 0) := by
  have hm := List.mem_of_getElem? hi
  cases hr with
  | plain a b =>
    rename_i e x
    by_cases hl : i < e.length
    · rw [List.getElem?_append_left hl] at hi
      have := a.isExpr _ (List.mem_of_getElem? hi)
      cases this
    · rw [List.getElem?_append_right (by omega)] at hi
      have h1 := (List.getElem?_eq_some_iff.1 hi).1
      have h2 := List.mem_of_getElem? hi
      simp only [List.length_singleton, List.mem_singleton] at h1 h2
      subst h2
      exact ⟨e, rfl, by omega, a⟩
  | on a b c =>
    simp only [List.mem_append, List.mem_cons] at hm
    rcases hm with hm | hm | hm
    · have := a.isExpr _ hm; cases this
    · subst hm; rcases b with b | b <;> cases b
    · have := c _ hm; cases this
  | def_ a b c =>
    simp only [List.mem_append, List.mem_cons, List.not_mem_nil, or_false] at hm
    rcases hm with hm | hm | hm | hm
    · cases hm
    · cases hm
    · have := c.isExpr _ hm; cases this
    · cases hm
  | input a =>
    rcases List.mem_cons.1 hm with hm | hm
    · cases hm
    · exact absurd hm a.noIf
  | item a => exact a.elim
  | sep a => exact a.elim
  | inputEnd a => exact a.elim

theorem Code.Pieces.setElse {T : Nat → Ty → Prop} {l : List Inst} (h : Pieces T l) {t : Nat} (ht : l[t]? = some .ifThen) :
    Pieces T (l.set t .ifElse) := by
  induction h generalizing t with
  | nil => simp at ht
  | cons a b ih =>
    rename_i r l
    by_cases hl : t < r.length
    · rw [List.getElem?_append_left hl] at ht
      obtain ⟨e, he, hte, hr⟩ := a.ifThen ht
      rw [List.set_append_left _ _ hl]
      have : r.set t .ifElse = e ++ [.ifElse] := by rw [he, hte]; simp
      rw [this]
      exact .cons (.plain hr rfl) b
    · rw [List.getElem?_append_right (by omega)] at ht
      rw [List.set_append_right _ _ (by omega)]
      exact .cons a (ih ht)

/-- The line marked by an instruction. -/
def lineOf : Inst → Option Nat
  | .sourceLine n => some n
  | _ => none

theorem lineOf_inert {i : Inst} (h : inert i = true) : lineOf i = none := by cases i <;> simp_all [inert, lineOf]

/-- The compiler has translated lines so far, marked with the numbers below `m`. -/
structure Good (m : Nat) (p : Parser) : Prop where
  tab : Tab p.st
  pieces : Pieces (FnTy p.st) p.bcode.inst
  fits : ∀ i ∈ p.bcode.inst, Fits p.st i
  pending : Pending p.bcode.inst p.ifThen
  elses : ElseOk p.bcode.inst
  lines : p.bcode.inst.filterMap lineOf = List.range m

namespace P

/-- `x` keeps the code in order. -/
def Does {α : Type} (m m' : Nat) (x : P α) : Prop :=
  ∀ p, Good m p → match x p with
    | .ok _ p' => Good m' p' ∧ Grown p.st p'.st
    | .err _ p' => Grown p.st p'.st
    | .halt _ => True

theorem Does.bind {α β : Type} {m1 m2 m3 : Nat} {x : P α} {f : α → P β} (hx : Does m1 m2 x) (hf : ∀ a, Does m2 m3 (f a)) :
    Does m1 m3 (x >>= f) := by
  intro p hp
  have h1 := hx p hp
  simp only [bind_apply]
  cases hxp : x p with
  | ok a p' =>
    rw [hxp] at h1
    have h2 := hf a p' h1.1
    simp only
    revert h2
    cases f a p' with
    | ok b p2 => intro h2; exact ⟨h2.1, h1.2.trans h2.2⟩
    | err m p2 => intro h2; exact h1.2.trans h2
    | halt => intro _; trivial
  | err m p' => rw [hxp] at h1; exact h1
  | halt h => trivial

theorem Does.silent {α : Type} {m : Nat} {x : P α} (hx : Silent x) : Does m m x := by
  intro p hp
  have h1 := hx p
  revert h1
  cases x p with
  | ok a p' =>
    rintro ⟨h1, h2, h3⟩
    obtain ⟨lex', bc', st', it'⟩ := p'
    cases h1; cases h2; cases h3
    exact ⟨⟨hp.tab, hp.pieces, hp.fits, hp.pending, hp.elses, hp.lines⟩, Grown.refl hp.tab⟩
  | err a p' => rintro ⟨h1, h2, h3⟩; exact (show Grown p.st p'.st by rw [h1]; exact Grown.refl hp.tab)
  | halt => intro _; trivial

/-- The state after appending inert whole pieces. -/
theorem _root_.LB.Good.append {m : Nat} {p p' : Parser} (hp : Good m p) (hg : Grown p.st p'.st) (hit : p'.ifThen = p.ifThen)
    {e : List Inst} (hb : p'.bcode.inst = p.bcode.inst ++ e) (hf : ∀ i ∈ e, Fits p'.st i ∧ inert i = true)
    (hw : Pieces (FnTy p'.st) e) : Good m p' := by
  refine ⟨hg.tab, ?_, ?_, ?_, ?_, ?_⟩
  · rw [hb]; exact (pieces_grow hg.grows hp.pieces).append hw
  · intro i hi
    rw [hb] at hi
    rcases List.mem_append.1 hi with hi | hi
    · exact Fits.grow hg.grows (hp.fits i hi)
    · exact (hf i hi).1
  · intro ht
    rw [hit] at ht ⊢
    obtain ⟨h1, h2⟩ := hp.pending ht
    have hl := (List.getElem?_eq_some_iff.1 h1).1
    refine ⟨by rw [hb, List.getElem?_append_left hl]; exact h1, ?_⟩
    intro k x hk hx
    rw [hb, List.getElem?_append] at hx
    split at hx
    · exact h2 k x hk hx
    · exact (hf x (List.mem_of_getElem? hx)).2
  · rw [hb]
    refine hp.elses.append fun x hx => ?_
    have := (hf x hx).2
    constructor <;> rintro rfl <;> cases this
  · rw [hb, List.filterMap_append, hp.lines]
    have : e.filterMap lineOf = [] := by
      rw [List.filterMap_eq_nil_iff]
      exact fun x hx => lineOf_inert (hf x hx).2
    rw [this, List.append_nil]

theorem Does.emits {α : Type} {m : Nat} {x : P α} (hx : ∀ st0, Emits st0 x Whole) : Does m m x := by
  intro p hp
  have h1 := hx p.st p (Grown.refl hp.tab)
  revert h1
  cases x p with
  | ok a p' =>
    rintro ⟨hg, hit, e, hb, hf, hw⟩
    exact ⟨hp.append hg hit hb hf hw, hg⟩
  | err a p' => exact _root_.id
  | halt => exact _root_.id

theorem Does.pure {α : Type} {m : Nat} (a : α) : Does m m (Pure.pure a : P α) := .silent (.pure a)
theorem Does.fail {α : Type} {m m' : Nat} (s : String) : Does m m' (P.fail s : P α) := fun _ hp => Grown.refl hp.tab
theorem Does.outOfFuel {α : Type} {m m' : Nat} : Does m m' (P.outOfFuel : P α) := fun _ _ => trivial
theorem Does.ite {α : Type} {m m' : Nat} {c : Prop} [Decidable c] {x y : P α} (hx : Does m m' x) (hy : Does m m' y) :
    Does m m' (if c then x else y) := by split <;> assumption

/-- The result of `x` from `p`. -/
theorem Emits.done {α : Type} {x : P α} {R : SymTab → α → List Inst → Prop} {p : Parser} (hx : Emits p.st x R) (ht : Tab p.st) :
    EmitsAt p (x p) R := hx p (Grown.refl ht)

theorem does_ifStatement {m : Nat} : Does m m ifStatement := by
  intro p hp
  have h1 : EmitsAt p ((do
      matchTok (.kw .IF)
      numericExpression expression
      matchTok (.kw .THEN) : P Unit) p) (Leaves (1, 0)) := by
    refine Emits.done ?_ hp.tab
    skip_quiet
    refine Emits.bind emits_number fun _ e st1 _ r => ?_
    exact .quiet (Silent.matchTok _) fun _ _ _ => by rw [List.append_nil]; exact r
  have heq : ifStatement = ((do
      matchTok (.kw .IF)
      numericExpression expression
      matchTok (.kw .THEN) : P Unit) >>= fun _ => do
      let t ← token
      if t = .num then
        let l ← lineNumber
        emit (.gotrue l)
        setIfThen 0
        pure false
      else
        let i ← here
        emit .ifThen
        setIfThen i
        pure true) := by
    simp only [bind_assoc]; rfl
  rw [heq, bind_apply]
  revert h1
  generalize ((do
      matchTok (.kw .IF)
      numericExpression expression
      matchTok (.kw .THEN) : P Unit) p) = r
  cases r with
  | halt h => intro _; trivial
  | err m p' => intro h; exact h
  | ok k p' =>
    rintro ⟨hg, hit, e, hb, hf, hr⟩
    simp only [bind_apply, token]
    by_cases ht : p'.lex.token = .num
    · simp only [ht, if_true, bind_apply]
      have hl := Silent.lineNumber p'
      revert hl
      cases lineNumber p' with
      | halt h => intro _; trivial
      | err m p2 => rintro ⟨h1, h2, h3⟩; exact (show Grown p.st p2.st by rw [h1]; exact hg)
      | ok l p2 =>
        rintro ⟨h1, h2, h3⟩
        simp only [emit, setIfThen, pure_apply]
        have hg2 : Grown p.st p2.st := by rw [h1]; exact hg
        have : Good m { p2 with bcode := emitInst p2.bcode (.gotrue l), ifThen := p.ifThen } := by
          refine hp.append (p' := { p2 with bcode := emitInst p2.bcode (.gotrue l), ifThen := p.ifThen }) (e := e ++ [.gotrue l]) hg2 rfl ?_ ?_ (Pieces.simple (i := .gotrue l) hr rfl)
          · simp only [emitInst, h2, hb, List.append_assoc]
          · intro i hi
            rcases List.mem_append.1 hi with hi | hi
            · have := hf i hi
              rw [← h1] at this; exact this
            · rw [List.mem_singleton.1 hi]; exact ⟨trivial, rfl⟩
        exact ⟨⟨this.tab, this.pieces, this.fits, fun h => absurd rfl h, this.elses, this.lines⟩, hg2⟩
    · simp only [ht, if_false, bind_apply, here, emit, setIfThen, pure_apply]
      have hw : Pieces (FnTy p'.st) (e ++ [.ifThen]) := Pieces.simple hr rfl
      refine ⟨⟨hg.tab, ?_, ?_, ?_, ?_, ?_⟩, hg⟩
      · simp only [emitInst, hb, List.append_assoc]
        exact (pieces_grow hg.grows hp.pieces).append hw
      · intro i hi
        simp only [emitInst, hb, List.append_assoc] at hi
        rcases List.mem_append.1 hi with hi | hi
        · exact Fits.grow hg.grows (hp.fits i hi)
        · rcases List.mem_append.1 hi with hi | hi
          · exact (hf i hi).1
          · rw [List.mem_singleton.1 hi]; trivial
      · intro _
        simp only [emitInst, Bcode.used]
        refine ⟨by simp, ?_⟩
        intro k x hk hx
        have := (List.getElem?_eq_some_iff.1 hx).1
        simp at this
        omega
      · simp only [emitInst, hb, List.append_assoc]
        refine hp.elses.append fun x hx => ?_
        rcases List.mem_append.1 hx with hx | hx
        · have := (hf x hx).2
          constructor <;> rintro rfl <;> cases this
        · rw [List.mem_singleton.1 hx]; simp
      · simp only [emitInst, hb, List.append_assoc, List.filterMap_append, hp.lines]
        have h1 : e.filterMap lineOf = [] := by
          rw [List.filterMap_eq_nil_iff]
          exact fun x hx => lineOf_inert (hf x hx).2
        rw [h1]
        simp [lineOf]

theorem does_elseClause {m : Nat} : Does m m elseClause := by
  intro p hp
  simp only [elseClause, bind_apply, getIfThen]
  by_cases h0 : p.ifThen = 0
  · simp only [h0, if_true, bind_apply, latest]
    have : Does m m (if isGotrue (bcodeLatest p.bcode) = true then do
        matchTok (.kw .ELSE)
        let n ← lineNumber
        emit (.goto_ n)
        pure false
      else fail "unexpected ELSE" : P Bool) := by
      refine .ite (.emits fun st0 => ?_) (.fail _)
      skip_quiet
      skip_quiet
      exact Emits.whole (.single (fun _ _ => trivial) rfl rfl rfl) fun _ _ _ => .wnil
    exact this p hp
  · simp only [h0, if_false, bind_apply]
    have hl := Silent.matchTok (.kw .ELSE) p
    revert hl
    cases matchTok (.kw .ELSE) p with
    | halt h => intro _; trivial
    | err m p2 => rintro ⟨h1, h2, h3⟩; exact (show Grown p.st p2.st by rw [h1]; exact Grown.refl hp.tab)
    | ok l p2 =>
      rintro ⟨h1, h2, h3⟩
      obtain ⟨lex', bc', st', it'⟩ := p2
      cases h1; cases h2; cases h3
      obtain ⟨ht, hpend⟩ := hp.pending h0
      have htl := (List.getElem?_eq_some_iff.1 ht).1
      have htl' : p.ifThen < p.bcode.used := htl
      simp only [patch, patchInst, htl', if_true, emit, setIfThen, pure_apply]
      refine ⟨⟨hp.tab, ?_, ?_, fun h => absurd rfl h, ?_, ?_⟩, Grown.refl hp.tab⟩
      · exact (hp.pieces.setElse ht).append (Pieces.one (Ready.plain (e := []) (Runs.nil _) rfl))
      · intro i hi
        simp only [emitInst] at hi
        rcases List.mem_append.1 hi with hi | hi
        · rcases List.mem_or_eq_of_mem_set hi with hi | rfl
          · exact hp.fits i hi
          · trivial
        · rw [List.mem_singleton.1 hi]; trivial
      · exact hp.elses.close ht hpend
      · simp only [emitInst, List.filterMap_append]
        have h1 : (p.bcode.inst.set p.ifThen .ifElse).filterMap lineOf = p.bcode.inst.filterMap lineOf := by
          have hsplit : p.bcode.inst = p.bcode.inst.take p.ifThen ++ .ifThen :: p.bcode.inst.drop (p.ifThen + 1) := by
            have := (List.take_append_drop p.ifThen p.bcode.inst).symm
            rw [List.drop_eq_getElem_cons htl] at this
            rw [(List.getElem?_eq_some_iff.1 ht).2] at this
            exact this
          rw [List.set_eq_take_append_cons_drop, if_pos htl]
          conv => rhs; rw [hsplit]
          rw [List.filterMap_append, List.filterMap_append]
          rfl
        rw [h1, hp.lines]
        simp [lineOf]

theorem does_statement {m : Nat} : Does m m statement := by
  unfold statement
  refine .bind (.silent .token) fun t => .bind ?_ fun c => .bind (.silent .token) fun t' => .ite does_elseClause (.pure _)
  by_cases ht : t = .kw .IF
  · subst ht; exact does_ifStatement
  · exact .emits fun _ => emits_statementBody ht

theorem does_completeStatement {m : Nat} (n : Nat) : Does m m (completeStatement n) := by
  induction n with
  | zero => exact .outOfFuel
  | succ n ih => exact .bind does_statement fun _ => .ite ih (.pure _)

theorem does_colonLoop {m : Nat} (f n : Nat) : Does m m (colonLoop f n) := by
  induction n with
  | zero => exact .outOfFuel
  | succ n ih =>
    exact .bind (.silent .token) fun _ => .ite (.bind (.silent .next) fun _ => .bind (does_completeStatement f) fun _ => ih) (.pure _)

theorem does_mark {m : Nat} : Does m (m + 1) (do emit (.sourceLine m); setIfThen 0) := by
  intro p hp
  simp only [bind_apply, emit, setIfThen]
  refine ⟨⟨hp.tab, ?_, ?_, fun h => absurd rfl h, ?_, ?_⟩, Grown.refl hp.tab⟩
  · exact hp.pieces.append (Pieces.one (Ready.plain (e := []) (Runs.nil _) rfl))
  · intro i hi
    simp only [emitInst] at hi
    rcases List.mem_append.1 hi with hi | hi
    · exact hp.fits i hi
    · rw [List.mem_singleton.1 hi]; trivial
  · exact hp.elses.append fun x hx => by rw [List.mem_singleton.1 hx]; simp
  · simp only [emitInst, List.filterMap_append, hp.lines]
    simp [lineOf, List.range_succ]

theorem does_parseLine {m : Nat} (num : Nat) (text : CStr) : Does m (m + 1) (parseLine m num text) := by
  have : parseLine m num text = (do
      startLine num text
      (do emit (.sourceLine m); setIfThen 0)
      let n ← fuel
      completeStatement n
      colonLoop n n
      matchTok (.ch '\n')) := by
    simp only [bind_assoc]; rfl
  rw [this]
  exact .bind (.silent (.startLine _ _)) fun _ => .bind does_mark fun _ => .bind (.silent .fuel) fun _ =>
    .bind (does_completeStatement _) fun _ => .bind (does_colonLoop _ _) fun _ => .silent (.matchTok _)

theorem does_parseLines (ls : List SrcLine) (i : Nat) : Does i (i + ls.length) (parseLines ls i) := by
  induction ls generalizing i with
  | nil => exact .pure _
  | cons l ls ih =>
    have : i + (l :: ls).length = (i + 1) + ls.length := by simp only [List.length_cons]; omega
    rw [this]
    exact .bind (does_parseLine _ _) fun _ => ih (i + 1)

end P

/-- What the compiler makes of a program: code in order for the symbols of the table. -/
structure Compiled (st : SymTab) (bc : Bcode) (n : Nat) : Prop where
  pieces : Pieces (FnTy st) bc.inst
  fits : ∀ i ∈ bc.inst, Fits st i
  elses : ElseOk bc.inst
  lines : bc.inst.filterMap lineOf = List.range n

theorem unknownArray_get (st : SymTab) (q : Nat) :
    (symMakeUnknownArray st).psym[q]? = (st.psym[q]?).map (fun s => if s.kind = .unknown then { s with kind := .array } else s) := by
  simp [symMakeUnknownArray]

theorem Tab.unknownArray {st : SymTab} (h : Tab st) : Grown st (symMakeUnknownArray st) := by
  have key : ∀ (q : Nat) (s : Symbol), (symMakeUnknownArray st).psym[q]? = some s →
      ∃ s0, st.psym[q]? = some s0 ∧ s.id = s0.id ∧ s.type = s0.type ∧ s.name = s0.name ∧
        (s.kind = s0.kind ∨ s0.kind = .unknown ∧ s.kind = .array) := by
    intro q s hs
    rw [unknownArray_get] at hs
    cases h0 : st.psym[q]? with
    | none => rw [h0] at hs; cases hs
    | some s0 =>
      rw [h0] at hs
      simp only [Option.map_some, Option.some.injEq] at hs
      refine ⟨s0, rfl, ?_⟩
      subst hs
      by_cases hu : s0.kind = .unknown <;> simp [hu]
  refine ⟨⟨?_, ?_, ?_, ?_⟩, ?_⟩
  · intro q s hs
    obtain ⟨s0, h0, hi, _⟩ := key q s hs
    rw [hi]; exact h.ids q s0 h0
  · simp only [symMakeUnknownArray, List.length_map]; exact h.next
  · intro q s hs hb
    obtain ⟨s0, h0, hi, ht, hn, hk⟩ := key q s hs
    rw [ht, hn]
    refine h.type q s0 h0 ?_
    rcases hk with hk | ⟨hk, _⟩
    · rw [← hk]; exact hb
    · rw [hk]; simp
  · intro q s hs hb
    obtain ⟨s0, h0, hi, ht, hn, hk⟩ := key q s hs
    rw [hn]
    refine h.builtin q s0 h0 ?_
    rcases hk with hk | ⟨_, hk⟩
    · rw [← hk]; exact hb
    · rw [hb] at hk; cases hk
  · intro q s hs
    refine ⟨if s.kind = .unknown then { s with kind := .array } else s, by rw [unknownArray_get, hs]; rfl, ?_⟩
    by_cases hu : s.kind = .unknown <;> simp [hu]

/-- Compiling only adds names, and code that is accepted is in order. -/
theorem parseSource_compiled {src : Source} {st st' : SymTab} {pre : Bool} {r : Option Bcode} (ht : Tab st)
    (h : parseSource src st pre = .ok (r, st')) :
    Grown st st' ∧ (∀ (q : Nat) (s : Symbol), st'.psym[q]? = some s → s.kind ≠ .unknown) ∧ ∀ bc, r = some bc → Compiled st' bc src.lines.length := by
  unfold parseSource at h
  have hd := P.does_parseLines src.lines 0 { lex := newLex pre, bcode := newBcode, st := st, ifThen := 0 }
    ⟨ht, .nil, by simp [newBcode], fun h => absurd rfl h, ⟨by simp [newBcode], by simp [newBcode]⟩, by simp [newBcode]⟩
  have hk : ∀ (st : SymTab) (q : Nat) (s : Symbol), (symMakeUnknownArray st).psym[q]? = some s → s.kind ≠ .unknown := by
    intro st q s hs
    rw [unknownArray_get] at hs
    cases h0 : st.psym[q]? with
    | none => rw [h0] at hs; cases hs
    | some s0 =>
      rw [h0] at hs
      simp only [Option.map_some, Option.some.injEq] at hs
      subst hs
      by_cases hu : s0.kind = .unknown <;> simp [hu]
  revert hd h
  cases P.parseLines src.lines 0 { lex := newLex pre, bcode := newBcode, st := st, ifThen := 0 } with
  | halt h => intro h; cases h
  | err m p =>
    intro h hd
    simp only [Outcome.ok.injEq, Prod.mk.injEq] at h
    obtain ⟨rfl, rfl⟩ := h
    exact ⟨hd.trans hd.tab.unknownArray, hk _, fun bc h => by cases h⟩
  | ok a p =>
    intro h hd
    simp only [Outcome.ok.injEq, Prod.mk.injEq] at h
    obtain ⟨rfl, rfl⟩ := h
    obtain ⟨hd, hg⟩ := hd
    have hu := hd.tab.unknownArray
    refine ⟨hg.trans hu, hk _, fun bc h => ?_⟩
    cases h
    refine ⟨pieces_grow hu.grows hd.pieces, fun i hi => Fits.grow hu.grows (hd.fits i hi), hd.elses, ?_⟩
    have := hd.lines
    rw [Nat.zero_add] at this
    exact this

end LB
