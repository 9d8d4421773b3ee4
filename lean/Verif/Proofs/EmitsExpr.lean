import Verif.Proofs.Emits
import Verif.Proofs.Basics
/- The code of expressions. -/
namespace LB
open Code

theorem tolower_dollar (c : Char) : tolower c = '$' ↔ c = '$' := by
  constructor
  · intro hc
    unfold tolower at hc
    split at hc
    · rename_i hu
      exfalso
      simp only [isupper, decide_eq_true_eq] at hu
      have h2 : (Char.ofNat (c.toNat + 32)).toNat = 36 := by rw [hc]; rfl
      rw [toNat_ofNat_lt (by omega)] at h2
      omega
    · exact hc
  · rintro rfl; rfl

theorem stringName_same {a b : CStr} (h : strcasecmp a b = 0) : stringName a = stringName b := by
  have h0 := (strcasecmp_eq_zero a b).1 h
  have h1 : a.getLast?.map tolower = b.getLast?.map tolower := by
    rw [← List.getLast?_map, ← List.getLast?_map, h0]
  unfold stringName
  cases ha : a.getLast? with
  | none => cases hb : b.getLast? with
    | none => rfl
    | some y => rw [ha, hb] at h1; simp at h1
  | some x => cases hb : b.getLast? with
    | none => rw [ha, hb] at h1; simp at h1
    | some y =>
      rw [ha, hb] at h1
      simp only [Option.map_some, Option.some.injEq] at h1
      have : (x = '$') ↔ (y = '$') := by rw [← tolower_dollar x, ← tolower_dollar y, h1]
      by_cases hx : x = '$'
      · rw [hx, this.1 hx]
      · have hy : y ≠ '$' := fun hy => hx (this.2 hy)
        rw [beq_eq_false_iff_ne.2 (by simpa using hx), beq_eq_false_iff_ne.2 (by simpa using hy)]

theorem lookup_some {st : SymTab} {name : CStr} {paren : Bool} {q : Nat} (h : symLookup st name paren = some q) :
    ∃ s, st.psym[q]? = some s ∧ matchParen s.kind paren = true ∧ strcasecmp s.name name = 0 := by
  have h1 := List.find?_some h
  simp only [symMatches] at h1
  split at h1
  · cases h1
  · rename_i s hs
    simp only [Bool.and_eq_true, beq_iff_eq] at h1
    exact ⟨s, hs, h1.1, h1.2⟩

theorem Tab.insert {st : SymTab} (h : Tab st) (name : CStr) (kind : SymKind) (hk : kind ≠ .builtin) (d : Bool) :
    Grown st (symInsert st name kind (nameType name) d).1 := by
  have key : ∀ (q : Nat) (s : Symbol), (symInsert st name kind (nameType name) d).1.psym[q]? = some s →
      st.psym[q]? = some s ∨ q = st.psym.length ∧
        s = { name := name, id := st.nextId, kind := kind, type := nameType name, defined := d } := by
    intro q s hs
    simp only [symInsert] at hs
    rw [List.getElem?_append] at hs
    split at hs
    · exact .inl hs
    · rename_i hl
      right
      have : q - st.psym.length = 0 := by
        have := (List.getElem?_eq_some_iff.1 hs).1
        simp only [List.length_singleton] at this
        omega
      rw [this] at hs
      simp only [List.getElem?_cons_zero, Option.some.injEq] at hs
      exact ⟨by omega, hs.symm⟩
  refine ⟨⟨?_, ?_, ?_, ?_⟩, ?_⟩
  · intro q s hs
    rcases key q s hs with hs | ⟨hq, rfl⟩
    · exact h.ids q s hs
    · rw [hq]; exact h.next
  · simp only [symInsert, u16, List.length_append, List.length_singleton]
    rw [h.next]; omega
  · intro q s hs hb
    rcases key q s hs with hs | ⟨hq, rfl⟩
    · exact h.type q s hs hb
    · rfl
  · intro q s hs hb
    rcases key q s hs with hs | ⟨hq, rfl⟩
    · exact h.builtin q s hs hb
    · exact absurd hb hk
  · intro q s hs
    refine ⟨s, ?_, rfl, rfl, rfl, .inl rfl⟩
    simp only [symInsert]
    rw [List.getElem?_append_left (List.getElem?_eq_some_iff.1 hs).1]
    exact hs

theorem inserted (st : SymTab) (name : CStr) (kind : SymKind) (t : Ty) (d : Bool) :
    (symInsert st name kind t d).1.psym[(symInsert st name kind t d).2]? =
      some { name := name, id := st.nextId, kind := kind, type := t, defined := d } := by
  simp [symInsert]

theorem Tab.setKind {st : SymTab} (h : Tab st) {q : Nat} {s : Symbol} (hs : st.psym[q]? = some s) (hu : s.kind = .unknown)
    (kind : SymKind) (hk : kind = .unknown ∨ kind = .array ∨ kind = .def_) :
    Grown st (symUpdate st q (fun s => { s with kind := kind })) ∧
      (symUpdate st q (fun s => { s with kind := kind })).psym[q]? = some { s with kind := kind } := by
  have key : ∀ (r : Nat) (t : Symbol), (symUpdate st q (fun s => { s with kind := kind })).psym[r]? = some t →
      ∃ t0, st.psym[r]? = some t0 ∧ t.id = t0.id ∧ t.type = t0.type ∧ t.name = t0.name ∧
        (t.kind = t0.kind ∨ t0.kind = .unknown ∧ t.kind = kind) := by
    intro r t ht
    simp only [symUpdate, List.getElem?_modify] at ht
    cases hr : st.psym[r]? with
    | none => rw [hr] at ht; simp at ht
    | some t0 =>
      rw [hr] at ht
      simp only [Option.map_eq_map, Option.map_some, Option.some.injEq] at ht
      refine ⟨t0, rfl, ?_⟩
      by_cases hqr : q = r
      · subst hqr
        rw [if_pos rfl] at ht
        rw [hs] at hr
        cases hr
        subst ht
        exact ⟨rfl, rfl, rfl, .inr ⟨hu, rfl⟩⟩
      · rw [if_neg hqr] at ht
        subst ht
        exact ⟨rfl, rfl, rfl, .inl rfl⟩
  refine ⟨⟨⟨?_, ?_, ?_, ?_⟩, ?_⟩, ?_⟩
  · intro r t ht
    obtain ⟨t0, h0, i0, _⟩ := key r t ht
    rw [i0]; exact h.ids r t0 h0
  · simp only [symUpdate, List.length_modify]; exact h.next
  · intro r t ht hb
    obtain ⟨t0, h0, i0, t1, n1, k1⟩ := key r t ht
    rw [t1, n1]
    apply h.type r t0 h0
    intro hb0
    rcases k1 with k1 | ⟨k1, k2⟩
    · rw [hb0] at k1; exact hb k1
    · rw [hb0] at k1; cases k1
  · intro r t ht hb
    obtain ⟨t0, h0, i0, t1, n1, k1⟩ := key r t ht
    rw [n1]
    apply h.builtin r t0 h0
    rcases k1 with k1 | ⟨k1, k2⟩
    · rw [← k1]; exact hb
    · rw [hb] at k2; rcases hk with hk | hk | hk <;> rw [hk] at k2 <;> cases k2
  · intro r t ht
    by_cases hqr : q = r
    · subst hqr
      rw [hs] at ht
      cases ht
      refine ⟨{ s with kind := kind }, ?_, rfl, rfl, rfl, ?_⟩
      · simp [symUpdate, hs]
      · rcases hk with hk | hk | hk
        · left; rw [hu, hk]
        · exact .inr ⟨hu, .inl hk⟩
        · exact .inr ⟨hu, .inr hk⟩
    · refine ⟨t, ?_, rfl, rfl, rfl, .inl rfl⟩
      simp [symUpdate, hqr, ht]
  · simp [symUpdate, hs]

namespace P

/-- The symbol found for a name. -/
def Named (st : SymTab) (name : CStr) (q params : Nat) (kind : SymKind) : Prop :=
  ∃ s : Symbol, st.psym[q]? = some s ∧ strcasecmp s.name name = 0 ∧ (s.kind = .builtin → (LB.builtin name).isSome) ∧
    (params = 0 → s.kind = .variable ∨ s.kind = .builtin) ∧
    (params ≠ 0 → (kind = .array → s.kind = .array) ∧ (kind = .unknown → s.kind ≠ .variable))

theorem Named.grow {st st' : SymTab} {name : CStr} {q params : Nat} {kind : SymKind} (h : Named st name q params kind)
    (hg : Grows st st') : Named st' name q params kind := by
  obtain ⟨s, hs, h1, h2, h3, h4⟩ := h
  obtain ⟨s', hs', hi, hty, hnm, hkd⟩ := hg q s hs
  refine ⟨s', hs', by rw [hnm]; exact h1, ?_, ?_, ?_⟩
  · intro hb
    apply h2
    rcases hkd with hkd | ⟨_, hkd | hkd⟩
    · rw [← hkd]; exact hb
    · rw [hkd] at hb; cases hb
    · rw [hkd] at hb; cases hb
  · intro h0
    rcases hkd with hkd | ⟨hkd, _⟩
    · rw [hkd]; exact h3 h0
    · rcases h3 h0 with h | h <;> rw [h] at hkd <;> cases hkd
  · intro h0
    obtain ⟨ha, hb⟩ := h4 h0
    constructor
    · intro h
      rcases hkd with hkd | ⟨hkd, _⟩
      · rw [hkd]; exact ha h
      · rw [ha h] at hkd; cases hkd
    · intro h
      rcases hkd with hkd | ⟨hkd, hkd' | hkd'⟩
      · rw [hkd]; exact hb h
      · rw [hkd']; simp
      · rw [hkd']; simp

theorem builtin_found {st : SymTab} (h : Tab st) {q : Nat} {s : Symbol} {name : CStr} (hs : st.psym[q]? = some s)
    (hn : strcasecmp s.name name = 0) (hb : s.kind = .builtin) : (LB.builtin name).isSome := by
  obtain ⟨b, hb1, hb2⟩ := h.builtin q s hs hb
  unfold LB.builtin
  rw [List.find?_isSome]
  exact ⟨b, hb1, by rw [hb2, hn]; rfl⟩

theorem strcasecmp_self (a : CStr) : strcasecmp a a = 0 := (strcasecmp_eq_zero a a).2 rfl

theorem emits_resolve {st0 : SymTab} (name : CStr) (params : Nat) (kind : SymKind) (hk : kind = .unknown ∨ kind = .array) :
    Emits st0 (resolve name params kind) (fun st q e => e = [] ∧ Named st name q params kind) := by
  intro p hp
  have ht := hp.tab
  simp only [resolve, bind_apply, lookup]
  cases hf : symLookup p.st name (params != 0) with
  | some q =>
    obtain ⟨s, hs, hm, hn⟩ := lookup_some hf
    simp only [bind_apply, sym, hs]
    have hb := builtin_found ht hs hn
    by_cases hp0 : params = 0
    · simp only [hp0, ne_eq, not_true_eq_false, if_false, pure_apply]
      refine ⟨Grown.refl ht, rfl, [], by simp, by simp, rfl, s, hs, hn, hb, ?_, by simp⟩
      intro _
      subst hp0
      revert hm
      cases s.kind <;> simp [matchParen]
    · simp only [ne_eq, hp0, not_false_eq_true, if_true]
      by_cases hu : s.kind = .unknown
      · simp only [hu, if_true, bind_apply, setKind, pure_apply]
        obtain ⟨g, hq⟩ := ht.setKind hs hu kind (by rcases hk with h | h <;> simp [h])
        refine ⟨g, rfl, [], by simp, by simp, rfl, _, hq, hn, ?_, by simp [hp0], ?_⟩
        · intro h; simp only at h; rcases hk with hk | hk <;> rw [hk] at h <;> cases h
        · intro _
          simp only
          exact ⟨_root_.id, fun h => by rw [h]; simp⟩
      · simp only [hu, if_false]
        by_cases hc : kind ≠ .unknown ∧ s.kind ≠ kind
        · simp only [hc, not_false_eq_true, and_self, if_true, fail]
          exact Grown.refl ht
        · rw [if_neg (by simpa using hc)]
          refine ⟨Grown.refl ht, rfl, [], by simp, by simp, rfl, s, hs, hn, hb, by simp [hp0], ?_⟩
          intro _
          constructor
          · intro h
            subst h
            simpa using hc
          · intro _ h
            rw [h] at hm
            simp [matchParen, hp0] at hm
  | none =>
    simp only [insert]
    have g := ht.insert name (if params ≠ 0 then kind else .variable) (by
      split
      · rcases hk with hk | hk <;> rw [hk] <;> simp
      · simp) false
    refine ⟨g, rfl, [], by simp, by simp, rfl, _, inserted _ _ _ _ _, strcasecmp_self _, ?_, ?_, ?_⟩
    · simp only
      split
      · rcases hk with hk | hk <;> rw [hk] <;> simp
      · simp
    · intro h; simp [h]
    · intro h; simp only [ne_eq, h, not_false_eq_true, if_true]
      exact ⟨_root_.id, fun h => by rw [h]; simp⟩

/-- Steps over the parts of a parsing function that only read. -/
macro "quiet" : tactic => `(tactic| with_reducible first
  | exact Silent.token | exact Silent.word | exact Silent.num | exact Silent.next | exact Silent.matchTok _
  | exact Silent.fuel | exact Silent.here | exact Silent.eos | exact Silent.lineNumber | exact Silent.nextData
  | exact Silent.countPrefix _ _ _)
/-- Passes one reading step. -/
macro "skip_quiet" : tactic => `(tactic| refine Emits.silent (by quiet) fun _ => ?_)

/-- The code of an expression of the type it returns. -/
def Yields (_ : SymTab) (t : Ty) (e : List Inst) : Prop := Runs e (0, 0) (unit t)

/-- The code of something that leaves these numbers and strings. -/
def Leaves (h : Nat × Nat) (_ : SymTab) (_ : Unit) (e : List Inst) : Prop := Runs e (0, 0) h

/-- `expr` compiles expressions, whatever the table. -/
def IsExprP (expr : P Ty) : Prop := ∀ st0, Emits st0 expr Yields

variable {expr : P Ty} (he : IsExprP expr)
include he

theorem emits_numericExpression {st0 : SymTab} : Emits st0 (numericExpression expr) (Leaves (1, 0)) := by
  unfold numericExpression
  refine Emits.bind (he st0) fun t e st1 hg r => ?_
  refine Emits.ite (fun _ => .fail) fun h => .pure fun st hs => ?_
  simp only [Classical.not_not] at h
  subst h
  rw [List.append_nil]; exact r

theorem emits_stringExpression {st0 : SymTab} : Emits st0 (stringExpression expr) (Leaves (0, 1)) := by
  unfold stringExpression
  refine Emits.bind (he st0) fun t e st1 hg r => ?_
  refine Emits.ite (fun _ => .fail) fun h => .pure fun st hs => ?_
  simp only [Classical.not_not] at h
  subst h
  rw [List.append_nil]; exact r

theorem emits_discardExpression {st0 : SymTab} : Emits st0 (discardExpression expr) (Leaves (0, 0)) := by
  unfold discardExpression
  refine Emits.bind (he st0) fun t e st1 hg r => ?_
  cases t with
  | num => exact .emit fun st hs => ⟨trivial, rfl, r.append (.one rfl (by decide) (by decide))⟩
  | str => exact .emit fun st hs => ⟨trivial, rfl, r.append (.one rfl (by decide) (by decide))⟩
  | err => exact .pure fun st hs => by rw [List.append_nil]; exact Runs.less r (by simp) (by simp)

/-- What an argument of a built-in function leaves. -/
def argSize (c : Char) : Nat × Nat := if c = 'n' then (1, 0) else (0, 1)

theorem emits_builtinArg {st0 : SymTab} (c : Char) : Emits st0 (builtinArg expr c) (Leaves (argSize c)) := by
  unfold builtinArg argSize
  split
  · exact emits_numericExpression he
  · split
    · exact emits_stringExpression he
    · exact .fail

/-- What the arguments of a built-in function leave. -/
def argsSize : List Char → Nat × Nat
  | [] => (0, 0)
  | c :: cs => ((argSize c).1 + (argsSize cs).1, (argSize c).2 + (argsSize cs).2)

theorem emits_builtinArgs {st0 : SymTab} (cs : List Char) : Emits st0 (builtinArgs expr cs) (Leaves (argsSize cs)) := by
  induction cs generalizing st0 with
  | nil => exact .pure fun st hs => Runs.nil _
  | cons c cs ih =>
    unfold builtinArgs
    skip_quiet
    refine Emits.bind (emits_builtinArg he c) fun _ e1 st1 hg1 r1 => ?_
    refine Emits.imp ih fun st a e2 _ r2 => ?_
    have := Runs.append r1 (Runs.more (Runs.frame (argSize c).1 (argSize c).2 r2) (Nat.le_of_eq (by simp)) (Nat.le_of_eq (by simp)))
    simp only [Leaves, argsSize]
    rw [Nat.add_comm (argSize c).1, Nat.add_comm (argSize c).2]
    exact this

theorem emits_subscripts {st0 : SymTab} (n count : Nat) :
    Emits st0 (subscripts expr n count) (fun _ k e => ∃ m, k = count + m ∧ 0 < m ∧ Runs e (0, 0) (m, 0)) := by
  induction n generalizing st0 count with
  | zero => exact .outOfFuel
  | succ n ih =>
    unfold subscripts
    skip_quiet
    refine Emits.bind (emits_numericExpression he) fun _ e1 st1 hg1 r1 => ?_
    skip_quiet
    refine Emits.ite (fun _ => ?_) (fun _ => ?_)
    · refine Emits.imp (ih (count + 1)) fun st k e2 _ r2 => ?_
      obtain ⟨m, hm, h0, r2⟩ := r2
      refine ⟨m + 1, by omega, by omega, ?_⟩
      have := Runs.append r1 (Runs.frame 1 0 r2)
      exact this
    · exact .pure fun st hs => ⟨1, rfl, by omega, by rw [List.append_nil]; exact r1⟩

theorem emitsAt_identifier {kind : SymKind} (hk : kind = .unknown ∨ kind = .array) (p : Parser) (ht : Tab p.st) :
    EmitsAt p (identifier expr kind p)
      (fun st r e => Named st p.lex.word r.1 r.2 kind ∧ Runs e (0, 0) (r.2, 0) ∧ (r.2 = 0 → e = [])) := by
  have last : ∀ (name : CStr) (k : Nat) (e1 : List Inst) (st1 : SymTab), Runs e1 (0, 0) (k, 0) →
      (k = 0 → e1 = []) → Emits st1 (do let q ← resolve name k kind; pure (q, k))
        (fun st r e => Named st name r.1 r.2 kind ∧ Runs (e1 ++ e) (0, 0) (r.2, 0) ∧ (r.2 = 0 → e1 ++ e = [])) := by
    intro name k e1 st1 r1 z1
    refine Emits.bind (emits_resolve name k kind hk) fun q e2 st2 hg2 r2 => ?_
    obtain ⟨rfl, r2⟩ := r2
    refine .pure fun st hs => ⟨r2.grow hs.grows, by simpa using r1, by simpa using z1⟩
  have key : ∀ name : CStr, Emits p.st (do
      matchTok .id
      let t ← token
      if t = .ch '(' then do
        let n ← fuel
        let k ← subscripts expr n 0
        matchTok (.ch ')')
        let q ← resolve name k kind
        pure (q, k)
      else do
        let q ← resolve name 0 kind
        pure (q, 0)) (fun st r e => Named st name r.1 r.2 kind ∧ Runs e (0, 0) (r.2, 0) ∧ (r.2 = 0 → e = [])) := by
    intro name
    skip_quiet
    skip_quiet
    refine Emits.ite (fun _ => ?_) (fun _ => last name 0 [] _ (Runs.nil _) (fun _ => rfl))
    skip_quiet
    refine Emits.bind (emits_subscripts he _ _) fun k e1 st1 hg1 r1 => ?_
    skip_quiet
    obtain ⟨m, hm, h0, r1⟩ := r1
    exact last name k e1 _ (by rw [hm]; simpa using r1) (by omega)
  exact key p.lex.word p (Grown.refl ht)

theorem emits_identifier {st0 : SymTab} {kind : SymKind} (hk : kind = .unknown ∨ kind = .array) :
    Emits st0 (identifier expr kind)
      (fun st r e => (∃ name, Named st name r.1 r.2 kind) ∧ Runs e (0, 0) (r.2, 0) ∧ (r.2 = 0 → e = [])) := by
  intro p hp
  have h := emitsAt_identifier he hk p hp.tab
  revert h
  cases identifier expr kind p with
  | ok a p' => rintro ⟨g, it, e, h1, h2, h3, h4⟩; exact ⟨g, it, e, h1, h2, ⟨_, h3⟩, h4⟩
  | err m p' => exact _root_.id
  | halt h => exact _root_.id

omit he in
/-- An identity read from the table. -/
theorem ident_of {st : SymTab} {q : Nat} {s : Symbol} {f : Symbol → Prop} (h : st.psym[q]? = some s) (hf : f s) :
    Ident st s.id f := ⟨q, s, h, rfl, hf⟩

theorem emits_simpleVariable {st0 : SymTab} :
    Emits st0 (simpleVariable expr) (fun st q e => e = [] ∧ ∃ s, st.psym[q]? = some s ∧ s.kind = .variable) := by
  unfold simpleVariable
  refine Emits.bind (emits_identifier he (.inl rfl)) fun r e st1 hg1 h1 => ?_
  obtain ⟨⟨name, hn⟩, _, h1⟩ := h1
  refine Emits.sym fun s st2 hg2 hs => ?_
  refine Emits.ite (fun _ => .fail) fun h => .pure fun st hs3 => ?_
  simp only [ne_eq, Classical.not_not] at h
  have hz : r.2 = 0 := by
    obtain ⟨s1, hs1, _, _, _, h4⟩ := hn.grow hg2.grows
    rw [hs] at hs1; cases hs1
    apply Classical.byContradiction
    intro hc
    exact (h4 hc).2 rfl h
  obtain ⟨s', hs', _, _, _, hk⟩ := hs3.grows _ _ hs
  refine ⟨by rw [List.append_nil]; exact h1 hz, s', hs', ?_⟩
  rcases hk with hk | ⟨hk, _⟩
  · rw [hk, h]
  · rw [h] at hk; cases hk

omit he in
theorem Grows.var {st st' : SymTab} (hg : Grows st st') {q : Nat} {s : Symbol} (hs : st.psym[q]? = some s)
    {t : Ty} (hv : IsVar t s) : ∃ s', st'.psym[q]? = some s' ∧ s'.id = s.id ∧ IsVar t s' := by
  obtain ⟨s', hs', hi, ht, _, hk⟩ := hg _ _ hs
  refine ⟨s', hs', hi, ?_, by rw [ht]; exact hv.2⟩
  rcases hk with hk | ⟨hk, _⟩
  · rw [hk]; exact hv.1
  · rw [hv.1] at hk; cases hk

theorem emits_numericSimpleVariable {st0 : SymTab} :
    Emits st0 (numericSimpleVariable expr)
      (fun st q e => e = [] ∧ ∃ s, st.psym[q]? = some s ∧ IsVar .num s) := by
  unfold numericSimpleVariable
  refine Emits.bind (emits_simpleVariable he) fun q e st1 hg1 h1 => ?_
  obtain ⟨h1, s1, hs1, hv⟩ := h1
  refine Emits.sym fun s st2 hg2 hs => ?_
  refine Emits.ite (fun _ => .fail) fun h => .pure fun st hs3 => ?_
  simp only [ne_eq, Classical.not_not] at h
  obtain ⟨s', hs', _, _, _, hk⟩ := hg2.grows _ _ hs1
  rw [hs] at hs'
  cases hs'
  have hv : IsVar .num s := by
    refine ⟨?_, h⟩
    rcases hk with hk | ⟨hk, _⟩
    · rw [hk, hv]
    · rw [hv] at hk; cases hk
  obtain ⟨s', hs', _, hv'⟩ := Grows.var hs3.grows hs hv
  exact ⟨by rw [List.append_nil]; exact h1, s', hs', hv'⟩

/-- What the arguments of a built-in function leave, with the optional argument discarded. -/
def callSize (args : List Char) : Nat × Nat :=
  match args with
  | [] => (0, 0)
  | 'd' :: _ => (0, 0)
  | _ => argsSize args

omit he in
theorem callSize_cons {a : Char} (as : List Char) (h : a ≠ 'd') : callSize (a :: as) = argsSize (a :: as) := by
  unfold callSize
  split
  · rename_i h1; cases h1
  · rename_i h1; cases h1; exact absurd rfl h
  · rfl

theorem emits_builtinCall {st0 : SymTab} (args : List Char) : Emits st0 (builtinCall expr args) (Leaves (callSize args)) := by
  unfold builtinCall
  split
  · exact .assertFail
  · skip_quiet
    refine Emits.ite (fun _ => ?_) (fun _ => .pure fun _ _ => Runs.nil _)
    skip_quiet
    refine Emits.ite (fun _ => ?_) (fun _ => ?_)
    · refine Emits.bind (emits_discardExpression he) fun _ e1 st1 hg1 r1 => ?_
      exact .quiet (Silent.matchTok _) fun _ _ _ => by rw [List.append_nil]; exact r1
    · exact .quiet (Silent.matchTok _) fun _ _ _ => Runs.nil _
  · rename_i a as hd
    have hd' : a ≠ 'd' := hd
    rw [callSize_cons _ hd']
    skip_quiet
    refine Emits.bind (emits_builtinArg he a) fun _ e1 st1 hg1 r1 => ?_
    refine Emits.bind (emits_builtinArgs he as) fun _ e2 st2 hg2 r2 => ?_
    refine .quiet (Silent.matchTok _) fun _ _ _ => ?_
    rw [List.append_nil]
    have := Runs.append r1 (Runs.more (Runs.frame (argSize a).1 (argSize a).2 r2) (Nat.le_of_eq (by simp)) (Nat.le_of_eq (by simp)))
    simp only [Leaves, argsSize]
    rw [Nat.add_comm (argSize a).1, Nat.add_comm (argSize a).2]
    exact this

omit he in
/-- The table of built-in functions is consistent. -/
theorem builtins_sizes : ∀ b ∈ builtins, ∀ args op, b.args = some args → b.opcode = some op → b.type ≠ .err →
    uses (.bi op) = callSize args ∧ gives (.bi op) = unit b.type := by
  have h : (builtins.all fun b => match b.args, b.opcode with
    | some args, some op => b.type == .err || (uses (.bi op) == callSize args && gives (.bi op) == unit b.type)
    | _, _ => true) = true := by decide
  intro b hb args op ha ho ht
  have := List.all_eq_true.1 h b hb
  simp only [ha, ho, Bool.or_eq_true, Bool.and_eq_true, beq_iff_eq] at this
  rcases this with h | h
  · exact absurd h ht
  · exact h

theorem emits_builtinPrimary {st0 : SymTab} {b : Builtin} (hb : b ∈ builtins) :
    Emits st0 (builtinPrimary expr b) Yields := by
  unfold builtinPrimary
  refine Emits.ite (fun _ => .fail) fun ht => ?_
  skip_quiet
  split
  · rename_i args op ha ho
    obtain ⟨h1, h2⟩ := builtins_sizes b hb args op ha ho ht
    refine Emits.bind (emits_builtinCall he args) fun _ e1 st1 hg1 r1 => ?_
    refine Emits.bind (R1 := fun _ _ e => e = [.bi op]) (.emit fun st hs => ⟨trivial, rfl, rfl⟩) fun _ e2 st2 hg2 r2 => ?_
    subst r2
    refine .pure fun st hs => ?_
    rw [List.append_nil]
    have := Runs.append r1 (Runs.one (i := .bi op) rfl (by rw [h1]; exact Nat.le_refl _) (by rw [h1]; exact Nat.le_refl _))
    refine this.less ?_ ?_
    · rw [h1, h2]; simp
    · rw [h1, h2]; simp
  · exact .assertFail

theorem emitsAt_namePrimary (p : Parser) (ht : Tab p.st) (hb : builtin p.lex.word = none) :
    EmitsAt p (namePrimary expr p) Yields := by
  have h := emitsAt_identifier he (.inl rfl) p ht
  have key : ∀ (name : CStr), builtin name = none → ∀ (q params : Nat) (e1 : List Inst) (st1 : SymTab), Named st1 name q params .unknown → Runs e1 (0, 0) (params, 0) →
      Emits st1 (do
        let s ← sym q
        if params ≠ 0 then
          emit (if s.type = .str then .getParenStr s.id (params % 256) else .getParenNum s.id (params % 256))
          pure s.type
        else
          emit (if s.type = .str then .getSimpleStr s.id else .getSimpleNum s.id)
          pure s.type) (fun st t e2 => Yields st t (e1 ++ e2)) := by
    intro name hb q params e1 st1 hn r1
    refine Emits.sym fun s st2 hg2 hs => ?_
    have hn2 := hn.grow hg2.grows
    obtain ⟨s', hs', _, hnb, h0, h1⟩ := hn2
    rw [hs] at hs'; cases hs'
    have hnb' : s.kind ≠ .builtin := fun h => by have := hnb h; rw [hb] at this; cases this
    have hty := hg2.tab.type q s hs hnb'
    have hty' : s.type = .num ∨ s.type = .str := by
      rw [hty]; unfold nameType; split <;> simp
    refine Emits.ite (fun hp => ?_) (fun hp => ?_)
    · have hpar : IsParen s.type s := by
        refine ⟨?_, rfl⟩
        have := (h1 hp).2 rfl
        revert this hnb'
        cases s.kind <;> simp
      rcases hty' with hty' | hty'
      · rw [if_neg (by rw [hty']; simp)]
        refine Emits.bind (R1 := fun _ _ e => e = [.getParenNum s.id (params % 256)]) (.emit fun st hs' => ⟨?_, rfl, rfl⟩) fun _ e2 st3 hg3 r2 => ?_
        · exact Fits.grow hs'.grows (i := .getParenNum s.id (params % 256)) (ident_of hs (hty' ▸ hpar))
        · subst r2
          refine .pure fun st hs => ?_
          rw [hty', List.append_nil]
          exact (Runs.append r1 (Runs.one (i := .getParenNum s.id (params % 256)) rfl (Nat.mod_le _ _) (Nat.le_refl _))).less (by simp [unit, gives]) (by simp [unit])
      · rw [if_pos (by rw [hty'])]
        refine Emits.bind (R1 := fun _ _ e => e = [.getParenStr s.id (params % 256)]) (.emit fun st hs' => ⟨?_, rfl, rfl⟩) fun _ e2 st3 hg3 r2 => ?_
        · exact Fits.grow hs'.grows (i := .getParenStr s.id (params % 256)) (ident_of hs (hty' ▸ hpar))
        · subst r2
          refine .pure fun st hs => ?_
          rw [hty', List.append_nil]
          exact (Runs.append r1 (Runs.one (i := .getParenStr s.id (params % 256)) rfl (Nat.mod_le _ _) (Nat.le_refl _))).less (by simp [unit]) (by simp [unit, gives])
    · simp only [ne_eq, Classical.not_not] at hp
      have hvar : IsVar s.type s := by
        refine ⟨?_, rfl⟩
        rcases h0 hp with h | h
        · exact h
        · exact absurd h hnb'
      rcases hty' with hty' | hty'
      · rw [if_neg (by rw [hty']; simp)]
        refine Emits.bind (R1 := fun _ _ e => e = [.getSimpleNum s.id]) (.emit fun st hs' => ⟨?_, rfl, rfl⟩) fun _ e2 st3 hg3 r2 => ?_
        · exact Fits.grow hs'.grows (i := .getSimpleNum s.id) (ident_of hs (hty' ▸ hvar))
        · subst r2
          refine .pure fun st hs => ?_
          rw [hty', List.append_nil]
          exact (Runs.append r1 (Runs.one (i := .getSimpleNum s.id) rfl (Nat.zero_le _) (Nat.le_refl _))).less (by simp [unit, gives]) (by simp [unit])
      · rw [if_pos (by rw [hty'])]
        refine Emits.bind (R1 := fun _ _ e => e = [.getSimpleStr s.id]) (.emit fun st hs' => ⟨?_, rfl, rfl⟩) fun _ e2 st3 hg3 r2 => ?_
        · exact Fits.grow hs'.grows (i := .getSimpleStr s.id) (ident_of hs (hty' ▸ hvar))
        · subst r2
          refine .pure fun st hs => ?_
          rw [hty', List.append_nil]
          exact (Runs.append r1 (Runs.one (i := .getSimpleStr s.id) rfl (Nat.zero_le _) (Nat.le_refl _))).less (by simp [unit]) (by simp [unit, gives])
  have hid : Emits p.st (fun p' => identifier expr .unknown { p' with lex := p.lex }) (fun st r e => Named st p.lex.word r.1 r.2 .unknown ∧ Runs e (0, 0) (r.2, 0) ∧ (r.2 = 0 → e = [])) := by
    intro p' hp'
    have := emitsAt_identifier he (.inl rfl) { p' with lex := p.lex } hp'.tab
    exact this
  have := Emits.bind hid (f := fun r => do
        let s ← sym r.1
        if r.2 ≠ 0 then
          emit (if s.type = .str then .getParenStr s.id (r.2 % 256) else .getParenNum s.id (r.2 % 256))
          pure s.type
        else
          emit (if s.type = .str then .getSimpleStr s.id else .getSimpleNum s.id)
          pure s.type) (R := Yields) (fun r e1 st1 hg1 h1 => key _ hb _ _ _ _ h1.1 h1.2.1)
  exact this p (Grown.refl ht)

theorem emits_primaryExpression {st0 : SymTab} : Emits st0 (primaryExpression expr) Yields := by
  intro p hp
  have ht := hp.tab
  simp only [primaryExpression, bind_apply, token]
  by_cases h1 : p.lex.token = .num
  · simp only [h1, if_true]
    have : Emits p.st (do let x ← num; emit (.pushNum x); let _ ← next; pure Ty.num) Yields := by
      skip_quiet
      refine Emits.bind (R1 := fun _ _ e => Runs e (0, 0) (1, 0)) (.emit fun st hs' => ⟨trivial, rfl, Runs.one rfl (by simp [uses]) (by simp [uses])⟩) fun _ e2 st3 hg3 r2 => ?_
      skip_quiet
      exact .pure fun st hs => by rw [List.append_nil]; exact r2
    exact this p (Grown.refl ht)
  · simp only [h1, if_false]
    by_cases h2 : p.lex.token = .str
    · simp only [h2, if_true]
      have : Emits p.st (do let x ← word; emit (.pushStr x); let _ ← next; pure Ty.str) Yields := by
        skip_quiet
        refine Emits.bind (R1 := fun _ _ e => Runs e (0, 0) (0, 1)) (.emit fun st hs' => ⟨trivial, rfl, Runs.one rfl (by simp [uses]) (by simp [uses])⟩) fun _ e2 st3 hg3 r2 => ?_
        skip_quiet
        exact .pure fun st hs => by rw [List.append_nil]; exact r2
      exact this p (Grown.refl ht)
    · simp only [h2, if_false]
      by_cases h3 : p.lex.token = .id
      · simp only [h3, if_true, bind_apply, word]
        cases hb : builtin p.lex.word with
        | some b => exact emits_builtinPrimary he (List.mem_of_find?_eq_some hb) p (Grown.refl ht)
        | none => exact emitsAt_namePrimary he p ht hb
      · simp only [h3, if_false]
        have : Emits p.st (if p.lex.token = .ch '(' then do
            let _ ← next
            let ty ← expr
            if ty ≠ .err then do
              matchTok (.ch ')')
              pure ty
            else pure ty
          else fail "expression expected") Yields := by
          refine Emits.ite (fun _ => ?_) (fun _ => .fail)
          skip_quiet
          refine Emits.bind (he _) fun t e1 st1 hg1 r1 => ?_
          refine Emits.ite (fun _ => ?_) (fun _ => ?_)
          · skip_quiet
            exact .pure fun st hs => by rw [List.append_nil]; exact r1
          · exact .pure fun st hs => by rw [List.append_nil]; exact r1
        exact this p (Grown.refl ht)

theorem emits_powerExpr {st0 : SymTab} (n : Nat) : Emits st0 (powerExpr expr n) Yields := by
  induction n generalizing st0 with
  | zero => exact .outOfFuel
  | succ n ih =>
    unfold powerExpr
    refine Emits.bind (emits_primaryExpression he) fun t1 e1 st1 hg1 r1 => ?_
    skip_quiet
    refine Emits.ite (fun h => ?_) (fun _ => .pure fun _ _ => by rw [List.append_nil]; exact r1)
    obtain ⟨rfl, _⟩ := h
    skip_quiet
    refine Emits.bind ih fun t2 e2 st2 hg2 r2 => ?_
    refine Emits.ite (fun h => ?_) (fun h => ?_)
    · refine .pure fun _ _ => ?_
      rw [List.append_nil]
      exact (Runs.append r1 (Runs.frame 1 0 r2)).less (by simp [unit]) (by simp [unit])
    · simp only [ne_eq, Classical.not_not] at h
      subst h
      refine Emits.bind (R1 := fun _ _ e => e = [.arith .pow]) (.emit fun st hs' => ⟨trivial, rfl, rfl⟩) fun _ e3 st3 hg3 r3 => ?_
      subst r3
      refine .pure fun _ _ => ?_
      rw [List.append_nil]
      exact Runs.append r1 (Runs.append (Runs.frame 1 0 r2) (Runs.one (i := .arith .pow) rfl (by simp [uses]) (by simp [uses])))

theorem emits_negExpr {st0 : SymTab} (n : Nat) : Emits st0 (negExpr expr n) Yields := by
  unfold negExpr
  skip_quiet
  refine Emits.bind (emits_powerExpr he n) fun t1 e1 st1 hg1 r1 => ?_
  refine Emits.ite (fun _ => Emits.ite (fun _ => .fail) fun h => Emits.ite (fun _ => ?_) fun _ => ?_) (fun _ => ?_)
  · simp only [ne_eq, Classical.not_not] at h
    subst h
    refine Emits.bind (R1 := fun _ _ e => e = [.neg]) (.emit fun st hs' => ⟨trivial, rfl, rfl⟩) fun _ e3 st3 hg3 r3 => ?_
    subst r3
    refine .pure fun _ _ => ?_
    rw [List.append_nil]
    exact Runs.append r1 (Runs.one (i := .neg) rfl (by simp [uses, unit]) (by simp [uses]))
  · exact .pure fun _ _ => by rw [List.append_nil]; exact r1
  · exact .pure fun _ _ => by rw [List.append_nil]; exact r1

omit he in
/-- An operator on two numbers, with its right operand. -/
theorem runs_op {e : List Inst} {i : Inst} (r : Runs e (0, 0) (1, 0)) (hi : isExpr i = true) (hu : uses i = (2, 0))
    (hg : gives i = (1, 0)) : Runs (e ++ [i]) (1, 0) (1, 0) := by
  have := Runs.append (Runs.frame 1 0 r) (Runs.one (i := i) hi (by rw [hu]; simp) (by rw [hu]; simp))
  rw [hu, hg] at this
  exact this

theorem emits_multLoop {st0 : SymTab} (n : Nat) (t : Ty) (k : Nat) :
    Emits st0 (multLoop expr n t k) (fun _ _ e => Runs e (unit t) (unit t)) := by
  induction k generalizing st0 with
  | zero => exact .outOfFuel
  | succ k ih =>
    unfold multLoop
    skip_quiet
    refine Emits.ite (fun h => ?_) (fun _ => .pure fun _ _ => Runs.nil _)
    skip_quiet
    refine Emits.bind (emits_negExpr he n) fun t2 e1 st1 hg1 r1 => ?_
    refine Emits.ite (fun h => ?_) (fun _ => .fail)
    obtain ⟨rfl, rfl⟩ := h
    refine Emits.bind (R1 := fun _ _ e => ∃ o, e = [.arith o]) (.emit fun st hs' => ⟨trivial, rfl, _, rfl⟩) fun _ e3 st3 hg3 r3 => ?_
    obtain ⟨o, rfl⟩ := r3
    refine Emits.imp ih fun _ _ e _ r => ?_
    rw [← List.append_assoc]
    exact Runs.append (runs_op r1 rfl rfl rfl) r

theorem emits_multExpr {st0 : SymTab} (n : Nat) : Emits st0 (multExpr expr n) Yields := by
  unfold multExpr
  refine Emits.bind (emits_negExpr he n) fun t1 e1 st1 hg1 r1 => ?_
  refine Emits.bind (emits_multLoop he n t1 n) fun _ e2 st2 hg2 r2 => ?_
  exact .pure fun _ _ => by rw [List.append_nil]; exact Runs.append r1 r2

theorem emits_addLoop {st0 : SymTab} (n k : Nat) : Emits st0 (addLoop expr n k) (fun _ _ e => Runs e (1, 0) (1, 0)) := by
  induction k generalizing st0 with
  | zero => exact .outOfFuel
  | succ k ih =>
    unfold addLoop
    skip_quiet
    refine Emits.ite (fun h => ?_) (fun _ => .pure fun _ _ => Runs.nil _)
    skip_quiet
    refine Emits.bind (emits_multExpr he n) fun t2 e1 st1 hg1 r1 => ?_
    refine Emits.ite (fun _ => .fail) (fun h => ?_)
    simp only [ne_eq, Classical.not_not] at h
    subst h
    refine Emits.bind (R1 := fun _ _ e => ∃ o, e = [.arith o]) (.emit fun st hs' => ⟨trivial, rfl, _, rfl⟩) fun _ e3 st3 hg3 r3 => ?_
    obtain ⟨o, rfl⟩ := r3
    refine Emits.imp ih fun _ _ e _ r => ?_
    rw [← List.append_assoc]
    exact Runs.append (runs_op r1 rfl rfl rfl) r

theorem emits_concatLoop {st0 : SymTab} (n k : Nat) : Emits st0 (concatLoop expr n k) (fun _ _ e => Runs e (0, 1) (0, 1)) := by
  induction k generalizing st0 with
  | zero => exact .outOfFuel
  | succ k ih =>
    unfold concatLoop
    skip_quiet
    refine Emits.ite (fun h => ?_) (fun _ => .pure fun _ _ => Runs.nil _)
    skip_quiet
    refine Emits.bind (emits_multExpr he n) fun t2 e1 st1 hg1 r1 => ?_
    refine Emits.ite (fun _ => .fail) (fun h => ?_)
    simp only [ne_eq, Classical.not_not] at h
    subst h
    refine Emits.bind (R1 := fun _ _ e => e = [.concat]) (.emit fun st hs' => ⟨trivial, rfl, rfl⟩) fun _ e3 st3 hg3 r3 => ?_
    subst r3
    refine Emits.imp ih fun _ _ e _ r => ?_
    rw [← List.append_assoc]
    refine Runs.append ?_ r
    exact Runs.append (Runs.frame 0 1 r1) (Runs.one (i := .concat) rfl (by simp [uses]) (by simp [uses]))

theorem emits_addExpr {st0 : SymTab} (n : Nat) : Emits st0 (addExpr expr n) Yields := by
  unfold addExpr
  refine Emits.bind (emits_multExpr he n) fun t1 e1 st1 hg1 r1 => ?_
  cases t1 with
  | num =>
    refine Emits.bind (emits_addLoop he n n) fun _ e2 st2 hg2 r2 => ?_
    exact .pure fun _ _ => by rw [List.append_nil]; exact Runs.append r1 r2
  | str =>
    refine Emits.bind (emits_concatLoop he n n) fun _ e2 st2 hg2 r2 => ?_
    exact .pure fun _ _ => by rw [List.append_nil]; exact Runs.append r1 r2
  | err => exact .pure fun _ _ => by rw [List.append_nil]; exact r1

theorem emits_relationalExpression {st0 : SymTab} (n : Nat) : Emits st0 (relationalExpression expr n) Yields := by
  unfold relationalExpression
  refine Emits.bind (emits_addExpr he n) fun t1 e1 st1 hg1 r1 => ?_
  refine Emits.ite (fun h => ?_) (fun h1 => ?_)
  · subst h
    exact .pure fun _ _ => by rw [List.append_nil]; exact r1
  · skip_quiet
    split
    · exact .pure fun _ _ => by rw [List.append_nil]; exact r1
    · rename_i r _
      skip_quiet
      refine Emits.bind (emits_addExpr he n) fun t2 e2 st2 hg2 r2 => ?_
      refine Emits.ite (fun h => ?_) (fun h2 => Emits.ite (fun _ => .fail) fun h3 => ?_)
      · subst h
        refine .pure fun _ _ => ?_
        rw [List.append_nil]
        have := Runs.append r1 (Runs.more (Runs.frame (unit t1).1 (unit t1).2 r2) (by simp) (by simp))
        exact this.less (by simp [unit]) (by simp [unit])
      · simp only [ne_eq, Classical.not_not] at h3
        subst h3
        cases t1 with
        | err => exact absurd rfl h1
        | num =>
          rw [if_neg (by simp)]
          refine Emits.bind (R1 := fun _ _ e => e = [.cmpNum r]) (.emit fun st hs' => ⟨trivial, rfl, rfl⟩) fun _ e3 st3 hg3 r3 => ?_
          subst r3
          refine .pure fun _ _ => ?_
          rw [List.append_nil]
          exact Runs.append r1 (runs_op r2 rfl rfl rfl)
        | str =>
          rw [if_pos rfl]
          refine Emits.bind (R1 := fun _ _ e => e = [.cmpStr r]) (.emit fun st hs' => ⟨trivial, rfl, rfl⟩) fun _ e3 st3 hg3 r3 => ?_
          subst r3
          refine .pure fun _ _ => ?_
          rw [List.append_nil]
          exact Runs.append r1 (Runs.append (Runs.frame 0 1 r2) (Runs.one (i := .cmpStr r) rfl (by simp [uses]) (by simp [uses])))

theorem emits_notExpression {st0 : SymTab} (n : Nat) : Emits st0 (notExpression expr n) Yields := by
  unfold notExpression
  skip_quiet
  refine Emits.bind (emits_relationalExpression he n) fun t1 e1 st1 hg1 r1 => ?_
  refine Emits.ite (fun _ => Emits.ite (fun _ => .fail) fun h => Emits.ite (fun _ => ?_) fun _ => ?_) (fun _ => ?_)
  · simp only [ne_eq, Classical.not_not] at h
    subst h
    refine Emits.bind (R1 := fun _ _ e => e = [.not]) (.emit fun st hs' => ⟨trivial, rfl, rfl⟩) fun _ e3 st3 hg3 r3 => ?_
    subst r3
    refine .pure fun _ _ => ?_
    rw [List.append_nil]
    exact Runs.append r1 (Runs.one (i := .not) rfl (by simp [uses, unit]) (by simp [uses]))
  · exact .pure fun _ _ => by rw [List.append_nil]; exact r1
  · exact .pure fun _ _ => by rw [List.append_nil]; exact r1

theorem emits_andLoop {st0 : SymTab} (n : Nat) (t : Ty) (k : Nat) :
    Emits st0 (andLoop expr n t k) (fun _ _ e => Runs e (unit t) (unit t)) := by
  induction k generalizing st0 with
  | zero => exact .outOfFuel
  | succ k ih =>
    unfold andLoop
    skip_quiet
    refine Emits.ite (fun h => ?_) (fun _ => .pure fun _ _ => Runs.nil _)
    skip_quiet
    refine Emits.bind (emits_notExpression he n) fun t2 e1 st1 hg1 r1 => ?_
    refine Emits.ite (fun h => ?_) (fun _ => .fail)
    obtain ⟨rfl, rfl⟩ := h
    refine Emits.bind (R1 := fun _ _ e => e = [.and]) (.emit fun st hs' => ⟨trivial, rfl, rfl⟩) fun _ e3 st3 hg3 r3 => ?_
    subst r3
    refine Emits.imp ih fun _ _ e _ r => ?_
    rw [← List.append_assoc]
    exact Runs.append (runs_op r1 rfl rfl rfl) r

theorem emits_andExpression {st0 : SymTab} (n : Nat) : Emits st0 (andExpression expr n) Yields := by
  unfold andExpression
  refine Emits.bind (emits_notExpression he n) fun t1 e1 st1 hg1 r1 => ?_
  refine Emits.bind (emits_andLoop he n t1 n) fun _ e2 st2 hg2 r2 => ?_
  exact .pure fun _ _ => by rw [List.append_nil]; exact Runs.append r1 r2

theorem emits_orLoop {st0 : SymTab} (n : Nat) (t : Ty) (k : Nat) :
    Emits st0 (orLoop expr n t k) (fun _ _ e => Runs e (unit t) (unit t)) := by
  induction k generalizing st0 with
  | zero => exact .outOfFuel
  | succ k ih =>
    unfold orLoop
    skip_quiet
    refine Emits.ite (fun h => ?_) (fun _ => .pure fun _ _ => Runs.nil _)
    skip_quiet
    refine Emits.bind (emits_andExpression he n) fun t2 e1 st1 hg1 r1 => ?_
    refine Emits.ite (fun h => ?_) (fun _ => .fail)
    obtain ⟨rfl, rfl⟩ := h
    refine Emits.bind (R1 := fun _ _ e => e = [.or]) (.emit fun st hs' => ⟨trivial, rfl, rfl⟩) fun _ e3 st3 hg3 r3 => ?_
    subst r3
    refine Emits.imp ih fun _ _ e _ r => ?_
    rw [← List.append_assoc]
    exact Runs.append (runs_op r1 rfl rfl rfl) r

theorem emits_orExpression {st0 : SymTab} (n : Nat) : Emits st0 (orExpression expr n) Yields := by
  unfold orExpression
  refine Emits.bind (emits_andExpression he n) fun t1 e1 st1 hg1 r1 => ?_
  refine Emits.bind (emits_orLoop he n t1 n) fun _ e2 st2 hg2 r2 => ?_
  exact .pure fun _ _ => by rw [List.append_nil]; exact Runs.append r1 r2

omit he in
theorem emits_expressionN (n : Nat) : IsExprP (expressionN n) := by
  induction n with
  | zero => exact fun _ => .outOfFuel
  | succ n ih => exact fun _ => emits_orExpression ih _

omit he in
/-- The code of an expression can run through and leaves a value of its type. -/
theorem emits_expression : IsExprP expression := by
  intro st0
  unfold expression
  skip_quiet
  exact emits_expressionN _ _

end P
end LB
