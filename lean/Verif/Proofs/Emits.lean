import Verif.Proofs.ParserKeeps
import Verif.Proofs.Code
/- What the expression compiler emits. -/
namespace LB
open Code

/-- Some symbol with the identity `id` satisfies `f`. -/
def Ident (st : SymTab) (id : Nat) (f : Symbol → Prop) : Prop :=
  ∃ (q : Nat) (s : Symbol), st.psym[q]? = some s ∧ s.id = id ∧ f s

/-- A variable of a type. -/
def IsVar (t : Ty) (s : Symbol) : Prop := s.kind = .variable ∧ s.type = t
/-- An array of a type. -/
def IsArr (t : Ty) (s : Symbol) : Prop := s.kind = .array ∧ s.type = t
/-- An array or function of a type, or a name not known yet to be one of them. -/
def IsParen (t : Ty) (s : Symbol) : Prop := (s.kind = .unknown ∨ s.kind = .array ∨ s.kind = .def_) ∧ s.type = t
/-- The name of a built-in function. -/
def IsBuiltin (s : Symbol) : Prop := s.kind = .builtin
/-- A function. -/
def IsDef (s : Symbol) : Prop := s.kind = .def_

/-- The operand of an instruction is a symbol of a kind the instruction is meant for, or a built-in function where the
compiler fails to refuse it. -/
def Fits (st : SymTab) : Inst → Prop
  | .getSimpleNum id => Ident st id (IsVar .num)
  | .getSimpleStr id => Ident st id (IsVar .str)
  | .getParenNum id _ => Ident st id (IsParen .num)
  | .getParenStr id _ => Ident st id (IsParen .str)
  | .setSimpleNum id => Ident st id (fun s => IsVar .num s ∨ IsBuiltin s)
  | .setSimpleStr id => Ident st id (fun s => IsVar .str s ∨ IsBuiltin s)
  | .setArrayNum id _ => Ident st id (IsArr .num)
  | .setArrayStr id _ => Ident st id (IsArr .str)
  | .dimNum id _ => Ident st id (IsArr .num)
  | .dimStr id _ => Ident st id (IsArr .str)
  | .readNum id n => Ident st id (fun s => n = 0 ∧ IsVar .num s ∨ IsBuiltin s ∨ IsArr .num s)
  | .readStr id n => Ident st id (fun s => n = 0 ∧ IsVar .str s ∨ IsBuiltin s ∨ IsArr .str s)
  | .inputNum id n => Ident st id (fun s => n = 0 ∧ IsVar .num s ∨ IsBuiltin s ∨ IsArr .num s)
  | .inputStr id n => Ident st id (fun s => n = 0 ∧ IsVar .str s ∨ IsBuiltin s ∨ IsArr .str s)
  | .inputLine id n => Ident st id (fun s => n = 0 ∧ IsVar .str s ∨ IsBuiltin s ∨ IsArr .str s)
  | .for_ id => Ident st id (IsVar .num)
  | .nextVar id => Ident st id (IsVar .num)
  | .param id => Ident st id (IsVar .num)
  | .def_ id n => n = 1 ∧ Ident st id IsDef
  | _ => True

/-- The type a name has by its last character. -/
def nameType (name : CStr) : Ty := if stringName name then .str else .num

/-- Identities follow the position, types follow the names, and only the names of built-in functions are reserved. -/
structure Tab (st : SymTab) : Prop where
  ids : ∀ (q : Nat) (s : Symbol), st.psym[q]? = some s → s.id = q % 65536
  next : st.nextId = st.psym.length % 65536
  type : ∀ (q : Nat) (s : Symbol), st.psym[q]? = some s → s.kind ≠ .builtin → s.type = nameType s.name
  builtin : ∀ (q : Nat) (s : Symbol), st.psym[q]? = some s → s.kind = .builtin → ∃ b ∈ builtins, b.name = s.name

/-- Names are only added, and only names of unknown kind are given a kind. -/
def Grows (st st' : SymTab) : Prop :=
  ∀ (q : Nat) (s : Symbol), st.psym[q]? = some s → ∃ s' : Symbol, st'.psym[q]? = some s' ∧ s'.id = s.id ∧ s'.type = s.type ∧ s'.name = s.name ∧
    (s'.kind = s.kind ∨ s.kind = .unknown ∧ (s'.kind = .array ∨ s'.kind = .def_))

theorem Grows.refl (st : SymTab) : Grows st st := fun _ s h => ⟨s, h, rfl, rfl, rfl, .inl rfl⟩

theorem Grows.trans {a b c : SymTab} (h : Grows a b) (k : Grows b c) : Grows a c := by
  intro q s hs
  obtain ⟨s1, h1, i1, t1, n1, k1⟩ := h q s hs
  obtain ⟨s2, h2, i2, t2, n2, k2⟩ := k q s1 h1
  refine ⟨s2, h2, i2.trans i1, t2.trans t1, n2.trans n1, ?_⟩
  rcases k1 with k1 | ⟨k1, k1'⟩ <;> rcases k2 with k2 | ⟨k2, k2'⟩
  · exact .inl (k2.trans k1)
  · exact .inr ⟨k1 ▸ k2, k2'⟩
  · exact .inr ⟨k1, k2 ▸ k1'⟩
  · rw [k2] at k1'; rcases k1' with h | h <;> cases h

theorem Ident.imp {st : SymTab} {id : Nat} {f g : Symbol → Prop} (h : Ident st id f) (k : ∀ s, f s → g s) : Ident st id g := by
  obtain ⟨q, s, a, b, c⟩ := h
  exact ⟨q, s, a, b, k s c⟩

theorem Ident.grow {st st' : SymTab} {id : Nat} {f : Symbol → Prop} (h : Ident st id f) (hg : Grows st st')
    (hf : ∀ s s' : Symbol, s'.type = s.type →
      (s'.kind = s.kind ∨ s.kind = .unknown ∧ (s'.kind = .array ∨ s'.kind = .def_)) → f s → f s') : Ident st' id f := by
  obtain ⟨q, s, a, b, c⟩ := h
  obtain ⟨s', h1, i1, t1, n1, k1⟩ := hg q s a
  exact ⟨q, s', h1, i1.trans b, hf s s' t1 k1 c⟩

theorem Fits.grow {st st' : SymTab} (hg : Grows st st') {i : Inst} (h : Fits st i) : Fits st' i := by
  cases i <;> simp only [Fits] at h ⊢
  case def_ =>
    refine ⟨h.1, h.2.grow hg ?_⟩
    intro s s' ht hk hf
    simp only [IsDef] at *
    rcases hk with hk | ⟨hk, _⟩
    · rw [hk, hf]
    · rw [hf] at hk; cases hk
  all_goals
    refine h.grow hg ?_
    intro s s' ht hk hf
    simp only [IsVar, IsArr, IsParen, IsBuiltin] at *
    rw [ht]
    rcases hk with hk | ⟨hk, hk' | hk'⟩
    · rw [hk]; exact hf
    · rw [hk] at hf; rw [hk']; simp at hf ⊢ <;> try exact hf
    · rw [hk] at hf; rw [hk']; simp at hf ⊢ <;> try exact hf

/-- `st'` is a proper table grown from `st`. -/
structure Grown (st st' : SymTab) : Prop where
  tab : Tab st'
  grows : Grows st st'

theorem Grown.refl {st : SymTab} (h : Tab st) : Grown st st := ⟨h, Grows.refl st⟩
theorem Grown.trans {a b c : SymTab} (h : Grown a b) (k : Grown b c) : Grown a c := ⟨k.tab, h.grows.trans k.grows⟩

/-- Instructions that do not mark lines or branches of IF. -/
def inert : Inst → Bool
  | .sourceLine _ => false
  | .ifThen => false
  | .ifElse => false
  | .else_ => false
  | _ => true

namespace P

/-- The result of a parsing function started at `p`: the code `e` is appended with `R`. -/
def EmitsAt {α : Type} (p : Parser) (r : PRes α) (R : SymTab → α → List Inst → Prop) : Prop :=
  match r with
  | .ok a p' => Grown p.st p'.st ∧ p'.ifThen = p.ifThen ∧
      ∃ e, p'.bcode.inst = p.bcode.inst ++ e ∧ (∀ i ∈ e, Fits p'.st i ∧ inert i = true) ∧ R p'.st a e
  | .err _ p' => Grown p.st p'.st
  | .halt _ => True

/-- Started with a table grown from `st0`, the function appends code `e` with `R`. -/
def Emits {α : Type} (st0 : SymTab) (x : P α) (R : SymTab → α → List Inst → Prop) : Prop :=
  ∀ p, Grown st0 p.st → EmitsAt p (x p) R

/-- The function changes neither code nor symbols. -/
def Silent {α : Type} (x : P α) : Prop :=
  ∀ p, match x p with
    | .ok _ p' => p'.st = p.st ∧ p'.bcode = p.bcode ∧ p'.ifThen = p.ifThen
    | .err _ p' => p'.st = p.st ∧ p'.bcode = p.bcode ∧ p'.ifThen = p.ifThen
    | .halt _ => True

theorem Silent.bind {α β : Type} {x : P α} {f : α → P β} (hx : Silent x) (hf : ∀ a, Silent (f a)) : Silent (x >>= f) := by
  intro p
  have h1 := hx p
  simp only [bind_apply]
  cases hxp : x p with
  | ok a p' =>
    rw [hxp] at h1
    have h2 := hf a p'
    simp only at h1 ⊢
    revert h2
    cases f a p' with
    | ok b p2 => intro h2; exact ⟨h2.1.trans h1.1, h2.2.1.trans h1.2.1, h2.2.2.trans h1.2.2⟩
    | err b p2 => intro h2; exact ⟨h2.1.trans h1.1, h2.2.1.trans h1.2.1, h2.2.2.trans h1.2.2⟩
    | halt => intro _; trivial
  | err m p' => rw [hxp] at h1; exact h1
  | halt h => trivial

theorem Silent.pure {α : Type} (a : α) : Silent (Pure.pure a : P α) := fun _ => ⟨rfl, rfl, rfl⟩
theorem Silent.fail {α : Type} (m : String) : Silent (P.fail m : P α) := fun _ => ⟨rfl, rfl, rfl⟩
theorem Silent.outOfFuel {α : Type} : Silent (P.outOfFuel : P α) := fun _ => trivial
theorem Silent.assertFail {α : Type} (m : String) : Silent (P.assertFail m : P α) := fun _ => trivial
theorem Silent.token : Silent P.token := fun _ => ⟨rfl, rfl, rfl⟩
theorem Silent.word : Silent P.word := fun _ => ⟨rfl, rfl, rfl⟩
theorem Silent.num : Silent P.num := fun _ => ⟨rfl, rfl, rfl⟩
theorem Silent.here : Silent P.here := fun _ => ⟨rfl, rfl, rfl⟩
theorem Silent.getIfThen : Silent P.getIfThen := fun _ => ⟨rfl, rfl, rfl⟩
theorem Silent.latest : Silent P.latest := fun _ => ⟨rfl, rfl, rfl⟩
theorem Silent.fuel : Silent P.fuel := fun _ => ⟨rfl, rfl, rfl⟩
theorem Silent.next : Silent P.next := by
  intro p; simp only [P.next]
  cases lexNext p.lex with
  | halt => trivial
  | ok a => exact ⟨rfl, rfl, rfl⟩
theorem Silent.nextData : Silent P.nextData := by
  intro p; simp only [P.nextData]
  cases lexNextData p.lex with
  | halt => trivial
  | ok a => exact ⟨rfl, rfl, rfl⟩
theorem Silent.startLine (n : Nat) (t : CStr) : Silent (P.startLine n t) := by
  intro p; simp only [P.startLine]
  cases lexLine p.lex n t with
  | halt => trivial
  | ok a => exact ⟨rfl, rfl, rfl⟩
theorem Silent.ite {α : Type} {c : Prop} [Decidable c] {x y : P α} (hx : Silent x) (hy : Silent y) :
    Silent (if c then x else y) := by split <;> assumption
theorem Silent.matchTok (t : Tok) : Silent (P.matchTok t) :=
  .bind .token (fun _ => .ite (.fail _) (.bind .next (fun _ => .pure _)))
theorem Silent.eos : Silent P.eos := .bind .token (fun _ => .pure _)
theorem Silent.lineNumber : Silent P.lineNumber :=
  .bind .token (fun _ => .ite (.bind .num (fun _ => .ite (.bind .next (fun _ => .pure _)) (.fail _))) (.fail _))
theorem Silent.remStatement : Silent P.remStatement := fun _ => ⟨rfl, rfl, rfl⟩
theorem Silent.countPrefix (t : Tok) (n c : Nat) : Silent (P.countPrefix t n c) := by
  induction n generalizing c with
  | zero => exact .outOfFuel
  | succ n ih => exact .bind .token (fun _ => .ite (.bind .next (fun _ => ih _)) (.pure _))

variable {α β : Type} {st0 : SymTab}

theorem Emits.bind {x : P α} {f : α → P β} {R1 : SymTab → α → List Inst → Prop} {R : SymTab → β → List Inst → Prop}
    (hx : Emits st0 x R1)
    (hf : ∀ a e1 st1, Grown st0 st1 → R1 st1 a e1 → Emits st1 (f a) (fun st b e2 => R st b (e1 ++ e2))) :
    Emits st0 (x >>= f) R := by
  intro p hp
  have h1 := hx p hp
  simp only [bind_apply]
  cases hxp : x p with
  | ok a p' =>
    rw [hxp] at h1
    obtain ⟨g, it, e1, hi, hfit, r1⟩ := h1
    have h2 := hf a e1 p'.st (hp.trans g) r1 p' (Grown.refl g.tab)
    simp only
    revert h2
    cases f a p' with
    | ok b p2 =>
      rintro ⟨g2, it2, e2, hi2, hfit2, r2⟩
      refine ⟨g.trans g2, it2.trans it, e1 ++ e2, by rw [hi2, hi, List.append_assoc], ?_, r2⟩
      intro i hm
      rcases List.mem_append.1 hm with hm | hm
      · exact ⟨(hfit i hm).1.grow g2.grows, (hfit i hm).2⟩
      · exact hfit2 i hm
    | err m p2 => intro h2; exact g.trans h2
    | halt => intro _; trivial
  | err m p' => rw [hxp] at h1; exact h1
  | halt h => trivial

theorem Emits.silent {x : P α} {f : α → P β} {R : SymTab → β → List Inst → Prop} (hx : Silent x)
    (hf : ∀ a, Emits st0 (f a) R) : Emits st0 (x >>= f) R := by
  intro p hp
  have h1 := hx p
  simp only [bind_apply]
  cases hxp : x p with
  | ok a p' =>
    rw [hxp] at h1
    obtain ⟨e1, e2, e3⟩ := h1
    have h2 := hf a p' (by rw [e1]; exact hp)
    simp only
    revert h2
    unfold EmitsAt
    rw [e1, e2, e3]
    exact _root_.id
  | err m p' => rw [hxp] at h1; exact (show Grown p.st p'.st by rw [h1.1]; exact Grown.refl hp.tab)
  | halt h => trivial

theorem Emits.quiet {x : P α} {R : SymTab → α → List Inst → Prop} (hx : Silent x)
    (h : ∀ st a, Grown st0 st → R st a []) : Emits st0 x R := by
  intro p hp
  have h1 := hx p
  revert h1
  cases x p with
  | ok a p' =>
    rintro ⟨h1, h2, h3⟩
    exact ⟨by rw [h1]; exact Grown.refl hp.tab, h3, [], by rw [h2]; simp, by simp, by rw [h1]; exact h _ _ hp⟩
  | err a p' => rintro ⟨h1, h2, h3⟩; exact (show Grown p.st p'.st by rw [h1]; exact Grown.refl hp.tab)
  | halt => intro _; trivial

theorem Emits.pure {a : α} {R : SymTab → α → List Inst → Prop} (h : ∀ st, Grown st0 st → R st a []) :
    Emits st0 (Pure.pure a : P α) R :=
  fun p hp => ⟨Grown.refl hp.tab, rfl, [], by simp, by simp, h p.st hp⟩

theorem Emits.fail {m : String} {R : SymTab → α → List Inst → Prop} : Emits st0 (P.fail m : P α) R :=
  fun _ hp => Grown.refl hp.tab

theorem Emits.assertFail {m : String} {R : SymTab → α → List Inst → Prop} : Emits st0 (P.assertFail m : P α) R :=
  fun _ _ => trivial

theorem Emits.outOfFuel {R : SymTab → α → List Inst → Prop} : Emits st0 (P.outOfFuel : P α) R := fun _ _ => trivial

theorem Emits.emit {i : Inst} {R : SymTab → Unit → List Inst → Prop}
    (h : ∀ st, Grown st0 st → Fits st i ∧ inert i = true ∧ R st () [i]) : Emits st0 (emit i) R := by
  intro p hp
  obtain ⟨h1, h2, h3⟩ := h p.st hp
  refine ⟨Grown.refl hp.tab, rfl, [i], rfl, ?_, h3⟩
  intro j hj
  rw [List.mem_singleton.1 hj]
  exact ⟨h1, h2⟩

theorem Emits.ite {c : Prop} [Decidable c] {x y : P α} {R : SymTab → α → List Inst → Prop} (hx : c → Emits st0 x R)
    (hy : ¬c → Emits st0 y R) : Emits st0 (if c then x else y) R := by
  by_cases h : c
  · rw [if_pos h]; exact hx h
  · rw [if_neg h]; exact hy h

theorem Emits.imp {x : P α} {R R' : SymTab → α → List Inst → Prop} (hx : Emits st0 x R)
    (h : ∀ st a e, Grown st0 st → R st a e → R' st a e) : Emits st0 x R' := by
  intro p hp
  have h1 := hx p hp
  revert h1
  cases x p with
  | ok a p' => rintro ⟨g, it, e, a1, a2, a3⟩; exact ⟨g, it, e, a1, a2, h _ _ _ (hp.trans g) a3⟩
  | err m p' => exact _root_.id
  | halt h => exact _root_.id

theorem Emits.base {st1 : SymTab} {x : P α} {R : SymTab → α → List Inst → Prop} (hx : Emits st0 x R) (hg : Grown st0 st1) :
    Emits st1 x R := fun p hp => hx p (hg.trans hp)

/-- Reading a symbol. -/
theorem Emits.sym {q : Nat} {f : Symbol → P β} {R : SymTab → β → List Inst → Prop}
    (hf : ∀ s st1, Grown st0 st1 → st1.psym[q]? = some s → Emits st1 (f s) R) : Emits st0 (P.sym q >>= f) R := by
  intro p hp
  simp only [bind_apply, P.sym]
  cases hq : p.st.psym[q]? with
  | none => trivial
  | some s => exact hf s p.st hp hq p (Grown.refl hp.tab)

end P
end LB
