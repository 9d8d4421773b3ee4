import Verif.Model.Parser
/- The structure of compiled code. -/
namespace LB
namespace Code

/-- How many numbers and strings an instruction takes from the stacks. -/
def uses : Inst → Nat × Nat
  | .popNum => (1, 0)
  | .setSimpleNum _ => (1, 0)
  | .dimNum _ n => (n, 0)
  | .getParenNum _ n => (n, 0)
  | .setArrayNum _ n => (n + 1, 0)
  | .arith _ => (2, 0)
  | .cmpNum _ => (2, 0)
  | .or => (2, 0)
  | .and => (2, 0)
  | .not => (1, 0)
  | .neg => (1, 0)
  | .popStr => (0, 1)
  | .setSimpleStr _ => (0, 1)
  | .dimStr _ n => (n, 0)
  | .getParenStr _ n => (n, 0)
  | .setArrayStr _ n => (n, 1)
  | .cmpStr _ => (0, 2)
  | .concat => (0, 2)
  | .gotrue _ => (1, 0)
  | .for_ _ => (3, 0)
  | .onGoto _ => (1, 0)
  | .onGosub _ => (1, 0)
  | .ifThen => (1, 0)
  | .ifElse => (1, 0)
  | .printSpc => (1, 0)
  | .printTab => (1, 0)
  | .printNum => (1, 0)
  | .printStr => (0, 1)
  | .inputNum _ n => (n, 0)
  | .inputStr _ n => (n, 0)
  | .inputLine _ n => (n, 0)
  | .readNum _ n => (n, 0)
  | .readStr _ n => (n, 0)
  | .seed => (1, 0)
  | .bi b =>
    match b with
    | .asc => (0, 1)
    | .left => (1, 1)
    | .len => (0, 1)
    | .mid3 => (2, 1)
    | .right => (1, 1)
    | .rnd => (0, 0)
    | .timeStr => (0, 0)
    | .val => (0, 1)
    | _ => (1, 0)
  | _ => (0, 0)

/-- How many numbers and strings an instruction of an expression leaves on the stacks. -/
def gives : Inst → Nat × Nat
  | .popNum => (0, 0)
  | .popStr => (0, 0)
  | .pushStr _ => (0, 1)
  | .getSimpleStr _ => (0, 1)
  | .getParenStr _ _ => (0, 1)
  | .concat => (0, 1)
  | .bi b =>
    match b with
    | .chr => (0, 1)
    | .left => (0, 1)
    | .mid3 => (0, 1)
    | .right => (0, 1)
    | .str => (0, 1)
    | .timeStr => (0, 1)
    | _ => (1, 0)
  | _ => (1, 0)

/-- The instructions of expressions. -/
def isExpr : Inst → Bool
  | .pushNum _ => true
  | .popNum => true
  | .getSimpleNum _ => true
  | .getParenNum _ _ => true
  | .arith _ => true
  | .cmpNum _ => true
  | .or => true
  | .and => true
  | .not => true
  | .neg => true
  | .pushStr _ => true
  | .popStr => true
  | .getSimpleStr _ => true
  | .getParenStr _ _ => true
  | .cmpStr _ => true
  | .concat => true
  | .bi _ => true
  | _ => false

/-- Sizes of the stacks after an instruction of an expression. -/
def eff (i : Inst) (h : Nat × Nat) : Option (Nat × Nat) :=
  if isExpr i ∧ (uses i).1 ≤ h.1 ∧ (uses i).2 ≤ h.2 then
    some (h.1 - (uses i).1 + (gives i).1, h.2 - (uses i).2 + (gives i).2)
  else none

/-- Sizes of the stacks after the code of an expression. -/
def sizes : List Inst → Nat × Nat → Option (Nat × Nat)
  | [], h => some h
  | i :: l, h =>
    match eff i h with
    | none => none
    | some h' => sizes l h'

theorem eff_shift {i : Inst} {a b a' b' : Nat} (c d : Nat) (h : eff i (a, b) = some (a', b')) :
    eff i (a + c, b + d) = some (a' + c, b' + d) := by
  unfold eff at *
  split at h
  · rename_i hc
    obtain ⟨h1, h2, h3⟩ := hc
    simp only [Option.some.injEq, Prod.mk.injEq] at h h2 h3
    rw [if_pos ⟨h1, by simp only; omega, by simp only; omega⟩]
    simp only [Option.some.injEq, Prod.mk.injEq]
    omega
  · cases h

theorem sizes_shift {l : List Inst} {a b a' b' : Nat} (c d : Nat) (h : sizes l (a, b) = some (a', b')) :
    sizes l (a + c, b + d) = some (a' + c, b' + d) := by
  induction l generalizing a b with
  | nil => simp only [sizes, Option.some.injEq, Prod.mk.injEq] at *; omega
  | cons i l ih =>
    simp only [sizes] at *
    split at h
    · cases h
    · rename_i k hk
      obtain ⟨k1, k2⟩ := k
      rw [eff_shift c d hk]
      exact ih h

theorem sizes_append (l m : List Inst) (h : Nat × Nat) :
    sizes (l ++ m) h = (sizes l h).bind (sizes m) := by
  induction l generalizing h with
  | nil => rfl
  | cons i l ih =>
    simp only [List.cons_append, sizes]
    cases eff i h with
    | none => rfl
    | some k => exact ih k

/-- From at least the sizes `h` the code runs through and leaves at least the sizes `k`. -/
def Runs (l : List Inst) (h k : Nat × Nat) : Prop :=
  ∃ a b, sizes l h = some (a, b) ∧ k.1 ≤ a ∧ k.2 ≤ b

theorem Runs.nil (h : Nat × Nat) : Runs [] h h := ⟨h.1, h.2, rfl, Nat.le_refl _, Nat.le_refl _⟩

theorem Runs.more {l : List Inst} {h h' k : Nat × Nat} (r : Runs l h k) (h1 : h.1 ≤ h'.1) (h2 : h.2 ≤ h'.2) :
    Runs l h' k := by
  obtain ⟨a, b, e, ha, hb⟩ := r
  refine ⟨a + (h'.1 - h.1), b + (h'.2 - h.2), ?_, by omega, by omega⟩
  have := sizes_shift (h'.1 - h.1) (h'.2 - h.2) e
  rw [← this]
  congr 1
  apply Prod.ext <;> simp only <;> omega

theorem Runs.less {l : List Inst} {h k k' : Nat × Nat} (r : Runs l h k) (h1 : k'.1 ≤ k.1) (h2 : k'.2 ≤ k.2) :
    Runs l h k' := by
  obtain ⟨a, b, e, ha, hb⟩ := r
  exact ⟨a, b, e, by omega, by omega⟩

theorem Runs.frame {l : List Inst} {a b a' b' : Nat} (c d : Nat) (r : Runs l (a, b) (a', b')) :
    Runs l (a + c, b + d) (a' + c, b' + d) := by
  obtain ⟨x, y, e, hx, hy⟩ := r
  exact ⟨x + c, y + d, sizes_shift c d e, by simp only at *; omega, by simp only at *; omega⟩

theorem Runs.append {l m : List Inst} {h k j : Nat × Nat} (r : Runs l h k) (s : Runs m k j) : Runs (l ++ m) h j := by
  obtain ⟨a, b, e, ha, hb⟩ := r
  obtain ⟨a', b', e', ha', hb'⟩ := s.more (h' := (a, b)) ha hb
  exact ⟨a', b', by rw [sizes_append, e]; exact e', ha', hb'⟩

theorem Runs.one {i : Inst} {h : Nat × Nat} (he : isExpr i = true) (h1 : (uses i).1 ≤ h.1) (h2 : (uses i).2 ≤ h.2) :
    Runs [i] h (h.1 - (uses i).1 + (gives i).1, h.2 - (uses i).2 + (gives i).2) := by
  refine ⟨_, _, ?_, Nat.le_refl _, Nat.le_refl _⟩
  simp only [sizes, eff, he, h1, h2, and_self, if_true]

theorem Runs.cons {i : Inst} {l : List Inst} {h k : Nat × Nat} (r : Runs (i :: l) h k) :
    isExpr i = true ∧ (uses i).1 ≤ h.1 ∧ (uses i).2 ≤ h.2 ∧
      Runs l (h.1 - (uses i).1 + (gives i).1, h.2 - (uses i).2 + (gives i).2) k := by
  obtain ⟨a, b, e, ha, hb⟩ := r
  simp only [sizes, eff] at e
  by_cases hc : isExpr i ∧ (uses i).1 ≤ h.1 ∧ (uses i).2 ≤ h.2
  · simp only [hc, and_self, if_true] at e
    exact ⟨hc.1, hc.2.1, hc.2.2, a, b, e, ha, hb⟩
  · simp [hc] at e

theorem Runs.isExpr {l : List Inst} {h k : Nat × Nat} (r : Runs l h k) : ∀ i ∈ l, isExpr i = true := by
  induction l generalizing h with
  | nil => simp
  | cons i l ih =>
    intro j hj
    have := r.cons
    rcases List.mem_cons.1 hj with rfl | hj
    · exact this.1
    · exact ih this.2.2.2 j hj

/-- What an expression of a type leaves on the stacks, at least. -/
def unit : Ty → Nat × Nat
  | .num => (1, 0)
  | .str => (0, 1)
  | .err => (1, 0)

/-- Instructions that can end a simple piece of code: none of an expression, a function, ON or the items of INPUT. -/
def plain : Inst → Bool
  | .def_ _ _ => false
  | .param _ => false
  | .endDef => false
  | .onGoto _ => false
  | .onGosub _ => false
  | .onLine _ => false
  | .inputSep => false
  | .inputNum _ _ => false
  | .inputStr _ _ => false
  | .inputEnd => false
  | i => !isExpr i

/-- An item of INPUT. -/
def item : Inst → Bool
  | .inputNum _ _ => true
  | .inputStr _ _ => true
  | _ => false

/-- ON with a number of lines. -/
def isOn (i : Inst) (n : Nat) : Prop := i = .onGoto n ∨ i = .onGosub n

/-- A line of ON. -/
def isOnLine : Inst → Bool
  | .onLine _ => true
  | _ => false

/-- The items of INPUT. -/
inductive Items : List Inst → Prop
  | last {e : List Inst} {i : Inst} : Runs e (0, 0) (uses i) → item i = true → Items (e ++ [i, .inputEnd])
  | more {e : List Inst} {i : Inst} {t : List Inst} : Runs e (0, 0) (uses i) → item i = true → Items t →
      Items (e ++ i :: .inputSep :: t)

/-- What follows an item of INPUT. -/
def Tail (t : List Inst) : Prop := t = [.inputEnd] ∨ ∃ t', t = .inputSep :: t' ∧ Items t'

/-- Code that can be executed to its end with stacks of these sizes.  `T id t`: the function `id` has the type `t`;
`ip`: the machine knows where the INPUT statement starts. -/
inductive Ready (T : Nat → Ty → Prop) (ip : Prop) : List Inst → Nat × Nat → Prop
  | plain {e : List Inst} {i : Inst} {h : Nat × Nat} : Runs e h (uses i) → plain i = true → Ready T ip (e ++ [i]) h
  | on {e : List Inst} {i : Inst} {ls : List Inst} {h : Nat × Nat} : Runs e h (1, 0) → isOn i ls.length →
      (∀ x ∈ ls, isOnLine x = true) → Ready T ip (e ++ i :: ls) h
  | def_ {id pid : Nat} {t : Ty} {e : List Inst} {h : Nat × Nat} : T id t → t ≠ .err → Runs e (0, 0) (unit t) →
      Ready T ip (.def_ id 1 :: .param pid :: (e ++ [.endDef])) h
  | input {p : Option CStr} {t : List Inst} {h : Nat × Nat} : Items t → Ready T ip (.inputBuf p :: t) h
  | item {e : List Inst} {i : Inst} {t : List Inst} {h : Nat × Nat} : ip → Runs e h (uses i) → item i = true → Tail t →
      Ready T ip (e ++ i :: t) h
  | sep {t : List Inst} {h : Nat × Nat} : ip → Items t → Ready T ip (.inputSep :: t) h
  | inputEnd {h : Nat × Nat} : ip → Ready T ip [.inputEnd] h

/-- A sequence of pieces of code, each executable from its start whatever the stacks hold. -/
inductive Pieces (T : Nat → Ty → Prop) : List Inst → Prop
  | nil : Pieces T []
  | cons {r l : List Inst} : Ready T False r (0, 0) → Pieces T l → Pieces T (r ++ l)

theorem Ready.more {T : Nat → Ty → Prop} {ip ip' : Prop} {r : List Inst} {h h' : Nat × Nat} (hr : Ready T ip r h)
    (h1 : h.1 ≤ h'.1) (h2 : h.2 ≤ h'.2) (hip : ip → ip') : Ready T ip' r h' := by
  cases hr with
  | plain a b => exact .plain (a.more h1 h2) b
  | on a b c => exact .on (a.more h1 h2) b c
  | def_ a b c => exact .def_ a b c
  | input a => exact .input a
  | item a b c d => exact .item (hip a) (b.more h1 h2) c d
  | sep a b => exact .sep (hip a) b
  | inputEnd a => exact .inputEnd (hip a)

theorem Ready.types {T T' : Nat → Ty → Prop} {ip : Prop} {r : List Inst} {h : Nat × Nat} (hr : Ready T ip r h)
    (ht : ∀ id t, T id t → T' id t) : Ready T' ip r h := by
  cases hr with
  | plain a b => exact .plain a b
  | on a b c => exact .on a b c
  | def_ a b c => exact .def_ (ht _ _ a) b c
  | input a => exact .input a
  | item a b c d => exact .item a b c d
  | sep a b => exact .sep a b
  | inputEnd a => exact .inputEnd a

theorem Pieces.types {T T' : Nat → Ty → Prop} {l : List Inst} (hp : Pieces T l) (ht : ∀ id t, T id t → T' id t) :
    Pieces T' l := by
  induction hp with
  | nil => exact .nil
  | cons a _ ih => exact .cons (a.types ht) ih

theorem Pieces.append {T : Nat → Ty → Prop} {l m : List Inst} (hl : Pieces T l) (hm : Pieces T m) : Pieces T (l ++ m) := by
  induction hl with
  | nil => exact hm
  | cons a _ ih => rw [List.append_assoc]; exact .cons a ih

theorem Pieces.one {T : Nat → Ty → Prop} {r : List Inst} (hr : Ready T False r (0, 0)) : Pieces T r := by
  have := Pieces.cons hr .nil
  simpa using this

theorem Pieces.simple {T : Nat → Ty → Prop} {e : List Inst} {i : Inst} (hr : Runs e (0, 0) (uses i))
    (hp : plain i = true) : Pieces T (e ++ [i]) := .one (.plain hr hp)

end Code
end LB
