import Verif.Proofs.Code
import Verif.Model.VM
/- Places in compiled code from which execution can go on. -/
namespace LB
namespace Code

variable {T : Nat → Ty → Prop} {ip : Prop}

/-- What an instruction of code that is ready to be executed can be, and what is ready after it. -/
inductive Head (T : Nat → Ty → Prop) (ip : Prop) : Inst → List Inst → Nat × Nat → Prop
  | expr {i : Inst} {l : List Inst} {h k : Nat × Nat} : eff i h = some k → Ready T ip l k → l ≠ [] → Head T ip i l h
  | plain {i : Inst} {h : Nat × Nat} : plain i = true → (uses i).1 ≤ h.1 → (uses i).2 ≤ h.2 → Head T ip i [] h
  | on {i : Inst} {ls : List Inst} {h : Nat × Nat} : isOn i ls.length → (∀ x ∈ ls, isOnLine x = true) → 1 ≤ h.1 → Head T ip i ls h
  | def_ {id pid : Nat} {t : Ty} {e : List Inst} {h : Nat × Nat} : T id t → t ≠ .err → Runs e (0, 0) (unit t) →
      Head T ip (.def_ id 1) (.param pid :: (e ++ [.endDef])) h
  | input {p : Option CStr} {t : List Inst} {h : Nat × Nat} : Items t → Head T ip (.inputBuf p) t h
  | item {i : Inst} {t : List Inst} {h : Nat × Nat} : ip → item i = true → (uses i).1 ≤ h.1 → (uses i).2 ≤ h.2 → Tail t → Head T ip i t h
  | sep {t : List Inst} {h : Nat × Nat} : ip → Items t → Head T ip .inputSep t h
  | inputEnd {h : Nat × Nat} : ip → Head T ip .inputEnd [] h

theorem Runs.head {i : Inst} {e : List Inst} {h k : Nat × Nat} (r : Runs (i :: e) h k) :
    ∃ j, eff i h = some j ∧ Runs e j k := by
  obtain ⟨h1, h2, h3, h4⟩ := r.cons
  exact ⟨_, by rw [eff, if_pos ⟨h1, h2, h3⟩], h4⟩

theorem Runs.here {h k : Nat × Nat} (r : Runs [] h k) : k.1 ≤ h.1 ∧ k.2 ≤ h.2 := by
  obtain ⟨a, b, e, h1, h2⟩ := r
  simp only [sizes, Option.some.injEq] at e
  subst e
  exact ⟨h1, h2⟩

theorem Ready.head {i : Inst} {l : List Inst} {h : Nat × Nat} (r : Ready T ip (i :: l) h) : Head T ip i l h := by
  generalize hr : i :: l = r0 at r
  cases r with
  | @plain e x _ a b =>
    cases e with
    | nil =>
      simp only [List.nil_append, List.cons.injEq] at hr
      obtain ⟨rfl, rfl⟩ := hr
      exact .plain b a.here.1 a.here.2
    | cons y e =>
      simp only [List.cons_append, List.cons.injEq] at hr
      obtain ⟨rfl, rfl⟩ := hr
      obtain ⟨j, h1, h2⟩ := a.head
      exact .expr h1 (.plain h2 b) (by simp)
  | @on e x ls _ a b c =>
    cases e with
    | nil =>
      simp only [List.nil_append, List.cons.injEq] at hr
      obtain ⟨rfl, rfl⟩ := hr
      exact .on b c a.here.1
    | cons y e =>
      simp only [List.cons_append, List.cons.injEq] at hr
      obtain ⟨rfl, rfl⟩ := hr
      obtain ⟨j, h1, h2⟩ := a.head
      exact .expr h1 (.on h2 b c) (by simp)
  | def_ a b c => cases hr; exact .def_ a b c
  | input a => cases hr; exact .input a
  | @item e x t _ a b c d =>
    cases e with
    | nil =>
      simp only [List.nil_append, List.cons.injEq] at hr
      obtain ⟨rfl, rfl⟩ := hr
      exact .item a c b.here.1 b.here.2 d
    | cons y e =>
      simp only [List.cons_append, List.cons.injEq] at hr
      obtain ⟨rfl, rfl⟩ := hr
      obtain ⟨j, h1, h2⟩ := b.head
      exact .expr h1 (.item a h2 c d) (by simp)
  | sep a b => cases hr; exact .sep a b
  | inputEnd a => cases hr; exact .inputEnd a

theorem Ready.ne {r : List Inst} {h : Nat × Nat} (hr : Ready T ip r h) : r ≠ [] := by
  cases hr <;> simp

theorem Items.ready {t : List Inst} (h : Items t) (hip : ip) (k : Nat × Nat) : Ready T ip t k := by
  cases h with
  | last a b => exact .item hip (a.more (Nat.zero_le _) (Nat.zero_le _)) b (.inl rfl)
  | more a b c => exact .item hip (a.more (Nat.zero_le _) (Nat.zero_le _)) b (.inr ⟨_, rfl, c⟩)

theorem Tail.ready {t : List Inst} (h : Tail t) (hip : ip) (k : Nat × Nat) : Ready T ip t k := by
  rcases h with rfl | ⟨t', rfl, h⟩
  · exact .inputEnd hip
  · exact .sep hip h

/-- Instructions that only occur at the end of a piece. -/
def closes : Inst → Bool
  | .inputBuf _ => false
  | i => plain i

theorem expr_not_closes {i : Inst} (h : isExpr i = true) : closes i = false := by
  cases i <;> simp_all [isExpr, closes, plain]

theorem expr_not {e : List Inst} (he : ∀ i ∈ e, isExpr i = true) {k : Nat} {x : Inst} (hx : e[k]? = some x) (hc : closes x = true) : False := by
  have := expr_not_closes (he x (List.mem_of_getElem? hx))
  rw [hc] at this
  cases this

theorem Items.noClose {t : List Inst} (h : Items t) : ∀ x ∈ t, closes x = false := by
  have hit : ∀ i, item i = true → closes i = false := by intro i; cases i <;> simp [item, closes, plain]
  induction h with
  | last a b =>
    intro x hx
    simp only [List.mem_append, List.mem_cons, List.not_mem_nil, or_false] at hx
    rcases hx with hx | rfl | rfl
    · exact expr_not_closes (a.isExpr x hx)
    · exact hit _ b
    · rfl
  | more a b c ih =>
    intro x hx
    simp only [List.mem_append, List.mem_cons] at hx
    rcases hx with hx | rfl | rfl | hx
    · exact expr_not_closes (a.isExpr x hx)
    · exact hit _ b
    · rfl
    · exact ih x hx

theorem Ready.closed {r : List Inst} {h : Nat × Nat} (hr : Ready T False r h) {k : Nat} {x : Inst} (hx : r[k]? = some x)
    (hc : closes x = true) : k + 1 = r.length := by
  have hlt : k < r.length := (List.getElem?_eq_some_iff.1 hx).1
  cases hr with
  | @plain e i _ a b =>
    simp only [List.length_append, List.length_singleton] at hlt ⊢
    by_cases hk : k < e.length
    · rw [List.getElem?_append_left hk] at hx
      exact (expr_not a.isExpr hx hc).elim
    · omega
  | @on e i ls _ a b c =>
    exfalso
    by_cases hk : k < e.length
    · rw [List.getElem?_append_left hk] at hx
      exact expr_not a.isExpr hx hc
    · rw [List.getElem?_append_right (by omega)] at hx
      cases hj : k - e.length with
      | zero =>
        rw [hj] at hx
        simp only [List.getElem?_cons_zero, Option.some.injEq] at hx
        subst hx
        rcases b with rfl | rfl <;> cases hc
      | succ j =>
        rw [hj] at hx
        simp only [List.getElem?_cons_succ] at hx
        have := c x (List.mem_of_getElem? hx)
        cases x <;> first | exact (Bool.false_ne_true this).elim | exact (Bool.false_ne_true hc).elim
  | @def_ id pid t e _ a b c =>
    exfalso
    have hm := List.mem_of_getElem? hx
    simp only [List.mem_cons, List.mem_append, List.not_mem_nil, or_false] at hm
    rcases hm with rfl | rfl | hm | rfl
    · cases hc
    · cases hc
    · have := expr_not_closes (c.isExpr x hm)
      rw [hc] at this; cases this
    · cases hc
  | @input p t _ a =>
    exfalso
    have hm := List.mem_of_getElem? hx
    simp only [List.mem_cons] at hm
    rcases hm with rfl | hm
    · cases hc
    · have := a.noClose x hm
      rw [hc] at this; cases this
  | item a => exact a.elim
  | sep a => exact a.elim
  | inputEnd a => exact a.elim

/-- After an instruction that closes a piece, a piece starts. -/
theorem Pieces.after {l : List Inst} (h : Pieces T l) {k : Nat} {x : Inst} (hx : l[k]? = some x) (hc : closes x = true) :
    Pieces T (l.drop (k + 1)) := by
  induction h generalizing k with
  | nil => simp at hx
  | @cons r l hr hl ih =>
    by_cases hk : k < r.length
    · rw [List.getElem?_append_left hk] at hx
      rw [hr.closed hx hc, List.drop_left]
      exact hl
    · rw [List.getElem?_append_right (by omega)] at hx
      have := ih hx
      have he : k + 1 = r.length + (k - r.length + 1) := by omega
      rw [he, List.drop_length_add_append]
      exact this

/-- A piece starts at the mark of a line. -/
theorem Pieces.line {l : List Inst} (h : Pieces T l) {k n : Nat} (hx : l[k]? = some (.sourceLine n)) : Pieces T (l.drop k) := by
  have h1 := h.after hx rfl
  obtain ⟨hlt, he⟩ := List.getElem?_eq_some_iff.1 hx
  have h2 : l.drop k = [.sourceLine n] ++ l.drop (k + 1) := by
    rw [List.drop_eq_getElem_cons hlt, he]; rfl
  rw [h2]
  exact .cons (Ready.plain (e := []) (Runs.nil _) rfl) h1

theorem Pieces.end_ {l : List Inst} {k : Nat} (h : l.length ≤ k) : Pieces T (l.drop k) := by
  rw [List.drop_eq_nil_of_le h]; exact .nil

/-- An INPUT statement is being executed, and a piece starts where it starts. -/
def Asked (T : Nat → Ty → Prop) (code : List Inst) (ip : Option Nat) : Prop := ∃ p, ip = some p ∧ Pieces T (code.drop p)

/-- Execution can go on at a place, with stacks of these sizes, and `ip` as the start of the INPUT statement. -/
def Safe (T : Nat → Ty → Prop) (code : List Inst) (pc : Nat) (h : Nat × Nat) (ip : Option Nat) : Prop :=
  code.drop pc = [] ∨ ∃ r rest, code.drop pc = r ++ rest ∧ Ready T (Asked T code ip) r h ∧ Pieces T rest

theorem Pieces.safe {code : List Inst} {pc : Nat} (h : Pieces T (code.drop pc)) (k : Nat × Nat) (ip : Option Nat) : Safe T code pc k ip := by
  generalize hc : code.drop pc = l at h
  cases h with
  | nil => exact .inl hc
  | cons a b => exact .inr ⟨_, _, hc, a.more (Nat.zero_le _) (Nat.zero_le _) (fun h => h.elim), b⟩

theorem Safe.types {T' : Nat → Ty → Prop} {code : List Inst} {pc : Nat} {h : Nat × Nat} {ip : Option Nat} (hs : Safe T code pc h ip)
    (ht : ∀ id t, T id t → T' id t) : Safe T' code pc h ip := by
  rcases hs with hs | ⟨r, rest, h1, h2, h3⟩
  · exact .inl hs
  · exact .inr ⟨r, rest, h1, (h2.types ht).more (Nat.le_refl _) (Nat.le_refl _) (fun ⟨p, h, h'⟩ => ⟨p, h, h'.types ht⟩), h3.types ht⟩

theorem Safe.more {code : List Inst} {pc : Nat} {h h' : Nat × Nat} {ip : Option Nat} (hs : Safe T code pc h ip)
    (h1 : h.1 ≤ h'.1) (h2 : h.2 ≤ h'.2) : Safe T code pc h' ip := by
  rcases hs with hs | ⟨r, rest, h3, h4, h5⟩
  · exact .inl hs
  · exact .inr ⟨r, rest, h3, h4.more h1 h2 id, h5⟩

/-- The instruction at a safe place, and the rest of the code. -/
theorem Safe.head {code : List Inst} {pc : Nat} {h : Nat × Nat} {ip : Option Nat} {i : Inst} (hs : Safe T code pc h ip)
    (hi : code[pc]? = some i) :
    ∃ l rest, code.drop pc = i :: (l ++ rest) ∧ code.drop (pc + 1) = l ++ rest ∧ Head T (Asked T code ip) i l h ∧ Pieces T rest := by
  obtain ⟨hlt, he⟩ := List.getElem?_eq_some_iff.1 hi
  have hd : code.drop pc = i :: code.drop (pc + 1) := by rw [List.drop_eq_getElem_cons hlt, he]
  rcases hs with hs | ⟨r, rest, h1, h2, h3⟩
  · rw [hd] at hs; cases hs
  · cases r with
    | nil => exact absurd rfl h2.ne
    | cons j l =>
      rw [hd, List.cons_append, List.cons.injEq] at h1
      obtain ⟨rfl, h1⟩ := h1
      exact ⟨l, rest, by rw [hd, h1], h1, h2.head, h3⟩

end Code

namespace V

theorem scan_spec (p : Inst → Bool) (l : List Inst) (pc : Nat) :
    (∃ i, l[scan p l pc]? = some i ∧ p i = true) ∨ l.length ≤ scan p l pc := by
  unfold scan
  have key : ∀ m : List Inst, (∃ i, m[(m.takeWhile (fun i => !p i)).length]? = some i ∧ p i = true) ∨
      m.length ≤ (m.takeWhile (fun i => !p i)).length := by
    intro m
    induction m with
    | nil => exact .inr (Nat.le_refl _)
    | cons x m ih =>
      by_cases hx : p x = true
      · left; exact ⟨x, by simp [hx], hx⟩
      · rcases ih with ⟨i, h1, h2⟩ | h1
        · left; exact ⟨i, by simpa [hx] using h1, h2⟩
        · right; simpa [hx] using h1
  rcases key (l.drop pc) with ⟨i, h1, h2⟩ | h1
  · left
    rw [List.getElem?_drop] at h1
    exact ⟨i, h1, h2⟩
  · right
    rw [List.length_drop] at h1
    omega

end V
end LB
