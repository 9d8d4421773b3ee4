import Verif.Spec.Expressions
import Verif.Proofs.FnBody
import Verif.Proofs.Names
import Verif.Proofs.Values
import Verif.Proofs.Clearing
/- What the values of expressions depend on, and how it changes. -/
namespace LB
open LB.Spec _root_.Spec

theorem Ev.bind_apply {α β : Type} (m : Ev α) (f : α → Ev β) (s : Store) : (m >>= f) s = (match m s with
    | .ok x s' => f x s'
    | .error e s' => .error e s'
    | .unknown => .unknown) := rfl

theorem Ev.of_ends {α : Type} (r : Except RunError α) (s : Store) : ∃ r', Ev.of r s = Ev.of r' s := ⟨r, rfl⟩

theorem Ev.bind_ends {α β : Type} {m : Ev α} {f : α → Ev β} {s : Store} (h : ∃ r, m s = Ev.of r s) (hf : ∀ x, ∃ r, f x s = Ev.of r s) : ∃ r, (m >>= f) s = Ev.of r s := by
  obtain ⟨r, h⟩ := h
  rw [Ev.bind_apply, h]
  cases r with
  | ok x => exact hf x
  | error e => exact ⟨.error e, rfl⟩

theorem steady_ends (env : Env) {t : Ty} {e : Expr t} (h : e.steady = true) (s : Store) : ∃ r, e.eval env s = Ev.of r s := by
  induction e with
  | num x | str x => exact ⟨_, rfl⟩
  | numVar w => exact ⟨.ok (s.nums w), rfl⟩
  | strVar w => exact ⟨.ok (s.strs w), rfl⟩
  | rnd | time | rndOf | timeOf | elem | elem2 => cases h
  | neg a ih | not a ih | numFn _ a ih | strFn _ a ih | textFn _ a ih => exact Ev.bind_ends (ih h) fun x => Ev.of_ends _ _
  | endFn _ a n ih1 ih2 | arith _ a n ih1 ih2 | concat a n ih1 ih2 | cmp _ a n ih1 ih2 | cmpStr _ a n ih1 ih2 | and a n ih1 ih2 | or a n ih1 ih2 =>
    simp only [Expr.steady, Bool.and_eq_true] at h
    exact Ev.bind_ends (ih1 h.1) fun x => Ev.bind_ends (ih2 h.2) fun y => Ev.of_ends _ _
  | mid a i n ih1 ih2 ih3 =>
    simp only [Expr.steady, Bool.and_eq_true] at h
    exact Ev.bind_ends (ih1 h.1.1) fun x => Ev.bind_ends (ih2 h.1.2) fun y => Ev.bind_ends (ih3 h.2) fun z => Ev.of_ends _ _

theorem steady_known (env : Env) {t : Ty} {e : Expr t} (h : e.steady = true) (s : Store) : e.eval env s ≠ .unknown := by
  obtain ⟨r, hr⟩ := steady_ends env h s
  rw [hr]
  cases r <;> exact fun h => by cases h

theorem draws_unique {env : Env} {g : Nat} {x y : Dbl} {a b : Nat} (h : Draws env g x a) (k : Draws env g y b) : x = y ∧ a = b := by
  induction h with
  | now h1 =>
    cases k with
    | now => exact ⟨rfl, rfl⟩
    | later h2 => rw [h1] at h2; cases h2
  | later h1 _ ih =>
    cases k with
    | now h2 => rw [h1] at h2; cases h2
    | later _ h3 => exact ih h3

theorem random_draws {env : Env} {s : Store} {x : Dbl} {g : Nat} (h : Draws env s.rng x g) : random env s = .ok x { s with rng := g } := by
  have h' : ∃ p : Dbl × Nat, Draws env s.rng p.1 p.2 := ⟨(x, g), h⟩
  unfold random
  rw [dif_pos h']
  obtain ⟨h1, h2⟩ := draws_unique h'.choose_spec h
  rw [h1, h2]

/-! Looking names up. -/

theorem find_pointwise {α : Type} {p : α → Bool} : ∀ {l l' : List α}, l.length ≤ l'.length → (∀ (q : Nat) s t, l[q]? = some s → l'[q]? = some t → p t = p s) →
    (l.find? p = none ∧ (l'.find? p = none ∨ ∃ (q : Nat) (t : α), l.length ≤ q ∧ l'[q]? = some t ∧ p t = true ∧ l'.find? p = some t)) ∨
    ∃ (q : Nat) (s t : α), l[q]? = some s ∧ l'[q]? = some t ∧ p s = true ∧ l.find? p = some s ∧ l'.find? p = some t := by
  intro l
  induction l with
  | nil =>
    intro l' _ _
    refine .inl ⟨rfl, ?_⟩
    cases hf : l'.find? p with
    | none => exact .inl rfl
    | some t =>
      obtain ⟨q, hq⟩ := List.mem_iff_getElem?.1 (List.mem_of_find?_eq_some hf)
      exact .inr ⟨q, t, Nat.zero_le _, hq, List.find?_some hf, rfl⟩
  | cons a l ih =>
    intro l' hl h
    cases l' with
    | nil => simp at hl
    | cons b l' =>
      have h0 := h 0 a b rfl rfl
      cases ha : p a with
      | true =>
        rw [ha] at h0
        exact .inr ⟨0, a, b, rfl, rfl, ha, by simp [ha], by simp [h0]⟩
      | false =>
        rw [ha] at h0
        rw [List.find?_cons_of_neg (by simp [ha]), List.find?_cons_of_neg (by simp [h0])]
        rcases ih (Nat.le_of_succ_le_succ hl) (fun q s t hs ht => h (q + 1) s t hs ht) with ⟨h1, h2 | ⟨q, t, h2, h3, h4, h5⟩⟩ | ⟨q, s, t, h1, h2, h3, h4, h5⟩
        · exact .inl ⟨h1, .inl h2⟩
        · exact .inl ⟨h1, .inr ⟨q + 1, t, Nat.succ_le_succ h2, h3, h4, h5⟩⟩
        · exact .inr ⟨q + 1, s, t, h1, h2, h3, h4, h5⟩

/-- What the name `w` stands for among the symbols of the kinds `p`. -/
def look {β : Type} (p : SymKind → Bool) (g : Symbol → β) (d : β) (st : SymTab) (w : CStr) : β :=
  match st.psym.find? (fun s => p s.kind && decide (SameIgnoringCase s.name w)) with
  | some s => g s
  | none => d

def isVariable (k : SymKind) : Bool := k == .variable
def isArray (k : SymKind) : Bool := k == .array || k == .unknown

/-- The number in a symbol. -/
def numView (s : Symbol) : Dbl := if s.defined && s.type == .num then s.num else .fin 0

/-- The string in a symbol. -/
def strView (s : Symbol) : CStr := if s.defined && s.type == .str then s.str.getD [] else []

/-- The array in a symbol. -/
def fieldView {α β : Type} (F : V.ArrField α) (conv : α → β) (zero : β) (s : Symbol) : Arr β :=
  if s.type = F.type then arrView conv zero s.defined (F.get s) else .missing

theorem numNamed_look (st : SymTab) : numNamed st = look isVariable numView (.fin 0) st := rfl

theorem strNamed_look (st : SymTab) : strNamed st = look isVariable strView [] st := rfl

theorem numArr_look (st : SymTab) : numArrNamed st = look isArray (fieldView V.numField _root_.id (.fin 0)) .missing st := rfl

theorem strArr_look (st : SymTab) : strArrNamed st = look isArray (fieldView V.strField (·.getD []) []) .missing st := rfl

/-- Names stand for the same as before. -/
theorem look_congr {β : Type} {p : SymKind → Bool} {g : Symbol → β} {d : β} {st st' : SymTab} (hl : st.psym.length ≤ st'.psym.length)
    (h : ∀ (q : Nat) s t, st.psym[q]? = some s → st'.psym[q]? = some t → t.name = s.name ∧ p t.kind = p s.kind ∧ (p s.kind = true → g t = g s))
    (hx : ∀ (q : Nat) t, st.psym.length ≤ q → st'.psym[q]? = some t → p t.kind = true → g t = d) : look p g d st' = look p g d st := by
  funext w
  unfold look
  rcases find_pointwise (p := fun s : Symbol => p s.kind && decide (SameIgnoringCase s.name w)) hl
    (fun q s t hs ht => by obtain ⟨h1, h2, _⟩ := h q s t hs ht; simp only [h1, h2]) with ⟨h1, h2 | ⟨q, t, h2, h3, h4, h5⟩⟩ | ⟨q, s, t, h1, h2, h3, h4, h5⟩
  · rw [h1, h2]
  · rw [h1, h5]
    simp only [Bool.and_eq_true] at h4
    exact hx q t h2 h3 h4.1
  · rw [h4, h5]
    simp only [Bool.and_eq_true] at h3
    exact (h q s t h1 h2).2.2 h3.1

/-- Names of one class are not confused. -/
def OfClass (p : SymKind → Bool) (paren : Bool) : Prop := ∀ k, p k = true → InClass k paren

theorem isVariable_class : OfClass isVariable false := by intro k hk; cases k <;> simp_all [isVariable, InClass]
theorem isArray_class : OfClass isArray true := by intro k hk; cases k <;> simp_all [isArray, InClass]

theorem look_entry {β : Type} {p : SymKind → Bool} {g : Symbol → β} {d : β} {paren : Bool} (hp : OfClass p paren) {st : SymTab} (hw : WellNamed st) {w : CStr} {q : Nat} {s : Symbol}
    (hs : st.psym[q]? = some s) (hn : SameIgnoringCase s.name w) (hk : p s.kind = true) : look p g d st w = g s := by
  unfold look
  have hp' : (p s.kind && decide (SameIgnoringCase s.name w)) = true := by simp [hk, hn]
  cases hf : st.psym.find? (fun s => p s.kind && decide (SameIgnoringCase s.name w)) with
  | none =>
    have := List.find?_eq_none.1 hf s (List.mem_of_getElem? hs)
    exact absurd hp' this
  | some s' =>
    have h1 := List.find?_some hf
    simp only [Bool.and_eq_true, decide_eq_true_eq] at h1
    obtain ⟨q', hq'⟩ := List.mem_iff_getElem?.1 (List.mem_of_find?_eq_some hf)
    have := hw.uniq w paren q' q ⟨s', hq', h1.2, hp _ h1.1⟩ ⟨s, hs, hn, hp _ hk⟩
    subst this
    rw [hs] at hq'
    cases hq'
    rfl

theorem same_symm {a b : CStr} (h : SameIgnoringCase a b) : SameIgnoringCase b a := Eq.symm h
theorem same_trans {a b c : CStr} (h : SameIgnoringCase a b) (h' : SameIgnoringCase b c) : SameIgnoringCase a c := Eq.trans h h'

/-- One name gets another meaning. -/
theorem look_update {β : Type} {p : SymKind → Bool} {g : Symbol → β} {d : β} {paren : Bool} (hp : OfClass p paren) {st : SymTab} (hw : WellNamed st) {w : CStr} {q : Nat} {s : Symbol}
    (hs : st.psym[q]? = some s) (hn : SameIgnoringCase s.name w) (hk : p s.kind = true) {f : Symbol → Symbol} (hf : V.ValueOnly f) :
    look p g d (symUpdate st q f) = assign (look p g d st) w (g (f s)) := by
  funext v
  unfold assign
  split
  · rename_i hv
    have h1 : (symUpdate st q f).psym[q]? = some (f s) := symUpdate_same hs
    obtain ⟨e1, -, e3, -⟩ := hf s
    exact look_entry hp (hw.update q f hf) h1 (by rw [e1]; exact same_trans hn (same_symm hv)) (by rw [e3]; exact hk)
  · rename_i hv
    unfold look
    have hpt : ∀ (j : Nat) s1 t, st.psym[j]? = some s1 → (symUpdate st q f).psym[j]? = some t →
        (t.name = s1.name ∧ t.kind = s1.kind) ∧ (j ≠ q → t = s1) := by
      intro j s1 t hs1 ht
      by_cases hj : j = q
      · subst hj
        rw [symUpdate_same hs1] at ht
        cases ht
        exact ⟨⟨(hf s1).1, (hf s1).2.2.1⟩, fun h => absurd rfl h⟩
      · rw [symUpdate_other _ _ _ _ hj, hs1] at ht
        cases ht
        exact ⟨⟨rfl, rfl⟩, fun _ => rfl⟩
    have hlen : st.psym.length = (symUpdate st q f).psym.length := by simp [symUpdate]
    rcases find_pointwise (p := fun s : Symbol => p s.kind && decide (SameIgnoringCase s.name v)) (Nat.le_of_eq hlen)
      (fun j s1 t hs1 ht => by obtain ⟨⟨e1, e2⟩, -⟩ := hpt j s1 t hs1 ht; simp only [e1, e2]) with ⟨h1, h2 | ⟨j, t, h2, h3, h4, h5⟩⟩ | ⟨j, s1, t, h1, h2, h3, h4, h5⟩
    · rw [h1, h2]
    · have := (List.getElem?_eq_some_iff.1 h3).1
      omega
    · rw [h4, h5]
      simp only [Bool.and_eq_true, decide_eq_true_eq] at h3
      by_cases hj : j = q
      · subst hj
        rw [hs] at h1
        cases h1
        exact absurd (same_trans (same_symm h3.2) hn) hv
      · rw [(hpt j s1 t h1 h2).2 hj]

/-- Names of other kinds stand for what they stood for. -/
theorem look_update_other {β : Type} {p : SymKind → Bool} {g : Symbol → β} {d : β} {st : SymTab} {q : Nat} {s : Symbol}
    (hs : st.psym[q]? = some s) {f : Symbol → Symbol} (hf : V.ValueOnly f) (hk : p s.kind = true → g (f s) = g s) :
    look p g d (symUpdate st q f) = look p g d st := by
  have hlen : st.psym.length = (symUpdate st q f).psym.length := by simp [symUpdate]
  refine look_congr (Nat.le_of_eq hlen) (fun j s1 t hs1 ht => ?_) (fun j t hj ht _ => ?_)
  · by_cases hj : j = q
    · subst hj
      rw [hs] at hs1
      cases hs1
      rw [symUpdate_same hs] at ht
      cases ht
      exact ⟨(hf s).1, by rw [(hf s).2.2.1], hk⟩
    · rw [symUpdate_other _ _ _ _ hj, hs1] at ht
      cases ht
      exact ⟨rfl, rfl, fun _ => rfl⟩
  · have := (List.getElem?_eq_some_iff.1 ht).1
    omega

theorem assign_self {β : Type} {vals : CStr → β} {w : CStr} {x : β} (h : ∀ v, SameIgnoringCase v w → vals v = x) : assign vals w x = vals := by
  funext v
  unfold assign
  split
  · rename_i hv; rw [h v hv]
  · rfl

theorem assign_twice {β : Type} {vals : CStr → β} {w : CStr} {x y : β} : assign (assign vals w x) w y = assign vals w y := by
  funext v
  unfold assign
  split <;> rfl

/-! Variables that are read. -/

theorem storeOf_eq {vm vm' : VM} (h1 : numNamed vm'.st = numNamed vm.st) (h2 : strNamed vm'.st = strNamed vm.st) (h3 : numArrNamed vm'.st = numArrNamed vm.st)
    (h4 : strArrNamed vm'.st = strArrNamed vm.st) (h5 : vm'.world.rng = vm.world.rng) (h6 : vm'.world.ticks = vm.world.ticks) : storeOf vm' = storeOf vm := by
  unfold storeOf
  rw [h1, h2, h3, h4, h5, h6]

theorem storeOf_world {vm vm' : VM} (h1 : vm'.st = vm.st) (h2 : vm'.world = vm.world) : storeOf vm' = storeOf vm := by
  unfold storeOf
  rw [h1, h2]

/-- A change to a variable does not change arrays. -/
theorem arrays_variable {st : SymTab} {q : Nat} {s : Symbol} (hs : st.psym[q]? = some s) (hk : s.kind = .variable) {f : Symbol → Symbol} (hf : V.ValueOnly f) :
    numArrNamed (symUpdate st q f) = numArrNamed st ∧ strArrNamed (symUpdate st q f) = strArrNamed st := by
  refine ⟨?_, ?_⟩
  · rw [numArr_look, numArr_look, look_update_other hs hf fun h => ?_]
    simp [hk, isArray] at h
  · rw [strArr_look, strArr_look, look_update_other hs hf fun h => ?_]
    simp [hk, isArray] at h

theorem valueOnly_num (x : Dbl) (b : Bool) : V.ValueOnly (fun s => { s with num := x, defined := b }) := fun _ => ⟨rfl, rfl, rfl, rfl⟩
theorem valueOnly_str (x : Option CStr) (b : Bool) : V.ValueOnly (fun s => { s with str := x, defined := b }) := fun _ => ⟨rfl, rfl, rfl, rfl⟩

theorem named_numRead {st : SymTab} {q : Nat} {s : Symbol} (hs : st.psym[q]? = some s) (ht : s.type = .num) (hd : s.defined = false) :
    numNamed (symUpdate st q (fun s => { s with num := .fin 0, defined := true })) = numNamed st ∧
    strNamed (symUpdate st q (fun s => { s with num := .fin 0, defined := true })) = strNamed st := by
  refine ⟨?_, ?_⟩
  · rw [numNamed_look, numNamed_look, look_update_other hs (valueOnly_num _ _) fun h => ?_]
    simp [numView, hd]
  · rw [strNamed_look, strNamed_look, look_update_other hs (valueOnly_num _ _) fun h => ?_]
    simp [strView, hd, ht]

theorem named_strRead {st : SymTab} {q : Nat} {s : Symbol} (hs : st.psym[q]? = some s) (ht : s.type = .str) (hd : s.defined = false) :
    numNamed (symUpdate st q (fun s => { s with str := none, defined := true })) = numNamed st ∧
    strNamed (symUpdate st q (fun s => { s with str := none, defined := true })) = strNamed st := by
  refine ⟨?_, ?_⟩
  · rw [numNamed_look, numNamed_look, look_update_other hs (valueOnly_str _ _) fun h => ?_]
    simp [numView, hd, ht]
  · rw [strNamed_look, strNamed_look, look_update_other hs (valueOnly_str _ _) fun h => ?_]
    simp [strView, hd]

/-! Subscripts. -/

theorem count_isCount (x : Dbl) : (∀ n, Spec.count x = .ok n → IsCount x n) ∧
    (∀ e, Spec.count x = .error e → (V.notNatural x = true ∧ e = .notNonNegative) ∨ (V.notNatural x = false ∧ V.aboveUnsigned x = true ∧ e = .outOfRange)) := by
  cases x with
  | fin q =>
    simp only [Spec.count]
    by_cases h1 : q.den = 1 ∧ 0 ≤ q.num
    · rw [if_pos h1]
      have hq : q = ((q.num : Int) : Rat) := by
        apply Rat.ext
        · simp
        · simp [h1.1]
      have hnat : V.notNatural (.fin q) = false := by
        have hlt := V.lt_int (k := q.num) (m := 0)
        rw [show ((0 : Int) : Rat) = 0 from rfl, ← hq] at hlt
        have hfl : Dbl.ne (Dbl.floor (.fin q)) (.fin q) = false := by
          rw [V.floor_ne_comm]
          exact (V.ne_floor_iff _).2 (.inl ⟨q.num, .inl (by rw [← hq])⟩)
        simp only [V.notNatural, hlt, hfl, Bool.or_false]
        simp only [decide_eq_false_iff_not]
        omega
      have hab := V.lt_int (k := 4294967295) (m := q.num)
      rw [show ((4294967295 : Int) : Rat) = 4294967295 from rfl, ← hq] at hab
      by_cases h2 : q.num ≤ 4294967295
      · rw [if_pos h2]
        refine ⟨fun n hn => ?_, fun e he => (by cases he)⟩
        cases hn
        refine ⟨.inl ?_, by omega⟩
        rw [Int.toNat_of_nonneg h1.2, ← hq]
      · rw [if_neg h2]
        refine ⟨fun n hn => (by cases hn), fun e he => ?_⟩
        cases he
        refine .inr ⟨hnat, ?_, rfl⟩
        simp only [V.aboveUnsigned, hab, decide_eq_true_eq]
        omega
    · rw [if_neg h1]
      refine ⟨fun n hn => (by cases hn), fun e he => ?_⟩
      cases he
      refine .inl ⟨?_, rfl⟩
      cases hn : V.notNatural (.fin q) with
      | true => rfl
      | false =>
        exfalso
        simp only [V.notNatural, V.floor_ne_comm, Bool.or_eq_false_iff] at hn
        rcases (V.ne_floor_iff _).1 hn.2 with ⟨k, hk⟩ | h | h
        · rcases hk with hk | ⟨hk, _⟩
          · cases hk
            have := V.lt_int (k := k) (m := 0)
            rw [show ((0 : Int) : Rat) = 0 from rfl, hn.1] at this
            simp at this
            exact h1 ⟨by simp, by simpa using this⟩
          · cases hk
        · cases h
        · cases h
  | nzero => exact ⟨fun n hn => by cases hn; exact ⟨.inr ⟨rfl, rfl⟩, by omega⟩, fun e he => (by cases he)⟩
  | pinf => exact ⟨fun n hn => (by cases hn), fun e he => (by cases he; exact .inr ⟨by decide +kernel, by decide +kernel, rfl⟩)⟩
  | ninf => exact ⟨fun n hn => (by cases hn), fun e he => (by cases he; exact .inl ⟨by decide +kernel, rfl⟩)⟩
  | nan => exact ⟨fun n hn => (by cases hn), fun e he => (by cases he; exact .inl ⟨by decide +kernel, rfl⟩)⟩

theorem subscript_count (x : Dbl) : (∀ n, subscript x = .ok n → Spec.count x = .ok n) ∧ (∀ e, subscript x = .error e → (Spec.count x = .error .outOfRange ∧ e = .indexOutOfRange) ∨
    (Spec.count x = .error .notNonNegative ∧ e = .indexNotNonNegative)) := by
  cases x with
  | fin q =>
    simp only [subscript, Spec.count]
    split
    · split
      · exact ⟨fun n h => by cases h; rfl, fun e h => (by cases h)⟩
      · exact ⟨fun n h => (by cases h), fun e h => by cases h; exact .inl ⟨rfl, rfl⟩⟩
    · exact ⟨fun n h => (by cases h), fun e h => by cases h; exact .inr ⟨rfl, rfl⟩⟩
  | nzero => exact ⟨fun n h => by cases h; rfl, fun e h => (by cases h)⟩
  | pinf => exact ⟨fun n h => (by cases h), fun e h => by cases h; exact .inl ⟨rfl, rfl⟩⟩
  | ninf => exact ⟨fun n h => (by cases h), fun e h => by cases h; exact .inr ⟨rfl, rfl⟩⟩
  | nan => exact ⟨fun n h => (by cases h), fun e h => by cases h; exact .inr ⟨rfl, rfl⟩⟩

theorem subscript_ok {x : Dbl} {n : Nat} (h : subscript x = .ok n) : IsCount x n := (count_isCount x).1 n ((subscript_count x).1 n h)

theorem subscript_error {vm : VM} {x : Dbl} {rest : List Dbl} {e : RunError} (hs : vm.stack = x :: rest) (h : subscript x = .error e) :
    V.popIndex vm = .err e { vm with stack := rest } := by
  rcases (subscript_count x).2 e h with ⟨h1, rfl⟩ | ⟨h1, rfl⟩
  · rcases (count_isCount x).2 _ h1 with ⟨h2, h3⟩ | ⟨h2, h3, h4⟩
    · cases h3
    · simp [V.popIndex, V.pop, hs, h2, h3]
  · rcases (count_isCount x).2 _ h1 with ⟨h2, h3⟩ | ⟨h2, h3, h4⟩
    · simp [V.popIndex, V.pop, hs, h2]
    · cases h4

theorem mapM_counts {xs : List Dbl} : ∀ {ns : List Nat}, xs.mapM subscript = Except.ok ns → AreCounts xs ns := by
  induction xs with
  | nil => intro ns h; cases h; trivial
  | cons x xs ih =>
    intro ns h
    rw [List.mapM_cons] at h
    cases hx : subscript x with
    | error e => rw [hx] at h; cases h
    | ok n =>
      rw [hx] at h
      cases hm : xs.mapM subscript with
      | error e => rw [hm] at h; cases h
      | ok ms => rw [hm] at h; cases h; exact ⟨subscript_ok hx, ih hm⟩

theorem mapM_error {xs rest : List Dbl} : ∀ {vm : VM} {e : RunError}, vm.stack = xs ++ rest → xs.mapM subscript = Except.error e →
    ∃ r, V.popIndexLoop xs.length vm = .err e { vm with stack := r } := by
  induction xs with
  | nil => intro vm e _ h; cases h
  | cons x xs ih =>
    intro vm e hs h
    rw [List.mapM_cons] at h
    cases hx : subscript x with
    | error e' =>
      rw [hx] at h
      cases h
      exact ⟨xs ++ rest, by simp only [List.length_cons, V.popIndexLoop, V.bind_apply, subscript_error (rest := xs ++ rest) hs hx]⟩
    | ok n =>
      rw [hx] at h
      cases hm : xs.mapM subscript with
      | ok ms => rw [hm] at h; cases h
      | error e' =>
        rw [hm] at h
        cases h
        obtain ⟨r, hr⟩ := ih (vm := { vm with stack := xs ++ rest }) rfl hm
        exact ⟨r, by simp only [List.length_cons, V.popIndexLoop, V.bind_apply, V.popIndex_count (rest := xs ++ rest) hs (subscript_ok hx), hr]⟩

theorem subscripts_ok {xs : List Dbl} {idx : List Nat} (h : subscripts xs = .ok idx) : AreCounts xs.reverse idx.reverse ∧ idx.length = xs.length := by
  unfold subscripts at h
  cases hm : xs.reverse.mapM subscript with
  | error e => rw [hm] at h; cases h
  | ok l =>
    rw [hm] at h
    cases h
    have := mapM_counts hm
    refine ⟨by simpa using this, ?_⟩
    have len : ∀ {a : List Dbl} {b : List Nat}, AreCounts a b → b.length = a.length := by
      intro a
      induction a with
      | nil => intro b h; cases b with
        | nil => rfl
        | cons => exact absurd h _root_.id
      | cons x a ih => intro b h; cases b with
        | nil => exact absurd h _root_.id
        | cons n b => simp [ih h.2]
    simpa using len this

theorem subscripts_error {xs rest : List Dbl} {n : Nat} {vm : VM} {e : RunError} (hs : vm.stack = xs.reverse ++ rest) (hn : xs.length = n) (h2 : n ≤ 2)
    (h : subscripts xs = .error e) : ∃ r, V.popIndexes n vm = .err e { vm with stack := r } := by
  unfold subscripts at h
  cases hm : xs.reverse.mapM subscript with
  | ok l => rw [hm] at h; cases h
  | error e' =>
    rw [hm] at h
    cases h
    obtain ⟨r, hr⟩ := mapM_error hs hm
    rw [List.length_reverse, hn] at hr
    exact ⟨r, by simp [V.popIndexes, show n ≤ maxDimensions from h2, hr]⟩

/-! Arrays. -/

theorem cells_reverse (l : List Nat) : cells l.reverse = cells l := by
  unfold cells
  rw [List.map_reverse]
  exact (List.reverse_perm _).prod_nat

theorem inRange_reverse {a b : List Nat} : InRange a.reverse b.reverse ↔ InRange a b := by
  have key : ∀ {a b : List Nat}, InRange a b → InRange a.reverse b.reverse := by
    rintro a b ⟨h1, h2⟩
    refine ⟨by simp [h1], fun k i m hi hm => ?_⟩
    have hk := (List.getElem?_eq_some_iff.1 hi).1
    rw [List.length_reverse] at hk
    rw [List.getElem?_reverse hk] at hi
    rw [List.getElem?_reverse (by omega)] at hm
    exact h2 _ i m hi (by rw [h1]; exact hm)
  exact ⟨fun h => by simpa using key h, key⟩

theorem arrView_dim {α β : Type} {conv : α → β} {z : β} {a : BArray α} {mx : List Nat} (h : Dimensioned a mx) :
    arrView conv z true (some a) = .made mx.reverse (cellOf conv z a) := by
  obtain ⟨h1, h2, h3, h4⟩ := h
  have hm : a.size.max = mx := by rw [h3]
  unfold arrView
  simp only [hm]
  rw [if_pos ⟨trivial, h1, h2, h3, h4⟩]

theorem arrView_made {α β : Type} {conv : α → β} {z : β} {d : Bool} {o : Option (BArray α)} {dims : List Nat} {cell : List Nat → β} (h : arrView conv z d o = .made dims cell) :
    ∃ a mx, o = some a ∧ d = true ∧ Dimensioned a mx ∧ dims = mx.reverse ∧ cell = cellOf conv z a := by
  cases o with
  | none => cases d <;> simp [arrView] at h
  | some a =>
    unfold arrView at h
    simp only at h
    split at h
    · rename_i hc
      obtain ⟨h1, h2, h3, h4, h5⟩ := hc
      cases h
      exact ⟨a, a.size.max, rfl, h1, ⟨h2, h3, h4, h5⟩, rfl, rfl⟩
    · cases h

theorem arrView_missing {α β : Type} {conv : α → β} {z : β} {d : Bool} {o : Option (BArray α)} (h : arrView conv z d o = .missing) : o = none ∧ d = false := by
  cases o with
  | none => cases d with
    | true => simp [arrView] at h
    | false => exact ⟨rfl, rfl⟩
  | some a =>
    unfold arrView at h
    simp only at h
    split at h <;> cases h

theorem cellOf_fresh {α β : Type} {F : V.ArrField α} {conv : α → β} {z : β} (hz : conv F.zero = z) {mx : List Nat} (h : Shape mx) :
    cellOf conv z (V.fresh F mx) = fun _ => z := by
  funext idx
  unfold cellOf
  by_cases hr : InRange idx.reverse mx
  · rw [((V.fresh_filled F h) idx.reverse).1 hr]; exact hz
  · rw [((V.fresh_filled F h) idx.reverse).2 hr]

theorem cellOf_set {α β : Type} {conv : α → β} {z : β} {a b : BArray α} {mx idx : List Nat} {v : α} (h : Dimensioned a mx) (hb : arraySet a idx.reverse v = .ok (some b)) :
    cellOf conv z b = fun j => if j = idx then conv v else cellOf conv z a j := by
  obtain ⟨h1, h2⟩ := C14_elements_separate a b mx idx.reverse v h hb
  funext j
  by_cases hj : j = idx
  · rw [if_pos hj]
    unfold cellOf
    rw [hj, h1]
  · rw [if_neg hj]
    unfold cellOf
    rw [h2 j.reverse (fun hh => hj (by simpa using hh))]

/-- The change of a symbol that concerns its array only. -/
def ArrayOnly (t : Ty) (f : Symbol → Symbol) : Prop :=
  V.ValueOnly f ∧ (∀ s, (f s).num = s.num ∧ (f s).str = s.str ∧ (f s).def_ = s.def_) ∧ ∀ s, (t ≠ .num → (f s).numarr = s.numarr) ∧ (t ≠ .str → (f s).strarr = s.strarr)

/-- What the arrays of numbers and of strings have in common. -/
structure Kin {α : Type} (F : V.ArrField α) (t : Ty) (conv : α → Meaning t) : Prop where
  field : V.Field F
  held : FieldHeld F
  type : F.type = t
  zero : conv F.zero = blank t
  only : ∀ a b, ArrayOnly t (fun s => { F.set a s with defined := b })
  only' : ∀ a, ArrayOnly t (F.set a)
  arr : ∀ vm w, (storeOf vm).arr t w = look isArray (fieldView F conv (blank t)) .missing vm.st w
  set : ∀ (vm vm' : VM) (q : Nat) (s : Symbol) (w : CStr) (f : Symbol → Symbol), WellNamed vm.st → vm.st.psym[q]? = some s → SameIgnoringCase s.name w → s.kind = .array →
    s.type = t → V.ValueOnly f → vm'.st = symUpdate vm.st q f → vm'.world = vm.world →
    storeOf vm' = (storeOf vm).setArr t w (arrView conv (blank t) (f s).defined (F.get (f s)))

theorem named_array {st : SymTab} {q : Nat} {s : Symbol} (hs : st.psym[q]? = some s) (hk : s.kind = .array) {f : Symbol → Symbol} (hf : V.ValueOnly f) :
    numNamed (symUpdate st q f) = numNamed st ∧ strNamed (symUpdate st q f) = strNamed st := by
  refine ⟨?_, ?_⟩
  · rw [numNamed_look, numNamed_look, look_update_other hs hf fun h => ?_]
    simp [hk, isVariable] at h
  · rw [strNamed_look, strNamed_look, look_update_other hs hf fun h => ?_]
    simp [hk, isVariable] at h

theorem kin_num : Kin V.numField .num (fun x : Dbl => x) where
  field := V.field_num
  held := numField_held
  type := rfl
  zero := rfl
  only _ _ := ⟨fun _ => ⟨rfl, rfl, rfl, rfl⟩, fun _ => ⟨rfl, rfl, rfl⟩, fun _ => ⟨fun h => absurd rfl h, fun _ => rfl⟩⟩
  only' _ := ⟨fun _ => ⟨rfl, rfl, rfl, rfl⟩, fun _ => ⟨rfl, rfl, rfl⟩, fun _ => ⟨fun h => absurd rfl h, fun _ => rfl⟩⟩
  arr _ _ := rfl
  set vm vm' q s w f hw hs hn hk ht hf h1 h2 := by
    obtain ⟨e1, e2⟩ := named_array hs hk hf
    have hka : isArray s.kind = true := by rw [hk]; rfl
    have e3 : numArrNamed (symUpdate vm.st q f) = _ := look_update (g := fieldView V.numField _root_.id (.fin 0)) (d := .missing) isArray_class hw hs hn hka hf
    have e4 : strArrNamed (symUpdate vm.st q f) = strArrNamed vm.st := look_update_other (p := isArray) (g := fieldView V.strField (·.getD []) []) (d := .missing) hs hf
      (fun _ => by simp [fieldView, (hf s).2.2.2, ht, V.strField])
    unfold storeOf Store.setArr
    rw [h1, h2, e1, e2, e3, e4]
    simp only [fieldView, (hf s).2.2.2, ht]
    rfl

theorem kin_str : Kin V.strField .str (fun x : Option CStr => x.getD []) where
  field := V.field_str
  held := strField_held
  type := rfl
  zero := rfl
  only _ _ := ⟨fun _ => ⟨rfl, rfl, rfl, rfl⟩, fun _ => ⟨rfl, rfl, rfl⟩, fun _ => ⟨fun _ => rfl, fun h => absurd rfl h⟩⟩
  only' _ := ⟨fun _ => ⟨rfl, rfl, rfl, rfl⟩, fun _ => ⟨rfl, rfl, rfl⟩, fun _ => ⟨fun _ => rfl, fun h => absurd rfl h⟩⟩
  arr _ _ := rfl
  set vm vm' q s w f hw hs hn hk ht hf h1 h2 := by
    obtain ⟨e1, e2⟩ := named_array hs hk hf
    have hka : isArray s.kind = true := by rw [hk]; rfl
    have e3 : strArrNamed (symUpdate vm.st q f) = _ := look_update (g := fieldView V.strField (·.getD []) []) (d := .missing) isArray_class hw hs hn hka hf
    have e4 : numArrNamed (symUpdate vm.st q f) = numArrNamed vm.st := look_update_other (p := isArray) (g := fieldView V.numField _root_.id (.fin 0)) (d := .missing) hs hf
      (fun _ => by simp [fieldView, (hf s).2.2.2, ht, V.numField])
    unfold storeOf Store.setArr
    rw [h1, h2, e1, e2, e3, e4]
    simp only [fieldView, (hf s).2.2.2, ht]
    rfl

/-- The machine has an array for this name. -/
structure HasArray (vm : VM) (t : Ty) (w : CStr) (q : Nat) (s : Symbol) : Prop where
  names : WellNamed vm.st
  at_ : vm.st.psym[q]? = some s
  name : SameIgnoringCase s.name w
  kind : s.kind = .array
  type : s.type = t

section
variable {α : Type} {F : V.ArrField α} {t : Ty} {conv : α → Meaning t}

theorem Kin.view (K : Kin F t conv) {vm : VM} {w : CStr} {q : Nat} {s : Symbol} (h : HasArray vm t w q s) :
    (storeOf vm).arr t w = arrView conv (blank t) s.defined (F.get s) := by
  rw [K.arr, look_entry isArray_class h.names h.at_ h.name (by rw [h.kind]; rfl)]
  unfold fieldView
  rw [if_pos (by rw [h.type, K.type])]

theorem setArr_arr (ht : t ≠ .err) (s : Store) (w : CStr) (a : Arr (Meaning t)) : (s.setArr t w a).arr t w = a := by
  have : ∀ {β : Type} (f : CStr → β) (x : β), assign f w x w = x := by
    intro β f x
    unfold assign
    rw [if_pos (show SameIgnoringCase w w from rfl)]
  cases t with
  | num => exact this _ _
  | str => exact this _ _
  | err => exact absurd rfl ht

/-- The array of an element is there, or is made. -/
theorem Kin.settles (K : Kin F t conv) (ht : t ≠ .err) {vm : VM} {w : CStr} {q n : Nat} {s : Symbol} {xs rest : List Dbl} {idx : List Nat} (h : HasArray vm t w q s)
    (hst : vm.stack = xs.reverse ++ rest) (hn : xs.length = n) (h1 : 1 ≤ n) (h2 : n ≤ 2) (hx : subscripts xs = .ok idx) :
    (∀ s1, settle t w idx (storeOf vm) = .ok () s1 → ∃ a mx f, V.elementArray F q n vm = .ok (a, idx.reverse) { vm with stack := rest, st := symUpdate vm.st q f } ∧
      ArrayOnly t f ∧ (f s).defined = true ∧ F.get (f s) = some a ∧ Dimensioned a mx ∧ storeOf { vm with stack := rest, st := symUpdate vm.st q f } = s1 ∧
      s1.arr t w = .made mx.reverse (cellOf conv (blank t) a)) ∧
    (∀ e s1, settle t w idx (storeOf vm) = .error e s1 → ∃ f, V.elementArray F q n vm = .err e { vm with stack := rest, st := symUpdate vm.st q f } ∧
      ArrayOnly t f ∧ (f s).defined = false ∧ F.get (f s) = none ∧ storeOf { vm with stack := rest, st := symUpdate vm.st q f } = s1) := by
  obtain ⟨hc, hlen⟩ := subscripts_ok hx
  have hview := K.view h
  have ha : V.isArr s F.type = true := isArr_iff.2 ⟨h.kind, by rw [h.type, K.type]⟩
  have hlr : xs.reverse.length = n := by simpa using hn
  have hid : ∀ st : SymTab, symUpdate st q (fun s => s) = st := by
    intro st
    unfold symUpdate
    have : st.psym.modify q (fun s => s) = st.psym := List.modify_id _ _
    rw [this]
  have honly : ∀ a b, ArrayOnly t (fun s => { F.set a s with defined := b }) := K.only
  unfold settle
  cases hv : (storeOf vm).arr t w with
  | odd => exact ⟨fun s1 hh => (by cases hh), fun e s1 hh => (by cases hh)⟩
  | made dims cell =>
    rw [hview] at hv
    obtain ⟨a, mx, e1, e2, e3, e4, e5⟩ := arrView_made hv
    refine ⟨fun s1 hh => ?_, fun e s1 hh => (by cases hh)⟩
    cases hh
    refine ⟨a, mx, fun s => s, ?_, ⟨fun _ => ⟨rfl, rfl, rfl, rfl⟩, fun _ => ⟨rfl, rfl, rfl⟩, fun _ => ⟨fun _ => rfl, fun _ => rfl⟩⟩, e2, e1, e3, ?_, ?_⟩
    · rw [hid]
      have hp := V.popIndexes_counts hst hlr (show n ≤ maxDimensions from h2) hc
      have hs' : ({ vm with stack := rest } : VM).st.psym[q]? = some s := h.at_
      unfold V.elementArray
      simp only [V.bind_apply, V.sym_ok h.at_, V.assert_apply, ha, if_true, hp, V.when_apply, e2, Bool.not_true, Bool.false_eq_true, if_false, V.sym_ok hs', e1, V.pure_apply]
    · rw [hid]; exact storeOf_world rfl rfl
    · rw [hview, hv, e4, e5]
  | missing =>
    rw [hview] at hv
    obtain ⟨e1, e2⟩ := arrView_missing hv
    simp only [Spec.dimension]
    by_cases hb : 4294967295 ∈ idx.map (max 10)
    · rw [if_pos hb]
      exact ⟨fun s1 hh => (by cases hh), fun e s1 hh => (by cases hh)⟩
    · rw [if_neg hb]
      have hlt : ∀ m ∈ idx.reverse, m < 2 ^ 32 - 1 := by
        intro m hm
        have hbd : m ≤ 4294967295 := by
          have : ∀ {a : List Dbl} {b : List Nat}, AreCounts a b → ∀ m ∈ b, m ≤ 4294967295 := by
            intro a
            induction a with
            | nil => intro b h; cases b with
              | nil => intro m hm; cases hm
              | cons => exact absurd h _root_.id
            | cons x a ih => intro b h; cases b with
              | nil => exact absurd h _root_.id
              | cons n b =>
                intro m hm
                rcases List.mem_cons.1 hm with rfl | hm
                · exact h.1.2
                · exact ih h.2 m hm
          exact this hc m hm
        have : m ≠ 4294967295 := by
          rintro rfl
          exact hb (List.mem_map.2 ⟨4294967295, List.mem_reverse.1 hm, rfl⟩)
        omega
      have hauto := V.elementArray_auto K.field h.at_ ha e2 e1 hst hlr h2 hc hlt
      have hcells : cells (autoShape idx.reverse) = cells (idx.map (max 10)) := by
        show cells (idx.reverse.map (max 10)) = _
        rw [List.map_reverse, cells_reverse]
      have hshape : Shape (autoShape idx.reverse) ↔ cells (idx.map (max 10)) ≤ 65536 := by
        unfold Shape
        rw [hcells]
        have : (autoShape idx.reverse).length = n := by simp [autoShape, hlen, hn]
        rw [this]
        constructor
        · exact fun h => h.2
        · exact fun h => ⟨by omega, h⟩
      have hrev : (autoShape idx.reverse).reverse = idx.map (max 10) := by
        show (idx.reverse.map (max 10)).reverse = _
        rw [List.map_reverse, List.reverse_reverse]
      by_cases hsz : cells (idx.map (max 10)) ≤ 65536
      · rw [if_pos hsz]
        refine ⟨fun s1 hh => ?_, fun e s1 hh => (by cases hh)⟩
        cases hh
        have hsh := hshape.2 hsz
        rw [if_pos hsh] at hauto
        refine ⟨_, _, _, hauto, honly _ _, rfl, K.field.get' _ _ _, V.fresh_dim F hsh, ?_, ?_⟩
        · refine (K.set vm { vm with stack := rest, st := V.withArray F vm.st q (V.fresh F (autoShape idx.reverse)) } q s w _ h.names h.at_ h.name h.kind h.type (honly _ _).1 rfl rfl).trans ?_
          rw [K.field.get', arrView_dim (V.fresh_dim F hsh), cellOf_fresh K.zero hsh, hrev]
        · rw [setArr_arr ht, cellOf_fresh K.zero hsh, hrev]
      · rw [if_neg hsz]
        refine ⟨fun s1 hh => (by cases hh), fun e s1 hh => ?_⟩
        cases hh
        rw [if_neg (fun hh => hsz (hshape.1 hh))] at hauto
        refine ⟨fun s => s, ?_, ⟨fun _ => ⟨rfl, rfl, rfl, rfl⟩, fun _ => ⟨rfl, rfl, rfl⟩, fun _ => ⟨fun _ => rfl, fun _ => rfl⟩⟩, e2, e1, ?_⟩
        · rw [hid]; exact hauto
        · have := K.set vm { vm with stack := rest, st := symUpdate vm.st q (fun s => s) } q s w (fun s => s) h.names h.at_ h.name h.kind h.type (fun _ => ⟨rfl, rfl, rfl, rfl⟩) rfl rfl
          rw [this, hv]

/-- Reading an element. -/
theorem Kin.gets (K : Kin F t conv) (ht : t ≠ .err) {vm : VM} {w : CStr} {q n : Nat} {s : Symbol} {xs rest : List Dbl} (h : HasArray vm t w q s)
    (hst : vm.stack = xs.reverse ++ rest) (hn : xs.length = n) (h1 : 1 ≤ n) (h2 : n ≤ 2) :
    (∀ v s1, element t w xs (storeOf vm) = .ok v s1 → ∃ y f, V.getElement F q n vm = .ok y { vm with stack := rest, st := symUpdate vm.st q f } ∧ conv y = v ∧
      ArrayOnly t f ∧ storeOf { vm with stack := rest, st := symUpdate vm.st q f } = s1) ∧
    (∀ e s1, element t w xs (storeOf vm) = .error e s1 → ∃ vm', V.getElement F q n vm = .err e vm' ∧ storeOf vm' = s1) := by
  simp only [element, Ev.bind_apply]
  cases hx : subscripts xs with
  | error e0 =>
    refine ⟨fun v s1 hh => (by cases hh), fun e s1 hh => ?_⟩
    cases hh
    obtain ⟨r, hr⟩ := subscripts_error hst hn h2 hx
    have ha : V.isArr s F.type = true := isArr_iff.2 ⟨h.kind, by rw [h.type, K.type]⟩
    exact ⟨{ vm with stack := r }, by simp only [V.getElement, V.elementArray, V.bind_apply, V.sym_ok h.at_, V.assert_apply, ha, if_true, hr], storeOf_world rfl rfl⟩
  | ok idx =>
    simp only [Ev.of]
    obtain ⟨k1, k2⟩ := K.settles ht h hst hn h1 h2 hx
    cases hs : settle t w idx (storeOf vm) with
    | unknown =>
      exact ⟨fun v s1 hh => (by cases hh), fun e s1 hh => (by cases hh)⟩
    | error e0 s0 =>
      refine ⟨fun v s1 hh => (by cases hh), fun e s1 hh => ?_⟩
      cases hh
      obtain ⟨f, m1, _, _, _, m2⟩ := k2 _ _ hs
      exact ⟨_, by simp only [V.getElement, V.bind_apply, m1], m2⟩
    | ok u s0 =>
      obtain ⟨a, mx, f, m1, m2, m3, m4, m5, m6, m7⟩ := k1 s0 hs
      simp only [fetch, m7]
      have hg := arrayGet_dim a mx idx.reverse m5
      by_cases hr : InRange idx mx.reverse
      · rw [if_pos hr]
        refine ⟨fun v s1 hh => ?_, fun e s1 hh => (by cases hh)⟩
        cases hh
        have hr' : InRange idx.reverse mx := by have := inRange_reverse.2 hr; rwa [List.reverse_reverse] at this
        obtain ⟨⟨y, hy⟩, -⟩ := (C13_access_inside a mx idx.reverse F.zero m5).1 hr'
        refine ⟨y, f, by simp only [V.getElement, V.bind_apply, m1, hy, V.lift_ok, V.pure_apply], ?_, m2, m6⟩
        unfold cellOf
        rw [hy]
      · rw [if_neg hr]
        refine ⟨fun v s1 hh => (by cases hh), fun e s1 hh => ?_⟩
        cases hh
        have hr' : ¬ InRange idx.reverse mx := fun hh => hr (by have := inRange_reverse.2 hh; rwa [List.reverse_reverse] at this)
        have hy := ((C13_access_inside a mx idx.reverse F.zero m5).2 hr').1
        exact ⟨_, by simp only [V.getElement, V.bind_apply, m1, hy, V.lift_ok, V.fail_apply], m6⟩

theorem symUpdate_comp (st : SymTab) (q : Nat) (f g : Symbol → Symbol) : symUpdate (symUpdate st q f) q g = symUpdate st q (fun s => g (f s)) := by
  unfold symUpdate
  congr 1
  apply List.ext_getElem?
  intro i
  simp only [List.getElem?_modify]
  split <;> cases st.psym[i]? <;> simp

theorem ArrayOnly.comp {f g : Symbol → Symbol} (hf : ArrayOnly t f) (hg : ArrayOnly t g) : ArrayOnly t (fun s => g (f s)) := by
  refine ⟨fun s => ?_, fun s => ?_, fun s => ⟨fun h => ((hg.2.2 (f s)).1 h).trans ((hf.2.2 s).1 h), fun h => ((hg.2.2 (f s)).2 h).trans ((hf.2.2 s).2 h)⟩⟩
  · obtain ⟨a1, a2, a3, a4⟩ := hf.1 s
    obtain ⟨b1, b2, b3, b4⟩ := hg.1 (f s)
    exact ⟨b1.trans a1, b2.trans a2, b3.trans a3, b4.trans a4⟩
  · obtain ⟨a1, a2, a3⟩ := hf.2.1 s
    obtain ⟨b1, b2, b3⟩ := hg.2.1 (f s)
    exact ⟨b1.trans a1, b2.trans a2, b3.trans a3⟩

/-- Giving a value to an element. -/
theorem Kin.sets (K : Kin F t conv) (ht : t ≠ .err) {vm : VM} {w : CStr} {q n : Nat} {s : Symbol} {xs rest : List Dbl} (h : HasArray vm t w q s)
    (hst : vm.stack = xs.reverse ++ rest) (hn : xs.length = n) (h1 : 1 ≤ n) (h2 : n ≤ 2) (y : α) :
    (∀ s1, Spec.setElement t w xs (conv y) (storeOf vm) = .ok () s1 → ∃ f, V.setElement F q n y vm = .ok () { vm with stack := rest, st := symUpdate vm.st q f } ∧
      ArrayOnly t f ∧ (f s).defined = true ∧ (F.get (f s)).isSome = true ∧ storeOf { vm with stack := rest, st := symUpdate vm.st q f } = s1) ∧
    (∀ e s1, Spec.setElement t w xs (conv y) (storeOf vm) = .error e s1 → ∃ r f, V.setElement F q n y vm = .err e { vm with stack := r, st := symUpdate vm.st q f } ∧
      ArrayOnly t f ∧ storeOf { vm with stack := r, st := symUpdate vm.st q f } = s1) := by
  have hid : ∀ st : SymTab, symUpdate st q (fun s => s) = st := by
    intro st
    unfold symUpdate
    have : st.psym.modify q (fun s => s) = st.psym := List.modify_id _ _
    rw [this]
  simp only [Spec.setElement, Ev.bind_apply]
  cases hx : subscripts xs with
  | error e0 =>
    refine ⟨fun s1 hh => (by cases hh), fun e s1 hh => ?_⟩
    cases hh
    obtain ⟨r, hr⟩ := subscripts_error hst hn h2 hx
    have ha : V.isArr s F.type = true := isArr_iff.2 ⟨h.kind, by rw [h.type, K.type]⟩
    refine ⟨r, fun s => s, ?_, ⟨fun _ => ⟨rfl, rfl, rfl, rfl⟩, fun _ => ⟨rfl, rfl, rfl⟩, fun _ => ⟨fun _ => rfl, fun _ => rfl⟩⟩, ?_⟩
    · rw [hid]; simp only [V.setElement, V.elementArray, V.bind_apply, V.sym_ok h.at_, V.assert_apply, ha, if_true, hr]
    · rw [hid]; exact storeOf_world rfl rfl
  | ok idx =>
    simp only [Ev.of]
    obtain ⟨k1, k2⟩ := K.settles ht h hst hn h1 h2 hx
    cases hs : settle t w idx (storeOf vm) with
    | unknown =>
      exact ⟨fun s1 hh => (by cases hh), fun e s1 hh => (by cases hh)⟩
    | error e0 s0 =>
      refine ⟨fun s1 hh => (by cases hh), fun e s1 hh => ?_⟩
      cases hh
      obtain ⟨f, m1, m3, _, _, m2⟩ := k2 _ _ hs
      exact ⟨_, f, by simp only [V.setElement, V.bind_apply, m1], m3, m2⟩
    | ok u s0 =>
      obtain ⟨a, mx, f, m1, m2, m3, m4, m5, m6, m7⟩ := k1 s0 hs
      simp only [place, m7]
      by_cases hr : InRange idx mx.reverse
      · rw [if_pos hr]
        refine ⟨fun s1 hh => ?_, fun e s1 hh => (by cases hh)⟩
        cases hh
        have hr' : InRange idx.reverse mx := by have := inRange_reverse.2 hr; rwa [List.reverse_reverse] at this
        obtain ⟨-, b, hb, hd⟩ := (C13_access_inside a mx idx.reverse y m5).1 hr'
        have hset : ArrayOnly t (F.set (some b)) := K.only' _
        refine ⟨fun s => F.set (some b) (f s), ?_, m2.comp hset, ?_, by rw [K.held.got]; rfl, ?_⟩
        · rw [← symUpdate_comp]
          simp only [V.setElement, V.bind_apply, m1, hb, V.lift_ok, V.updSym, V.modify_apply]
        · rw [K.held.undef]; exact m3
        · have h' : HasArray { vm with stack := rest, st := symUpdate vm.st q f } t w q (f s) := by
            obtain ⟨a1, a2, a3, a4⟩ := m2.1 s
            exact ⟨h.names.update q f m2.1, symUpdate_same h.at_, a1 ▸ h.name, a3.trans h.kind, a4.trans h.type⟩
          refine (K.set { vm with stack := rest, st := symUpdate vm.st q f } { vm with stack := rest, st := symUpdate vm.st q (fun s => F.set (some b) (f s)) } q (f s) w (F.set (some b)) h'.names h'.at_ h'.name h'.kind h'.type hset.1
            (symUpdate_comp _ _ _ _).symm rfl).trans ?_
          rw [m6, K.held.undef, m3, K.held.got, arrView_dim hd, cellOf_set m5 hb]
      · rw [if_neg hr]
        refine ⟨fun s1 hh => (by cases hh), fun e s1 hh => ?_⟩
        cases hh
        have hr' : ¬ InRange idx.reverse mx := fun hh => hr (by have := inRange_reverse.2 hh; rwa [List.reverse_reverse] at this)
        have hy := ((C13_access_inside a mx idx.reverse y m5).2 hr').2
        exact ⟨rest, f, by simp only [V.setElement, V.bind_apply, m1, hy, V.lift_ok, V.fail_apply], m2, m6⟩

theorem setArr_twice (s : Store) (w : CStr) (a b : Arr (Meaning t)) : (s.setArr t w a).setArr t w b = s.setArr t w b := by
  cases t with
  | num => simp only [Store.setArr, assign_twice]
  | str => simp only [Store.setArr, assign_twice]
  | err => rfl

theorem counts_le : ∀ {a : List Dbl} {b : List Nat}, AreCounts a b → ∀ m ∈ b, m ≤ 4294967295 := by
  intro a
  induction a with
  | nil => intro b h; cases b with
    | nil => intro m hm; cases hm
    | cons => exact absurd h _root_.id
  | cons x a ih => intro b h; cases b with
    | nil => exact absurd h _root_.id
    | cons n b =>
      intro m hm
      rcases List.mem_cons.1 hm with rfl | hm
      · exact h.1.2
      · exact ih h.2 m hm

/-- DIM: the array that was there is given up before the sizes are looked at. -/
theorem Kin.dims (K : Kin F t conv) {vm : VM} {w : CStr} {q n : Nat} {s : Symbol} {xs rest : List Dbl} (h : HasArray vm t w q s)
    (hodd : F.get s ≠ none → s.defined = true) (hodd' : F.get s = none → s.defined = false)
    (hst : vm.stack = xs.reverse ++ rest) (hn : xs.length = n) (h1 : 1 ≤ n) (h2 : n ≤ 2) :
    (∀ s1, redimension t w xs (storeOf vm) = .ok () s1 → ∃ f, V.dimStatement F q n vm = .ok () { vm with stack := rest, st := symUpdate vm.st q f } ∧
      ArrayOnly t f ∧ (f s).defined = true ∧ (F.get (f s)).isSome = true ∧ storeOf { vm with stack := rest, st := symUpdate vm.st q f } = s1) ∧
    (∀ e s1, redimension t w xs (storeOf vm) = .error e s1 → ∃ r f, V.dimStatement F q n vm = .err e { vm with stack := r, st := symUpdate vm.st q f } ∧
      ArrayOnly t f ∧ storeOf { vm with stack := r, st := symUpdate vm.st q f } = s1) := by
  have ha : V.isArr s F.type = true := isArr_iff.2 ⟨h.kind, by rw [h.type, K.type]⟩
  have hlr : xs.reverse.length = n := by simpa using hn
  -- the array is given up
  have hdrop : V.dimStatement F q n vm = (V.popIndexes n >>= fun max => V.dimension F q max)
      { vm with st := symUpdate vm.st q (fun s => { F.set none s with defined := false }) } := by
    cases hg : F.get s with
    | none =>
      rw [V.dropped K.field h.at_ hg (hodd' hg)]
      unfold V.dimStatement
      simp only [V.bind_apply, V.sym_ok h.at_, V.assert_apply, ha, if_true, V.when_apply, hg, Option.isSome_none, Bool.false_eq_true, if_false]
    | some a =>
      have hd := hodd (by rw [hg]; simp)
      unfold V.dimStatement
      simp only [V.bind_apply, V.sym_ok h.at_, V.assert_apply, ha, if_true, V.when_apply, hg, Option.isSome_some, hd, V.updSym, V.modify_apply]
  have hf0 := K.only none false
  have hview : storeOf { vm with st := symUpdate vm.st q (fun s => { F.set none s with defined := false }) } = (storeOf vm).setArr t w .missing := by
    refine (K.set vm { vm with st := symUpdate vm.st q (fun s => { F.set none s with defined := false }) } q s w _ h.names h.at_ h.name h.kind h.type hf0.1 rfl rfl).trans ?_
    rw [K.field.get']
    rfl
  have h0 : HasArray { vm with st := symUpdate vm.st q (fun s => { F.set none s with defined := false }) } t w q { F.set none s with defined := false } := by
    obtain ⟨a1, a2, a3, a4⟩ := hf0.1 s
    exact ⟨h.names.update q _ hf0.1, symUpdate_same h.at_, a1 ▸ h.name, a3.trans h.kind, a4.trans h.type⟩
  have ha0 : V.isArr { F.set none s with defined := false } F.type = true := isArr_iff.2 ⟨h0.kind, by rw [h0.type, K.type]⟩
  rw [hdrop]
  simp only [redimension, Ev.bind_apply]
  generalize hvm0 : ({ vm with st := symUpdate vm.st q (fun s => { F.set none s with defined := false }) } : VM) = vm0 at *
  have hst0 : vm0.stack = xs.reverse ++ rest := by rw [← hvm0]; exact hst
  cases hx : subscripts xs with
  | error e0 =>
    refine ⟨fun s1 hh => (by cases hh), fun e s1 hh => ?_⟩
    cases hh
    obtain ⟨r, hr⟩ := subscripts_error hst0 hn h2 hx
    refine ⟨r, _, ?_, hf0, ?_⟩
    · simp only [V.bind_apply, hr]
      rw [← hvm0]
    · rw [← hview, ← hvm0]; exact storeOf_world rfl rfl
  | ok idx =>
    obtain ⟨hc, hlen⟩ := subscripts_ok hx
    simp only [Ev.of, forget, Spec.dimension]
    by_cases hb : 4294967295 ∈ idx
    · rw [if_pos hb]
      exact ⟨fun s1 hh => (by cases hh), fun e s1 hh => (by cases hh)⟩
    · rw [if_neg hb]
      have hlt : ∀ m ∈ idx.reverse, m < 2 ^ 32 - 1 := by
        intro m hm
        have hbd := counts_le hc m hm
        have : m ≠ 4294967295 := by
          rintro rfl
          exact hb (List.mem_reverse.1 hm)
        omega
      have hp := V.popIndexes_counts hst0 hlr (show n ≤ maxDimensions from h2) hc
      have hdim := V.dimension_eq (F := F) (vm := { vm0 with stack := rest }) h0.at_ ha0 hlt
      have hshape : Shape idx.reverse ↔ cells idx ≤ 65536 := by
        unfold Shape
        rw [cells_reverse]
        have : idx.reverse.length = n := by simp [hlen, hn]
        rw [this]
        constructor
        · exact fun h => h.2
        · exact fun h => ⟨by omega, h⟩
      simp only [V.bind_apply, hp, hdim]
      by_cases hsz : cells idx ≤ 65536
      · rw [if_pos hsz, if_pos (hshape.2 hsz)]
        refine ⟨fun s1 hh => ?_, fun e s1 hh => (by cases hh)⟩
        cases hh
        have hsh := hshape.2 hsz
        have honly := K.only (some (V.fresh F idx.reverse)) true
        refine ⟨fun s => { F.set (some (V.fresh F idx.reverse)) { F.set none s with defined := false } with defined := true }, ?_, hf0.comp honly, rfl, by rw [K.field.get']; rfl, ?_⟩
        · rw [← hvm0]
          exact congrArg (fun st => Res.ok () { vm with stack := rest, st := st }) (symUpdate_comp _ _ _ _)
        · refine (K.set vm0 { vm with stack := rest, st := symUpdate vm.st q (fun s => { F.set (some (V.fresh F idx.reverse)) { F.set none s with defined := false } with defined := true }) } q _ w _ h0.names h0.at_ h0.name h0.kind h0.type honly.1 (by rw [← hvm0]; exact (symUpdate_comp vm.st q (fun s => { F.set none s with defined := false }) (fun s => { F.set (some (V.fresh F idx.reverse)) s with defined := true })).symm) (by rw [← hvm0])).trans ?_
          rw [K.field.get', hview, arrView_dim (V.fresh_dim F hsh), cellOf_fresh K.zero hsh, List.reverse_reverse]
      · rw [if_neg hsz, if_neg (fun hh => hsz (hshape.1 hh))]
        refine ⟨fun s1 hh => (by cases hh), fun e s1 hh => ?_⟩
        cases hh
        refine ⟨rest, fun s => { F.set none { F.set none s with defined := false } with defined := false }, ?_, hf0.comp hf0, ?_⟩
        · rw [← hvm0]
          exact congrArg (fun st => Res.err _ { vm with stack := rest, st := st }) (symUpdate_comp _ _ _ _)
        · refine (K.set vm0 { vm with stack := rest, st := symUpdate vm.st q (fun s => { F.set none { F.set none s with defined := false } with defined := false }) } q _ w _ h0.names h0.at_ h0.name h0.kind h0.type hf0.1 (by rw [← hvm0]; exact (symUpdate_comp vm.st q (fun s => { F.set none s with defined := false }) (fun s => { F.set none s with defined := false })).symm) (by rw [← hvm0])).trans ?_
          rw [K.field.get', hview]; rfl

end

end LB
