import Verif.Spec.Names
import Verif.Proofs.Compile
import Verif.Proofs.Token
import Verif.Proofs.Frame
import Verif.Proofs.Strings
import Verif.Proofs.Session
/- The symbol table as a map. -/
namespace LB
open LB.Spec _root_.Spec

theorem matchParen_iff (k : SymKind) (b : Bool) : matchParen k b = true ↔ InClass k b := by
  cases k <;> cases b <;> decide

/-- The slot of entry `q`. -/
def slotOf (l : List Symbol) (q : Nat) : Option Nat := l[q]?.map (fun s => symHash s.name)

/-- The chains hold the positions of their names, latest first. -/
def Linked (st : SymTab) : Prop :=
  ∀ h, st.hash h = (List.range st.psym.length).reverse.filter (fun q => slotOf st.psym q == some h)

theorem slotOf_map {l l' : List Symbol} (h : l'.map (·.name) = l.map (·.name)) : slotOf l' = slotOf l := by
  funext q
  have := congrArg (fun x : List CStr => x[q]?.map symHash) h
  simpa [slotOf, Function.comp_def] using this

theorem Linked.same {st st' : SymTab} (h : Linked st) (hh : st'.hash = st.hash) (hn : st'.psym.map (·.name) = st.psym.map (·.name)) :
    Linked st' := by
  intro i
  have hl : st'.psym.length = st.psym.length := by simpa using congrArg List.length hn
  rw [hh, h i, hl, slotOf_map hn]

theorem Linked.insert {st : SymTab} (h : Linked st) (name : CStr) (k : SymKind) (t : Ty) (d : Bool) : Linked (symInsert st name k t d).1 := by
  intro i
  simp only [symInsert, List.length_append, List.length_singleton, List.range_succ, List.reverse_append, List.reverse_cons,
    List.reverse_nil, List.nil_append, List.cons_append, List.filter_cons]
  have hold : List.filter (fun q => slotOf (st.psym ++ [({ name := name, id := st.nextId, kind := k, type := t, defined := d } : Symbol)]) q == some i)
      (List.range st.psym.length).reverse = st.hash i := by
    rw [h i]
    apply List.filter_congr
    intro q hq
    simp only [List.mem_reverse, List.mem_range] at hq
    simp only [slotOf, List.getElem?_append_left hq]
  rw [hold]
  by_cases hi : i = symHash name
  · subst hi
    simp [slotOf]
  · rw [if_neg hi]
    simp [slotOf, Ne.symm hi]

theorem modify_names (l : List Symbol) (q : Nat) (f : Symbol → Symbol) (hf : ∀ s, (f s).name = s.name) :
    (l.modify q f).map (·.name) = l.map (·.name) := by
  apply List.ext_getElem?
  intro i
  simp only [List.getElem?_map, List.getElem?_modify]
  split
  · simp [Function.comp_def, hf]
  · simp

theorem undefineValue_name (s : Symbol) : (undefineValue s).name = s.name ∧ (undefineValue s).kind = s.kind ∧ (undefineValue s).id = s.id ∧
    (undefineValue s).type = s.type := by
  unfold undefineValue
  repeat' split
  all_goals exact ⟨rfl, rfl, rfl, rfl⟩

theorem linked_unknown {st : SymTab} (h : Linked st) : Linked (symMakeUnknownArray st) :=
  h.same rfl (by simp only [symMakeUnknownArray, List.map_map]; congr 1; funext s; simp only [Function.comp_apply]; split <;> rfl)

theorem linked_clear {st : SymTab} (h : Linked st) : Linked (clearSymbolTableValues st) :=
  h.same rfl (by
    simp only [clearSymbolTableValues, List.map_map]; congr 1; funext s; simp only [Function.comp_apply]; split
    · exact (undefineValue_name s).1
    · rfl)

theorem linked_new : Linked newSymbolTable := fun _ => rfl

theorem built_linked {st : SymTab} (h : Built st) : Linked st := by
  induction h with
  | new => exact linked_new
  | insert name kind type defined _ ih => exact Linked.insert ih _ _ _ _
  | update q f _ hf ih => exact ih.same rfl (modify_names _ _ _ (fun s => (hf s).1))
  | kind q k _ ih => exact ih.same rfl (modify_names _ _ _ (fun s => rfl))
  | unknown _ ih => exact linked_unknown ih
  | clearValues _ ih => exact linked_clear ih
  | clearNames _ _ => exact linked_new

theorem symMatches_iff (st : SymTab) (name : CStr) (paren : Bool) (q : Nat) : symMatches st name paren q = true ↔ Entry st name paren q := by
  unfold symMatches Entry
  cases h : st.psym[q]? with
  | none => simp
  | some s =>
    simp only [Bool.and_eq_true, beq_iff_eq, matchParen_iff, strcasecmp_eq_zero_iff, Option.some.injEq, exists_eq_left']
    exact And.comm

theorem entry_slot {st : SymTab} {name : CStr} {paren : Bool} {q : Nat} (h : Entry st name paren q) : slotOf st.psym q = some (symHash name) := by
  obtain ⟨s, hs, hn, _⟩ := h
  simp only [slotOf, hs, Option.map_some, symHash, hashpjwUpper_ci _ _ hn]

theorem entry_lt {st : SymTab} {name : CStr} {paren : Bool} {q : Nat} (h : Entry st name paren q) : q < st.psym.length := by
  obtain ⟨s, hs, _⟩ := h
  exact (List.getElem?_eq_some_iff.1 hs).1

/-- Looking a name up is looking for the latest entry. -/
theorem Linked.lookup {st : SymTab} (h : Linked st) (name : CStr) (paren : Bool) :
    symLookup st name paren = (List.range st.psym.length).reverse.find? (symMatches st name paren) := by
  unfold symLookup
  rw [h (symHash name), List.find?_filter]
  congr 1
  funext q
  by_cases hm : symMatches st name paren q = true
  · rw [entry_slot ((symMatches_iff ..).1 hm)]
    simp [hm]
  · simp [hm]

theorem find?_reverse_range {n q : Nat} {p : Nat → Bool} :
    (List.range n).reverse.find? p = some q ↔ q < n ∧ p q = true ∧ ∀ q', q' < n → p q' = true → q' ≤ q := by
  induction n with
  | zero => simp
  | succ n ih =>
    simp only [List.range_succ, List.reverse_append, List.reverse_cons, List.reverse_nil, List.nil_append, List.cons_append, List.find?_cons]
    by_cases hp : p n = true
    · simp only [hp, Option.some.injEq]
      constructor
      · rintro rfl
        exact ⟨by omega, hp, fun q' h _ => by omega⟩
      · rintro ⟨h1, h2, h3⟩
        have := h3 n (by omega) hp
        omega
    · simp only [hp, ih]
      constructor
      · rintro ⟨h1, h2, h3⟩
        refine ⟨by omega, h2, fun q' h4 h5 => ?_⟩
        have : q' ≠ n := fun e => hp (e ▸ h5)
        exact h3 q' (by omega) h5
      · rintro ⟨h1, h2, h3⟩
        have : q ≠ n := fun e => hp (e ▸ h2)
        exact ⟨by omega, h2, fun q' h4 h5 => h3 q' (by omega) h5⟩

theorem Linked.some_iff {st : SymTab} (h : Linked st) (name : CStr) (paren : Bool) (q : Nat) :
    symLookup st name paren = some q ↔ Entry st name paren q ∧ ∀ q', Entry st name paren q' → q' ≤ q := by
  rw [h.lookup, find?_reverse_range]
  simp only [symMatches_iff]
  constructor
  · rintro ⟨_, h2, h3⟩
    exact ⟨h2, fun q' h4 => h3 q' (entry_lt h4) h4⟩
  · rintro ⟨h2, h3⟩
    exact ⟨entry_lt h2, h2, fun q' _ h4 => h3 q' h4⟩

theorem Linked.none_iff {st : SymTab} (h : Linked st) (name : CStr) (paren : Bool) :
    symLookup st name paren = none ↔ ∀ q, ¬ Entry st name paren q := by
  rw [h.lookup, List.find?_eq_none]
  simp only [List.mem_reverse, List.mem_range, symMatches_iff]
  exact ⟨fun h q hq => h q (entry_lt hq) hq, fun h q _ => h q⟩

/-! A table in use. -/

/-- Every name has at most one entry of each class, which the chains find. -/
structure WellNamed (st : SymTab) : Prop where
  linked : Linked st
  tab : Tab st
  uniq : ∀ name paren p q, Entry st name paren p → Entry st name paren q → p = q

/-- Entries keep their names and classes. -/
def SameEntries (st st' : SymTab) : Prop :=
  ∀ (q : Nat) (s' : Symbol), st'.psym[q]? = some s' → ∃ s : Symbol, st.psym[q]? = some s ∧ s.name = s'.name ∧ ∀ b, InClass s'.kind b → InClass s.kind b

theorem SameEntries.entry {st st' : SymTab} (h : SameEntries st st') {name paren q} (he : Entry st' name paren q) : Entry st name paren q := by
  obtain ⟨s', h1, h2, h3⟩ := he
  obtain ⟨s, k1, k2, k3⟩ := h q s' h1
  exact ⟨s, k1, k2 ▸ h2, k3 _ h3⟩

theorem sameEntries_map {st : SymTab} (g : Symbol → Symbol) (hg : ∀ s, s.name = (g s).name ∧ ∀ b, InClass (g s).kind b → InClass s.kind b) :
    SameEntries st { st with psym := st.psym.map g } := by
  intro q s' hs
  simp only [List.getElem?_map, Option.map_eq_some_iff] at hs
  obtain ⟨s, h1, rfl⟩ := hs
  exact ⟨s, h1, hg s⟩

theorem sameEntries_update {st : SymTab} (p : Nat) (g : Symbol → Symbol)
    (hg : ∀ s, st.psym[p]? = some s → s.name = (g s).name ∧ ∀ b, InClass (g s).kind b → InClass s.kind b) :
    SameEntries st (symUpdate st p g) := by
  intro q s' hs
  simp only [symUpdate, List.getElem?_modify] at hs
  cases hq : st.psym[q]? with
  | none => simp [hq] at hs
  | some s =>
    by_cases hpq : p = q
    · subst hpq
      simp only [hq, if_true, Option.map_eq_map, Option.map_some, Option.some.injEq] at hs
      exact ⟨s, rfl, hs ▸ (hg s hq).1, hs ▸ (hg s hq).2⟩
    · simp only [hq, hpq, if_false, Option.map_eq_map, Option.map_some, Option.some.injEq] at hs
      exact ⟨s, rfl, by rw [hs], fun b h => hs ▸ h⟩

theorem class_only {k : SymKind} {b b' : Bool} (h : k ≠ .builtin) (h1 : InClass k b) (h2 : InClass k b') : b = b' := by
  revert h1 h2 h; cases k <;> cases b <;> cases b' <;> decide

theorem WellNamed.insert {st : SymTab} (h : WellNamed st) {name : CStr} {k : SymKind} {b : Bool} (hk : k ≠ .builtin) (hb : InClass k b)
    (hn : symLookup st name b = none) (d : Bool) : WellNamed (symInsert st name k (nameType name) d).1 := by
  have hno := (h.linked.none_iff name b).1 hn
  refine ⟨Linked.insert h.linked _ _ _ _, (h.tab.insert name k hk d).tab, ?_⟩
  have key : ∀ nm paren q, Entry (symInsert st name k (nameType name) d).1 nm paren q →
      Entry st nm paren q ∨ (q = st.psym.length ∧ SameIgnoringCase name nm ∧ paren = b) := by
    rintro nm paren q ⟨s, h1, h2, h3⟩
    simp only [symInsert] at h1
    rcases Nat.lt_trichotomy q st.psym.length with hq | rfl | hq
    · rw [List.getElem?_append_left hq] at h1
      exact .inl ⟨s, h1, h2, h3⟩
    · simp only [Nat.le_refl, List.getElem?_append_right, Nat.sub_self, List.getElem?_cons_zero, Option.some.injEq] at h1
      subst h1
      exact .inr ⟨rfl, h2, class_only hk h3 hb⟩
    · rw [List.getElem?_eq_none (by simp; omega)] at h1
      cases h1
  intro nm paren p q h1 h2
  have cross : ∀ p, Entry st nm paren p → SameIgnoringCase name nm → paren ≠ b := by
    rintro p ⟨s, e1, e2, e3⟩ hs rfl
    exact hno p ⟨s, e1, e2.trans hs.symm, e3⟩
  rcases key _ _ _ h1 with h1 | ⟨rfl, h1, h1'⟩ <;> rcases key _ _ _ h2 with h2 | ⟨rfl, h2, h2'⟩
  · exact h.uniq _ _ _ _ h1 h2
  · exact absurd h2' (cross _ h1 h2)
  · exact absurd h1' (cross _ h2 h1)
  · rfl

theorem WellNamed.same {st st' : SymTab} (h : WellNamed st) (hl : Linked st') (ht : Tab st') (hs : SameEntries st st') : WellNamed st' :=
  ⟨hl, ht, fun _ _ _ _ h1 h2 => h.uniq _ _ _ _ (hs.entry h1) (hs.entry h2)⟩

theorem WellNamed.setKind {st : SymTab} (h : WellNamed st) {q : Nat} {s : Symbol} (hs : st.psym[q]? = some s) (hu : s.kind = .unknown)
    {k : SymKind} (hk : k = .unknown ∨ k = .array ∨ k = .def_) : WellNamed (symUpdate st q (fun s => { s with kind := k })) := by
  refine h.same (h.linked.same rfl (modify_names _ _ _ (fun _ => rfl))) (h.tab.setKind hs hu k (by simpa using hk)).1.tab
    (sameEntries_update _ _ (fun t ht => ⟨rfl, fun b hb => ?_⟩))
  rw [hs] at ht
  cases ht
  rw [hu]
  simp only at hb
  rcases hk with rfl | rfl | rfl <;> revert hb <;> cases b <;> decide

theorem WellNamed.unknown {st : SymTab} (h : WellNamed st) : WellNamed (symMakeUnknownArray st) := by
  refine h.same (linked_unknown h.linked) h.tab.unknownArray.tab (sameEntries_map _ (fun s => ?_))
  split
  · rename_i hu
    refine ⟨rfl, fun b hb => ?_⟩
    rw [hu]
    simp only at hb
    revert hb
    cases b <;> decide
  · exact ⟨rfl, fun _ h => h⟩

theorem Tab.mapped {st st' : SymTab} (h : Tab st) (hn : st'.nextId = st.nextId)
    (hm : st'.psym.map (fun s => (s.name, s.id, s.kind, s.type)) = st.psym.map (fun s => (s.name, s.id, s.kind, s.type))) : Tab st' := by
  have hl : st'.psym.length = st.psym.length := by simpa using congrArg List.length hm
  have key : ∀ (q : Nat) (s' : Symbol), st'.psym[q]? = some s' → ∃ s : Symbol, st.psym[q]? = some s ∧ s.name = s'.name ∧ s.id = s'.id ∧
      s.kind = s'.kind ∧ s.type = s'.type := by
    intro q s' hs
    have := congrArg (fun l => l[q]?) hm
    simp only [List.getElem?_map, hs, Option.map_some] at this
    cases hq : st.psym[q]? with
    | none => simp [hq] at this
    | some s =>
      simp only [hq, Option.map_some, Option.some.injEq, Prod.mk.injEq] at this
      exact ⟨s, rfl, this.1.symm, this.2.1.symm, this.2.2.1.symm, this.2.2.2.symm⟩
  refine ⟨?_, by rw [hn, hl]; exact h.next, ?_, ?_⟩
  · intro q s' hs
    obtain ⟨s, h1, _, h3, _⟩ := key q s' hs
    rw [← h3]; exact h.ids q s h1
  · intro q s' hs hb
    obtain ⟨s, h1, h2, h3, h4, h5⟩ := key q s' hs
    rw [← h5, ← h2]; exact h.type q s h1 (h4 ▸ hb)
  · intro q s' hs hb
    obtain ⟨s, h1, h2, h3, h4, h5⟩ := key q s' hs
    rw [← h2]; exact h.builtin q s h1 (h4 ▸ hb)

theorem modify_heads (l : List Symbol) (q : Nat) (f : Symbol → Symbol) (hf : V.ValueOnly f) :
    (l.modify q f).map (fun s => (s.name, s.id, s.kind, s.type)) = l.map (fun s => (s.name, s.id, s.kind, s.type)) := by
  apply List.ext_getElem?
  intro i
  simp only [List.getElem?_map, List.getElem?_modify]
  split
  · cases l[i]? with
    | none => simp
    | some s => have := hf s; simp [this]
  · simp

theorem Tab.updated {st : SymTab} (h : Tab st) (q : Nat) (f : Symbol → Symbol) (hf : V.ValueOnly f) : Tab (symUpdate st q f) :=
  h.mapped rfl (modify_heads _ _ _ hf)

theorem Tab.cleared {st : SymTab} (h : Tab st) : Tab (clearSymbolTableValues st) := by
  refine h.mapped rfl ?_
  simp only [clearSymbolTableValues, List.map_map]
  congr 1; funext s
  simp only [Function.comp_apply]
  split
  · have := undefineValue_name s
    rw [this.1, this.2.1, this.2.2.1, this.2.2.2]
  · rfl

theorem WellNamed.update {st : SymTab} (h : WellNamed st) (q : Nat) (f : Symbol → Symbol) (hf : V.ValueOnly f) : WellNamed (symUpdate st q f) :=
  h.same (h.linked.same rfl (modify_names _ _ _ (fun s => (hf s).1))) (h.tab.updated q f hf)
    (sameEntries_update _ _ (fun s _ => ⟨(hf s).1.symm, fun b hb => (hf s).2.2.1 ▸ hb⟩))

theorem WellNamed.clear {st : SymTab} (h : WellNamed st) : WellNamed (clearSymbolTableValues st) := by
  refine h.same (linked_clear h.linked) h.tab.cleared (sameEntries_map _ (fun s => ?_))
  split
  · have := undefineValue_name s
    exact ⟨this.1.symm, fun _ hb => this.2.1 ▸ hb⟩
  · exact ⟨rfl, fun _ h => h⟩

theorem foldl_linked (bs : List Builtin) {st : SymTab} (h : Linked st) :
    Linked (bs.foldl (fun st b => (symInsert st b.name .builtin b.type true).1) st) := by
  induction bs generalizing st with
  | nil => exact h
  | cons b bs ih => exact ih (Linked.insert h _ _ _ _)

/-- The symbols of the built-in functions. -/
def builtinSymbols : List Symbol :=
  builtins.zipIdx.map (fun b => { name := b.1.name, id := b.2, kind := .builtin, type := b.1.type, defined := true })

theorem initBuiltins_psym : (initBuiltins newSymbolTable).psym = builtinSymbols := by decide +kernel

theorem initBuiltins_next : (initBuiltins newSymbolTable).nextId = 26 % 65536 := by decide +kernel

theorem wellNamed_fresh (st : SymTab) : WellNamed (initBuiltins (clearSymbolTableNames st)) := by
  have hp : (initBuiltins (clearSymbolTableNames st)).psym = builtinSymbols := initBuiltins_psym
  have hlen : builtinSymbols.length = 26 := by decide
  have kinds : ∀ s ∈ builtinSymbols, s.kind = .builtin := by decide
  refine ⟨foldl_linked _ (fun _ => rfl), ⟨?_, ?_, ?_, ?_⟩, ?_⟩
  · intro q s hs
    rw [hp] at hs
    have hq := (List.getElem?_eq_some_iff.1 hs).1
    have key : ∀ q : Fin 26, builtinSymbols[q.val]?.map (·.id) = some q.val := by decide
    have := key ⟨q, by omega⟩
    simp only [hs, Option.map_some, Option.some.injEq] at this
    omega
  · rw [hp, hlen]; exact initBuiltins_next
  · intro q s hs hk
    rw [hp] at hs
    exact absurd (kinds s (List.mem_of_getElem? hs)) hk
  · intro q s hs _
    rw [hp] at hs
    have : ∀ s ∈ builtinSymbols, ∃ b ∈ builtins, b.name = s.name := by decide
    exact this s (List.mem_of_getElem? hs)
  · rintro name paren p q ⟨s, h1, h2, _⟩ ⟨t, k1, k2, _⟩
    rw [hp] at h1 k1
    have hq := (List.getElem?_eq_some_iff.1 h1).1
    have hq2 := (List.getElem?_eq_some_iff.1 k1).1
    have key : ∀ p q : Fin 26, builtinSymbols[p.val]?.map (fun s => s.name.map Char.toUpper) = builtinSymbols[q.val]?.map (fun s => s.name.map Char.toUpper) →
        p = q := by decide +kernel
    have := key ⟨p, by omega⟩ ⟨q, by omega⟩
    simp only [h1, k1, Option.map_some, Option.some.injEq, Fin.mk.injEq] at this
    exact this (h2.trans k2.symm)

namespace P

/-- The state of the compiler with well-kept names. -/
structure Keeping (p : Parser) : Prop where
  fits : p.lex.Sound
  names : WellNamed p.st

theorem keeping_resolve (name : CStr) (params : Nat) (kind : SymKind) (hk : kind = .unknown ∨ kind = .array) :
    Keeps Keeping (resolve name params kind) := by
  intro p hp
  simp only [resolve, bind_apply, lookup]
  cases hf : symLookup p.st name (params != 0) with
  | some q =>
    obtain ⟨s, hs, hm, hn⟩ := lookup_some hf
    simp only [bind_apply, sym, hs]
    by_cases hp0 : params = 0
    · simp only [hp0, ne_eq, not_true_eq_false, if_false, pure_apply]
      exact hp
    · simp only [ne_eq, hp0, not_false_eq_true, if_true]
      by_cases hu : s.kind = .unknown
      · simp only [hu, if_true, bind_apply, P.setKind, pure_apply]
        exact ⟨hp.fits, hp.names.setKind hs hu (by rcases hk with h | h <;> simp [h])⟩
      · simp only [hu, if_false]
        by_cases hc : kind ≠ .unknown ∧ s.kind ≠ kind
        · simp only [hc, not_false_eq_true, and_self, if_true, fail]
          exact hp
        · rw [if_neg (by simpa using hc)]
          exact hp
  | none =>
    simp only [insert]
    refine ⟨hp.fits, hp.names.insert (b := params != 0) ?_ ?_ hf _⟩
    · split
      · rcases hk with hk | hk <;> rw [hk] <;> simp
      · simp
    · by_cases hp0 : params = 0
      · simp [hp0, InClass]
      · rcases hk with rfl | rfl <;> simp [hp0, InClass]

theorem keeping_defSymbol (name : CStr) : Keeps Keeping (defSymbol name (nameType name)) := by
  intro p hp
  simp only [defSymbol, bind_apply, lookup]
  cases hf : symLookup p.st name true with
  | some q =>
    obtain ⟨s, hs, hm, hn⟩ := lookup_some hf
    simp only [bind_apply, sym, hs]
    by_cases hu : s.kind = .unknown
    · simp only [hu, if_true, bind_apply, P.setKind, pure_apply]
      exact ⟨hp.fits, hp.names.setKind hs hu (by simp)⟩
    · simp only [hu, if_false]
      split
      · exact hp
      · exact hp
  | none =>
    simp only [insert]
    exact ⟨hp.fits, hp.names.insert (b := true) (by simp) (by simp [InClass]) hf _⟩

theorem closed_keeping : Closed Keeping where
  lex p lex h hl := ⟨hl, h.names⟩
  fits p h := h.fits
  emit i hi p h := ⟨h.fits, h.names⟩
  patch n i hi p h := by
    simp only [patch]
    split
    · trivial
    · exact ⟨h.fits, h.names⟩
  ifThen p n h := ⟨h.fits, h.names⟩
  resolve := keeping_resolve
  defSymbol := keeping_defSymbol

end P

theorem parseSource_names {src : Source} {st st' : SymTab} {pre : Bool} {r : Option Bcode} (h : WellNamed st)
    (hp : parseSource src st pre = .ok (r, st')) : WellNamed st' := by
  have key := P.keeps_parseLines P.closed_keeping src.lines 0 { lex := newLex pre, bcode := newBcode, st := st, ifThen := 0 }
    ⟨sound_new _, h⟩
  unfold parseSource at hp
  split at hp
  · rename_i p hl
    rw [hl] at key
    simp only [Outcome.ok.injEq, Prod.mk.injEq] at hp
    rw [← hp.2]
    exact key.names.unknown
  · rename_i p hl
    rw [hl] at key
    simp only [Outcome.ok.injEq, Prod.mk.injEq] at hp
    rw [← hp.2]
    exact key.names.unknown
  · cases hp

namespace V

/-- A fact about the table that changes of values do not affect. -/
theorem closed_table {R : SymTab → Prop} (hu : ∀ st q f, R st → ValueOnly f → R (symUpdate st q f)) (hc : ∀ st, R st → R (clearSymbolTableValues st)) :
    Closed (fun _ => True) (fun vm => R vm.st) where
  push _ x := by intro vm h; simp only [push]; split <;> exact h
  pop := by intro vm h; simp only [pop]; split <;> exact h
  pushStr _ x := by intro vm h; simp only [pushStr]; split <;> exact h
  popStr := by intro vm h; simp only [popStr]; split <;> exact h
  pushReturn _ pc := by intro vm h; simp only [pushReturn]; split <;> exact h
  popReturn _ := by intro vm h; simp only [popReturn]; split <;> exact h
  updSym _ id f hf _ _ _ := Keeps.modify (fun vm h => hu _ _ _ h hf)
  clear _ vm h := hc _ h
  world _ vm w h := h
  col _ vm c h := h
  cs vm c _ _ h := h
  stopped _ vm c h := h
  fn _ vm c h := h
  defCode _ vm c h := h
  input _ vm c _ h := h
  inp _ vm c h := h
  inputPc _ vm c h := h
  trace := .inl trivial
  programData _ vm n h := h
  immediateData _ vm n h := h
  forTop _ id hd := by
    unfold forTop forEntry
    keeps <;> exact Keeps.modify (fun vm h => h)
  setTopFor _ f _ := Keeps.modify (fun vm h => h)
  erase _ vm si h := h

theorem execute_names (env : Env) : Keeps (fun vm => WellNamed vm.st) (execute env) :=
  keeps_execute (closed_table (fun _ q f h hf => h.update q f hf) (fun _ h => h.clear)) env

end V

open Spec (Moment) in
theorem moment_names {vm : VM} (h : Moment vm) : WellNamed vm.st := by
  induction h with
  | start kw tb tf w => exact wellNamed_fresh newSymbolTable
  | world w _ ih => exact ih
  | enter num text _ _ he ih =>
    unfold vmEnterSourceLine at he
    split at he
    · simp at he
    · simp at he; subst he; exact ih
  | delete num _ ih =>
    unfold vmDeleteSourceLine
    split
    · exact ih
    · split
      · exact ih
      · exact ih
  | new _ ih => exact ih
  | clearNames _ ih => exact wellNamed_fresh _
  | clearValues _ ih => exact ih.clear
  | load name c b _ he ih =>
    unfold vmLoadSource at he
    split at he
    · simp at he
    · simp at he; exact he.2 ▸ ih
    · simp at he; obtain ⟨_, rfl⟩ := he; exact ih
  | renum _ _ _ _ he ih =>
    obtain ⟨src, w, rfl⟩ := V.renumber_frame he
    exact ih
  | compile b _ he ih =>
    unfold ensureProgramCompiled at he
    split at he
    · split at he
      · simp at he
      · split at he
        · simp at he
        · rename_i hp
          simp at he; obtain ⟨_, rfl⟩ := he
          exact parseSource_names (wellNamed_fresh _) hp
        · rename_i hp
          split at he
          · simp at he
          · simp at he; obtain ⟨_, rfl⟩ := he
            exact parseSource_names (wellNamed_fresh _) hp
    · simp at he; exact he.2 ▸ ih
  | reset _ ih => exact ih
  | at_ _ _ ih => exact ih
  | stopped _ _ _ ih => exact ih
  | noImmediate _ ih => exact ih
  | immediateFailed _ _ _ hp ih => exact parseSource_names ih hp
  | immediate _ _ _ hp _ ih => exact parseSource_names ih hp
  | step env _ he ih =>
    have := V.execute_names env _ ih
    rw [he] at this; exact this
  | error env _ he ih =>
    have := V.execute_names env _ ih
    rw [he] at this; exact this

end LB
