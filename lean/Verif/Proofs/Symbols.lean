import Verif.Proofs.Names
/- Facts about every symbol of the table that the compiler keeps. -/
namespace LB

/-- `R` holds of every symbol. -/
def AllSym (R : Symbol → Prop) (st : SymTab) : Prop := ∀ (q : Nat) (s : Symbol), st.psym[q]? = some s → R s

/-- `R` holds of symbols without a value, and names of functions or arrays may become known as such. -/
structure Nameable (R : Symbol → Prop) : Prop where
  new : ∀ name id k t, k ≠ .builtin → R { name := name, id := id, kind := k, type := t, defined := false }
  known : ∀ s k, R s → s.kind = .unknown → k ≠ .builtin → R { s with kind := k }

variable {R : Symbol → Prop}

theorem AllSym.insert {st : SymTab} (h : AllSym R st) (hr : Nameable R) (name : CStr) {k : SymKind} (t : Ty)
    (hk : k ≠ .builtin) : AllSym R (symInsert st name k t).1 := by
  intro q s hs
  simp only [symInsert] at hs
  rw [List.getElem?_append] at hs
  split at hs
  · exact h q s hs
  · rw [List.getElem?_singleton] at hs
    split at hs
    · cases hs
      exact hr.new _ _ _ _ hk
    · cases hs

theorem AllSym.update {st : SymTab} (h : AllSym R st) (q : Nat) {f : Symbol → Symbol}
    (hf : ∀ s, st.psym[q]? = some s → R s → R (f s)) : AllSym R (symUpdate st q f) := by
  intro j s hs
  simp only [symUpdate, List.getElem?_modify] at hs
  cases hj : st.psym[j]? with
  | none => rw [hj] at hs; simp at hs
  | some x =>
    rw [hj] at hs
    simp only [Option.map_eq_map, Option.map_some, Option.some.injEq] at hs
    split at hs
    · subst hs
      rename_i hq
      subst hq
      exact hf x hj (h _ x hj)
    · subst hs
      exact h j x hj

theorem AllSym.map {st : SymTab} (h : AllSym R st) {f : Symbol → Symbol} (hf : ∀ s, R s → R (f s)) :
    AllSym R { st with psym := st.psym.map f } := by
  intro j s hs
  simp only [List.getElem?_map] at hs
  cases hj : st.psym[j]? with
  | none => rw [hj] at hs; simp at hs
  | some x =>
    rw [hj] at hs
    simp only [Option.map_some, Option.some.injEq] at hs
    subst hs
    exact hf _ (h j x hj)

theorem AllSym.unknown {st : SymTab} (h : AllSym R st) (hr : Nameable R) : AllSym R (symMakeUnknownArray st) := by
  apply h.map
  intro s hs
  split
  · rename_i hk; exact hr.known s _ hs hk (by simp)
  · exact hs

theorem AllSym.cleared {st : SymTab} (h : AllSym R st) (hu : ∀ s, R s → s.defined = true → R (undefineValue s)) :
    AllSym R (clearSymbolTableValues st) := by
  apply h.map
  intro s hs
  split
  · rename_i hd; exact hu s hs hd
  · exact hs

namespace P

/-- The compiler's table has `R` everywhere. -/
structure Everywhere (R : Symbol → Prop) (p : Parser) : Prop where
  fits : p.lex.Sound
  all : AllSym R p.st

theorem everywhere_resolve (hr : Nameable R) (name : CStr) (params : Nat) (kind : SymKind) (hk : kind = .unknown ∨ kind = .array) :
    Keeps (Everywhere R) (resolve name params kind) := by
  have hkb : kind ≠ .builtin := by rcases hk with h | h <;> simp [h]
  intro p hp
  simp only [resolve, bind_apply, lookup]
  cases hf : symLookup p.st name (params != 0) with
  | some q =>
    obtain ⟨s, hs, hm, hn⟩ := lookup_some hf
    simp only [bind_apply, sym, hs]
    by_cases hp0 : params = 0
    · simp only [hp0, ne_eq, not_true_eq_false, if_false, pure_apply]
      exact hp
    · simp only [ne_eq, hp0, not_false_eq_true, if_true]
      by_cases hu : s.kind = .unknown
      · simp only [hu, if_true, bind_apply, P.setKind, pure_apply]
        refine ⟨hp.fits, hp.all.update q (fun s' hs' hs1 => ?_)⟩
        rw [hs] at hs'; cases hs'
        exact hr.known s _ hs1 hu hkb
      · simp only [hu, if_false]
        by_cases hc : kind ≠ .unknown ∧ s.kind ≠ kind
        · simp only [hc, not_false_eq_true, and_self, if_true, fail]
          exact hp
        · rw [if_neg (by simpa using hc)]
          exact hp
  | none =>
    simp only [insert]
    refine ⟨hp.fits, hp.all.insert hr _ _ ?_⟩
    split
    · exact hkb
    · simp

theorem everywhere_defSymbol (hr : Nameable R) (name : CStr) (t : Ty) : Keeps (Everywhere R) (defSymbol name t) := by
  intro p hp
  simp only [defSymbol, bind_apply, lookup]
  cases hf : symLookup p.st name true with
  | some q =>
    obtain ⟨s, hs, hm, hn⟩ := lookup_some hf
    simp only [bind_apply, sym, hs]
    by_cases hu : s.kind = .unknown
    · simp only [hu, if_true, bind_apply, P.setKind, pure_apply]
      refine ⟨hp.fits, hp.all.update q (fun s' hs' hs1 => ?_)⟩
      rw [hs] at hs'; cases hs'
      exact hr.known s _ hs1 hu (by simp)
    · simp only [hu, if_false]
      split
      · exact hp
      · exact hp
  | none =>
    simp only [insert]
    exact ⟨hp.fits, hp.all.insert hr _ _ (by simp)⟩

theorem closed_everywhere (hr : Nameable R) : Closed (Everywhere R) where
  lex p lex h hl := ⟨hl, h.all⟩
  fits p h := h.fits
  emit i hi p h := ⟨h.fits, h.all⟩
  patch n i hi p h := by
    simp only [patch]
    split
    · trivial
    · exact ⟨h.fits, h.all⟩
  ifThen p n h := ⟨h.fits, h.all⟩
  resolve := everywhere_resolve hr
  defSymbol name := everywhere_defSymbol hr name _

end P

theorem parseSource_all {src : Source} {st st' : SymTab} {pre : Bool} {r : Option Bcode} (hr : Nameable R) (h : AllSym R st)
    (hp : parseSource src st pre = .ok (r, st')) : AllSym R st' := by
  have key := P.keeps_parseLines (P.closed_everywhere hr) src.lines 0 { lex := newLex pre, bcode := newBcode, st := st, ifThen := 0 }
    ⟨sound_new _, h⟩
  unfold parseSource at hp
  split at hp
  · rename_i p hl
    rw [hl] at key
    simp only [Outcome.ok.injEq, Prod.mk.injEq] at hp
    rw [← hp.2]
    exact key.all.unknown hr
  · rename_i p hl
    rw [hl] at key
    simp only [Outcome.ok.injEq, Prod.mk.injEq] at hp
    rw [← hp.2]
    exact key.all.unknown hr
  · cases hp

/-- The symbols of a fresh table are the built-in functions. -/
theorem allSym_fresh (h : ∀ s ∈ builtinSymbols, R s) (st : SymTab) : AllSym R (initBuiltins (clearSymbolTableNames st)) := by
  intro q s hs
  have hp : (initBuiltins (clearSymbolTableNames st)).psym = builtinSymbols := initBuiltins_psym
  rw [hp] at hs
  exact h s (List.mem_of_getElem? hs)

theorem allSym_start (h : ∀ s ∈ builtinSymbols, R s) : AllSym R (initBuiltins newSymbolTable) := allSym_fresh h newSymbolTable

end LB
