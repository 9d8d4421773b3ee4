import Verif.Proofs.Names
import Verif.Proofs.DemoRun
/- C12: the symbol table. -/
namespace LB
open LB.Spec _root_.Spec

/-- C12.  In a table built by any operations in any order, looking a name up finds the latest entry that has this name up to
case and the class asked for, whatever the hash values of the names are. -/
theorem C12_lookup {st : SymTab} (h : Built st) (name : CStr) (paren : Bool) :
    (∀ q, symLookup st name paren = some q ↔ Entry st name paren q ∧ ∀ q', Entry st name paren q' → q' ≤ q) ∧
    (symLookup st name paren = none ↔ ∀ q, ¬ Entry st name paren q) :=
  ⟨(built_linked h).some_iff name paren, (built_linked h).none_iff name paren⟩

/-- C12.  Spelling a name with other case finds the same entry. -/
theorem C12_case {st : SymTab} (h : Built st) {a b : CStr} (paren : Bool) (hab : SameIgnoringCase a b) :
    symLookup st a paren = symLookup st b paren := by
  have key : ∀ q, Entry st a paren q ↔ Entry st b paren q := fun q =>
    ⟨fun ⟨s, h1, h2, h3⟩ => ⟨s, h1, h2.trans hab, h3⟩, fun ⟨s, h1, h2, h3⟩ => ⟨s, h1, h2.trans hab.symm, h3⟩⟩
  cases hs : symLookup st b paren with
  | none => rw [(C12_lookup h a paren).2]; simpa only [key] using (C12_lookup h b paren).2.1 hs
  | some q => rw [(C12_lookup h a paren).1]; simpa only [key] using ((C12_lookup h b paren).1 q).1 hs

/-- Two names in one slot, a scalar and an array. -/
example : ∃ st, Built st ∧ symHash "AQ".toList = symHash "BA".toList ∧ symLookup st "aq".toList false = some 0 ∧
    symLookup st "ba".toList false = some 1 ∧ symLookup st "AQ".toList true = some 2 ∧ symLookup st "B".toList false = none :=
  ⟨_, .insert "AQ".toList .array .num false (.insert "BA".toList .variable .num false (.insert "AQ".toList .variable .num false .new)),
    by decide +kernel, by decide +kernel, by decide +kernel, by decide +kernel, by decide +kernel⟩

/-- C12.  A name never means the same entry with and without a parenthesis, unless it is a built-in function. -/
theorem C12_classes {st : SymTab} {a b : CStr} {q : Nat} (ha : Entry st a true q) (hb : Entry st b false q) :
    ∃ s, st.psym[q]? = some s ∧ s.kind = .builtin := by
  obtain ⟨s, h1, _, h3⟩ := ha
  obtain ⟨t, k1, _, k3⟩ := hb
  rw [h1] at k1
  cases k1
  refine ⟨s, h1, ?_⟩
  revert h3 k3
  cases s.kind <;> decide

/-- C12.  At every moment of a session a name has at most one entry of each class, and looking it up finds that entry. -/
theorem C12_session {vm : VM} (h : Moment vm) (name : CStr) (paren : Bool) :
    (∀ p q, Entry vm.st name paren p → Entry vm.st name paren q → p = q) ∧
    (∀ q, symLookup vm.st name paren = some q ↔ Entry vm.st name paren q) := by
  have hn := moment_names h
  refine ⟨hn.uniq name paren, fun q => ?_⟩
  rw [hn.linked.some_iff]
  exact ⟨fun h => h.1, fun h => ⟨h, fun q' h' => Nat.le_of_eq (hn.uniq _ _ _ _ h' h)⟩⟩

/-- C12.  While there are at most 65536 names, compiled code refers to an entry by a number that no other entry has, and
that number leads back to the entry. -/
theorem C12_identity {vm : VM} (h : Moment vm) (hn : vm.st.psym.length ≤ 65536) {q : Nat} {s : Symbol} (hs : vm.st.psym[q]? = some s) :
    symbolAt vm.st s.id = .ok s ∧ ∀ (p : Nat) (t : Symbol), vm.st.psym[p]? = some t → t.id = s.id → p = q := by
  have ht := (moment_names h).tab
  have hq := (List.getElem?_eq_some_iff.1 hs).1
  have hid : s.id = q := by rw [ht.ids q s hs, Nat.mod_eq_of_lt (by omega)]
  refine ⟨by simp only [symbolAt, hid, hs], fun p t hp e => ?_⟩
  have hp' := (List.getElem?_eq_some_iff.1 hp).1
  rw [ht.ids p t hp, Nat.mod_eq_of_lt (by omega), hid] at e
  exact e

example : ∃ vm, Moment vm ∧ (vm.st.psym.length ≤ 65536 ∧ Entry vm.st "x".toList false 26 ∧ Entry vm.st "x".toList true 27) := by
  obtain ⟨vm, h1, h2⟩ := Demo.moment (lines := [(10, "X=5:X(1)=X")]) (n := 1)
    (P := fun vm => vm.st.psym.length == 28 && (vm.st.psym[26]?.map (fun s => (s.name, s.kind)) == some ("X".toList, .variable)) &&
      (vm.st.psym[27]?.map (fun s => (s.name, s.kind)) == some ("X".toList, .array))) (by decide +kernel)
  simp only [Bool.and_eq_true, beq_iff_eq, Option.map_eq_some_iff, Prod.mk.injEq] at h2
  obtain ⟨⟨h2, s, h3, h4, h5⟩, t, h6, h7, h8⟩ := h2
  refine ⟨vm, h1, by omega, ⟨s, h3, ?_, ?_⟩, ⟨t, h6, ?_, ?_⟩⟩
  · rw [h4]; decide
  · rw [h5]; decide
  · rw [h7]; decide
  · rw [h8]; decide

/-- C12.  A name in a program means its latest entry; a name seen for the first time gets a new entry. -/
theorem C12_resolve {p p' : Parser} {name : CStr} {params q : Nat} {kind : SymKind} (hb : Built p.st) (hk : kind = .unknown ∨ kind = .array)
    (h : P.resolve name params kind p = .ok q p') :
    Entry p'.st name (params != 0) q ∧ (∀ q', Entry p.st name (params != 0) q' → q' ≤ q) ∧
      ((∀ q', ¬ Entry p.st name (params != 0) q') → q = p.st.psym.length ∧ p'.st.psym.length = q + 1) := by
  have hl := built_linked hb
  simp only [P.resolve, P.bind_apply, P.lookup] at h
  cases hf : symLookup p.st name (params != 0) with
  | some q0 =>
    obtain ⟨e1, e2⟩ := (hl.some_iff _ _ _).1 hf
    have e1' := e1
    obtain ⟨s, hs, hn, hc⟩ := e1'
    simp only [hf, P.bind_apply, P.sym, hs] at h
    have done : q0 = q → p = p' → Entry p'.st name (params != 0) q ∧ (∀ q', Entry p.st name (params != 0) q' → q' ≤ q) ∧
      ((∀ q', ¬ Entry p.st name (params != 0) q') → q = p.st.psym.length ∧ p'.st.psym.length = q + 1) := by
      rintro rfl rfl
      exact ⟨e1, e2, fun h => absurd e1 (h _)⟩
    by_cases hp0 : params = 0
    · simp only [hp0, ne_eq, not_true_eq_false, if_false, P.pure_apply, PRes.ok.injEq] at h
      exact done h.1 h.2
    · simp only [ne_eq, hp0, not_false_eq_true, if_true] at h
      by_cases hu : s.kind = .unknown
      · simp only [hu, if_true, P.bind_apply, P.setKind, P.pure_apply, PRes.ok.injEq] at h
        obtain ⟨rfl, rfl⟩ := h
        refine ⟨⟨{ s with kind := kind }, ?_, hn, ?_⟩, e2, fun h => absurd e1 (h _)⟩
        · simp [symUpdate, hs]
        · rcases hk with rfl | rfl <;> simp [hp0, InClass]
      · simp only [hu, if_false] at h
        by_cases hc : kind ≠ .unknown ∧ s.kind ≠ kind
        · rw [if_pos hc] at h
          cases h
        · rw [if_neg hc] at h
          cases h
          exact done rfl rfl
  | none =>
    have hno := (hl.none_iff _ _).1 hf
    simp only [hf, P.insert, PRes.ok.injEq] at h
    obtain ⟨h1, h2⟩ := h
    subst h2
    have h1 : p.st.psym.length = q := h1
    refine ⟨?_, fun q' h => absurd h (hno q'), fun _ => ⟨h1.symm, ?_⟩⟩
    · have hi := inserted p.st name (if params ≠ 0 then kind else .variable) (if stringName name then .str else .num) false
      rw [show (symInsert p.st name _ _ false).2 = q from h1] at hi
      refine ⟨_, hi, ?_, ?_⟩
      · rfl
      · by_cases hp0 : params = 0
        · simp [hp0, InClass]
        · rcases hk with rfl | rfl <;> simp [hp0, InClass]
    · rw [← h1]; simp [symInsert]

end LB
