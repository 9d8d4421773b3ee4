import Verif.Proofs.LineMap
import Verif.Model.Bcode
/- The index from line numbers to positions in compiled code. -/
namespace LB

theorem bcodeIndexLoop_skip {x : Inst} (hx : ¬ x.isSourceLine = true) (src : Source) (rest : List Inst) (i : Nat) (m : LineMap) :
    bcodeIndexLoop src (x :: rest) i m = bcodeIndexLoop src rest (i + 1) m := by
  cases x <;> first | rfl | exact absurd rfl hx

theorem isSourceLine_iff {x : Inst} (hx : x.isSourceLine = true) : ∃ l, x = .sourceLine l := by
  cases x <;> first | exact ⟨_, rfl⟩ | cases hx

theorem bcodeIndexLoop_spec {src : Source} {insts : List Inst} {i : Nat} {m m' : LineMap}
    (hm : m.count + (insts.filter (·.isSourceLine)).length ≤ m.allocated) (h : bcodeIndexLoop src insts i m = .ok m') (n : Nat) :
    (∀ pc, lookupLineMapping m' n = some pc → lookupLineMapping m n = some pc ∨
      ∃ (j l : Nat) (ln : SrcLine), pc = i + j ∧ insts[j]? = some (.sourceLine l) ∧ src.lines[l]? = some ln ∧ ln.num = n) ∧
    (lookupLineMapping m' n = none → lookupLineMapping m n = none ∧
      ∀ (j l : Nat) (ln : SrcLine), insts[j]? = some (.sourceLine l) → src.lines[l]? = some ln → ln.num ≠ n) := by
  induction insts generalizing i m with
  | nil =>
    simp only [bcodeIndexLoop, Outcome.ok.injEq] at h
    subst h
    exact ⟨fun pc h => .inl h, fun h => ⟨h, fun j l ln hj => by simp at hj⟩⟩
  | cons x rest ih =>
    by_cases hx : x.isSourceLine = true
    · have hex := isSourceLine_iff hx
      obtain ⟨l, rfl⟩ := hex
      simp only [bcodeIndexLoop] at h
      cases hl : src.lines[l]? with
      | none => simp [sourceLinenum, hl] at h
      | some ln =>
        simp only [sourceLinenum, hl] at h
        simp only [List.filter_cons, hx, if_true, List.length_cons] at hm
        obtain ⟨m1, h1, h2, h3, h4⟩ := insert_ok m ln.num i (by omega)
        rw [h1] at h
        simp only at h
        obtain ⟨h5, h6⟩ := ih (by omega) h
        refine ⟨fun pc hpc => ?_, fun hn => ?_⟩
        · rcases h5 pc hpc with h7 | ⟨j, l', ln', rfl, h8, h9, h10⟩
          · rw [h4] at h7
            split at h7
            · rename_i he
              simp only [Option.some.injEq] at h7
              subst h7
              exact .inr ⟨0, l, ln, by omega, rfl, hl, he.symm⟩
            · exact .inl h7
          · exact .inr ⟨j + 1, l', ln', by omega, by simpa using h8, h9, h10⟩
        · obtain ⟨h7, h8⟩ := h6 hn
          rw [h4] at h7
          split at h7
          · cases h7
          · rename_i he
            refine ⟨h7, fun j l' ln' hj hl' => ?_⟩
            cases j with
            | zero =>
              simp only [List.getElem?_cons_zero, Option.some.injEq, Inst.sourceLine.injEq] at hj
              subst hj
              rw [hl] at hl'
              simp only [Option.some.injEq] at hl'
              subst hl'
              exact fun h => he h.symm
            | succ j => exact h8 j l' ln' (by simpa using hj) hl'
    · have he := bcodeIndexLoop_skip hx src rest i m
      rw [he] at h
      simp only [List.filter_cons, hx] at hm
      obtain ⟨h5, h6⟩ := ih hm h
      refine ⟨fun pc hpc => ?_, fun hn => ?_⟩
      · rcases h5 pc hpc with h7 | ⟨j, l', ln', rfl, h8, h9, h10⟩
        · exact .inl h7
        · exact .inr ⟨j + 1, l', ln', by omega, by simpa using h8, h9, h10⟩
      · obtain ⟨h7, h8⟩ := h6 hn
        refine ⟨h7, fun j l' ln' hj hl' => ?_⟩
        cases j with
        | zero =>
          simp only [List.getElem?_cons_zero, Option.some.injEq] at hj
          subst hj
          simp [Inst.isSourceLine] at hx
        | succ j => exact h8 j l' ln' (by simpa using hj) hl'

/-- The index leads to the marks of lines with the number looked up, and misses none. -/
theorem bcodeIndex_spec {bc : Bcode} {src : Source} {idx : LineMap} (h : bcodeIndex bc src = .ok idx) (n : Nat) :
    (∀ pc, lookupLineMapping idx n = some pc →
      ∃ (l : Nat) (ln : SrcLine), bc.inst[pc]? = some (.sourceLine l) ∧ src.lines[l]? = some ln ∧ ln.num = n) ∧
    (lookupLineMapping idx n = none →
      ∀ (pc l : Nat) (ln : SrcLine), bc.inst[pc]? = some (.sourceLine l) → src.lines[l]? = some ln → ln.num ≠ n) := by
  obtain ⟨h1, h2⟩ := bcodeIndexLoop_spec (m := newLineMap (lineCount bc)) (by simp [newLineMap, lineCount]) h n
  refine ⟨fun pc hpc => ?_, fun hn => (h2 hn).2⟩
  rcases h1 pc hpc with h3 | ⟨j, l, ln, rfl, h3⟩
  · cases h3
  · rw [Nat.zero_add]
    exact ⟨l, ln, h3⟩

theorem bcodeIndexLoop_total {src : Source} {insts : List Inst} {i : Nat} {m : LineMap}
    (hm : m.count + (insts.filter (·.isSourceLine)).length ≤ m.allocated)
    (hl : ∀ l, Inst.sourceLine l ∈ insts → l < src.lines.length) : ∃ m', bcodeIndexLoop src insts i m = .ok m' := by
  induction insts generalizing i m with
  | nil => exact ⟨m, rfl⟩
  | cons x rest ih =>
    have hr : ∀ l, Inst.sourceLine l ∈ rest → l < src.lines.length := fun l h => hl l (List.mem_cons_of_mem _ h)
    by_cases hx : x.isSourceLine = true
    · have hex := isSourceLine_iff hx
      obtain ⟨l, rfl⟩ := hex
      simp only [bcodeIndexLoop]
      have hlt := hl l (List.mem_cons_self ..)
      simp only [sourceLinenum, List.getElem?_eq_getElem hlt]
      simp only [List.filter_cons, hx, if_true, List.length_cons] at hm
      obtain ⟨m1, h1, h2, h3, h4⟩ := insert_ok m (src.lines[l]'hlt).num i (by omega)
      rw [h1]
      exact ih (by omega) hr
    · have he := bcodeIndexLoop_skip hx src rest i m
      rw [he]
      simp only [List.filter_cons, hx] at hm
      exact ih hm hr

theorem bcodeIndex_total {bc : Bcode} {src : Source} (hl : ∀ l, Inst.sourceLine l ∈ bc.inst → l < src.lines.length) :
    ∃ idx, bcodeIndex bc src = .ok idx := bcodeIndexLoop_total (by simp [newLineMap, lineCount]) hl

end LB
