import Verif.Spec.Data
import Verif.Proofs.Branches
import Verif.Proofs.Frame
/- Lemmas for READ. -/
namespace LB
open Spec
namespace V

/-- The first DATA instruction is where the first item is. -/
theorem items_scan (l : List Inst) :
    (∃ s, l[(l.takeWhile (fun i => !i.isData)).length]? = some (.data s) ∧
      items l = s :: items (l.drop ((l.takeWhile (fun i => !i.isData)).length + 1))) ∨
    (l[(l.takeWhile (fun i => !i.isData)).length]? = none ∧ items l = []) := by
  induction l with
  | nil => exact .inr ⟨rfl, rfl⟩
  | cons i l ih =>
    by_cases hi : ∃ s, i = .data s
    · obtain ⟨s, rfl⟩ := hi
      exact .inl ⟨s, by simp [Inst.isData], by simp [items, Inst.isData]⟩
    · have hd : i.isData = false := by cases i <;> first | rfl | exact absurd ⟨_, rfl⟩ hi
      have he : items (i :: l) = items l := by cases i <;> first | rfl | exact absurd ⟨_, rfl⟩ hi
      simp only [List.takeWhile_cons, hd, Bool.not_false, if_true, List.length_cons, List.getElem?_cons_succ,
        List.drop_succ_cons, he]
      exact ih

theorem items_scan_at (l : List Inst) (dp : Nat) :
    (∃ s, l[scan Inst.isData l dp]? = some (.data s) ∧
      items (l.drop dp) = s :: items (l.drop (scan Inst.isData l dp + 1))) ∨
    (l[scan Inst.isData l dp]? = none ∧ items (l.drop dp) = []) := by
  rcases items_scan (l.drop dp) with ⟨s, h1, h2⟩ | ⟨h1, h2⟩
  · refine .inl ⟨s, ?_, ?_⟩
    · rw [scan, ← h1, List.getElem?_drop]
    · rw [h2, List.drop_drop, scan]; congr 2
  · refine .inr ⟨?_, h2⟩
    rw [scan, ← h1, List.getElem?_drop]

theorem dataSource_program {vm : VM} {i : Inst} (hat : At vm i) (h : ReadsProgram vm) :
    dataSource vm = .ok (vm.stored.bcode, vm.programData, false) := by
  unfold dataSource
  split
  · rename_i hc
    cases hb : vm.immediate.bcode with
    | none =>
      obtain ⟨r, b, h1, h2, -⟩ := hat
      rw [hc] at h1; cases h1
      simp [codeOf, hb] at h2
    | some b => simp [h hc b hb]
  · rfl

theorem findData_next {vm : VM} {i : Inst} {s : CStr} {more : List CStr} (hat : At vm i) (h : ReadsProgram vm) (hk : DataKnown vm)
    (hp : pending vm = s :: more) :
    ∃ p, findData vm = .ok s { vm with programData := p } ∧ pending { vm with programData := p } = more := by
  cases hb : vm.stored.bcode with
  | none => simp [pending, hb] at hp
  | some b =>
    simp only [pending, hb] at hp
    have hd : b.hasData = true := by
      cases hd : b.hasData with
      | true => rfl
      | false =>
        have h0 := hk b hb hd
        have : ∀ (l : List Inst) n, items l = [] → items (l.drop n) = [] := by
          intro l
          induction l with
          | nil => intro n _; simp [items]
          | cons i l ih =>
            intro n hi
            cases n with
            | zero => exact hi
            | succ n =>
              refine ih n ?_
              cases i <;> first | exact hi | (simp [items] at hi)
        rw [this _ _ h0] at hp
        cases hp
    rcases items_scan_at b.inst vm.programData with ⟨t, h1, h2⟩ | ⟨h1, h2⟩
    · rw [h2] at hp
      cases hp
      refine ⟨scan Inst.isData b.inst vm.programData + 1, ?_, by simp only [pending, hb]⟩
      simp only [findData, bind_apply, get_apply, dataSource_program hat h, lift, pure_apply, hb, hd, Bool.not_true,
        Bool.false_eq_true, if_false, h1, modify_apply]
    · rw [h2] at hp; cases hp

theorem findData_empty {vm : VM} {i : Inst} (hat : At vm i) (h : ReadsProgram vm) (hp : pending vm = []) :
    ∃ e, (e = .noData ∨ e = .outOfData) ∧ findData vm = .err e vm := by
  cases hb : vm.stored.bcode with
  | none => exact ⟨_, .inl rfl, by simp [findData, dataSource_program hat h, lift, hb]⟩
  | some b =>
    simp only [pending, hb] at hp
    cases hd : b.hasData with
    | false => exact ⟨_, .inl rfl, by simp [findData, dataSource_program hat h, lift, hb, hd]⟩
    | true =>
      rcases items_scan_at b.inst vm.programData with ⟨t, h1, h2⟩ | ⟨h1, h2⟩
      · rw [h2] at hp; cases hp
      · exact ⟨_, .inr rfl, by simp [findData, dataSource_program hat h, lift, hb, hd, h1]⟩

theorem findData_typed {vm : VM} {s : CStr} {more : List CStr} (h : ReadsTyped vm) (hp : pendingTyped vm = s :: more) :
    ∃ p, findData vm = .ok s { vm with immediateData := p } ∧
      pendingTyped { vm with immediateData := p } = more := by
  obtain ⟨hc, b, hb, hd⟩ := h
  simp only [pendingTyped, hb] at hp
  rcases items_scan_at b.inst vm.immediateData with ⟨t, h1, h2⟩ | ⟨h1, h2⟩
  · rw [h2] at hp
    cases hp
    refine ⟨scan Inst.isData b.inst vm.immediateData + 1, ?_, by simp only [pendingTyped, hb]⟩
    simp only [findData, bind_apply, get_apply, dataSource, hc, if_true, lift, pure_apply, hb, hd, Bool.not_true,
      Bool.false_eq_true, if_false, h1, modify_apply]
  · rw [h2] at hp; cases hp

theorem findData_typed_empty {vm : VM} (h : ReadsTyped vm) (hp : pendingTyped vm = []) :
    findData vm = .err .outOfData vm := by
  obtain ⟨hc, b, hb, hd⟩ := h
  simp only [pendingTyped, hb] at hp
  rcases items_scan_at b.inst vm.immediateData with ⟨t, h1, h2⟩ | ⟨h1, h2⟩
  · rw [h2] at hp; cases hp
  · simp [findData, dataSource, hc, lift, hb, hd, h1]

end V
end LB
