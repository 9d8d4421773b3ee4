import Verif.Proofs.StateMoment
import Verif.Proofs.DemoState
import Verif.Proofs.RunEnds
import Verif.Props.Branches
import Verif.Props.Data
/-
C21, C22 for the code that the compiler makes.
-/
namespace LB
open LB.Spec _root_.Spec

theorem split_at {l : List Inst} {i : Nat} {x : Inst} (h : l[i]? = some x) : l = l.take i ++ x :: l.drop (i + 1) := by
  have hl := (List.getElem?_eq_some_iff.1 h).1
  have := (List.take_append_drop i l).symm
  rw [List.drop_eq_getElem_cons hl, (List.getElem?_eq_some_iff.1 h).2] at this
  exact this

/-- The part of the code up to the next line mark. -/
theorem line_split (l : List Inst) : ∃ s rest, l = s ++ rest ∧ (∀ n, Inst.sourceLine n ∉ s) ∧ (rest = [] ∨ ∃ n r, rest = .sourceLine n :: r) := by
  induction l with
  | nil => exact ⟨[], [], rfl, by simp, .inl rfl⟩
  | cons x l ih =>
    by_cases hx : ∃ n, x = .sourceLine n
    · obtain ⟨n, rfl⟩ := hx
      exact ⟨[], _, rfl, by simp, .inr ⟨n, l, rfl⟩⟩
    · obtain ⟨s, rest, h1, h2, h3⟩ := ih
      refine ⟨x :: s, rest, by rw [h1]; rfl, fun n hn => ?_, h3⟩
      rcases List.mem_cons.1 hn with h | h
      · exact hx ⟨n, h.symm⟩
      · exact h2 n h

theorem moment_elses {vm : VM} (h : Moment vm) : Codes (fun b => ElseOk b.inst) vm :=
  moment_codes (fun _ _ _ _ _ ht hp => ((parseSource_compiled ht hp).2.2 _ rfl).elses) h

theorem Codes.at {Q : Bcode → Prop} {vm : VM} (h : Codes Q vm) {r : CodeRef} {b : Bcode} (hr : r ≠ .def_) (hb : (V.codeOf vm r).bcode = some b) : Q b := by
  cases r with
  | stored => exact h.stored b hb
  | immediate => exact h.immediate b hb
  | def_ => exact absurd rfl hr

/-- C21.  Wherever the code that is run has the test of an IF with ELSE, the rest of the line is: the statements of the
first branch, in which there is no other IF or ELSE, then the ELSE and the second branch.  So the theorems
`C21_else_taken`, `C21_then_taken`, `C21_else_skipped` apply, and the ELSE belongs to the nearest IF before it.
Only code of functions is left out, which is an expression. -/
theorem C21_layout {vm : VM} (h : Moment vm) (hd : vm.cs.code ≠ some .def_) :
    (At vm .ifElse → ∃ before s1 s2 rest, IfElseCode vm before s1 s2 rest ∧ vm.cs.pc = before.length ∧
      Inst.ifThen ∉ s1 ∧ Inst.ifElse ∉ s1 ∧ ∀ n, Inst.sourceLine n ∉ s1) ∧
    (At vm .else_ → ∃ before s1 s2 rest, IfElseCode vm before s1 s2 rest ∧ vm.cs.pc = before.length + 1 + s1.length ∧
      Inst.ifThen ∉ s1 ∧ Inst.ifElse ∉ s1 ∧ ∀ n, Inst.sourceLine n ∉ s1) ∧
    (At vm .ifThen → ∃ before s1 rest, IfCode vm before s1 rest ∧ vm.cs.pc = before.length) := by
  have key : ∀ r b, vm.cs.code = some r → (V.codeOf vm r).bcode = some b → ∀ i j, i < j → b.inst[i]? = some .ifElse →
      b.inst[j]? = some .else_ → Between b.inst i j → ∃ before s1 s2 rest, IfElseCode vm before s1 s2 rest ∧ before.length = i ∧
        before.length + 1 + s1.length = j ∧ Inst.ifThen ∉ s1 ∧ Inst.ifElse ∉ s1 ∧ ∀ n, Inst.sourceLine n ∉ s1 := by
    intro r b hr hb i j hij hi hj hbt
    have hjl := (List.getElem?_eq_some_iff.1 hj).1
    have e1 := split_at hj
    have e2 : (b.inst.take j)[i]? = some .ifElse := by rw [List.getElem?_take_of_lt hij]; exact hi
    have e3 := split_at e2
    obtain ⟨s2, rest, h1, h2, h3⟩ := line_split (b.inst.drop (j + 1))
    have hno : ∀ x ∈ (b.inst.take j).drop (i + 1), inert x = true := by
      intro x hx
      obtain ⟨k, hk⟩ := List.getElem?_of_mem hx
      rw [List.getElem?_drop] at hk
      have hkl : i + 1 + k < j := by
        have := (List.getElem?_eq_some_iff.1 hk).1
        simp only [List.length_take] at this
        omega
      rw [List.getElem?_take_of_lt hkl] at hk
      exact hbt _ x (by omega) hkl hk
    refine ⟨(b.inst.take j).take i, (b.inst.take j).drop (i + 1), s2, rest, ⟨⟨r, b, hr, hb, ?_⟩, ?_, h2, h3⟩, ?_, ?_, ?_, ?_, ?_⟩
    · rw [h1] at e1
      rw [e3] at e1
      simpa using e1
    · intro hx; have := hno _ hx; cases this
    · simp only [List.length_take]; omega
    · simp only [List.length_take, List.length_drop]; omega
    · intro hx; have := hno _ hx; cases this
    · intro hx; have := hno _ hx; cases this
    · intro n hx; have := hno _ hx; cases this
  have hc := moment_elses h
  refine ⟨fun hat => ?_, fun hat => ?_, fun hat => ?_⟩
  · obtain ⟨r, b, hr, hb, hi⟩ := hat
    have ho := hc.at (fun hx => hd (hx ▸ hr)) hb
    obtain ⟨j, hij, hj, hbt⟩ := ho.ifs _ hi
    obtain ⟨before, s1, s2, rest, k1, k2, k3, k4⟩ := key r b hr hb _ j hij hi hj hbt
    exact ⟨before, s1, s2, rest, k1, k2.symm, k4⟩
  · obtain ⟨r, b, hr, hb, hj⟩ := hat
    have ho := hc.at (fun hx => hd (hx ▸ hr)) hb
    obtain ⟨i, hij, hi, hbt⟩ := ho.elses _ hj
    obtain ⟨before, s1, s2, rest, k1, k2, k3, k4⟩ := key r b hr hb i _ hij hi hj hbt
    exact ⟨before, s1, s2, rest, k1, k3.symm, k4⟩
  · obtain ⟨r, b, hr, hb, hi⟩ := hat
    obtain ⟨s1, rest, h1, h2, h3⟩ := line_split (b.inst.drop (vm.cs.pc + 1))
    have e := split_at hi
    refine ⟨b.inst.take vm.cs.pc, s1, rest, ⟨⟨r, b, hr, hb, ?_⟩, h2, h3⟩, ?_⟩
    · rw [h1] at e
      simpa using e
    · have := (List.getElem?_eq_some_iff.1 hi).1
      simp only [List.length_take]; omega

set_option maxRecDepth 100000 in
/-- An IF with ELSE inside an IF. -/
example : ∃ vm : VM, Moment vm ∧ vm.cs.code ≠ some .def_ ∧ At vm .ifElse := by
  obtain ⟨vm, h1, h2⟩ := Demo.moment (lines := [(10, "IF 1 THEN IF 0 THEN PRINT 1 ELSE PRINT 2")]) (n := 4)
    (P := fun vm => Demo.nextIs .ifElse vm && decide (vm.cs.code ≠ some .def_)) (by decide +kernel)
  simp only [Bool.and_eq_true, decide_eq_true_eq] at h2
  exact ⟨vm, h1, h2.2, Demo.at_of_nextIs h2.1⟩

theorem items_none {l : List Inst} (h : ∀ i ∈ l, i.isData = false) : items l = [] := by
  induction l with
  | nil => rfl
  | cons x l ih =>
    have h1 := ih (fun i hi => h i (List.mem_cons_of_mem _ hi))
    have h2 := h x (List.mem_cons_self ..)
    cases x <;> first | exact h1 | cases h2

/-- C22.  The compiled program always knows whether it has DATA, so the hypothesis of the other theorems holds at every
moment of every session. -/
theorem C22_known {vm : VM} (h : Moment vm) : DataKnown vm := fun b hb hd =>
  items_none ((moment_codes (Q := fun b => b.hasData = false → ∀ i ∈ b.inst, i.isData = false)
    (fun _ _ _ _ _ _ hp => parseSource_data hp) h).stored b hb hd)

set_option maxRecDepth 100000 in
example : ∃ vm : VM, Moment vm ∧ pending vm = ["2".toList] ∧ allItems vm = ["1".toList, "2".toList] := by
  obtain ⟨vm, h1, h2⟩ := Demo.moment (lines := [(10, "READ A"), (20, "DATA 1,2")]) (n := 2)
    (P := fun vm => pending vm == ["2".toList] && allItems vm == ["1".toList, "2".toList]) (by decide +kernel)
  simp only [Bool.and_eq_true, beq_iff_eq] at h2
  exact ⟨vm, h1, h2⟩

/-- C22.  Along any run in any session, unless the line last typed without a number has DATA of its own. -/
theorem C22_session (env : Env) (vm vm' : VM) (is : List Inst) (h : Moment vm) (hrun : Spec.Runs env vm is vm') (hp : NoTypedData vm) :
    pending vm' = is.foldl (fun rest i => deliver vm i rest) (pending vm) ∧ allItems vm' = allItems vm :=
  C22_run env vm vm' is hrun hp (C22_known h)

set_option maxRecDepth 100000 in
/-- After a typed line with no DATA. -/
example : ∃ vm : VM, Moment vm ∧ NoTypedData vm ∧ pending vm = ["2".toList] := by
  obtain ⟨vm, h1, h2⟩ := Demo.moment (lines := [(10, "READ A"), (20, "DATA 1,2")]) (n := 2)
    (P := fun vm => pending vm == ["2".toList] && vm.immediate.bcode.isNone) (by decide +kernel)
  simp only [Bool.and_eq_true, beq_iff_eq, Option.isNone_iff_eq_none] at h2
  exact ⟨vm, h1, (fun b hb => by rw [h2.2] at hb; cases hb), h2.1⟩

/-- C22.  While the stored program is run, whatever was typed before: from any moment of a run on, the items still to
come are those that the READ and RESTORE statements executed leave.  As in C40, CONT is used only after a stop between
statements, and there are at most 65536 names. -/
theorem C22_program {may : Cmd → VM → Prop} (hm : ∀ vm, may .cont vm → StoppedBetween vm) {vm vm' : VM}
    (h : State may .program vm) (hn : vm.st.psym.length ≤ 65536) {env : Env} {is : List Inst} (hrun : Spec.Runs env vm is vm') :
    pending vm' = is.foldl (fun rest i => deliver vm i rest) (pending vm) ∧ allItems vm' = allItems vm := by
  have hf := state_flow hm h
  have hc : Comp vm := by
    by_cases hs : vm.stored.source = none
    · exact .inl hs
    · exact .inr (hf.base.ready (by simp) hs)
  obtain ⟨o, hr⟩ := hf.ordered trivial hc hn
  replace hr := hr (by simp)
  have ht := hf.base.tab
  have hk := C22_known (state_moment h)
  clear hf hc h
  induction hrun with
  | nil vm => exact ⟨rfl, rfl⟩
  | @step a i a' js b hat hx hrest ih =>
    have hp : ReadsProgram a := by
      intro hi
      rcases hr with ⟨r, -, k1, k2, -⟩ | ⟨k1, -⟩
      · rcases k2 with rfl | ⟨h, -⟩
        · rw [hi] at k1; cases k1
        · cases h
      · rw [hi] at k1; cases k1
    obtain ⟨h1, h2, h3⟩ := C22_step env a i a' hat hx hp hk
    have hfl := execute_flow env o hr ht hn
    rw [hx] at hfl
    have hk' : DataKnown a' := by simpa only [DataKnown, h2] using hk
    have hmv : Moved a a' := hfl.1.2
    have ht' : Tab a'.st := hmv.tab ht
    obtain ⟨h4, h5⟩ := ih (by rw [hmv.length]; exact hn) hfl.1.1 hfl.2 ht' hk'
    have hall : allItems a' = allItems a := by simp only [allItems, h2]
    have hd : ∀ i rest, deliver a' i rest = deliver a i rest := by
      intro i rest
      cases i <;> simp only [deliver, allItems, lineStart, itemsFrom, h2]
    refine ⟨?_, h5.trans hall⟩
    rw [h4, List.foldl_cons, ← h1]
    simp only [hd]

set_option maxRecDepth 100000 in
example : ∃ vm : VM, State (fun k _ => k ≠ .cont) .program vm ∧ vm.st.psym.length ≤ 65536 ∧ pending vm = ["2".toList] := by
  obtain ⟨vm, h1, h2⟩ := Demo.state (may := fun k _ => k ≠ .cont) (lines := [(10, "READ A"), (20, "DATA 1,2")]) (n := 2)
    (P := fun vm => pending vm == ["2".toList] && decide (vm.st.psym.length ≤ 65536)) (by decide +kernel)
  simp only [Bool.and_eq_true, beq_iff_eq, decide_eq_true_eq] at h2
  exact ⟨vm, h1, h2.2, h2.1⟩

end LB
