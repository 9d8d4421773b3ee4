import Verif.Proofs.Ascending
import Verif.Proofs.DemoState
import Verif.Spec.Branches
/-
C01, C06: the lines of a program are in order, and GOTO finds them.
-/
namespace LB
open LB.Spec _root_.Spec

/-- C01.  In every session without RENUM the line numbers are strictly ascending at all times: no two lines have the
same number, and LIST and RUN take the lines in order. -/
theorem C01_session {may : Cmd → VM → Prop} (hm : ∀ vm, ¬ may .renum vm) {ph : Phase} {vm : VM} (h : State may ph vm) :
    Ascending ((lines vm).map (·.1)) := sorted_lines (state_sorted hm h)

set_option maxRecDepth 100000 in
example : ∃ vm : VM, State (fun k _ => k ≠ .renum) .program vm ∧
    lines vm = [(5, "PRINT".toList), (10, "GOTO 20".toList), (20, "END".toList)] := by
  obtain ⟨vm, h1, h2⟩ := Demo.state (may := fun k _ => k ≠ .renum)
    (lines := [(20, "END"), (5, "LET A=1"), (10, "GOTO 20"), (5, "PRINT")]) (n := 2)
    (P := fun vm => lines vm == [(5, "PRINT".toList), (10, "GOTO 20".toList), (20, "END".toList)]) (by decide +kernel)
  exact ⟨vm, h1, by simpa using h2⟩

theorem nodup_filterMap_unique {α β : Type} {f : α → Option β} {l : List α} (h : (l.filterMap f).Nodup) {i j : Nat} {x y : α} {a : β}
    (hi : l[i]? = some x) (hj : l[j]? = some y) (hx : f x = some a) (hy : f y = some a) : i = j := by
  induction l generalizing i j with
  | nil => simp at hi
  | cons z l ih =>
    have htail : (l.filterMap f).Nodup := by
      rw [List.filterMap_cons] at h
      split at h
      · exact h
      · exact (List.nodup_cons.1 h).2
    have hno : ∀ {k : Nat} {w : α}, f z = some a → l[k]? = some w → f w = some a → False := by
      intro k w hz hk hw
      rw [List.filterMap_cons, hz] at h
      exact (List.nodup_cons.1 h).1 (List.mem_filterMap.2 ⟨w, List.mem_of_getElem? hk, hw⟩)
    cases i with
    | zero =>
      simp only [List.getElem?_cons_zero, Option.some.injEq] at hi
      subst hi
      cases j with
      | zero => rfl
      | succ j => exact (hno hx (by simpa using hj) hy).elim
    | succ i =>
      cases j with
      | zero =>
        simp only [List.getElem?_cons_zero, Option.some.injEq] at hj
        subst hj
        exact (hno hy (by simpa using hi) hx).elim
      | succ j =>
        have h2 : i = j := ih htail (by simpa using hi) (by simpa using hj)
        rw [h2]

/-- C06.  Compiled code has exactly one mark for each line, at which the code of the line starts; if the line numbers
are distinct, the index leads to the mark of the line with the number looked up, and to nothing for a number no line
has. -/
theorem C06_compiled {src : Source} {st st' : SymTab} {pre : Bool} {bc : Bcode} {idx : LineMap} (ht : Tab st)
    (hp : parseSource src st pre = .ok (some bc, st')) (hi : bcodeIndex bc src = .ok idx)
    (hd : (src.lines.map (·.num)).Nodup) :
    (∀ (k : Nat) ln, src.lines[k]? = some ln → ∃ pc, bc.inst[pc]? = some (.sourceLine k) ∧
      (∀ pc', bc.inst[pc']? = some (.sourceLine k) → pc' = pc) ∧ lookupLineMapping idx ln.num = some pc) ∧
    ∀ n, (∀ ln ∈ src.lines, ln.num ≠ n) → lookupLineMapping idx n = none := by
  have hc := (parseSource_compiled ht hp).2.2 bc rfl
  have huniq : ∀ {i j k : Nat}, bc.inst[i]? = some (.sourceLine k) → bc.inst[j]? = some (.sourceLine k) → i = j := by
    intro i j k h1 h2
    refine nodup_filterMap_unique (f := lineOf) (a := k) ?_ h1 h2 rfl rfl
    rw [hc.lines]; exact List.nodup_range
  refine ⟨fun k ln hk => ?_, fun n hn => ?_⟩
  · have hlt : k < src.lines.length := (List.getElem?_eq_some_iff.1 hk).1
    have hmem : k ∈ bc.inst.filterMap lineOf := by rw [hc.lines]; exact List.mem_range.2 hlt
    obtain ⟨x, hx, hxk⟩ := List.mem_filterMap.1 hmem
    have hx' : x = .sourceLine k := by
      cases x <;> simp_all [lineOf]
    subst hx'
    obtain ⟨pc, hpc⟩ := List.getElem?_of_mem hx
    refine ⟨pc, hpc, fun pc' h => huniq h hpc, ?_⟩
    obtain ⟨h1, h2⟩ := bcodeIndex_spec hi ln.num
    cases hl : lookupLineMapping idx ln.num with
    | none => exact absurd rfl (h2 hl pc k ln hpc hk)
    | some q =>
      obtain ⟨k', ln', h3, h4, h5⟩ := h1 q hl
      have hkk : k' = k := by
        have hk'lt := (List.getElem?_eq_some_iff.1 h4).1
        have e1 : (src.lines.map (·.num))[k']? = some ln.num := by rw [List.getElem?_map, h4]; simp [h5]
        have e2 : (src.lines.map (·.num))[k]? = some ln.num := by rw [List.getElem?_map, hk]; rfl
        exact (List.getElem?_inj (by simpa using hk'lt) hd).1 (e1.trans e2.symm)
      subst hkk
      rw [huniq h3 hpc]
  · cases hl : lookupLineMapping idx n with
    | none => rfl
    | some q =>
      obtain ⟨k', ln', h3, h4, h5⟩ := (bcodeIndex_spec hi n).1 q hl
      exact absurd h5 (hn ln' (List.mem_of_getElem? h4))

/-- Where the lines of the program start, at all times in a session without RENUM. -/
theorem C06_lineStart {may : Cmd → VM → Prop} (hm : ∀ vm, ¬ may .renum vm) {ph : Phase} (hp : ph ≠ .idle) {vm : VM}
    (h : State may ph vm) :
    (∀ k n t, (lines vm)[k]? = some (n, t) → ∃ b pc, vm.stored.bcode = some b ∧ b.inst[pc]? = some (.sourceLine k) ∧
      (∀ pc', b.inst[pc']? = some (.sourceLine k) → pc' = pc) ∧ lineStart vm n = some pc) ∧
    ∀ n, (∀ t, (n, t) ∉ lines vm) → lineStart vm n = none := by
  have hcur := state_current hm h
  have hasc := C01_session hm h
  have hnd : ((lines vm).map (·.1)).Nodup := hasc.imp (fun h => Nat.ne_of_lt h)
  unfold lines at hnd ⊢
  unfold lineStart
  cases hs : vm.stored.source with
  | none =>
    refine ⟨fun k n t hk => by simp at hk, fun n _ => ?_⟩
    cases hx : vm.stored.index with
    | none => rfl
    | some idx =>
      exfalso
      -- no source, no index
      have hb : vm.stored.bcode = none := by
        cases hb : vm.stored.bcode with
        | none => rfl
        | some b => obtain ⟨src, _, _, h1, -⟩ := hcur.code b hb; rw [hs] at h1; cases h1
      have := state_noIndex h hb
      rw [hx] at this; cases this
  | some src =>
    rw [hs] at hnd
    simp only [List.map_map] at hnd
    cases hb : vm.stored.bcode with
    | none => exact absurd hb (hcur.running hp src hs)
    | some b =>
      obtain ⟨src', idx, st, h1, h2, h3, h4⟩ := hcur.code b hb
      rw [hs] at h1; cases h1
      have ht : Tab (initBuiltins newSymbolTable) := (wellNamed_fresh newSymbolTable).tab
      obtain ⟨c1, c2⟩ := C06_compiled ht h3 h4 hnd
      refine ⟨fun k n t hk => ?_, fun n hn => ?_⟩
      · simp only [List.getElem?_map, Option.map_eq_some_iff, Prod.mk.injEq] at hk
        obtain ⟨ln, hln, rfl, -⟩ := hk
        obtain ⟨pc, k1, k2, k3⟩ := c1 k ln hln
        exact ⟨b, pc, rfl, k1, k2, by rw [h2]; exact k3⟩
      · rw [h2]
        refine c2 n (fun ln hln he => ?_)
        exact hn ln.text (List.mem_map.2 ⟨ln, hln, by rw [he]⟩)

/-- C06.  GOTO n goes on at the start of the code of the line numbered n, and stops the run with an error if there is
no such line. -/
theorem C06_goto {may : Cmd → VM → Prop} (hm : ∀ vm, ¬ may .renum vm) {ph : Phase} (hp : ph ≠ .idle) {vm : VM}
    (h : State may ph vm) (env : Env) {n : Nat} (hat : At vm (.goto_ n)) :
    (∀ k t, (lines vm)[k]? = some (n, t) → ∃ b pc, vm.stored.bcode = some b ∧ b.inst[pc]? = some (.sourceLine k) ∧
      (∀ pc', b.inst[pc']? = some (.sourceLine k) → pc' = pc) ∧
      V.execute env vm = .ok () { vm with cs := { vm.cs with code := some .stored, pc := pc } }) ∧
    ((∀ t, (n, t) ∉ lines vm) → V.execute env vm = .err (.lineNotFound n) vm) := by
  obtain ⟨h1, h2⟩ := C06_lineStart hm hp h
  refine ⟨fun k t hk => ?_, fun hn => ?_⟩
  · obtain ⟨b, pc, hb, k1, k2, k3⟩ := h1 k n t hk
    refine ⟨b, pc, hb, k1, k2, ?_⟩
    unfold lineStart at k3
    rw [V.execute_at env hat]
    simp only [V.exec, V.ret_apply, V.goToBasicLine, V.bind_apply, V.findBasicLine, k3, V.modify_apply]
  · have k3 := h2 n hn
    unfold lineStart at k3
    rw [V.execute_at env hat]
    simp only [V.exec, V.ret_apply, V.goToBasicLine, V.bind_apply, V.findBasicLine, k3]

set_option maxRecDepth 100000 in
/-- A GOTO in a program whose lines 10 and 407 fall into the same chain of the index. -/
example : ∃ vm : VM, State (fun k _ => k ≠ .renum) .program vm ∧ At vm (.goto_ 407) ∧
    (lines vm)[2]? = some (407, "GOTO 7".toList) := by
  obtain ⟨vm, h1, h2⟩ := Demo.state (may := fun k _ => k ≠ .renum)
    (lines := [(10, "REM"), (20, "PRINT 1:GOTO 407"), (407, "GOTO 7")]) (n := 5)
    (P := fun vm => Demo.nextIs (.goto_ 407) vm && (lines vm)[2]? == some (407, "GOTO 7".toList)) (by decide +kernel)
  simp only [Bool.and_eq_true, beq_iff_eq] at h2
  exact ⟨vm, h1, Demo.at_of_nextIs h2.1, h2.2⟩

end LB
