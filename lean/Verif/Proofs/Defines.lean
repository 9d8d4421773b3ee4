import Verif.Proofs.Actions
/- DEF in a running program. -/
namespace LB
open LB.Spec _root_.Spec

/-- What DEF makes known. -/
theorem Functional.define {m k : Nat} {st : SymTab} {F : Src.Fns} (h : Functional m k st F) (hw : WellNamed st) {q : Nat} {s : Symbol} {w : CStr} {t : Ty} (hs : st.psym[q]? = some s)
    (hn : SameIgnoringCase s.name w) (hk : s.kind = .def_) (ht : s.type = t) {d : Def} {f : Src.Fn t} (hc : FnCode m k st d f) :
    Functional m k (symUpdate st q (fun s => { s with def_ := some d, defined := true })) (F.set w f) := by
  subst ht
  have hf : V.ValueOnly (fun s => { s with def_ := some d, defined := true }) := fun s => ⟨rfl, rfl, rfl, rfl⟩
  intro i x hi v hv
  by_cases hq : i = q
  · subst hq
    rw [symUpdate_same hs] at hi
    cases hi
    refine ⟨fun h => ?_, fun _ => .inr ⟨d, f, rfl, rfl, ?_, hc.grow (grows_update _ _ _ hf)⟩⟩
    · have h' : s.kind = .array := h
      rw [hk] at h'; cases h'
    · have : SameIgnoringCase v w := Eq.trans (Eq.symm (show SameIgnoringCase s.name v from hv)) hn
      simp only [Src.Fns.set]
      rw [dif_pos ⟨trivial, this⟩]
  · rw [symUpdate_other _ _ _ _ hq] at hi
    have hold := (h i x hi v hv).same (grows_update st q _ hf) rfl rfl fun _ => ⟨rfl, rfl⟩
    have hne : x.kind = .array ∨ x.kind = .def_ → F.set w f x.type v = F x.type v := by
      intro hx
      simp only [Src.Fns.set]
      rw [dif_neg]
      rintro ⟨_, hsame⟩
      refine hq (hw.uniq w true i q ⟨x, hi, ?_, ?_⟩ ⟨s, hs, hn, by rw [hk]; trivial⟩)
      · exact Eq.trans hv hsame
      · rcases hx with hx | hx <;> rw [hx] <;> trivial
    refine ⟨fun hx => ?_, fun hx => ?_⟩
    · rw [hne (.inl hx)]; exact hold.1 hx
    · rw [hne (.inr hx)]; exact hold.2 hx

theorem room_ge {prog : Src.Program} {l : Nat × List Src.Stmt} (hl : l ∈ prog) {s : Src.Stmt} (hs : s ∈ l.2) : s.room.1 ≤ prog.room.1 ∧ s.room.2 ≤ prog.room.2 := by
  have hm : s ∈ prog.flatMap (·.2) := List.mem_flatMap.2 ⟨l, hl, hs⟩
  have key : ∀ (xs : List Nat) (x : Nat), x ∈ xs → x ≤ xs.foldr max 0 := by
    intro xs
    induction xs with
    | nil => intro x hx; cases hx
    | cons y ys ih =>
      intro x hx
      rcases List.mem_cons.1 hx with rfl | hx
      · exact Nat.le_max_left _ _
      · exact Nat.le_trans (ih x hx) (Nat.le_max_right _ _)
  exact ⟨key _ _ (List.mem_map_of_mem (f := fun s : Src.Stmt => s.room.1) hm), key _ _ (List.mem_map_of_mem (f := fun s : Src.Stmt => s.room.2) hm)⟩

theorem computing_noEnd {i : Inst} (h : computing i = true) : (!i.isEndDef) = true := by cases i <;> first | rfl | cases h

section
variable {env : Env} {I : Image} {c : Src.Config} {vm : VM} {ss : List Src.Stmt} {tail : List Inst}

theorem def_mimics (hI : I.Ok) (h : Midst I c vm) (h1 : vm.stack = []) (h2 : vm.strstack = []) (ht : Tail I c.place ss tail) {q : Src.Place} {t : Ty} {w p : CStr} {e : Expr t}
    {cd : List Inst} {id pid : Nat} (hv : Fnamed I.st w t id) (hp : Numbered I.st p .num pid) (he : Postfix I.st e cd) (hroom : e.nums ≤ I.prog.room.1 ∧ e.strs ≤ I.prog.room.2)
    (hk : I.code.drop vm.cs.pc = .def_ id 1 :: .param pid :: (cd ++ .endDef :: tail)) :
    Mimics env I q vm (Src.perform env I.prog ss c (.def_ t w p e)) := by
  have hb := h.base
  simp only [Src.perform]
  obtain ⟨d0, hbc, _⟩ := hI.bcode
  obtain ⟨r, s, s1, s2, s3, s4, s5⟩ := hv.grow hb.grows
  have hid : r = id := by rw [← s5, symbol_id hb.named hb.small s1]
  subst hid
  have htw : (cd ++ Inst.endDef :: tail).takeWhile (fun i => !i.isEndDef) = cd := by
    rw [List.takeWhile_append_of_pos fun i hi => computing_noEnd (postfix_computing he i hi)]
    simp [List.takeWhile_cons, Inst.isEndDef]
  have hcode : (I.code.drop vm.cs.pc).takeWhile (fun i => !i.isEndDef) = .def_ r 1 :: .param pid :: cd := by
    rw [hk]
    show Inst.def_ r 1 :: .param pid :: (cd ++ Inst.endDef :: tail).takeWhile (fun i => !i.isEndDef) = _
    rw [htw]
  have hscan : V.scan Inst.isEndDef I.code (vm.cs.pc + 1) = vm.cs.pc + 2 + cd.length := by
    unfold V.scan
    rw [drop_next hk]
    show vm.cs.pc + 1 + (Inst.param pid :: (cd ++ Inst.endDef :: tail).takeWhile (fun i => !i.isEndDef)).length = _
    rw [htw, List.length_cons]
    omega
  have hlt : ¬ (⟨I.code, d0⟩ : Bcode).used ≤ vm.cs.pc := by
    intro hle
    have : I.code.drop vm.cs.pc = [] := List.drop_eq_nil_of_le hle
    rw [this] at hk; cases hk
  have hcopy : bcodeCopyDef ⟨I.code, d0⟩ vm.cs.pc = .ok ⟨.def_ r 1 :: .param pid :: (cd ++ [.endDef]), false⟩ := by
    unfold bcodeCopyDef
    rw [if_neg hlt, hcode]; rfl
  let d : Def := ⟨⟨.def_ r 1 :: .param pid :: (cd ++ [.endDef]), false⟩, vm.cs.sourceLine⟩
  have hcur : ∀ st, V.curBcode { vm with st := st } = .ok ⟨I.code, d0⟩ { vm with st := st } := by
    intro st
    simp only [V.curBcode, h.code, V.codeOf, hb.stored, hbc]
  have hx : V.defStatement r 1 vm = .ok () { vm with st := symUpdate vm.st r (fun s => { s with def_ := some d, defined := true }), cs := { vm.cs with pc := vm.cs.pc + 2 + cd.length } } := by
    have hK := (hb.kinds.functions r s s1 w s2).2 s3
    unfold V.defStatement
    simp only [V.bind_apply, V.sym_ok s1, V.assert_apply, s3, beq_self_eq_true, if_true]
    rcases hK with ⟨_, j2, _⟩ | ⟨d1, f, j1, j2, _⟩
    · simp only [j2, Option.isSome_none, V.when_, Bool.false_eq_true, if_false, V.pure_apply, V.check_apply, ne_eq, not_true, decide_false, hcur vm.st, V.get_apply, V.lift, hcopy, h.code, if_true,
        V.updSym, V.modify_apply, V.setPc, hscan]
      rfl
    · simp only [j1, j2, Option.isSome_some, V.when_, if_true, V.bind_apply, V.assert_apply, Bool.false_eq_true, if_false, V.check_apply, ne_eq, not_true, decide_false, V.updSym, V.modify_apply, hcur, V.get_apply, V.lift, hcopy, h.code,
        V.setPc, hscan, symUpdate_comp, V.pure_apply]
      rfl
  have hf : V.ValueOnly (fun s => { s with def_ := some d, defined := true }) := fun s => ⟨rfl, rfl, rfl, rfl⟩
  refine Mimics.went h.going (b := { vm with st := symUpdate vm.st r (fun s => { s with def_ := some d, defined := true }), cs := { vm.cs with pc := vm.cs.pc + 2 + cd.length + 1 } }) ?_
    (ht.done ?_ rfl h1 h2 h.code h.line h.going ?_)
  · rw [V.execute_at env (hb.at_inst hI h.code hk)]
    simp only [V.exec, V.brk_apply, hx]
    rfl
  · refine ⟨hb.stored, hb.named.update r _ hf, by simpa [symUpdate] using hb.small, hb.grows.trans (grows_update _ _ _ hf), hb.tidy.update r ?_, ⟨?_, hb.kinds.idle, ?_⟩, ?_, hb.calls, hb.loops,
      hb.begun_update r (fun _ => rfl), hb.one, hb.col, hb.width, hb.out, hb.traceBasic, hb.traceFor, hb.deep, ⟨hb.io.data, hb.io.stdin, hb.io.line, hb.io.mark⟩⟩
    · intro s' hs' hy
      rw [s1] at hs'
      cases hs'
      obtain ⟨y1, y2, y3, y4⟩ := hy
      constructor <;> simp_all
    · intro x hm
      obtain ⟨i, hi⟩ := List.mem_iff_getElem?.1 hm
      simp only [symUpdate, List.getElem?_modify, Option.map_eq_map, Option.map_eq_some_iff] at hi
      obtain ⟨y, hy, rfl⟩ := hi
      have := hb.kinds.known y (List.mem_of_getElem? hy)
      split
      · rw [(hf y).2.2.1]; exact this
      · exact this
    · exact hb.kinds.functions.define hb.named s1 s2 s3 s4 ⟨r, pid, cd, rfl, hp.grow hb.grows, he.grow hb.grows, hroom.1, hroom.2⟩
    · rw [← hb.store]
      unfold storeOf
      simp only [numNamed_look, strNamed_look, numArr_look, strArr_look]
      rw [look_update_other s1 hf (by rw [s3]; intro h; cases h), look_update_other s1 hf (by rw [s3]; intro h; cases h), look_update_other s1 hf (by rw [s3]; intro h; cases h),
        look_update_other s1 hf (by rw [s3]; intro h; cases h)]
  · show I.code.drop (vm.cs.pc + 2 + cd.length + 1) = tail
    have := drop_next (drop_next hk)
    have h3 : vm.cs.pc + 2 + cd.length + 1 = vm.cs.pc + 1 + 1 + (cd ++ [Inst.endDef]).length := by simp; omega
    rw [h3, ← List.drop_drop, this, show cd ++ Inst.endDef :: tail = (cd ++ [.endDef]) ++ tail by simp, List.drop_left]

end
end LB
