import Verif.Proofs.Sizes
import Verif.Proofs.Pieces
import Verif.Proofs.EmitsStmt
import Verif.Proofs.Names
/- Execution stays within the structure of the compiled code: one instruction. -/
namespace LB
open LB.Spec Code

/-- The code that can be running: the stored program, and a typed statement while it runs. -/
def Home (ph : Phase) (r : CodeRef) : Prop := r = .stored ∨ ph = .typed ∧ r = .immediate

/-- A place where a piece of code starts. -/
def Place (ph : Phase) (vm : VM) (code : Option CodeRef) (pc : Nat) : Prop :=
  ∃ r b, code = some r ∧ Home ph r ∧ (V.codeOf vm r).bcode = some b ∧ Pieces (FnTy vm.st) (b.inst.drop pc)

/-- The copied code of a function whose result has the type `t`. -/
structure WellDef (st : SymTab) (t : Ty) (d : Def) : Prop where
  shape : ∃ id pid e, d.bcode.inst = .def_ id 1 :: .param pid :: (e ++ [.endDef]) ∧ Runs e (0, 0) (unit t)
  fits : ∀ i ∈ d.bcode.inst, Fits st i

/-- Compiled code is in order. -/
def WellCode (st : SymTab) (b : Bcode) : Prop := Pieces (FnTy st) b.inst ∧ ∀ i ∈ b.inst, Fits st i

/-- Execution can go on at `cs`, with stacks of sizes `h`, the INPUT statement at `ip`, the caller at `fn` and the code
`dc` of the called function. -/
def RunAt (ph : Phase) (vm : VM) (cs : CodeState) (h : Nat × Nat) (ip : Option Nat) (fn : CodeState) (dc : Option Bcode) : Prop :=
  (∃ r b, cs.code = some r ∧ Home ph r ∧ (V.codeOf vm r).bcode = some b ∧ Safe (FnTy vm.st) b.inst cs.pc h ip) ∨
  (cs.code = some .def_ ∧ ∃ d e hh r b, dc = some d ∧ (∀ i ∈ d.inst, Fits vm.st i) ∧ d.inst.drop cs.pc = e ++ [.endDef] ∧
    sizes e h = some hh ∧ fn.code = some r ∧ Home ph r ∧
    (V.codeOf vm r).bcode = some b ∧ Safe (FnTy vm.st) b.inst (fn.pc + 1) hh ip)

theorem Place.runAt {ph : Phase} {vm : VM} {cs : CodeState} (h : Place ph vm cs.code cs.pc) (k : Nat × Nat) (ip : Option Nat)
    (fn : CodeState) (dc : Option Bcode) : RunAt ph vm cs k ip fn dc := by
  obtain ⟨r, b, h1, h2, hb, h3⟩ := h
  exact .inl ⟨r, b, h1, h2, hb, h3.safe k ip⟩

/-- What an instruction keeps: the code, and the names of the symbols. -/
structure Moved (vm vm' : VM) : Prop where
  stored : vm'.stored = vm.stored
  immediate : vm'.immediate = vm.immediate
  grows : Grows vm.st vm'.st
  length : vm'.st.psym.length = vm.st.psym.length
  tab : Tab vm.st → Tab vm'.st

theorem Home.codeOf {ph : Phase} {r : CodeRef} (h : Home ph r) {vm vm' : VM} (h1 : vm'.stored = vm.stored)
    (h2 : ph = .typed → vm'.immediate = vm.immediate) : V.codeOf vm' r = V.codeOf vm r := by
  rcases h with rfl | ⟨hp, rfl⟩
  · exact h1
  · exact h2 hp

theorem Place.move {ph : Phase} {vm vm' : VM} {code : Option CodeRef} {pc : Nat} (h : Place ph vm code pc) (m : Moved vm vm') :
    Place ph vm' code pc := by
  obtain ⟨r, b, h1, h2, hb, h3⟩ := h
  exact ⟨r, b, h1, h2, by rw [h2.codeOf m.stored (fun _ => m.immediate)]; exact hb, h3.types (fun _ _ h => h.grow m.grows)⟩

theorem RunAt.move {ph : Phase} {vm vm' : VM} {cs : CodeState} {h : Nat × Nat} {ip : Option Nat} {fn : CodeState} {dc : Option Bcode}
    (hr : RunAt ph vm cs h ip fn dc) (m : Moved vm vm') : RunAt ph vm' cs h ip fn dc := by
  rcases hr with ⟨r, b, h1, h2, hb, h3⟩ | ⟨h0, d, e, hh, r, b, h1, h2, h3, h4, h5, h6, hb, h7⟩
  · exact .inl ⟨r, b, h1, h2, by rw [h2.codeOf m.stored (fun _ => m.immediate)]; exact hb, h3.types (fun _ _ h => h.grow m.grows)⟩
  · exact .inr ⟨h0, d, e, hh, r, b, h1, fun i hi => (h2 i hi).grow m.grows, h3, h4, h5, h6,
      by rw [h6.codeOf m.stored (fun _ => m.immediate)]; exact hb, h7.types (fun _ _ h => h.grow m.grows)⟩

theorem WellDef.grow {st st' : SymTab} {t : Ty} {d : Def} (h : WellDef st t d) (hg : Grows st st') : WellDef st' t d :=
  ⟨h.shape, fun i hi => (h.fits i hi).grow hg⟩

theorem WellCode.grow {st st' : SymTab} {b : Bcode} (h : WellCode st b) (hg : Grows st st') : WellCode st' b :=
  ⟨h.1.types (fun _ _ h => h.grow hg), fun i hi => (h.2 i hi).grow hg⟩

/-! What an instruction does to the tables. -/

theorem grows_of_values {st st' : SymTab}
    (h : st'.psym.map (fun s => (s.name, s.id, s.kind, s.type)) = st.psym.map (fun s => (s.name, s.id, s.kind, s.type))) :
    Grows st st' := by
  intro q s hs
  have hq : (st'.psym.map (fun s => (s.name, s.id, s.kind, s.type)))[q]? = some (s.name, s.id, s.kind, s.type) := by
    rw [h, List.getElem?_map, hs]; rfl
  rw [List.getElem?_map] at hq
  cases hq' : st'.psym[q]? with
  | none => rw [hq'] at hq; cases hq
  | some s' =>
    rw [hq'] at hq
    simp only [Option.map_some, Option.some.injEq, Prod.mk.injEq] at hq
    exact ⟨s', rfl, hq.2.1, hq.2.2.2, hq.1, .inl hq.2.2.1⟩

/-- The names, identities, kinds and types in a table. -/
def heads (st : SymTab) : List (CStr × Nat × SymKind × Ty) := st.psym.map (fun s => (s.name, s.id, s.kind, s.type))

theorem heads_update (st : SymTab) (q : Nat) (f : Symbol → Symbol) (hf : V.ValueOnly f) : heads (symUpdate st q f) = heads st :=
  modify_heads st.psym q f hf

theorem heads_clear (st : SymTab) : heads (clearSymbolTableValues st) = heads st := by
  unfold heads clearSymbolTableValues
  simp only [List.map_map]
  apply List.map_congr_left
  intro s _
  simp only [Function.comp_apply]
  split
  · simp only [undefineValue_name s]
  · rfl

theorem exec_moved (env : Env) (i : Inst) (vm : VM) : (V.exec env i vm).All (Moved vm) := by
  have h1 := V.keeps_exec (V.closed_fixed (fun a b _ _ _ _ _ => (a, b)) (vm.stored, vm.immediate)) env i (fun _ _ => trivial) vm rfl
  have h2 := V.keeps_exec (V.closed_table (R := fun st => heads st = heads vm.st ∧ (Tab vm.st → Tab st))
    (fun st q f h hf => ⟨(heads_update st q f hf).trans h.1, fun ht => (h.2 ht).updated q f hf⟩)
    (fun st h => ⟨(heads_clear st).trans h.1, fun ht => (h.2 ht).cleared⟩)) env i (fun _ _ => trivial) vm ⟨rfl, id⟩
  have key : ∀ vm' : VM, (vm'.stored, vm'.immediate) = (vm.stored, vm.immediate) →
      heads vm'.st = heads vm.st ∧ (Tab vm.st → Tab vm'.st) → Moved vm vm' := by
    intro vm' ha hb
    simp only [Prod.mk.injEq] at ha
    refine ⟨ha.1, ha.2, grows_of_values hb.1, ?_, hb.2⟩
    have := congrArg List.length hb.1
    simpa [heads] using this
  cases hx : V.exec env i vm with
  | ok a vm' => rw [hx] at h1 h2; exact key vm' h1 h2
  | err e vm' => rw [hx] at h1 h2; exact key vm' h1 h2
  | halt h => trivial

theorem Res.Wp.all {α : Type} {r : Res α} {Q : α → VM → Prop} {I : VM → Prop} (h : r.Wp Q) (hi : r.All I) :
    r.Wp (fun a vm => Q a vm ∧ I vm) := by
  cases r with
  | ok a vm => exact ⟨h, hi⟩
  | err e vm => exact h
  | halt h => trivial

namespace V

/-- The place of the INPUT statement, if the position in the input is within it. -/
def ipOf (vm : VM) : Option Nat := if 0 ≤ vm.inp ∧ vm.inp ≤ vm.input.length then some vm.inputPc else none

theorem ipOf_same {vm vm' : VM} (h : (vm'.input, vm'.inp, vm'.inputPc) = (vm.input, vm.inp, vm.inputPc)) : ipOf vm' = ipOf vm := by
  simp only [Prod.mk.injEq] at h
  simp only [ipOf, h.1, h.2.1, h.2.2]

theorem ipOf_some {vm : VM} {p : Nat} (h : ipOf vm = some p) : 0 ≤ vm.inp ∧ vm.inp ≤ vm.input.length ∧ vm.inputPc = p := by
  unfold ipOf at h
  split at h
  · rename_i hc; exact ⟨hc.1, hc.2, Option.some.inj h⟩
  · cases h

/-- Other instructions keep the place of the INPUT statement. -/
theorem exec_ipOf (env : Env) (i : Inst) (hi : touches i .input = false) (vm : VM) :
    (exec env i vm).All (fun vm' => ipOf vm' = ipOf vm) := by
  have h := keeps_exec (closed_input vm.input vm.inp vm.inputPc) env i (fun a ha => by rintro rfl; rw [hi] at ha; cases ha) vm rfl
  cases hx : exec env i vm with
  | ok a vm' => rw [hx] at h; exact ipOf_same h
  | err e vm' => rw [hx] at h; exact ipOf_same h
  | halt h => trivial

theorem exec_fn (env : Env) (i : Inst) (hi : touches i .fn = false) (vm : VM) :
    (exec env i vm).All (fun vm' => vm'.fn = vm.fn ∧ vm'.defCode = vm.defCode) := by
  have h := keeps_exec (closed_fn vm.fn vm.defCode) env i (fun a ha => by rintro rfl; rw [hi] at ha; cases ha) vm rfl
  cases hx : exec env i vm with
  | ok a vm' => rw [hx] at h; simpa only [Res.All, Prod.mk.injEq] using h
  | err e vm' => rw [hx] at h; simpa only [Res.All, Prod.mk.injEq] using h
  | halt h => trivial

theorem sz_dumpEntries (c : CodeState) (a : Nat × Nat) (fs : List ForLoop) : Sz c a a (dumpEntries fs) := by
  induction fs with
  | nil => exact Sz.pure _
  | cons f fs ih =>
    unfold dumpEntries dumpEntry
    exact ((sz_sym _).bind (fun _ => Sz.pure _)).bind (fun _ => ih.bind (fun _ => Sz.pure _))

theorem sz_dumpForStack (c : CodeState) (a : Nat × Nat) (t : String) : Sz c a a (dumpForStack t) := by
  unfold dumpForStack
  refine Sz.get.bind (fun vm => ?_)
  simp only
  split
  · exact (Sz.pure _).bind (fun _ => sz_out _)
  · exact (sz_dumpEntries _ _ _).bind (fun _ => sz_out _)

theorem sz_dumpFor (c : CodeState) (a : Nat × Nat) (t : String) : Sz c a a (dumpFor t) := by
  unfold dumpFor
  refine sz_curSource.bind (fun _ => Sz.get.bind (fun _ => ?_))
  split
  · exact Sz.halt _
  · exact (Sz.lift _).bind (fun _ => (Sz.lift _).bind (fun _ => (sz_out _).bind (fun _ => sz_dumpForStack _ _ _)))

theorem sz_traced {c : CodeState} {a : Nat × Nat} {x : VmM Unit} (h : Sz c a a x) : Sz c a a (traced x) := by
  unfold traced
  exact Sz.get.bind (fun _ => Sz.when h)

theorem sz_forTop (c : CodeState) (a : Nat × Nat) (id : Nat) : Sz c a a (forTop id) := by
  unfold forTop forEntry
  refine Sz.bind (b := a) ?_ (fun _ => Sz.get.bind (fun _ => Sz.modify (fun _ => ⟨rfl, rfl⟩)))
  refine Sz.get.bind (fun _ => ?_)
  split
  · split
    · exact Sz.halt _
    · exact Sz.modify (fun _ => ⟨rfl, rfl⟩)
  · split
    · exact (sz_dumpForStack _ _ _).bind (fun _ => Sz.fail (by decide))
    · exact Sz.modify (fun _ => ⟨rfl, rfl⟩)

theorem sz_setTopFor (c : CodeState) (a : Nat × Nat) (f : ForLoop → ForLoop) : Sz c a a (setTopFor f) := Sz.modify (fun _ => ⟨rfl, rfl⟩)

theorem sz_forStatement (c : CodeState) (n s id : Nat) : Sz c (n + 3, s) (n, s) (forStatement id) := by
  unfold forStatement
  exact (sz_traced (sz_dumpFor _ _ _)).bind (fun _ => (sz_sym _).bind (fun _ => (Sz.assert _ _).bind (fun _ => (sz_forTop _ _ _).bind
    (fun _ => sz_pop.bind (fun _ => (sz_setTopFor _ _ _).bind (fun _ => sz_pop.bind (fun _ => (sz_setTopFor _ _ _).bind
    (fun _ => sz_pop.bind (fun _ => (sz_updSym _ _).bind (fun _ => sz_traced (sz_dumpForStack _ _ _)))))))))))

/-- NEXT goes on or goes back to one of the open loops. -/
theorem wp_next (vm : VM) (si : Nat) : (next si vm).Wp (fun _ vm' => vm'.cs = vm.cs ∨ ∃ f ∈ vm.forStack, vm'.cs = f.codeState) := by
  unfold next
  simp only [bind_apply, get_apply]
  cases hf : vm.forStack[si]? with
  | none => trivial
  | some f =>
    simp only [bind_apply]
    cases hs : vm.st.psym[f.symbolId]? with
    | none => simp only [sym, symbolAt, hs]; trivial
    | some s =>
      simp only [sym_ok hs]
      have ht : ∀ w : VM, (traced (dumpForStack "final stack") w).Wp (fun _ vm' => vm'.cs = w.cs) := fun w =>
        (sz_traced (sz_dumpForStack w.cs (hgt w) _) w rfl rfl).mono (fun _ _ h => h.2)
      by_cases hp : pastLimit f.step (s.num.add f.step) f.limit = true
      · simp only [hp, if_true, modify]
        exact (ht _).mono (fun _ _ h => .inl h)
      · simp only [hp]
        exact (ht _).mono (fun _ _ h => .inr ⟨f, List.mem_of_getElem? hf, h⟩)

theorem wp_traced {vm : VM} {t : String} {α : Type} {f : Unit → VmM α} {Q : α → VM → Prop}
    (h : ∀ w : VM, w.cs = vm.cs → w.forStack = vm.forStack → (f () w).Wp Q) :
    ((traced (dumpFor t) >>= f) vm).Wp Q := by
  have h1 := (sz_traced (sz_dumpFor vm.cs (hgt vm) t) vm rfl rfl)
  have h2 := keeps_traced (closed_forStack vm.forStack) (fun hi => keeps_dumpFor (closed_forStack vm.forStack) hi t) vm rfl
  exact wp_bind (h1.all h2) (fun _ w hw => h w hw.1.2 hw.2)

theorem wp_nextVariable (vm : VM) (id : Nat) :
    (nextVariable id vm).Wp (fun _ vm' => vm'.cs = vm.cs ∨ ∃ f ∈ vm.forStack, vm'.cs = f.codeState) := by
  unfold nextVariable
  apply wp_traced
  intro w hw1 hw2
  simp only [bind_apply, get_apply]
  have hn := fun si => wp_next w si
  rw [hw1, hw2] at hn
  cases w.forStack.getLast? with
  | none => exact (show ¬ Malformed .nextWithoutFor by decide)
  | some f =>
    simp only
    by_cases hf : f.symbolId = id
    · simp only [hf, if_true]; exact hn _
    · simp only [hf, if_false]
      cases findFor w id with
      | none => exact (show ¬ Malformed .nextWithoutForVar by decide)
      | some i => exact hn _

theorem wp_nextImplicit (vm : VM) :
    (nextImplicit vm).Wp (fun _ vm' => vm'.cs = vm.cs ∨ ∃ f ∈ vm.forStack, vm'.cs = f.codeState) := by
  unfold nextImplicit
  apply wp_traced
  intro w hw1 hw2
  simp only [bind_apply, get_apply]
  have hn := fun si => wp_next w si
  rw [hw1, hw2] at hn
  by_cases hf : w.forStack.isEmpty = true
  · simp only [hf, if_true]
    exact (show ¬ Malformed .nextWithoutFor by decide)
  · simp only [hf]; exact hn _

theorem wp_goToBasicLine (vm : VM) (l : Nat) : (goToBasicLine l vm).Wp (fun _ vm' =>
    ∃ idx pc, vm.stored.index = some idx ∧ lookupLineMapping idx l = some pc ∧ vm'.cs = { vm.cs with pc := pc, code := some .stored }) := by
  unfold goToBasicLine
  simp only [bind_apply, findBasicLine]
  cases hi : vm.stored.index with
  | none => simp [Res.Wp, Malformed]
  | some idx =>
    simp only [Option.bind_some]
    cases hl : lookupLineMapping idx l with
    | none => simp [Res.Wp, Malformed]
    | some pc => exact ⟨idx, pc, rfl, hl, rfl⟩

theorem wp_sourceLine (vm : VM) (l : Nat) : (sourceLineInst l vm).Wp (fun _ vm' => vm'.cs.code = vm.cs.code ∧ vm'.cs.pc = vm.cs.pc) := by
  unfold sourceLineInst
  have h : Sz { vm.cs with sourceLine := l } (hgt vm) (hgt vm) (do
      let vm ← get
      when_ vm.traceBasic (do
        match ← curSource with
        | none => halt (.outOfBounds "source is NULL")
        | some src => do
          let n ← lift (sourceLinenum src l)
          out ('[' :: fmtU n ++ [']']))) := by
    refine Sz.get.bind (fun _ => Sz.when (sz_curSource.bind (fun _ => ?_)))
    split
    · exact Sz.halt _
    · exact (Sz.lift _).bind (fun _ => sz_out _)
  rw [bind_apply]
  exact (h { vm with cs := { vm.cs with sourceLine := l } } rfl rfl).mono (fun _ _ h => by rw [h.2]; exact ⟨rfl, rfl⟩)

end V
end LB
