import Verif.Proofs.Sim
/- Machines that agree execute every instruction alike. -/
namespace LB
namespace V
variable {p : Scope}

/-- A relation between machines that does not depend on the surroundings. -/
structure OutOk (p : Scope) (R : VM → VM → Prop) : Prop where
  rel : ∀ a b, R a b → Rel p a b
  world : ∀ a b w v, R a b → SameWorld p w v → R { a with world := w } { b with world := v }

theorem outOk_rel : OutOk p (Rel p) := ⟨fun _ _ h => h, fun _ _ _ _ h hw => ⟨h.syms, h.nums, h.strs, hw, fun k => { h.ctl k with }⟩⟩

theorem sim_outOk {R : VM → VM → Prop} (hR : OutOk p R) (s : CStr) : SimG p R R Eq (out s) (out s) :=
  SimG.modify (fun a b h => by
    have hw := (hR.rel a b h).world
    refine hR.world a b _ _ h { hw with out := ?_ }
    obtain ⟨t, u, h1, h2, h3⟩ := hw.out
    exact ⟨t ++ s, u ++ s, by simp only [h1, List.append_assoc], by simp only [h2, List.append_assoc], h3.both s⟩)

theorem sim_out (s : CStr) : Sim p Eq (out s) (out s) := sim_outOk outOk_rel s

theorem sim_curBcode (hc : p.code = true) : Sim p (fun u v => u = v ∧ Within p u.inst) curBcode curBcode := by
  intro a b h
  have c := h.ctl hc
  unfold curBcode
  rw [← c.cs]
  cases hr : a.cs.code with
  | none => exact .halt
  | some r =>
    obtain ⟨h1, h2⟩ := c.codes r (.inl hr)
    simp only [← h1]
    cases hb : (codeOf a r).bcode with
    | none => exact .halt
    | some bc => exact .ok ⟨rfl, h2 bc hb⟩ h

theorem sim_curSource {R : VM → VM → Prop} (hR : OutOk p R) (hc : p.code = true) : SimG p R R Eq curSource curSource := by
  intro a b h
  have c := (hR.rel a b h).ctl hc
  unfold curSource
  rw [← c.cs]
  cases hr : a.cs.code with
  | none => exact .halt
  | some r =>
    obtain ⟨h1, h2⟩ := c.codes r (.inl hr)
    simp only [← h1]
    exact .ok rfl h

/-- Going to a place in code that both machines have. -/
theorem Rel.setCs {a b : VM} (h : Rel p a b) {c d : CodeState} (hcd : c = d)
    (hr : p.code = true → ∀ r, c.code = some r → CodeRel p a b r) : Rel p { a with cs := c } { b with cs := d } := by
  subst hcd
  refine ⟨h.syms, h.nums, h.strs, h.world, fun k => { h.ctl k with cs := rfl, codes := ?_ }⟩
  intro r hr'
  rcases hr' with hx | hx | hx | hx
  · exact hr k r hx
  · exact (h.ctl k).codes r (.inr (.inl hx))
  · exact (h.ctl k).codes r (.inr (.inr (.inl hx)))
  · exact (h.ctl k).codes r (.inr (.inr (.inr hx)))

theorem sim_setPc (n : Nat) : Sim p Eq (setPc n) (setPc n) := by
  refine SimG.modify (fun a b h => ?_)
  by_cases hc : p.code = true
  · exact h.setCs (by rw [(h.ctl hc).cs]) (fun _ r hr => (h.ctl hc).codes r (.inl hr))
  · exact ⟨h.syms, h.nums, h.strs, h.world, fun k => absurd k hc⟩

theorem sim_findBasicLine (hc : p.code = true) (n : Nat) : Sim p Eq (findBasicLine n) (findBasicLine n) := by
  intro a b h
  have c : a.stored = b.stored := (h.ctl hc).stored.1
  unfold findBasicLine
  rw [← c]
  cases a.stored.index.bind (lookupLineMapping · n) with
  | none => exact .err h
  | some pc => exact .ok rfl h

theorem sim_goToBasicLine (hc : p.code = true) (n : Nat) : Sim p Eq (goToBasicLine n) (goToBasicLine n) :=
  SimG.bind (sim_findBasicLine hc n) (fun u v e => by
    subst e
    refine SimG.modify (fun a b h => h.setCs (by rw [(h.ctl hc).cs]) (fun _ r hr => ?_))
    cases hr
    exact (h.ctl hc).stored)

theorem dataSource_eq (hc : p.code = true) {a b : VM} (h : Rel p a b) : dataSource a = dataSource b := by
  have c := h.ctl hc
  have hs : a.stored = b.stored := c.stored.1
  unfold dataSource
  rw [← c.cs, ← hs, ← c.programData, ← c.immediateData]
  by_cases hi : a.cs.code = some .immediate
  · have : a.immediate = b.immediate := (c.codes .immediate (.inl hi)).1
    rw [← this]
  · rw [if_neg hi, if_neg hi]

theorem sim_findData (hc : p.code = true) : Sim p Eq findData findData := by
  unfold findData
  refine SimG.bind Sim.get (fun u v h => ?_)
  rw [dataSource_eq hc h]
  refine SimG.bind (SimG.lift rfl) (fun x y e => ?_)
  subst e
  obtain ⟨bc, dp, imm⟩ := x
  cases bc with
  | none => exact Sim.fail _
  | some bc =>
    refine SimG.ite Iff.rfl (fun _ => Sim.fail _) (fun _ => ?_)
    split
    · refine SimG.bind (SimG.modify (fun a b h => ?_)) (fun _ _ _ => SimG.pure rfl)
      cases imm
      · exact ⟨h.syms, h.nums, h.strs, h.world, fun k => { h.ctl k with programData := rfl }⟩
      · exact ⟨h.syms, h.nums, h.strs, h.world, fun k => { h.ctl k with immediateData := rfl }⟩
    · exact Sim.fail _

theorem sim_pushReturn (hc : p.code = true) (pc : Nat) : Sim p Eq (pushReturn pc) (pushReturn pc) := by
  intro a b h
  have c := h.ctl hc
  unfold pushReturn
  rw [← c.retstack, ← c.cs]
  split
  · exact .err h
  · refine .ok rfl ⟨h.syms, h.nums, h.strs, h.world, fun k => { h.ctl k with cs := rfl, retstack := rfl, codes := ?_ }⟩
    intro r hr
    rcases hr with hx | ⟨d, hd, hx⟩ | hx | hx
    · exact c.codes r (.inl hx)
    · rcases List.mem_cons.1 hd with rfl | hd
      · exact c.codes r (.inl hx)
      · exact c.codes r (.inr (.inl ⟨d, hd, hx⟩))
    · exact c.codes r (.inr (.inr (.inl hx)))
    · exact c.codes r (.inr (.inr (.inr hx)))

theorem sim_popReturn (hc : p.code = true) : Sim p Eq popReturn popReturn := by
  intro a b h
  have c := h.ctl hc
  unfold popReturn
  rw [← c.retstack]
  cases hs : a.retstack with
  | nil => exact .err h
  | cons d l =>
    refine .ok rfl ⟨h.syms, h.nums, h.strs, h.world, fun k => { h.ctl k with cs := rfl, retstack := rfl, codes := ?_ }⟩
    intro r hr
    rcases hr with hx | ⟨d', hd, hx⟩ | hx | hx
    · exact c.codes r (.inr (.inl ⟨d, by rw [hs]; exact List.mem_cons_self, hx⟩))
    · exact c.codes r (.inr (.inl ⟨d', by rw [hs]; exact List.mem_cons_of_mem _ hd, hx⟩))
    · exact c.codes r (.inr (.inr (.inl hx)))
    · exact c.codes r (.inr (.inr (.inr hx)))

/-! ### Loops -/

theorem symRel_open {a : VM} {f : ForLoop} (hf : f ∈ a.forStack) {s t : Symbol} (h : SymRel p (openVars a) f.symbolId s t) : t = s := by
  rcases h.2 with h | ⟨h, -⟩
  · exact h
  · exact absurd (List.mem_map.2 ⟨f, hf, rfl⟩) h

theorem sim_dumpEntries {R : VM → VM → Prop} (hR : OutOk p R) (hc : p.code = true) (fs : List ForLoop) :
    SimG p (fun a b => R a b ∧ ∀ f ∈ fs, f ∈ a.forStack) R Eq (dumpEntries fs) (dumpEntries fs) := by
  induction fs with
  | nil => exact fun a b h => .ok rfl h.1
  | cons f fs ih =>
    intro a b h
    have hr := hR.rel a b h.1
    have hf := h.2 f List.mem_cons_self
    have e : ∀ c : VM, dumpEntries (f :: fs) c = match c.st.psym[f.symbolId]? with
        | none => .halt (.assertFail "symbol")
        | some s => match dumpEntries fs c with
          | .ok r c' => .ok ((s.name ++ " = ".toList ++ Dbl.fmtG s.num ++ ", ".toList ++ Dbl.fmtG f.limit ++ "; ".toList) ++ r) c'
          | .err e c' => .err e c'
          | .halt h => .halt h := by
      intro c
      simp only [dumpEntries, dumpEntry, bind_apply, sym, symbolAt]
      cases c.st.psym[f.symbolId]? with
      | none => rfl
      | some s =>
        simp only [pure_apply]
        cases dumpEntries fs c <;> rfl
    rw [e a, e b]
    rcases hr.syms f.symbolId ((hr.ctl hc).loops f hf) with ⟨-, h1, h2⟩ | ⟨s, t, h1, h2, h3⟩
    · rw [h1, h2]; exact .halt
    · rw [h1, h2, symRel_open hf h3]
      have h4 := ih a b ⟨h.1, fun f' hf' => h.2 f' (List.mem_cons_of_mem _ hf')⟩
      simp only []
      generalize dumpEntries fs a = ra at h4
      generalize dumpEntries fs b = rb at h4
      cases h4 with
      | ok hq h' => subst hq; exact .ok rfl h'
      | err h' => exact .err h'
      | halt => exact .halt
      | fullNum h' => exact .fullNum h'
      | fullStr h' => exact .fullStr h'
      | emptyNum => exact .emptyNum
      | emptyStr => exact .emptyStr
      | corrupt => exact .corrupt
    
theorem sim_dumpForStack {R : VM → VM → Prop} (hR : OutOk p R) (hc : p.code = true) (t : String) :
    SimG p R R Eq (dumpForStack t) (dumpForStack t) := by
  intro a b h
  have c := (hR.rel a b h).ctl hc
  simp only [dumpForStack, bind_apply, get_apply]
  rw [← c.forStack]
  cases he : a.forStack.isEmpty with
  | true =>
    simp only [if_true]
    exact sim_outOk hR _ a b h
  | false =>
    simp only [Bool.false_eq_true, if_false]
    exact SimG.bind (sim_dumpEntries hR hc a.forStack.reverse) (fun u v e => by subst e; exact sim_outOk hR _) a b
      ⟨h, fun f hf => List.mem_reverse.1 hf⟩

theorem sim_dumpFor {R : VM → VM → Prop} (hR : OutOk p R) (hc : p.code = true) (t : String) :
    SimG p R R Eq (dumpFor t) (dumpFor t) := by
  unfold dumpFor
  refine SimG.bind (sim_curSource hR hc) (fun src src' e => ?_)
  subst e
  refine SimG.bind Sim.get (fun u v h => ?_)
  cases src with
  | none => exact SimG.halt _
  | some src =>
    rw [((hR.rel u v h).ctl hc).cs]
    refine SimG.bind (SimG.lift rfl) (fun n n' e => ?_)
    subst e
    refine SimG.bind (SimG.lift rfl) (fun n n' e => ?_)
    subst e
    exact SimG.bind (sim_outOk hR _) (fun _ _ _ => sim_dumpForStack hR hc _)

/-- The line can be shown, as one of the lines. -/
def Shown (lines : List SrcLine) (a : VM) (l : Nat) : Prop :=
  ∃ r src, a.cs.code = some r ∧ (codeOf a r).source = some src ∧ src.lines = lines ∧ l < lines.length

theorem Shown.same {lines : List SrcLine} {a a' : VM} {l : Nat} (h : Shown lines a l) (h1 : a'.cs.code = a.cs.code) (h2 : ∀ r, codeOf a' r = codeOf a r) :
    Shown lines a' l := by
  obtain ⟨r, src, k1, k2, k3⟩ := h
  exact ⟨r, src, h1.trans k1, by rw [h2]; exact k2, k3⟩

/-- A function that only writes what tracing writes. -/
def Traces (p : Scope) (x : VmM Unit) (a : VM) : Prop :=
  ∃ ss : List CStr, (∀ s ∈ ss, Spec.TraceText p.basic p.loops p.lines s) ∧
    x a = .ok () { a with world := { a.world with out := a.world.out ++ ss.flatten } }

theorem traces_dumpForStack (hl : p.loops = true) {t : String} (ht : t ∈ ["initial stack", "final stack"]) {a : VM}
    (ha : ∀ f ∈ a.forStack, ∃ s, a.st.psym[f.symbolId]? = some s) : Traces p (dumpForStack t) a := by
  have hd : ∀ fs : List ForLoop, (∀ f ∈ fs, ∃ s, a.st.psym[f.symbolId]? = some s) → ∃ ls : List (List Char × Dbl × Dbl), ls.length = fs.length ∧
      dumpEntries fs a = .ok (ls.map (fun l => l.1 ++ " = ".toList ++ Dbl.fmtG l.2.1 ++ ", ".toList ++ Dbl.fmtG l.2.2 ++ "; ".toList)).flatten a := by
    intro fs
    induction fs with
    | nil => exact fun _ => ⟨[], rfl, rfl⟩
    | cons f fs ih =>
      intro h
      obtain ⟨s, hs⟩ := h f List.mem_cons_self
      obtain ⟨ls, h1, h2⟩ := ih (fun g hg => h g (List.mem_cons_of_mem _ hg))
      refine ⟨(s.name, s.num, f.limit) :: ls, by simp [h1], ?_⟩
      simp only [dumpEntries, dumpEntry, bind_apply, sym, symbolAt, hs, pure_apply, h2, List.map_cons, List.flatten_cons]
  have done : ∀ ls, ∃ ss : List CStr, (∀ s ∈ ss, Spec.TraceText p.basic p.loops p.lines s) ∧
      out ("-- ".toList ++ t.toList ++ ": ".toList ++ Spec.openLoops ls ++ ['\n']) a = .ok () { a with world := { a.world with out := a.world.out ++ ss.flatten } } := by
    intro ls
    refine ⟨["-- ".toList ++ t.toList ++ ": ".toList ++ Spec.openLoops ls ++ ['\n']], fun x hx => ?_, ?_⟩
    · rw [List.mem_singleton.1 hx]; exact .open_ t ls hl ht
    · simp only [out, modify_apply, List.flatten_cons, List.flatten_nil, List.append_nil]
  unfold Traces
  simp only [dumpForStack, bind_apply, get_apply]
  cases he : a.forStack.isEmpty with
  | true => simp only [if_true]; exact done []
  | false =>
    simp only [Bool.false_eq_true, if_false, bind_apply]
    obtain ⟨ls, h1, h2⟩ := hd a.forStack.reverse (fun f hf => ha f (List.mem_reverse.1 hf))
    rw [h2]
    have hne : ls ≠ [] := by
      rintro rfl
      rw [List.length_nil, List.length_reverse] at h1
      rw [List.length_eq_zero_iff.1 h1.symm] at he
      cases he
    have := done ls
    unfold Spec.openLoops at this
    rw [if_neg hne] at this
    exact this

theorem traces_dumpFor (hl : p.loops = true) {t : String} (ht : t ∈ ["FOR", "NEXT-VARIABLE", "NEXT-IMPLICIT"]) {a : VM}
    (ha : ∀ f ∈ a.forStack, ∃ s, a.st.psym[f.symbolId]? = some s) (hs : Shown p.lines a a.cs.sourceLine) : Traces p (dumpFor t) a := by
  obtain ⟨r, src, h1, h2, h3, h4⟩ := hs
  rw [← h3] at h4
  unfold Traces
  simp only [dumpFor, bind_apply, curSource, get_apply, h1, h2, lift, sourceLinenum, sourceText, List.getElem?_eq_getElem h4, pure_apply, out, modify_apply]
  generalize hx : ("[".toList ++ t.toList ++ "]\n-- line: ".toList ++ fmtU (src.lines[a.cs.sourceLine]).num ++ ' ' :: (src.lines[a.cs.sourceLine]).text ++ ['\n'] : CStr) = x
  have hx' : Spec.TraceText p.basic p.loops p.lines x := hx ▸ .at_ t _ hl ht (h3 ▸ List.getElem_mem h4)
  obtain ⟨ss, k1, e⟩ := traces_dumpForStack (p := p) hl (t := "initial stack") (by decide) (a := { a with world := { a.world with out := a.world.out ++ x } }) ha
  refine ⟨x :: ss, fun y hy => ?_, ?_⟩
  · rcases List.mem_cons.1 hy with rfl | hy
    · exact hx'
    · exact k1 y hy
  · rw [e]; simp only [List.flatten_cons, List.append_assoc]

theorem Spec.Marked.marks {basic loops : Bool} {lines : List SrcLine} {t u : List Char} (h : Spec.Marked basic loops lines t u) {ss : List (List Char)}
    (hs : ∀ s ∈ ss, Spec.TraceText basic loops lines s) : Spec.Marked basic loops lines (t ++ ss.flatten) u := by
  induction ss generalizing t with
  | nil => simpa using h
  | cons s ss ih =>
    have := ih (h.mark (hs s List.mem_cons_self)) (fun x hx => hs x (List.mem_cons_of_mem _ hx))
    simpa [List.append_assoc] using this

theorem SimG.drop {α β : Type} {R R' R'' : VM → VM → Prop} {Q : α → β → Prop} {x : VmM α} {y : VmM β} (hx : SimG p R R' Q x y)
    (h : ∀ a b, R' a b → R'' a b) : SimG p R R'' Q x y := by
  intro a b k
  have h1 := hx a b k
  generalize x a = ra at h1
  generalize y b = rb at h1
  cases h1 with
  | ok hq h' => exact .ok hq (h _ _ h')
  | err h' => exact .err h'
  | halt => exact .halt
  | fullNum h' => exact .fullNum h'
  | fullStr h' => exact .fullStr h'
  | emptyNum => exact .emptyNum
  | emptyStr => exact .emptyStr
  | corrupt => exact .corrupt

/-- Tracing in the first machine only. -/
theorem sim_traces {R : VM → VM → Prop} (hR : OutOk p R) {x : VmM Unit} (hx : ∀ a b, R a b → Traces p x a) :
    SimG p R R Eq x (pure ()) := by
  intro a b h
  obtain ⟨ss, h1, e⟩ := hx a b h
  rw [e]
  have hw := (hR.rel a b h).world
  refine .ok rfl (hR.world a b _ b.world h { hw with out := ?_ })
  obtain ⟨t, u, k1, k2, k3⟩ := hw.out
  exact ⟨t ++ ss.flatten, u, by simp only [k1, List.append_assoc], k2, Spec.Marked.marks k3 h1⟩

/-- Tracing, in both machines or in the first only. -/
theorem SimG.trace {R : VM → VM → Prop} (hR : OutOk p R) {c d k : Bool} (h : c = (d || k)) {x : VmM Unit}
    (ht : k = true → ∀ a b, R a b → Traces p x a) (hx : SimG p R R Eq x x) : SimG p R R Eq (when_ c x) (when_ d x) := by
  subst h
  cases d
  · cases k
    · exact SimG.pure rfl
    · exact sim_traces hR (ht rfl)
  · exact hx

theorem sim_traced {R : VM → VM → Prop} (hR : OutOk p R) (hc : p.code = true) {x : VmM Unit}
    (ht : p.loops = true → ∀ a b, R a b → Traces p x a) (hx : SimG p R R Eq x x) :
    SimG p R R Eq (traced x) (traced x) :=
  SimG.bind Sim.get (fun u v h => SimG.trace hR ((hR.rel u v h).ctl hc).traceFor ht hx)

/-- Where loops are traced, the variables of the open loops exist. -/
theorem Rel.opened {a b : VM} (hc : p.code = true) (h : Rel p a b) (hl : p.loops = true) : ∀ f ∈ a.forStack, ∃ s, a.st.psym[f.symbolId]? = some s := by
  intro f hf
  have h0 : RelL p (openVars a) a b := h
  rcases h0.syms f.symbolId ((h0.ctl hc).loops f hf) with ⟨k, -⟩ | ⟨s, t, k, -⟩
  · rw [hl] at k; cases k
  · exact ⟨s, k⟩

theorem sim_tracedStack (hc : p.code = true) : Sim p Eq (traced (dumpForStack "final stack")) (traced (dumpForStack "final stack")) :=
  sim_traced outOk_rel hc (fun k _ _ h => traces_dumpForStack k (by decide) (h.opened hc k)) (sim_dumpForStack outOk_rel hc _)

/-- Machines of which the first can show the line that it executes, if it traces. -/
def On (p : Scope) (R : VM → VM → Prop) (a b : VM) : Prop := R a b ∧ (p.loops = true → Shown p.lines a a.cs.sourceLine)

theorem OutOk.on {R : VM → VM → Prop} (hR : OutOk p R) : OutOk p (On p R) :=
  ⟨fun a b h => hR.rel a b h.1, fun a b w v h hw => ⟨hR.world a b w v h.1 hw, fun k => (h.2 k).same rfl (fun r => by cases r <;> rfl)⟩⟩

/-- Tracing at the start of FOR and NEXT. -/
theorem sim_tracedFor {R R' : VM → VM → Prop} (hR : OutOk p R) (hc : p.code = true) {t : String} (ht : t ∈ ["FOR", "NEXT-VARIABLE", "NEXT-IMPLICIT"])
    {f g : Unit → VmM Unit} (hfg : SimG p R R' Eq (f ()) (g ())) : SimG p (On p R) R' Eq (traced (dumpFor t) >>= f) (traced (dumpFor t) >>= g) :=
  SimG.bind (sim_traced hR.on hc (fun k a b h => traces_dumpFor k ht ((hR.rel a b h.1).opened hc k) (h.2 k)) (sim_dumpFor hR.on hc _))
    (fun _ _ _ a b h => hfg a b h.1)

/-- Fewer loops. -/
theorem Rel.closeLoop {a b : VM} (hc : p.code = true) (h : Rel p a b) (si : Nat) :
    Rel p { a with forStack := a.forStack.eraseIdx si } { b with forStack := b.forStack.eraseIdx si } := by
  have c := h.ctl hc
  have hm : ∀ f ∈ a.forStack.eraseIdx si, f ∈ a.forStack := fun f hf => List.mem_of_mem_eraseIdx hf
  have ho : ∀ i ∈ openVars { a with forStack := a.forStack.eraseIdx si }, i ∈ openVars a := by
    intro i hi
    obtain ⟨f, hf, rfl⟩ := List.mem_map.1 hi
    exact List.mem_map.2 ⟨f, hm f hf, rfl⟩
  refine ⟨fun q hq => (h.syms q hq).mono ho, h.nums, h.strs, h.world, fun k => { c with forStack := ?_, param := ?_, codes := ?_, loops := ?_ }⟩
  · show a.forStack.eraseIdx si = b.forStack.eraseIdx si
    rw [c.forStack]
  · intro hs
    obtain ⟨h1, h2, h3, h4, h5⟩ := c.param hs
    exact ⟨h1, h2, h3, h4.imp _root_.id (fun ⟨k1, k2⟩ => ⟨k1, fun m => k2 (ho _ m)⟩), h5⟩
  · intro r hr
    rcases hr with hx | hx | ⟨f, hf, hx⟩ | hx
    · exact c.codes r (.inl hx)
    · exact c.codes r (.inr (.inl hx))
    · exact c.codes r (.inr (.inr (.inl ⟨f, hm f hf, hx⟩)))
    · exact c.codes r (.inr (.inr (.inr hx)))
  · exact fun f hf => c.loops f (hm f hf)

theorem sim_next (hc : p.code = true) (si : Nat) : Sim p Eq (next si) (next si) := by
  intro a b h
  have c := h.ctl hc
  have h0 : RelL p (openVars a) a b := h
  simp only [next, bind_apply, get_apply]
  rw [← c.forStack]
  cases hf : a.forStack[si]? with
  | none => exact .halt
  | some f =>
    have hm := List.mem_of_getElem? hf
    rcases h0.syms f.symbolId (c.loops f hm) with ⟨-, h1, h2⟩ | ⟨s, t, h1, h2, h3⟩
    · simp only [bind_apply, sym, symbolAt, h1, h2]; exact .halt
    · have := symRel_open hm h3
      subst this
      simp only [bind_apply, sym, symbolAt, h1, h2]
      by_cases hp : pastLimit f.step (Dbl.add t.num f.step) f.limit = true
      · rw [if_pos hp]
        exact SimG.bind (R' := Rel p) (Q := Eq) (SimG.modify (fun a b h => Rel.closeLoop hc h si))
          (fun _ _ _ => sim_tracedStack hc) a b h
      · rw [if_neg hp]
        simp only [modify_apply]
        refine sim_tracedStack hc _ _ ?_
        have k := h.update (id := f.symbolId) (f := fun s => { s with num := Dbl.add t.num f.step })
          (g := fun s => { s with num := Dbl.add t.num f.step }) (fun s t k => by
            rcases k with ⟨⟨k1, k2⟩, rfl | ⟨-, -, y, rfl⟩⟩
            · exact ⟨⟨k1, k2⟩, .inl rfl⟩
            · exact ⟨⟨k1, k2⟩, .inl rfl⟩)
        exact k.setCs rfl (fun _ r hr => (k.ctl hc).codes r (.inr (.inr (.inl ⟨f, hm, hr⟩))))

theorem mem_modify {α : Type} {l : List α} {n : Nat} {f : α → α} {x : α} (h : x ∈ l.modify n f) : x ∈ l ∨ ∃ y ∈ l, x = f y := by
  obtain ⟨i, hi⟩ := List.mem_iff_getElem?.1 h
  rw [List.getElem?_modify] at hi
  cases hl : l[i]? with
  | none => rw [hl] at hi; simp at hi
  | some y =>
    rw [hl] at hi
    have hy := List.mem_of_getElem? hl
    by_cases e : n = i
    · simp [e] at hi; exact .inr ⟨y, hy, hi.symm⟩
    · simp [e] at hi; exact .inl (hi ▸ hy)

/-- While a loop is being opened: its variable has not been set yet, and no function is being called. -/
def Opening (p : Scope) (L : List Nat) (id : Nat) (a b : VM) : Prop :=
  RelL p L a b ∧ a.fn.codeState.code = none ∧ ∀ q ∈ openVars a, q = id ∨ q ∈ L

theorem sim_setTopFor (hc : p.code = true) {L : List Nat} {id : Nat} {f : ForLoop → ForLoop}
    (hf : ∀ x, (f x).symbolId = x.symbolId ∧ (f x).codeState = x.codeState) :
    SimG p (Opening p L id) (Opening p L id) Eq (setTopFor f) (setTopFor f) := by
  refine SimG.modify (fun a b h => ?_)
  obtain ⟨h, hn, ho⟩ := h
  have c := h.ctl hc
  have hm : ∀ x ∈ a.forStack.modify (a.forStack.length - 1) f, ∃ y ∈ a.forStack, x.symbolId = y.symbolId ∧ x.codeState = y.codeState := by
    intro x hx
    rcases mem_modify hx with hx | ⟨y, hy, rfl⟩
    · exact ⟨x, hx, rfl, rfl⟩
    · exact ⟨y, hy, hf y⟩
  refine ⟨⟨h.syms, h.nums, h.strs, h.world, fun k => { c with forStack := ?_, param := ?_, codes := ?_, loops := ?_ }⟩, hn, ?_⟩
  · show a.forStack.modify _ f = b.forStack.modify _ f
    rw [c.forStack]
  · intro hs
    rw [show a.fn.codeState.code = none from hn] at hs; cases hs
  · intro r hr
    rcases hr with hx | hx | ⟨x, hxm, hx⟩ | hx
    · exact c.codes r (.inl hx)
    · exact c.codes r (.inr (.inl hx))
    · obtain ⟨y, hy, -, e⟩ := hm x hxm
      exact c.codes r (.inr (.inr (.inl ⟨y, hy, e ▸ hx⟩)))
    · exact c.codes r (.inr (.inr (.inr hx)))
  · intro x hx
    obtain ⟨y, hy, e, -⟩ := hm x hx
    rw [e]; exact c.loops y hy
  · intro q hq
    obtain ⟨x, hx, rfl⟩ := List.mem_map.1 hq
    obtain ⟨y, hy, e, -⟩ := hm x hx
    show x.symbolId = id ∨ x.symbolId ∈ L
    rw [e]; exact ho _ (List.mem_map.2 ⟨y, hy, rfl⟩)

/-- Replacing the loops by ones made from them and the current place. -/
theorem opening_set {a b : VM} (hc : p.code = true) {id : Nat} (hd : p.dom id) (h : Rel p a b) (hn : a.fn.codeState.code = none)
    (l : List ForLoop) (hl : ∀ x ∈ l, (x.symbolId = id ∨ x.symbolId ∈ openVars a) ∧
      (x.codeState = clearCodeState ∨ x.codeState = a.cs ∨ ∃ y ∈ a.forStack, x.codeState = y.codeState)) :
    Opening p (openVars a) id { a with forStack := l } { b with forStack := l } := by
  have c := h.ctl hc
  refine ⟨⟨h.syms, h.nums, h.strs, h.world, fun k => { c with forStack := rfl, param := ?_, codes := ?_, loops := ?_ }⟩, hn, ?_⟩
  · intro hs
    rw [show a.fn.codeState.code = none from hn] at hs; cases hs
  · intro r hr
    rcases hr with hx | hx | ⟨x, hxm, hx⟩ | hx
    · exact c.codes r (.inl hx)
    · exact c.codes r (.inr (.inl hx))
    · rcases (hl x hxm).2 with e | e | ⟨y, hy, e⟩
      · rw [e] at hx; cases hx
      · rw [e] at hx; exact c.codes r (.inl hx)
      · rw [e] at hx; exact c.codes r (.inr (.inr (.inl ⟨y, hy, hx⟩)))
    · exact c.codes r (.inr (.inr (.inr hx)))
  · intro x hx
    rcases (hl x hx).1 with e | e
    · rw [e]; exact hd
    · obtain ⟨y, hy, e⟩ := List.mem_map.1 e
      rw [← e]; exact c.loops y hy
  · intro q hq
    obtain ⟨x, hx, rfl⟩ := List.mem_map.1 hq
    exact (hl x hx).1

theorem forTop_result (id : Nat) (a : VM) : (∃ l, forTop id a = .ok () { a with forStack := l } ∧
      (∀ b : VM, b.forStack = a.forStack → b.cs = a.cs → forTop id b = .ok () { b with forStack := l }) ∧
      ∀ x ∈ l, (x.symbolId = id ∨ x.symbolId ∈ openVars a) ∧
        (x.codeState = clearCodeState ∨ x.codeState = a.cs ∨ ∃ y ∈ a.forStack, x.codeState = y.codeState)) ∨
    (∀ b : VM, b.forStack = a.forStack → forTop id b = (dumpForStack "overflow" >>= fun _ => fail .forTooDeep) b) := by
  have key : ∀ base : List ForLoop, (∀ x ∈ base, (x.symbolId = id ∨ x.symbolId ∈ openVars a) ∧
        (x.codeState = clearCodeState ∨ x.codeState = a.cs ∨ ∃ y ∈ a.forStack, x.codeState = y.codeState)) →
      ∀ x ∈ base.modify (base.length - 1) (fun f => { f with codeState := a.cs, symbolId := id }),
        (x.symbolId = id ∨ x.symbolId ∈ openVars a) ∧
        (x.codeState = clearCodeState ∨ x.codeState = a.cs ∨ ∃ y ∈ a.forStack, x.codeState = y.codeState) := by
    intro base hb x hx
    rcases mem_modify hx with hx | ⟨y, hy, rfl⟩
    · exact hb x hx
    · exact ⟨.inl rfl, .inr (.inl rfl)⟩
  have old : ∀ x ∈ a.forStack, (x.symbolId = id ∨ x.symbolId ∈ openVars a) ∧
        (x.codeState = clearCodeState ∨ x.codeState = a.cs ∨ ∃ y ∈ a.forStack, x.codeState = y.codeState) :=
    fun x hx => ⟨.inr (List.mem_map.2 ⟨x, hx, rfl⟩), .inr (.inr ⟨x, hx, rfl⟩)⟩
  cases hf : findFor a id with
  | some si =>
    have hlt : si < a.forStack.length := by
      unfold findFor at hf
      exact (List.findIdx?_eq_some_iff_getElem.1 hf).1
    have hg : a.forStack[si]? = some a.forStack[si] := List.getElem?_eq_getElem hlt
    refine .inl ⟨_, ?_, ?_, key (a.forStack.eraseIdx si ++ [a.forStack[si]]) ?_⟩
    · simp [forTop, forEntry, bind_apply, get_apply, hf, hg, modify_apply, setTopFor]
    · intro b hb hcs
      have hf' : findFor b id = some si := by unfold findFor at hf ⊢; rw [hb]; exact hf
      simp [forTop, forEntry, bind_apply, get_apply, hf', hg, modify_apply, setTopFor, hb, hcs]
    · intro x hx
      rcases List.mem_append.1 hx with hx | hx
      · exact old x (List.mem_of_mem_eraseIdx hx)
      · rw [List.mem_singleton] at hx; subst hx
        exact old _ (List.getElem_mem hlt)
  | none =>
    by_cases hl : a.forStack.length ≥ maxFor
    · refine .inr (fun b hb => ?_)
      have hf' : findFor b id = none := by unfold findFor at hf ⊢; rw [hb]; exact hf
      simp only [forTop, forEntry, bind_apply, get_apply, hf', hb, if_pos hl]
      cases dumpForStack "overflow" b <;> rfl
    · refine .inl ⟨_, ?_, ?_, key (a.forStack ++ [⟨clearCodeState, id, .fin 0, .fin 0⟩]) ?_⟩
      · simp [forTop, forEntry, bind_apply, get_apply, hf, hl, modify_apply, setTopFor]
      · intro b hb hcs
        have hf' : findFor b id = none := by unfold findFor at hf ⊢; rw [hb]; exact hf
        simp [forTop, forEntry, bind_apply, get_apply, hf', hl, modify_apply, setTopFor, hb, hcs]
      · intro x hx
        rcases List.mem_append.1 hx with hx | hx
        · exact old x hx
        · rw [List.mem_singleton] at hx; subst hx
          exact ⟨.inl rfl, .inl rfl⟩

/-- Machines that agree and are not in a function. -/
def Plain (p : Scope) (L : List Nat) (a b : VM) : Prop := Rel p a b ∧ a.fn.codeState.code = none ∧ openVars a = L

theorem outOk_plain {L : List Nat} : OutOk p (Plain p L) :=
  ⟨fun _ _ h => h.1, fun _ _ w v h hw => ⟨outOk_rel.world _ _ w v h.1 hw, h.2.1, h.2.2⟩⟩

theorem sim_forStatement (hc : p.code = true) {id : Nat} (hd : p.dom id) {a b : VM} (h : Rel p a b) (hn : a.fn.codeState.code = none)
    (hon : p.loops = true → Shown p.lines a a.cs.sourceLine) : SimRes p (Rel p) Eq (forStatement id a) (forStatement id b) := by
  refine (?_ : SimG p (On p (Plain p (openVars a))) (Rel p) Eq (forStatement id) (forStatement id)) a b ⟨⟨h, hn, rfl⟩, hon⟩
  generalize openVars a = L
  unfold forStatement
  refine sim_tracedFor outOk_plain hc (by decide) ?_
  refine SimG.bind (R' := Plain p L) (Q := SymRel p L id) ?_ (fun s t hst => ?_)
  · intro a b h
    have h0 : RelL p (openVars a) a b := h.1
    unfold sym symbolAt
    rcases h0.syms id hd with ⟨-, h1, h2⟩ | ⟨s, t, h1, h2, h3⟩
    · rw [h1, h2]; exact .halt
    · rw [h1, h2]; exact .ok (h.2.2 ▸ h3) h
  refine SimG.bind (SimG.assert (hst.isVar _) _) (fun _ _ _ => ?_)
  refine SimG.bind (R' := Opening p L id) (Q := Eq) ?_ (fun _ _ _ => ?_)
  · intro a b h
    obtain ⟨h, hn, hl⟩ := h
    have c := h.ctl hc
    rcases forTop_result id a with ⟨l, e1, e2, e3⟩ | e
    · rw [e1, e2 b c.forStack.symm c.cs.symm]
      exact .ok rfl (hl ▸ opening_set hc hd h hn l e3)
    · rw [e a rfl, e b c.forStack.symm]
      have : SimG p (Rel p) (Opening p L id) (Eq : Unit → Unit → Prop) (dumpForStack "overflow" >>= fun _ => fail .forTooDeep) (dumpForStack "overflow" >>= fun _ => fail .forTooDeep) :=
        SimG.bind (sim_dumpForStack outOk_rel hc _) (fun _ _ _ => fun _ _ h => .err h)
      exact this a b h
  have hpop : SimG p (Opening p L id) (Opening p L id) Eq pop pop := by
    intro a b h
    obtain ⟨h, hn, ho⟩ := h
    unfold pop
    cases hs : a.stack with
    | nil => exact .emptyNum
    | cons x s =>
      have := h.nums
      rw [hs] at this
      rw [this]
      exact .ok rfl ⟨⟨h.syms, rfl, h.strs, h.world, fun k => { h.ctl k with }⟩, hn, ho⟩
  refine SimG.bind hpop (fun u v e => ?_)
  subst e
  refine SimG.bind (sim_setTopFor hc (fun _ => ⟨rfl, rfl⟩)) (fun _ _ _ => ?_)
  refine SimG.bind hpop (fun u v e => ?_)
  subst e
  refine SimG.bind (sim_setTopFor hc (fun _ => ⟨rfl, rfl⟩)) (fun _ _ _ => ?_)
  refine SimG.bind hpop (fun u v e => ?_)
  subst e
  refine SimG.bind (R' := Rel p) (Q := Eq) (SimG.modify (fun a b h => ?_)) (fun _ _ _ => sim_tracedStack hc)
  obtain ⟨h, hn, ho⟩ := h
  exact ⟨syms_update h.syms (fun s t k => k.setNum _ _) (fun i hi hne => (ho i hi).resolve_left hne), h.nums, h.strs, h.world, fun k => { h.ctl k with }⟩

theorem sim_nextVariable (hc : p.code = true) (id : Nat) : SimG p (On p (Rel p)) (Rel p) Eq (nextVariable id) (nextVariable id) := by
  unfold nextVariable
  refine sim_tracedFor outOk_rel hc (by decide) (SimG.bind Sim.get (fun u v h => ?_))
  have c := h.ctl hc
  have hf : findFor u id = findFor v id := by unfold findFor; rw [c.forStack]
  rw [hf, c.forStack]
  cases v.forStack.getLast? with
  | none => exact Sim.fail _
  | some f =>
    refine SimG.ite Iff.rfl (fun _ => sim_next hc _) (fun _ => ?_)
    cases findFor v id with
    | none => exact Sim.fail _
    | some si => exact sim_next hc _

theorem sim_nextImplicit (hc : p.code = true) : SimG p (On p (Rel p)) (Rel p) Eq nextImplicit nextImplicit := by
  unfold nextImplicit
  refine sim_tracedFor outOk_rel hc (by decide) (SimG.bind Sim.get (fun u v h => ?_))
  rw [(h.ctl hc).forStack]
  exact SimG.ite Iff.rfl (fun _ => Sim.fail _) (fun _ => sim_next hc _)

/-! ### User-defined functions -/

/-- Entering a function. -/
theorem Rel.enter {a b : VM} (hc : p.code = true) (h : Rel p a b) {d : Def} (hw : Within p d.bcode.inst) {pid : Nat} (hd : p.dom pid)
    {s t : Symbol} (hst : SymRel p (openVars a) pid s t) (hv : isVar s .num = true) (x : Dbl) (l : List Dbl) (cs : CodeState) (hcs : cs.code = some .def_) :
    Rel p
      { a with fn := { codeState := a.cs, paramId := pid, paramDefined := s.defined, paramVal := s.num },
               defCode := { a.defCode with bcode := some d.bcode }, cs := cs, stack := l,
               st := symUpdate a.st pid (fun s => { s with num := x, defined := true }) }
      { b with fn := { codeState := b.cs, paramId := pid, paramDefined := t.defined, paramVal := t.num },
               defCode := { b.defCode with bcode := some d.bcode }, cs := cs, stack := l ++ p.nums,
               st := symUpdate b.st pid (fun s => { s with num := x, defined := true }) } := by
  have c := h.ctl hc
  have hdc := c.defSource
  have hb : Rel p { a with st := symUpdate a.st pid (fun s => { s with num := x, defined := true }) }
      { b with st := symUpdate b.st pid (fun s => { s with num := x, defined := true }) } := h.update (fun s t k => k.setNum _ _)
  have hdef : CodeRel p { a with defCode := { a.defCode with bcode := some d.bcode } } { b with defCode := { b.defCode with bcode := some d.bcode } } .def_ := by
    refine ⟨?_, fun bc hbc => ?_⟩
    · simp only [codeOf, hdc.1, hdc.2]
    · simp only [codeOf, Option.some.injEq] at hbc; subst hbc; exact hw
  have hcode : ∀ r, CodeRel p a b r → CodeRel p { a with defCode := { a.defCode with bcode := some d.bcode } } { b with defCode := { b.defCode with bcode := some d.bcode } } r := by
    intro r hr
    cases r with
    | def_ => exact hdef
    | stored => exact hr
    | immediate => exact hr
  refine ⟨hb.syms, rfl, h.strs, h.world, fun k => { c with cs := rfl, caller := c.cs, param := ?_, stored := hcode _ c.stored, codes := ?_ }⟩
  · intro _
    refine ⟨rfl, hd, hst.eqs.2.2.1.symm, ?_, ?_⟩
    · rcases hst.2 with rfl | ⟨k1, k2 | k2, -⟩
      · exact .inl rfl
      · exact .inr ⟨k2, k1⟩
      · rw [hv] at k2; cases k2
    · have := hst.1.head
      simp only [V.isVar, Bool.and_eq_true, beq_iff_eq] at hv
      rw [hv.1, hv.2] at this
      exact this.symm
  · intro r hr
    rcases hr with hx | hx | hx | hx
    · have : r = .def_ := by
        have h1 : cs.code = some r := hx
        rw [hcs] at h1; cases h1; rfl
      subst this; exact hdef
    · exact hcode r (c.codes r (.inr (.inl hx)))
    · exact hcode r (c.codes r (.inr (.inr (.inl hx))))
    · exact hcode r (c.codes r (.inl hx))

theorem sim_callDef (hc : p.code = true) {id : Nat} (hd : p.dom id) (n : Nat) : Sim p Eq (callDef id n) (callDef id n) := by
  unfold callDef
  refine SimG.bind (sim_symbol hd) (fun s t h => ?_)
  refine SimG.bind (SimG.assert (by rw [h.eqs.1]) _) (fun _ _ _ => ?_)
  refine SimG.bind (Sim.check (by rw [h.eqs.2.2.1]) _) (fun _ _ _ => ?_)
  rw [h.eqs.2.2.2.2.2.2.1]
  cases hdf : s.def_ with
  | none => exact SimG.halt _
  | some d =>
    have hw : Within p d.bcode.inst := h.1.defs d hdf
    refine SimG.bind Sim.get (fun u v huv => ?_)
    have c := huv.ctl hc
    refine SimG.bind (Sim.check (by rw [c.caller]) _) (fun _ _ _ => ?_)
    refine SimG.bind (Sim.check rfl _) (fun _ _ hn => ?_)
    refine SimG.bind (sim_curBcode hc) (fun bc bc' e => ?_)
    obtain ⟨rfl, -⟩ := e
    refine SimG.bind (Sim.check (by rw [c.cs]) _) (fun _ _ _ => ?_)
    intro a b h
    have h0 : RelL p (openVars a) a b := h
    simp only [bind_apply, modify_apply]
    cases hi : d.bcode.inst[1]? with
    | none => exact .halt
    | some i =>
      have hcor : ∀ (α : Type) (c : VM) (r : Res α), SimRes p (Rel p) Eq (fail .corruptParam c) r := fun _ _ _ => .corrupt
      cases i with
      | param pid =>
        have hp : p.dom pid := hw _ (List.mem_of_getElem? hi) pid (by simp [idsOf])
        rcases h0.syms pid hp with ⟨-, h1, h2⟩ | ⟨ps, pt, h1, h2, h3⟩
        · simp only [bind_apply, sym, symbolAt, h1, h2]; exact .halt
        · by_cases hv : isVar ps .num = true
          · have hv' : isVar pt .num = true := by rw [← h3.isVar]; exact hv
            cases hs : a.stack with
            | nil =>
              simp only [bind_apply, sym, symbolAt, h1, hv, assert_apply, if_true, modify_apply, pop]
              exact .emptyNum
            | cons x l =>
              have hs' : b.stack = x :: (l ++ p.nums) := by rw [h0.nums, hs]; rfl
              simp only [bind_apply, sym, symbolAt, h1, h2, hv, hv', assert_apply, if_true, modify_apply, pop, hs', updSym]
              exact .ok rfl (Rel.enter hc h hw hp h3 hv x l _ rfl)
          · have hv0 : isVar ps .num = false := by simpa using hv
            have hv' : isVar pt .num = false := by rw [← h3.isVar]; exact hv0
            simp only [bind_apply, sym, symbolAt, h1, h2, hv0, hv', assert_apply, Bool.false_eq_true, if_false]
            exact .halt
      | _ => exact hcor _ _ _

theorem sim_endDef (hc : p.code = true) : Sim p Eq endDef endDef := by
  intro a b h
  have c := h.ctl hc
  have h0 : RelL p (openVars a) a b := h
  simp only [endDef, bind_apply, get_apply, check_apply]
  rw [← c.caller]
  cases hn : a.fn.codeState.code with
  | none => simp only [Option.isNone_none, if_true]; exact .err h
  | some r =>
    obtain ⟨h1, h2, h3, h4, h5⟩ := c.param (by rw [hn]; rfl)
    simp only [Option.isNone_some, Bool.false_eq_true, if_false, modify_apply]
    rw [← h1, ← h3]
    rcases h0.syms _ h2 with ⟨-, k1, k2⟩ | ⟨s, t, k1, k2, k3⟩
    · simp only [sym, symbolAt, k1, k2]; exact .halt
    · simp only [sym, symbolAt, k1, k2, updSym, modify_apply]
      refine .ok rfl ⟨?_, h.nums, h.strs, h.world, fun k => { c with cs := c.caller, caller := ?_, param := ?_, codes := ?_ }⟩
      · refine syms_update h0.syms (fun s t k => ?_) (fun _ k _ => k)
        rcases h4 with h4 | ⟨k1, k2⟩
        · rw [← h4]; exact k.setNum _ _
        · rcases k with ⟨⟨m1, m2⟩, rfl | ⟨-, -, y, rfl⟩⟩
          · exact ⟨⟨m1, m2⟩, .inr ⟨k2, .inl k1, _, rfl⟩⟩
          · exact ⟨⟨m1, m2⟩, .inr ⟨k2, .inl k1, _, rfl⟩⟩
      · simp only [c.caller]
      · intro hs; cases hs
      · intro r' hr
        rcases hr with hx | hx | hx | hx
        · exact c.codes r' (.inr (.inr (.inr hx)))
        · exact c.codes r' (.inr (.inl hx))
        · exact c.codes r' (.inr (.inr (.inl hx)))
        · cases hx

theorem within_copy {bc body : Bcode} {start : Nat} (h : Within p bc.inst) (hb : bcodeCopyDef bc start = .ok body) : Within p body.inst := by
  unfold bcodeCopyDef at hb
  split at hb
  · cases hb
  · cases hb
    intro i hi
    rcases List.mem_append.1 hi with hi | hi
    · exact h i (List.mem_of_mem_drop ((List.takeWhile_prefix _).subset hi))
    · rw [List.mem_singleton] at hi; subst hi
      intro id hid; cases hid

theorem sim_liftWith {α : Type} {R : VM → VM → Prop} {o o' : Outcome α} (h : o = o') : SimG p R R (fun u v => u = v ∧ o = .ok u) (V.lift o) (V.lift o') := by
  subst h
  cases o
  · exact SimG.pure ⟨rfl, rfl⟩
  · exact SimG.halt _

theorem sim_defStatement (hc : p.code = true) {id : Nat} (hd : p.dom id) (n : Nat) : Sim p Eq (defStatement id n) (defStatement id n) := by
  unfold defStatement
  refine SimG.bind (sim_symbol hd) (fun s t h => ?_)
  refine SimG.bind (SimG.assert (by rw [h.eqs.1]) _) (fun _ _ hk => ?_)
  have hv : p.head id ≠ (.variable, .num) := by
    intro k
    have := h.1.head
    rw [k] at this
    rw [show s.kind = .variable from congrArg Prod.fst this] at hk
    cases hk
  refine SimG.bind (SimG.when (by rw [h.eqs.2.2.2.2.2.2.1]) (fun _ => SimG.bind (SimG.assert h.eqs.2.2.1.symm _) (fun _ _ _ =>
    sim_updSym (fun _ _ _ k => k.value (f := fun s => { s with def_ := none, defined := false }) (fun _ => ⟨rfl, rfl, fun _ => rfl⟩)
      (fun _ h => (by cases h)) (.inr (.inl rfl)))))) (fun _ _ _ => ?_)
  refine SimG.bind (Sim.check rfl _) (fun _ _ _ => ?_)
  refine SimG.bind (sim_curBcode hc) (fun bc bc' e => ?_)
  obtain ⟨rfl, hw⟩ := e
  refine SimG.bind Sim.get (fun u v huv => ?_)
  rw [(huv.ctl hc).cs]
  refine SimG.bind (sim_liftWith rfl) (fun x y e => ?_)
  obtain ⟨rfl, hb⟩ := e
  refine SimG.bind (sim_updSym (fun _ _ _ k => k.value (f := fun s => { s with def_ := some ⟨x, _⟩, defined := true }) (fun _ => ⟨rfl, rfl, fun _ => rfl⟩)
      (fun d h => .inr ?_) (.inr (.inr hv)))) (fun _ _ _ => sim_setPc _)
  have h : some _ = some d := h
  cases h
  exact within_copy hw hb

theorem sim_getParenNum (hc : p.code = true) {id : Nat} (hd : p.dom id) (n : Nat) : Sim p Eq (getParenNum id n) (getParenNum id n) := by
  unfold getParenNum
  refine SimG.bind (sim_symbol hd) (fun s t h => SimG.bind (SimG.assert (by rw [h.eqs.2.1]) _) (fun _ _ _ => ?_))
  refine SimG.ite (by rw [h.eqs.1]) (fun _ => SimG.bind (sim_getElement numField_sim hd n) (fun u v e => by subst e; exact sim_push _)) (fun _ => ?_)
  exact SimG.bind (SimG.assert (by rw [h.eqs.1]) _) (fun _ _ _ => sim_callDef hc hd n)

theorem sim_getParenStr (hc : p.code = true) {id : Nat} (hd : p.dom id) (n : Nat) : Sim p Eq (getParenStr id n) (getParenStr id n) := by
  unfold getParenStr
  refine SimG.bind (sim_symbol hd) (fun s t h => SimG.bind (SimG.assert (by rw [h.eqs.2.1]) _) (fun _ _ _ => ?_))
  refine SimG.ite (by rw [h.eqs.1]) (fun _ => SimG.bind (sim_getElement strField_sim hd n) (fun u v e => by subst e; exact sim_pushStr _)) (fun _ => ?_)
  exact SimG.bind (SimG.assert (by rw [h.eqs.1]) _) (fun _ _ _ => sim_callDef hc hd n)

/-! ### The other statements -/

theorem sim_clear : Sim p Eq (modify (fun vm => { vm with st := clearSymbolTableValues vm.st })) (modify (fun vm => { vm with st := clearSymbolTableValues vm.st })) := by
  refine SimG.modify (fun a b h => ⟨fun q hq => ?_, h.nums, h.strs, h.world, fun k => { h.ctl k with }⟩)
  simp only [clearSymbolTableValues, List.getElem?_map]
  rcases h.syms q hq with ⟨hl, h1, h2⟩ | ⟨s, t, h1, h2, h3⟩
  · rw [h1, h2]; exact .inl ⟨hl, rfl, rfl⟩
  · rw [h1, h2]
    have hk : ∀ s : Symbol, (undefineValue s).kind = s.kind ∧ (undefineValue s).type = s.type ∧
        ∀ d, (undefineValue s).def_ = some d → s.def_ = some d := by
      intro s
      unfold undefineValue
      split <;> (try split) <;> simp_all
    refine .inr ⟨_, _, rfl, rfl, ?_⟩
    have hok : SymOk p q (if s.defined then undefineValue s else s) := by
      split
      · exact ⟨by rw [(hk s).1, (hk s).2.1]; exact h3.1.head, fun d hd => h3.1.defs d ((hk s).2.2 d hd)⟩
      · exact h3.1
    rcases h3.2 with e | ⟨k1, k2, x, e⟩
    · subst e; exact ⟨hok, .inl rfl⟩
    · subst e
      refine ⟨hok, .inr ⟨k1, ?_, ?_⟩⟩
      · cases hs : s.defined with
        | false => simp [hs]
        | true =>
          right
          have : isVar s .num = false := k2.resolve_left (by rw [hs]; simp)
          simpa [hs, V.isVar, (hk s).1, (hk s).2.1] using this
      · cases hs : s.defined with
        | false => exact ⟨x, by simp [hs]⟩
        | true =>
          have hv : isVar s .num = false := k2.resolve_left (by rw [hs]; simp)
          refine ⟨x, ?_⟩
          simp only [if_true, undefineValue]
          unfold V.isVar at hv
          split <;> (try split) <;> simp_all

theorem sim_skipTo (hc : p.code = true) (q : Inst → Bool) : Sim p Eq (skipTo q) (skipTo q) := by
  unfold skipTo
  refine SimG.bind (sim_curBcode hc) (fun bc bc' e => ?_)
  obtain ⟨rfl, -⟩ := e
  refine SimG.bind Sim.get (fun u v h => ?_)
  rw [(h.ctl hc).cs]
  exact sim_setPc _

theorem sim_onStatement (hc : p.code = true) (n : Nat) (g : Bool) : Sim p Eq (onStatement n g) (onStatement n g) := by
  unfold onStatement
  refine SimG.bind sim_popNum (fun x y e => ?_)
  subst e
  refine SimG.bind (Sim.check rfl _) (fun _ _ _ => SimG.bind Sim.get (fun u v h => ?_))
  rw [(h.ctl hc).cs]
  refine SimG.ite Iff.rfl (fun _ => sim_setPc _) (fun _ => ?_)
  refine SimG.bind (sim_curBcode hc) (fun bc bc' e => ?_)
  obtain ⟨rfl, -⟩ := e
  split
  · exact SimG.bind (SimG.when rfl (fun _ => sim_pushReturn hc _)) (fun _ _ _ => sim_goToBasicLine hc _)
  · exact Sim.fail _

theorem sim_sourceLineInst (hc : p.code = true) (l : Nat) :
    SimG p (fun a b => Rel p a b ∧ (p.basic = true → Shown p.lines a l)) (Rel p) Eq (sourceLineInst l) (sourceLineInst l) := by
  have hR : OutOk p (fun a b => Rel p a b ∧ (p.basic = true → Shown p.lines a l)) :=
    ⟨fun a b h => h.1, fun a b w v h hw => ⟨outOk_rel.world a b w v h.1 hw, fun k => (h.2 k).same rfl (fun r => by cases r <;> rfl)⟩⟩
  unfold sourceLineInst
  refine SimG.bind (SimG.modify (R' := fun a b => Rel p a b ∧ (p.basic = true → Shown p.lines a l)) (fun a b h =>
    ⟨h.1.setCs (by rw [(h.1.ctl hc).cs]) (fun _ r hr => (h.1.ctl hc).codes r (.inl hr)), fun k => (h.2 k).same rfl (fun r => by cases r <;> rfl)⟩)) (fun _ _ _ => ?_)
  refine SimG.bind Sim.get (fun u v h => ?_)
  refine SimG.drop (SimG.trace hR (h.1.ctl hc).traceBasic (fun k a _ hk => ?_) ?_) (fun _ _ h => h.1)
  · obtain ⟨r, src, h1, h2, h3, h4⟩ := hk.2 k
    rw [← h3] at h4
    unfold Traces
    simp only [bind_apply, curSource, h1, h2, lift, sourceLinenum, List.getElem?_eq_getElem h4, pure_apply, out, modify_apply]
    refine ⟨['[' :: fmtU (src.lines[l]).num ++ [']']], fun x hx => ?_, ?_⟩
    · rw [List.mem_singleton.1 hx]; exact .line _ k (h3 ▸ List.getElem_mem h4)
    · simp only [List.flatten_cons, List.flatten_nil, List.append_nil]
  refine SimG.bind (sim_curSource hR hc) (fun src src' e => ?_)
  subst e
  cases src with
  | none => exact SimG.halt _
  | some src => exact SimG.bind (SimG.lift rfl) (fun n n' e => by subst e; exact sim_outOk hR _)

theorem sim_outCol (s : CStr) {c d : Nat} (hcd : p.code = true → c = d) : Sim p Eq (outCol s c) (outCol s d) :=
  SimG.bind (sim_out s) (fun _ _ _ => SimG.modify (fun _ _ h => ⟨h.syms, h.nums, h.strs, h.world, fun k => { h.ctl k with col := hcd k }⟩))

theorem sim_printSpc (hc : p.code = true) : Sim p Eq printSpc printSpc :=
  SimG.bind sim_popUnsigned (fun u v e => by
    subst e
    exact SimG.bind Sim.get (fun a b h => sim_outCol _ (fun k => by rw [(h.ctl hc).col])))

theorem sim_printTab (hc : p.code = true) : Sim p Eq printTab printTab :=
  SimG.bind sim_popUnsigned (fun u v e => by
    subst e
    refine SimG.bind Sim.get (fun a b h => ?_)
    rw [(h.ctl hc).col]
    split
    exact sim_outCol _ (fun _ => rfl))

theorem sim_printComma (hc : p.code = true) : Sim p Eq printComma printComma :=
  SimG.bind Sim.get (fun a b h => by rw [(h.ctl hc).col]; exact sim_outCol _ (fun _ => rfl))

theorem sim_printNum (hc : p.code = true) : Sim p Eq printNum printNum :=
  SimG.bind sim_popNum (fun u v e => by
    subst e
    exact SimG.bind Sim.get (fun a b h => sim_outCol _ (fun k => by rw [(h.ctl hc).col])))

theorem sim_printStr (hc : p.code = true) : Sim p Eq printStr printStr :=
  SimG.bind sim_popStr (fun u v e => by
    subst e
    exact SimG.bind Sim.get (fun a b h => sim_outCol _ (fun k => by rw [(h.ctl hc).col])))

theorem sim_readInputLine : Sim p Eq readInputLine readInputLine := by
  refine SimG.modify (fun a b h => ?_)
  rw [h.world.stdin]
  split
  · exact h
  · exact ⟨h.syms, h.nums, h.strs, { h.world with stdin := rfl }, fun k => { h.ctl k with input := rfl }⟩

theorem sim_inputBuf (hc : p.code = true) (q : Option CStr) : Sim p Eq (inputBuf q) (inputBuf q) := by
  unfold inputBuf
  refine SimG.bind (sim_out _) (fun _ _ _ => SimG.bind Sim.get (fun u v h => ?_))
  refine SimG.bind (SimG.when (h.ctl hc).inputPrompt (fun _ => sim_out _)) (fun _ _ _ => ?_)
  refine SimG.bind (sim_readInputLine) (fun _ _ _ => SimG.modify (fun a b h => ?_))
  exact ⟨h.syms, h.nums, h.strs, h.world, fun k => { h.ctl k with inp := rfl, inputPc := by simp only [(h.ctl hc).cs] }⟩

theorem sim_inputRest (hc : p.code = true) : Sim p Eq inputRest inputRest := by
  intro a b h
  unfold inputRest
  rw [(h.ctl hc).input, (h.ctl hc).inp]
  split
  · exact .halt
  · exact .ok rfl h

theorem sim_advance (n : Nat) : Sim p Eq (advance n) (advance n) :=
  SimG.modify (fun _ _ h => ⟨h.syms, h.nums, h.strs, h.world, fun k => { h.ctl k with inp := by simp only [(h.ctl k).inp] }⟩)

theorem sim_inputEnd (hc : p.code = true) : Sim p Eq inputEnd inputEnd :=
  SimG.bind (sim_inputRest hc) (fun u v e => by
    subst e
    exact SimG.bind (sim_advance _) (fun _ _ _ => SimG.when rfl (fun _ => sim_out _)))

theorem sim_inputAgain (hc : p.code = true) (m : String) : Sim p Eq (inputAgain m) (inputAgain m) :=
  SimG.bind (sim_out _) (fun _ _ _ => SimG.bind (SimG.modify (fun a b h =>
    h.setCs (by rw [(h.ctl hc).cs, (h.ctl hc).inputPc]) (fun _ r hr => (h.ctl hc).codes r (.inl hr)))) (fun _ _ _ => SimG.pure rfl))

theorem sim_inputSep (hc : p.code = true) : Sim p Eq inputSep inputSep :=
  SimG.bind (sim_inputRest hc) (fun u v e => by
    subst e
    refine SimG.bind (sim_advance _) (fun _ _ _ => ?_)
    split
    · exact Sim.brk (sim_advance _)
    · exact sim_inputAgain hc _)

theorem sim_inputNum (hc : p.code = true) {id : Nat} (hd : p.dom id) (n : Nat) : Sim p Eq (inputNum id n) (inputNum id n) :=
  SimG.bind (sim_inputRest hc) (fun u v e => by
    subst e
    split
    · refine SimG.ite Iff.rfl (fun _ => ?_) (fun _ => sim_inputAgain hc _)
      refine SimG.bind (sim_symbol hd) (fun _ _ _ => SimG.bind (sim_setNumeric hd n _) (fun _ _ _ => ?_))
      exact SimG.bind (SimG.modify (fun _ _ h => ⟨h.syms, h.nums, h.strs, h.world, fun k => { h.ctl k with inp := by simp only [(h.ctl k).input] }⟩))
        (fun _ _ _ => SimG.pure rfl)
    · exact sim_inputAgain hc _)

theorem sim_inputStr (hc : p.code = true) {id : Nat} (hd : p.dom id) (n : Nat) : Sim p Eq (inputStr id n) (inputStr id n) :=
  SimG.bind (sim_inputRest hc) (fun u v e => by
    subst e
    exact SimG.bind (sim_advance _) (fun _ _ _ => SimG.bind (sim_symbol hd) (fun _ _ _ => sim_setString hd n _)))

theorem sim_inputLine (hc : p.code = true) {id : Nat} (hd : p.dom id) (n : Nat) : Sim p Eq (inputLine id n) (inputLine id n) := by
  unfold inputLine
  refine SimG.bind (R' := Rel p) (Q := Eq) (SimG.modify (fun _ _ h => ⟨h.syms, h.nums, h.strs, h.world, fun k => { h.ctl k with input := by simp only [(h.ctl k).input] }⟩)) (fun _ _ _ => ?_)
  refine SimG.bind Sim.get (fun u v h => SimG.bind (sim_symbol hd) (fun _ _ _ => ?_))
  rw [(h.ctl hc).input]
  exact sim_setString hd n _

theorem sim_readNum (hc : p.code = true) {id : Nat} (hd : p.dom id) (n : Nat) : Sim p Eq (readNum id n) (readNum id n) :=
  SimG.bind (sim_findData hc) (fun u v e => by
    subst e
    split
    · exact sim_setNumeric hd n _
    · exact Sim.fail _)

theorem sim_readStr (hc : p.code = true) {id : Nat} (hd : p.dom id) (n : Nat) : Sim p Eq (readStr id n) (readStr id n) :=
  SimG.bind (sim_findData hc) (fun u v e => by subst e; exact sim_setString hd n _)

theorem sim_brk' {x y : VmM Unit} {a b : VM} (h : SimRes p (Rel p) Eq (x a) (y b)) : SimRes p (Rel p) Eq (brk x a) (brk y b) := by
  simp only [brk_apply]
  generalize x a = ra at h
  generalize y b = rb at h
  cases h with
  | ok hq h' => exact .ok rfl h'
  | err h' => exact .err h'
  | halt => exact .halt
  | fullNum h' => exact .fullNum h'
  | fullStr h' => exact .fullStr h'
  | emptyNum => exact .emptyNum
  | emptyStr => exact .emptyStr
  | corrupt => exact .corrupt

/-- Machines that agree and, where a loop is opened, are not in a function. -/
theorem sim_exec (hc : p.code = true) (env : Env) (i : Inst) (hi : ∀ id ∈ idsOf i, p.dom id) {a b : VM} (h : Rel p a b)
    (hf : ∀ id, i = .for_ id → a.fn.codeState.code = none)
    (hon : (∃ id, i = .for_ id ∨ i = .nextVar id) ∨ i = .nextImp → p.loops = true → Shown p.lines a a.cs.sourceLine)
    (hln : ∀ l, i = .sourceLine l → p.basic = true → Shown p.lines a l) : SimRes p (Rel p) Eq (exec env i a) (exec env i b) := by
  by_cases hfor : ∃ id, i = .for_ id
  · obtain ⟨id, rfl⟩ := hfor
    have := sim_forStatement hc (hi id List.mem_cons_self) h (hf id rfl) (hon (.inl ⟨id, .inl rfl⟩))
    exact sim_brk' this
  by_cases hv : ∃ id, i = .nextVar id
  · obtain ⟨id, rfl⟩ := hv
    exact sim_brk' (sim_nextVariable hc id a b ⟨h, hon (.inl ⟨id, .inr rfl⟩)⟩)
  by_cases hm : i = .nextImp
  · subst hm
    exact sim_brk' (sim_nextImplicit hc a b ⟨h, hon (.inr rfl)⟩)
  by_cases hsl : ∃ l, i = .sourceLine l
  · obtain ⟨l, rfl⟩ := hsl
    exact sim_brk' (sim_sourceLineInst hc l a b ⟨h, hln l rfl⟩)
  refine (?_ : Sim p Eq (exec env i) (exec env i)) a b h
  clear h hf hon hln
  cases i with
  | for_ id => exact absurd ⟨id, rfl⟩ hfor
  | nop => exact SimG.pure rfl
  | sourceLine l => exact absurd ⟨l, rfl⟩ hsl
  | clear => exact Sim.brk sim_clear
  | pushNum x => exact Sim.brk (sim_push _)
  | popNum => exact Sim.brk (sim_num1 (fun _ => SimG.pure rfl))
  | getSimpleNum id => exact Sim.brk (sim_getNumericSimple (hi _ List.mem_cons_self))
  | setSimpleNum id => exact Sim.brk (SimG.bind (sim_symbol (hi _ List.mem_cons_self)) (fun _ _ _ => sim_num1 (fun _ => sim_setNumericSimple (hi _ List.mem_cons_self) _)))
  | dimNum id n => exact Sim.brk (sim_dimStatement numField_sim (hi _ List.mem_cons_self) _)
  | getParenNum id n => exact Sim.brk (sim_getParenNum hc (hi _ List.mem_cons_self) _)
  | setArrayNum id n => exact Sim.brk (SimG.bind (sim_symbol (hi _ List.mem_cons_self)) (fun _ _ _ => sim_num1 (fun _ => sim_setElement numField_sim (hi _ List.mem_cons_self) _ _)))
  | neg => exact Sim.brk (sim_num1 (fun _ => sim_push _))
  | arith o => exact Sim.brk (sim_num1 (fun _ => sim_num1 (fun _ => sim_push _)))
  | cmpNum r => exact Sim.brk (sim_num1 (fun _ => sim_num1 (fun _ => sim_push _)))
  | or => exact Sim.brk (sim_logic1 (fun _ => sim_logic1 (fun _ => sim_push _)))
  | and => exact Sim.brk (sim_logic1 (fun _ => sim_logic1 (fun _ => sim_push _)))
  | not => exact Sim.brk (sim_logic1 (fun _ => sim_push _))
  | pushStr s => exact Sim.brk (sim_pushStr _)
  | popStr => exact Sim.brk (sim_str1 (fun _ => SimG.pure rfl))
  | setSimpleStr id => exact Sim.brk (SimG.bind (sim_symbol (hi _ List.mem_cons_self)) (fun _ _ _ => sim_str1 (fun _ => sim_setStringSimple (hi _ List.mem_cons_self) _)))
  | getSimpleStr id => exact Sim.brk (sim_getStringSimple (hi _ List.mem_cons_self))
  | dimStr id n => exact Sim.brk (sim_dimStatement strField_sim (hi _ List.mem_cons_self) _)
  | getParenStr id n => exact Sim.brk (sim_getParenStr hc (hi _ List.mem_cons_self) _)
  | setArrayStr id n => exact Sim.brk (SimG.bind (sim_symbol (hi _ List.mem_cons_self)) (fun _ _ _ => sim_str1 (fun _ => sim_setElement strField_sim (hi _ List.mem_cons_self) _ _)))
  | cmpStr r => exact Sim.brk (SimG.bind sim_compareStrings (fun u v e => by subst e; exact sim_push _))
  | concat => exact Sim.brk (sim_str1 (fun _ => sim_str1 (fun _ => SimG.bind (Sim.check rfl _) (fun _ _ _ => sim_pushStr _))))
  | end_ => exact Sim.ret (SimG.bind (sim_curBcode hc) (fun u v e => by obtain ⟨rfl, -⟩ := e; exact sim_setPc _))
  | stop => exact Sim.ret (SimG.modify (fun _ _ h => ⟨h.syms, h.nums, h.strs, h.world, fun k => { h.ctl k with stopped := rfl }⟩))
  | goto_ l => exact Sim.ret (sim_goToBasicLine hc _)
  | gotrue l => exact SimG.bind sim_popNum (fun u v e => by
      subst e; exact SimG.ite Iff.rfl (fun _ => Sim.ret (sim_goToBasicLine hc _)) (fun _ => SimG.pure rfl))
  | gosub l => exact Sim.ret (SimG.bind Sim.get (fun u v h => by
      rw [(h.ctl hc).cs]; exact SimG.bind (sim_pushReturn hc _) (fun _ _ _ => sim_goToBasicLine hc _)))
  | return_ => exact Sim.ret (sim_popReturn hc)
  | nextVar id => exact absurd ⟨id, rfl⟩ hv
  | nextImp => exact absurd rfl hm
  | def_ id n => exact Sim.brk (sim_defStatement hc (hi _ List.mem_cons_self) _)
  | param id => exact Sim.fail _
  | endDef => exact Sim.brk (sim_endDef hc)
  | onGoto n => exact Sim.ret (sim_onStatement hc _ _)
  | onGosub n => exact Sim.ret (sim_onStatement hc _ _)
  | onLine l => exact Sim.fail _
  | ifThen => exact SimG.bind sim_popNum (fun u v e => by
      subst e; exact SimG.ite Iff.rfl (fun _ => Sim.ret (sim_skipTo hc _)) (fun _ => SimG.pure rfl))
  | ifElse => exact SimG.bind sim_popNum (fun u v e => by
      subst e; exact SimG.ite Iff.rfl (fun _ => Sim.brk (sim_skipTo hc _)) (fun _ => SimG.pure rfl))
  | else_ => exact Sim.ret (sim_skipTo hc _)
  | printLn => exact Sim.brk (sim_outCol _ (fun _ => rfl))
  | printSpc => exact Sim.brk (sim_printSpc hc)
  | printTab => exact Sim.brk (sim_printTab hc)
  | printComma => exact Sim.brk (sim_printComma hc)
  | printNum => exact Sim.brk (sim_printNum hc)
  | printStr => exact Sim.brk (sim_printStr hc)
  | cls => exact Sim.brk (sim_outCol _ (fun _ => rfl))
  | inputBuf q => exact Sim.brk (sim_inputBuf hc _)
  | inputEnd => exact Sim.brk (sim_inputEnd hc)
  | inputSep => exact sim_inputSep hc
  | inputNum id n => exact sim_inputNum hc (hi _ List.mem_cons_self) _
  | inputStr id n => exact Sim.brk (sim_inputStr hc (hi _ List.mem_cons_self) _)
  | inputLine id n => exact Sim.brk (sim_inputLine hc (hi _ List.mem_cons_self) _)
  | data s => exact SimG.pure rfl
  | readNum id n => exact Sim.brk (sim_readNum hc (hi _ List.mem_cons_self) _)
  | readStr id n => exact Sim.brk (sim_readStr hc (hi _ List.mem_cons_self) _)
  | restore => exact Sim.brk (SimG.modify (fun _ _ h => ⟨h.syms, h.nums, h.strs, h.world, fun k => { h.ctl k with programData := rfl, immediateData := rfl }⟩))
  | restoreLine l => exact Sim.brk (SimG.bind (sim_findBasicLine hc _) (fun u v e => by
      subst e; exact SimG.modify (fun _ _ h => ⟨h.syms, h.nums, h.strs, h.world, fun k => { h.ctl k with programData := rfl }⟩)))
  | rand => exact Sim.brk (SimG.bind (sim_readClock env) (fun u v e => by
      subst e; exact sim_world (f := fun w => { w with rng := env.srand (u32 u) }) (g := fun w => { w with rng := env.srand (u32 u) }) (fun _ _ h => { h with rng := rfl })))
  | seed => exact Sim.brk (SimG.bind sim_popUnsigned (fun u v e => by
      subst e; exact sim_world (f := fun w => { w with rng := env.srand u }) (g := fun w => { w with rng := env.srand u }) (fun _ _ h => { h with rng := rfl })))
  | bi b =>
    cases b with
    | rnd => exact sim_rndStep env
    | _ => exact Sim.brk (sim_builtinOp env _)

end V
end LB
