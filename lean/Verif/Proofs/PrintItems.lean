import Verif.Proofs.Perform
/- PRINT, item by item. -/
namespace LB
open LB.Spec _root_.Spec

/-- The machine after writing a text. -/
def wrote (vm : VM) (t : CStr) (ns : List Dbl) (ss : List CStr) : VM :=
  { vm with world := { vm.world with out := vm.world.out ++ t }, col := Src.column vm.col t, cs := following vm.cs, stack := ns, strstack := ss }

theorem execute_value {env : Env} {vm : VM} {t : Ty} (x : Meaning t) (ht : t ≠ .err) (hat : At vm (printInst t)) (hs : (vm.stack, vm.strstack) = pushed x { vm with stack := [], strstack := [] })
    (hc : vm.col < 4294967296) : V.execute env vm = .ok () (wrote vm (written x) [] []) := by
  rw [V.execute_at env hat]
  cases t with
  | num =>
    simp only [pushed, Prod.mk.injEq] at hs
    have : '\n' ∉ (' ' :: Dbl.fmtG x ++ [' ']) := by simp [V.fmtG_no_newline]
    simp only [printInst, V.exec, V.brk_apply, V.printNum, V.outCol, V.out, V.bind_apply, V.pop, hs.1, V.get_apply, V.modify_apply, wrote, written, Src.column,
      columnAfter, this, if_false, u32, hs.2]
  | str =>
    simp only [pushed, Prod.mk.injEq] at hs
    simp only [printInst, V.exec, V.brk_apply, V.printStr, V.outCol, V.out, V.bind_apply, V.popStr, hs.1, hs.2, V.get_apply, V.modify_apply, wrote, written, Src.column,
      V.colAfter_spec _ _ hc]
  | err => exact absurd rfl ht

theorem execute_spc {env : Env} {vm : VM} {x : Dbl} {n : Nat} (hat : At vm .printSpc) (h1 : vm.stack = [x]) (h2 : vm.strstack = []) (hn : IsCount x n) :
    V.execute env vm = .ok () (wrote vm (List.replicate n ' ') [] []) := by
  rw [V.execute_at env hat]
  simp only [V.exec, V.brk_apply, V.printSpc, V.outCol, V.out, V.bind_apply, V.popUnsigned_count h1 hn, V.get_apply, V.modify_apply, wrote, Src.column,
    columnAfter_replicate, u32, h2]

theorem execute_tab {env : Env} {vm : VM} {x : Dbl} {n : Nat} (hat : At vm .printTab) (h1 : vm.stack = [x]) (h2 : vm.strstack = []) (hn : IsCount x n)
    (hc : vm.col < 4294967296) :
    V.execute env vm = .ok () (wrote vm (if n < vm.col then '\n' :: List.replicate (n - 1) ' ' else List.replicate (n - vm.col) ' ') [] []) := by
  rw [V.execute_at env hat]
  have hlt := hn.2
  by_cases h : n < vm.col
  · have hcol : columnAfter vm.col ('\n' :: List.replicate (n - 1) ' ') % 4294967296 = if 1 < n then n else 1 := by
      rw [columnAfter_newline]; split <;> omega
    simp only [V.exec, V.brk_apply, V.printTab, V.outCol, V.out, V.bind_apply, V.popUnsigned_count h1 hn, V.get_apply, V.modify_apply, wrote, Src.column, if_pos h, h2, hcol]
    rfl
  · have hcol : columnAfter vm.col (List.replicate (n - vm.col) ' ') % 4294967296 = if vm.col < n then n else vm.col := by
      rw [columnAfter_replicate]; split <;> omega
    simp only [V.exec, V.brk_apply, V.printTab, V.outCol, V.out, V.bind_apply, V.popUnsigned_count h1 hn, V.get_apply, V.modify_apply, wrote, Src.column, if_neg h, h2, hcol]
    rfl

theorem execute_comma {env : Env} {vm : VM} (hat : At vm .printComma) (h1 : vm.stack = []) (h2 : vm.strstack = []) :
    V.execute env vm = .ok () (wrote vm (List.replicate (8 - (vm.col + 7) % 8) ' ') [] []) := by
  rw [V.execute_at env hat]
  simp only [V.exec, V.brk_apply, V.printComma, V.outCol, V.out, V.bind_apply, V.get_apply, V.modify_apply]
  rw [V.commaLoop_spec tabSize vm.col (8 - (vm.col + 7) % 8) (by omega) (by simp only [tabSize]; omega)]
  simp only [wrote, Src.column, columnAfter_replicate, h1, h2]

section
variable {env : Env} {I : Image} {c : Src.Config} {vm : VM} {ss : List Src.Stmt} {tail : List Inst}

theorem Midst.wrote (h : Midst I c vm) (t : CStr) (ns : List Dbl) (ss : List CStr) :
    Midst I { c with col := Src.column c.col t, out := c.out ++ t } (wrote vm t ns ss) := by
  have hb := h.base
  refine ⟨⟨hb.stored, hb.named, hb.small, hb.grows, hb.tidy, hb.kinds, hb.store, hb.calls, hb.loops, hb.begun, hb.one, ?_, ?_, ?_, hb.traceBasic, hb.traceFor, hb.deep,
      ⟨hb.io.data, hb.io.stdin, hb.io.line, hb.io.mark⟩⟩,
    h.code, h.line, h.going⟩
  · simp only [LB.wrote, hb.col]
  · exact Nat.mod_lt _ (by decide)
  · simp only [LB.wrote, hb.out, List.append_assoc]

/-- An item has been printed, or there was an error. -/
def Shows (env : Env) (I : Image) (c : Src.Config) (vm : VM) (rest : List Inst) : Answer CStr → Prop
  | .ok t s => ∃ n vm', Travels env vm n vm' ∧ Midst I { c with toStore := s, col := Src.column c.col t, out := c.out ++ t } vm' ∧ vm'.stack = [] ∧ vm'.strstack = [] ∧
      I.code.drop vm'.cs.pc = rest
  | .error e s => Fails env I e { c with toStore := s } vm
  | .unknown => True

theorem item_shows (hI : I.Ok) (h : Midst I c vm) (h1 : vm.stack = []) (h2 : vm.strstack = []) {i : Src.Item} {cd rest : List Inst} (hc : ItemCode I.st i cd) (hfit : i.Fits I.prog.room)
    (hk : I.code.drop vm.cs.pc = cd ++ rest) : Shows env I c vm rest (i.text env c.fns c.col c.toStore) := by
  have hpush : ∀ {t : Ty} (x : Meaning t), pushed x vm = pushed x { vm with stack := [], strstack := [] } := by
    intro t x
    cases t <;> simp [pushed, h1, h2]
  have hwidth : ∀ {u : VM} {c : Src.Config}, Midst I c u → u.col < 4294967296 := fun hm => by rw [hm.base.col]; exact hm.base.width
  cases hc with
  | @value t e c' he =>
    simp only [Src.Item.text, Ev.bind_apply]
    rw [List.append_assoc] at hk
    obtain ⟨k1, k2⟩ := h.base.value hI h.code h.going he (by rw [h1]; exact hfit.1) (by rw [h2]; simpa using hfit.2) hk env
    cases hv : Src.meaning env c.fns e c.toStore with
    | unknown => trivial
    | error er s => exact k2 er s hv
    | ok x s =>
      obtain ⟨n, vm', m1, m2, m3, m4, m5, m6, _⟩ := k1 x s hv
      have hm : Midst I { c with toStore := s } vm' := ⟨m2, by rw [m4]; exact h.code, by rw [m4]; exact h.line, m3⟩
      have hx := execute_value (env := env) x (by rintro rfl; cases he <;> exact absurd rfl ‹_›) (hm.base.at_inst hI hm.code m5) (by rw [m6, hpush]; cases t <;> rfl) (hwidth hm)
      exact ⟨_, _, m1.trans (.one m3 hx), hm.wrote _ _ _, rfl, rfl, drop_next m5⟩
  | @tab e c' he =>
    simp only [Src.Item.text, Ev.bind_apply]
    rw [List.append_assoc] at hk
    obtain ⟨k1, k2⟩ := h.base.value hI h.code h.going he (by rw [h1]; exact hfit.1) (by rw [h2]; simpa using hfit.2) hk env
    cases hv : Src.meaning env c.fns e c.toStore with
    | unknown => trivial
    | error er s => exact k2 er s hv
    | ok x s =>
      obtain ⟨n, vm', m1, m2, m3, m4, m5, m6, _⟩ := k1 x s hv
      have hm : Midst I { c with toStore := s } vm' := ⟨m2, by rw [m4]; exact h.code, by rw [m4]; exact h.line, m3⟩
      simp only [pushed, h1, h2, Prod.mk.injEq] at m6
      have hat := hm.base.at_inst hI hm.code m5
      cases hn : Spec.count x with
      | ok n =>
        have hx := execute_tab (env := env) hat m6.1 m6.2 ((count_isCount x).1 n hn) (hwidth hm)
        rw [hm.base.col] at hx
        simp only [Ev.of, bind, Except.bind, hn]
        exact ⟨_, _, m1.trans (.one m3 hx), hm.wrote _ _ _, rfl, rfl, drop_next m5⟩
      | error er =>
        simp only [Ev.of, bind, Except.bind, hn]
        refine Fails.after m1 (Fails.now m3 (b := { vm' with stack := [] }) ?_ (Standing.left (vm := { vm' with stack := [] }) (hm.base.move (p := c.place)) m3 er))
        rw [V.execute_at env hat]
        simp only [V.exec, V.brk_apply, V.printTab, V.bind_apply, count_error m6.1 hn]
  | @spc e c' he =>
    simp only [Src.Item.text, Ev.bind_apply]
    rw [List.append_assoc] at hk
    obtain ⟨k1, k2⟩ := h.base.value hI h.code h.going he (by rw [h1]; exact hfit.1) (by rw [h2]; simpa using hfit.2) hk env
    cases hv : Src.meaning env c.fns e c.toStore with
    | unknown => trivial
    | error er s => exact k2 er s hv
    | ok x s =>
      obtain ⟨n, vm', m1, m2, m3, m4, m5, m6, _⟩ := k1 x s hv
      have hm : Midst I { c with toStore := s } vm' := ⟨m2, by rw [m4]; exact h.code, by rw [m4]; exact h.line, m3⟩
      simp only [pushed, h1, h2, Prod.mk.injEq] at m6
      have hat := hm.base.at_inst hI hm.code m5
      cases hn : Spec.count x with
      | ok n =>
        have hx := execute_spc (env := env) hat m6.1 m6.2 ((count_isCount x).1 n hn)
        simp only [Ev.of, bind, Except.bind, hn]
        exact ⟨_, _, m1.trans (.one m3 hx), hm.wrote _ _ _, rfl, rfl, drop_next m5⟩
      | error er =>
        simp only [Ev.of, bind, Except.bind, hn]
        refine Fails.after m1 (Fails.now m3 (b := { vm' with stack := [] }) ?_ (Standing.left (vm := { vm' with stack := [] }) (hm.base.move (p := c.place)) m3 er))
        rw [V.execute_at env hat]
        simp only [V.exec, V.brk_apply, V.printSpc, V.bind_apply, count_error m6.1 hn]
  | comma =>
    have hx := execute_comma (env := env) (h.base.at_inst hI h.code hk) h1 h2
    rw [h.base.col] at hx
    exact ⟨1, _, .one h.going hx, h.wrote _ _ _, rfl, rfl, drop_next hk⟩
  | semicolon =>
    refine ⟨0, vm, .here, ?_, h1, h2, hk⟩
    have hcol : Src.column c.col [] = c.col := by
      simp only [Src.column, columnAfter_nil]
      exact Nat.mod_eq_of_lt h.base.width
    rw [hcol, List.append_nil]
    exact h

/-- Printing several items. -/
def ShowsAll (env : Env) (I : Image) (vm : VM) (p : Src.Place) (rest : List Inst) : Option Src.Ending × Src.Config → Prop
  | (none, c) => ∃ n vm', Travels env vm n vm' ∧ Midst I c vm' ∧ vm'.stack = [] ∧ vm'.strstack = [] ∧ I.code.drop vm'.cs.pc = rest ∧ c.place = p
  | (some e, c) => ∀ q, Mimics env I q vm (.stop e c)

theorem items_show (hI : I.Ok) {l : List Src.Item} {cd : List Inst} (hc : ItemsCode I.st l cd) : ∀ {c : Src.Config} {vm : VM} {rest : List Inst}, Midst I c vm →
    vm.stack = [] → vm.strstack = [] → (∀ i ∈ l, i.Fits I.prog.room) → I.code.drop vm.cs.pc = cd ++ rest → ShowsAll env I vm c.place rest (Src.printItems env l c) := by
  induction hc with
  | nil => intro c vm rest h h1 h2 _ hk; exact ⟨0, vm, .here, h, h1, h2, hk, rfl⟩
  | @cons i l c1 d hi hl ih =>
    intro c vm rest h h1 h2 hf hk
    rw [List.append_assoc] at hk
    have hs := item_shows (env := env) hI h h1 h2 hi (hf i List.mem_cons_self) hk
    simp only [Src.printItems]
    cases ht : i.text env c.fns c.col c.toStore with
    | unknown => exact fun _ => trivial
    | error e s => rw [ht] at hs; exact fun _ => hs
    | ok t s =>
      rw [ht] at hs
      obtain ⟨n, vm', m1, m2, m3, m4, m5⟩ := hs
      have := ih (rest := rest) m2 m3 m4 (fun j hj => hf j (List.mem_cons_of_mem _ hj)) m5
      simp only
      generalize hr : Src.printItems env l { c with toStore := s, col := Src.column c.col t, out := c.out ++ t } = r at this
      obtain ⟨o, c'⟩ := r
      cases o with
      | none =>
        obtain ⟨n', vm'', k1, k2⟩ := this
        exact ⟨n + n', vm'', m1.trans k1, k2⟩
      | some e => exact fun q => Mimics.after m1 (this q)

theorem print_mimics (hI : I.Ok) (h : Midst I c vm) (h1 : vm.stack = []) (h2 : vm.strstack = []) (ht : Tail I c.place ss tail) {l : List Src.Item} {cd : List Inst}
    (hc : ItemsCode I.st l cd) (hfit : (Src.Stmt.print l).Fits I.prog.room) (hk : I.code.drop vm.cs.pc = cd ++ (lineEnd l ++ tail)) :
    Mimics env I (Src.after ss c.place) vm (Src.perform env I.prog ss c (.print l)) := by
  have hs := items_show (env := env) hI hc h h1 h2 hfit hk
  simp only [Src.perform]
  generalize hr : Src.printItems env l c = r at hs
  obtain ⟨o, c'⟩ := r
  cases o with
  | some e => exact hs _
  | none =>
    obtain ⟨n, vm', m1, m2, m3, m4, m5, m6⟩ := hs
    simp only
    refine Mimics.after m1 ?_
    simp only [lineEnd] at m5
    simp only [Src.endLine]
    by_cases hsep : l.getLast?.any Src.Item.separator = true
    · rw [if_pos hsep] at m5 ⊢
      exact ⟨0, vm', .here, ht.done (m2.base.move (p := Src.after ss c.place)) rfl m3 m4 m2.code (m6 ▸ m2.line) m2.going m5, fun _ => rfl⟩
    · rw [if_neg hsep] at m5 ⊢
      have hx : V.execute env vm' = .ok () (wrote vm' ['\n'] [] []) := by
        rw [V.execute_at env (m2.base.at_inst hI m2.code m5)]
        have hcol : columnAfter vm'.col ['\n'] % 4294967296 = 1 := by simp [columnAfter]
        simp only [V.exec, V.brk_apply, V.outCol, V.out, V.bind_apply, V.modify_apply, wrote, Src.column, m3, m4, hcol]
      have hcol : Src.column c'.col ['\n'] = 1 := by simp [Src.column, columnAfter]
      have hm := m2.wrote ['\n'] [] []
      rw [hcol] at hm
      exact Mimics.went m2.going hx (ht.done (hm.base.move (p := Src.after ss c.place)) rfl rfl rfl hm.code (m6 ▸ hm.line) hm.going (drop_next m5))

end
end LB
