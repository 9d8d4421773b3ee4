import Verif.Proofs.Data
import Verif.Proofs.Numbers
import Verif.Proofs.Demo
/- C22: READ, DATA and RESTORE. -/
namespace LB
open LB.Spec

/-- C22.  READ into a string variable assigns the next item, whole, and leaves the items behind it. -/
theorem C22_read_string (env : Env) (vm : VM) (id : Nat) (s : CStr) (more : List CStr)
    (hat : At vm (.readStr id 0)) (hp : ReadsProgram vm) (hk : DataKnown vm) (hv : StrVar vm.st id)
    (hs : pending vm = s :: more) :
    ∃ vm', V.execute env vm = .ok () vm' ∧ str vm'.st id = s ∧ SameBut id vm.st vm'.st ∧ pending vm' = more ∧
      vm'.world = vm.world ∧ vm'.cs = following vm.cs := by
  obtain ⟨p, hf, hr⟩ := V.findData_next hat hp hk hs
  obtain ⟨q, hq, hkind, ht, hdef⟩ := hv
  rw [V.execute_at env hat]
  simp only [V.exec, V.readStr, V.brk_apply, V.bind_apply, hf, V.setString, if_true, V.setStringSimple,
    V.sym_ok (vm := { vm with programData := p }) hq]
  simp only [V.assert_apply, V.isVar, hkind, ht, beq_self_eq_true, Bool.and_self, if_true, V.updSym, V.modify_apply,
    V.when_apply]
  have hw : (if q.str.isSome = true then (if q.defined = true then (.ok () { vm with programData := p } : Res Unit)
      else .halt (.assertFail "set_string_simple defined")) else .ok () { vm with programData := p }) =
      .ok () { vm with programData := p } := by
    by_cases h : q.str.isSome = true
    · rw [if_pos h, if_pos (hdef h)]
    · rw [if_neg h]
  rw [hw]
  refine ⟨_, rfl, ?_, symUpdate_sameBut .., hr, rfl, rfl⟩
  simp only [str, symUpdate_same hq]
  simp

/-- C22.  READ into a numeric variable assigns the number the next item denotes, if it denotes one. -/
theorem C22_read_number (env : Env) (vm : VM) (id : Nat) (s : CStr) (more : List CStr) (x : Dbl)
    (hat : At vm (.readNum id 0)) (hp : ReadsProgram vm) (hk : DataKnown vm) (hv : NumVar vm.st id)
    (hs : pending vm = s :: more) (hx : Numeric s x) :
    ∃ vm', V.execute env vm = .ok () vm' ∧ num vm'.st id = x ∧ SameBut id vm.st vm'.st ∧ pending vm' = more ∧
      vm'.world = vm.world ∧ vm'.cs = following vm.cs := by
  replace hx := (convert_whole s x).2 hx
  obtain ⟨p, hf, hr⟩ := V.findData_next hat hp hk hs
  obtain ⟨q, hq, hkind, ht⟩ := hv
  rw [V.execute_at env hat]
  simp only [V.exec, V.readNum, V.brk_apply, V.bind_apply, hf, hx, V.setNumeric, if_true, V.setNumericSimple,
    V.sym_ok (vm := { vm with programData := p }) hq]
  simp only [V.assert_apply, V.isVar, hkind, ht, beq_self_eq_true, Bool.and_self, if_true, V.updSym, V.modify_apply]
  refine ⟨_, rfl, ?_, symUpdate_sameBut .., hr, rfl, rfl⟩
  simp only [num, symUpdate_same hq]
  simp

/-- C22.  READ into an array element does what the assignment of the next item to the element does. -/
theorem C22_read_element (env : Env) (vm : VM) (id n : Nat) (s : CStr) (more : List CStr)
    (hat : At vm (.readStr id n) ∨ At vm (.readNum id n)) (hn : n ≠ 0) (hp : ReadsProgram vm) (hk : DataKnown vm)
    (hid : (vm.st.psym[id]?).isSome)
    (hs : pending vm = s :: more) :
    ∃ p, pending { vm with programData := p } = more ∧
      (At vm (.readStr id n) → V.exec env (.readStr id n) vm =
        V.exec env (.setArrayStr id n) { vm with programData := p, strstack := s :: vm.strstack }) ∧
      (At vm (.readNum id n) → ∀ x, Numeric s x → V.exec env (.readNum id n) vm =
        V.exec env (.setArrayNum id n) { vm with programData := p, stack := x :: vm.stack }) := by
  obtain ⟨i, hat'⟩ : ∃ i, At vm i := by rcases hat with h | h <;> exact ⟨_, h⟩
  obtain ⟨p, hf, hr⟩ := V.findData_next hat' hp hk hs
  obtain ⟨q, hq⟩ := Option.isSome_iff_exists.1 hid
  refine ⟨p, hr, fun _ => ?_, fun _ x hx => ?_⟩
  · simp only [V.exec, V.readStr, V.brk_apply, V.bind_apply, hf, V.setString, if_neg hn,
      V.sym_ok (vm := { vm with programData := p, strstack := s :: vm.strstack }) hq, V.popStr]
  · replace hx := (convert_whole s x).2 hx
    simp only [V.exec, V.readNum, V.brk_apply, V.bind_apply, hf, hx, V.setNumeric, if_neg hn,
      V.sym_ok (vm := { vm with programData := p, stack := x :: vm.stack }) hq, V.pop]

/-- C22.  READ after the last item stops with an error, and nothing at all has changed. -/
theorem C22_exhausted (env : Env) (vm : VM) (id n : Nat) (hat : At vm (.readStr id n) ∨ At vm (.readNum id n))
    (hp : ReadsProgram vm) (hs : pending vm = []) :
    ∃ e, (e = .noData ∨ e = .outOfData) ∧ V.execute env vm = .err e vm := by
  rcases hat with hat | hat
  · obtain ⟨e, he, hf⟩ := V.findData_empty hat hp hs
    refine ⟨e, he, ?_⟩
    rw [V.execute_at env hat]
    simp only [V.exec, V.readStr, V.brk_apply, V.bind_apply, hf]
  · obtain ⟨e, he, hf⟩ := V.findData_empty hat hp hs
    refine ⟨e, he, ?_⟩
    rw [V.execute_at env hat]
    simp only [V.exec, V.readNum, V.brk_apply, V.bind_apply, hf]

/-- C22.  A numeric READ of an item that is not a number stops with an error and assigns nothing. -/
theorem C22_not_number (env : Env) (vm : VM) (id n : Nat) (s : CStr) (more : List CStr) (hat : At vm (.readNum id n))
    (hp : ReadsProgram vm) (hk : DataKnown vm) (hs : pending vm = s :: more) (hx : ∀ x, ¬ Numeric s x) :
    ∃ vm', V.execute env vm = .err .numericDataExpected vm' ∧ vm'.st = vm.st := by
  obtain ⟨p, hf, hr⟩ := V.findData_next hat hp hk hs
  refine ⟨{ vm with programData := p }, ?_, rfl⟩
  rw [V.execute_at env hat]
  simp only [V.exec, V.readNum, V.brk_apply, V.bind_apply, hf]
  cases hc : V.convert s with
  | none => rfl
  | some p =>
    obtain ⟨x, t⟩ := p
    cases t with
    | nil => exact absurd ((convert_whole s x).1 hc) (hx x)
    | cons c t => rfl

/-- C22.  RESTORE makes all items pending; RESTORE n those from line n on; if there is no line n it stops with an
error and nothing has changed. -/
theorem C22_restore (env : Env) (vm : VM) :
    (At vm .restore → ∃ vm', V.execute env vm = .ok () vm' ∧ pending vm' = allItems vm ∧ vm'.st = vm.st) ∧
    (∀ n pc, At vm (.restoreLine n) → lineStart vm n = some pc →
      ∃ vm', V.execute env vm = .ok () vm' ∧ pending vm' = itemsFrom vm pc ∧ vm'.st = vm.st) ∧
    (∀ n, At vm (.restoreLine n) → lineStart vm n = none → V.execute env vm = .err (.lineNotFound n) vm) := by
  refine ⟨fun hat => ?_, fun n pc hat h => ?_, fun n hat h => ?_⟩
  · rw [V.execute_at env hat]
    simp only [V.exec, V.brk_apply, V.modify_apply]
    exact ⟨_, rfl, by simp [pending, allItems], rfl⟩
  · rw [V.execute_at env hat]
    simp only [lineStart] at h
    simp only [V.exec, V.brk_apply, V.bind_apply, V.findBasicLine, h, V.modify_apply]
    exact ⟨_, rfl, by simp [pending, itemsFrom], rfl⟩
  · rw [V.execute_at env hat]
    simp only [lineStart] at h
    simp only [V.exec, V.brk_apply, V.bind_apply, V.findBasicLine, h]

/-- C22.  Whatever the instruction, the items still to be delivered afterwards are those that READ and RESTORE leave,
and the items themselves do not change. -/
theorem C22_step (env : Env) (a : VM) (i : Inst) (a' : VM) (hat : At a i) (hx : V.execute env a = .ok () a')
    (hpa : ReadsProgram a) (hka : DataKnown a) :
    pending a' = deliver a i (pending a) ∧ a'.stored = a.stored ∧ a'.immediate = a.immediate := by
  have hfix := V.keeps_execute (V.closed_fixed (fun s i _ _ _ _ _ => (s, i)) (a.stored, a.immediate)) env a rfl
  rw [hx] at hfix
  obtain ⟨hst, him⟩ := Prod.mk.inj hfix
  refine ⟨?_, hst, him⟩
  by_cases htouch : V.touches i .data = false
  · have hd : a'.programData = a.programData := by
      have := V.keeps_exec (V.closed_data (a.programData, a.immediateData)) env i
        (by rintro x hx rfl; rw [hx] at htouch; cases htouch) a rfl
      rw [V.execute_at env hat] at hx
      cases he : V.exec env i a with
      | ok f b =>
        rw [he] at hx this
        cases f <;> (cases hx; exact (Prod.mk.inj this).1)
      | err e b => rw [he] at hx; cases hx
      | halt h => rw [he] at hx; cases hx
    have : deliver a i (pending a) = pending a := by cases i <;> first | rfl | exact absurd htouch (by simp [V.touches])
    rw [this]
    simp only [pending, hst, hd]
  · have hread : ∀ id n, At a (.readStr id n) ∨ At a (.readNum id n) → pending a ≠ [] := by
      intro id n h he
      obtain ⟨e, -, h'⟩ := C22_exhausted env a id n h hpa he
      rw [h'] at hx; cases hx
    have fin : ∀ (x : VmM Unit) (b : VM), V.Keeps (fun vm => (vm.programData, vm.immediateData) = (b.programData, b.immediateData)) x →
        b.stored = a.stored → V.execute env a = (match (V.brk x b : Res V.Flow) with
          | .ok .brk v => .ok () { v with cs := following v.cs } | .ok .ret v => .ok () v | .err e v => .err e v | .halt h => .halt h) →
        pending a' = pending b := by
      intro x b hkeep hbs heq
      rw [hx] at heq
      have := hkeep b rfl
      simp only [V.brk_apply] at heq
      cases hxb : x b with
      | ok u v =>
        rw [hxb] at heq this
        cases heq
        simp only [pending, hbs] at hst ⊢
        simp only [hst, (Prod.mk.inj this).1]
      | err e v => rw [hxb] at heq; cases heq
      | halt h => rw [hxb] at heq; cases heq
    cases i with
    | readStr id n =>
      cases hpend : pending a with
      | nil => exact absurd hpend (hread id n (.inl hat))
      | cons s more =>
        obtain ⟨p, hf, hr⟩ := V.findData_next hat hpa hka hpend
        simp only [deliver, List.tail_cons]
        rw [← hr]
        refine fin (V.setString id n s) { a with programData := p } (V.keeps_setString (V.closed_data _) (by decide) (by decide) _ _ _) rfl ?_
        rw [V.execute_at env hat]
        simp only [V.exec, V.readStr, V.brk_apply, V.bind_apply, hf]
        cases V.setString id n s { a with programData := p } <;> rfl
    | readNum id n =>
      cases hpend : pending a with
      | nil => exact absurd hpend (hread id n (.inr hat))
      | cons s more =>
        obtain ⟨p, hf, hr⟩ := V.findData_next hat hpa hka hpend
        simp only [deliver, List.tail_cons]
        by_cases hc : ∃ x, V.convert s = some (x, [])
        · obtain ⟨x, hc⟩ := hc
          rw [← hr]
          refine fin (V.setNumeric id n x) { a with programData := p } (V.keeps_setNumeric (V.closed_data _) (by decide) (by decide) _ _ _) rfl ?_
          rw [V.execute_at env hat]
          simp only [V.exec, V.readNum, V.brk_apply, V.bind_apply, hf, hc]
          cases V.setNumeric id n x { a with programData := p } <;> rfl
        · obtain ⟨b, hb, -⟩ := C22_not_number env a id n s more hat hpa hka hpend (fun x h => hc ⟨x, (convert_whole s x).2 h⟩)
          rw [hb] at hx; cases hx
    | restore =>
      obtain ⟨b, hb, h, -⟩ := (C22_restore env a).1 hat
      rw [hb] at hx; cases hx
      exact h
    | restoreLine n =>
      cases hl : lineStart a n with
      | none => rw [(C22_restore env a).2.2 n hat hl] at hx; cases hx
      | some pc =>
        obtain ⟨b, hb, h, -⟩ := (C22_restore env a).2.1 n pc hat hl
        rw [hb] at hx; cases hx
        simpa only [deliver, hl] using h
    | bi b => cases b <;> exact absurd rfl htouch
    | _ => exact absurd rfl htouch
/-- C22.  Along any run, however long and with whatever statements in between, the items still to be delivered are
those that READ and RESTORE leave: every item is delivered exactly once, in the order of the program, and the items
themselves never change. -/
theorem C22_run (env : Env) (vm vm' : VM) (is : List Inst) (hrun : Runs env vm is vm') (hp : NoTypedData vm)
    (hk : DataKnown vm) :
    pending vm' = is.foldl (fun rest i => deliver vm i rest) (pending vm) ∧ allItems vm' = allItems vm := by
  induction hrun with
  | nil vm => exact ⟨rfl, rfl⟩
  | @step a i a' js b hat hx hrest ih =>
    obtain ⟨h1, h2, h3⟩ := C22_step env a i a' hat hx (fun _ => hp) hk
    have hp' : NoTypedData a' := by simpa only [NoTypedData, h3] using hp
    have hk' : DataKnown a' := by simpa only [DataKnown, h2] using hk
    obtain ⟨i1, i2⟩ := ih hp' hk'
    have hd : ∀ i rest, deliver a' i rest = deliver a i rest := by
      intro i rest
      cases i <;> simp only [deliver, allItems, lineStart, itemsFrom, h2]
    constructor
    · rw [i1, List.foldl_cons, ← h1]
      simp only [hd]
    · rw [i2]
      simp only [allItems, h2]

/-- C22.  A line typed without a number that has DATA itself reads its own items, in their order: READ assigns the next
one, leaves those behind it, and the items of the stored program stay as they were.  RESTORE starts both again. -/
theorem C22_typed (env : Env) (vm : VM) (id : Nat) (s : CStr) (more : List CStr) (hr : ReadsTyped vm)
    (hs : pendingTyped vm = s :: more) :
    (At vm (.readStr id 0) → StrVar vm.st id → ∃ vm', V.execute env vm = .ok () vm' ∧ str vm'.st id = s ∧
      SameBut id vm.st vm'.st ∧ pendingTyped vm' = more ∧ pending vm' = pending vm ∧ vm'.world = vm.world ∧
      vm'.cs = following vm.cs) ∧
    (At vm (.readNum id 0) → NumVar vm.st id → ∀ x, Numeric s x → ∃ vm', V.execute env vm = .ok () vm' ∧
      num vm'.st id = x ∧ SameBut id vm.st vm'.st ∧ pendingTyped vm' = more ∧ pending vm' = pending vm ∧
      vm'.world = vm.world ∧ vm'.cs = following vm.cs) ∧
    (At vm (.readNum id 0) → (∀ x, ¬ Numeric s x) →
      ∃ vm', V.execute env vm = .err .numericDataExpected vm' ∧ vm'.st = vm.st) := by
  obtain ⟨p, hf, hr'⟩ := V.findData_typed hr hs
  refine ⟨?_, ?_, ?_⟩
  · rintro hat ⟨q, hq, hkind, ht, hdef⟩
    rw [V.execute_at env hat]
    simp only [V.exec, V.readStr, V.brk_apply, V.bind_apply, hf, V.setString, if_true, V.setStringSimple,
      V.sym_ok (vm := { vm with immediateData := p }) hq]
    simp only [V.assert_apply, V.isVar, hkind, ht, beq_self_eq_true, Bool.and_self, if_true, V.updSym, V.modify_apply,
      V.when_apply]
    have hw : (if q.str.isSome = true then (if q.defined = true then (.ok () { vm with immediateData := p } : Res Unit)
        else .halt (.assertFail "set_string_simple defined")) else .ok () { vm with immediateData := p }) =
        .ok () { vm with immediateData := p } := by
      by_cases h : q.str.isSome = true
      · rw [if_pos h, if_pos (hdef h)]
      · rw [if_neg h]
    rw [hw]
    refine ⟨_, rfl, ?_, symUpdate_sameBut .., hr', rfl, rfl, rfl⟩
    simp only [str, symUpdate_same hq]
    simp
  · rintro hat ⟨q, hq, hkind, ht⟩ x hx
    replace hx := (convert_whole s x).2 hx
    rw [V.execute_at env hat]
    simp only [V.exec, V.readNum, V.brk_apply, V.bind_apply, hf, hx, V.setNumeric, if_true, V.setNumericSimple,
      V.sym_ok (vm := { vm with immediateData := p }) hq]
    simp only [V.assert_apply, V.isVar, hkind, ht, beq_self_eq_true, Bool.and_self, if_true, V.updSym, V.modify_apply]
    refine ⟨_, rfl, ?_, symUpdate_sameBut .., hr', rfl, rfl, rfl⟩
    simp only [num, symUpdate_same hq]
    simp
  · intro hat hx
    refine ⟨{ vm with immediateData := p }, ?_, rfl⟩
    rw [V.execute_at env hat]
    simp only [V.exec, V.readNum, V.brk_apply, V.bind_apply, hf]
    cases hc : V.convert s with
    | none => rfl
    | some p =>
      obtain ⟨x, t⟩ := p
      cases t with
      | nil => exact absurd ((convert_whole s x).1 hc) (hx x)
      | cons c t => rfl

/-- C22.  Such a line that has read all its items gets an error from the next READ, whatever DATA the stored program
has, and nothing has changed. -/
theorem C22_typed_exhausted (env : Env) (vm : VM) (id n : Nat) (hat : At vm (.readStr id n) ∨ At vm (.readNum id n))
    (hr : ReadsTyped vm) (hs : pendingTyped vm = []) : V.execute env vm = .err .outOfData vm := by
  have hf := V.findData_typed_empty hr hs
  rcases hat with hat | hat
  · rw [V.execute_at env hat]
    simp only [V.exec, V.readStr, V.brk_apply, V.bind_apply, hf]
  · rw [V.execute_at env hat]
    simp only [V.exec, V.readNum, V.brk_apply, V.bind_apply, hf]

/-- C22.  RESTORE on such a line makes all its items pending again, and all items of the stored program. -/
theorem C22_typed_restore (env : Env) (vm : VM) (b : Bcode) (hb : vm.immediate.bcode = some b) (hat : At vm .restore) :
    ∃ vm', V.execute env vm = .ok () vm' ∧ pendingTyped vm' = items b.inst ∧ pending vm' = allItems vm ∧
      vm'.st = vm.st := by
  rw [V.execute_at env hat]
  simp only [V.exec, V.brk_apply, V.modify_apply]
  exact ⟨_, rfl, by simp [pendingTyped, hb], by simp [pending, allItems], rfl⟩

private def typedDemo : VM :=
  let vm := Demo.machine [.data "P".toList] [Demo.strSym "S$" 0 "", Demo.numSym "X" 1 (.fin 0)]
  let line : Bcode := { inst := [.readStr 0 0, .data "A".toList, .data "B".toList, .restore], hasData := true }
  { vm with immediate := ⟨none, some line, none⟩,
            cs := { vm.cs with pc := 0, code := some .immediate } }

example : ReadsTyped typedDemo ∧ pendingTyped typedDemo = ["A".toList, "B".toList] ∧ pending typedDemo = ["P".toList] ∧
    At typedDemo (.readStr 0 0) ∧ StrVar typedDemo.st 0 :=
  ⟨⟨rfl, _, rfl, rfl⟩, rfl, rfl, ⟨.immediate, _, rfl, rfl, rfl⟩, ⟨_, rfl, rfl, rfl, fun _ => rfl⟩⟩

set_option maxRecDepth 100000 in
example : Demo.shows "10 DATA 7\nREAD A,B$:DATA 1,X:PRINT A;B$\nREAD A:PRINT A\n" =
    .ok "> >  1 X\n>  7 \n".toList := by decide +kernel

private def dataDemo : VM :=
  let vm := Demo.machine [.data "A".toList, .readStr 0 0, .data " 7".toList, .readNum 1 0, .restore, .readStr 0 0]
    [Demo.strSym "S$" 0 "", Demo.numSym "X" 1 (.fin 0)]
  { vm with stored := { vm.stored with bcode := vm.stored.bcode.map (fun b => { b with hasData := true }) },
            cs := { vm.cs with pc := 1 } }
example : At dataDemo (.readStr 0 0) ∧ pending dataDemo = ["A".toList, " 7".toList] ∧ StrVar dataDemo.st 0 ∧
    V.convert " 7".toList = some (.fin 7, []) :=
  ⟨⟨.stored, _, rfl, rfl, rfl⟩, rfl, ⟨_, rfl, rfl, rfl, fun _ => rfl⟩, by decide +kernel⟩
example : ReadsProgram dataDemo ∧ NoTypedData dataDemo ∧ DataKnown dataDemo :=
  ⟨fun _ b h => (by cases h), fun b h => (by cases h), fun b h => (by cases h; simp)⟩

set_option maxRecDepth 100000 in
example : Demo.shows "10 READ A,B$\n20 DATA 1,X Y\n30 PRINT A;B$\n40 RESTORE 60\n50 READ C:PRINT C\n60 DATA 2\n70 READ D\nRUN\n"
    = .ok "> > > > > > > >  1 X Y\n 2 \n".toList := by decide +kernel

end LB
