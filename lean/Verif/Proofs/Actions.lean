import Verif.Proofs.PrintItems
import Verif.Proofs.Data
import Verif.Proofs.Input
/- ON, DATA, INPUT and the other statements. -/
namespace LB
open LB.Spec _root_.Spec

/- ### Values -/

theorem textNumber_numeric (s : CStr) (x : Dbl) : textNumber s = some x ↔ Numeric s x := by
  rw [← convert_whole s x]
  unfold textNumber
  split
  · rename_i y hy; rw [hy]; simp
  · rename_i hy
    exact ⟨fun h => (by cases h), fun h => absurd h (hy x)⟩

/-- What ON selects. -/
theorem select_on (ls : List Nat) (x : Dbl) :
    (∀ e, Src.select ls x = .error e → e = .onInvalid ∧ Dbl.ne x (Dbl.floor x) = true) ∧
    (Src.select ls x = .ok none → Dbl.ne x (Dbl.floor x) = false ∧ V.onOutside x ls.length = true) ∧
    (∀ n, Src.select ls x = .ok (some n) → Dbl.ne x (Dbl.floor x) = false ∧ V.onOutside x ls.length = false ∧
      ∃ k, Dbl.toNat x = k + 1 ∧ ls[k]? = some n) := by
  cases x with
  | nan => exact ⟨fun e h => (by cases h; exact ⟨rfl, rfl⟩), fun h => (by cases h), fun n h => (by cases h)⟩
  | pinf => exact ⟨fun e h => (by cases h), fun _ => ⟨rfl, by simp [V.onOutside, Dbl.lt]⟩, fun n h => (by cases h)⟩
  | ninf => exact ⟨fun e h => (by cases h), fun _ => ⟨rfl, by simp [V.onOutside, Dbl.lt]⟩, fun n h => (by cases h)⟩
  | nzero => exact ⟨fun e h => (by cases h), fun _ => ⟨rfl, by rw [V.onOutside_int (k := 0) _ (.inr ⟨rfl, rfl⟩)]; simp⟩, fun n h => (by cases h)⟩
  | fin q =>
    simp only [Src.select]
    by_cases hd : q.den = 1
    · have hq : q = ((q.num : Int) : Rat) := by
        apply Rat.ext
        · simp
        · simp [hd]
      have hi : IsInt (.fin q) q.num := .inl (by rw [← hq])
      have hne : Dbl.ne (.fin q) (Dbl.floor (.fin q)) = false := (V.ne_floor_iff _).2 (.inl ⟨_, hi⟩)
      have ho := V.onOutside_int ls.length hi
      simp only [hd, ne_eq, not_true_eq_false, if_false, hne, ho]
      refine ⟨fun e h => (by cases h), fun h => ⟨trivial, ?_⟩, fun n h => ⟨trivial, ?_⟩⟩
      · simp only [Except.ok.injEq] at h
        split at h
        · rename_i h1
          rw [List.getElem?_eq_none_iff] at h
          simp only [decide_eq_true_eq]
          omega
        · simp only [decide_eq_true_eq]
          omega
      · simp only [Except.ok.injEq] at h
        split at h
        · rename_i h1
          have hlt := (List.getElem?_eq_some_iff.1 h).1
          refine ⟨by simp only [decide_eq_false_iff_not]; omega, q.num.toNat - 1, ?_, h⟩
          have : Dbl.toNat (.fin q) = q.num.toNat := by
            conv => lhs; rw [hq]
            simp only [Dbl.toNat]
            have h0 : (0 : Int) ≤ q.num := by omega
            simp [Rat.floor_intCast]
          omega
        · cases h
    · have hne : Dbl.ne (.fin q) (Dbl.floor (.fin q)) = true := by
        cases hn : Dbl.ne (.fin q) (Dbl.floor (.fin q)) with
        | true => rfl
        | false =>
          rcases (V.ne_floor_iff _).1 hn with ⟨k, h | h⟩ | h | h
          · cases h; exact absurd (by simp) hd
          · exact absurd h.1 (by simp)
          · cases h
          · cases h
      simp only [hd, ne_eq, not_false_eq_true, if_true]
      exact ⟨fun e h => (by cases h; exact ⟨rfl, hne⟩), fun h => (by cases h), fun n h => (by cases h)⟩

section
variable {env : Env} {I : Image} {c : Src.Config} {vm : VM} {ss : List Src.Stmt} {tail : List Inst}

/- ### ON -/

theorem on_mimics (hI : I.Ok) (h : Midst I c vm) (h1 : vm.stack = []) (h2 : vm.strstack = []) (ht : Tail I c.place ss tail) {g : Bool} {e : Expr .num} {ns : List Nat}
    {cd : List Inst} (he : Postfix I.st e cd) (hfit : Src.Fits I.prog.room 0 e) (hk : I.code.drop vm.cs.pc = cd ++ (onInst g ns.length :: (ns.map .onLine ++ tail))) :
    Mimics env I (Src.after ss c.place) vm (Src.perform env I.prog ss c (.on g e ns)) := by
  simp only [Src.perform]
  refine h.value hI he (by rw [h1]; exact hfit.1) (by rw [h2]; simpa using hfit.2) hk fun x s' vm' h' hk' hst => ?_
  simp only [pushed, h1, h2, Prod.mk.injEq] at hst
  have hex : V.execute env vm' = V.onStatement ns.length g vm' := by
    rw [V.execute_at env (h'.base.at_inst hI h'.code hk')]
    cases g <;> simp only [onInst, V.exec, V.ret_apply, Bool.false_eq_true, if_false, if_true] <;> cases V.onStatement ns.length _ vm' <;> rfl
  have hrest : I.code.drop (vm'.cs.pc + ns.length + 1) = tail := by
    rw [show vm'.cs.pc + ns.length + 1 = vm'.cs.pc + 1 + ns.length by omega, ← List.drop_drop, drop_next hk', List.drop_append_of_le_length (by simp)]
    simp
  have hm := h'.popped []
  obtain ⟨s1, s2, s3⟩ := select_on ns x
  obtain ⟨d, hd⟩ := curBcode_stored hI hm
  cases hsel : Src.select ns x with
  | error er =>
    obtain ⟨rfl, hne⟩ := s1 er hsel
    refine Fails.now h'.going (b := { vm' with stack := [] }) ?_ (hm.base.left h'.going _)
    rw [hex]
    simp only [V.onStatement, V.bind_apply, V.pop, hst.1, V.check_apply, hne, if_true]
  | ok o =>
    cases o with
    | none =>
      obtain ⟨hne, ho⟩ := s2 hsel
      refine Mimics.went h'.going (b := { vm' with stack := [], cs := { vm'.cs with pc := vm'.cs.pc + ns.length + 1 } }) ?_
        (ht.done (h'.base.move (p := Src.after ss c.place)) rfl rfl hst.2 h'.code h'.line h'.going hrest)
      rw [hex]
      simp only [V.onStatement, V.bind_apply, V.pop, hst.1, V.check_apply, hne, Bool.false_eq_true, if_false, V.get_apply, ho, if_true, V.setPc, V.modify_apply]
    | some n =>
      obtain ⟨hne, ho, k, hx, hl⟩ := s3 n hsel
      have hline : I.code[vm'.cs.pc + Dbl.toNat x]? = some (.onLine n) := by
        have := congrArg (·[k]?) (drop_next hk')
        simp only [List.getElem?_drop] at this
        rw [hx, show vm'.cs.pc + (k + 1) = vm'.cs.pc + 1 + k by omega, this, List.getElem?_append_left (by simpa using (List.getElem?_eq_some_iff.1 hl).1)]
        simp [hl]
      have hon : V.onStatement ns.length g vm' = (do V.when_ g (V.pushReturn (vm'.cs.pc + ns.length + 1)); V.goToBasicLine n : VmM Unit) { vm' with stack := [] } := by
        simp only [V.onStatement, V.bind_apply, V.pop, hst.1, V.check_apply, hne, Bool.false_eq_true, if_false, V.get_apply, ho, hd, hline]
      cases g with
      | false =>
        simp only [Bool.false_eq_true, if_false]
        refine jump_mimics hI h'.going (u := { vm' with stack := [] }) ?_ hm.base rfl hst.2 h'.going
        rw [hex, hon]
        simp only [V.bind_apply, V.when_, Bool.false_eq_true, if_false, V.pure_apply]
      | true =>
        have hlen : vm'.retstack.length = c.calls.length := h'.base.calls.length
        simp only [if_true, Src.call]
        by_cases hd : 8 ≤ c.calls.length
        · rw [if_pos hd]
          refine Fails.now h'.going (b := { vm' with stack := [] }) ?_ (hm.base.left h'.going _)
          have : vm'.retstack.length ≥ maxReturnStack := by simp only [maxReturnStack]; omega
          rw [hex, hon]
          simp only [V.bind_apply, V.when_, if_true, V.pushReturn, if_pos this]
        · rw [if_neg hd]
          have hlt : ¬ vm'.retstack.length ≥ maxReturnStack := by simp only [maxReturnStack]; omega
          have hb : Standing I { c with toStore := s', calls := Src.after ss c.place :: c.calls } { vm' with stack := [], retstack := { vm'.cs with pc := vm'.cs.pc + ns.length + 1 } :: vm'.retstack } :=
            ⟨hm.base.stored, hm.base.named, hm.base.small, hm.base.grows, hm.base.tidy, hm.base.kinds, hm.base.store,
              .cons ⟨h'.code, ht.stands hrest, fun hn => by rw [after_line hn]; exact h'.line⟩ hm.base.calls, hm.base.loops, hm.base.begun, hm.base.one, hm.base.col,
              hm.base.width, hm.base.out, hm.base.traceBasic, hm.base.traceFor, hm.base.deep,
              ⟨hm.base.io.data, hm.base.io.stdin, hm.base.io.line, hm.base.io.mark⟩⟩
          refine jump_mimics hI h'.going (u := { vm' with stack := [], retstack := { vm'.cs with pc := vm'.cs.pc + ns.length + 1 } :: vm'.retstack }) ?_ hb rfl hst.2 h'.going
          rw [hex, hon]
          simp only [V.bind_apply, V.when_, if_true, V.pushReturn, if_neg hlt]

/- ### DATA, READ, RESTORE -/

theorem data_mimics (hI : I.Ok) (ht : Tail I c.place ss tail) {vs : List CStr} : ∀ {vs' : List CStr} {vm : VM}, Midst I c vm → vm.stack = [] → vm.strstack = [] →
    I.code.drop vm.cs.pc = vs'.map .data ++ tail → Mimics env I (Src.after ss c.place) vm (Src.perform env I.prog ss c (.data vs)) := by
  intro vs'
  induction vs' with
  | nil => intro vm h h1 h2 hk; exact ⟨0, vm, .here, ht.done (h.base.move (p := Src.after ss c.place)) rfl h1 h2 h.code h.line h.going hk, fun _ => rfl⟩
  | cons v vs' ih =>
    intro vm h h1 h2 hk
    have hx : V.execute env vm = .ok () { vm with cs := following vm.cs } := by
      rw [V.execute_at env (h.base.at_inst hI h.code hk)]
      simp only [V.exec, V.pure_apply]
    exact Mimics.after (.one h.going hx) (ih (vm := { vm with cs := following vm.cs }) ⟨h.base.move (p := c.place), h.code, h.line, h.going⟩ h1 h2 (drop_next hk))

theorem drop_get {α : Type} {l t : List α} {a : α} {k : Nat} (h : l.drop k = a :: t) : l[k]? = some a := by
  have := congrArg (·[0]?) h
  simpa using this

/-- The next item of DATA. -/
theorem Midst.nextData (h : Midst I c vm) (hI : I.Ok) :
    (∀ t, I.prog.data[c.data]? = some t → ∃ p, V.findData vm = .ok t { vm with programData := p } ∧ items (I.code.drop p) = I.prog.data.drop (c.data + 1)) ∧
    (I.prog.data[c.data]? = none → V.findData vm = .err (if I.prog.data = [] then .noData else .outOfData) vm) := by
  obtain ⟨d, hd, hd'⟩ := hI.bcode
  have hne : ¬ (some CodeRef.stored = some CodeRef.immediate) := by decide
  have hsrc : V.dataSource vm = .ok (some ⟨I.code, d⟩, vm.programData, false) := by
    simp only [V.dataSource, h.code, if_neg hne, h.base.stored, hd]
  have hio := h.base.io.data
  have hfind : ∀ r, V.findData vm = r ↔ (if !d then V.fail .noData else
      match I.code[V.scan Inst.isData I.code vm.programData]? with
      | some (.data s) => (do V.modify (fun u => { u with programData := V.scan Inst.isData I.code vm.programData + 1 }); pure s : VmM CStr)
      | _ => V.fail .outOfData) vm = r := by
    intro r
    simp only [V.findData, V.bind_apply, V.get_apply, hsrc, V.lift, V.pure_apply]
    cases d with
    | false => rfl
    | true =>
      simp only [Bool.not_true, Bool.false_eq_true, if_false]
      cases I.code[V.scan Inst.isData I.code vm.programData]? with
      | none => rfl
      | some i => cases i <;> rfl
  rcases V.items_scan_at I.code vm.programData with ⟨s, k1, k2⟩ | ⟨k1, k2⟩
  · rw [hio] at k2
    refine ⟨fun t hd0 => ⟨V.scan Inst.isData I.code vm.programData + 1, ?_, ?_⟩, fun hn => ?_⟩
    · have := drop_get k2
      rw [hd0] at this
      cases this
      have hdt : d = true := hd'.2 (fun hnil => by rw [hnil] at hd0; simp at hd0)
      rw [hfind, hdt]
      simp only [Bool.not_true, Bool.false_eq_true, if_false, k1, V.bind_apply, V.modify_apply, V.pure_apply]
    · exact (drop_next k2).symm
    · rw [drop_get k2] at hn; cases hn
  · rw [hio] at k2
    refine ⟨fun t hd0 => ?_, fun hn => ?_⟩
    · rw [List.drop_eq_nil_iff] at k2
      have := (List.getElem?_eq_some_iff.1 hd0).1
      omega
    · rw [hfind]
      by_cases hnil : I.prog.data = []
      · have : d = false := by
          cases hdd : d with
          | false => rfl
          | true => exact absurd hnil (hd'.1 hdd)
        rw [this, if_pos hnil]
        rfl
      · rw [hd'.2 hnil, if_neg hnil]
        simp only [Bool.not_true, Bool.false_eq_true, if_false, k1]
        rfl

theorem Standing.readData (h : Standing I c vm) {p : Nat} (hp : items (I.code.drop p) = I.prog.data.drop (c.data + 1)) : Standing I { c with data := c.data + 1 } { vm with programData := p } :=
  ⟨h.stored, h.named, h.small, h.grows, h.tidy, h.kinds, h.store, h.calls, h.loops, h.begun, h.one, h.col, h.width, h.out, h.traceBasic, h.traceFor, h.deep,
    ⟨hp, h.io.stdin, h.io.line, h.io.mark⟩⟩

/-- Giving a string to a variable. -/
theorem Standing.setStr (h : Standing I c vm) {w : CStr} {id : Nat} (hv : Numbered I.st w .str id) (x : CStr) :
    V.setString id 0 x vm = .ok () { vm with st := symUpdate vm.st id (fun s => { s with str := some x, defined := true }) } := by
  obtain ⟨s, m1, m2, m3, m4⟩ := h.var hv
  have hvar : V.isVar s .str = true := by simp [V.isVar, m3, m4]
  have hdef := fun k => ((h.tidy id s m1).held k).2.1
  cases hss : s.str.isSome with
  | false =>
    simp only [V.setString, if_true, V.bind_apply, V.sym_ok m1, V.setStringSimple, V.assert_apply, hvar, V.updSym, V.modify_apply, V.when_, hss]
    rfl
  | true =>
    have := hdef hss
    simp only [V.setString, V.bind_apply, V.sym_ok m1, V.setStringSimple, V.assert_apply, hvar, if_true, V.updSym, V.modify_apply, V.when_, hss, this]

/-- Giving a number to a variable. -/
theorem Standing.setNum (h : Standing I c vm) {w : CStr} {id : Nat} (hv : Numbered I.st w .num id) (x : Dbl) :
    V.setNumeric id 0 x vm = .ok () { vm with st := symUpdate vm.st id (fun s => { s with num := x, defined := true }) } := by
  obtain ⟨s, m1, m2, m3, m4⟩ := h.var hv
  have hvar : V.isVar s .num = true := by simp [V.isVar, m3, m4]
  simp only [V.setNumeric, if_true, V.bind_apply, V.sym_ok m1, V.setNumericSimple, V.assert_apply, hvar, V.updSym, V.modify_apply]

theorem readNum_mimics (hI : I.Ok) (h : Midst I c vm) (h1 : vm.stack = []) (h2 : vm.strstack = []) (ht : Tail I c.place ss tail) {q : Src.Place} {w : CStr} {id : Nat} (hv : Numbered I.st w .num id)
    (hk : I.code.drop vm.cs.pc = .readNum id 0 :: tail) : Mimics env I q vm (Src.perform env I.prog ss c (.read (.num w))) := by
  obtain ⟨k1, k2⟩ := h.nextData hI
  have hx := V.execute_at env (h.base.at_inst hI h.code hk)
  simp only [Src.perform]
  cases hd : I.prog.data[c.data]? with
  | none =>
    refine Fails.now h.going (b := vm) ?_ (h.base.left h.going _)
    rw [hx]
    simp only [V.exec, V.brk_apply, V.readNum, V.bind_apply, k2 hd]
  | some t =>
    obtain ⟨p, m1, m2⟩ := k1 t hd
    have hb := h.base.readData m2
    simp only [Src.store]
    cases hn : textNumber t with
    | none =>
      refine Fails.now h.going (b := { vm with programData := p }) ?_ ⟨hb.stored, hb.store, h.going, fun _ => hb.out, hb.io.stdin, hb.io.line⟩
      rw [hx]
      simp only [V.exec, V.brk_apply, V.readNum, V.bind_apply, m1]
      unfold textNumber at hn
      cases hc : V.convert t with
      | none => rfl
      | some y =>
        obtain ⟨y, r⟩ := y
        cases r with
        | nil => rw [hc] at hn; cases hn
        | cons => rfl
    | some x =>
      have hc := (convert_whole t x).2 ((textNumber_numeric t x).1 hn)
      refine Mimics.went h.going (b := { vm with programData := p, st := symUpdate vm.st id (fun s => { s with num := x, defined := true }), cs := following vm.cs }) ?_
        (ht.done ((hb.assignNum hv x).move (p := Src.after ss c.place)) rfl h1 h2 h.code h.line h.going (drop_next hk))
      rw [hx]
      simp only [V.exec, V.brk_apply, V.readNum, V.bind_apply, m1, hc, hb.setNum hv x]

theorem readStr_mimics (hI : I.Ok) (h : Midst I c vm) (h1 : vm.stack = []) (h2 : vm.strstack = []) (ht : Tail I c.place ss tail) {q : Src.Place} {w : CStr} {id : Nat} (hv : Numbered I.st w .str id)
    (hk : I.code.drop vm.cs.pc = .readStr id 0 :: tail) : Mimics env I q vm (Src.perform env I.prog ss c (.read (.str w))) := by
  obtain ⟨k1, k2⟩ := h.nextData hI
  have hx := V.execute_at env (h.base.at_inst hI h.code hk)
  simp only [Src.perform]
  cases hd : I.prog.data[c.data]? with
  | none =>
    refine Fails.now h.going (b := vm) ?_ (h.base.left h.going _)
    rw [hx]
    simp only [V.exec, V.brk_apply, V.readStr, V.bind_apply, k2 hd]
  | some t =>
    obtain ⟨p, m1, m2⟩ := k1 t hd
    have hb := h.base.readData m2
    simp only [Src.store]
    refine Mimics.went h.going (b := { vm with programData := p, st := symUpdate vm.st id (fun s => { s with str := some t, defined := true }), cs := following vm.cs }) ?_
      (ht.done ((hb.assignStr hv t).move (p := Src.after ss c.place)) rfl h1 h2 h.code h.line h.going (drop_next hk))
    rw [hx]
    simp only [V.exec, V.brk_apply, V.readStr, V.bind_apply, m1, hb.setStr hv t]

theorem restore_mimics (hI : I.Ok) (h : Midst I c vm) (h1 : vm.stack = []) (h2 : vm.strstack = []) (ht : Tail I c.place ss tail) {q : Src.Place}
    (hk : I.code.drop vm.cs.pc = .restore :: tail) : Mimics env I q vm (Src.perform env I.prog ss c .restore) := by
  have hb := h.base
  refine Mimics.went h.going (b := { vm with programData := 0, immediateData := 0, cs := following vm.cs }) ?_ (ht.done ?_ rfl h1 h2 h.code h.line h.going (drop_next hk))
  · rw [V.execute_at env (h.base.at_inst hI h.code hk)]
    simp only [V.exec, V.brk_apply, V.modify_apply]
  · exact ⟨hb.stored, hb.named, hb.small, hb.grows, hb.tidy, hb.kinds, hb.store, hb.calls, hb.loops, hb.begun, hb.one, hb.col, hb.width, hb.out, hb.traceBasic, hb.traceFor, hb.deep,
      ⟨by simpa using lines_items hI.lines, hb.io.stdin, hb.io.line, hb.io.mark⟩⟩

theorem restoreLine_mimics (hI : I.Ok) (h : Midst I c vm) (h1 : vm.stack = []) (h2 : vm.strstack = []) (ht : Tail I c.place ss tail) {q : Src.Place} {n : Nat}
    (hk : I.code.drop vm.cs.pc = .restoreLine n :: tail) : Mimics env I q vm (Src.perform env I.prog ss c (.restoreLine n)) := by
  have hb := h.base
  have hx := V.execute_at env (h.base.at_inst hI h.code hk)
  simp only [Src.perform]
  cases hf : I.prog.findIdx? (fun l => l.1 == n) with
  | none =>
    refine Fails.now h.going (b := vm) ?_ (h.base.left h.going _)
    rw [hx]
    simp only [V.exec, V.brk_apply, V.bind_apply, V.findBasicLine, h.base.stored, hI.indexed, Option.bind_some, hI.missing n hf]
  | some i =>
    obtain ⟨pc, k1, k2⟩ := hI.found n i hf
    refine Mimics.went h.going (b := { vm with programData := pc, cs := following vm.cs }) ?_ (ht.done ?_ rfl h1 h2 h.code h.line h.going (drop_next hk))
    · rw [hx]
      simp only [V.exec, V.brk_apply, V.bind_apply, V.findBasicLine, h.base.stored, hI.indexed, Option.bind_some, k1, V.modify_apply]
    · refine ⟨hb.stored, hb.named, hb.small, hb.grows, hb.tidy, hb.kinds, hb.store, hb.calls, hb.loops, hb.begun, hb.one, hb.col, hb.width, hb.out, hb.traceBasic, hb.traceFor, hb.deep,
        ⟨?_, hb.io.stdin, hb.io.line, hb.io.mark⟩⟩
      show items (I.code.drop pc) = I.prog.data.drop (Src.Program.data (I.prog.take i)).length
      rw [lines_items k2]
      have : I.prog.data = Src.Program.data (I.prog.take i) ++ Src.Program.data (I.prog.drop i) := by
        simp only [Src.Program.data]
        rw [← List.flatMap_append, List.take_append_drop]
      rw [this, List.drop_append_of_le_length (Nat.le_refl _), List.drop_length, List.nil_append]

/- ### CLS, CLEAR, RANDOMIZE -/

theorem cls_mimics (hI : I.Ok) (h : Midst I c vm) (h1 : vm.stack = []) (h2 : vm.strstack = []) (ht : Tail I c.place ss tail) {q : Src.Place}
    (hk : I.code.drop vm.cs.pc = .cls :: tail) : Mimics env I q vm (Src.perform env I.prog ss c .cls) := by
  have hb := h.base
  refine Mimics.went h.going (b := { vm with world := { vm.world with out := vm.world.out ++ env.clearScreen }, col := 1, cs := following vm.cs }) ?_
    (ht.done ?_ rfl h1 h2 h.code h.line h.going (drop_next hk))
  · rw [V.execute_at env (h.base.at_inst hI h.code hk)]
    simp only [V.exec, V.brk_apply, V.outCol, V.out, V.bind_apply, V.modify_apply]
  · refine ⟨hb.stored, hb.named, hb.small, hb.grows, hb.tidy, hb.kinds, hb.store, hb.calls, hb.loops, hb.begun, hb.one, rfl, (by show 1 < 4294967296; decide), ?_, hb.traceBasic, hb.traceFor, hb.deep,
      ⟨hb.io.data, hb.io.stdin, hb.io.line, hb.io.mark⟩⟩
    simp only [hb.out, List.append_assoc]

theorem undefine_defined (s : Symbol) (hk : s.kind = .variable ∨ s.kind = .array) : (undefineValue s).defined = false := by
  unfold undefineValue
  rcases hk with hk | hk <;> cases ht : s.type <;> simp [hk]

theorem tidy_undefine {s : Symbol} (h : TidySym s) : TidySym (undefineValue s) := by
  obtain ⟨h1, h2, h3, h4⟩ := h
  cases hk : s.kind <;> cases ht : s.type <;> constructor <;> simp_all [undefineValue]

theorem cleared_get {st : SymTab} {q : Nat} {t : Symbol} (h : (clearSymbolTableValues st).psym[q]? = some t) :
    ∃ s, st.psym[q]? = some s ∧ t = if s.defined then undefineValue s else s := by
  simp only [clearSymbolTableValues, List.getElem?_map, Option.map_eq_some_iff] at h
  obtain ⟨s, hs, rfl⟩ := h
  exact ⟨s, hs, rfl⟩

theorem look_none {β : Type} {p : SymKind → Bool} {g : Symbol → β} {d : β} {st : SymTab} (h : ∀ s ∈ st.psym, p s.kind = true → g s = d) : look p g d st = fun _ => d := by
  funext w
  unfold look
  split
  · rename_i s hs
    have := List.find?_some hs
    simp only [Bool.and_eq_true] at this
    exact h s (List.mem_of_find?_eq_some hs) this.1
  · rfl

theorem cleared_kinds {r : Nat × Nat} {st : SymTab} {fn : FnState} {F : Src.Fns} (h : Kinds r st fn F) : Kinds r (clearSymbolTableValues st) fn F.forget := by
  refine ⟨fun t ht => ?_, h.idle, fun q t hq w hn => ?_⟩
  · obtain ⟨q, hq⟩ := List.mem_iff_getElem?.1 ht
    obtain ⟨s, hs, rfl⟩ := cleared_get hq
    have := h.known s (List.mem_of_getElem? hs)
    split
    · rw [(undefineValue_name s).2.1]; exact this
    · exact this
  · obtain ⟨s, hs, rfl⟩ := cleared_get hq
    have hhead : ∀ b : Bool, (if b then undefineValue s else s).name = s.name ∧ (if b then undefineValue s else s).kind = s.kind ∧ (if b then undefineValue s else s).type = s.type := by
      intro b
      cases b
      · exact ⟨rfl, rfl, rfl⟩
      · exact ⟨(undefineValue_name s).1, (undefineValue_name s).2.1, (undefineValue_name s).2.2.2⟩
    obtain ⟨k1, k2, k3⟩ := hhead s.defined
    have hK := h.functions q s hs w (by rw [← k1]; exact hn)
    rw [Known, k2, k3]
    refine ⟨fun hk => ?_, fun hk => .inl ?_⟩
    · simp only [Src.Fns.forget, hK.1 hk]; rfl
    · rcases hK.2 hk with ⟨j1, j2, j3⟩ | ⟨d, f, j1, j2, j3, _⟩
      · simp only [Src.Fns.forget, j3, j1]; exact ⟨j1, j2, rfl⟩
      · simp only [Src.Fns.forget, j3, j1, if_true, undefineValue, hk]; exact ⟨trivial, trivial, rfl⟩

theorem cleared_store {vm : VM} (ht : AllSym TidySym vm.st) (hp : ∀ s ∈ vm.st.psym, s.kind ≠ .unknown) (s : Store) (h : storeOf vm = s) :
    storeOf { vm with st := clearSymbolTableValues vm.st } = { s with nums := fun _ => .fin 0, strs := fun _ => [], numArrs := fun _ => .missing, strArrs := fun _ => .missing } := by
  have hd : ∀ t ∈ (clearSymbolTableValues vm.st).psym, isVariable t.kind = true ∨ isArray t.kind = true → t.defined = false ∧ TidySym t := by
    intro t hm hk
    obtain ⟨q, hq⟩ := List.mem_iff_getElem?.1 hm
    obtain ⟨s, hs, rfl⟩ := cleared_get hq
    by_cases hdef : s.defined = true
    · rw [if_pos hdef] at hk ⊢
      rw [(undefineValue_name s).2.1] at hk
      refine ⟨undefine_defined s ?_, tidy_undefine (ht q s hs)⟩
      have := hp s (List.mem_of_getElem? hs)
      cases hkind : s.kind <;> simp_all [isVariable, isArray]
    · rw [if_neg hdef] at hk ⊢
      exact ⟨by simpa using hdef, ht q s hs⟩
  subst h
  unfold storeOf
  simp only [numNamed_look, strNamed_look, numArr_look, strArr_look]
  rw [look_none fun s hs hk => ?_, look_none fun s hs hk => ?_, look_none fun s hs hk => ?_, look_none fun s hs hk => ?_]
  · obtain ⟨h1, h2⟩ := hd s hs (.inr hk)
    have : s.strarr = none := by have := h2.strarr; cases hn : s.strarr <;> simp_all
    simp [fieldView, arrView, h1, V.strField, this]
  · obtain ⟨h1, h2⟩ := hd s hs (.inr hk)
    have : s.numarr = none := by have := h2.numarr; cases hn : s.numarr <;> simp_all
    simp [fieldView, arrView, h1, V.numField, this]
  · simp [strView, (hd s hs (.inl hk)).1]
  · simp [numView, (hd s hs (.inl hk)).1]

theorem clear_mimics (hI : I.Ok) (h : Midst I c vm) (h1 : vm.stack = []) (h2 : vm.strstack = []) (ht : Tail I c.place ss tail) {q : Src.Place}
    (hk : I.code.drop vm.cs.pc = .clear :: tail) : Mimics env I q vm (Src.perform env I.prog ss c .clear) := by
  have hb := h.base
  simp only [Src.perform]
  by_cases hl : c.loops = []
  · rw [if_pos hl]
    have hf : vm.forStack = [] := List.length_eq_zero_iff.1 (by rw [hb.loops.length, hl]; rfl)
    refine Mimics.went h.going (b := { vm with st := clearSymbolTableValues vm.st, cs := following vm.cs }) ?_
      (ht.done ?_ rfl h1 h2 h.code h.line h.going (drop_next hk))
    · rw [V.execute_at env (h.base.at_inst hI h.code hk)]
      simp only [V.exec, V.brk_apply, V.modify_apply]
    · refine ⟨hb.stored, hb.named.clear, by simpa [clearSymbolTableValues] using hb.small, hb.grows.trans (grows_of_values (heads_clear vm.st)), ?_, cleared_kinds hb.kinds, cleared_store hb.tidy hb.kinds.known _ hb.store, hb.calls, hb.loops,
        fun f hm => (by rw [show ({ vm with st := clearSymbolTableValues vm.st, cs := following vm.cs } : VM).forStack = [] from hf] at hm; cases hm), hb.one, hb.col, hb.width, hb.out, hb.traceBasic, hb.traceFor, hb.deep,
        ⟨hb.io.data, hb.io.stdin, hb.io.line, hb.io.mark⟩⟩
      refine hb.tidy.cleared fun s hs hd => ?_
      exact tidy_undefine hs
  · rw [if_neg hl]
    trivial

theorem randomize_mimics (hI : I.Ok) (h : Midst I c vm) (h1 : vm.stack = []) (h2 : vm.strstack = []) (ht : Tail I c.place ss tail) {q : Src.Place}
    (hk : I.code.drop vm.cs.pc = .rand :: tail) : Mimics env I q vm (Src.perform env I.prog ss c .randomize) := by
  have hb := h.base
  refine Mimics.went h.going (b := { vm with world := { vm.world with ticks := vm.world.ticks + 1, rng := env.srand (u32 (env.time vm.world.ticks)) }, cs := following vm.cs }) ?_
    (ht.done ?_ rfl h1 h2 h.code h.line h.going (drop_next hk))
  · rw [V.execute_at env (h.base.at_inst hI h.code hk)]
    simp only [V.exec, V.brk_apply, V.readClock, V.bind_apply, V.get_apply, V.modify_apply, V.pure_apply]
  · refine ⟨hb.stored, hb.named, hb.small, hb.grows, hb.tidy, hb.kinds, ?_, hb.calls, hb.loops, hb.begun, hb.one, hb.col, hb.width, hb.out, hb.traceBasic, hb.traceFor, hb.deep,
      ⟨hb.io.data, hb.io.stdin, hb.io.line, hb.io.mark⟩⟩
    simp only [← hb.store]
    rfl

theorem seed_mimics (hI : I.Ok) (h : Midst I c vm) (h1 : vm.stack = []) (h2 : vm.strstack = []) (ht : Tail I c.place ss tail) {e : Expr .num} {cd : List Inst}
    (he : Postfix I.st e cd) (hfit : Src.Fits I.prog.room 0 e) (hk : I.code.drop vm.cs.pc = cd ++ .seed :: tail) :
    Mimics env I (Src.after ss c.place) vm (Src.perform env I.prog ss c (.seed e)) := by
  simp only [Src.perform]
  refine h.value hI he (by rw [h1]; exact hfit.1) (by rw [h2]; simpa using hfit.2) hk fun x s' vm' h' hk' hst => ?_
  simp only [pushed, h1, h2, Prod.mk.injEq] at hst
  have hx := V.execute_at env (h'.base.at_inst hI h'.code hk')
  cases hc : count x with
  | error er =>
    refine Fails.now h'.going (b := { vm' with stack := [] }) ?_ ((h'.popped []).base.left h'.going _)
    rw [hx]
    simp only [V.exec, V.brk_apply, V.bind_apply, count_error hst.1 hc]
  | ok k =>
    have hb := h'.base
    refine Mimics.went h'.going (b := { vm' with stack := [], world := { vm'.world with rng := env.srand k }, cs := following vm'.cs }) ?_
      (ht.done ?_ rfl rfl hst.2 h'.code h'.line h'.going (drop_next hk'))
    · rw [hx]
      simp only [V.exec, V.brk_apply, V.bind_apply, V.popUnsigned_count hst.1 ((count_isCount x).1 k hc), V.modify_apply]
    · refine ⟨hb.stored, hb.named, hb.small, hb.grows, hb.tidy, hb.kinds, ?_, hb.calls, hb.loops, hb.begun, hb.one, hb.col, hb.width, hb.out, hb.traceBasic, hb.traceFor, hb.deep,
        ⟨hb.io.data, hb.io.stdin, hb.io.line, hb.io.mark⟩⟩
      have := hb.store
      simp only at this
      simp only [← this]
      rfl

end
end LB
