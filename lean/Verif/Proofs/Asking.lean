import Verif.Proofs.Elements
/- INPUT and LINE INPUT. -/
namespace LB
open LB.Spec _root_.Spec

theorem inField_eq : Src.inField = (fun c => c != '\n' && c != ',') := by
  funext c
  by_cases h1 : c = ',' <;> by_cases h2 : c = '\n' <;> simp [Src.inField, h1, h2]

theorem extra_eq (r : CStr) : leftOver r = Src.extra r := by
  have : Src.idle = V.isEndBlank := by
    funext c
    simp only [Src.idle, V.isEndBlank, Bool.or_assoc, Bool.decide_or]
    rfl
  simp only [leftOver, Src.extra, this]
  have he : (r.dropWhile V.isEndBlank).isEmpty = r.all V.isEndBlank := by
    induction r with
    | nil => rfl
    | cons a r ih =>
      simp only [List.dropWhile_cons, List.all_cons]
      cases V.isEndBlank a with
      | true => simpa using ih
      | false => rfl
  rw [he]

section
variable {env : Env} {I : Image} {c : Src.Config} {vm : VM} {ss : List Src.Stmt} {tail : List Inst}

/-- The line is read. -/
theorem buf_midst (h : Midst I c vm) (hI : I.Ok) {prompt : Option CStr} {rest : List Inst} (hk : I.code.drop vm.cs.pc = .inputBuf prompt :: rest) :
    ∃ vm', V.execute env vm = .ok () vm' ∧ Midst I (Src.ask prompt c) vm' ∧ vm'.stack = vm.stack ∧ vm'.strstack = vm.strstack ∧ vm'.inp = (0 : Nat) ∧ vm'.inputPc = vm.cs.pc ∧
      vm'.cs = following vm.cs := by
  have hb := h.base
  refine ⟨_, buf_step env (hb.at_inst hI h.code hk), ⟨?_, h.code, ?_, h.going⟩, rfl, rfl, rfl, rfl, rfl⟩
  · have hq : question vm prompt = prompt.getD [] ++ c.mark := by rw [question, hb.io.mark]
    have ho : vm.world.out ++ question vm prompt = I.out ++ (c.out ++ (prompt.getD [] ++ c.mark)) := by rw [hq, hb.out, List.append_assoc]
    simp only [Src.ask, hb.io.stdin]
    cases hf : fgets 128 c.stdin with
    | none =>
      exact ⟨hb.stored, hb.named, hb.small, hb.grows, hb.tidy, hb.kinds, hb.store, hb.calls, hb.loops, hb.begun, hb.one, hb.col, hb.width, ho, hb.traceBasic, hb.traceFor, hb.deep,
        ⟨hb.io.data, rfl, hb.io.line, hb.io.mark⟩⟩
    | some y =>
      exact ⟨hb.stored, hb.named, hb.small, hb.grows, hb.tidy, hb.kinds, hb.store, hb.calls, hb.loops, hb.begun, hb.one, hb.col, hb.width, ho, hb.traceBasic, hb.traceFor, hb.deep,
        ⟨hb.io.data, rfl, rfl, hb.io.mark⟩⟩
  · show vm.cs.sourceLine = _
    rw [h.line]
    simp only [Src.ask]
    split <;> rfl

theorem ask_place (prompt : Option CStr) (c : Src.Config) : (Src.ask prompt c).place = c.place ∧ (Src.ask prompt c).strs = c.strs := by
  simp only [Src.ask]
  split <;> exact ⟨rfl, rfl⟩

/-- One variable gets its field, or the line is refused. -/
theorem field_midst (hI : I.Ok) (h : Midst I c vm) {v : Src.Var} {i : Inst} {rest : List Inst} (hv : VarCode I.st v i) (hk : I.code.drop vm.cs.pc = i :: rest) {p : Nat}
    (hp : vm.inp = p) (hle : p ≤ vm.input.length) :
    (∀ c', Src.store c v ((vm.input.drop p).takeWhile Src.inField) = some c' → ∃ vm', V.execute env vm = .ok () vm' ∧ Midst I c' vm' ∧ c'.place = c.place ∧ vm'.stack = vm.stack ∧ vm'.strstack = vm.strstack ∧
      vm'.inp = (p + (upToComma (vm.input.drop p)).length : Nat) ∧ vm'.input = vm.input ∧ vm'.inputPc = vm.inputPc ∧ vm'.cs = following vm.cs) ∧
    (Src.store c v ((vm.input.drop p).takeWhile Src.inField) = none → V.execute env vm = .ok () { vm with
      world := { vm.world with out := vm.world.out ++ "* Invalid input *\n".toList }, cs := { vm.cs with pc := vm.inputPc } }) := by
  have hrest := inputRest_at hp hle
  have hat := h.base.at_inst hI h.code hk
  have hu : (vm.input.drop p).takeWhile Src.inField = upToComma (vm.input.drop p) := by rw [inField_eq]; rfl
  rw [hu]
  cases hv with
  | @num w id hv =>
    have hnum := fun x => textNumber_numeric (upToComma (vm.input.drop p)) x
    obtain ⟨s, m1, m2, m3, m4⟩ := h.base.var hv
    simp only [Src.store]
    cases hn : textNumber (upToComma (vm.input.drop p)) with
    | none =>
      refine ⟨fun c' hc => (by cases hc), fun _ => (C33_input env vm id p hat ⟨s, m1, m3, m4⟩ hp hle).2 fun x hx => ?_⟩
      have := (hnum x).2 hx
      rw [hn] at this; cases this
    | some x =>
      refine ⟨fun c' hc => ?_, fun hc => (by cases hc)⟩
      cases hc
      obtain ⟨t, hc, he⟩ := (convert_input _ _).1 ((hnum x).1 hn)
      have hlen : t.length + (upToComma (vm.input.drop p)).length = vm.input.length - p := by
        have h1 := congrArg List.length (upToComma_eq (vm.input.drop p))
        rw [← convert_input_rest hc he] at h1
        simp only [List.length_drop, List.length_append] at h1
        omega
      refine ⟨{ vm with inp := (p + (upToComma (vm.input.drop p)).length : Nat), st := symUpdate vm.st id (fun s => { s with num := x, defined := true }), cs := following vm.cs }, ?_,
        ⟨(h.base.assignNum hv x).move (p := c.place), h.code, h.line, h.going⟩, rfl, rfl, rfl, rfl, rfl, rfl, rfl⟩
      rw [V.execute_at env hat]
      simp only [V.exec, V.inputNum, V.bind_apply, hrest, hc, he, if_true, V.sym_ok m1, h.base.setNum hv x, V.modify_apply, V.pure_apply]
      congr 2
      omega
  | @str w id hv =>
    refine ⟨fun c' hc => ?_, fun hc => (by cases hc)⟩
    cases hc
    have hb : Standing I c { vm with inp := vm.inp + (upToComma (vm.input.drop p)).length } := h.base.move (p := c.place)
    refine ⟨{ vm with inp := (p + (upToComma (vm.input.drop p)).length : Nat), st := symUpdate vm.st id (fun s => { s with str := some (upToComma (vm.input.drop p)), defined := true }), cs := following vm.cs }, ?_,
      ⟨(h.base.assignStr hv _).move (p := c.place), h.code, h.line, h.going⟩, rfl, rfl, rfl, rfl, rfl, rfl, rfl⟩
    rw [V.execute_at env hat]
    simp only [V.exec, V.brk_apply, V.inputStr, V.bind_apply, hrest, V.advance, V.modify_apply]
    rw [show (vm.input.drop p).takeWhile V.inStrItem = upToComma (vm.input.drop p) from rfl]
    obtain ⟨s, m1, m2, m3, m4⟩ := hb.var hv
    rw [V.sym_ok m1]
    simp only [hb.setStr hv]
    rw [hp]
    rfl

/-- The statement is performed again. -/
theorem again_mimics (h : Midst I c vm) (h1 : vm.stack = []) (h2 : vm.strstack = []) {q : Src.Place} (ha : Asks I c.place vm.inputPc) {m : CStr}
    (hx : V.execute env vm = .ok () { vm with world := { vm.world with out := vm.world.out ++ m }, cs := { vm.cs with pc := vm.inputPc } }) :
    Mimics env I q vm (.go { c with out := c.out ++ m }) := by
  have hb := h.base
  refine Mimics.went h.going hx ⟨⟨hb.stored, hb.named, hb.small, hb.grows, hb.tidy, hb.kinds, hb.store, hb.calls, hb.loops, hb.begun, hb.one, hb.col, hb.width, ?_, hb.traceBasic, hb.traceFor, hb.deep,
    ⟨hb.io.data, hb.io.stdin, hb.io.line, hb.io.mark⟩⟩, h1, h2, .inr ⟨h.code, h.line, ha⟩, h.going⟩
  simp only [hb.out, List.append_assoc]

theorem field_ends (s : CStr) : ∀ c r, s.dropWhile Src.inField = c :: r → c = ',' ∨ c = '\n' := by
  intro c r h
  have := List.head?_dropWhile_not Src.inField s
  rw [h] at this
  simp only [List.head?_cons, Src.inField] at this
  by_cases h1 : c = ','
  · exact .inl h1
  · by_cases h2 : c = '\n'
    · exact .inr h2
    · simp [h1, h2] at this

/-- A variable or an element gets its field. -/
theorem give_mimics (hI : I.Ok) (h : Midst I c vm) (h1 : vm.stack = []) (h2 : vm.strstack = []) {v : Src.Slot} {cd rest : List Inst} (hc : SlotCode I.st v cd) (hfit : v.Fits I.prog.room)
    (hk : I.code.drop vm.cs.pc = cd ++ rest) {p : Nat} (hp : vm.inp = p) (hle : p ≤ vm.input.length) (ha : Asks I c.place vm.inputPc) {q : Src.Place} {k : Src.Config → Src.Next}
    (hcont : ∀ c' vm', Midst I c' vm' → c'.place = c.place → vm'.stack = [] → vm'.strstack = [] → vm'.inp = (p + (upToComma (vm.input.drop p)).length : Nat) → vm'.input = vm.input →
      vm'.inputPc = vm.inputPc → I.code.drop vm'.cs.pc = rest → Mimics env I q vm' (k c')) :
    Mimics env I q vm (Src.give env c ((vm.input.drop p).takeWhile Src.inField) v k) := by
  cases hc with
  | @var v i hv =>
    obtain ⟨k1, k2⟩ := field_midst (env := env) hI h hv hk hp hle
    simp only [Src.give]
    cases hs : Src.store c v ((vm.input.drop p).takeWhile Src.inField) with
    | none => exact again_mimics h h1 h2 ha (k2 hs)
    | some c' =>
      obtain ⟨vm', m1, m2, m3, m4, m5, m6, m7, m8, m9⟩ := k1 c' hs
      exact Mimics.after (.one h.going m1) (hcont c' vm' m2 m3 (m4.trans h1) (m5.trans h2) m6 m7 m8 (by rw [m9]; exact drop_next hk))
  | @elem t w is cd id hi hv hn1 hn2 hty =>
    rw [List.append_assoc] at hk
    simp only [Src.give]
    refine Midst.valuesInput hI hi h (by rw [h1]; exact hfit) h2 hk (by simp) fun xs s1 vm1 h' hk' hst hst' hlen hin => ?_
    rw [h1] at hst
    have hne : is.length ≠ 0 := by omega
    have hx := V.execute_at env (h'.base.at_inst hI h'.code hk')
    obtain ⟨s, ha⟩ := h'.base.array hv
    have hline : vm1.input = vm.input := h'.base.io.line.trans h.base.io.line.symm
    have hp' : vm1.inp = p := hin.1.trans hp
    have hrest := inputRest_at hp' (by rw [hline]; exact hle)
    rw [hline] at hrest
    have hu : (vm.input.drop p).takeWhile Src.inField = upToComma (vm.input.drop p) := by rw [inField_eq]; rfl
    rw [hu]
    cases t with
    | err => exact absurd rfl hty
    | num =>
      have hE : inputInst .num id is.length = .inputNum id is.length := rfl
      simp only [Src.reading]
      cases hn : textNumber (upToComma (vm.input.drop p)) with
      | none => trivial
      | some x =>
        obtain ⟨t, hc, he⟩ := (convert_input _ _).1 ((textNumber_numeric _ x).1 hn)
        have hlen' : t.length + (upToComma (vm.input.drop p)).length = vm.input.length - p := by
          have h1 := congrArg List.length (upToComma_eq (vm.input.drop p))
          rw [← convert_input_rest hc he] at h1
          simp only [List.length_drop, List.length_append] at h1
          omega
        refine (affects_setNum ha (xs := xs) (rest := []) hst hlen hn1 hn2 x).leads (k := (p + (upToComma (vm.input.drop p)).length : Nat)) ha h' h'.going hst' (fun st' hb => ?_) (fun e b hb => ?_)
          fun s2 b m1 m2 m3 m4 m5 m6 m7 => hcont _ b m1 rfl m2 m3 m4 (m5.trans hline) (m6.trans hin.2) (by rw [m7]; exact drop_next hk')
        · rw [hx, hE]
          simp only [V.exec, V.inputNum, V.bind_apply, hrest, hc, he, if_true, V.sym_ok ha.at_, V.setNumeric, if_neg hne, hb, V.modify_apply, V.pure_apply, hline]
          congr 2
          omega
        · refine ⟨b.inp, ?_⟩
          rw [hx, hE]
          simp only [V.exec, V.inputNum, V.bind_apply, hrest, hc, he, if_true, V.sym_ok ha.at_, V.setNumeric, if_neg hne, hb]
    | str =>
      have hE : inputInst .str id is.length = .inputStr id is.length := rfl
      simp only [Src.reading]
      have hm : Midst I { c with toStore := s1 } { vm1 with inp := vm1.inp + (upToComma (vm.input.drop p)).length } := ⟨h'.base.move (p := c.place), h'.code, h'.line, h'.going⟩
      have ha' : HasArray { vm1 with inp := vm1.inp + (upToComma (vm.input.drop p)).length } .str w id s := ⟨ha.names, ha.at_, ha.name, ha.kind, ha.type⟩
      refine (affects_setStr ha' (xs := xs) (rest := []) hst hlen hn1 hn2 _).leads (k := (p + (upToComma (vm.input.drop p)).length : Nat)) ha' hm h'.going hst' (fun st' hb => ?_) (fun e b hb => ?_)
          fun s2 b m1 m2 m3 m4 m5 m6 m7 => hcont _ b m1 rfl m2 m3 m4 (m5.trans hline) (m6.trans hin.2) (by rw [m7]; exact drop_next hk')
      · rw [hx, hE]
        simp only [V.exec, V.brk_apply, V.inputStr, V.bind_apply, hrest, V.advance, V.modify_apply]
        rw [show (vm.input.drop p).takeWhile V.inStrItem = upToComma (vm.input.drop p) from rfl, V.sym_ok (vm := { vm1 with inp := vm1.inp + (upToComma (vm.input.drop p)).length }) ha.at_]
        simp only [V.setString, if_neg hne, hb]
        rw [hp']
        rfl
      · refine ⟨b.inp, ?_⟩
        rw [hx, hE]
        simp only [V.exec, V.brk_apply, V.inputStr, V.bind_apply, hrest, V.advance, V.modify_apply]
        rw [show (vm.input.drop p).takeWhile V.inStrItem = upToComma (vm.input.drop p) from rfl, V.sym_ok (vm := { vm1 with inp := vm1.inp + (upToComma (vm.input.drop p)).length }) ha.at_]
        simp only [V.setString, if_neg hne, hb]

theorem fill_mimics (hI : I.Ok) {p0 : Src.Place} (ht : Tail I p0 ss tail) {q : Src.Place} {vs : List Src.Slot} {cd : List Inst} (hc : InputCode I.st vs cd) :
    ∀ {c : Src.Config} {vm : VM} {p : Nat}, (∀ v ∈ vs, v.Fits I.prog.room) → c.place = p0 → Midst I c vm → vm.stack = [] → vm.strstack = [] → Asks I p0 vm.inputPc → vm.inp = p → p ≤ vm.input.length →
      I.code.drop vm.cs.pc = cd ++ tail → Mimics env I q vm (Src.fill env (Src.after ss p0) vs (vm.input.drop p) c) := by
  induction hc with
  | @one v cd hv =>
    intro c vm p hfit hp0 h h1 h2 ha hp hle hk
    rw [List.append_assoc] at hk
    simp only [Src.fill]
    refine give_mimics hI h h1 h2 hv (hfit _ (List.mem_singleton.2 rfl)) hk hp hle (by rw [hp0]; exact ha) fun c' vm' m2 m3 m4 m5 m6 m7 m8 hk' => ?_
    have hle' : p + (upToComma (vm.input.drop p)).length ≤ vm'.input.length := by rw [m7]; exact field_le hle
    obtain ⟨q', hx⟩ := end_step env (m2.base.at_inst hI m2.code hk') m6 hle'
    rw [m7, drop_field, ← inField_eq, extra_eq] at hx
    simp only [Src.filled]
    have hb := m2.base
    refine Mimics.went m2.going hx (ht.done (p := p0) ?_ rfl m4 m5 m2.code (by rw [← hp0, ← m3]; exact m2.line) m2.going (drop_next hk'))
    refine ⟨hb.stored, hb.named, hb.small, hb.grows, hb.tidy, hb.kinds, hb.store, hb.calls, hb.loops, hb.begun, hb.one, hb.col, hb.width, ?_, hb.traceBasic, hb.traceFor, hb.deep,
      ⟨hb.io.data, hb.io.stdin, m7.symm.trans hb.io.line, hb.io.mark⟩⟩
    simp only [hb.out, List.append_assoc]
  | @more v cv vs cd hv hvs ih =>
    intro c vm p hfit hp0 h h1 h2 ha hp hle hk
    rw [List.append_assoc] at hk
    obtain ⟨v', vs', rfl⟩ : ∃ v' vs', vs = v' :: vs' := by cases hvs <;> exact ⟨_, _, rfl⟩
    rw [Src.fill]
    refine give_mimics hI h h1 h2 hv (hfit _ (List.mem_cons_self ..)) hk hp hle (by rw [hp0]; exact ha) fun c' vm' m2 m3 m4 m5 m6 m7 m8 hk' => ?_
    have hle' : p + (upToComma (vm.input.drop p)).length ≤ vm'.input.length := by rw [m7]; exact field_le hle
    have hd : vm'.input.drop (p + (upToComma (vm.input.drop p)).length) = (vm.input.drop p).dropWhile Src.inField := by rw [m7, drop_field, inField_eq]
    obtain ⟨e1, e2⟩ := sep_step env (m2.base.at_inst hI m2.code hk') m6 hle' hd (field_ends _)
    have hno : (∀ r, (vm.input.drop p).dropWhile Src.inField ≠ ',' :: r) → Mimics env I q vm' (Src.complain "* More input items are expected *\n" c') := fun hn =>
      again_mimics m2 m4 m5 (by rw [m3, hp0, m8]; exact ha) (e2 hn)
    cases hw : (vm.input.drop p).dropWhile Src.inField with
    | nil => exact hno (fun r hr => by rw [hw] at hr; cases hr)
    | cons a r =>
      by_cases hac : a = ','
      · subst hac
        have hx := e1 r hw
        have hd2 : vm'.input.drop (p + (upToComma (vm.input.drop p)).length + 1) = r := drop_next (hd.trans hw)
        have hlt : p + (upToComma (vm.input.drop p)).length + 1 ≤ vm'.input.length := by
          have := congrArg List.length (hd.trans hw)
          simp only [List.length_drop, List.length_cons] at this
          omega
        have := ih (c := c') (vm := { vm' with inp := ((p + (upToComma (vm.input.drop p)).length + 1 : Nat) : Int), cs := following vm'.cs }) (p := p + (upToComma (vm.input.drop p)).length + 1)
          (fun v hv => hfit v (List.mem_cons_of_mem _ hv)) (m3.trans hp0)
          ⟨m2.base.move (p := c'.place), m2.code, m2.line, m2.going⟩ m4 m5 (by rw [← m8] at ha; exact ha) rfl hlt (drop_next hk')
        rw [show ({ vm' with inp := ((p + (upToComma (vm.input.drop p)).length + 1 : Nat) : Int), cs := following vm'.cs } : VM).input = vm'.input from rfl, hd2] at this
        exact Mimics.after (.one m2.going hx) this
      · have := hno (fun r hr => by rw [hw] at hr; cases hr; exact hac rfl)
        split
        · rename_i heq; cases heq
        · rename_i heq; exact absurd (List.cons.inj heq).1 hac
        · exact this

theorem input_mimics (hI : I.Ok) (h : Midst I c vm) (h1 : vm.stack = []) (h2 : vm.strstack = []) (ht : Tail I c.place ss tail) {q : Src.Place} {prompt : Option CStr} {vs : List Src.Slot}
    {cd : List Inst} (hs : ss[c.place.2]? = some (.input prompt vs)) (hc : InputCode I.st vs cd) (hfit : ∀ v ∈ vs, v.Fits I.prog.room) (hk : I.code.drop vm.cs.pc = .inputBuf prompt :: (cd ++ tail)) :
    Mimics env I q vm (Src.perform env I.prog ss c (.input prompt vs)) := by
  obtain ⟨vm', m1, m2, m3, m4, m5, m6, m7⟩ := buf_midst (env := env) h hI hk
  simp only [Src.perform]
  have := fill_mimics (env := env) hI ht (q := q) hc (c := Src.ask prompt c) (vm := vm') (p := 0) hfit (ask_place prompt c).1 m2 (m3.trans h1) (m4.trans h2)
    ⟨ss, tail, prompt, vs, cd, ht, hs, hc, by rw [m6]; exact hk⟩ m5 (Nat.zero_le _) (by rw [m7]; exact drop_next hk)
  rw [List.drop_zero, m2.base.io.line] at this
  exact Mimics.after (.one h.going m1) this

theorem lineInputElem_mimics (hI : I.Ok) (h : Midst I c vm) (h1 : vm.stack = []) (h2 : vm.strstack = []) (ht : Tail I c.place ss tail) {q : Src.Place} {prompt : Option CStr} {w : CStr}
    {is : List (Expr .num)} {cd : List Inst} {id : Nat} (hi : SubsCode I.st is cd) (hv : Arrayed I.st w .str id) (hn1 : 1 ≤ is.length) (hn2 : is.length ≤ 2)
    (hfit : Src.FitsAll I.prog.room 0 is) (hk : I.code.drop vm.cs.pc = .inputBuf prompt :: (cd ++ .inputLine id is.length :: tail)) :
    Mimics env I q vm (Src.perform env I.prog ss c (.lineInputElem prompt w is)) := by
  obtain ⟨vm', m1, m2, m3, m4, m5, m6, m7⟩ := buf_midst (env := env) h hI hk
  have hp := ask_place prompt c
  have htw : (fun ch : Char => decide (ch ≠ '\n')) = (fun ch => ch != '\n') := by funext ch; by_cases h : ch = '\n' <;> simp [h]
  have hfn : c.fns = (Src.ask prompt c).fns := by simp only [Src.ask]; split <;> rfl
  simp only [Src.perform, htw]
  rw [hfn]
  refine Mimics.after (.one h.going m1) ?_
  refine Midst.values hI hi m2 (by rw [m3, h1]; exact hfit) (m4.trans h2) (by rw [m7]; exact drop_next hk) (by simp) fun xs s1 vm1 h' hk' hst hst' hlen => ?_
  rw [m3, h1] at hst
  have hne : is.length ≠ 0 := by omega
  have hb := h'.base
  have hx := V.execute_at env (hb.at_inst hI h'.code hk')
  obtain ⟨s, ha⟩ := hb.array hv
  have hline : vm1.input = (Src.ask prompt c).line := hb.io.line
  have ha' : HasArray { vm1 with input := vm1.input.takeWhile (fun ch => ch != '\n') } .str w id s := ⟨ha.names, ha.at_, ha.name, ha.kind, ha.type⟩
  have hb' : Standing I { Src.ask prompt c with toStore := s1, line := (Src.ask prompt c).line.takeWhile (fun ch => ch != '\n') } { vm1 with input := vm1.input.takeWhile (fun ch => ch != '\n') } :=
    ⟨hb.stored, hb.named, hb.small, hb.grows, hb.tidy, hb.kinds, hb.store, hb.calls, hb.loops, hb.begun, hb.one, hb.col, hb.width, hb.out, hb.traceBasic, hb.traceFor, hb.deep,
      ⟨hb.io.data, hb.io.stdin, congrArg (List.takeWhile _) hb.io.line, hb.io.mark⟩⟩
  refine (affects_setStr ha' (xs := xs) (rest := []) hst hlen hn1 hn2 ((Src.ask prompt c).line.takeWhile (fun ch => ch != '\n'))).mimics (p := c.place) ha' hb' h'.going h'.going h'.code (by rw [← hp.1]; exact h'.line) hst' (fun b hb => ?_) (fun e b hb => ?_) ht
    (drop_next hk') ⟨rfl, rfl, rfl, rfl⟩ (fun _ => by rw [hp.1])
  · rw [hx]
    simp only [V.exec, V.brk_apply, V.inputLine, V.bind_apply, V.modify_apply, V.get_apply]
    rw [V.sym_ok (vm := { vm1 with input := vm1.input.takeWhile (fun ch => ch != '\n') }) ha.at_]
    simp only [V.setString, if_neg hne]
    rw [hline] at hb ⊢
    rw [hb]
  · rw [hx]
    simp only [V.exec, V.brk_apply, V.inputLine, V.bind_apply, V.modify_apply, V.get_apply]
    rw [V.sym_ok (vm := { vm1 with input := vm1.input.takeWhile (fun ch => ch != '\n') }) ha.at_]
    simp only [V.setString, if_neg hne]
    rw [hline] at hb ⊢
    rw [hb]

theorem lineInput_mimics (hI : I.Ok) (h : Midst I c vm) (h1 : vm.stack = []) (h2 : vm.strstack = []) (ht : Tail I c.place ss tail) {q : Src.Place} {prompt : Option CStr} {w : CStr} {id : Nat}
    (hv : Numbered I.st w .str id) (hk : I.code.drop vm.cs.pc = .inputBuf prompt :: .inputLine id 0 :: tail) :
    Mimics env I q vm (Src.perform env I.prog ss c (.lineInput prompt w)) := by
  obtain ⟨vm', m1, m2, m3, m4, m5, m6, m7⟩ := buf_midst (env := env) h hI hk
  have hk' : I.code.drop vm'.cs.pc = .inputLine id 0 :: tail := by rw [m7]; exact drop_next hk
  have hb := m2.base
  have hp := ask_place prompt c
  have htw : (fun ch : Char => decide (ch ≠ '\n')) = (fun ch => ch != '\n') := by funext ch; by_cases h : ch = '\n' <;> simp [h]
  have hb' : Standing I { Src.ask prompt c with line := (Src.ask prompt c).line.takeWhile (fun ch => ch != '\n') } { vm' with input := vm'.input.takeWhile (fun ch => ch != '\n') } :=
    ⟨hb.stored, hb.named, hb.small, hb.grows, hb.tidy, hb.kinds, hb.store, hb.calls, hb.loops, hb.begun, hb.one, hb.col, hb.width, hb.out, hb.traceBasic, hb.traceFor, hb.deep,
      ⟨hb.io.data, hb.io.stdin, congrArg (List.takeWhile _) hb.io.line, hb.io.mark⟩⟩
  obtain ⟨s, n1, n2, n3, n4⟩ := hb'.var hv
  simp only [Src.perform, htw]
  rw [← hp.2]
  refine Mimics.after (.one h.going m1) (Mimics.went m2.going (b := { vm' with
      input := vm'.input.takeWhile (fun ch => ch != '\n'), st := symUpdate vm'.st id (fun s => { s with str := some (vm'.input.takeWhile (fun ch => ch != '\n')), defined := true }), cs := following vm'.cs }) ?_
    (ht.done ?_ rfl (m3.trans h1) (m4.trans h2) m2.code (by rw [← hp.1]; exact m2.line) m2.going (drop_next hk')))
  · rw [V.execute_at env (hb.at_inst hI m2.code hk')]
    simp only [V.exec, V.brk_apply, V.inputLine, V.bind_apply, V.modify_apply, V.get_apply, V.sym_ok n1, hb'.setStr hv]
  · rw [hb.io.line]
    have := (hb'.assignStr hv ((Src.ask prompt c).line.takeWhile (fun ch => ch != '\n'))).move (p := Src.after ss c.place)
      (vm' := { vm' with input := (Src.ask prompt c).line.takeWhile (fun ch => ch != '\n'), st := symUpdate vm'.st id (fun s => { s with str := some ((Src.ask prompt c).line.takeWhile (fun ch => ch != '\n')), defined := true }), cs := following vm'.cs })
      (h11 := (congrArg (List.takeWhile _) hb.io.line).symm)
    exact this

end
end LB
