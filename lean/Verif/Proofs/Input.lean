import Verif.Proofs.Load
import Verif.Spec.Input
import Verif.Props.Numbers
/- Lemmas about INPUT. -/
namespace LB
open LB.Spec

theorem fields_comma {s r : CStr} (h : s.dropWhile (fun c => c != '\n' && c != ',') = ',' :: r) :
    fields s = upToComma s :: fields r := by
  induction s with
  | nil => cases h
  | cons c s ih =>
    rw [fields]
    simp only [List.dropWhile_cons] at h
    by_cases h1 : c = '\n'
    · subst h1; cases h
    by_cases h2 : c = ','
    · subst h2; cases h; simp [upToComma]
    have hc : (c != '\n' && c != ',') = true := by simp [h1, h2]
    rw [if_pos hc] at h
    simp only [h1, h2, if_false, upToComma, List.takeWhile_cons, hc, if_true, ih h]

theorem fields_end {s : CStr} (h : ∀ r, s.dropWhile (fun c => c != '\n' && c != ',') ≠ ',' :: r) :
    fields s = [upToComma s] := by
  induction s with
  | nil => rfl
  | cons c s ih =>
    rw [fields]
    simp only [List.dropWhile_cons] at h
    by_cases h1 : c = '\n'
    · subst h1; rfl
    by_cases h2 : c = ','
    · subst h2; exact absurd rfl (h s)
    have hc : (c != '\n' && c != ',') = true := by simp [h1, h2]
    rw [if_pos hc] at h
    simp only [h1, h2, if_false, upToComma, List.takeWhile_cons, hc, if_true, ih h]

theorem itemsCode_ne (i : Item) (more : List Item) : ∃ t, itemsCode i more = i.code :: t := by
  cases more <;> exact ⟨_, rfl⟩

/-- From the code at a position to the machine standing there. -/
theorem at_of_instAt {vm : VM} {i : Inst} (h : instAt vm vm.cs.pc = some i) : At vm i := by
  simp only [instAt, Option.bind_eq_some_iff] at h
  obtain ⟨r, h1, b, h2, h3⟩ := h
  exact ⟨r, b, h1, h2, h3⟩

theorem onlyItems_of_sameBut {i : Item} {is : List Item} {st st' : SymTab} (hi : i ∈ is) (h : SameBut i.id st st') :
    OnlyItems is st st' := ⟨h.1, h.2.1, fun j hj => h.2.2 j (fun e => hj i hi e.symm)⟩

theorem Spec.OnlyItems.trans {is : List Item} {a b c : SymTab} (h : OnlyItems is a b) (h' : OnlyItems is b c) : OnlyItems is a c :=
  ⟨h'.1.trans h.1, h'.2.1.trans h.2.1, fun j hj => (h'.2.2 j hj).trans (h.2.2 j hj)⟩

theorem Spec.OnlyItems.mono {is js : List Item} {a b : SymTab} (h : OnlyItems is a b) (hs : ∀ i ∈ is, i ∈ js) : OnlyItems js a b :=
  ⟨h.1, h.2.1, fun j hj => h.2.2 j (fun i hi => hj i (hs i hi))⟩

theorem Spec.OnlyItems.refl (is : List Item) (a : SymTab) : OnlyItems is a a := ⟨rfl, rfl, fun _ _ => rfl⟩

theorem after_add (env : Env) {m n : Nat} {a b c : VM} (h : after env m a = some b) (h' : after env n b = some c) :
    after env (m + n) a = some c := by
  induction m generalizing a with
  | zero => cases h; simpa using h'
  | succ m ih =>
    rw [Nat.succ_add]
    simp only [after] at h ⊢
    split at h
    · exact ih h
    · cases h

theorem after_one {env : Env} {a b : VM} (h : V.execute env a = .ok () b) : after env 1 a = some b := by
  simp [after, h]

/-- Filling one scalar item: it is assigned its field, or the line is refused. -/
theorem item_step (env : Env) (vm : VM) (i : Item) (p : Nat) (hat : At vm i.code) (hok : i.Ok vm.st) (hp : vm.inp = p)
    (hle : p ≤ vm.input.length) :
    (∃ st1, V.execute env vm = .ok () { vm with
        st := st1, inp := p + (upToComma (vm.input.drop p)).length, cs := following vm.cs } ∧
      SameBut i.id vm.st st1 ∧ (∀ j : Item, j.Ok vm.st → j.Ok st1) ∧
      (∀ is fs st', Filled is fs st1 st' → Filled (i :: is) (upToComma (vm.input.drop p) :: fs) vm.st st') ∧
      (∀ is fs, Accepts (i :: is) (upToComma (vm.input.drop p) :: fs) ↔ Accepts is fs)) ∨
    (V.execute env vm = .ok () { vm with
        world := { vm.world with out := vm.world.out ++ "* Invalid input *\n".toList }, cs := { vm.cs with pc := vm.inputPc } } ∧
      ∀ is fs, ¬ Accepts (i :: is) (upToComma (vm.input.drop p) :: fs)) := by
  have hrest : V.inputRest vm = .ok (vm.input.drop p) vm := by
    simp only [V.inputRest, hp]
    rw [if_neg (by omega)]; rfl
  cases i with
  | num id =>
    obtain ⟨q, hq, hkind, ht⟩ := hok
    have hokf : ∀ x, ∀ j : Item, j.Ok vm.st → j.Ok (symUpdate vm.st id (fun s => { s with defined := true, num := x })) := by
      intro x j hj
      cases j with
      | num k =>
        by_cases hk : k = id
        · subst hk; exact ⟨_, symUpdate_same hq, hkind, ht⟩
        · obtain ⟨s, h1, h2⟩ := hj
          exact ⟨s, by rw [symUpdate_other _ _ _ _ hk]; exact h1, h2⟩
      | str k =>
        by_cases hk : k = id
        · subst hk
          obtain ⟨s, h1, h2, h3, -⟩ := hj
          rw [hq] at h1; cases h1; rw [ht] at h3; cases h3
        · obtain ⟨s, h1, h2⟩ := hj
          exact ⟨s, by rw [symUpdate_other _ _ _ _ hk]; exact h1, h2⟩
    by_cases hx : ∃ x, Numeric (upToComma (vm.input.drop p)) x
    · left
      obtain ⟨x, hx⟩ := hx
      obtain ⟨t, hc, he⟩ := (convert_input _ _).1 hx
      have hlen : t.length + (upToComma (vm.input.drop p)).length = vm.input.length - p := by
        have h1 := congrArg List.length (upToComma_eq (vm.input.drop p))
        rw [← convert_input_rest hc he] at h1
        simp only [List.length_drop, List.length_append] at h1
        omega
      refine ⟨symUpdate vm.st id (fun s => { s with defined := true, num := x }), ?_, symUpdate_sameBut .., hokf x, ?_, ?_⟩
      · rw [V.execute_at env hat]
        simp only [Item.code, V.exec, V.inputNum, V.bind_apply, hrest, hc, he, if_true, V.setNumeric, V.setNumericSimple, V.sym_ok hq,
          V.assert_apply, V.isVar, hkind, ht, beq_self_eq_true, Bool.and_self, V.updSym, V.modify_apply, V.pure_apply]
        congr 2
        omega
      · intro is fs st' h
        exact .num hx (by simp [num, symUpdate_same hq]) (symUpdate_sameBut ..) h
      · intro is fs
        simp only [Accepts, and_iff_right_iff_imp]
        exact fun _ => ⟨x, hx⟩
    · right
      refine ⟨(C33_input env vm id p hat ⟨q, hq, hkind, ht⟩ hp hle).2 (fun x h => hx ⟨x, h⟩), ?_⟩
      intro is fs h
      exact hx h.1
  | str id =>
    left
    obtain ⟨q, hq, hkind, ht, hdef⟩ := hok
    refine ⟨symUpdate vm.st id (fun s => { s with defined := true, str := some (upToComma (vm.input.drop p)) }), ?_,
      symUpdate_sameBut .., ?_, ?_, ?_⟩
    · have hq' : ({ vm with inp := vm.inp + (upToComma (vm.input.drop p)).length } : VM).st.psym[id]? = some q := hq
      rw [V.execute_at env hat]
      simp only [Item.code, V.exec, V.brk_apply, V.inputStr, V.bind_apply, hrest, V.advance, V.modify_apply, V.setString, if_true,
        V.setStringSimple]
      rw [show (vm.input.drop p).takeWhile V.inStrItem = upToComma (vm.input.drop p) from rfl]
      rw [V.sym_ok hq']
      simp only [V.sym_ok hq', V.assert_apply, V.isVar, hkind, ht, beq_self_eq_true, Bool.and_self, if_true, V.when_apply, V.updSym,
        V.modify_apply]
      have hw : ∀ m : VM, (if q.str.isSome = true then (if q.defined = true then (.ok () m : Res Unit)
          else .halt (.assertFail "set_string_simple defined")) else .ok () m) = .ok () m := by
        intro m
        by_cases h : q.str.isSome = true
        · rw [if_pos h, if_pos (hdef h)]
        · rw [if_neg h]
      rw [hw, hp]
    · intro j hj
      cases j with
      | str k =>
        by_cases hk : k = id
        · subst hk; exact ⟨_, symUpdate_same hq, hkind, ht, fun _ => rfl⟩
        · obtain ⟨s, h1, h2⟩ := hj
          exact ⟨s, by rw [symUpdate_other _ _ _ _ hk]; exact h1, h2⟩
      | num k =>
        by_cases hk : k = id
        · subst hk
          obtain ⟨s, h1, h2, h3⟩ := hj
          rw [hq] at h1; cases h1; rw [ht] at h3; cases h3
        · obtain ⟨s, h1, h2⟩ := hj
          exact ⟨s, by rw [symUpdate_other _ _ _ _ hk]; exact h1, h2⟩
    · intro is fs st' h
      exact .str (by simp [str, symUpdate_same hq]) (symUpdate_sameBut ..) h
    · intro is fs; exact Iff.rfl

theorem Spec.InputOnly.trans {is js : List Item} {pc pc' : Nat} {a b c : VM} (h : InputOnly is pc a b) (h' : InputOnly js pc' b c)
    (hs : ∀ i ∈ js, i ∈ is) : InputOnly is pc' a c := by
  refine ⟨h.1.trans (h'.1.mono hs), ?_⟩
  have hb := h.2
  have hc := h'.2
  generalize c.st = c1 at *
  generalize c.input = c2 at *
  generalize c.inp = c3 at *
  generalize c.inputPc = c4 at *
  generalize c.world.out = c5 at *
  generalize c.world.stdin = c6 at *
  rw [hc, hb]

theorem instAt_inputOnly {is : List Item} {pc : Nat} {a b : VM} (h : InputOnly is pc a b) (k : Nat) : instAt b k = instAt a k := by
  have hb := h.2
  generalize b.st = c1 at *
  generalize b.input = c2 at *
  generalize b.inp = c3 at *
  generalize b.inputPc = c4 at *
  generalize b.world.out = c5 at *
  generalize b.world.stdin = c6 at *
  subst hb
  simp only [instAt]
  cases a.cs.code with
  | none => rfl
  | some r => cases r <;> rfl

/-- Nothing follows a newline. -/
def OneLine (s : CStr) : Prop := ∀ a b, s = a ++ '\n' :: b → b = []

/-- What one attempt at reading the items leads to. -/
def Attempt (env : Env) (is : List Item) (fs : List CStr) (done : Nat) (vm : VM) : Prop :=
  (∃ n vm' extra, after env n vm = some vm' ∧ Accepts is fs ∧ Filled is fs vm.st vm'.st ∧ InputOnly is done vm vm' ∧
    vm'.input = vm.input ∧ vm'.inputPc = vm.inputPc ∧ vm'.world.stdin = vm.world.stdin ∧ (∀ j : Item, j.Ok vm.st → j.Ok vm'.st) ∧
    vm'.world.out = vm.world.out ++ extra ∧ (extra = [] ∨ extra = "* Extra input was discarded *\n".toList) ∧
    (is.length < fs.length → extra ≠ []) ∧ (OneLine vm.input → fs.length ≤ is.length → extra = [])) ∨
  (∃ n vm' msg, after env n vm = some vm' ∧ ¬ Accepts is fs ∧ InputOnly is vm.inputPc vm vm' ∧
    vm'.input = vm.input ∧ vm'.inputPc = vm.inputPc ∧ vm'.world.stdin = vm.world.stdin ∧ (∀ j : Item, j.Ok vm.st → j.Ok vm'.st) ∧
    vm'.world.out = vm.world.out ++ msg ∧ complaint msg)

theorem fields_head (s : CStr) : ∃ fs, fields s = upToComma s :: fs := by
  by_cases h : ∃ r, s.dropWhile (fun c => c != '\n' && c != ',') = ',' :: r
  · obtain ⟨r, h⟩ := h; exact ⟨_, fields_comma h⟩
  · exact ⟨_, fields_end (fun r hr => h ⟨r, hr⟩)⟩

theorem field_le {s : CStr} {p : Nat} (hle : p ≤ s.length) : p + (upToComma (s.drop p)).length ≤ s.length := by
  have h1 := congrArg List.length (upToComma_eq (s.drop p))
  simp only [List.length_drop, List.length_append] at h1
  omega

theorem drop_field (s : CStr) (p : Nat) :
    s.drop (p + (upToComma (s.drop p)).length) = (s.drop p).dropWhile (fun c => c != '\n' && c != ',') := by
  have h1 := upToComma_eq (s.drop p)
  rw [← List.drop_drop]
  conv => lhs; rw [h1]
  rw [List.drop_append]
  simp only [← h1]
  simp

theorem inputRest_at {vm : VM} {p : Nat} (hp : vm.inp = p) (hle : p ≤ vm.input.length) :
    V.inputRest vm = .ok (vm.input.drop p) vm := by
  simp only [V.inputRest, hp]
  rw [if_neg (by omega)]; rfl

theorem inputOnly_item {i : Item} {is : List Item} {vm : VM} {st1 : SymTab} (p : Int) (hi : i ∈ is) (h : SameBut i.id vm.st st1) :
    InputOnly is (vm.cs.pc + 1) vm { vm with st := st1, inp := p, cs := following vm.cs } :=
  ⟨onlyItems_of_sameBut hi h, rfl⟩

theorem sep_step (env : Env) {vm : VM} {p : Nat} {s : CStr} (hat : At vm .inputSep) (hp : vm.inp = p) (hle : p ≤ vm.input.length)
    (hd : vm.input.drop p = s) (hs : ∀ c r, s = c :: r → c = ',' ∨ c = '\n') :
    (∀ r, s = ',' :: r → V.execute env vm = .ok () { vm with inp := ((p + 1 : Nat) : Int), cs := following vm.cs }) ∧
    ((∀ r, s ≠ ',' :: r) → V.execute env vm = .ok () { vm with
            world := { vm.world with out := vm.world.out ++ "* More input items are expected *\n".toList },
            cs := { vm.cs with pc := vm.inputPc } }) := by
  have hr := inputRest_at hp hle
  rw [hd] at hr
  have hblank : s.takeWhile V.isSpTab = [] ∧ s.dropWhile V.isSpTab = s := by
    cases s with
    | nil => exact ⟨rfl, rfl⟩
    | cons c r => rcases hs c r rfl with rfl | rfl <;> exact ⟨rfl, rfl⟩
  rw [V.execute_at env hat]
  simp only [V.exec, V.inputSep, V.bind_apply, hr, hblank.1, hblank.2, V.advance, V.modify_apply]
  constructor
  · rintro r rfl
    simp only [V.brk_apply, V.modify_apply, hp, List.length_nil]
    congr 2
  · intro h
    split
    all_goals
      rename_i heq
      split at heq
      · exact absurd rfl (h _)
      · simp only [V.inputAgain, V.bind_apply, V.out, V.modify_apply, V.pure_apply, List.length_nil] at heq
        cases heq
        try simp

/-- What INPUT says about the text behind the last item. -/
def leftOver (s : CStr) : CStr := if (s.dropWhile V.isEndBlank).isEmpty then [] else "* Extra input was discarded *\n".toList

theorem end_step (env : Env) {vm : VM} {p : Nat} (hat : At vm .inputEnd) (hp : vm.inp = p) (hle : p ≤ vm.input.length) :
    ∃ q, V.execute env vm = .ok () { vm with
          inp := q, cs := following vm.cs,
          world := { vm.world with out := vm.world.out ++ leftOver (vm.input.drop p) } } := by
  have hr := inputRest_at hp hle
  refine ⟨vm.inp + ((vm.input.drop p).takeWhile V.isEndBlank).length, ?_⟩
  rw [V.execute_at env hat]
  simp only [V.exec, V.brk_apply, V.inputEnd, V.bind_apply, hr, V.advance, V.modify_apply, V.when_apply, leftOver]
  by_cases h : ((vm.input.drop p).dropWhile V.isEndBlank).isEmpty = true
  · simp only [h, Bool.not_true, Bool.false_eq_true, if_false, if_true, List.append_nil]
  · simp only [h, Bool.not_false, if_true, V.out, V.modify_apply, Bool.false_eq_true, if_false]

theorem item_step' (env : Env) (vm : VM) (i : Item) (p : Nat) (hat : At vm i.code) (hok : i.Ok vm.st) (hp : vm.inp = p)
    (hle : p ≤ vm.input.length) :
    (∃ vm1, V.execute env vm = .ok () vm1 ∧ InputOnly [i] (vm.cs.pc + 1) vm vm1 ∧ vm1.cs = following vm.cs ∧
      vm1.inp = (p + (upToComma (vm.input.drop p)).length : Nat) ∧ vm1.input = vm.input ∧ vm1.inputPc = vm.inputPc ∧ vm1.world = vm.world ∧
      (∀ j : Item, j.Ok vm.st → j.Ok vm1.st) ∧
      (∀ is fs st', Filled is fs vm1.st st' → Filled (i :: is) (upToComma (vm.input.drop p) :: fs) vm.st st') ∧
      (∀ is fs, Accepts (i :: is) (upToComma (vm.input.drop p) :: fs) ↔ Accepts is fs)) ∨
    (∃ vm1, V.execute env vm = .ok () vm1 ∧ InputOnly [i] vm.inputPc vm vm1 ∧ vm1.input = vm.input ∧ vm1.inputPc = vm.inputPc ∧
      vm1.world.stdin = vm.world.stdin ∧ vm1.world.out = vm.world.out ++ "* Invalid input *\n".toList ∧ vm1.st = vm.st ∧
      ∀ is fs, ¬ Accepts (i :: is) (upToComma (vm.input.drop p) :: fs)) := by
  rcases item_step env vm i p hat hok hp hle with ⟨st1, hx, hsame, hoks, hfill, hacc⟩ | ⟨hx, hacc⟩
  · exact .inl ⟨_, hx, ⟨onlyItems_of_sameBut (List.mem_singleton.2 rfl) hsame, rfl⟩, rfl, by simp, rfl, rfl, rfl, hoks, hfill, hacc⟩
  · exact .inr ⟨_, hx, ⟨OnlyItems.refl .., rfl⟩, rfl, rfl, rfl, rfl, rfl, hacc⟩

theorem items_run (env : Env) (more : List Item) : ∀ (i : Item) (vm : VM) (p : Nat),
    (∀ k c, (itemsCode i more)[k]? = some c → instAt vm (vm.cs.pc + k) = some c) → (∀ j ∈ i :: more, j.Ok vm.st) →
    vm.inp = p → p ≤ vm.input.length →
    Attempt env (i :: more) (fields (vm.input.drop p)) (vm.cs.pc + (itemsCode i more).length) vm := by
  induction more with
  | nil =>
    intro i vm p hcode hok hp hle
    have hat : At vm i.code := at_of_instAt (hcode 0 i.code rfl)
    obtain ⟨fs, hfs⟩ := fields_head (vm.input.drop p)
    rcases item_step' env vm i p hat (hok i (by simp)) hp hle with
      ⟨vm1, hx, hio, hcs, hinp, hin, hpc, hw, hoks, hfill, hacc⟩ | ⟨vm1, hx, hio, hin, hpc, hsi, hout, hst, hacc⟩
    · left
      have hat2 : At vm1 .inputEnd :=
        at_of_instAt (by rw [instAt_inputOnly hio, hcs]; exact hcode 1 .inputEnd rfl)
      obtain ⟨q, hx2⟩ := end_step env hat2 hinp (by rw [hin]; exact field_le hle)
      have hio2 : InputOnly [i] (vm.cs.pc + 2) vm1 { vm1 with
          inp := q, cs := following vm1.cs,
          world := { vm1.world with out := vm1.world.out ++ leftOver (vm1.input.drop (p + (upToComma (vm.input.drop p)).length)) } } := by
        refine ⟨OnlyItems.refl .., ?_⟩
        simp [hcs, following]
      refine ⟨2, _, leftOver (vm1.input.drop (p + (upToComma (vm.input.drop p)).length)),
        after_add env (after_one hx) (after_one hx2), ?_, ?_, hio.trans hio2 (fun _ h => h), hin, hpc, ?_, hoks, ?_, ?_, ?_, ?_⟩
      · rw [hfs]; exact (hacc [] fs).2 trivial
      · rw [hfs]; exact hfill [] fs _ (.nil ..)
      · simp [hw]
      · simp [hw]
      · unfold leftOver
        split
        · exact .inl rfl
        · exact .inr rfl
      · intro hlen
        have : ∃ r, (vm.input.drop p).dropWhile (fun c => c != '\n' && c != ',') = ',' :: r := by
          apply Classical.byContradiction
          intro h
          have := fields_end (s := vm.input.drop p) (fun r hr => h ⟨r, hr⟩)
          rw [this] at hlen; simp at hlen
        obtain ⟨r, hr⟩ := this
        rw [hin, drop_field, hr]
        simp [leftOver, V.isEndBlank]
      · intro hone hlen
        rw [hin, drop_field]
        cases hd : (vm.input.drop p).dropWhile (fun c => c != '\n' && c != ',') with
        | nil => rfl
        | cons c r =>
          rcases after_upToComma hd with rfl | rfl
          · rw [fields_comma hd] at hlen
            obtain ⟨gs, hgs⟩ := fields_head r
            rw [hgs] at hlen
            simp at hlen
          · have hr : r = [] := by
              apply hone (vm.input.take p ++ upToComma (vm.input.drop p)) r
              conv => lhs; rw [← List.take_append_drop p vm.input, upToComma_eq (vm.input.drop p)]
              rw [hd, List.append_assoc]
            subst hr
            rfl
    · right
      refine ⟨1, vm1, _, after_one hx, ?_, hio, hin, hpc, hsi, by rw [hst]; exact fun _ h => h, hout, .inl rfl⟩
      rw [hfs]; exact hacc [] fs
  | cons m ms ih =>
    intro i vm p hcode hok hp hle
    have hat : At vm i.code := at_of_instAt (hcode 0 i.code rfl)
    obtain ⟨fs, hfs⟩ := fields_head (vm.input.drop p)
    rcases item_step' env vm i p hat (hok i (by simp)) hp hle with
      ⟨vm1, hx, hio, hcs, hinp, hin, hpc, hw, hoks, hfill, hacc⟩ | ⟨vm1, hx, hio, hin, hpc, hsi, hout, hst, hacc⟩
    · have hat2 : At vm1 .inputSep :=
        at_of_instAt (by rw [instAt_inputOnly hio, hcs]; exact hcode 1 .inputSep rfl)
      have hsub : ∀ j ∈ [i], j ∈ i :: m :: ms := by simp
      have hio' : InputOnly (i :: m :: ms) (vm.cs.pc + 1) vm vm1 := ⟨hio.1.mono hsub, hio.2⟩
      have hd : vm1.input.drop (p + (upToComma (vm.input.drop p)).length) =
          (vm.input.drop p).dropWhile (fun c => c != '\n' && c != ',') := by rw [hin, drop_field]
      have hsep := sep_step env hat2 hinp (by rw [hin]; exact field_le hle) hd (fun c r h => after_upToComma h)
      by_cases hcomma : ∃ r, (vm.input.drop p).dropWhile (fun c => c != '\n' && c != ',') = ',' :: r
      · obtain ⟨r, hcomma⟩ := hcomma
        have hfc := fields_comma hcomma
        have hx2 := hsep.1 r hcomma
        generalize hq : p + (upToComma (vm.input.drop p)).length = q at *
        have hdr : vm.input.drop (q + 1) = r := by
          rw [← List.drop_drop, ← hin, hd, hcomma]; rfl
        have hlq : q + 1 ≤ vm.input.length := by
          have := congrArg List.length (hd.trans hcomma)
          rw [hin] at this
          simp only [List.length_drop, List.length_cons] at this
          omega
        obtain ⟨vm2, hvm2⟩ : ∃ v, v = ({ vm1 with inp := ((q + 1 : Nat) : Int), cs := following vm1.cs } : VM) := ⟨_, rfl⟩
        rw [← hvm2] at hx2
        have hio2 : InputOnly (i :: m :: ms) (vm.cs.pc + 2) vm1 vm2 := by
          rw [hvm2]; exact ⟨OnlyItems.refl .., by simp [hcs, following]⟩
        have hio3 := hio'.trans hio2 (fun _ h => h)
        have hin2 : vm2.input = vm.input := by rw [hvm2]; exact hin
        have hst2 : vm2.st = vm1.st := by rw [hvm2]
        have hip2 : vm2.inputPc = vm.inputPc := by rw [hvm2]; exact hpc
        have hw2 : vm2.world = vm.world := by rw [hvm2]; exact hw
        have hpc2 : vm2.cs.pc = vm.cs.pc + 2 := by rw [hvm2]; simp [hcs, following]
        have hinp2 : vm2.inp = (q + 1 : Nat) := by rw [hvm2]
        have key := ih m vm2 (q + 1)
          (by
            intro k c hk
            rw [hpc2, instAt_inputOnly hio3, Nat.add_assoc, Nat.add_comm 2 k]
            exact hcode (k + 2) c hk)
          (fun j hj => by rw [hst2]; exact hoks j (hok j (by simp [hj]))) hinp2 (by rw [hin2]; exact hlq)
        have hpc3 : vm.cs.pc + 2 + (itemsCode m ms).length = vm.cs.pc + (itemsCode i (m :: ms)).length := by
          simp only [itemsCode, List.length_cons]; omega
        rw [hin2, hdr, hpc2, hpc3] at key
        have hrun := after_add env (after_one hx) (after_one hx2)
        clear hvm2 hsep hx hx2 hio hio'
        rcases key with ⟨n, vm', extra, k1, k2, k3, k4, k5, k6, k7, k8, k9, k10, k11, k12⟩ | ⟨n, vm', msg, k1, k2, k4, k5, k6, k7, k8, k9, k10⟩
        · left
          refine ⟨_, vm', extra, after_add env hrun k1, ?_, ?_, hio3.trans k4 (fun j h => List.mem_cons_of_mem _ h), k5.trans hin2, k6.trans hip2,
            k7.trans (by rw [hw2]), ?_, k9.trans (by rw [hw2]), k10, ?_, ?_⟩
          · rw [hfc]; exact (hacc _ _).2 k2
          · rw [hfc]; exact hfill _ _ _ (hst2 ▸ k3)
          · intro j hj; exact k8 j (hst2.symm ▸ hoks j hj)
          · intro h; rw [hfc] at h; exact k11 (by simpa using h)
          · intro hone h; rw [hfc] at h; exact k12 (hin2.symm ▸ hone) (by simpa using h)
        · right
          refine ⟨_, vm', msg, after_add env hrun k1, ?_, ?_, k5.trans hin2, k6.trans hip2,
            k7.trans (by rw [hw2]), ?_, k9.trans (by rw [hw2]), k10⟩
          · rw [hfc]; exact fun h => k2 ((hacc _ _).1 h)
          · rw [hip2] at k4; exact hio3.trans k4 (fun j h => List.mem_cons_of_mem _ h)
          · intro j hj; exact k8 j (hst2.symm ▸ hoks j hj)
      · right
        have hfe := fields_end (s := vm.input.drop p) (fun r h => hcomma ⟨r, h⟩)
        have hx2 := hsep.2 (fun r h => hcomma ⟨r, h⟩)
        obtain ⟨vm2, hvm2⟩ : ∃ v, v = ({ vm1 with
            world := { vm1.world with out := vm1.world.out ++ "* More input items are expected *\n".toList },
            cs := { vm1.cs with pc := vm1.inputPc } } : VM) := ⟨_, rfl⟩
        rw [← hvm2] at hx2
        have hio2 : InputOnly (i :: m :: ms) vm.inputPc vm1 vm2 := by
          rw [hvm2]; exact ⟨OnlyItems.refl .., by simp [hpc]⟩
        refine ⟨2, vm2, "* More input items are expected *\n".toList, after_add env (after_one hx) (after_one hx2), ?_,
          hio'.trans hio2 (fun _ h => h), ?_, ?_, ?_, ?_, ?_, .inr rfl⟩
        · rw [hfe, hacc]; cases m <;> exact fun h => h
        · rw [hvm2]; exact hin
        · rw [hvm2]; exact hpc
        · rw [hvm2, hw]
        · rw [hvm2]; exact hoks
        · rw [hvm2, hw]
    · right
      refine ⟨1, vm1, _, after_one hx, ?_, ⟨hio.1.mono (by simp), hio.2⟩, hin, hpc, hsi, by rw [hst]; exact fun _ h => h, hout, .inl rfl⟩
      rw [hfs]; exact hacc _ fs

theorem buf_step (env : Env) {vm : VM} {prompt : Option CStr} (hat : At vm (.inputBuf prompt)) :
    V.execute env vm = .ok () { vm with
      input := (match fgets 128 vm.world.stdin with | some (buf, _) => cstr buf | none => vm.input),
      inp := (0 : Nat), inputPc := vm.cs.pc, cs := following vm.cs,
      world := { vm.world with
        out := vm.world.out ++ question vm prompt,
        stdin := (match fgets 128 vm.world.stdin with | some (_, r) => r | none => vm.world.stdin) } } := by
  rw [V.execute_at env hat]
  simp only [V.exec, V.brk_apply, V.inputBuf, V.bind_apply, V.out, V.modify_apply, V.get_apply, V.when_apply, V.readInputLine,
    inputSize, question]
  cases hi : vm.inputPrompt <;> cases hf : fgets 128 vm.world.stdin <;> simp [hf]

theorem inputOnly_buf {is : List Item} {vm : VM} (inp : CStr) (o si : CStr) :
    InputOnly is (vm.cs.pc + 1) vm { vm with
      input := inp, inp := (0 : Nat), inputPc := vm.cs.pc, cs := following vm.cs, world := { vm.world with out := o, stdin := si } } :=
  ⟨OnlyItems.refl .., rfl⟩

theorem inputAt_only {is : List Item} {vm vm' : VM} {prompt : Option CStr} {i : Item} {more : List Item}
    (h : InputAt vm prompt i more) (hio : InputOnly is vm.cs.pc vm vm') : InputAt vm' prompt i more := by
  have hpc : vm'.cs.pc = vm.cs.pc := by rw [hio.2]
  obtain ⟨hat, hc⟩ := h
  constructor
  · apply at_of_instAt
    rw [instAt_inputOnly hio, hpc]
    obtain ⟨r, b, h1, h2, h3⟩ := hat
    simp only [instAt, h1, h2, h3, Option.bind_some]
  · intro k c hk
    rw [instAt_inputOnly hio, hpc]
    exact hc k c hk

/-- One attempt with the line `line`, after which the input is `rest`. -/
theorem attempt_line (env : Env) (vm : VM) (prompt : Option CStr) (i : Item) (more : List Item) (line rest : CStr)
    (h : InputAt vm prompt i more) (hok : ∀ j ∈ i :: more, j.Ok vm.st)
    (hl : (match fgets 128 vm.world.stdin with | some (buf, _) => cstr buf | none => vm.input) = line)
    (hr : (match fgets 128 vm.world.stdin with | some (_, r) => r | none => vm.world.stdin) = rest) :
    (Accepts (i :: more) (fields line) → ∃ n vm' extra, after env n vm = some vm' ∧
      Filled (i :: more) (fields line) vm.st vm'.st ∧ InputOnly (i :: more) (vm.cs.pc + 1 + (itemsCode i more).length) vm vm' ∧
      vm'.world.stdin = rest ∧ vm'.world.out = vm.world.out ++ question vm prompt ++ extra ∧
      (extra = [] ∨ extra = "* Extra input was discarded *\n".toList) ∧ ((i :: more).length < (fields line).length → extra ≠ []) ∧
      (OneLine line → (fields line).length ≤ (i :: more).length → extra = [])) ∧
    (¬ Accepts (i :: more) (fields line) → ∃ n vm' msg, after env n vm = some vm' ∧ 0 < n ∧
      InputOnly (i :: more) vm.cs.pc vm vm' ∧ InputAt vm' prompt i more ∧ (∀ j ∈ i :: more, j.Ok vm'.st) ∧
      vm'.input = line ∧ vm'.world.stdin = rest ∧ vm'.world.out = vm.world.out ++ question vm prompt ++ msg ∧ complaint msg) := by
  have hx := buf_step env h.1
  rw [hl, hr] at hx
  have hio := inputOnly_buf (is := i :: more) (vm := vm) line (vm.world.out ++ question vm prompt) rest
  obtain ⟨vm1, hvm1⟩ : ∃ v, v = ({ vm with
      input := line, inp := (0 : Nat), inputPc := vm.cs.pc, cs := following vm.cs,
      world := { vm.world with out := vm.world.out ++ question vm prompt, stdin := rest } } : VM) := ⟨_, rfl⟩
  rw [← hvm1] at hx hio
  have hin : vm1.input = line := by rw [hvm1]
  have hipc : vm1.inputPc = vm.cs.pc := by rw [hvm1]
  have hcs : vm1.cs.pc = vm.cs.pc + 1 := by rw [hvm1]; rfl
  have hst : vm1.st = vm.st := by rw [hvm1]
  have hsi : vm1.world.stdin = rest := by rw [hvm1]
  have hout : vm1.world.out = vm.world.out ++ question vm prompt := by rw [hvm1]
  have hp : vm1.inp = (0 : Nat) := by rw [hvm1]
  have key := items_run env more i vm1 0 (fun k c hk => by rw [instAt_inputOnly hio, hcs]; exact h.2 k c hk)
    (by rw [hst]; exact hok) hp (by omega)
  rw [hin, hcs] at key
  simp only [List.drop_zero] at key
  clear hvm1
  rcases key with ⟨n, vm', extra, k1, k2, k3, k4, k5, k6, k7, k8, k9, k10, k11, k12⟩ | ⟨n, vm', msg, k1, k2, k4, k5, k6, k7, k8, k9, k10⟩
  · refine ⟨fun _ => ?_, fun h => absurd k2 h⟩
    exact ⟨_, vm', extra, after_add env (after_one hx) k1, hst ▸ k3, hio.trans k4 (fun _ h => h), k7.trans hsi,
      by rw [k9, hout], k10, k11, hin ▸ k12⟩
  · refine ⟨fun h => absurd h k2, fun _ => ?_⟩
    rw [hipc] at k4
    have hio2 := hio.trans k4 (fun _ h => h)
    exact ⟨_, vm', msg, after_add env (after_one hx) k1, by omega, hio2, inputAt_only h hio2,
      fun j hj => k8 j (hst.symm ▸ hok j hj), k5.trans hin, k7.trans hsi, by rw [k9, hout], k10⟩

theorem oneLine_fgets {k : Nat} {s buf rest : CStr} (h : fgets k s = some (buf, rest)) : OneLine (cstr buf) := by
  have hbuf : OneLine buf := by
    cases s with
    | nil => simp [fgets] at h
    | cons c cs =>
      simp only [fgets, Option.some.injEq] at h
      rcases fgetsGo_spec (k - 1) (c :: cs) with ⟨p, r, h1, -, hp, -⟩ | ⟨p, r, h1, -, hp⟩
      · rw [h1] at h
        cases h
        intro a b hab
        rcases List.append_eq_append_iff.1 hab with ⟨as, h2, h3⟩ | ⟨bs, h2, h3⟩
        · cases as with
          | nil => simp at h3; exact h3
          | cons x xs => simp at h3
        · cases bs with
          | nil => simp at h3; exact h3
          | cons x xs =>
            simp only [List.cons_append, List.cons.injEq] at h3
            rw [h2, ← h3.1] at hp
            simp at hp
      · rw [h1] at h
        cases h
        intro a b hab
        rw [hab] at hp
        simp at hp
  intro a b hab
  obtain ⟨t, ht⟩ : ∃ t, buf = cstr buf ++ t := ⟨buf.dropWhile (fun c => decide (c ≠ '\x00')), (List.takeWhile_append_dropWhile ..).symm⟩
  have := hbuf a (b ++ t) (by rw [ht, hab]; simp)
  simp at this
  exact this.1

end LB
