import Verif.Proofs.Actions
/- Statements with elements of arrays. -/
namespace LB
open LB.Spec _root_.Spec

theorem Arrayed.entry {vm : VM} (hw : WellNamed vm.st) (hl : vm.st.psym.length ≤ 65536) {w : CStr} {t : Ty} {id : Nat} (h : Arrayed vm.st w t id) :
    ∃ s, HasArray vm t w id s := by
  obtain ⟨q, s, h1, h2, h3, h4, h5⟩ := h
  have := symbol_id hw hl h1
  exact ⟨s, hw, by rw [← h5, this]; exact h1, h2, h3, h4⟩

/-- What `x` does with the array. -/
def Affects (id : Nat) (t : Ty) (s : Symbol) (vm : VM) (m : Ev Unit) (x : VmM Unit) (rest : List Dbl) : Prop :=
  (∀ s1, m (storeOf vm) = .ok () s1 → ∃ f, x vm = .ok () { vm with stack := rest, st := symUpdate vm.st id f } ∧ ArrayOnly t f ∧ (f s).defined = true ∧
    (t = .num → (f s).numarr.isSome = true) ∧ (t = .str → (f s).strarr.isSome = true) ∧ storeOf { vm with stack := rest, st := symUpdate vm.st id f } = s1) ∧
  (∀ e s1, m (storeOf vm) = .error e s1 → ∃ r f, x vm = .err e { vm with stack := r, st := symUpdate vm.st id f } ∧ storeOf { vm with stack := r, st := symUpdate vm.st id f } = s1)

theorem affects_setNum {vm : VM} {w : CStr} {id n : Nat} {s : Symbol} {xs rest : List Dbl} (h : HasArray vm .num w id s) (hst : vm.stack = xs.reverse ++ rest) (hn : xs.length = n)
    (h1 : 1 ≤ n) (h2 : n ≤ 2) (y : Dbl) : Affects id .num s vm (setElement .num w xs y) (V.setElement V.numField id n y) rest := by
  obtain ⟨k1, k2⟩ := kin_num.sets (by simp) h hst hn h1 h2 y
  refine ⟨fun s1 hh => ?_, fun e s1 hh => ?_⟩
  · obtain ⟨f, m1, m2, m3, m4, m5⟩ := k1 s1 hh
    exact ⟨f, m1, m2, m3, fun _ => m4, fun h => (by cases h), m5⟩
  · obtain ⟨r, f, m1, _, m2⟩ := k2 e s1 hh
    exact ⟨r, f, m1, m2⟩

theorem affects_setStr {vm : VM} {w : CStr} {id n : Nat} {s : Symbol} {xs rest : List Dbl} (h : HasArray vm .str w id s) (hst : vm.stack = xs.reverse ++ rest) (hn : xs.length = n)
    (h1 : 1 ≤ n) (h2 : n ≤ 2) (y : CStr) : Affects id .str s vm (setElement .str w xs y) (V.setElement V.strField id n (some y)) rest := by
  obtain ⟨k1, k2⟩ := kin_str.sets (by simp) h hst hn h1 h2 (some y)
  refine ⟨fun s1 hh => ?_, fun e s1 hh => ?_⟩
  · obtain ⟨f, m1, m2, m3, m4, m5⟩ := k1 s1 hh
    exact ⟨f, m1, m2, m3, fun h => (by cases h), fun _ => m4, m5⟩
  · obtain ⟨r, f, m1, _, m2⟩ := k2 e s1 hh
    exact ⟨r, f, m1, m2⟩

theorem affects_dimNum {vm : VM} {w : CStr} {id n : Nat} {s : Symbol} {xs rest : List Dbl} (h : HasArray vm .num w id s) (hy : TidySym s) (hst : vm.stack = xs.reverse ++ rest) (hn : xs.length = n)
    (h1 : 1 ≤ n) (h2 : n ≤ 2) : Affects id .num s vm (redimension .num w xs) (V.dimStatement V.numField id n) rest := by
  have hy := hy.numarr
  simp only [h.kind, h.type, true_and] at hy
  obtain ⟨k1, k2⟩ := kin_num.dims h (fun hh => hy.1 (Option.isSome_iff_ne_none.2 hh)) (fun hh => by
    have hh : s.numarr = none := hh
    rw [hh] at hy
    cases hd : s.defined with
    | false => rfl
    | true => cases hy.2 hd) hst hn h1 h2
  refine ⟨fun s1 hh => ?_, fun e s1 hh => ?_⟩
  · obtain ⟨f, m1, m2, m3, m4, m5⟩ := k1 s1 hh
    exact ⟨f, m1, m2, m3, fun _ => m4, fun h => (by cases h), m5⟩
  · obtain ⟨r, f, m1, _, m2⟩ := k2 e s1 hh
    exact ⟨r, f, m1, m2⟩

theorem affects_dimStr {vm : VM} {w : CStr} {id n : Nat} {s : Symbol} {xs rest : List Dbl} (h : HasArray vm .str w id s) (hy : TidySym s) (hst : vm.stack = xs.reverse ++ rest) (hn : xs.length = n)
    (h1 : 1 ≤ n) (h2 : n ≤ 2) : Affects id .str s vm (redimension .str w xs) (V.dimStatement V.strField id n) rest := by
  have hy := hy.strarr
  simp only [h.kind, h.type, true_and] at hy
  obtain ⟨k1, k2⟩ := kin_str.dims h (fun hh => hy.1 (Option.isSome_iff_ne_none.2 hh)) (fun hh => by
    have hh : s.strarr = none := hh
    rw [hh] at hy
    cases hd : s.defined with
    | false => rfl
    | true => cases hy.2 hd) hst hn h1 h2
  refine ⟨fun s1 hh => ?_, fun e s1 hh => ?_⟩
  · obtain ⟨f, m1, m2, m3, m4, m5⟩ := k1 s1 hh
    exact ⟨f, m1, m2, m3, fun h => (by cases h), fun _ => m4, m5⟩
  · obtain ⟨r, f, m1, _, m2⟩ := k2 e s1 hh
    exact ⟨r, f, m1, m2⟩

section
variable {env : Env} {I : Image} {c : Src.Config} {vm : VM} {ss : List Src.Stmt} {tail : List Inst}

theorem Standing.array (h : Standing I c vm) {w : CStr} {t : Ty} {id : Nat} (hv : Arrayed I.st w t id) : ∃ s, HasArray vm t w id s :=
  (hv.grow h.grows).entry h.named h.small

theorem Standing.affected (h : Standing I c vm) {w : CStr} {t : Ty} {id : Nat} {s : Symbol} (ha : HasArray vm t w id s) {f : Symbol → Symbol} (hf : ArrayOnly t f)
    (hd : (f s).defined = true) (hn : t = .num → (f s).numarr.isSome = true) (hs : t = .str → (f s).strarr.isSome = true) {rest : List Dbl} {s1 : Store}
    (hst : storeOf { vm with stack := rest, st := symUpdate vm.st id f } = s1) :
    Standing I { c with toStore := s1 } { vm with stack := rest, st := symUpdate vm.st id f } := by
  refine ⟨h.stored, h.named.update id _ hf.1, by simpa [symUpdate] using h.small, h.grows.trans (grows_update _ _ _ hf.1), h.tidy.update id ?_,
    h.kinds.update id hf.1 (fun s' hs' => by rw [ha.at_] at hs'; cases hs'; rw [ha.kind]; decide), hst, h.calls, h.loops, fun g hg => ?_, h.one, h.col, h.width, h.out, h.traceBasic, h.traceFor, h.deep, ⟨h.io.data, h.io.stdin, h.io.line, h.io.mark⟩⟩
  · intro s' hs' hy
    rw [ha.at_] at hs'
    cases hs'
    obtain ⟨_, _, hk, hty⟩ := hf.1 s
    obtain ⟨_, g2, _⟩ := hf.2.1 s
    obtain ⟨g4, g5⟩ := hf.2.2 s
    have hk' : (f s).kind = .array := hk.trans ha.kind
    have ht' : (f s).type = t := hty.trans ha.type
    refine ⟨fun hh => ?_, ?_, ?_, fun hh => ?_⟩
    · rw [g2] at hh
      have := (hy.held hh).1
      rw [ha.kind] at this; cases this
    · by_cases he : t = .num
      · simp [hn he, hk', ht', hd, he]
      · rw [g4 he, hy.numarr, ha.type, ht']
        simp [he]
    · by_cases he : t = .str
      · simp [hs he, hk', ht', hd, he]
      · rw [g5 he, hy.strarr, ha.type, ht']
        simp [he]
    · rw [hk'] at hh; cases hh
  · obtain ⟨s', h1, h2⟩ := h.begun g hg
    by_cases he : g.symbolId = id
    · rw [he, ha.at_] at h1
      cases h1
      exact ⟨f s, by rw [he]; exact symUpdate_same ha.at_, hd⟩
    · exact ⟨s', by show (symUpdate vm.st id f).psym[g.symbolId]? = _; rw [symUpdate_other _ _ _ _ he]; exact h1, h2⟩

/-- The instruction that does it is the last one of the statement. -/
theorem Affects.mimics {c' : Src.Config} {u : VM} {p q : Src.Place} {w : CStr} {t : Ty} {id : Nat} {s : Symbol} {m : Ev Unit} {x : VmM Unit} {f : Unit → Src.Config → Src.Next}
    (hA : Affects id t s u m x []) (ha : HasArray u t w id s) (hb : Standing I c' u) (hg : vm.stopped = false) (hg' : u.stopped = false) (hcode : u.cs.code = some .stored)
    (hline : u.cs.sourceLine = p.1) (hu : u.strstack = []) (hok : ∀ b, x u = .ok () b → V.execute env vm = .ok () { b with cs := following b.cs })
    (herr : ∀ e b, x u = .err e b → V.execute env vm = .err e b) (ht : Tail I p ss tail) (hk : I.code.drop (u.cs.pc + 1) = tail)
    (hc : c'.toStore = c.toStore ∧ c'.out = c.out ∧ c'.stdin = c.stdin ∧ c'.line = c.line) (hf : ∀ s1, f () { c with toStore := s1 } = .go { c' with toStore := s1, place := Src.after ss p }) :
    Mimics env I q vm (Src.withValue c m f) := by
  have hstore : storeOf u = c.toStore := hb.store.trans hc.1
  unfold Src.withValue
  cases hm : m c.toStore with
  | ok y s1 =>
    obtain ⟨g, k1, k2, k3, k4, k5, k6⟩ := hA.1 s1 (by rw [hstore]; exact hm)
    show Mimics env I q vm (f () _)
    rw [hf]
    refine Mimics.went hg (hok _ k1) (ht.done ((hb.affected ha k2 k3 k4 k5 k6).move (p := Src.after ss p)) rfl rfl hu hcode hline hg' hk)
  | error e s1 =>
    obtain ⟨r, g, k1, k2⟩ := hA.2 e s1 (by rw [hstore]; exact hm)
    exact Fails.now hg (herr _ _ k1) ⟨hb.stored, k2, hg', fun _ => (by rw [show I.out ++ c.out = I.out ++ c'.out by rw [hc.2.1]]; exact hb.out), (hb.io.stdin).trans hc.2.2.1, (hb.io.line).trans hc.2.2.2⟩
  | unknown => trivial

/-- The instruction that does it is followed by others. -/
theorem Affects.leads {u : VM} {q : Src.Place} {w : CStr} {t : Ty} {id : Nat} {s : Symbol} {m : Ev Unit} {x : VmM Unit} {f : Unit → Src.Config → Src.Next} {k : Int}
    (hA : Affects id t s u m x []) (ha : HasArray u t w id s) (h : Midst I c u) (hg : vm.stopped = false) (hu : u.strstack = [])
    (hok : ∀ st', x u = .ok () { u with stack := [], st := st' } → V.execute env vm = .ok () { u with stack := [], st := st', inp := k, cs := following u.cs }) (herr : ∀ e b, x u = .err e b → ∃ r, V.execute env vm = .err e { b with inp := r })
    (hf : ∀ s1 b, Midst I { c with toStore := s1 } b → b.stack = [] → b.strstack = [] → b.inp = k → b.input = u.input → b.inputPc = u.inputPc → b.cs = following u.cs →
      Mimics env I q b (f () { c with toStore := s1 })) : Mimics env I q vm (Src.withValue c m f) := by
  have hb := h.base
  unfold Src.withValue
  cases hm : m c.toStore with
  | ok y s1 =>
    obtain ⟨g, k1, k2, k3, k4, k5, k6⟩ := hA.1 s1 (by rw [hb.store]; exact hm)
    have hb' := (hb.affected ha k2 k3 k4 k5 k6).move (p := c.place) (vm' := { u with stack := [], st := symUpdate u.st id g, inp := k, cs := following u.cs })
    exact Mimics.after (.one hg (hok _ k1)) (hf s1 _ ⟨hb', h.code, h.line, h.going⟩ rfl hu rfl rfl rfl rfl)
  | error e s1 =>
    obtain ⟨r, g, k1, k2⟩ := hA.2 e s1 (by rw [hb.store]; exact hm)
    obtain ⟨r', hx⟩ := herr _ _ k1
    exact Fails.now hg hx ⟨hb.stored, k2, h.going, fun _ => hb.out, hb.io.stdin, hb.io.line⟩
  | unknown => trivial

theorem Mimics.bind {q : Src.Place} {α β : Type} {m : Ev α} {g : α → Ev β} {f : β → Src.Config → Src.Next}
    (h : Mimics env I q vm (Src.withValue c m fun x c => Src.withValue c (g x) f)) : Mimics env I q vm (Src.withValue c (m >>= g) f) := by
  unfold Src.withValue at h ⊢
  rw [Ev.bind_apply]
  cases hm : m c.toStore with
  | ok x s =>
    rw [hm] at h
    simp only at h ⊢
    cases hg : g x s with
    | ok y s' => rw [hg] at h; exact h
    | error e s' => rw [hg] at h; exact h
    | unknown => trivial
  | error e s => rw [hm] at h; exact h
  | unknown => trivial

theorem withValue_of {α : Type} (c : Src.Config) (x : α) (f : α → Src.Config → Src.Next) : Src.withValue c (Ev.of (.ok x)) f = f x c := rfl

/-- With the values of subscripts. -/
theorem Midst.valuesInput (hI : I.Ok) {is : List (Expr .num)} {cd : List Inst} (he : SubsCode I.st is cd) : ∀ {c : Src.Config} {vm : VM} (_ : Midst I c vm) {rest : List Inst}
    (_ : Src.FitsAll I.prog.room vm.stack.length is) (_ : vm.strstack = []) (_ : I.code.drop vm.cs.pc = cd ++ rest) (_ : rest ≠ []) {q : Src.Place} {f : List Dbl → Src.Config → Src.Next}
    (_ : ∀ xs s vm', Midst I { c with toStore := s } vm' → I.code.drop vm'.cs.pc = rest → vm'.stack = xs.reverse ++ vm.stack → vm'.strstack = [] → xs.length = is.length → SameInput vm vm' →
      Mimics env I q vm' (f xs { c with toStore := s })),
    Mimics env I q vm (Src.withValue c (Src.values env c.fns is) f) := by
  induction he with
  | nil =>
    intro c vm h rest h1 h2 hk hr q f hf
    have := hf [] c.toStore vm h hk rfl h2 rfl ⟨rfl, rfl⟩
    exact this
  | @cons e es c0 d he _ ih =>
    intro c vm h rest h1 h2 hk hr q f hf
    rw [Src.values]
    refine Mimics.bind ?_
    rw [List.append_assoc] at hk
    refine h.valueInput hI he h1.1.1 (by rw [h2]; simpa using h1.1.2) hk (hr := by simp [hr]) fun x s' vm' h' hk' hst hin => ?_
    simp only [pushed, Prod.mk.injEq] at hst
    refine Mimics.bind (ih h' (by rw [hst.1]; exact h1.2) (hst.2.trans h2) hk' hr fun xs s'' vm'' h'' hk'' h3 h4 h5 hin' => ?_)
    rw [withValue_of]
    exact hf (x :: xs) s'' vm'' h'' hk'' (by rw [h3, hst.1]; simp) h4 (by simp [h5]) ⟨hin'.1.trans hin.1, hin'.2.trans hin.2⟩

theorem Midst.values (hI : I.Ok) {is : List (Expr .num)} {cd : List Inst} (he : SubsCode I.st is cd) {c : Src.Config} {vm : VM} (h : Midst I c vm) {rest : List Inst}
    (h1 : Src.FitsAll I.prog.room vm.stack.length is) (h2 : vm.strstack = []) (hk : I.code.drop vm.cs.pc = cd ++ rest) (hr : rest ≠ []) {q : Src.Place} {f : List Dbl → Src.Config → Src.Next}
    (hf : ∀ xs s vm', Midst I { c with toStore := s } vm' → I.code.drop vm'.cs.pc = rest → vm'.stack = xs.reverse ++ vm.stack → vm'.strstack = [] → xs.length = is.length →
      Mimics env I q vm' (f xs { c with toStore := s })) :
    Mimics env I q vm (Src.withValue c (Src.values env c.fns is) f) :=
  Midst.valuesInput hI he h h1 h2 hk hr fun xs s vm' k1 k2 k3 k4 k5 _ => hf xs s vm' k1 k2 k3 k4 k5

theorem letElem_mimics (hI : I.Ok) (h : Midst I c vm) (h1 : vm.stack = []) (h2 : vm.strstack = []) (ht : Tail I c.place ss tail) {q : Src.Place} {t : Ty} {w : CStr} {is : List (Expr .num)}
    {e : Expr t} {cd d : List Inst} {id : Nat} (hi : SubsCode I.st is cd) (he : Postfix I.st e d) (hv : Arrayed I.st w t id) (hn1 : 1 ≤ is.length) (hn2 : is.length ≤ 2) (hty : t ≠ .err)
    (hfit : Src.FitsAll I.prog.room 0 is ∧ Src.Fits I.prog.room is.length e) (hk : I.code.drop vm.cs.pc = cd ++ (d ++ setInst t id is.length :: tail)) :
    Mimics env I q vm (Src.perform env I.prog ss c (.letElem t w is e)) := by
  simp only [Src.perform]
  refine Midst.values hI hi h (by rw [h1]; exact hfit.1) h2 hk (by simp) fun xs s1 vm1 h' hk' hst hst' hlen => ?_
  rw [h1, List.append_nil] at hst
  have hl : vm1.stack.length = is.length := by rw [hst, List.length_reverse, hlen]
  refine h'.value hI he (by rw [hl]; exact hfit.2.1) (by rw [hst']; simpa using hfit.2.2) hk' fun v s2 vm2 h'' hk'' hst2 => ?_
  have hx := V.execute_at env (h''.base.at_inst hI h''.code hk'')
  cases t with
  | err => exact absurd rfl hty
  | num =>
    simp only [pushed, Prod.mk.injEq] at hst2
    obtain ⟨s, ha⟩ := h''.base.array hv
    have ha' : HasArray { vm2 with stack := vm1.stack } .num w id s := ⟨ha.names, ha.at_, ha.name, ha.kind, ha.type⟩
    have hb : Standing I { c with toStore := s2 } { vm2 with stack := vm1.stack } := (h''.base.move (p := c.place))
    refine (affects_setNum ha' (xs := xs) (rest := []) (by rw [List.append_nil]; exact hst) hlen hn1 hn2 v).mimics ha' hb h''.going h''.going h''.code h''.line (hst2.2.trans hst') (fun b hb => ?_) (fun e b hb => ?_) ht
      (drop_next hk'') ⟨rfl, rfl, rfl, rfl⟩ (fun _ => rfl)
    · rw [hx]
      have hE : setInst .num id is.length = .setArrayNum id is.length := rfl
      rw [hE]; simp only [V.exec, V.brk_apply, V.bind_apply, V.sym_ok ha.at_, V.pop, hst2.1, hb]
    · rw [hx]
      have hE : setInst .num id is.length = .setArrayNum id is.length := rfl
      rw [hE]; simp only [V.exec, V.brk_apply, V.bind_apply, V.sym_ok ha.at_, V.pop, hst2.1, hb]
  | str =>
    simp only [pushed, Prod.mk.injEq] at hst2
    obtain ⟨s, ha⟩ := h''.base.array hv
    have ha' : HasArray { vm2 with strstack := vm1.strstack } .str w id s := ⟨ha.names, ha.at_, ha.name, ha.kind, ha.type⟩
    have hb : Standing I { c with toStore := s2 } { vm2 with strstack := vm1.strstack } := (h''.base.move (p := c.place))
    refine (affects_setStr ha' (xs := xs) (rest := []) (by rw [List.append_nil]; exact hst2.1.trans hst) hlen hn1 hn2 v).mimics ha' hb h''.going h''.going h''.code h''.line hst' (fun b hb => ?_) (fun e b hb => ?_) ht
      (drop_next hk'') ⟨rfl, rfl, rfl, rfl⟩ (fun _ => rfl)
    · rw [hx]
      have hE : setInst .str id is.length = .setArrayStr id is.length := rfl
      rw [hE]; simp only [V.exec, V.brk_apply, V.bind_apply, V.sym_ok ha.at_, V.popStr, hst2.2, hb]
    · rw [hx]
      have hE : setInst .str id is.length = .setArrayStr id is.length := rfl
      rw [hE]; simp only [V.exec, V.brk_apply, V.bind_apply, V.sym_ok ha.at_, V.popStr, hst2.2, hb]

theorem dim_mimics (hI : I.Ok) (h : Midst I c vm) (h1 : vm.stack = []) (h2 : vm.strstack = []) (ht : Tail I c.place ss tail) {q : Src.Place} {t : Ty} {w : CStr} {is : List (Expr .num)}
    {cd : List Inst} {id : Nat} (hi : SubsCode I.st is cd) (hv : Arrayed I.st w t id) (hn1 : 1 ≤ is.length) (hn2 : is.length ≤ 2) (hty : t ≠ .err)
    (hfit : Src.FitsAll I.prog.room 0 is) (hk : I.code.drop vm.cs.pc = cd ++ dimInst t id is.length :: tail) :
    Mimics env I q vm (Src.perform env I.prog ss c (.dim t w is)) := by
  simp only [Src.perform]
  refine Midst.values hI hi h (by rw [h1]; exact hfit) h2 hk (by simp) fun xs s1 vm1 h' hk' hst hst' hlen => ?_
  rw [h1] at hst
  have hx := V.execute_at env (h'.base.at_inst hI h'.code hk')
  obtain ⟨s, ha⟩ := h'.base.array hv
  have hy := h'.base.tidy id s ha.at_
  cases t with
  | err => exact absurd rfl hty
  | num =>
    refine (affects_dimNum ha hy (xs := xs) (rest := []) hst hlen hn1 hn2).mimics ha h'.base h'.going h'.going h'.code h'.line hst' (fun b hb => ?_) (fun e b hb => ?_) ht
      (drop_next hk') ⟨rfl, rfl, rfl, rfl⟩ (fun _ => rfl)
    · rw [hx]
      have : V.exec env (dimInst .num id is.length) = V.exec env (.dimNum id is.length) := rfl
      rw [this]; simp only [V.exec, V.brk_apply, hb]
    · rw [hx]
      have : V.exec env (dimInst .num id is.length) = V.exec env (.dimNum id is.length) := rfl
      rw [this]; simp only [V.exec, V.brk_apply, hb]
  | str =>
    refine (affects_dimStr ha hy (xs := xs) (rest := []) hst hlen hn1 hn2).mimics ha h'.base h'.going h'.going h'.code h'.line hst' (fun b hb => ?_) (fun e b hb => ?_) ht
      (drop_next hk') ⟨rfl, rfl, rfl, rfl⟩ (fun _ => rfl)
    · rw [hx]
      have : V.exec env (dimInst .str id is.length) = V.exec env (.dimStr id is.length) := rfl
      rw [this]; simp only [V.exec, V.brk_apply, hb]
    · rw [hx]
      have : V.exec env (dimInst .str id is.length) = V.exec env (.dimStr id is.length) := rfl
      rw [this]; simp only [V.exec, V.brk_apply, hb]

theorem readElem_mimics (hI : I.Ok) (h : Midst I c vm) (h1 : vm.stack = []) (h2 : vm.strstack = []) (ht : Tail I c.place ss tail) {q : Src.Place} {t : Ty} {w : CStr} {is : List (Expr .num)}
    {cd : List Inst} {id : Nat} (hi : SubsCode I.st is cd) (hv : Arrayed I.st w t id) (hn1 : 1 ≤ is.length) (hn2 : is.length ≤ 2) (hty : t ≠ .err)
    (hfit : Src.FitsAll I.prog.room 0 is) (hk : I.code.drop vm.cs.pc = cd ++ readInst t id is.length :: tail) :
    Mimics env I q vm (Src.perform env I.prog ss c (.readElem t w is)) := by
  simp only [Src.perform]
  refine Midst.values hI hi h (by rw [h1]; exact hfit) h2 hk (by simp) fun xs s1 vm1 h' hk' hst hst' hlen => ?_
  rw [h1] at hst
  have hne : is.length ≠ 0 := by omega
  have hx := V.execute_at env (h'.base.at_inst hI h'.code hk')
  obtain ⟨k1, k2⟩ := h'.nextData hI
  have k2' : I.prog.data[c.data]? = none → V.findData vm1 = _ := k2
  have k1' : ∀ t, I.prog.data[c.data]? = some t → _ := k1
  cases hd : I.prog.data[c.data]? with
  | none =>
    refine Fails.now h'.going (b := vm1) ?_ (h'.base.left h'.going _)
    rw [hx]
    cases t with
    | err => exact absurd rfl hty
    | num =>
      have : V.exec env (readInst .num id is.length) = V.exec env (.readNum id is.length) := rfl
      rw [this]; simp only [V.exec, V.brk_apply, V.readNum, V.bind_apply, k2' hd]
    | str =>
      have : V.exec env (readInst .str id is.length) = V.exec env (.readStr id is.length) := rfl
      rw [this]; simp only [V.exec, V.brk_apply, V.readStr, V.bind_apply, k2' hd]
  | some u =>
    obtain ⟨p, m1, m2⟩ := k1' u hd
    have hb := h'.base.readData m2
    obtain ⟨s, ha⟩ := h'.base.array hv
    have ha' : HasArray { vm1 with programData := p } t w id s := ⟨ha.names, ha.at_, ha.name, ha.kind, ha.type⟩
    cases t with
    | err => exact absurd rfl hty
    | str =>
      have hE : readInst .str id is.length = .readStr id is.length := rfl
      simp only [Src.reading]
      refine (affects_setStr ha' (xs := xs) (rest := []) hst hlen hn1 hn2 u).mimics (c' := { c with toStore := s1, data := c.data + 1 }) ha' hb h'.going h'.going h'.code h'.line hst' (fun b hb => ?_) (fun e b hb => ?_) ht
        (drop_next hk') ⟨rfl, rfl, rfl, rfl⟩ (fun _ => rfl)
      · rw [hx]
        rw [hE]; simp only [V.exec, V.brk_apply, V.readStr, V.bind_apply, m1, V.setString, if_neg hne, hb]
      · rw [hx]
        rw [hE]; simp only [V.exec, V.brk_apply, V.readStr, V.bind_apply, m1, V.setString, if_neg hne, hb]
    | num =>
      have hE : readInst .num id is.length = .readNum id is.length := rfl
      simp only [Src.reading]
      cases hn : textNumber u with
      | none =>
        refine Fails.now h'.going (b := { vm1 with programData := p }) ?_ ⟨hb.stored, hb.store, h'.going, fun _ => hb.out, hb.io.stdin, hb.io.line⟩
        rw [hx]
        rw [hE]; simp only [V.exec, V.brk_apply, V.readNum, V.bind_apply, m1]
        unfold textNumber at hn
        cases hc : V.convert u with
        | none => rfl
        | some y =>
          obtain ⟨y, r⟩ := y
          cases r with
          | nil => rw [hc] at hn; cases hn
          | cons => rfl
      | some x =>
        have hc := (convert_whole u x).2 ((textNumber_numeric u x).1 hn)
        refine (affects_setNum ha' (xs := xs) (rest := []) hst hlen hn1 hn2 x).mimics (c' := { c with toStore := s1, data := c.data + 1 }) ha' hb h'.going h'.going h'.code h'.line hst' (fun b hb => ?_) (fun e b hb => ?_) ht
          (drop_next hk') ⟨rfl, rfl, rfl, rfl⟩ (fun _ => rfl)
        · rw [hx]
          rw [hE]; simp only [V.exec, V.brk_apply, V.readNum, V.bind_apply, m1, hc, V.setNumeric, if_neg hne, hb]
        · rw [hx]
          rw [hE]; simp only [V.exec, V.brk_apply, V.readNum, V.bind_apply, m1, hc, V.setNumeric, if_neg hne, hb]

end
end LB
