import Verif.Proofs.Sentences
import Verif.Proofs.Called
/- Names with subscripts in a running program: elements of arrays and calls of functions. -/
namespace LB
open LB.Spec _root_.Spec

/- ### Giving values to variables -/

theorem Numbered.entry {st : SymTab} (hw : WellNamed st) (hl : st.psym.length ≤ 65536) {w : CStr} {t : Ty} {id : Nat} (h : Numbered st w t id) :
    ∃ s, st.psym[id]? = some s ∧ SameIgnoringCase s.name w ∧ s.kind = .variable ∧ s.type = t := by
  obtain ⟨q, s, h1, h2, h3, h4, h5⟩ := h
  have := symbol_id hw hl h1
  exact ⟨s, by rw [← h5, this]; exact h1, h2, h3, h4⟩

theorem assign_num {vm : VM} (hw : WellNamed vm.st) {q : Nat} {s : Symbol} {w : CStr} (hs : vm.st.psym[q]? = some s) (hn : SameIgnoringCase s.name w)
    (hk : s.kind = .variable) (ht : s.type = .num) (x : Dbl) :
    storeOf { vm with st := symUpdate vm.st q (fun s => { s with num := x, defined := true }) } = { storeOf vm with nums := assign (storeOf vm).nums w x } := by
  have hf : V.ValueOnly (fun s => { s with num := x, defined := true }) := fun s => ⟨rfl, rfl, rfl, rfl⟩
  unfold storeOf
  simp only [numNamed_look, strNamed_look, numArr_look, strArr_look]
  rw [look_update isVariable_class hw hs hn (by rw [hk]; rfl) hf, look_update_other hs hf, look_update_other hs hf, look_update_other hs hf]
  · simp [numView, ht]
  · intro h; rw [hk] at h; cases h
  · intro h; rw [hk] at h; cases h
  · intro _; simp [strView, ht]

theorem assign_str {vm : VM} (hw : WellNamed vm.st) {q : Nat} {s : Symbol} {w : CStr} (hs : vm.st.psym[q]? = some s) (hn : SameIgnoringCase s.name w)
    (hk : s.kind = .variable) (ht : s.type = .str) (x : CStr) :
    storeOf { vm with st := symUpdate vm.st q (fun s => { s with str := some x, defined := true }) } = { storeOf vm with strs := assign (storeOf vm).strs w x } := by
  have hf : V.ValueOnly (fun s => { s with str := some x, defined := true }) := fun s => ⟨rfl, rfl, rfl, rfl⟩
  unfold storeOf
  simp only [numNamed_look, strNamed_look, numArr_look, strArr_look]
  rw [look_update isVariable_class (g := strView) hw hs hn (by rw [hk]; rfl) hf, look_update_other (g := numView) hs hf, look_update_other (p := isArray) hs hf, look_update_other (p := isArray) hs hf]
  · simp [strView, ht]
  · intro h; rw [hk] at h; cases h
  · intro h; rw [hk] at h; cases h
  · intro _; simp [numView, ht]

theorem grows_update (st : SymTab) (q : Nat) (f : Symbol → Symbol) (hf : V.ValueOnly f) : Grows st (symUpdate st q f) := by
  intro p s hs
  simp only [symUpdate, List.getElem?_modify, hs]
  by_cases h : q = p
  · simp only [if_pos h]
    obtain ⟨h1, h2, h3, h4⟩ := hf s
    exact ⟨_, rfl, h2, h4, h1, .inl h3⟩
  · simp only [if_neg h]
    exact ⟨s, rfl, rfl, rfl, rfl, .inl rfl⟩


/- ### Functions -/

/-- The code of a function whose body needs `m` numbers and `k` strings at most. -/
def FnCode (m k : Nat) (st : SymTab) (d : Def) {t : Ty} (f : Src.Fn t) : Prop :=
  ∃ (g p : Nat) (c : List Inst), d.bcode.inst = .def_ g 1 :: .param p :: (c ++ [.endDef]) ∧ Numbered st f.param .num p ∧ Postfix st f.body c ∧ f.body.nums ≤ m ∧ f.body.strs ≤ k

theorem FnCode.grow {m k : Nat} {st st' : SymTab} {d : Def} {t : Ty} {f : Src.Fn t} (h : FnCode m k st d f) (hg : Grows st st') : FnCode m k st' d f := by
  obtain ⟨g, p, c, h1, h2, h3, h4⟩ := h
  exact ⟨g, p, c, h1, h2.grow hg, h3.grow hg, h4⟩

/-- What a symbol that is no variable stands for. -/
def Known (m k : Nat) (st : SymTab) (F : Src.Fns) (s : Symbol) (w : CStr) : Prop :=
  (s.kind = .array → F s.type w = none) ∧
  (s.kind = .def_ → (s.defined = false ∧ s.def_ = none ∧ F s.type w = some none) ∨
    ∃ (d : Def) (f : Src.Fn s.type), s.defined = true ∧ s.def_ = some d ∧ F s.type w = some (some f) ∧ FnCode m k st d f)

/-- The symbols stand for the functions. -/
def Functional (m k : Nat) (st : SymTab) (F : Src.Fns) : Prop :=
  ∀ (q : Nat) (s : Symbol), st.psym[q]? = some s → ∀ w : CStr, SameIgnoringCase s.name w → Known m k st F s w

theorem Known.same {m k : Nat} {st st' : SymTab} {F : Src.Fns} {s t : Symbol} {w : CStr} (h : Known m k st F s w) (hg : Grows st st')
    (h1 : t.kind = s.kind) (h2 : t.type = s.type) (h3 : s.kind = .def_ → t.defined = s.defined ∧ t.def_ = s.def_) : Known m k st' F t w := by
  rw [Known, h1, h2]
  refine ⟨h.1, fun hk => ?_⟩
  obtain ⟨k1, k2⟩ := h3 hk
  rw [k1, k2]
  rcases h.2 hk with h | ⟨d, f, h1, h2, h3, h4⟩
  · exact .inl h
  · exact .inr ⟨d, f, h1, h2, h3, h4.grow hg⟩

theorem Spec.Seen.function {s t : Symbol} (h : Seen s t) (hk : s.kind = .def_) : t = s := by
  cases h <;> first | rfl | simp_all

theorem Functional.reads {m k : Nat} {F : Src.Fns} {a b : VM} (h : Functional m k a.st F) (hr : OnlyReads a b) : Functional m k b.st F := by
  intro q t ht w hn
  have hlt : q < a.st.psym.length := by rw [← hr.names.2.2]; exact (List.getElem?_eq_some_iff.1 ht).1
  have hs := List.getElem?_eq_getElem hlt
  have hseen := hr.syms q _ t hs ht
  obtain ⟨h1, _, h3, h4⟩ := hseen.head
  refine (h q _ hs w (h1 ▸ hn)).same (onlyReads_grows hr) h3 h4 fun hk => ?_
  rw [hseen.function hk]; exact ⟨rfl, rfl⟩

/-- Values are given to variables and arrays. -/
theorem Functional.update {m k : Nat} {F : Src.Fns} {st : SymTab} (h : Functional m k st F) (q : Nat) {f : Symbol → Symbol} (hf : V.ValueOnly f)
    (hk : ∀ s, st.psym[q]? = some s → s.kind ≠ .def_) : Functional m k (symUpdate st q f) F := by
  intro i t hi w hn
  simp only [symUpdate, List.getElem?_modify, Option.map_eq_map, Option.map_eq_some_iff] at hi
  obtain ⟨s, hs, rfl⟩ := hi
  by_cases hq : q = i
  · subst hq
    rw [if_pos rfl] at hn ⊢
    obtain ⟨k1, _, k3, k4⟩ := hf s
    exact (h q s hs w (k1 ▸ hn)).same (grows_update st q f hf) k3 k4 fun hd => absurd hd (hk s hs)
  · rw [if_neg hq] at hn ⊢
    exact (h i s hs w hn).same (grows_update st q f hf) rfl rfl fun _ => ⟨rfl, rfl⟩

/-- Within functions no functions can be called. -/
theorem handles_inside {env : Env} {base : VM} (hw : WellNamed base.st) {F : Src.Fns} {m k m' k' : Nat} (hf : Functional m k base.st F) (nm : CStr) :
    Handles env Inner base (Src.inside F) m' k' nm := by
  intro t q s w vm xs hne hs hn hk ht hb h1 h2 h3 h4 h5 h6 _ _
  subst ht
  obtain ⟨s', k1, k2, _, k3, k4⟩ := onlyReads_entry hb hs
  rcases hk with hk | hk
  · have hF : F s.type nm = none := (hf q s hs nm hn).1 hk
    simp only [Src.inside, hF]
    exact gives_elem hne hb ⟨onlyReads_wellNamed hb hw, k1, by rw [k2]; exact hn, k3.trans hk, k4⟩ h1 h2 rfl h3 h4 h5 h6
  · have hs' : s' = s := (hb.syms q s s' hs k1).function hk
    subst hs'
    have hcall : CallOf w.st (getInst s'.type q xs.length) xs.length s' := by
      cases htt : s'.type with
      | err => exact absurd htt hne
      | num => exact .num k1 hk htt
      | str => exact .str k1 hk htt
    rcases (hf q s' hs nm hn).2 hk with ⟨j1, _, hF⟩ | ⟨d, f, j1, j2, hF, _⟩
    · simp only [Src.inside, hF]
      exact ⟨w, .callErr ⟨_, _, hcall, .inr ⟨j1, rfl⟩⟩, hb.rest, rfl⟩
    · simp only [Src.inside, hF]
      exact ⟨w, .callErr ⟨_, _, hcall, .inl ⟨j1, by rw [j2]; rfl, rfl⟩⟩, hb.rest, rfl⟩

/-- The parameter is again what it was. -/
theorem given_store {w : VM} (hw : WellNamed w.st) {p : Nat} {q t : Symbol} {nm : CStr} (hs : w.st.psym[p]? = some t) (hn : SameIgnoringCase t.name nm) (hk : t.kind = .variable)
    (ht : t.type = .num) (hq : q.type = .num) : storeOf (given w p q) = { storeOf w with nums := assign (storeOf w).nums nm (numView q) } := by
  have hf : V.ValueOnly (fun s => { s with defined := q.defined, num := q.num }) := fun s => ⟨rfl, rfl, rfl, rfl⟩
  unfold storeOf given
  simp only [numNamed_look, strNamed_look, numArr_look, strArr_look]
  rw [look_update isVariable_class hw hs hn (by rw [hk]; rfl) hf, look_update_other hs hf, look_update_other hs hf, look_update_other hs hf]
  · simp [numView, ht, hq]
  · intro h; rw [hk] at h; cases h
  · intro h; rw [hk] at h; cases h
  · intro _; simp [strView, ht]

theorem pushed_same {t : Ty} (x : Meaning t) {a b : VM} (h1 : a.stack = b.stack) (h2 : a.strstack = b.strstack) : pushed x a = pushed x b := by
  cases t <;> simp only [pushed, h1, h2]

/-- Outside of functions there are elements of arrays and calls. -/
theorem handles_reach {env : Env} {base : VM} (hw : WellNamed base.st) (hl : base.st.psym.length ≤ 65536) (hu : ∀ s ∈ base.st.psym, s.kind ≠ .unknown) {F : Src.Fns} {m k : Nat}
    (hf : Functional m k base.st F) (nm : CStr) : Handles env (Outer env) base (Src.reach env F) m k nm := by
  intro t q s w vm xs hne hs hn hk ht hb h1 h2 h3 h4 h5 h6 h7 h8
  subst ht
  obtain ⟨s', k1, k2, _, k3, k4⟩ := onlyReads_entry hb hs
  rcases hk with hk | hk
  · have hF : F s.type nm = none := (hf q s hs nm hn).1 hk
    simp only [Src.reach, hF]
    exact gives_elem hne hb ⟨onlyReads_wellNamed hb hw, k1, by rw [k2]; exact hn, k3.trans hk, k4⟩ h1 h2 rfl h3 h4 h5 h6
  · have hs' : s' = s := (hb.syms q s s' hs k1).function hk
    subst hs'
    have hcall : CallOf w.st (getInst s'.type q xs.length) xs.length s' := by
      cases htt : s'.type with
      | err => exact absurd htt hne
      | num => exact .num k1 hk htt
      | str => exact .str k1 hk htt
    have hfw := hf.reads hb
    have hww := onlyReads_wellNamed hb hw
    rcases (hfw q s' k1 nm hn).2 hk with ⟨j1, _, hF⟩ | ⟨d, f, j1, j2, hF, g, p, c, c1, c2, c3, c4, c5⟩
    · simp only [Src.reach, hF]
      exact ⟨w, .callErr (.undefined hcall j1), hb.rest, rfl⟩
    · simp only [Src.reach, hF]
      obtain ⟨x, rfl⟩ | hlen : (∃ x, xs = [x]) ∨ xs.length ≠ 1 := by
        match xs with
        | [] => exact .inr (by simp)
        | [x] => exact .inl ⟨x, rfl⟩
        | x :: y :: l => exact .inr (by simp)
      case inr =>
        cases xs with
        | nil => exact ⟨w, .callErr (.params hcall j1 j2 hlen), hb.rest, rfl⟩
        | cons x l =>
          cases l with
          | nil => exact absurd rfl hlen
          | cons y l => exact ⟨w, .callErr (.params hcall j1 j2 hlen), hb.rest, rfl⟩
      have hlw : w.st.psym.length ≤ 65536 := by rw [hb.names.2.2]; exact hl
      obtain ⟨v, v1, v2, v3, v4⟩ := c2.entry hww hlw
      have hst : w.stack = x :: vm.stack := h1
      have hvo : V.ValueOnly (fun s => { s with num := x, defined := true }) := fun s => ⟨rfl, rfl, rfl, rfl⟩
      have hnd : ∀ s, w.st.psym[p]? = some s → s.kind ≠ .def_ := by
        intro s h; rw [v1] at h; cases h; rw [v3]; decide
      have hwu : WellNamed (bound w p x vm.stack).st := hww.update p _ hvo
      have hfu : Functional m k (bound w p x vm.stack).st F := hfw.update p hvo hnd
      have hlu : (bound w p x vm.stack).st.psym.length ≤ 65536 := by
        show (symUpdate w.st p _).psym.length ≤ 65536
        simp only [symUpdate, List.length_modify]; exact hlw
      have huu : ∀ s ∈ (bound w p x vm.stack).st.psym, s.kind ≠ .unknown := by
        intro t hm
        obtain ⟨i, hi⟩ := List.mem_iff_getElem?.1 hm
        simp only [bound, symUpdate, List.getElem?_modify, Option.map_eq_map, Option.map_eq_some_iff] at hi
        obtain ⟨s, hs, rfl⟩ := hi
        have hlt : i < base.st.psym.length := by rw [← hb.names.2.2]; exact (List.getElem?_eq_some_iff.1 hs).1
        have h9 := (hb.syms i _ s (List.getElem?_eq_getElem hlt) hs).head.2.2.1
        have h10 := hu _ (List.getElem_mem hlt)
        rw [← h9] at h10
        split <;> exact h10
      have hgu : Grows w.st (bound w p x vm.stack).st := grows_update w.st p _ hvo
      have hstore : storeOf (bound w p x vm.stack) = { storeOf w with nums := assign (storeOf w).nums f.param x } :=
        (storeOf_world rfl rfl).trans (assign_num hww v1 v2 v3 v4 x)
      have hview : (storeOf w).nums f.param = numView v := by
        show numNamed w.st f.param = _
        rw [numNamed_look, look_entry isVariable_class hww v1 v2 (by rw [v3]; rfl)]
      have hy := yields_postfix (env := env) (C := Inner) (get := Src.inside F) (m := 0) (k := 0) hwu hlu huu (c3.grow hgu)
        (fun nm' _ => handles_inside hwu hfu nm') (vm := bound w p x vm.stack) (OnlyReads.refl _)
        (by show vm.stack.length + _ + 0 ≤ _; omega) (by show w.strstack.length + _ + 0 ≤ _; rw [h2]; omega)
      have hcomp := postfix_computing c3
      unfold Yields at hy
      rw [hstore] at hy
      show Gives env (Outer env) base (f.call env F x (storeOf w)) _ w vm
      unfold Src.Fn.call
      cases he : f.body.evalBy env (Src.inside F) { storeOf w with nums := assign (storeOf w).nums f.param x } with
      | unknown => trivial
      | error er s1 =>
        rw [he] at hy
        obtain ⟨w', y1, y2, y3⟩ := hy
        refine ⟨w', .callErr (.fails hcall j1 j2 c1 hcomp ⟨v, v1, v3, v4⟩ hst y1.inner), ?_, y3⟩
        have := hb.rest
        unfold Values at y2 ⊢
        rw [y2]
        simp only [bound]
        rw [this]
      | ok y s1 =>
        rw [he] at hy
        obtain ⟨w', y1, y2, y3, y4⟩ := hy
        obtain ⟨g1, g2⟩ := given_reads v1 hcomp y1.inner
        refine ⟨given w' p v, .call (.returns hcall j1 j2 c1 hcomp v1 v3 v4 hst y1.inner) .done, hb.trans g1, ?_, ?_⟩
        · rw [given_store (onlyReads_wellNamed y2 hwu) (nm := f.param) g2 v2 v3 v4 v4, y3, hview]
        · show (w'.stack, w'.strstack) = _
          rw [y4]
          exact pushed_same y rfl h2

end LB
