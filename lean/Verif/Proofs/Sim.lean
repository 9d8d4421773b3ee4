import Verif.Proofs.Vm
import Verif.Spec.Tracing
/- Two machines that differ only in what execution does not depend on make the same steps. -/
namespace LB
namespace V

/-- The positions of symbols an instruction mentions. -/
def idsOf : Inst → List Nat
  | .getSimpleNum id => [id]
  | .setSimpleNum id => [id]
  | .dimNum id _ => [id]
  | .getParenNum id _ => [id]
  | .setArrayNum id _ => [id]
  | .setSimpleStr id => [id]
  | .getSimpleStr id => [id]
  | .dimStr id _ => [id]
  | .getParenStr id _ => [id]
  | .setArrayStr id _ => [id]
  | .for_ id => [id]
  | .nextVar id => [id]
  | .def_ id _ => [id]
  | .param id => [id]
  | .inputNum id _ => [id]
  | .inputStr id _ => [id]
  | .inputLine id _ => [id]
  | .readNum id _ => [id]
  | .readStr id _ => [id]
  | _ => []

/-- What two machines are compared on: the symbols that code refers to and their kinds, values left at the bottom
of the stacks of the second machine only, whether they execute the same code, what each of them had printed before, and what
only the first machine traces, of a program with which lines. -/
structure Scope where
  dom : Nat → Prop
  head : Nat → SymKind × Ty
  nums : List Dbl := []
  strs : List CStr := []
  code : Bool := true
  before : CStr × CStr := ([], [])
  basic : Bool := false
  loops : Bool := false
  lines : List SrcLine := []

variable (p : Scope)

/-- Code that only refers to the compared symbols. -/
def Within (l : List Inst) : Prop := ∀ i ∈ l, ∀ id ∈ idsOf i, p.dom id

/-- The symbol has its kind, and its function refers to compared symbols. -/
structure SymOk (id : Nat) (s : Symbol) : Prop where
  head : (s.kind, s.type) = p.head id
  defs : ∀ d, s.def_ = some d → Within p d.bcode.inst

/-- Symbols that differ at most in a number that is not read: outside of loops, that of a symbol that is not
defined or is no numeric variable. -/
def SymRel (L : List Nat) (id : Nat) (s t : Symbol) : Prop :=
  SymOk p id s ∧ (t = s ∨ id ∉ L ∧ (s.defined = false ∨ isVar s .num = false) ∧ ∃ x, t = { s with num := x })

/-- Symbols at the same position; where loops are traced, there are symbols. -/
def OptRel (L : List Nat) (id : Nat) (s t : Option Symbol) : Prop :=
  (p.loops = false ∧ s = none ∧ t = none) ∨ ∃ s' t', s = some s' ∧ t = some t' ∧ SymRel p L id s' t'

/-- The variables of the open loops. -/
def openVars (vm : VM) : List Nat := vm.forStack.map (·.symbolId)

/-- Code that execution can reach. -/
def Refers (vm : VM) (r : CodeRef) : Prop :=
  vm.cs.code = some r ∨ (∃ c ∈ vm.retstack, c.code = some r) ∨ (∃ f ∈ vm.forStack, f.codeState.code = some r) ∨
    vm.fn.codeState.code = some r

/-- The code is that of both machines. -/
def CodeRel (a b : VM) (r : CodeRef) : Prop :=
  codeOf a r = codeOf b r ∧ ∀ bc, (codeOf a r).bcode = some bc → Within p bc.inst

/-- The machines are at the same point. -/
structure Ctl (a b : VM) : Prop where
  cs : a.cs = b.cs
  retstack : a.retstack = b.retstack
  stopped : a.stopped = b.stopped
  col : a.col = b.col
  forStack : a.forStack = b.forStack
  programData : a.programData = b.programData
  immediateData : a.immediateData = b.immediateData
  input : a.input = b.input
  inp : a.inp = b.inp
  inputPc : a.inputPc = b.inputPc
  traceBasic : a.traceBasic = (b.traceBasic || p.basic)
  traceFor : a.traceFor = (b.traceFor || p.loops)
  inputPrompt : a.inputPrompt = b.inputPrompt
  caller : a.fn.codeState = b.fn.codeState
  param : a.fn.codeState.code.isSome = true → a.fn.paramId = b.fn.paramId ∧ p.dom a.fn.paramId ∧
    a.fn.paramDefined = b.fn.paramDefined ∧
    (a.fn.paramVal = b.fn.paramVal ∨ a.fn.paramDefined = false ∧ a.fn.paramId ∉ openVars a) ∧ p.head a.fn.paramId = (.variable, .num)
  stored : CodeRel p a b .stored
  codes : ∀ r, Refers a r → CodeRel p a b r
  defSource : a.defCode.source = b.defCode.source ∧ a.defCode.index = b.defCode.index
  loops : ∀ f ∈ a.forStack, p.dom f.symbolId

/-- The surroundings agree but for what was printed before and by tracing. -/
structure SameWorld (w v : World) : Prop where
  stdin : w.stdin = v.stdin
  rng : w.rng = v.rng
  ticks : w.ticks = v.ticks
  out : ∃ t u, w.out = p.before.1 ++ t ∧ v.out = p.before.2 ++ u ∧ Spec.Marked p.basic p.loops p.lines t u

/-- The machines agree, for loops over the variables `L`. -/
structure RelL (L : List Nat) (a b : VM) : Prop where
  syms : ∀ id, p.dom id → OptRel p L id a.st.psym[id]? b.st.psym[id]?
  nums : b.stack = a.stack ++ p.nums
  strs : b.strstack = a.strstack ++ p.strs
  world : SameWorld p a.world b.world
  ctl : p.code = true → Ctl p a b

/-- The machines agree. -/
def Rel (a b : VM) : Prop := RelL p (openVars a) a b

/-- Results that agree; a full stack in the second machine only, or an empty one or a
malformed function in the first, is allowed for. -/
inductive SimRes {α β : Type} (R : VM → VM → Prop) (Q : α → β → Prop) : Res α → Res β → Prop
  | ok {u v a b} (hq : Q u v) (h : R a b) : SimRes R Q (.ok u a) (.ok v b)
  | err {e a b} (h : Rel p a b) : SimRes R Q (.err e a) (.err e b)
  | halt {h} : SimRes R Q (.halt h) (.halt h)
  | fullNum {r b} (h : p.nums ≠ []) : SimRes R Q r (.err .numOverflow b)
  | fullStr {r b} (h : p.strs ≠ []) : SimRes R Q r (.err .strOverflow b)
  | emptyNum {a r} : SimRes R Q (.err .numEmpty a) r
  | emptyStr {a r} : SimRes R Q (.err .strEmpty a) r
  | corrupt {a r} : SimRes R Q (.err .corruptParam a) r

/-- Functions that agree. -/
def SimG {α β : Type} (R R' : VM → VM → Prop) (Q : α → β → Prop) (x : VmM α) (y : VmM β) : Prop :=
  ∀ a b, R a b → SimRes p R' Q (x a) (y b)

/-- Functions that agree on machines that agree. -/
abbrev Sim {α β : Type} (Q : α → β → Prop) (x : VmM α) (y : VmM β) : Prop := SimG p (Rel p) (Rel p) Q x y

variable {p}

section
variable {α β γ δ : Type} {R R' R'' : VM → VM → Prop} {Q : α → β → Prop} {Q' : γ → δ → Prop}

theorem SimG.bind {x : VmM α} {y : VmM β} {f : α → VmM γ} {g : β → VmM δ} (hx : SimG p R R' Q x y)
    (hf : ∀ u v, Q u v → SimG p R' R'' Q' (f u) (g v)) : SimG p R R'' Q' (x >>= f) (y >>= g) := by
  intro a b h
  have h1 := hx a b h
  simp only [bind_apply]
  generalize x a = ra at h1
  generalize y b = rb at h1
  cases h1 with
  | ok hq h' => exact hf _ _ hq _ _ h'
  | err h' => exact .err h'
  | halt => exact .halt
  | fullNum h' => exact .fullNum h'
  | fullStr h' => exact .fullStr h'
  | emptyNum => exact .emptyNum
  | emptyStr => exact .emptyStr
  | corrupt => exact .corrupt

theorem SimG.pure {u : α} {v : β} (h : Q u v) : SimG p R R Q (pure u) (pure v) := fun _ _ k => .ok h k
theorem SimG.halt (h : Halt) : SimG p R R' Q (V.halt h) (V.halt h) := fun _ _ _ => .halt
theorem SimG.ite {c d : Prop} [Decidable c] [Decidable d] (hc : c ↔ d) {x x' : VmM α} {y y' : VmM β}
    (hx : c → SimG p R R' Q x y) (hy : ¬c → SimG p R R' Q x' y') : SimG p R R' Q (if c then x else x') (if d then y else y') := by
  by_cases h : c
  · rw [if_pos h, if_pos (hc.1 h)]; exact hx h
  · rw [if_neg h, if_neg (fun k => h (hc.2 k))]; exact hy h
theorem SimG.assert {c d : Bool} (h : c = d) (w : String) : SimG p R R (fun _ _ => c = true) (V.assert c w) (V.assert d w) := by
  subst h
  cases c
  · exact SimG.halt _
  · exact SimG.pure rfl
theorem SimG.when {c d : Bool} (h : c = d) {x y : VmM Unit} (hx : c = true → SimG p R R Eq x y) :
    SimG p R R Eq (V.when_ c x) (V.when_ d y) := by
  subst h
  cases c
  · exact SimG.pure rfl
  · exact hx rfl
theorem SimG.lift {o o' : Outcome α} (h : o = o') : SimG p R R Eq (V.lift o) (V.lift o') := by
  subst h
  cases o
  · exact SimG.pure rfl
  · exact SimG.halt _
theorem SimG.modify {f g : VM → VM} (h : ∀ a b, R a b → R' (f a) (g b)) : SimG p R R' Eq (V.modify f) (V.modify g) :=
  fun a b k => .ok rfl (h a b k)
theorem SimG.weaken {Q2 : α → β → Prop} {x : VmM α} {y : VmM β} (hx : SimG p R R' Q x y) (h : ∀ u v, Q u v → Q2 u v) : SimG p R R' Q2 x y := by
  intro a b k
  have h1 := hx a b k
  generalize x a = ra at h1
  generalize y b = rb at h1
  cases h1 with
  | ok hq h' => exact .ok (h _ _ hq) h'
  | err h' => exact .err h'
  | halt => exact .halt
  | fullNum h' => exact .fullNum h'
  | fullStr h' => exact .fullStr h'
  | emptyNum => exact .emptyNum
  | emptyStr => exact .emptyStr
  | corrupt => exact .corrupt
end

namespace Sim
variable {α β : Type}

theorem fail {Q : α → β → Prop} (e : RunError) : Sim p Q (V.fail e) (V.fail e) := fun _ _ h => .err h
theorem check {c d : Bool} (h : c = d) (e : RunError) : Sim p (fun _ _ => c = false) (V.check c e) (V.check d e) := by
  subst h
  cases c
  · exact SimG.pure rfl
  · exact fail _
theorem get : SimG p R R R V.get V.get := fun _ _ h => .ok h h
theorem brk {x y : VmM Unit} (h : Sim p Eq x y) : Sim p Eq (V.brk x) (V.brk y) := SimG.bind h (fun _ _ _ => SimG.pure rfl)
theorem ret {x y : VmM Unit} (h : Sim p Eq x y) : Sim p Eq (V.ret x) (V.ret y) := SimG.bind h (fun _ _ _ => SimG.pure rfl)
end Sim

/-! ### The primitives -/

theorem sim_pop {L : List Nat} : SimG p (RelL p L) (RelL p L) Eq pop pop := by
  intro a b h
  unfold pop
  cases hs : a.stack with
  | nil => exact .emptyNum
  | cons x s =>
    have := h.nums
    rw [hs] at this
    rw [this]
    exact .ok rfl ⟨h.syms, rfl, h.strs, h.world, fun k => { h.ctl k with }⟩

theorem Rel.setStack {a b : VM} (h : Rel p a b) (s : List Dbl) : Rel p { a with stack := s } { b with stack := s ++ p.nums } :=
  ⟨h.syms, rfl, h.strs, h.world, fun k => { h.ctl k with }⟩

theorem Rel.setStrs {a b : VM} (h : Rel p a b) (s : List CStr) : Rel p { a with strstack := s } { b with strstack := s ++ p.strs } :=
  ⟨h.syms, h.nums, rfl, h.world, fun k => { h.ctl k with }⟩

theorem sim_popNum : Sim p Eq pop pop := by
  intro a b h
  unfold pop
  cases hs : a.stack with
  | nil => exact .emptyNum
  | cons x s =>
    have := h.nums
    rw [hs] at this
    rw [this]
    exact .ok rfl (h.setStack s)

theorem sim_push (x : Dbl) : Sim p Eq (push x) (push x) := by
  intro a b h
  unfold push
  have hl := congrArg List.length h.nums
  rw [List.length_append] at hl
  by_cases hb : b.stack.length ≥ maxNumStack
  · rw [if_pos hb]
    by_cases hn : p.nums = []
    · rw [hn] at hl
      rw [if_pos (by simp at hl; omega)]
      exact .err h
    · exact .fullNum hn
  · rw [if_neg hb, if_neg (by omega), h.nums]
    exact .ok rfl (h.setStack (x :: a.stack))

theorem sim_popStr : Sim p Eq popStr popStr := by
  intro a b h
  unfold popStr
  cases hs : a.strstack with
  | nil => exact .emptyStr
  | cons x s =>
    have := h.strs
    rw [hs] at this
    rw [this]
    exact .ok rfl (h.setStrs s)

theorem sim_pushStr (x : CStr) : Sim p Eq (pushStr x) (pushStr x) := by
  intro a b h
  unfold pushStr
  have hl := congrArg List.length h.strs
  rw [List.length_append] at hl
  by_cases hb : b.strstack.length ≥ maxStrStack
  · rw [if_pos hb]
    by_cases hn : p.strs = []
    · rw [hn] at hl
      rw [if_pos (by simp at hl; omega)]
      exact .err h
    · exact .fullStr hn
  · rw [if_neg hb, if_neg (by omega), h.strs]
    exact .ok rfl (h.setStrs (x :: a.strstack))

theorem SymRel.mono {L L' : List Nat} {id : Nat} {s t : Symbol} (h : SymRel p L id s t) (hl : ∀ i ∈ L', i ∈ L) : SymRel p L' id s t :=
  ⟨h.1, h.2.imp _root_.id (fun k => ⟨fun m => k.1 (hl _ m), k.2⟩)⟩

theorem OptRel.mono {L L' : List Nat} {id : Nat} {s t : Option Symbol} (h : OptRel p L id s t) (hl : ∀ i ∈ L', i ∈ L) : OptRel p L' id s t := by
  rcases h with h | ⟨s', t', h1, h2, h3⟩
  · exact .inl h
  · exact .inr ⟨s', t', h1, h2, h3.mono hl⟩

theorem sim_sym {L : List Nat} {id : Nat} (hd : p.dom id) : SimG p (RelL p L) (RelL p L) (SymRel p L id) (sym id) (sym id) := by
  intro a b h
  unfold sym symbolAt
  rcases h.syms id hd with ⟨-, h1, h2⟩ | ⟨s, t, h1, h2, h3⟩
  · rw [h1, h2]; exact .halt
  · rw [h1, h2]; exact .ok h3 h

theorem sim_symbol {id : Nat} (hd : p.dom id) : Sim p (SymRel p [] id) (sym id) (sym id) := by
  intro a b h
  have h0 : RelL p (openVars a) a b := h
  unfold sym symbolAt
  rcases h0.syms id hd with ⟨-, h1, h2⟩ | ⟨s, t, h1, h2, h3⟩
  · rw [h1, h2]; exact .halt
  · rw [h1, h2]; exact .ok (h3.mono (fun _ k => (by cases k))) h

theorem syms_update {L L' : List Nat} {a b : SymTab} {f g : Symbol → Symbol} {id : Nat}
    (h : ∀ q, p.dom q → OptRel p L q a.psym[q]? b.psym[q]?)
    (hf : ∀ s t, SymRel p L id s t → SymRel p L' id (f s) (g t)) (hl : ∀ i ∈ L', i ≠ id → i ∈ L) :
    ∀ q, p.dom q → OptRel p L' q (symUpdate a id f).psym[q]? (symUpdate b id g).psym[q]? := by
  intro q hq
  simp only [symUpdate, List.getElem?_modify]
  by_cases hi : id = q
  · subst hi
    rcases h id hq with ⟨hl, h1, h2⟩ | ⟨s, t, h1, h2, h3⟩
    · rw [h1, h2]; exact .inl ⟨hl, rfl, rfl⟩
    · rw [h1, h2]
      exact .inr ⟨f s, g t, by simp, by simp, hf s t h3⟩
  · rcases h q hq with ⟨hl, h1, h2⟩ | ⟨s, t, h1, h2, h3⟩
    · rw [h1, h2]; exact .inl ⟨hl, rfl, rfl⟩
    · rw [h1, h2]
      refine .inr ⟨s, t, by simp [hi], by simp [hi], h3.1, h3.2.imp _root_.id (fun k => ⟨fun m => k.1 (hl q m (fun e => hi e.symm)), k.2⟩)⟩

theorem Rel.update {a b : VM} (h : Rel p a b) {id : Nat} {f g : Symbol → Symbol}
    (hf : ∀ s t, SymRel p (openVars a) id s t → SymRel p (openVars a) id (f s) (g t)) :
    Rel p { a with st := symUpdate a.st id f } { b with st := symUpdate b.st id g } :=
  ⟨syms_update h.syms hf (fun _ k _ => k), h.nums, h.strs, h.world, fun k => { h.ctl k with }⟩

theorem sim_updSym {id : Nat} {f g : Symbol → Symbol} (hf : ∀ L s t, SymRel p L id s t → SymRel p L id (f s) (g t)) :
    Sim p Eq (updSym id f) (updSym id g) := SimG.modify (fun _ _ h => h.update (hf _))

/-- Symbols that agree have the same kind, type, definition and values other than the number. -/
theorem SymRel.eqs {L : List Nat} {id : Nat} {s t : Symbol} (h : SymRel p L id s t) :
    t.kind = s.kind ∧ t.type = s.type ∧ t.defined = s.defined ∧ t.str = s.str ∧ t.numarr = s.numarr ∧ t.strarr = s.strarr ∧
      t.def_ = s.def_ ∧ t.name = s.name := by
  rcases h.2 with rfl | ⟨-, -, x, rfl⟩ <;> simp

theorem SymRel.isVar {L : List Nat} {id : Nat} {s t : Symbol} (h : SymRel p L id s t) (ty : Ty) : isVar s ty = isVar t ty := by
  simp [V.isVar, h.eqs.1, h.eqs.2.1]

theorem SymRel.isArr {L : List Nat} {id : Nat} {s t : Symbol} (h : SymRel p L id s t) (ty : Ty) : isArr s ty = isArr t ty := by
  simp [V.isArr, h.eqs.1, h.eqs.2.1]

/-- Giving a number makes the symbols equal. -/
theorem SymRel.setNum {L L' : List Nat} {id : Nat} {s t : Symbol} (h : SymRel p L id s t) (x : Dbl) (c : Bool) :
    SymRel p L' id { s with num := x, defined := c } { t with num := x, defined := c } := by
  rcases h with ⟨⟨h1, h2⟩, rfl | ⟨-, -, y, rfl⟩⟩
  · exact ⟨⟨h1, h2⟩, .inl rfl⟩
  · exact ⟨⟨h1, h2⟩, .inl rfl⟩

/-- Other values are changed alike, and the symbol stays or becomes undefined or is no numeric variable. -/
theorem SymRel.value {L : List Nat} {id : Nat} {s t : Symbol} {f : Symbol → Symbol} (h : SymRel p L id s t)
    (hf : ∀ s, (f s).kind = s.kind ∧ (f s).type = s.type ∧ ∀ x, f { s with num := x } = { f s with num := x })
    (hd : ∀ d, (f s).def_ = some d → s.def_ = some d ∨ Within p d.bcode.inst)
    (hv : (f s).defined = s.defined ∨ (f s).defined = false ∨ p.head id ≠ (.variable, .num)) : SymRel p L id (f s) (f t) := by
  obtain ⟨⟨h1, h2⟩, h3⟩ := h
  refine ⟨⟨by rw [(hf s).1, (hf s).2.1]; exact h1, fun d k => (hd d k).elim (h2 d) _root_.id⟩, ?_⟩
  rcases h3 with rfl | ⟨k1, k2, x, rfl⟩
  · exact .inl rfl
  · refine .inr ⟨k1, ?_, x, (hf s).2.2 x⟩
    rcases k2 with k2 | k2
    · rcases hv with hv | hv | hv
      · exact .inl (hv.trans k2)
      · exact .inl hv
      · refine .inr ?_
        cases hi : V.isVar (f s) .num with
        | false => rfl
        | true =>
          simp only [V.isVar, Bool.and_eq_true, beq_iff_eq] at hi
          rw [(hf s).1, (hf s).2.1] at hi
          rw [hi.1, hi.2] at h1
          exact absurd h1.symm hv
    · refine .inr ?_
      simpa [V.isVar, (hf s).1, (hf s).2.1] using k2

/-! ### Functions of the machine that expressions use -/

theorem sim_popLogic : Sim p Eq popLogic popLogic :=
  SimG.bind sim_popNum (fun u v h => by subst h; exact SimG.ite Iff.rfl (fun _ => Sim.fail _) (fun _ => SimG.pure rfl))
theorem sim_popUnsigned : Sim p Eq popUnsigned popUnsigned :=
  SimG.bind sim_popNum (fun u v h => by
    subst h
    exact SimG.ite Iff.rfl (fun _ => Sim.fail _) (fun _ => SimG.ite Iff.rfl (fun _ => Sim.fail _) (fun _ => SimG.pure rfl)))
theorem sim_popIndex : Sim p Eq popIndex popIndex :=
  SimG.bind sim_popNum (fun u v h => by
    subst h
    exact SimG.ite Iff.rfl (fun _ => Sim.fail _) (fun _ => SimG.ite Iff.rfl (fun _ => Sim.fail _) (fun _ => SimG.pure rfl)))
theorem sim_popIndexLoop (n : Nat) : Sim p Eq (popIndexLoop n) (popIndexLoop n) := by
  induction n with
  | zero => exact SimG.pure rfl
  | succ n ih => exact SimG.bind sim_popIndex (fun u v h => by subst h; exact SimG.bind ih (fun u v h => by subst h; exact SimG.pure rfl))
theorem sim_popIndexes (n : Nat) : Sim p Eq (popIndexes n) (popIndexes n) :=
  SimG.bind (SimG.assert rfl _) (fun _ _ _ => sim_popIndexLoop n)
theorem sim_compareStrings : Sim p Eq compareStrings compareStrings :=
  SimG.bind sim_popStr (fun u v h => by subst h; exact SimG.bind sim_popStr (fun u v h => by subst h; exact SimG.pure rfl))

theorem sim_getNumericSimple {id : Nat} (hd : p.dom id) : Sim p Eq (getNumericSimple id) (getNumericSimple id) := by
  intro a b h
  have h0 : RelL p (openVars a) a b := h
  rcases h0.syms id hd with ⟨-, h1, h2⟩ | ⟨s, t, h1, h2, h3⟩
  · simp only [getNumericSimple, bind_apply, sym, symbolAt, h1, h2]; exact .halt
  · by_cases hv : isVar s .num = true
    · by_cases hs : s.defined = true
      · have : t = s := by
          rcases h3.2 with k | ⟨-, k | k, -⟩
          · exact k
          · rw [hs] at k; cases k
          · rw [hv] at k; cases k
        subst this
        have e : ∀ c : VM, c.st.psym[id]? = some t → getNumericSimple id c = push t.num c := by
          intro c hc
          simp [getNumericSimple, bind_apply, sym, symbolAt, hc, hv, hs, assert_apply, when_apply]
        rw [e a h1, e b h2]
        exact sim_push _ a b h
      · have hs' : s.defined = false := by simpa using hs
        have e : ∀ (c : VM) (u : Symbol), c.st.psym[id]? = some u → isVar u .num = true → u.defined = false →
            getNumericSimple id c = push (.fin 0) { c with st := symUpdate c.st id (fun s => { s with num := .fin 0, defined := true }) } := by
          intro c u hc hu hud
          simp [getNumericSimple, bind_apply, sym, symbolAt, hc, hu, hud, assert_apply, when_apply, updSym, modify_apply, symUpdate]
        rw [e a s h1 hv hs', e b t h2 (by rw [← h3.isVar]; exact hv) (by rw [h3.eqs.2.2.1]; exact hs')]
        exact sim_push _ _ _ (h.update (fun s t k => k.setNum _ _))
    · have e : ∀ (c : VM) (u : Symbol), c.st.psym[id]? = some u → isVar u .num = false →
          getNumericSimple id c = .halt (.assertFail "get_numeric_simple") := by
        intro c u hc hu
        simp [getNumericSimple, bind_apply, sym, symbolAt, hc, hu, assert_apply]
      have hv' : isVar s .num = false := by simpa using hv
      rw [e a s h1 hv', e b t h2 (by rw [← h3.isVar]; exact hv')]
      exact .halt

theorem sim_setNumericSimple {id : Nat} (hd : p.dom id) (x : Dbl) : Sim p Eq (setNumericSimple id x) (setNumericSimple id x) :=
  SimG.bind (sim_symbol hd) (fun _ _ h => SimG.bind (SimG.assert (h.isVar _) _) (fun _ _ _ => sim_updSym (fun _ _ _ k => k.setNum _ _)))

theorem not_numVar_str {L : List Nat} {id : Nat} {s t : Symbol} (h : SymRel p L id s t) (hv : isVar s .str = true) : p.head id ≠ (.variable, .num) := by
  simp only [V.isVar, Bool.and_eq_true, beq_iff_eq] at hv
  intro k
  have := h.1.head
  rw [hv.1, hv.2, k] at this
  cases this

theorem not_numVar_arr {L : List Nat} {id : Nat} {s t : Symbol} {ty : Ty} (h : SymRel p L id s t) (hv : isArr s ty = true) : p.head id ≠ (.variable, .num) := by
  simp only [V.isArr, Bool.and_eq_true, beq_iff_eq] at hv
  intro k
  have := h.1.head
  rw [hv.1, k] at this
  cases this

theorem sim_getStringSimple {id : Nat} (hd : p.dom id) : Sim p Eq (getStringSimple id) (getStringSimple id) :=
  SimG.bind (sim_symbol hd) (fun _ _ h => SimG.bind (SimG.assert (h.isVar _) _) (fun _ _ hv =>
    SimG.bind (SimG.when (by rw [h.eqs.2.2.1]) (fun _ => sim_updSym (fun _ _ _ k => k.value (f := fun s => { s with str := none, defined := true })
        (fun _ => ⟨rfl, rfl, fun _ => rfl⟩) (fun _ h => .inl h) (.inr (.inr (not_numVar_str h hv))))))
      (fun _ _ _ => SimG.bind (sim_symbol hd) (fun u v h => by rw [h.eqs.2.2.2.1]; exact sim_pushStr _))))

theorem sim_setStringSimple {id : Nat} (hd : p.dom id) (x : CStr) : Sim p Eq (setStringSimple id x) (setStringSimple id x) :=
  SimG.bind (sim_symbol hd) (fun _ _ h => SimG.bind (SimG.assert (h.isVar _) _) (fun _ _ hv =>
    SimG.bind (SimG.when (by rw [h.eqs.2.2.2.1]) (fun _ => (SimG.assert (by rw [h.eqs.2.2.1]) _).weaken (fun _ _ _ => rfl)))
      (fun _ _ _ => sim_updSym (fun _ _ _ k => k.value (f := fun s => { s with str := some x, defined := true })
        (fun _ => ⟨rfl, rfl, fun _ => rfl⟩) (fun _ h => .inl h) (.inr (.inr (not_numVar_str h hv)))))))

/-- The array fields. -/
structure FieldSim {α : Type} (F : ArrField α) : Prop where
  head : ∀ a s, (F.set a s).kind = s.kind ∧ (F.set a s).type = s.type ∧ (F.set a s).def_ = s.def_ ∧ (F.set a s).defined = s.defined
  num : ∀ a s x, F.set a { s with num := x } = { F.set a s with num := x }
  get : ∀ {L id s t}, SymRel p L id s t → F.get s = F.get t

theorem numField_sim : FieldSim (p := p) numField :=
  ⟨fun _ _ => ⟨rfl, rfl, rfl, rfl⟩, fun _ _ _ => rfl, fun h => h.eqs.2.2.2.2.1.symm⟩
theorem strField_sim : FieldSim (p := p) strField :=
  ⟨fun _ _ => ⟨rfl, rfl, rfl, rfl⟩, fun _ _ _ => rfl, fun h => h.eqs.2.2.2.2.2.1.symm⟩

section
variable {α : Type} {F : ArrField α}

theorem sim_setArr (hF : FieldSim (p := p) F) {id : Nat} (hn : p.head id ≠ (.variable, .num)) (v : Option (BArray α)) (c : Bool) :
    Sim p Eq (updSym id (fun s => { F.set v s with defined := c })) (updSym id (fun s => { F.set v s with defined := c })) :=
  sim_updSym (fun _ _ _ k => k.value (f := fun s => { F.set v s with defined := c })
    (fun s => ⟨(hF.head v s).1, (hF.head v s).2.1, fun x => by rw [hF.num v s x]⟩)
    (fun d h => .inl (by rw [← (hF.head v _).2.2.1]; exact h)) (.inr (.inr hn)))

theorem sim_dimension (hF : FieldSim (p := p) F) {id : Nat} (hd : p.dom id) (m : List Nat) : Sim p Eq (dimension F id m) (dimension F id m) := by
  unfold dimension
  refine SimG.bind (sim_symbol hd) (fun s t h => SimG.bind (SimG.assert (h.isArr _) _) (fun _ _ hv => ?_))
  refine SimG.bind (SimG.lift rfl) (fun u v e => ?_)
  subst e
  cases u with
  | none => exact SimG.bind (sim_setArr hF (not_numVar_arr h hv) none false) (fun _ _ _ => Sim.fail _)
  | some a => exact sim_setArr hF (not_numVar_arr h hv) (some a) true

theorem sim_dimensionAuto (hF : FieldSim (p := p) F) {id : Nat} (hd : p.dom id) (m : List Nat) : Sim p Eq (dimensionAuto F id m) (dimensionAuto F id m) :=
  SimG.bind (sim_symbol hd) (fun s t h => SimG.bind (SimG.assert (by rw [hF.get h]) _) (fun _ _ _ => sim_dimension hF hd _))

theorem sim_dimStatement (hF : FieldSim (p := p) F) {id : Nat} (hd : p.dom id) (n : Nat) : Sim p Eq (dimStatement F id n) (dimStatement F id n) :=
  SimG.bind (sim_symbol hd) (fun s t h => SimG.bind (SimG.assert (h.isArr _) _) (fun _ _ hv =>
    SimG.bind (SimG.when (by rw [hF.get h]) (fun _ => SimG.bind (SimG.assert h.eqs.2.2.1.symm _) (fun _ _ _ => sim_setArr hF (not_numVar_arr h hv) none false)))
      (fun _ _ _ => SimG.bind (sim_popIndexes n) (fun u v e => by subst e; exact sim_dimension hF hd _))))

theorem sim_elementArray (hF : FieldSim (p := p) F) {id : Nat} (hd : p.dom id) (n : Nat) :
    Sim p (fun u v => u = v ∧ p.head id ≠ (.variable, .num)) (elementArray F id n) (elementArray F id n) := by
  unfold elementArray
  refine SimG.bind (sim_symbol hd) (fun s t h => SimG.bind (SimG.assert (h.isArr _) _) (fun _ _ hv => ?_))
  refine SimG.bind (sim_popIndexes n) (fun u v e => ?_)
  subst e
  refine SimG.bind (SimG.when (by rw [h.eqs.2.2.1]) (fun _ => sim_dimensionAuto hF hd _)) (fun _ _ _ => ?_)
  refine SimG.bind (sim_symbol hd) (fun s' t' h' => ?_)
  rw [← hF.get h']
  cases F.get s' with
  | none => exact SimG.halt _
  | some a => exact SimG.pure ⟨rfl, not_numVar_arr h hv⟩

theorem sim_getElement (hF : FieldSim (p := p) F) {id : Nat} (hd : p.dom id) (n : Nat) : Sim p Eq (getElement F id n) (getElement F id n) := by
  unfold getElement
  refine SimG.bind (sim_elementArray hF hd n) (fun u v e => ?_)
  obtain ⟨rfl, -⟩ := e
  obtain ⟨a, ix⟩ := u
  refine SimG.bind (SimG.lift rfl) (fun u v e => ?_)
  subst e
  cases u with
  | none => exact Sim.fail _
  | some v => exact SimG.pure rfl

theorem sim_setElement (hF : FieldSim (p := p) F) {id : Nat} (hd : p.dom id) (n : Nat) (x : α) : Sim p Eq (setElement F id n x) (setElement F id n x) := by
  unfold setElement
  refine SimG.bind (sim_elementArray hF hd n) (fun u v e => ?_)
  obtain ⟨rfl, hn⟩ := e
  obtain ⟨a, ix⟩ := u
  refine SimG.bind (SimG.lift rfl) (fun u v e => ?_)
  subst e
  cases u with
  | none => exact Sim.fail _
  | some v =>
    exact sim_updSym (fun _ _ _ k => k.value (f := F.set (some v))
      (fun s => ⟨(hF.head _ s).1, (hF.head _ s).2.1, fun x => hF.num _ s x⟩)
      (fun d h => .inl (by rw [← (hF.head (some v) _).2.2.1]; exact h)) (.inr (.inr hn)))
end

theorem sim_setNumeric {id : Nat} (hd : p.dom id) (n : Nat) (x : Dbl) : Sim p Eq (setNumeric id n x) (setNumeric id n x) :=
  SimG.ite Iff.rfl (fun _ => sim_setNumericSimple hd x) (fun _ => sim_setElement numField_sim hd n x)
theorem sim_setString {id : Nat} (hd : p.dom id) (n : Nat) (x : CStr) : Sim p Eq (setString id n x) (setString id n x) :=
  SimG.ite Iff.rfl (fun _ => sim_setStringSimple hd x) (fun _ => sim_setElement strField_sim hd n _)

/-- Changes of the surroundings alike. -/
theorem sim_world {f g : World → World} (hfg : ∀ w v, SameWorld p w v → SameWorld p (f w) (g v)) :
    Sim p Eq (modify (fun vm => { vm with world := f vm.world })) (modify (fun vm => { vm with world := g vm.world })) :=
  SimG.modify (fun _ _ h => ⟨h.syms, h.nums, h.strs, hfg _ _ h.world, fun k => { h.ctl k with }⟩)

theorem sim_rndStep (env : Env) : Sim p Eq (rndStep env) (rndStep env) := by
  unfold rndStep
  refine SimG.bind Sim.get (fun u v h => ?_)
  rw [h.world.rng]
  cases hr : env.rand v.world.rng with
  | mk r g =>
    exact SimG.bind (sim_world (f := fun w => { w with rng := g }) (g := fun w => { w with rng := g }) (fun _ _ h => { h with rng := rfl })) (fun _ _ _ =>
      SimG.ite Iff.rfl (fun _ => SimG.pure rfl) (fun _ => Sim.brk (sim_push _)))

theorem sim_readClock (env : Env) : Sim p Eq (readClock env) (readClock env) := by
  unfold readClock
  refine SimG.bind Sim.get (fun u v h => ?_)
  rw [h.world.ticks]
  exact SimG.bind (sim_world (f := fun w => { w with ticks := w.ticks + 1 }) (g := fun w => { w with ticks := w.ticks + 1 }) (fun _ _ h => { h with ticks := congrArg (· + 1) h.ticks })) (fun _ _ _ => SimG.pure rfl)

theorem sim_leftFn : Sim p Eq leftFn leftFn :=
  SimG.bind sim_popStr (fun u v e => by
    subst e
    exact SimG.bind sim_popUnsigned (fun u v e => by
      subst e; exact SimG.bind (Sim.check rfl _) (fun _ _ _ => sim_pushStr _)))
theorem sim_rightFn : Sim p Eq rightFn rightFn :=
  SimG.bind sim_popStr (fun u v e => by
    subst e
    exact SimG.bind sim_popUnsigned (fun u v e => by
      subst e; exact SimG.bind (Sim.check rfl _) (fun _ _ _ => sim_pushStr _)))
theorem sim_midFn : Sim p Eq midFn midFn :=
  SimG.bind sim_popStr (fun u v e => by
    subst e
    exact SimG.bind sim_popUnsigned (fun u v e => by
      subst e
      exact SimG.bind sim_popUnsigned (fun u v e => by
        subst e
        exact SimG.bind (Sim.check rfl _) (fun _ _ _ => SimG.bind (Sim.check rfl _) (fun _ _ _ => sim_pushStr _)))))
theorem sim_valFn : Sim p Eq valFn valFn :=
  SimG.bind sim_popStr (fun u v e => by
    subst e
    split
    · exact sim_push _
    · exact Sim.fail _)

/-- Functions of one argument. -/
theorem sim_num1 {f : Dbl → VmM Unit} (h : ∀ x, Sim p Eq (f x) (f x)) : Sim p Eq (pop >>= f) (pop >>= f) :=
  SimG.bind sim_popNum (fun u v e => by subst e; exact h u)
theorem sim_str1 {f : CStr → VmM Unit} (h : ∀ x, Sim p Eq (f x) (f x)) : Sim p Eq (popStr >>= f) (popStr >>= f) :=
  SimG.bind sim_popStr (fun u v e => by subst e; exact h u)
theorem sim_logic1 {f : Int → VmM Unit} (h : ∀ x, Sim p Eq (f x) (f x)) : Sim p Eq (popLogic >>= f) (popLogic >>= f) :=
  SimG.bind sim_popLogic (fun u v e => by subst e; exact h u)

theorem sim_builtinOp (env : Env) (b : Bi) : Sim p Eq (builtinOp env b) (builtinOp env b) := by
  cases b <;> simp only [builtinOp] <;> first
    | exact sim_leftFn | exact sim_rightFn | exact sim_midFn | exact sim_valFn
    | exact SimG.pure rfl
    | exact sim_str1 (fun _ => sim_push _)
    | exact sim_num1 (fun _ => sim_push _)
    | exact sim_num1 (fun _ => sim_pushStr _)
    | exact sim_num1 (fun _ => SimG.bind (Sim.check rfl _) (fun _ _ _ => sim_push _))
    | exact sim_num1 (fun _ => SimG.bind (Sim.check rfl _) (fun _ _ _ => sim_pushStr _))
    | exact SimG.bind (sim_readClock env) (fun u v e => by subst e; exact sim_pushStr _)

end V
end LB
