import Verif.Proofs.Strings
import Verif.Proofs.LexNum
/- Every number the machine holds is a double. -/
namespace LB
open LB.Spec

namespace Dbl

theorem isDouble_floor {q : Rat} (h : IsDouble q) : IsDouble q.floor := by
  obtain ⟨m, e, hm, h1, h2, rfl⟩ := h
  rw [power_two]
  by_cases he : 0 ≤ e
  · have : pow2 e = ((2 ^ e.toNat : Int) : Rat) := by
      have h0 : (-e).toNat = 0 := by omega
      unfold pow2
      rw [h0, castPow]
      grind
    rw [this, ← Rat.intCast_mul, Rat.floor_intCast, Rat.intCast_mul, ← this, ← power_two]
    exact ⟨m, e, hm, h1, h2, rfl⟩
  · have hp : pow2 e < pow2 0 := pow2_lt (by omega)
    have h0 : pow2 0 = 1 := by decide +kernel
    have hpos : 0 < pow2 e := pow2_pos e
    rw [h0] at hp
    generalize hq : ((m : Rat) * pow2 e) = q
    refine ⟨q.floor, 0, ?_, by decide, by decide, by rw [power_two, h0, Rat.mul_one]⟩
    have key : m.natAbs < 2 ^ 53 → q.floor.natAbs ≤ m.natAbs := by
      intro _
      by_cases hs : 0 ≤ m
      · have c0 : (0 : Rat) ≤ (m : Rat) := by simpa using Rat.intCast_le_intCast.2 hs
        have a1 : ((0 : Int) : Rat) ≤ q := by
          rw [← hq]; exact Rat.mul_nonneg c0 (Rat.le_of_lt hpos)
        have a2 : q ≤ (m : Rat) := by
          rw [← hq]
          have := Rat.mul_le_mul_of_nonneg_left (Rat.le_of_lt hp) c0
          rw [Rat.mul_one] at this
          exact this
        have b1 : 0 ≤ q.floor := Rat.le_floor_iff.2 a1
        have b2 : q.floor ≤ m := Rat.intCast_le_intCast.1 (Rat.le_trans (Rat.floor_le _) a2)
        omega
      · have c0 : (0 : Rat) ≤ ((-m : Int) : Rat) := by simpa using Rat.intCast_le_intCast.2 (show (0 : Int) ≤ -m by omega)
        have hq' : ((-m : Int) : Rat) * pow2 e = - q := by rw [← hq]; push_cast; grind
        have a1 : 0 ≤ - q := by
          rw [← hq']; exact Rat.mul_nonneg c0 (Rat.le_of_lt hpos)
        have a2 : - q ≤ ((-m : Int) : Rat) := by
          rw [← hq']
          have := Rat.mul_le_mul_of_nonneg_left (Rat.le_of_lt hp) c0
          rw [Rat.mul_one] at this
          exact this
        have b1 : m ≤ q.floor := by
          refine Rat.le_floor_iff.2 ?_
          push_cast at a2
          grind
        have b2 : q.floor ≤ 0 := by
          refine Rat.intCast_le_intCast.1 (Rat.le_trans (Rat.floor_le _) ?_)
          push_cast
          grind
        omega
    have := key hm
    omega

theorem valid_floor {x : Dbl} (h : Valid x) : Valid (floor x) := by
  cases x <;> first | trivial | exact isDouble_floor h

theorem valid_fabs {x : Dbl} (h : Valid x) : Valid (fabs x) := by
  cases x with
  | fin q =>
    simp only [fabs]
    split
    · exact isDouble_neg h
    · exact h
  | nzero => exact valid_zero
  | _ => trivial

theorem valid_add {x y : Dbl} (hx : Valid x) (hy : Valid y) : Valid (add x y) := sum_valid (add_sum x y hx hy)
theorem valid_mul (x y : Dbl) : Valid (mul x y) := product_valid (mul_product x y)
theorem valid_div (x y : Dbl) : Valid (div x y) := quotient_valid (div_quotient x y)
theorem valid_ofInt (n : Int) : Valid (ofInt n) := valid_rnd _

end Dbl

theorem valid_arith (env : Env) (o : Arith) {x y : Dbl} (hx : Valid x) (hy : Valid y) : Valid (V.arithOp env o x y) := by
  cases o with
  | add => exact Dbl.valid_add hx hy
  | sub => exact Dbl.valid_add hx (Dbl.valid_neg hy)
  | mul => exact Dbl.valid_mul _ _
  | div => exact Dbl.valid_div _ _
  | pow => exact env.pow_double x y hx hy

theorem valid_convert {s r : CStr} {x : Dbl} (h : V.convert s = some (x, r)) : Valid x := by
  unfold V.convert at h
  split at h
  · cases h
  · split at h
    · simp only [Option.some.injEq, Prod.mk.injEq] at h
      rw [← h.1]
      exact valid_strtod _
    · cases h

/-- The number in an instruction is a double. -/
def ValidInst : Inst → Prop
  | .pushNum x => Valid x
  | _ => True

/-- The numbers in the code are doubles. -/
def ValidCode (b : Bcode) : Prop := ∀ i ∈ b.inst, ValidInst i

/-- The numbers of a symbol are doubles. -/
structure ValidSym (s : Symbol) : Prop where
  num : Valid s.num
  arr : ∀ a, s.numarr = some a → ∀ x ∈ a.val, Valid x
  code : ∀ d, s.def_ = some d → ValidCode d.bcode

/-- The numbers of all symbols are doubles. -/
def ValidTab (st : SymTab) : Prop := ∀ s ∈ st.psym, ValidSym s

theorem ValidSym.same {s s' : Symbol} (h : ValidSym s) (h1 : s'.num = s.num) (h2 : s'.numarr = s.numarr)
    (h3 : s'.def_ = s.def_) : ValidSym s' :=
  ⟨by rw [h1]; exact h.num, by rw [h2]; exact h.arr, by rw [h3]; exact h.code⟩

theorem validSym_new (name : CStr) (id : Nat) (k : SymKind) (t : Ty) (d : Bool) :
    ValidSym { name := name, id := id, kind := k, type := t, defined := d } :=
  ⟨valid_zero, (fun _ h => by cases h), (fun _ h => by cases h)⟩

theorem ValidTab.update {st : SymTab} (h : ValidTab st) (id : Nat) (f : Symbol → Symbol) (hf : ∀ s, ValidSym s → ValidSym (f s)) :
    ValidTab (symUpdate st id f) := by
  intro s hs
  obtain ⟨y, hy, rfl | rfl⟩ := mem_modify hs
  · exact h _ hy
  · exact hf _ (h _ hy)

theorem ValidTab.map {st : SymTab} (h : ValidTab st) (f : Symbol → Symbol) (hf : ∀ s, ValidSym s → ValidSym (f s)) :
    ValidTab { st with psym := st.psym.map f } := by
  intro s hs
  obtain ⟨y, hy, rfl⟩ := List.mem_map.1 hs
  exact hf _ (h _ hy)

theorem ValidTab.insert {st : SymTab} (h : ValidTab st) (name : CStr) (k : SymKind) (t : Ty) (d : Bool) :
    ValidTab (symInsert st name k t d).1 := by
  intro s hs
  simp only [symInsert, List.mem_append, List.mem_singleton] at hs
  rcases hs with hs | rfl
  · exact h _ hs
  · exact validSym_new ..

theorem validSym_undefine {s : Symbol} (h : ValidSym s) : ValidSym (undefineValue s) := by
  unfold undefineValue
  repeat' split
  all_goals first
    | exact h
    | exact ⟨h.num, h.arr, h.code⟩
    | exact ⟨valid_zero, h.arr, h.code⟩
    | exact ⟨h.num, (fun _ e => by cases e), h.code⟩
    | exact ⟨h.num, h.arr, (fun _ e => by cases e)⟩

theorem ValidTab.clear {st : SymTab} (h : ValidTab st) : ValidTab (clearSymbolTableValues st) := by
  apply h.map
  intro s hs
  split
  · exact validSym_undefine hs
  · exact hs

theorem ValidTab.unknown {st : SymTab} (h : ValidTab st) : ValidTab (symMakeUnknownArray st) := by
  apply h.map
  intro s hs
  split
  · exact hs.same rfl rfl rfl
  · exact hs

theorem validTab_builtins (st : SymTab) (h : ValidTab st) : ValidTab (initBuiltins st) := by
  unfold initBuiltins
  generalize builtins = bs
  induction bs generalizing st with
  | nil => exact h
  | cons b bs ih => exact ih _ (ValidTab.insert h b.name .builtin b.type true)

theorem validTab_fresh (st : SymTab) : ValidTab (initBuiltins (clearSymbolTableNames st)) :=
  validTab_builtins _ ((fun _ h => by cases h))

theorem validTab_start : ValidTab (initBuiltins newSymbolTable) :=
  validTab_builtins _ ((fun _ h => by cases h))

/-! The compiler. -/

namespace P

theorem validInst_of_text {i : Inst} (h : ShortText i) : ValidInst i := by
  cases i <;> first | trivial | exact h

/-- Every number the compiler holds is a double. -/
structure Doubles (p : Parser) : Prop where
  fits : p.lex.Sound
  code : ValidCode p.bcode
  tab : ValidTab p.st

theorem closed_doubles : Closed Doubles where
  lex p lex h hl := ⟨hl, h.code, h.tab⟩
  fits p h := h.fits
  emit i hi p h := by
    refine ⟨h.fits, ?_, h.tab⟩
    intro j hj
    simp only [emitInst, List.mem_append, List.mem_singleton] at hj
    rcases hj with hj | rfl
    · exact h.code j hj
    · exact validInst_of_text hi
  patch n i hi p h := by
    simp only [patch, patchInst]
    split
    · trivial
    · rename_i bc hb
      split at hb
      · simp only [Outcome.ok.injEq] at hb
        subst hb
        refine ⟨h.fits, ?_, h.tab⟩
        intro j hj
        rcases List.mem_or_eq_of_mem_set hj with hj | rfl
        · exact h.code j hj
        · cases j <;> first | trivial | exact hi.elim
      · cases hb
  ifThen p n h := ⟨h.fits, h.code, h.tab⟩
  resolve name params kind _ := by
    unfold resolve
    pkeeps
    · exact Keeps.lookup _ _
    · intro p h
      exact ⟨h.fits, h.code, h.tab.update _ _ (fun s hs => hs.same rfl rfl rfl)⟩
    all_goals
      intro p h
      exact ⟨h.fits, h.code, h.tab.insert _ _ _ _⟩
  defSymbol name := by
    unfold defSymbol
    pkeeps
    · exact Keeps.lookup _ _
    · intro p h
      exact ⟨h.fits, h.code, h.tab.update _ _ (fun s hs => hs.same rfl rfl rfl)⟩
    all_goals
      intro p h
      exact ⟨h.fits, h.code, h.tab.insert _ _ _ _⟩

end P

theorem parseSource_valid {src : Source} {st st' : SymTab} {pre : Bool} {r : Option Bcode} (h : ValidTab st)
    (hp : parseSource src st pre = .ok (r, st')) : ValidTab st' ∧ ∀ bc, r = some bc → ValidCode bc := by
  have key := P.keeps_parseLines P.closed_doubles src.lines 0 { lex := newLex pre, bcode := newBcode, st := st, ifThen := 0 }
    ⟨sound_new _, (fun _ h => by cases h), h⟩
  unfold parseSource at hp
  split at hp
  · rename_i p hl
    rw [hl] at key
    simp only [Outcome.ok.injEq, Prod.mk.injEq] at hp
    rw [← hp.1, ← hp.2]
    exact ⟨key.tab.unknown, fun bc hb => by cases hb; exact key.code⟩
  · rename_i p hl
    rw [hl] at key
    simp only [Outcome.ok.injEq, Prod.mk.injEq] at hp
    rw [← hp.1, ← hp.2]
    exact ⟨key.tab.unknown, fun bc hb => by cases hb⟩
  · cases hp

/-! The machine. -/

namespace V

/-- The limit and the step of a loop are doubles. -/
def ValidLoop (f : ForLoop) : Prop := Valid f.limit ∧ Valid f.step

/-- Every number the machine holds is a double. -/
structure Doubly (vm : VM) : Prop where
  stack : ∀ x ∈ vm.stack, Valid x
  tab : ValidTab vm.st
  stored : ∀ b, vm.stored.bcode = some b → ValidCode b
  immediate : ∀ b, vm.immediate.bcode = some b → ValidCode b
  defCode : ∀ b, vm.defCode.bcode = some b → ValidCode b
  loops : ∀ f ∈ vm.forStack, ValidLoop f
  param : Valid vm.fn.paramVal

theorem Doubly.same {vm vm' : VM} (h : Doubly vm) (h1 : vm'.stack = vm.stack) (h2 : vm'.st = vm.st)
    (h3 : vm'.stored.bcode = vm.stored.bcode) (h4 : vm'.immediate.bcode = vm.immediate.bcode)
    (h5 : vm'.defCode.bcode = vm.defCode.bcode) (h6 : vm'.forStack = vm.forStack) (h7 : vm'.fn.paramVal = vm.fn.paramVal) : Doubly vm' :=
  ⟨h1 ▸ h.stack, h2 ▸ h.tab, h3 ▸ h.stored, h4 ▸ h.immediate, h5 ▸ h.defCode, h6 ▸ h.loops, h7 ▸ h.param⟩

theorem Doubly.withTab {vm : VM} (h : Doubly vm) {st : SymTab} (ht : ValidTab st) : Doubly { vm with st := st } :=
  ⟨h.stack, ht, h.stored, h.immediate, h.defCode, h.loops, h.param⟩

theorem Doubly.withLoops {vm : VM} (h : Doubly vm) {fs : List ForLoop} (hf : ∀ f ∈ fs, ValidLoop f) : Doubly { vm with forStack := fs } :=
  ⟨h.stack, h.tab, h.stored, h.immediate, h.defCode, hf, h.param⟩

theorem keeps_updSym_doubly (id : Nat) (f : Symbol → Symbol) (hf : ∀ s, ValidSym s → ValidSym (f s)) : Keeps Doubly (updSym id f) :=
  Keeps.modify (fun _ h => h.withTab (h.tab.update _ _ hf))

theorem closed_doubly : Closed (fun a => a ≠ .num ∧ a ≠ .fn ∧ a ≠ .loop ∧ a ≠ .def_) Doubly where
  push h := absurd rfl h.1
  pop := by
    intro vm h; simp only [pop]; split
    · exact h
    · rename_i hs
      exact ⟨fun s hm => h.stack s (hs ▸ List.mem_cons_of_mem _ hm), h.tab, h.stored, h.immediate, h.defCode, h.loops, h.param⟩
  pushStr _ x := by
    intro vm h; simp only [pushStr]; split
    · exact h
    · exact h.same rfl rfl rfl rfl rfl rfl rfl
  popStr := by
    intro vm h; simp only [popStr]; split
    · exact h
    · exact h.same rfl rfl rfl rfl rfl rfl rfl
  pushReturn _ pc := by
    intro vm h; simp only [pushReturn]; split
    · exact h
    · exact h.same rfl rfl rfl rfl rfl rfl rfl
  popReturn _ := by
    intro vm h; simp only [popReturn]; split
    · exact h
    · exact h.same rfl rfl rfl rfl rfl rfl rfl
  updSym _ id f _ _ hd hk := by
    apply keeps_updSym_doubly
    intro s hs
    rcases hk with hk | hk
    · exact absurd rfl hk.1
    · rcases hd with hd | hd
      · exact absurd rfl hd.2.2.2
      · exact hs.same (hk s).1 (hk s).2 (hd s)
  clear _ vm h := h.withTab h.tab.clear
  world _ vm w h := h.same rfl rfl rfl rfl rfl rfl rfl
  col _ vm c h := h.same rfl rfl rfl rfl rfl rfl rfl
  cs vm c _ _ h := h.same rfl rfl rfl rfl rfl rfl rfl
  stopped _ vm c h := h.same rfl rfl rfl rfl rfl rfl rfl
  fn hf := absurd rfl hf.2.1
  defCode hf := absurd rfl hf.2.1
  input _ vm c _ h := h.same rfl rfl rfl rfl rfl rfl rfl
  inp _ vm c h := h.same rfl rfl rfl rfl rfl rfl rfl
  inputPc _ vm c h := h.same rfl rfl rfl rfl rfl rfl rfl
  trace := .inl (by decide)
  programData _ vm n h := h.same rfl rfl rfl rfl rfl rfl rfl
  immediateData _ vm n h := h.same rfl rfl rfl rfl rfl rfl rfl
  forTop hl := absurd rfl hl.2.2.1
  setTopFor hl := absurd rfl hl.2.2.1
  erase hl := absurd rfl hl.2.2.1

theorem gives_sym_double (id : Nat) : Gives Doubly ValidSym (sym id) := by
  intro vm h
  refine ⟨Keeps.sym id vm h, ?_⟩
  intro s vm' e
  simp only [sym] at e
  split at e
  · cases e
    rename_i hs
    unfold symbolAt at hs
    split at hs
    · cases hs
      rename_i hs
      exact h.tab _ (List.mem_of_getElem? hs)
    · cases hs
  · cases e

theorem gives_pop : Gives Doubly Valid pop := by
  intro vm h
  refine ⟨closed_doubly.pop vm h, ?_⟩
  intro s vm' e
  simp only [pop] at e
  split at e
  · cases e
  · cases e
    rename_i hs
    exact h.stack _ (by rw [hs]; exact List.mem_cons_self)

theorem keeps_push_doubly {x : Dbl} (hx : Valid x) : Keeps Doubly (push x) := by
  intro vm h
  simp only [push]
  split
  · exact h
  · refine ⟨?_, h.tab, h.stored, h.immediate, h.defCode, h.loops, h.param⟩
    intro t ht
    rcases List.mem_cons.1 ht with rfl | ht
    · exact hx
    · exact h.stack t ht

theorem keeps_pushLogic_doubly (b : Bool) : Keeps Doubly (pushLogic b) := by
  cases b
  · exact keeps_push_doubly valid_zero
  · exact keeps_push_doubly valid_minusOne

theorem gives_curBcode_double : Gives Doubly ValidCode curBcode := by
  intro vm h
  refine ⟨Keeps.curBcode vm h, ?_⟩
  intro b vm' e
  simp only [curBcode] at e
  split at e
  · cases e
  · rename_i r _
    split at e
    · cases e
    · cases e
      rename_i hb
      cases r with
      | stored => exact h.stored _ hb
      | immediate => exact h.immediate _ hb
      | def_ => exact h.defCode _ hb

/-- The numbers of an array are doubles. -/
def ValidArr (a : BArray Dbl) : Prop := ∀ x ∈ a.val, Valid x

theorem validSym_setArr (a : Option (BArray Dbl)) (d : Bool) (h : ∀ b, a = some b → ValidArr b) (s : Symbol) (hs : ValidSym s) :
    ValidSym { numField.set a s with defined := d } := ⟨hs.num, h, hs.code⟩

theorem gives_newArray_double (m : List Nat) : Gives Doubly (fun a : Option (BArray Dbl) => ∀ b, a = some b → ValidArr b)
    (lift (newArray numField.zero 0 m)) := by
  intro vm h
  refine ⟨Keeps.lift _ vm h, ?_⟩
  intro a vm' e b hb
  subst hb
  unfold newArray at e
  split at e
  · cases e
  · cases e
  · cases e
    intro v hv
    simp only [numField, List.mem_replicate] at hv
    rw [hv.2]
    exact valid_zero

theorem keeps_dimension_doubly (id : Nat) (m : List Nat) : Keeps Doubly (dimension numField id m) := by
  unfold dimension
  refine Keeps.bind (Keeps.sym _) (fun _ => Keeps.bind (Keeps.assert _ _) (fun _ => ?_))
  refine (gives_newArray_double m).keepsBind (fun a ha => ?_)
  cases a with
  | none => exact Keeps.bind (keeps_updSym_doubly _ _ (validSym_setArr _ _ ((fun _ h => by cases h)))) (fun _ => Keeps.fail _)
  | some a => exact keeps_updSym_doubly _ _ (validSym_setArr _ _ ha)

theorem keeps_dimStatement_doubly (id n : Nat) : Keeps Doubly (dimStatement numField id n) := by
  unfold dimStatement
  keeps
  · exact keeps_updSym_doubly _ _ (validSym_setArr _ _ ((fun _ h => by cases h)))
  · exact keeps_popIndexes closed_doubly n
  · exact keeps_dimension_doubly _ _

theorem gives_elementArray_double (id n : Nat) : Gives Doubly (fun r => ValidArr r.1) (elementArray numField id n) := by
  unfold elementArray
  refine Gives.bind (Gives.of (Keeps.sym _)) (fun s _ => Gives.bind (Gives.of (Keeps.assert _ _)) (fun _ _ => ?_))
  refine Gives.bind (Gives.of (keeps_popIndexes closed_doubly n)) (fun ix _ => ?_)
  refine Gives.bind (Gives.of (Keeps.when ?_)) (fun _ _ => ?_)
  · unfold dimensionAuto
    keeps
    exact keeps_dimension_doubly _ _
  · refine Gives.bind (gives_sym_double _) (fun s hs => ?_)
    split
    · exact fun vm h => ⟨trivial, fun a vm' e => by cases e⟩
    · rename_i a ha
      exact Gives.pure (hs.arr a ha)

theorem gives_getElement_double (id n : Nat) : Gives Doubly Valid (getElement numField id n) := by
  unfold getElement
  refine Gives.bind (gives_elementArray_double id n) (fun r hr => ?_)
  obtain ⟨a, ix⟩ := r
  intro vm h
  constructor
  · refine Keeps.bind (Keeps.lift _) (fun o => ?_) vm h
    split
    · exact Keeps.fail _
    · exact Keeps.pure _
  · intro v vm' e
    simp only [bind_apply] at e
    cases hg : arrayGet a ix with
    | halt => rw [hg] at e; cases e
    | ok o =>
      rw [hg] at e
      simp only [lift_ok] at e
      cases o with
      | none => cases e
      | some v =>
        cases e
        unfold arrayGet at hg
        split at hg
        · cases hg
        · cases hg
        · split at hg
          · cases hg
            rename_i hx
            exact hr v (List.mem_of_getElem? hx)
          · cases hg

theorem keeps_setElement_doubly (id n : Nat) {x : Dbl} (hx : Valid x) : Keeps Doubly (setElement numField id n x) := by
  unfold setElement
  refine (gives_elementArray_double id n).keepsBind (fun r hr => ?_)
  obtain ⟨a, ix⟩ := r
  simp only
  cases hs : arraySet a ix x with
  | halt => exact fun _ _ => trivial
  | ok o =>
    cases o with
    | none => exact fun vm h => h
    | some a' =>
      refine keeps_updSym_doubly _ _ (fun s hs' => ⟨hs'.num, ?_, hs'.code⟩)
      intro b hb
      cases hb
      unfold arraySet at hs
      split at hs
      · cases hs
      · cases hs
      · split at hs
        · cases hs
          intro v hv
          rcases List.mem_or_eq_of_mem_set hv with hv | hv
          · exact hr v hv
          · cases hv; exact hx
        · cases hs

theorem keeps_setNum_doubly (id : Nat) {x : Dbl} (hx : Valid x) (d : Symbol → Bool) :
    Keeps Doubly (updSym id (fun s => { s with num := x, defined := d s })) :=
  keeps_updSym_doubly _ _ (fun _ hs => ⟨hx, hs.arr, hs.code⟩)

theorem keeps_setNumericSimple_doubly (id : Nat) {x : Dbl} (hx : Valid x) : Keeps Doubly (setNumericSimple id x) := by
  unfold setNumericSimple
  keeps
  exact keeps_setNum_doubly _ hx _

theorem keeps_setNumeric_doubly (id n : Nat) {x : Dbl} (hx : Valid x) : Keeps Doubly (setNumeric id n x) := by
  unfold setNumeric
  split
  · exact keeps_setNumericSimple_doubly _ hx
  · exact keeps_setElement_doubly _ _ hx

theorem keeps_getNumericSimple_doubly (id : Nat) : Keeps Doubly (getNumericSimple id) := by
  unfold getNumericSimple
  refine Keeps.bind (Keeps.sym _) (fun _ => Keeps.bind (Keeps.assert _ _) (fun _ => Keeps.bind (Keeps.when ?_) (fun _ => ?_)))
  · exact keeps_setNum_doubly _ valid_zero _
  · exact (gives_sym_double _).keepsBind (fun s hs => keeps_push_doubly hs.num)

theorem keeps_callDef_doubly (id n : Nat) : Keeps Doubly (callDef id n) := by
  unfold callDef
  refine (gives_sym_double _).keepsBind (fun s hs => Keeps.bind (Keeps.assert _ _) (fun _ => Keeps.bind (Keeps.check _ _) (fun _ => ?_)))
  split
  · exact Keeps.halt _
  · rename_i d hd
    refine Keeps.bind Keeps.get (fun vm => Keeps.bind (Keeps.check _ _) (fun _ => Keeps.bind (Keeps.check _ _) (fun _ =>
      Keeps.bind Keeps.curBcode (fun _ => Keeps.bind (Keeps.check _ _) (fun _ => ?_)))))
    refine Keeps.bind (Keeps.modify (fun vm h => h.same rfl rfl rfl rfl rfl rfl rfl)) (fun _ => ?_)
    refine Keeps.bind (Keeps.modify (fun vm h => ⟨h.stack, h.tab, h.stored, h.immediate, (fun b hb => by cases hb; exact hs.code d hd), h.loops, h.param⟩)) (fun _ => ?_)
    refine Keeps.bind (Keeps.modify (fun vm h => h.same rfl rfl rfl rfl rfl rfl rfl)) (fun _ => ?_)
    split
    · exact Keeps.halt _
    · refine (gives_sym_double _).keepsBind (fun ps hps => Keeps.bind (Keeps.assert _ _) (fun _ => ?_))
      refine Keeps.bind (Keeps.modify (fun vm h => ⟨h.stack, h.tab, h.stored, h.immediate, h.defCode, h.loops, hps.num⟩)) (fun _ => ?_)
      refine gives_pop.keepsBind (fun x hx => Keeps.bind (keeps_setNum_doubly _ hx _) (fun _ => ?_))
      exact Keeps.modify (fun vm h => h.same rfl rfl rfl rfl rfl rfl rfl)
    · exact Keeps.fail _

theorem keeps_endDef_doubly : Keeps Doubly endDef := by
  intro vm h
  have hp := h.param
  refine (?_ : Keeps Doubly (do
    check vm.fn.codeState.code.isNone .unexpectedEndDef
    modify (fun vm => { vm with cs := vm.fn.codeState })
    modify (fun vm => { vm with fn := { vm.fn with codeState := { vm.fn.codeState with code := none } } })
    let _ ← sym vm.fn.paramId
    updSym vm.fn.paramId (fun s => { s with defined := vm.fn.paramDefined, num := vm.fn.paramVal }))) vm h
  keeps
  · exact Keeps.modify (fun vm h => h.same rfl rfl rfl rfl rfl rfl rfl)
  · exact Keeps.modify (fun vm h => h.same rfl rfl rfl rfl rfl rfl rfl)
  · exact keeps_setNum_doubly _ hp _

theorem keeps_defStatement_doubly (id n : Nat) : Keeps Doubly (defStatement id n) := by
  unfold defStatement
  refine Keeps.bind (Keeps.sym _) (fun _ => Keeps.bind (Keeps.assert _ _) (fun _ => Keeps.bind (Keeps.when ?_) (fun _ => ?_)))
  · refine Keeps.bind (Keeps.assert _ _) (fun _ => ?_)
    exact keeps_updSym_doubly _ _ (fun s hs => ⟨hs.num, hs.arr, (fun _ h => by cases h)⟩)
  refine Keeps.bind (Keeps.check _ _) (fun _ => gives_curBcode_double.keepsBind (fun bc hbc => Keeps.bind Keeps.get (fun vm => ?_)))
  cases hcopy : bcodeCopyDef bc vm.cs.pc with
  | halt => exact fun _ _ => trivial
  | ok body =>
    refine Keeps.bind (x := updSym _ _) ?_ (fun _ => keeps_setPc closed_doubly _)
    apply keeps_updSym_doubly
    intro s hs
    refine ⟨hs.num, hs.arr, ?_⟩
    intro d hd
    cases hd
    unfold bcodeCopyDef at hcopy
    split at hcopy
    · cases hcopy
    · cases hcopy
      intro i hi
      simp only [List.mem_append, List.mem_singleton] at hi
      rcases hi with hi | rfl
      · exact hbc i (List.mem_of_mem_drop ((List.takeWhile_sublist _).subset hi))
      · trivial

theorem keeps_setTopFor_doubly (f : ForLoop → ForLoop) (hf : ∀ x, ValidLoop x → ValidLoop (f x)) : Keeps Doubly (setTopFor f) := by
  refine Keeps.modify (fun vm h => h.withLoops (fun g hg => ?_))
  obtain ⟨y, hy, rfl | rfl⟩ := mem_modify hg
  · exact h.loops _ hy
  · exact hf _ (h.loops _ hy)

theorem keeps_forEntry_doubly (id : Nat) : Keeps Doubly (forEntry id) := by
  intro vm h
  simp only [forEntry, bind_apply, get_apply]
  cases findFor vm id with
  | some si =>
    simp only
    cases hf : vm.forStack[si]? with
    | none => trivial
    | some f =>
      refine h.withLoops (fun g hg => ?_)
      rcases List.mem_append.1 hg with hg | hg
      · exact h.loops _ (List.mem_of_mem_eraseIdx hg)
      · rw [List.mem_singleton.1 hg]
        exact h.loops _ (List.mem_of_getElem? hf)
  | none =>
    simp only
    refine (?_ : Keeps Doubly _) vm h
    refine Keeps.ite ?_ ?_
    · exact Keeps.bind (keeps_dumpForStack closed_doubly (by decide) _) (fun _ => Keeps.fail _)
    · refine Keeps.modify (fun vm h => h.withLoops (fun g hg => ?_))
      rcases List.mem_append.1 hg with hg | hg
      · exact h.loops _ hg
      · rw [List.mem_singleton.1 hg]
        exact ⟨valid_zero, valid_zero⟩

theorem keeps_forStatement_doubly (id : Nat) : Keeps Doubly (forStatement id) := by
  unfold forStatement
  refine Keeps.bind (keeps_traced closed_doubly (fun _ => keeps_dumpFor closed_doubly (by decide) _)) (fun _ => ?_)
  refine Keeps.bind (Keeps.sym _) (fun _ => Keeps.bind (Keeps.assert _ _) (fun _ => Keeps.bind (x := forTop id) ?_ (fun _ => ?_)))
  · unfold forTop
    exact Keeps.bind (keeps_forEntry_doubly _) (fun _ => Keeps.bind Keeps.get (fun _ => keeps_setTopFor_doubly _ (fun _ hx => hx)))
  · refine gives_pop.keepsBind (fun step hstep => Keeps.bind (keeps_setTopFor_doubly _ (fun _ hx => ⟨hx.1, hstep⟩)) (fun _ => ?_))
    refine gives_pop.keepsBind (fun limit hlimit => Keeps.bind (keeps_setTopFor_doubly _ (fun _ hx => ⟨hlimit, hx.2⟩)) (fun _ => ?_))
    refine gives_pop.keepsBind (fun x hx => Keeps.bind (keeps_setNum_doubly _ hx _) (fun _ => ?_))
    exact keeps_traced closed_doubly (fun _ => keeps_dumpForStack closed_doubly (by decide) _)

theorem keeps_next_doubly (si : Nat) : Keeps Doubly (next si) := by
  intro vm h
  simp only [next, bind_apply, get_apply]
  cases hf : vm.forStack[si]? with
  | none => trivial
  | some f =>
    have hl := h.loops _ (List.mem_of_getElem? hf)
    simp only
    refine (?_ : Keeps Doubly _) vm h
    refine (gives_sym_double _).keepsBind (fun s hs => ?_)
    refine Keeps.bind (Keeps.ite ?_ ?_) (fun _ => keeps_traced closed_doubly (fun _ => keeps_dumpForStack closed_doubly (by decide) _))
    · exact Keeps.modify (fun vm h => h.withLoops (fun g hg => h.loops _ (List.mem_of_mem_eraseIdx hg)))
    · refine Keeps.modify (fun vm h => ?_)
      have := h.withTab (h.tab.update f.symbolId (fun s' => { s' with num := Dbl.add s.num f.step })
        (fun s' hs' => ⟨Dbl.valid_add hs.num hl.2, hs'.arr, hs'.code⟩))
      exact this.same rfl rfl rfl rfl rfl rfl rfl

theorem keeps_nextVariable_doubly (id : Nat) : Keeps Doubly (nextVariable id) := by
  unfold nextVariable
  keeps
  · exact keeps_traced closed_doubly (fun _ => keeps_dumpFor closed_doubly (by decide) _)
  · exact keeps_next_doubly _
  · exact keeps_next_doubly _

theorem keeps_nextImplicit_doubly : Keeps Doubly nextImplicit := by
  unfold nextImplicit
  keeps
  · exact keeps_traced closed_doubly (fun _ => keeps_dumpFor closed_doubly (by decide) _)
  · exact keeps_next_doubly _

theorem keeps_inputNum_doubly (id n : Nat) : Keeps Doubly (inputNum id n) := by
  unfold inputNum
  refine Keeps.bind Keeps.inputRest (fun s => ?_)
  split
  · rename_i x t hc
    have hx := valid_convert hc
    keeps
    · exact keeps_setNumeric_doubly _ _ hx
    · exact Keeps.modify (fun vm h => h.same rfl rfl rfl rfl rfl rfl rfl)
    · exact keeps_inputAgain closed_doubly (by decide) _
  · exact keeps_inputAgain closed_doubly (by decide) _

theorem keeps_readNum_doubly (id n : Nat) : Keeps Doubly (readNum id n) := by
  unfold readNum
  refine Keeps.bind (keeps_findData closed_doubly (by decide)) (fun s => ?_)
  split
  · rename_i x hc
    exact keeps_setNumeric_doubly _ _ (valid_convert hc)
  · exact Keeps.fail _

theorem keeps_rndStep_doubly (env : Env) : Keeps Doubly (rndStep env) := by
  unfold rndStep
  refine Keeps.bind Keeps.get (fun vm => ?_)
  refine Keeps.bind (Keeps.modify (fun vm h => h.same rfl rfl rfl rfl rfl rfl rfl)) (fun _ => Keeps.ite (Keeps.pure _) ?_)
  exact Keeps.brk (keeps_push_doubly (Dbl.valid_div _ _))

theorem valid_sgn {x : Dbl} (h : Valid x) : Valid (sgn x) := by
  unfold sgn
  repeat' split
  · exact valid_minusOne
  · exact valid_one
  · exact h

theorem keeps_exec_doubly (env : Env) (i : Inst) (hi : ValidInst i) : Keeps Doubly (exec env i) := by
  have math : ∀ f ∈ [env.atan, env.cos, env.exp, env.log, env.sin, env.sqrt, env.tan], ∀ x, Valid x → Valid (f x) := env.math_double
  have plain : (∀ a, touches i a = true → a ≠ .num ∧ a ≠ .fn ∧ a ≠ .loop ∧ a ≠ .def_) → Keeps Doubly (exec env i) :=
    keeps_exec closed_doubly env i
  by_cases hp : ∀ a, touches i a = true → a ≠ .num ∧ a ≠ .fn ∧ a ≠ .loop ∧ a ≠ .def_
  · exact plain hp
  · clear plain
    cases i with
    | pushNum x => exact Keeps.brk (keeps_push_doubly hi)
    | getSimpleNum id => exact Keeps.brk (keeps_getNumericSimple_doubly _)
    | setSimpleNum id =>
      exact Keeps.brk (Keeps.bind (Keeps.sym _) (fun _ => gives_pop.keepsBind (fun x hx => keeps_setNumericSimple_doubly _ hx)))
    | dimNum id n => exact Keeps.brk (keeps_dimStatement_doubly _ _)
    | getParenNum id n =>
      simp only [exec, getParenNum]
      refine Keeps.brk (Keeps.bind (Keeps.sym _) (fun s => Keeps.bind (Keeps.assert _ _) (fun _ => Keeps.ite ?_ ?_)))
      · exact (gives_getElement_double _ _).keepsBind (fun x hx => keeps_push_doubly hx)
      · exact Keeps.bind (Keeps.assert _ _) (fun _ => keeps_callDef_doubly _ _)
    | getParenStr id n =>
      simp only [exec, getParenStr]
      refine Keeps.brk (Keeps.bind (Keeps.sym _) (fun s => Keeps.bind (Keeps.assert _ _) (fun _ => Keeps.ite ?_ ?_)))
      · exact Keeps.bind (keeps_getElement closed_doubly (by decide) (strField_ok (by decide)) _ _)
          (fun x => closed_doubly.pushStr (by decide) _)
      · exact Keeps.bind (Keeps.assert _ _) (fun _ => keeps_callDef_doubly _ _)
    | setArrayNum id n =>
      exact Keeps.brk (Keeps.bind (Keeps.sym _) (fun _ => gives_pop.keepsBind (fun x hx => keeps_setElement_doubly _ _ hx)))
    | neg => exact Keeps.brk (gives_pop.keepsBind (fun x hx => keeps_push_doubly (Dbl.valid_neg hx)))
    | arith o =>
      exact Keeps.brk (gives_pop.keepsBind (fun x hx => gives_pop.keepsBind (fun y hy => keeps_push_doubly (valid_arith env o hy hx))))
    | cmpNum r =>
      exact Keeps.brk (Keeps.bind closed_doubly.pop (fun _ => Keeps.bind closed_doubly.pop (fun _ => keeps_pushLogic_doubly _)))
    | cmpStr r => exact Keeps.brk (Keeps.bind (keeps_compareStrings closed_doubly) (fun _ => keeps_pushLogic_doubly _))
    | or =>
      exact Keeps.brk (Keeps.bind (keeps_popLogic closed_doubly) (fun _ => Keeps.bind (keeps_popLogic closed_doubly)
        (fun _ => keeps_push_doubly (Dbl.valid_ofInt _))))
    | and =>
      exact Keeps.brk (Keeps.bind (keeps_popLogic closed_doubly) (fun _ => Keeps.bind (keeps_popLogic closed_doubly)
        (fun _ => keeps_push_doubly (Dbl.valid_ofInt _))))
    | not => exact Keeps.brk (Keeps.bind (keeps_popLogic closed_doubly) (fun _ => keeps_push_doubly (Dbl.valid_ofInt _)))
    | for_ id => exact Keeps.brk (keeps_forStatement_doubly _)
    | nextVar id => exact Keeps.brk (keeps_nextVariable_doubly _)
    | nextImp => exact Keeps.brk keeps_nextImplicit_doubly
    | def_ id n => exact Keeps.brk (keeps_defStatement_doubly _ _)
    | endDef => exact Keeps.brk keeps_endDef_doubly
    | inputNum id n => exact keeps_inputNum_doubly _ _
    | readNum id n => exact Keeps.brk (keeps_readNum_doubly _ _)
    | bi b =>
      cases b with
      | rnd => exact keeps_rndStep_doubly env
      | asc => exact Keeps.brk (Keeps.bind closed_doubly.popStr (fun _ => keeps_push_doubly (Dbl.valid_ofInt _)))
      | len => exact Keeps.brk (Keeps.bind closed_doubly.popStr (fun _ => keeps_push_doubly (Dbl.valid_ofInt _)))
      | abs => exact Keeps.brk (gives_pop.keepsBind (fun x hx => keeps_push_doubly (Dbl.valid_fabs hx)))
      | int => exact Keeps.brk (gives_pop.keepsBind (fun x hx => keeps_push_doubly (Dbl.valid_floor hx)))
      | sgn => exact Keeps.brk (gives_pop.keepsBind (fun x hx => keeps_push_doubly (valid_sgn hx)))
      | atn => exact Keeps.brk (gives_pop.keepsBind (fun x hx => keeps_push_doubly (math _ (by simp) x hx)))
      | cos => exact Keeps.brk (gives_pop.keepsBind (fun x hx => keeps_push_doubly (math _ (by simp) x hx)))
      | exp => exact Keeps.brk (gives_pop.keepsBind (fun x hx => keeps_push_doubly (math _ (by simp) x hx)))
      | sin => exact Keeps.brk (gives_pop.keepsBind (fun x hx => keeps_push_doubly (math _ (by simp) x hx)))
      | sqr => exact Keeps.brk (gives_pop.keepsBind (fun x hx => keeps_push_doubly (math _ (by simp) x hx)))
      | tan => exact Keeps.brk (gives_pop.keepsBind (fun x hx => keeps_push_doubly (math _ (by simp) x hx)))
      | log =>
        exact Keeps.brk (gives_pop.keepsBind (fun x hx => Keeps.bind (Keeps.check _ _) (fun _ => keeps_push_doubly (math _ (by simp) x hx))))
      | val =>
        simp only [exec, builtinOp, valFn]
        refine Keeps.brk (Keeps.bind closed_doubly.popStr (fun s => ?_))
        split
        · rename_i x hc
          exact keeps_push_doubly (valid_convert hc)
        · exact Keeps.fail _
      | _ => exact absurd (fun a ha => by revert ha; cases a <;> simp [touches]) hp
    | _ => exact absurd (fun a ha => by revert ha; cases a <;> simp [touches]) hp

theorem keeps_execute_doubly (env : Env) : Keeps Doubly (execute env) := by
  unfold execute
  refine gives_curBcode_double.keepsBind (fun bc hbc => Keeps.bind Keeps.get (fun vm => ?_))
  split
  · exact Keeps.halt _
  · rename_i i hi
    refine Keeps.bind (keeps_exec_doubly env i (hbc i (List.mem_of_getElem? hi))) (fun f => ?_)
    keeps
    exact Keeps.modify (fun vm h => h.same rfl rfl rfl rfl rfl rfl rfl)

theorem doubly_ensureProgramCompiled {vm vm' : VM} {b : Bool} (h : Doubly vm)
    (hr : ensureProgramCompiled vm = .ok (b, vm')) : Doubly vm' := by
  unfold ensureProgramCompiled at hr
  split at hr
  · split at hr
    · simp at hr
    · split at hr
      · simp at hr
      · rename_i hp
        simp at hr; obtain ⟨_, rfl⟩ := hr
        exact h.withTab (parseSource_valid (validTab_fresh _) hp).1
      · rename_i hp
        split at hr
        · simp at hr
        · simp at hr; obtain ⟨_, rfl⟩ := hr
          have := parseSource_valid (validTab_fresh _) hp
          exact ⟨(fun _ e => by cases e), this.1, (fun b hb => by cases hb; exact this.2 _ rfl), h.immediate, h.defCode, (fun _ e => by cases e), h.param⟩
  · simp at hr; exact hr.2 ▸ h

theorem moment_doubly {vm : VM} (h : Moment vm) : Doubly vm := by
  induction h with
  | start kw tb tf w =>
    exact ⟨(fun _ e => by cases e), validTab_start, (fun _ e => by cases e), (fun _ e => by cases e), (fun _ e => by cases e),
      (fun _ e => by cases e), valid_zero⟩
  | world w _ ih => exact ih.same rfl rfl rfl rfl rfl rfl rfl
  | enter num text _ _ he ih =>
    unfold vmEnterSourceLine at he
    split at he
    · simp at he
    · simp at he; subst he
      exact ⟨ih.stack, ih.tab, (fun _ e => by cases e), ih.immediate, ih.defCode, ih.loops, ih.param⟩
  | delete num _ ih =>
    unfold vmDeleteSourceLine
    split
    · exact ih
    · split
      · exact ih
      · exact ⟨ih.stack, ih.tab, (fun _ e => by cases e), ih.immediate, ih.defCode, ih.loops, ih.param⟩
  | new _ ih => exact ⟨ih.stack, ih.tab, (fun _ e => by cases e), ih.immediate, ih.defCode, ih.loops, ih.param⟩
  | clearNames _ ih => exact ih.withTab (validTab_fresh _)
  | clearValues _ ih => exact ih.withTab ih.tab.clear
  | load name c b _ he ih =>
    unfold vmLoadSource at he
    split at he
    · simp at he
    · simp at he; exact he.2 ▸ ih
    · simp at he; obtain ⟨_, rfl⟩ := he
      exact ⟨ih.stack, ih.tab, (fun _ e => by cases e), ih.immediate, ih.defCode, ih.loops, ih.param⟩
  | renum _ _ _ _ he ih =>
    obtain ⟨src, w, rfl⟩ := renumber_frame he
    exact ih.same rfl rfl rfl rfl rfl rfl rfl
  | compile b _ he ih => exact doubly_ensureProgramCompiled ih he
  | reset _ ih => exact ⟨(fun _ e => by cases e), ih.tab, ih.stored, ih.immediate, ih.defCode, (fun _ e => by cases e), ih.param⟩
  | at_ _ _ ih => exact ih.same rfl rfl rfl rfl rfl rfl rfl
  | stopped _ _ _ ih => exact ih.same rfl rfl rfl rfl rfl rfl rfl
  | noImmediate _ ih => exact ⟨ih.stack, ih.tab, ih.stored, (fun _ e => by cases e), ih.defCode, ih.loops, ih.param⟩
  | immediateFailed _ _ _ hp ih => exact ih.withTab (parseSource_valid ih.tab hp).1
  | immediate _ _ _ hp _ ih =>
    have := parseSource_valid ih.tab hp
    exact ⟨ih.stack, this.1, ih.stored, (fun b hb => by cases hb; exact this.2 _ rfl), ih.defCode, ih.loops, ih.param⟩
  | step env _ he ih =>
    have := keeps_execute_doubly env _ ih
    rw [he] at this; exact this
  | error env _ he ih =>
    have := keeps_execute_doubly env _ ih
    rw [he] at this; exact this

end V
end LB
