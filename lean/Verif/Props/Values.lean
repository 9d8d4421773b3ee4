import Verif.Proofs.Values
import Verif.Proofs.Demo
/- C26–C29, C48, C49: strings, logical operators, random numbers, counts. -/
namespace LB
open Spec

/-! C49 -/

/-- C49.  A value that is not a whole number from 0 to 4294967295 (a fraction, negative, too large, infinite, NaN)
is refused wherever a count or position is required, and changes no variable. -/
theorem C49_refused (env : Env) (vm : VM) (x : Dbl) (hat : CountAt vm x) (hx : ∀ n, ¬ IsCount x n) :
    ∃ e vm', (e = .notNonNegative ∨ e = .outOfRange) ∧ V.execute env vm = .err e vm' ∧ vm'.st = vm.st ∧
      vm'.world = vm.world := by
  cases hat with
  | spc hat hs =>
    rename_i rest
    obtain ⟨e, he, h⟩ := V.popUnsigned_other hs hx
    refine ⟨e, { vm with stack := rest }, he, ?_, rfl, rfl⟩
    rw [V.execute_at env hat]
    simp only [V.exec, V.brk_apply, V.printSpc, V.bind_apply, h]
  | tab hat hs =>
    rename_i rest
    obtain ⟨e, he, h⟩ := V.popUnsigned_other hs hx
    refine ⟨e, { vm with stack := rest }, he, ?_, rfl, rfl⟩
    rw [V.execute_at env hat]
    simp only [V.exec, V.brk_apply, V.printTab, V.bind_apply, h]
  | seed hat hs =>
    rename_i rest
    obtain ⟨e, he, h⟩ := V.popUnsigned_other hs hx
    refine ⟨e, { vm with stack := rest }, he, ?_, rfl, rfl⟩
    rw [V.execute_at env hat]
    simp only [V.exec, V.brk_apply, V.bind_apply, h]
  | left hat hne hs =>
    rename_i rest
    cases hss : vm.strstack with
    | nil => exact absurd hss hne
    | cons s ss =>
      obtain ⟨e, he, h⟩ := V.popUnsigned_other (vm := { vm with strstack := ss }) hs hx
      refine ⟨e, { vm with strstack := ss, stack := rest }, he, ?_, rfl, rfl⟩
      rw [V.execute_at env hat]
      simp only [V.exec, V.brk_apply, V.builtinOp, V.leftFn, V.bind_apply, V.popStr, hss, h]
  | right hat hne hs =>
    rename_i rest
    cases hss : vm.strstack with
    | nil => exact absurd hss hne
    | cons s ss =>
      obtain ⟨e, he, h⟩ := V.popUnsigned_other (vm := { vm with strstack := ss }) hs hx
      refine ⟨e, { vm with strstack := ss, stack := rest }, he, ?_, rfl, rfl⟩
      rw [V.execute_at env hat]
      simp only [V.exec, V.brk_apply, V.builtinOp, V.rightFn, V.bind_apply, V.popStr, hss, h]
  | midLength hat hne hs =>
    rename_i rest
    cases hss : vm.strstack with
    | nil => exact absurd hss hne
    | cons s ss =>
      obtain ⟨e, he, h⟩ := V.popUnsigned_other (vm := { vm with strstack := ss }) hs hx
      refine ⟨e, { vm with strstack := ss, stack := rest }, he, ?_, rfl, rfl⟩
      rw [V.execute_at env hat]
      simp only [V.exec, V.brk_apply, V.builtinOp, V.midFn, V.bind_apply, V.popStr, hss, h]
  | midPosition hat hne hs hy =>
    rename_i y n rest
    cases hss : vm.strstack with
    | nil => exact absurd hss hne
    | cons s ss =>
      have h1 := V.popUnsigned_count (vm := { vm with strstack := ss }) hs hy
      obtain ⟨e, he, h⟩ := V.popUnsigned_other (vm := { vm with strstack := ss, stack := x :: rest }) rfl hx
      refine ⟨e, { vm with strstack := ss, stack := rest }, he, ?_, rfl, rfl⟩
      rw [V.execute_at env hat]
      simp only [V.exec, V.brk_apply, V.builtinOp, V.midFn, V.bind_apply, V.popStr, hss, h1, h]

/-- C49.  Array access and DIM with a subscript that is not a whole number from 0 to 4294967295 are refused.  An
access changes no variable.  `xs` are the subscripts, one or two, the last one first. -/
theorem C49_subscript_refused (env : Env) (vm : VM) (xs rest : List Dbl) (i : Inst) (id n : Nat) (s : Symbol)
    (hat : At vm i) (hsym : vm.st.psym[id]? = some s) (harr : s.kind = .array) (hn : xs.length = n) (h2 : n ≤ 2)
    (hx : ∃ x ∈ xs, ∀ n, ¬ IsCount x n)
    (h : (i = .getParenNum id n ∧ s.type = .num ∧ vm.stack = xs ++ rest) ∨
         (i = .getParenStr id n ∧ s.type = .str ∧ vm.stack = xs ++ rest) ∨
         (i = .setArrayStr id n ∧ s.type = .str ∧ vm.stack = xs ++ rest ∧ vm.strstack ≠ []) ∨
         (∃ v, i = .setArrayNum id n ∧ s.type = .num ∧ vm.stack = v :: (xs ++ rest))) :
    ∃ e vm', (e = .indexNotNonNegative ∨ e = .indexOutOfRange) ∧ V.execute env vm = .err e vm' ∧ vm'.st = vm.st ∧
      vm'.world = vm.world := by
  have hsy : V.sym id vm = .ok s vm := V.sym_ok hsym
  have hd : n ≤ maxDimensions := h2
  rcases h with ⟨rfl, ht, hs⟩ | ⟨rfl, ht, hs⟩ | ⟨rfl, ht, hs, hne⟩ | ⟨v, rfl, ht, hs⟩
  · obtain ⟨e, r, he, h⟩ := V.popIndexes_other hs hn hd hx
    refine ⟨e, { vm with stack := r }, he, ?_, rfl, rfl⟩
    rw [V.execute_at env hat]
    simp [V.exec, V.getParenNum, V.getElement, V.elementArray, hsy, ht, harr, V.numField, V.isArr, h]
  · obtain ⟨e, r, he, h⟩ := V.popIndexes_other hs hn hd hx
    refine ⟨e, { vm with stack := r }, he, ?_, rfl, rfl⟩
    rw [V.execute_at env hat]
    simp [V.exec, V.getParenStr, V.getElement, V.elementArray, hsy, ht, harr, V.strField, V.isArr, h]
  · cases hss : vm.strstack with
    | nil => exact absurd hss hne
    | cons t ss =>
      obtain ⟨e, r, he, h⟩ := V.popIndexes_other (vm := { vm with strstack := ss }) hs hn hd hx
      refine ⟨e, { vm with strstack := ss, stack := r }, he, ?_, rfl, rfl⟩
      have hsy' : V.sym id { vm with strstack := ss } = .ok s { vm with strstack := ss } := V.sym_ok hsym
      rw [V.execute_at env hat]
      simp [V.exec, V.setElement, V.elementArray, hsy, hsy', ht, harr, V.strField, V.isArr, h, V.popStr, hss]
  · obtain ⟨e, r, he, h⟩ := V.popIndexes_other (vm := { vm with stack := xs ++ rest }) rfl hn hd hx
    refine ⟨e, { vm with stack := r }, he, ?_, rfl, rfl⟩
    have hsy' : V.sym id { vm with stack := xs ++ rest } = .ok s { vm with stack := xs ++ rest } := V.sym_ok hsym
    rw [V.execute_at env hat]
    simp [V.exec, V.setElement, V.elementArray, hsy, hsy', ht, harr, V.numField, V.isArr, h, V.pop, hs]

/-- C49.  DIM with a largest subscript that is not a whole number from 0 to 4294967295 is refused. -/
theorem C49_dim_refused (env : Env) (vm : VM) (xs rest : List Dbl) (id n : Nat) (s : Symbol)
    (hsym : vm.st.psym[id]? = some s) (harr : s.kind = .array) (hnum : s.numarr = none) (hstr : s.strarr = none)
    (hn : xs.length = n) (h2 : n ≤ 2) (hs : vm.stack = xs ++ rest)
    (hx : ∃ x ∈ xs, ∀ n, ¬ IsCount x n)
    (h : (At vm (.dimNum id n) ∧ s.type = .num) ∨ (At vm (.dimStr id n) ∧ s.type = .str)) :
    ∃ e vm', (e = .indexNotNonNegative ∨ e = .indexOutOfRange) ∧ V.execute env vm = .err e vm' ∧ vm'.st = vm.st ∧
      vm'.world = vm.world := by
  have hsy : V.sym id vm = .ok s vm := V.sym_ok hsym
  obtain ⟨e, r, he, h'⟩ := V.popIndexes_other hs hn (show n ≤ maxDimensions from h2) hx
  refine ⟨e, { vm with stack := r }, he, ?_, rfl, rfl⟩
  rcases h with ⟨hat, ht⟩ | ⟨hat, ht⟩
  · rw [V.execute_at env hat]
    simp [V.exec, V.dimStatement, hsy, ht, harr, hnum, V.numField, V.isArr, h']
  · rw [V.execute_at env hat]
    simp [V.exec, V.dimStatement, hsy, ht, harr, hstr, V.strField, V.isArr, h']

/-- C49.  Subscripts that are whole numbers from 0 to 4294967295 are used unchanged: the value read is the element
with exactly these subscripts, and the value written goes there. -/
theorem C49_subscript_accepted (env : Env) (vm : VM) (xs rest : List Dbl) (ns : List Nat) (id n : Nat) (s : Symbol)
    (a : BArray Dbl) (hsym : vm.st.psym[id]? = some s) (harr : s.kind = .array) (ht : s.type = .num)
    (hdef : s.defined = true) (ha : s.numarr = some a) (hn : xs.length = n) (h2 : n ≤ 2)
    (hx : AreCounts xs ns) :
    (At vm (.getParenNum id n) → vm.stack = xs ++ rest → rest.length < 16 → ∀ v, arrayGet a ns = .ok (some v) →
      V.execute env vm = .ok () { vm with stack := v :: rest, cs := following vm.cs }) ∧
    (At vm (.setArrayNum id n) → ∀ v a', vm.stack = v :: (xs ++ rest) → arraySet a ns v = .ok (some a') →
      V.execute env vm = .ok () { vm with
        stack := rest, cs := following vm.cs, st := symUpdate vm.st id (fun s => { s with numarr := some a' }) }) := by
  have hsy : V.sym id vm = .ok s vm := V.sym_ok hsym
  constructor
  · intro hat hs hroom v hv
    have h := V.popIndexes_counts hs hn (show n ≤ maxDimensions from h2) hx
    have hsy' : V.sym id { vm with stack := rest } = .ok s { vm with stack := rest } := V.sym_ok hsym
    have hr : ¬ rest.length ≥ maxNumStack := by simp [maxNumStack]; omega
    rw [V.execute_at env hat]
    simp [V.exec, V.getParenNum, V.getElement, V.elementArray, hsy, hsy', ht, harr, V.numField, V.isArr, h, hdef, ha, hv,
      V.lift, V.push, hr]
  · intro hat v a' hs hv
    have h := V.popIndexes_counts (vm := { vm with stack := xs ++ rest }) rfl hn (show n ≤ maxDimensions from h2) hx
    have hsy' : V.sym id { vm with stack := xs ++ rest } = .ok s { vm with stack := xs ++ rest } := V.sym_ok hsym
    have hsy'' : V.sym id { vm with stack := rest } = .ok s { vm with stack := rest } := V.sym_ok hsym
    rw [V.execute_at env hat]
    simp [V.exec, V.setElement, V.elementArray, hsy, hsy', hsy'', ht, harr, V.numField, V.isArr, h, hdef, ha, hv,
      V.lift, V.pop, hs, V.updSym]

/-- C49.  Every whole number from 0 to 4294967295 is used unchanged: SPC writes that many blanks, and the
generator is seeded with that number. -/
theorem C49_accepted (env : Env) (vm : VM) (x : Dbl) (n : Nat) (rest : List Dbl) (hs : vm.stack = x :: rest)
    (hx : IsCount x n) :
    (At vm .printSpc → ∃ vm', V.execute env vm = .ok () vm' ∧ vm'.world.out = vm.world.out ++ List.replicate n ' ' ∧
      vm'.stack = rest) ∧
    (At vm .seed → V.execute env vm = .ok () { vm with
      world := { vm.world with rng := env.srand n }, stack := rest, cs := following vm.cs }) := by
  have h := V.popUnsigned_count hs hx
  constructor
  · intro hat
    rw [V.execute_at env hat]
    simp only [V.exec, V.brk_apply, V.printSpc, V.bind_apply, h, V.get_apply, V.outCol, V.out, V.modify_apply]
    exact ⟨_, rfl, rfl, rfl⟩
  · intro hat
    rw [V.execute_at env hat]
    simp only [V.exec, V.brk_apply, V.bind_apply, h, V.modify_apply]

example : IsCount (.fin 4294967295) 4294967295 ∧ IsCount .nzero 0 ∧ ∀ n, ¬ IsCount (.fin (-1)) n := by
  refine ⟨⟨.inl rfl, by decide⟩, ⟨.inr ⟨rfl, rfl⟩, by decide⟩, ?_⟩
  rintro n ⟨h | ⟨h, -⟩, -⟩
  · have h' : (-1 : Rat) = ((n : Int) : Rat) := by simpa using h
    rw [show (-1 : Rat) = ((-1 : Int) : Rat) from rfl] at h'
    have : (-1 : Int) = n := by exact_mod_cast h'
    omega
  · cases h

example : CountAt { Demo.machine [.bi .mid3] [] with stack := [.fin 2, .fin (1/2)], strstack := ["abc".toList] } (.fin (1/2)) :=
  .midPosition (n := 2) ⟨.stored, _, rfl, rfl, rfl⟩ (by simp) rfl ⟨.inl rfl, by decide⟩

example : AreCounts [.fin 3, .nzero] [3, 0] ∧ (∃ x ∈ [Dbl.fin 1, .nan], ∀ n, ¬ IsCount x n) :=
  ⟨⟨⟨.inl rfl, by decide⟩, ⟨.inr ⟨rfl, rfl⟩, by decide⟩, trivial⟩,
   .nan, by simp, by rintro n ⟨h | ⟨h, -⟩, -⟩ <;> cases h⟩

set_option maxRecDepth 100000 in
example : Demo.shows "A(2,3)=7\nPRINT A(2,3)\nPRINT A(1/2,3)\nDIM B(-1)\n"
    = .ok "> >  7 \n> > ".toList := by decide +kernel

/-! C26 -/

/-- C26.  LEFT$(s,n): the first n characters, or all of them. -/
theorem C26_left (env : Env) (vm : VM) (s : CStr) (ss : List CStr) (x : Dbl) (n : Nat) (rest : List Dbl)
    (hat : At vm (.bi .left)) (hss : vm.strstack = s :: ss) (hs : vm.stack = x :: rest) (hx : IsCount x n)
    (hlen : s.length ≤ 255) (hroom : vm.strstack.length ≤ 8) :
    V.execute env vm = .ok () { vm with stack := rest, strstack := s.take n :: ss, cs := following vm.cs } := by
  have h := V.popUnsigned_count (vm := { vm with strstack := ss }) hs hx
  have hr : ¬ ss.length ≥ maxStrStack := by rw [hss] at hroom; simp [maxStrStack] at hroom ⊢; omega
  rw [V.execute_at env hat]
  simp only [V.exec, V.brk_apply, V.builtinOp, V.leftFn, V.bind_apply, V.popStr, hss, h, V.check_apply, V.pushStr]
  have hb : ¬ ((if n > s.length then s.length else n) + 1 > V.strBuf) := by simp only [V.strBuf]; split <;> omega
  simp only [decide_eq_true_eq, if_neg hb, hr, if_false]
  by_cases hn : n > s.length
  · simp only [if_pos hn]
    rw [List.take_of_length_le (l := s) (i := n) (by omega), List.take_of_length_le (by omega)]
  · simp only [if_neg hn]

/-- C26.  RIGHT$(s,n): the last n characters, or all of them. -/
theorem C26_right (env : Env) (vm : VM) (s : CStr) (ss : List CStr) (x : Dbl) (n : Nat) (rest : List Dbl)
    (hat : At vm (.bi .right)) (hss : vm.strstack = s :: ss) (hs : vm.stack = x :: rest) (hx : IsCount x n)
    (hlen : s.length ≤ 255) (hroom : vm.strstack.length ≤ 8) :
    V.execute env vm = .ok () { vm with stack := rest, strstack := s.drop (s.length - n) :: ss, cs := following vm.cs } := by
  have h := V.popUnsigned_count (vm := { vm with strstack := ss }) hs hx
  have hr : ¬ ss.length ≥ maxStrStack := by rw [hss] at hroom; simp [maxStrStack] at hroom ⊢; omega
  rw [V.execute_at env hat]
  simp only [V.exec, V.brk_apply, V.builtinOp, V.rightFn, V.bind_apply, V.popStr, hss, h, V.check_apply, V.pushStr]
  have hb : ¬ ((if n > s.length then s.length else n) + 1 > V.strBuf) := by simp only [V.strBuf]; split <;> omega
  simp only [decide_eq_true_eq, if_neg hb, hr, if_false]
  by_cases hn : n > s.length
  · simp only [if_pos hn]
    rw [show s.length - s.length = s.length - n by omega, List.take_of_length_le (by simp)]
  · simp only [if_neg hn]
    rw [List.take_of_length_le (by simp; omega)]

/-- C26.  MID$(s,p,n) with 1 ≤ p ≤ LEN(s): the n characters starting at position p, or as many as there are. -/
theorem C26_mid (env : Env) (vm : VM) (s : CStr) (ss : List CStr) (x y : Dbl) (p n : Nat) (rest : List Dbl)
    (hat : At vm (.bi .mid3)) (hss : vm.strstack = s :: ss) (hs : vm.stack = y :: x :: rest) (hx : IsCount x p)
    (hy : IsCount y n) (h1 : 1 ≤ p) (h2 : p ≤ s.length)
    (hlen : s.length ≤ 255) (hroom : vm.strstack.length ≤ 8) :
    V.execute env vm = .ok () { vm with stack := rest, strstack := (s.drop (p - 1)).take n :: ss, cs := following vm.cs } := by
  have ha := V.popUnsigned_count (vm := { vm with strstack := ss }) hs hy
  have hb := V.popUnsigned_count (vm := { vm with strstack := ss, stack := x :: rest }) rfl hx
  have hr : ¬ ss.length ≥ maxStrStack := by rw [hss] at hroom; simp [maxStrStack] at hroom ⊢; omega
  rw [V.execute_at env hat]
  simp only [V.exec, V.brk_apply, V.builtinOp, V.midFn, V.bind_apply, V.popStr, hss, ha, hb, V.check_apply, V.pushStr]
  have hc : ¬ (p < 1 ∨ p > s.length) := by omega
  have hd : ¬ ((if n > s.length - p + 1 then s.length - p + 1 else n) + 1 > V.strBuf) := by
    simp only [V.strBuf]; split <;> omega
  simp only [decide_eq_true_eq, if_neg hc, if_neg hd, hr, if_false]
  by_cases hn : n > s.length - p + 1
  · simp only [if_pos hn]
    rw [List.take_of_length_le (by simp; omega), List.take_of_length_le (by simp; omega)]
  · simp only [if_neg hn]

/-- C26.  MID$(s,p,n) with another position stops with an error and changes no variable. -/
theorem C26_mid_error (env : Env) (vm : VM) (s : CStr) (ss : List CStr) (x y : Dbl) (p n : Nat) (rest : List Dbl)
    (hat : At vm (.bi .mid3)) (hss : vm.strstack = s :: ss) (hs : vm.stack = y :: x :: rest) (hx : IsCount x p)
    (hy : IsCount y n) (h : p < 1 ∨ s.length < p) :
    V.execute env vm = .err .stringIndex { vm with stack := rest, strstack := ss } := by
  have ha := V.popUnsigned_count (vm := { vm with strstack := ss }) hs hy
  have hb := V.popUnsigned_count (vm := { vm with strstack := ss, stack := x :: rest }) rfl hx
  rw [V.execute_at env hat]
  simp only [V.exec, V.brk_apply, V.builtinOp, V.midFn, V.bind_apply, V.popStr, hss, ha, hb, V.check_apply]
  have hc : (p < 1 ∨ p > s.length) := h
  simp only [decide_eq_true_eq, if_pos hc]

/-- C26.  LEN(s) is the number of characters. -/
theorem C26_len (env : Env) (vm : VM) (s : CStr) (ss : List CStr)
    (hat : At vm (.bi .len)) (hss : vm.strstack = s :: ss) (hlen : s.length ≤ 255) (hroom : vm.stack.length < 16) :
    V.execute env vm = .ok () { vm with
      stack := .fin s.length :: vm.stack, strstack := ss, cs := following vm.cs } := by
  have hr : ¬ vm.stack.length ≥ maxNumStack := by simp [maxNumStack]; omega
  rw [V.execute_at env hat]
  simp only [V.exec, V.brk_apply, V.builtinOp, V.bind_apply, V.popStr, hss, V.push, hr, if_false]
  rw [Dbl.ofInt_exact _ (by omega), Rat.intCast_natCast]

/-- C26.  LEFT$(s,n)+RIGHT$(s,LEN(s)-n) = s for n ≤ LEN(s): running the code of the expression
(LEFT$, then s and LEN(s)-n and RIGHT$, then +) gives s back. -/
theorem C26_split (env : Env) (vm : VM) (s : CStr) (ss : List CStr) (n : Nat) (rest : List Dbl)
    (hcode : ∀ k i, [Inst.bi .left, .pushStr s, .pushNum (.fin ((s.length - n : Nat) : Int)), .bi .right, .concat][k]? = some i →
      instAt vm (vm.cs.pc + k) = some i)
    (hss : vm.strstack = s :: ss) (hs : vm.stack = .fin (n : Int) :: rest) (hn : n ≤ s.length)
    (hlen : s.length ≤ 255) (h1 : vm.strstack.length < 8) (h2 : vm.stack.length ≤ 16) :
    after env 5 vm = some { vm with
      stack := rest, strstack := s :: ss, cs := { vm.cs with pc := vm.cs.pc + 5 } } := by
  have hr1 : ss.length < 7 := by rw [hss] at h1; simp at h1; omega
  have hr2 : rest.length < 16 := by rw [hs] at h2; simp at h2; omega
  have toAt : ∀ (v : VM) (i : Inst) (pc : Nat), v.cs.code = vm.cs.code → v.stored = vm.stored → v.immediate = vm.immediate →
      v.defCode = vm.defCode → v.cs.pc = pc → instAt vm pc = some i → At v i := by
    intro v i pc e1 e2 e3 e4 e5 hi
    simp only [instAt] at hi
    cases hc : vm.cs.code with
    | none => simp [hc] at hi
    | some r =>
      cases hb : (V.codeOf vm r).bcode with
      | none => simp [hc, hb] at hi
      | some b =>
        have : V.codeOf v r = V.codeOf vm r := by cases r <;> simp [V.codeOf, e2, e3, e4]
        exact ⟨r, b, by rw [e1, hc], by rw [this, hb], by rw [e5]; simpa [hc, hb] using hi⟩
  have c0 := hcode 0 _ rfl
  have c1 := hcode 1 _ rfl
  have c2 := hcode 2 _ rfl
  have c3 := hcode 3 _ rfl
  have c4 := hcode 4 _ rfl
  unfold after
  rw [C26_left env vm s ss (.fin (n : Int)) n rest (toAt _ _ _ rfl rfl rfl rfl rfl c0) hss hs ⟨.inl rfl, by omega⟩ hlen (by omega)]
  simp only
  unfold after
  rw [V.execute_at env (i := .pushStr s) (toAt { vm with stack := rest, strstack := s.take n :: ss, cs := following vm.cs } _ _ rfl rfl rfl rfl rfl c1)]
  simp only [V.exec, V.brk_apply, V.pushStr, List.length_cons, maxStrStack, show ¬ ss.length + 1 ≥ 8 by omega, if_false]
  unfold after
  rw [V.execute_at env (i := .pushNum (.fin ((s.length - n : Nat) : Int))) (toAt { vm with stack := rest, strstack := s :: s.take n :: ss, cs := following (following vm.cs) } _ _ rfl rfl rfl rfl rfl c2)]
  simp only [V.exec, V.brk_apply, V.push, maxNumStack, show ¬ rest.length ≥ 16 by omega, if_false]
  unfold after
  rw [C26_right env _ s (s.take n :: ss) (.fin ((s.length - n : Nat) : Int)) (s.length - n) rest (toAt { vm with stack := .fin ((s.length - n : Nat) : Int) :: rest, strstack := s :: s.take n :: ss, cs := following (following (following vm.cs)) } _ _ rfl rfl rfl rfl rfl c3)
    rfl rfl ⟨.inl rfl, by omega⟩ hlen (by simp; omega)]
  simp only
  unfold after
  rw [V.execute_at env (i := .concat) (toAt { vm with stack := rest, strstack := s.drop (s.length - (s.length - n)) :: s.take n :: ss, cs := following (following (following (following vm.cs))) } _ _ rfl rfl rfl rfl rfl c4)]
  simp only [V.exec, V.brk_apply, V.bind_apply, V.popStr, V.check_apply, V.pushStr, maxStrStack]
  have hb : ¬ ((s.take n).length + (s.drop (s.length - (s.length - n))).length + 1 > V.strBuf) := by
    simp [V.strBuf]; omega
  simp only [decide_eq_true_eq, if_neg hb, show ¬ ss.length ≥ 8 by omega, if_false]
  rw [show s.length - (s.length - n) = n by omega, List.take_append_drop]
  simp [after, following]

private def splitDemo : VM := { Demo.machine [.bi .left, .pushStr "abc".toList, .pushNum (.fin ((2 : Nat) : Int)), .bi .right, .concat] [] with
    stack := [.fin ((1 : Nat) : Int)], strstack := ["abc".toList] }

example : (∀ k i, [Inst.bi .left, .pushStr "abc".toList, .pushNum (.fin (("abc".toList.length - 1 : Nat) : Int)), .bi .right, .concat][k]? = some i →
      instAt splitDemo (splitDemo.cs.pc + k) = some i) ∧ splitDemo.strstack = ["abc".toList] ∧
      splitDemo.stack = [.fin ((1 : Nat) : Int)] := by
  refine ⟨?_, rfl, rfl⟩
  intro k i h
  match k, h with
  | 0, h => cases h; rfl
  | 1, h => cases h; rfl
  | 2, h => cases h; rfl
  | 3, h => cases h; rfl
  | 4, h => cases h; rfl

set_option maxRecDepth 100000 in
example : Demo.shows "PRINT LEFT$(\"ABC\",9);RIGHT$(\"ABC\",2);MID$(\"ABC\",2,1);LEN(\"ABC\")\n"
    = .ok "> ABCBCB 3 \n".toList := by decide +kernel

/-! C27 -/

/-- C27.  The comparison operators on strings give -1 when the relation holds and 0 otherwise. -/
theorem C27_compare (env : Env) (vm : VM) (r : Rel) (s t : CStr) (ss : List CStr)
    (hat : At vm (.cmpStr r)) (hss : vm.strstack = t :: s :: ss) (hroom : vm.stack.length < 16) :
    (relStrings r s t → V.execute env vm = .ok () { vm with
      stack := .fin (-1) :: vm.stack, strstack := ss, cs := following vm.cs }) ∧
    (¬ relStrings r s t → V.execute env vm = .ok () { vm with
      stack := .fin 0 :: vm.stack, strstack := ss, cs := following vm.cs }) := by
  have hr : ¬ vm.stack.length ≥ maxNumStack := by simp [maxNumStack]; omega
  rw [V.execute_at env hat, ← V.relStr_spec]
  simp only [V.exec, V.brk_apply, V.bind_apply, V.compareStrings, V.popStr, hss, V.pure_apply, V.pushLogic, V.push, hr,
    if_false]
  constructor
  · intro h; simp [h]
  · intro h; simp [h]

/-- C27.  The order on strings is total: exactly one of <, =, > holds; <=, >= and <> are the corresponding unions and
complement. -/
theorem C27_total (s t : CStr) :
    (relStrings .lt s t ∨ relStrings .eq s t ∨ relStrings .gt s t) ∧
    ¬ (relStrings .lt s t ∧ relStrings .eq s t) ∧ ¬ (relStrings .lt s t ∧ relStrings .gt s t) ∧
    ¬ (relStrings .eq s t ∧ relStrings .gt s t) ∧
    (relStrings .le s t ↔ ¬ relStrings .gt s t) ∧ (relStrings .ge s t ↔ ¬ relStrings .lt s t) ∧
    (relStrings .ne s t ↔ ¬ relStrings .eq s t) ∧ (relStrings .eq s t ↔ s = t) := by
  obtain ⟨h1, h2, h3⟩ := V.strcmp_spec s t
  simp only [relStrings, ← h1, ← h2, ← h3, ne_eq]
  exact ⟨by omega, by omega, by omega, by omega, by omega, by omega, by simp, by simp⟩

/-- C27.  The order is transitive, and a proper prefix is smaller. -/
theorem C27_order (s t u : CStr) :
    (relStrings .lt s t → relStrings .lt t u → relStrings .lt s u) ∧ (u ≠ [] → relStrings .lt s (s ++ u)) := by
  refine ⟨fun h1 h2 => List.lt_trans h1 h2, fun hu => ?_⟩
  simp only [relStrings]
  induction s with
  | nil => cases u with
    | nil => exact absurd rfl hu
    | cons a u => simp
  | cons a s ih => rw [List.cons_append, List.cons_lt_cons_iff]; exact .inr ⟨rfl, ih⟩

example : relStrings .lt "AB".toList "ABC".toList ∧ relStrings .lt "ABC".toList "B".toList := by
  unfold relStrings; decide

/-! C28 -/

/-- C28.  CHR$ of an integer from 1 to 255 is the one character with that code, CHR$(0) is empty. -/
theorem C28_chr (env : Env) (vm : VM) (x : Dbl) (n : Nat) (rest : List Dbl)
    (hat : At vm (.bi .chr)) (hs : vm.stack = x :: rest) (hx : IsInt x n) (hn : n ≤ 255) (hroom : vm.strstack.length < 8) :
    V.execute env vm = .ok () { vm with
      stack := rest, strstack := (if n = 0 then [] else [Char.ofNat n]) :: vm.strstack, cs := following vm.cs } := by
  have hr : ¬ vm.strstack.length ≥ maxStrStack := by simp [maxStrStack]; omega
  have hb : V.badChar x = false ∧ Dbl.toNat x = n := by
    rcases hx with rfl | ⟨rfl, h0⟩
    · refine ⟨?_, V.toNat_int⟩
      have h1 := V.lt_int (k := n) (m := 0)
      have h2 := V.lt_int (k := 255) (m := n)
      rw [show ((0 : Int) : Rat) = 0 from rfl] at h1
      rw [show ((255 : Int) : Rat) = 255 from rfl] at h2
      have h3 := (V.ne_floor_iff (.fin ((n : Int) : Rat))).2 (.inl ⟨n, .inl rfl⟩)
      simp only [V.badChar, h1, h2, h3, Bool.or_false, Bool.or_eq_false_iff, decide_eq_false_iff_not]
      omega
    · have : n = 0 := by omega
      subst this
      exact ⟨by decide +kernel, rfl⟩
  rw [V.execute_at env hat]
  simp [V.exec, V.builtinOp, V.pop, hs, hb.1, V.chrStr, hb.2, V.pushStr, hr]

/-- C28.  CHR$ refuses every value that is not an integer from 0 to 255. -/
theorem C28_chr_refused (env : Env) (vm : VM) (x : Dbl) (rest : List Dbl)
    (hat : At vm (.bi .chr)) (hs : vm.stack = x :: rest) (hx : ∀ n : Int, IsInt x n → n < 0 ∨ 255 < n) :
    V.execute env vm = .err .invalidCharCode { vm with stack := rest } := by
  have hb : V.badChar x = true := by
    by_cases hi : Dbl.ne x (Dbl.floor x) = false
    · rcases (V.ne_floor_iff x).1 hi with ⟨k, hk⟩ | rfl | rfl
      · have := hx k hk
        rcases hk with rfl | ⟨rfl, rfl⟩
        · have h1 := V.lt_int (k := k) (m := 0)
          have h2 := V.lt_int (k := 255) (m := k)
          rw [show ((0 : Int) : Rat) = 0 from rfl] at h1
          rw [show ((255 : Int) : Rat) = 255 from rfl] at h2
          simp only [V.badChar, h1, h2, Bool.or_eq_true, decide_eq_true_eq]
          omega
        · omega
      · rfl
      · rfl
    · simp [V.badChar, hi]
  rw [V.execute_at env hat]
  simp [V.exec, V.builtinOp, V.pop, hs, hb]

/-- C28.  ASC(CHR$(n)) = n for n up to 127. -/
theorem C28_asc_chr_partial (env : Env) (vm : VM) (x : Dbl) (n : Nat) (rest : List Dbl)
    (hat : At vm (.bi .chr)) (hat2 : instAt vm (vm.cs.pc + 1) = some (.bi .asc)) (hs : vm.stack = x :: rest)
    (hx : IsInt x n) (hn : n ≤ 127) (hroom : vm.strstack.length < 8) (hroom2 : vm.stack.length ≤ 16) :
    after env 2 vm = some { vm with
      stack := .fin n :: rest, cs := { vm.cs with pc := vm.cs.pc + 2 } } := by
  obtain ⟨r, b, h1, h2, h3⟩ := hat
  have hr : ¬ rest.length ≥ maxNumStack := by rw [hs] at hroom2; simp [maxNumStack] at hroom2 ⊢; omega
  unfold after
  rw [C28_chr env vm x n rest ⟨r, b, h1, h2, h3⟩ hs hx (by omega) hroom]
  simp only
  unfold after
  rw [V.execute_at env (i := .bi .asc) (by
    refine ⟨r, b, h1, ?_, ?_⟩
    · cases r <;> exact h2
    · simpa [instAt, h1, h2, following] using hat2)]
  simp only [V.exec, V.brk_apply, V.builtinOp, V.bind_apply, V.popStr, V.push, hr, if_false]
  have hc : Dbl.ofInt (V.firstChar (if n = 0 then [] else [Char.ofNat n])) = .fin n := by
    by_cases h0 : n = 0
    · subst h0; rfl
    · have : (Char.ofNat n).toNat = n := by
        have : n < 0xd800 := by omega
        simp [Char.ofNat, Nat.isValidChar, this, Char.toNat, Char.ofNatAux]
      simp only [h0, if_false, V.firstChar, this]
      rw [if_pos (by omega), Dbl.ofInt_exact _ (by omega), Rat.intCast_natCast]
  rw [hc]
  simp [after, following]

private def chrDemo (n : Nat) : VM := { Demo.machine [.bi .chr, .bi .asc] [] with stack := [.fin n] }
example : At (chrDemo 65) (.bi .chr) ∧ instAt (chrDemo 65) ((chrDemo 65).cs.pc + 1) = some (.bi .asc) ∧ IsInt (.fin 65) (65 : Nat) :=
  ⟨⟨.stored, _, rfl, rfl, rfl⟩, rfl, .inl rfl⟩

set_option maxRecDepth 100000 in
/-- C28 fails from 128 on: `char` is signed, and ASC(CHR$(200)) is -56. -/
theorem C28_violated : Demo.shows "PRINT ASC(CHR$(200))\n" = .ok ">  -56 \n".toList ∧
    Demo.shows "PRINT ASC(CHR$(127))\n" = .ok ">  127 \n".toList := by decide +kernel

/-! C29 -/

/-- C29.  AND of two integers with 32 bits works on each bit. -/
theorem C29_and (env : Env) (vm : VM) (x y : Dbl) (a b : Int) (rest : List Dbl)
    (hat : At vm .and) (hs : vm.stack = y :: x :: rest) (hx : IsWord x a) (hy : IsWord y b) (hroom : vm.stack.length ≤ 16) :
    ∃ c : Int, (∀ i, bit c i = (bit a i && bit b i)) ∧
      V.execute env vm = .ok () { vm with stack := .fin c :: rest, cs := following vm.cs } := by
  have hr : ¬ rest.length ≥ maxNumStack := by rw [hs] at hroom; simp [maxNumStack] at hroom ⊢; omega
  refine ⟨V.andInt a b, V.andInt_spec hx.2 hy.2, ?_⟩
  have h1 := V.popLogic_word hs hy
  have h2 := V.popLogic_word (vm := { vm with stack := x :: rest }) rfl hx
  have hw := V.toInt_word (BitVec.ofInt 32 a &&& BitVec.ofInt 32 b)
  have he : Dbl.ofInt (V.andInt a b) = .fin (V.andInt a b) := Dbl.ofInt_exact _ (by unfold V.andInt; omega)
  rw [V.execute_at env hat]
  simp only [V.exec, V.brk_apply, V.bind_apply, h1, h2, V.push, he, hr, if_false]

/-- C29.  OR of two integers with 32 bits works on each bit. -/
theorem C29_or (env : Env) (vm : VM) (x y : Dbl) (a b : Int) (rest : List Dbl)
    (hat : At vm .or) (hs : vm.stack = y :: x :: rest) (hx : IsWord x a) (hy : IsWord y b) (hroom : vm.stack.length ≤ 16) :
    ∃ c : Int, (∀ i, bit c i = (bit a i || bit b i)) ∧
      V.execute env vm = .ok () { vm with stack := .fin c :: rest, cs := following vm.cs } := by
  have hr : ¬ rest.length ≥ maxNumStack := by rw [hs] at hroom; simp [maxNumStack] at hroom ⊢; omega
  refine ⟨V.orInt a b, V.orInt_spec hx.2 hy.2, ?_⟩
  have h1 := V.popLogic_word hs hy
  have h2 := V.popLogic_word (vm := { vm with stack := x :: rest }) rfl hx
  have hw := V.toInt_word (BitVec.ofInt 32 a ||| BitVec.ofInt 32 b)
  have he : Dbl.ofInt (V.orInt a b) = .fin (V.orInt a b) := Dbl.ofInt_exact _ (by unfold V.orInt; omega)
  rw [V.execute_at env hat]
  simp only [V.exec, V.brk_apply, V.bind_apply, h1, h2, V.push, he, hr, if_false]

/-- C29.  NOT of an integer with 32 bits is its complement: -a-1. -/
theorem C29_not (env : Env) (vm : VM) (x : Dbl) (a : Int) (rest : List Dbl)
    (hat : At vm .not) (hs : vm.stack = x :: rest) (hx : IsWord x a) (hroom : vm.stack.length ≤ 16) :
    V.execute env vm = .ok () { vm with stack := .fin ((-a - 1 : Int) : Rat) :: rest, cs := following vm.cs } := by
  have hr : ¬ rest.length ≥ maxNumStack := by rw [hs] at hroom; simp [maxNumStack] at hroom ⊢; omega
  have h1 := V.popLogic_word hs hx
  have hw := hx.2
  have he : Dbl.ofInt (V.notInt a) = .fin ((-a - 1 : Int) : Rat) := by
    rw [V.notInt_eq hx.2]; exact Dbl.ofInt_exact _ (by omega)
  rw [V.execute_at env hat]
  simp only [V.exec, V.brk_apply, V.bind_apply, h1, V.push, he, hr, if_false]

/-- C29.  An operand that is not an integer with 32 bits is refused by NOT, AND, OR. -/
theorem C29_refused (env : Env) (vm : VM) (x : Dbl) (rest : List Dbl)
    (hx : ∀ a, ¬ IsWord x a)
    (hat : (At vm .not ∧ vm.stack = x :: rest) ∨ ((At vm .and ∨ At vm .or) ∧ (vm.stack = x :: rest ∨
      ∃ y b, IsWord y b ∧ vm.stack = y :: x :: rest))) :
    V.execute env vm = .err .invalidLogical { vm with stack := rest } := by
  rcases hat with ⟨hat, hs⟩ | ⟨hat, hs | ⟨y, b, hy, hs⟩⟩
  · rw [V.execute_at env hat]
    simp only [V.exec, V.brk_apply, V.bind_apply, V.popLogic_other hs hx]
  · rcases hat with hat | hat <;> rw [V.execute_at env hat] <;>
    simp only [V.exec, V.brk_apply, V.bind_apply, V.popLogic_other hs hx]
  · have h2 := V.popLogic_other (vm := { vm with stack := x :: rest }) rfl hx
    rcases hat with hat | hat <;> rw [V.execute_at env hat] <;>
    simp only [V.exec, V.brk_apply, V.bind_apply, V.popLogic_word hs hy, h2]

/-- The relation between two numbers that an operator tests, from the order of IEEE 754. -/
def relNumbers : Rel → Dbl → Dbl → Prop
  | .eq, x, y => Dbl.eq x y = true
  | .ne, x, y => ¬ Dbl.eq x y = true
  | .lt, x, y => Dbl.lt x y = true
  | .gt, x, y => Dbl.lt y x = true
  | .le, x, y => Dbl.lt x y = true ∨ Dbl.eq x y = true
  | .ge, x, y => Dbl.lt y x = true ∨ Dbl.eq x y = true

/-- C29.  Comparisons of numbers give exactly -1 or 0. -/
theorem C29_compare (env : Env) (vm : VM) (r : Rel) (x y : Dbl) (rest : List Dbl)
    (hat : At vm (.cmpNum r)) (hs : vm.stack = y :: x :: rest) (hroom : vm.stack.length ≤ 16) :
    (relNumbers r x y → V.execute env vm = .ok () { vm with stack := .fin (-1) :: rest, cs := following vm.cs }) ∧
    (¬ relNumbers r x y → V.execute env vm = .ok () { vm with stack := .fin 0 :: rest, cs := following vm.cs }) := by
  have hr : ¬ rest.length ≥ maxNumStack := by rw [hs] at hroom; simp [maxNumStack] at hroom ⊢; omega
  have heq : Dbl.eq y x = Dbl.eq x y := by cases x <;> cases y <;> simp [Dbl.eq, eq_comm]
  have key : V.relNum r x y = true ↔ relNumbers r x y := by
    cases r <;> simp [V.relNum, relNumbers, Dbl.ne, Dbl.le, heq]
  rw [V.execute_at env hat, ← key]
  simp only [V.exec, V.brk_apply, V.bind_apply, V.pop, hs, V.pushLogic, V.push, hr, if_false]
  constructor
  · intro h; simp [h]
  · intro h; simp [h]

/-- C29.  On the truth values -1 and 0 the operators are the logical connectives. -/
theorem C29_connectives (a b c : Int) (ha : a = -1 ∨ a = 0) (hb : b = -1 ∨ b = 0) :
    ((∀ i, bit c i = (bit a i && bit b i)) → c = if a = -1 ∧ b = -1 then -1 else 0) ∧
    ((∀ i, bit c i = (bit a i || bit b i)) → c = if a = -1 ∨ b = -1 then -1 else 0) ∧
    (-a - 1 = if a = -1 then 0 else -1) := by
  have h1 : ∀ i, bit (-1) i = true := fun i => by
    have : (-1 : Int) / 2 ^ i = -1 := by
      have hp : (0 : Int) < 2 ^ i := Int.pow_pos (by decide)
      exact ((Int.ediv_emod_unique hp (r := -1 + 2 ^ i)).2 ⟨by omega, by omega, by omega⟩).1
    simp [bit, this]
  have h0 : ∀ i, bit 0 i = false := fun i => by simp [bit]
  have hall : ∀ c : Int, (∀ i, bit c i = true) → c = -1 := by
    intro c h
    have := V.bits_determine (a := c) (b := -1) (fun i => by rw [h i, h1 i])
    exact this
  have hnone : ∀ c : Int, (∀ i, bit c i = false) → c = 0 := by
    intro c h
    exact V.bits_determine (a := c) (b := 0) (fun i => by rw [h i, h0 i])
  refine ⟨?_, ?_, by rcases ha with rfl | rfl <;> rfl⟩
  · intro h
    rcases ha with rfl | rfl <;> rcases hb with rfl | rfl <;> simp only [h1, h0, Bool.and_true, Bool.and_false] at h
    · exact hall c h
    · exact hnone c h
    · exact hnone c h
    · exact hnone c h
  · intro h
    rcases ha with rfl | rfl <;> rcases hb with rfl | rfl <;> simp only [h1, h0, Bool.or_true, Bool.or_false] at h
    · exact hall c h
    · exact hall c h
    · exact hall c h
    · exact hnone c h

example : IsWord (.fin (-2147483648)) (-2147483648) ∧ (∀ a, ¬ IsWord .nan a) :=
  ⟨⟨.inl rfl, by decide⟩, by rintro a ⟨h | ⟨h, -⟩, -⟩ <;> cases h⟩

set_option maxRecDepth 100000 in
example : Demo.shows "PRINT 12 AND 10;12 OR 10;NOT 12;NOT (1<2);(1<2) AND (2>1)\n"
    = .ok ">  8  14  -13  0  -1 \n".toList := by decide +kernel

/-! C48 -/

/-- C48.  RND with a drawn number below the maximum gives a number in [0,1); when the maximum is drawn, nothing
happens except that the next number will be drawn (the machine stays at the same instruction). -/
theorem C48_rnd (env : Env) (vm : VM) (hat : At vm (.bi .rnd)) (hmax : 0 < env.randMax) (hint : env.randMax ≤ 2147483647)
    (hroom : vm.stack.length < 16) :
    ((env.rand vm.world.rng).1 < env.randMax → ∃ x : Rat, 0 ≤ x ∧ x < 1 ∧
      V.execute env vm = .ok () { vm with
        world := { vm.world with rng := (env.rand vm.world.rng).2 }, stack := .fin x :: vm.stack, cs := following vm.cs }) ∧
    ((env.rand vm.world.rng).1 = env.randMax →
      V.execute env vm = .ok () { vm with world := { vm.world with rng := (env.rand vm.world.rng).2 } }) := by
  have hr : ¬ vm.stack.length ≥ maxNumStack := by simp [maxNumStack]; omega
  have hM : Dbl.ofInt (env.randMax : Int) = .fin ((env.randMax : Int) : Rat) := Dbl.ofInt_exact _ (by omega)
  have hMpos : (0 : Rat) < ((env.randMax : Int) : Rat) := Rat.intCast_pos.2 (by omega)
  have hMne : ((env.randMax : Int) : Rat) ≠ 0 := by intro h; rw [h] at hMpos; exact absurd hMpos (by decide)
  have hMneg : ¬ ((env.randMax : Int) : Rat) < 0 := by grind
  constructor
  · intro hlt
    have hR : Dbl.ofInt ((env.rand vm.world.rng).1 : Int) = .fin (((env.rand vm.world.rng).1 : Int) : Rat) :=
      Dbl.ofInt_exact _ (by omega)
    by_cases h0 : (env.rand vm.world.rng).1 = 0
    · refine ⟨0, Rat.le_refl, by decide +kernel, ?_⟩
      have hx : Dbl.div (Dbl.ofInt ((env.rand vm.world.rng).1 : Int)) (Dbl.ofInt (env.randMax : Int)) = .fin 0 := by
        rw [hR, hM, h0]
        simp [Dbl.div, Dbl.isInf, Dbl.toRat?, hMne, Dbl.signedZero, Dbl.isNeg]
        omega
      have hle : Dbl.le (.fin 1) (.fin 0) = false := by decide +kernel
      rw [V.execute_at env hat]
      simp [V.exec, V.rndStep, hx, hle, V.push, hr]
    · have hRpos : (0 : Rat) < (((env.rand vm.world.rng).1 : Int) : Rat) := Rat.intCast_pos.2 (by omega)
      have hRne : (((env.rand vm.world.rng).1 : Int) : Rat) ≠ 0 := by intro h; rw [h] at hRpos; exact absurd hRpos (by decide)
      have hRneg : ¬ (((env.rand vm.world.rng).1 : Int) : Rat) < 0 := by grind
      have hq0 : 0 < (((env.rand vm.world.rng).1 : Int) : Rat) / ((env.randMax : Int) : Rat) := by
        rw [Rat.div_def]; exact Rat.mul_pos hRpos (Rat.inv_pos.2 hMpos)
      have hq1 : (((env.rand vm.world.rng).1 : Int) : Rat) / ((env.randMax : Int) : Rat) ≤ 1 - 1 / 2 ^ 31 := by
        have h1 : (((env.rand vm.world.rng).1 : Int) : Rat) ≤ ((env.randMax : Int) : Rat) - 1 := by
          have : (((env.rand vm.world.rng).1 : Int) : Rat) ≤ (((env.randMax : Int) - 1 : Int) : Rat) :=
            Rat.intCast_le_intCast.2 (by omega)
          rwa [Rat.intCast_sub] at this
        have h2 : ((env.randMax : Int) : Rat) ≤ 2 ^ 31 := by
          have : ((env.randMax : Int) : Rat) ≤ ((2147483647 : Int) : Rat) := Rat.intCast_le_intCast.2 (by omega)
          have e : ((2147483647 : Int) : Rat) ≤ 2 ^ 31 := by decide +kernel
          exact Rat.le_trans this e
        generalize (((env.rand vm.world.rng).1 : Int) : Rat) = R at *
        generalize ((env.randMax : Int) : Rat) = M at *
        apply Rat.not_lt.1
        intro hc
        have h3 := Rat.mul_lt_mul_of_pos_right hc hMpos
        have h4 : R / M * M = R := by grind
        rw [h4] at h3
        grind
      obtain ⟨x, hx, hx0, hx1⟩ := Dbl.rnd_below_one _ hq0 hq1
      refine ⟨x, hx0, hx1, ?_⟩
      have hx : Dbl.div (Dbl.ofInt ((env.rand vm.world.rng).1 : Int)) (Dbl.ofInt (env.randMax : Int)) = .fin x := by
        rw [hR, hM]
        simp only [Dbl.div, Dbl.isInf, Dbl.toRat?, hMne, hRne, reduceCtorEq, or_false, if_false, Bool.false_eq_true]
        exact hx
      have hle : Dbl.le (.fin 1) (.fin x) = false := by
        simp only [Dbl.le, Dbl.lt, Dbl.eq, Bool.or_eq_false_iff, decide_eq_false_iff_not]
        constructor <;> grind
      rw [V.execute_at env hat]
      simp [V.exec, V.rndStep, hx, hle, V.push, hr]
  · intro heq
    have hx : Dbl.div (Dbl.ofInt ((env.rand vm.world.rng).1 : Int)) (Dbl.ofInt (env.randMax : Int)) = .fin 1 := by
      rw [heq, hM]
      simp only [Dbl.div, Dbl.isInf, Dbl.toRat?, hMne, reduceCtorEq, or_false, if_false, Bool.false_eq_true]
      rw [show ((env.randMax : Int) : Rat) / ((env.randMax : Int) : Rat) = ((1 : Int) : Rat) by
        rw [Rat.div_def, Rat.mul_inv_cancel _ hMne]; rfl]
      exact Dbl.rnd_int 1 (by decide)
    have hle : Dbl.le (.fin 1) (.fin 1) = true := by decide +kernel
    rw [V.execute_at env hat]
    simp only [V.exec, V.rndStep, V.bind_apply, V.get_apply, V.modify_apply, hx, hle, if_true, V.pure_apply]

/-- The numbers drawn one after the other. -/
def draws (env : Env) : Nat → Nat → Nat
  | 0, g => (env.rand g).1
  | n + 1, g => draws env n (env.rand g).2

/-- C48.  RND returns as soon as a number other than the maximum is drawn. -/
theorem C48_returns (env : Env) (n : Nat) (vm : VM) (hat : At vm (.bi .rnd)) (hmax : 0 < env.randMax)
    (hint : env.randMax ≤ 2147483647) (hroom : vm.stack.length < 16)
    (hall : ∀ i, i < n → draws env i vm.world.rng = env.randMax) (hlast : draws env n vm.world.rng < env.randMax) :
    ∃ vm' x, after env (n + 1) vm = some vm' ∧ vm'.stack = .fin x :: vm.stack ∧ 0 ≤ x ∧ x < 1 ∧ vm'.cs = following vm.cs := by
  induction n generalizing vm with
  | zero =>
    obtain ⟨x, h0, h1, h⟩ := (C48_rnd env vm hat hmax hint hroom).1 hlast
    exact ⟨_, x, by rw [after, h]; rfl, rfl, h0, h1, rfl⟩
  | succ n ih =>
    have h := (C48_rnd env vm hat hmax hint hroom).2 (hall 0 (by omega))
    have hat' : At { vm with world := { vm.world with rng := (env.rand vm.world.rng).2 } } (.bi .rnd) := by
      obtain ⟨r, b, h1, h2, h3⟩ := hat
      exact ⟨r, b, h1, by cases r <;> exact h2, h3⟩
    obtain ⟨vm', x, h1, h2, h3⟩ := ih _ hat' hroom (fun i hi => hall (i + 1) (by omega)) hlast
    exact ⟨vm', x, by rw [after, h]; exact h1, h2, h3⟩

example : At (Demo.machine [.bi .rnd] []) (.bi .rnd) ∧ 0 < Demo.env.randMax ∧ Demo.env.randMax ≤ 2147483647 ∧
    draws Demo.env 0 0 < Demo.env.randMax :=
  ⟨⟨.stored, _, rfl, rfl, rfl⟩, by decide, by decide, by decide⟩

end LB
