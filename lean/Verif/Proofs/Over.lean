import Verif.Proofs.Vm
/- What an instruction does does not depend on what lies below its operands on the evaluation stacks, nor does what an
expression does depend on where the code is. -/
namespace LB
namespace V

/-- Values at the bottom of the stacks, and another place of execution. -/
structure Under where
  nums : List Dbl := []
  strs : List CStr := []
  place : Option (CodeState × FnState × Code) := none

/-- The machine with these. -/
def over (o : Under) (vm : VM) : VM :=
  { vm with
    stack := vm.stack ++ o.nums
    strstack := vm.strstack ++ o.strs
    cs := (o.place.map (·.1)).getD vm.cs
    fn := (o.place.map (·.2.1)).getD vm.fn
    defCode := (o.place.map (·.2.2)).getD vm.defCode }

/-- The same result above these; a stack that is only full because of them, or one that is empty without them, is
allowed for. -/
inductive Tops {α : Type} (o : Under) : Res α → Res α → Prop
  | ok {u a} : Tops o (.ok u a) (.ok u (over o a))
  | err {e a} : Tops o (.err e a) (.err e (over o a))
  | halt {h} : Tops o (.halt h) (.halt h)
  | fullNum {r b} (h : o.nums ≠ []) : Tops o r (.err .numOverflow b)
  | fullStr {r b} (h : o.strs ≠ []) : Tops o r (.err .strOverflow b)
  | emptyNum {a r} (h : o.nums ≠ []) : Tops o (.err .numEmpty a) r
  | emptyStr {a r} (h : o.strs ≠ []) : Tops o (.err .strEmpty a) r

/-- A function that does not depend on these. -/
def Lifts {α : Type} (o : Under) (x : VmM α) : Prop := ∀ vm, Tops o (x vm) (x (over o vm))

variable {o : Under} {α β : Type}

namespace Lifts

theorem bind {x : VmM α} {f : α → VmM β} (hx : Lifts o x) (hf : ∀ u, Lifts o (f u)) : Lifts o (x >>= f) := by
  intro a
  have h1 := hx a
  simp only [bind_apply]
  generalize x a = ra at h1
  generalize x (over o a) = rb at h1
  cases h1 with
  | ok => exact hf _ _
  | err => exact .err
  | halt => exact .halt
  | fullNum h' => exact .fullNum h'
  | fullStr h' => exact .fullStr h'
  | emptyNum h' => exact .emptyNum h'
  | emptyStr h' => exact .emptyStr h'

theorem pure (u : α) : Lifts o (Pure.pure u) := fun _ => .ok
theorem halt (h : Halt) : Lifts o (V.halt h : VmM α) := fun _ => .halt
theorem fail (e : RunError) : Lifts o (V.fail e : VmM α) := fun _ => .err
theorem ite {c : Prop} [Decidable c] {x y : VmM α} (hx : Lifts o x) (hy : Lifts o y) : Lifts o (if c then x else y) := by
  split
  · exact hx
  · exact hy
theorem assert (c : Bool) (w : String) : Lifts o (V.assert c w) := by
  cases c
  · exact halt _
  · exact pure ()
theorem check (c : Bool) (e : RunError) : Lifts o (V.check c e) := by
  cases c
  · exact pure ()
  · exact fail _
theorem when {c : Bool} {x : VmM Unit} (h : Lifts o x) : Lifts o (V.when_ c x) := by
  cases c
  · exact pure ()
  · exact h
theorem lift (r : Outcome α) : Lifts o (V.lift r) := by
  cases r
  · exact pure _
  · exact halt _
theorem get {f : VM → VmM α} (h1 : ∀ u, f (over o u) = f u) (h2 : ∀ u, Lifts o (f u)) : Lifts o (V.get >>= f) := by
  intro vm
  show Tops o (f vm vm) (f (over o vm) (over o vm))
  rw [h1]
  exact h2 vm vm
theorem modify {f : VM → VM} (h : ∀ u, f (over o u) = over o (f u)) : Lifts o (V.modify f) := by
  intro vm
  show Tops o (.ok () (f vm)) (.ok () (f (over o vm)))
  rw [h]
  exact .ok
theorem brk {x : VmM Unit} (h : Lifts o x) : Lifts o (V.brk x) := bind h (fun _ => pure _)
theorem ret {x : VmM Unit} (h : Lifts o x) : Lifts o (V.ret x) := bind h (fun _ => pure _)

theorem pop : Lifts o V.pop := by
  intro vm
  unfold V.pop
  cases hs : vm.stack with
  | nil =>
    by_cases hn : o.nums = []
    · have : (over o vm).stack = [] := by simp [over, hs, hn]
      rw [this]
      exact .err
    · exact .emptyNum hn
  | cons x s =>
    have : (over o vm).stack = x :: (s ++ o.nums) := by simp [over, hs]
    rw [this]
    exact .ok

theorem push (x : Dbl) : Lifts o (V.push x) := by
  intro vm
  unfold V.push
  have hl : (over o vm).stack.length = vm.stack.length + o.nums.length := by simp [over]
  by_cases hb : (over o vm).stack.length ≥ maxNumStack
  · rw [if_pos hb]
    by_cases hn : o.nums = []
    · rw [hn] at hl
      rw [if_pos (by simp at hl; omega)]
      exact .err
    · exact .fullNum hn
  · rw [if_neg hb, if_neg (by omega)]
    exact .ok

theorem popStr : Lifts o V.popStr := by
  intro vm
  unfold V.popStr
  cases hs : vm.strstack with
  | nil =>
    by_cases hn : o.strs = []
    · have : (over o vm).strstack = [] := by simp [over, hs, hn]
      rw [this]
      exact .err
    · exact .emptyStr hn
  | cons x s =>
    have : (over o vm).strstack = x :: (s ++ o.strs) := by simp [over, hs]
    rw [this]
    exact .ok

theorem pushStr (x : CStr) : Lifts o (V.pushStr x) := by
  intro vm
  unfold V.pushStr
  have hl : (over o vm).strstack.length = vm.strstack.length + o.strs.length := by simp [over]
  by_cases hb : (over o vm).strstack.length ≥ maxStrStack
  · rw [if_pos hb]
    by_cases hn : o.strs = []
    · rw [hn] at hl
      rw [if_pos (by simp at hl; omega)]
      exact .err
    · exact .fullStr hn
  · rw [if_neg hb, if_neg (by omega)]
    exact .ok

theorem sym (id : Nat) : Lifts o (V.sym id) := by
  intro vm
  have : V.sym id (over o vm) = match symbolAt vm.st id with
    | .ok s => .ok s (over o vm)
    | .halt h => .halt h := rfl
  rw [this]
  unfold V.sym
  cases symbolAt vm.st id
  · exact .ok
  · exact .halt

theorem updSym (id : Nat) (f : Symbol → Symbol) : Lifts o (V.updSym id f) := modify (fun _ => rfl)
theorem out (s : CStr) : Lifts o (V.out s) := modify (fun _ => rfl)

end Lifts

/-- Applies the rules for the parts of a function. -/
macro "lifts" : tactic => `(tactic| (with_reducible repeat' (first
  | apply Lifts.pure | apply Lifts.halt | apply Lifts.fail | apply Lifts.assert | apply Lifts.check | apply Lifts.lift
  | apply Lifts.pop | apply Lifts.push | apply Lifts.popStr | apply Lifts.pushStr | apply Lifts.sym
  | apply Lifts.updSym | apply Lifts.out
  | assumption
  | apply Lifts.get | apply Lifts.modify | apply Lifts.brk | apply Lifts.ret | apply Lifts.when
  | apply Lifts.bind | apply Lifts.ite | intro _ | split)) <;> try rfl)

section
variable (o)
theorem lifts_popLogic : Lifts o popLogic := by unfold popLogic; lifts
theorem lifts_popUnsigned : Lifts o popUnsigned := by unfold popUnsigned; lifts
theorem lifts_popIndex : Lifts o popIndex := by unfold popIndex; lifts
theorem lifts_popIndexLoop (n : Nat) : Lifts o (popIndexLoop n) := by
  induction n with
  | zero => exact Lifts.pure _
  | succ n ih => exact Lifts.bind (lifts_popIndex o) (fun _ => Lifts.bind ih (fun _ => Lifts.pure _))
theorem lifts_popIndexes (n : Nat) : Lifts o (popIndexes n) := Lifts.bind (Lifts.assert _ _) (fun _ => lifts_popIndexLoop o n)
theorem lifts_compareStrings : Lifts o compareStrings := by unfold compareStrings; lifts
theorem lifts_getNumericSimple (id : Nat) : Lifts o (getNumericSimple id) := by unfold getNumericSimple; lifts
theorem lifts_setNumericSimple (id : Nat) (x : Dbl) : Lifts o (setNumericSimple id x) := by unfold setNumericSimple; lifts
theorem lifts_getStringSimple (id : Nat) : Lifts o (getStringSimple id) := by unfold getStringSimple; lifts
theorem lifts_setStringSimple (id : Nat) (x : CStr) : Lifts o (setStringSimple id x) := by unfold setStringSimple; lifts
variable (F : ArrField α)
theorem lifts_dimension (id : Nat) (m : List Nat) : Lifts o (dimension F id m) := by unfold dimension; lifts
theorem lifts_dimensionAuto (id : Nat) (m : List Nat) : Lifts o (dimensionAuto F id m) := by
  have := lifts_dimension o F id; unfold dimensionAuto; lifts; exact this _
theorem lifts_dimStatement (id n : Nat) : Lifts o (dimStatement F id n) := by
  have := lifts_dimension o F id; have h := lifts_popIndexes o n; unfold dimStatement; lifts <;> exact this _
theorem lifts_elementArray (id n : Nat) : Lifts o (elementArray F id n) := by
  have := lifts_dimensionAuto o F id; have h := lifts_popIndexes o n; unfold elementArray; lifts; exact this _
theorem lifts_getElement (id n : Nat) : Lifts o (getElement F id n) := by
  have := lifts_elementArray o F id n; unfold getElement; lifts
theorem lifts_setElement (id n : Nat) (x : α) : Lifts o (setElement F id n x) := by
  have := lifts_elementArray o F id n; unfold setElement; lifts
theorem lifts_setNumeric (id n : Nat) (x : Dbl) : Lifts o (setNumeric id n x) :=
  Lifts.ite (lifts_setNumericSimple o id x) (lifts_setElement o _ id n x)
theorem lifts_setString (id n : Nat) (x : CStr) : Lifts o (setString id n x) :=
  Lifts.ite (lifts_setStringSimple o id x) (lifts_setElement o _ id n _)
theorem lifts_rndStep (env : Env) : Lifts o (rndStep env) := by
  refine Lifts.get (fun _ => rfl) (fun _ => ?_)
  lifts
theorem lifts_readClock (env : Env) : Lifts o (readClock env) := by unfold readClock; lifts
theorem lifts_builtinOp (env : Env) (b : Bi) : Lifts o (builtinOp env b) := by
  have h1 := lifts_popUnsigned o
  have h2 := lifts_readClock o env
  cases b <;> simp only [builtinOp, leftFn, rightFn, midFn, valFn] <;> lifts
end

/-! ### Instructions other than expressions, with no change of the place of execution -/

variable (ns : List Dbl) (ss : List CStr)
local notation "Δ" => Under.mk ns ss none

theorem over_cs (vm : VM) : (over Δ vm).cs = vm.cs := rfl
theorem over_codeOf (vm : VM) (r : CodeRef) : codeOf (over Δ vm) r = codeOf vm r := by cases r <;> rfl

theorem lifts_curBcode : Lifts Δ curBcode := by
  intro vm
  unfold curBcode
  rw [over_cs]
  cases vm.cs.code with
  | none => exact .halt
  | some r =>
    simp only [over_codeOf]
    cases (codeOf vm r).bcode
    · exact .halt
    · exact .ok

theorem lifts_curSource : Lifts Δ curSource := by
  intro vm
  unfold curSource
  rw [over_cs]
  cases vm.cs.code with
  | none => exact .halt
  | some r =>
    simp only [over_codeOf]
    exact .ok

theorem lifts_findBasicLine (n : Nat) : Lifts Δ (findBasicLine n) := by
  intro vm
  unfold findBasicLine
  rw [show (over Δ vm).stored = vm.stored from rfl]
  cases vm.stored.index.bind (lookupLineMapping · n)
  · exact .err
  · exact .ok

theorem lifts_pushReturn (n : Nat) : Lifts Δ (pushReturn n) := by
  intro vm
  unfold pushReturn
  rw [show (over Δ vm).retstack = vm.retstack from rfl, over_cs]
  split
  · exact .err
  · exact .ok

theorem lifts_popReturn : Lifts Δ popReturn := by
  intro vm
  unfold popReturn
  rw [show (over Δ vm).retstack = vm.retstack from rfl]
  cases vm.retstack
  · exact .err
  · exact .ok

theorem lifts_inputRest : Lifts Δ inputRest := by
  intro vm
  unfold inputRest
  rw [show (over Δ vm).inp = vm.inp from rfl, show (over Δ vm).input = vm.input from rfl]
  split
  · exact .halt
  · exact .ok

theorem lifts_goToBasicLine (n : Nat) : Lifts Δ (goToBasicLine n) := by
  have := lifts_findBasicLine ns ss n
  unfold goToBasicLine; lifts
theorem lifts_setPc (n : Nat) : Lifts Δ (setPc n) := by unfold setPc; lifts
theorem lifts_findData : Lifts Δ findData := by
  refine Lifts.get (fun _ => rfl) (fun _ => ?_)
  lifts
theorem lifts_dumpEntry (f : ForLoop) : Lifts Δ (dumpEntry f) := by unfold dumpEntry; lifts
theorem lifts_dumpEntries (l : List ForLoop) : Lifts Δ (dumpEntries l) := by
  induction l with
  | nil => exact Lifts.pure _
  | cons f l ih => exact Lifts.bind (lifts_dumpEntry ns ss f) (fun _ => Lifts.bind ih (fun _ => Lifts.pure _))
theorem lifts_dumpForStack (t : String) : Lifts Δ (dumpForStack t) := by
  have := lifts_dumpEntries ns ss
  refine Lifts.get (fun _ => rfl) (fun _ => ?_)
  lifts
  all_goals exact this _
theorem lifts_dumpFor (t : String) : Lifts Δ (dumpFor t) := by
  refine Lifts.bind (lifts_curSource ns ss) (fun src => Lifts.get (fun _ => rfl) (fun _ => ?_))
  have := lifts_dumpForStack ns ss "initial stack"
  lifts
theorem lifts_traced {x : VmM Unit} (h : Lifts Δ x) : Lifts Δ (traced x) := by unfold traced; lifts
theorem lifts_next (si : Nat) : Lifts Δ (next si) := by
  have := lifts_traced ns ss (lifts_dumpForStack ns ss "final stack")
  refine Lifts.get (fun _ => rfl) (fun _ => ?_)
  lifts
theorem lifts_forEntry (id : Nat) : Lifts Δ (forEntry id) := by
  have := lifts_dumpForStack ns ss "overflow"
  refine Lifts.get (fun _ => rfl) (fun _ => ?_)
  lifts
theorem lifts_forTop (id : Nat) : Lifts Δ (forTop id) := by
  refine Lifts.bind (lifts_forEntry ns ss id) (fun _ => Lifts.get (fun _ => rfl) (fun _ => Lifts.modify (fun _ => rfl)))
theorem lifts_forStatement (id : Nat) : Lifts Δ (forStatement id) := by
  have h1 := lifts_traced ns ss (lifts_dumpForStack ns ss "final stack")
  have h2 := lifts_traced ns ss (lifts_dumpFor ns ss "FOR")
  have h3 := lifts_forTop ns ss id
  unfold forStatement setTopFor
  lifts
theorem lifts_nextVariable (id : Nat) : Lifts Δ (nextVariable id) := by
  have h1 := lifts_next ns ss
  have h2 := lifts_traced ns ss (lifts_dumpFor ns ss "NEXT-VARIABLE")
  refine Lifts.bind h2 (fun _ => Lifts.get (fun _ => rfl) (fun _ => ?_))
  lifts
  all_goals exact h1 _
theorem lifts_nextImplicit : Lifts Δ nextImplicit := by
  have h1 := lifts_next ns ss
  have h2 := lifts_traced ns ss (lifts_dumpFor ns ss "NEXT-IMPLICIT")
  refine Lifts.bind h2 (fun _ => Lifts.get (fun _ => rfl) (fun _ => ?_))
  lifts
  all_goals exact h1 _
theorem lifts_callDef (id n : Nat) : Lifts Δ (callDef id n) := by
  have h1 := lifts_curBcode ns ss
  unfold callDef
  lifts
theorem lifts_endDef : Lifts Δ endDef := by
  unfold endDef
  lifts
theorem lifts_defStatement (id n : Nat) : Lifts Δ (defStatement id n) := by
  have h1 := lifts_curBcode ns ss
  have h2 := lifts_setPc ns ss
  refine Lifts.bind (Lifts.sym _) (fun _ => Lifts.bind (Lifts.assert _ _) (fun _ => Lifts.bind ?_ (fun _ => Lifts.bind (Lifts.check _ _) (fun _ =>
    Lifts.bind h1 (fun _ => Lifts.get (fun _ => rfl) (fun _ => ?_)))))) <;> lifts
  all_goals exact h2 _
theorem lifts_outCol (s : CStr) (c : Nat) : Lifts Δ (outCol s c) := by unfold outCol; lifts
theorem lifts_printSpc : Lifts Δ printSpc := by
  have h1 := lifts_popUnsigned Δ
  have h2 := lifts_outCol ns ss
  unfold printSpc
  lifts
  all_goals exact h2 _ _
theorem lifts_printTab : Lifts Δ printTab :=
  Lifts.bind (lifts_popUnsigned Δ) (fun _ => Lifts.get (fun _ => rfl) (fun _ => lifts_outCol ns ss _ _))
theorem lifts_printComma : Lifts Δ printComma := Lifts.get (fun _ => rfl) (fun _ => lifts_outCol ns ss _ _)
theorem lifts_printNum : Lifts Δ printNum :=
  Lifts.bind Lifts.pop (fun _ => Lifts.get (fun _ => rfl) (fun _ => lifts_outCol ns ss _ _))
theorem lifts_printStr : Lifts Δ printStr :=
  Lifts.bind Lifts.popStr (fun _ => Lifts.get (fun _ => rfl) (fun _ => lifts_outCol ns ss _ _))
theorem lifts_readInputLine : Lifts Δ readInputLine := by
  refine Lifts.modify (fun u => ?_)
  show (match fgets inputSize u.world.stdin with
    | none => over Δ u
    | some (buf, rest) => _) = _
  cases fgets inputSize u.world.stdin <;> rfl
theorem lifts_inputBuf (q : Option CStr) : Lifts Δ (inputBuf q) := by
  have := lifts_readInputLine ns ss
  unfold inputBuf
  lifts
theorem lifts_advance (n : Nat) : Lifts Δ (advance n) := by unfold advance; lifts
theorem lifts_inputEnd : Lifts Δ inputEnd := by
  have h1 := lifts_inputRest ns ss
  unfold inputEnd advance
  lifts
theorem lifts_inputAgain (m : String) : Lifts Δ (inputAgain m) := by unfold inputAgain; lifts
theorem lifts_inputSep : Lifts Δ inputSep := by
  have h1 := lifts_inputRest ns ss
  have h2 := lifts_inputAgain ns ss "* More input items are expected *\n"
  unfold inputSep advance
  lifts
theorem lifts_inputNum (id n : Nat) : Lifts Δ (inputNum id n) := by
  have h1 := lifts_inputRest ns ss
  have h2 := lifts_inputAgain ns ss "* Invalid input *\n"
  have h3 := lifts_setNumeric Δ id n
  unfold inputNum
  lifts
  all_goals exact h3 _
theorem lifts_inputStr (id n : Nat) : Lifts Δ (inputStr id n) := by
  have h1 := lifts_inputRest ns ss
  have h3 := lifts_setString Δ id n
  unfold inputStr advance
  lifts
  all_goals exact h3 _
theorem lifts_inputLine (id n : Nat) : Lifts Δ (inputLine id n) := by
  have h3 := lifts_setString Δ id n
  unfold inputLine
  lifts
  all_goals exact h3 _
theorem lifts_readNum (id n : Nat) : Lifts Δ (readNum id n) := by
  have h1 := lifts_findData ns ss
  have h3 := lifts_setNumeric Δ id n
  unfold readNum
  lifts
  all_goals exact h3 _
theorem lifts_readStr (id n : Nat) : Lifts Δ (readStr id n) :=
  Lifts.bind (lifts_findData ns ss) (fun _ => lifts_setString Δ id n _)
theorem lifts_getParenNum (id n : Nat) : Lifts Δ (getParenNum id n) := by
  have h1 := lifts_getElement Δ numField id n
  have h2 := lifts_callDef ns ss id n
  unfold getParenNum
  lifts
theorem lifts_getParenStr (id n : Nat) : Lifts Δ (getParenStr id n) := by
  have h1 := lifts_getElement Δ strField id n
  have h2 := lifts_callDef ns ss id n
  unfold getParenStr
  lifts
theorem lifts_skipTo (q : Inst → Bool) : Lifts Δ (skipTo q) := by
  have h1 := lifts_curBcode ns ss
  have h2 := lifts_setPc ns ss
  unfold skipTo
  lifts
  all_goals exact h2 _
theorem lifts_onStatement (n : Nat) (g : Bool) : Lifts Δ (onStatement n g) := by
  have h1 := lifts_curBcode ns ss
  have h2 := lifts_setPc ns ss
  have h3 := lifts_pushReturn ns ss
  have h4 := lifts_goToBasicLine ns ss
  refine Lifts.bind Lifts.pop (fun _ => Lifts.bind (Lifts.check _ _) (fun _ => Lifts.get (fun _ => rfl) (fun _ => ?_)))
  lifts
  all_goals first | exact h2 _ | exact h3 _ | exact h4 _
theorem lifts_sourceLineInst (l : Nat) : Lifts Δ (sourceLineInst l) := by
  have h1 := lifts_curSource ns ss
  unfold sourceLineInst
  lifts

/-- What an instruction does does not depend on what lies below its operands. -/
theorem lifts_exec (env : Env) (i : Inst) : Lifts Δ (exec env i) := by
  cases i with
  | nop => exact Lifts.pure _
  | sourceLine l => exact Lifts.brk (lifts_sourceLineInst ns ss _)
  | for_ id => exact Lifts.brk (lifts_forStatement ns ss _)
  | getSimpleNum id => exact Lifts.brk (lifts_getNumericSimple Δ _)
  | setSimpleNum id => have := lifts_setNumericSimple Δ id; simp only [exec]; lifts <;> exact this _
  | dimNum id n => exact Lifts.brk (lifts_dimStatement Δ _ _ _)
  | getParenNum id n => exact Lifts.brk (lifts_getParenNum ns ss _ _)
  | setArrayNum id n => have := lifts_setElement Δ numField id n; simp only [exec]; lifts <;> exact this _
  | or => have := lifts_popLogic Δ; simp only [exec]; lifts
  | and => have := lifts_popLogic Δ; simp only [exec]; lifts
  | not => have := lifts_popLogic Δ; simp only [exec]; lifts
  | setSimpleStr id => have := lifts_setStringSimple Δ id; simp only [exec]; lifts <;> exact this _
  | getSimpleStr id => exact Lifts.brk (lifts_getStringSimple Δ _)
  | dimStr id n => exact Lifts.brk (lifts_dimStatement Δ _ _ _)
  | getParenStr id n => exact Lifts.brk (lifts_getParenStr ns ss _ _)
  | setArrayStr id n => have := lifts_setElement Δ strField id n; simp only [exec]; lifts <;> exact this _
  | cmpStr r => have := lifts_compareStrings Δ; simp only [exec, pushLogic]; lifts
  | cmpNum r => simp only [exec, pushLogic]; lifts
  | end_ => exact Lifts.ret (Lifts.bind (lifts_curBcode ns ss) (fun _ => lifts_setPc ns ss _))
  | goto_ l => exact Lifts.ret (lifts_goToBasicLine ns ss _)
  | gotrue l => have := lifts_goToBasicLine ns ss l; simp only [exec]; lifts
  | gosub l => exact Lifts.ret (Lifts.get (fun _ => rfl) (fun _ => Lifts.bind (lifts_pushReturn ns ss _) (fun _ => lifts_goToBasicLine ns ss _)))
  | return_ => exact Lifts.ret (lifts_popReturn ns ss)
  | nextVar id => exact Lifts.brk (lifts_nextVariable ns ss _)
  | nextImp => exact Lifts.brk (lifts_nextImplicit ns ss)
  | def_ id n => exact Lifts.brk (lifts_defStatement ns ss _ _)
  | endDef => exact Lifts.brk (lifts_endDef ns ss)
  | onGoto n => exact Lifts.ret (lifts_onStatement ns ss _ _)
  | onGosub n => exact Lifts.ret (lifts_onStatement ns ss _ _)
  | ifThen => have := lifts_skipTo ns ss Inst.isSourceLine; simp only [exec]; lifts
  | ifElse => have := lifts_skipTo ns ss isElse; simp only [exec]; lifts
  | else_ => exact Lifts.ret (lifts_skipTo ns ss _)
  | printLn => exact Lifts.brk (lifts_outCol ns ss _ _)
  | printSpc => exact Lifts.brk (lifts_printSpc ns ss)
  | printTab => exact Lifts.brk (lifts_printTab ns ss)
  | printComma => exact Lifts.brk (lifts_printComma ns ss)
  | printNum => exact Lifts.brk (lifts_printNum ns ss)
  | printStr => exact Lifts.brk (lifts_printStr ns ss)
  | cls => exact Lifts.brk (lifts_outCol ns ss _ _)
  | inputBuf q => exact Lifts.brk (lifts_inputBuf ns ss _)
  | inputEnd => exact Lifts.brk (lifts_inputEnd ns ss)
  | inputSep => exact lifts_inputSep ns ss
  | inputNum id n => exact lifts_inputNum ns ss _ _
  | inputStr id n => exact Lifts.brk (lifts_inputStr ns ss _ _)
  | inputLine id n => exact Lifts.brk (lifts_inputLine ns ss _ _)
  | readNum id n => exact Lifts.brk (lifts_readNum ns ss _ _)
  | readStr id n => exact Lifts.brk (lifts_readStr ns ss _ _)
  | restoreLine l => have := lifts_findBasicLine ns ss l; simp only [exec]; lifts
  | rand => have := lifts_readClock Δ env; simp only [exec]; lifts
  | seed => have := lifts_popUnsigned Δ; simp only [exec]; lifts
  | bi b =>
    cases b with
    | rnd => exact lifts_rndStep Δ env
    | _ => exact Lifts.brk (lifts_builtinOp Δ env _)
  | _ => simp only [exec]; lifts

end V
end LB
