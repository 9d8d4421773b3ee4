import Verif.Proofs.Vm
/- Invariants kept by every instruction, from the primitive changes of the machine. -/
namespace LB
namespace V

/-- A change of a symbol that only concerns its value. -/
def ValueOnly (f : Symbol → Symbol) : Prop :=
  ∀ s, (f s).name = s.name ∧ (f s).id = s.id ∧ (f s).kind = s.kind ∧ (f s).type = s.type

/-- A change of a symbol that keeps its strings and its function. -/
def StringsKept (f : Symbol → Symbol) : Prop :=
  ∀ s, (f s).str = s.str ∧ (f s).strarr = s.strarr ∧ (f s).def_ = s.def_

/-- A change of a symbol that keeps its function. -/
def DefKept (f : Symbol → Symbol) : Prop := ∀ s, (f s).def_ = s.def_

/-- A change of a symbol that keeps its numbers. -/
def NumbersKept (f : Symbol → Symbol) : Prop := ∀ s, (f s).num = s.num ∧ (f s).numarr = s.numarr

/-- Kinds of changes that only some instructions make: pending returns, symbols, open loops, the position
in the DATA, the world and the print position, the input buffer, the called function, the stop mark, strings and
functions held by symbols or being worked on, functions held by symbols, the code that is executed, numbers held by
symbols or being worked on, the line that is executed. -/
inductive Act where
  | ret | sym | loop | data | io | input | fn | stop | str | def_ | jump | num | line
  deriving DecidableEq

/-- `I` is kept by the primitive changes that instructions make, as far as `A` allows them. -/
structure Closed (A : Act → Prop) (I : VM → Prop) : Prop where
  push : A .num → ∀ x, Keeps I (push x)
  pop : Keeps I pop
  pushStr : A .str → ∀ x, Keeps I (pushStr x)
  popStr : Keeps I popStr
  pushReturn : A .ret → ∀ pc, Keeps I (pushReturn pc)
  popReturn : A .ret → Keeps I popReturn
  updSym : A .sym → ∀ id f, ValueOnly f → A .str ∨ StringsKept f → A .def_ ∨ DefKept f →
    A .num ∨ NumbersKept f → Keeps I (updSym id f)
  clear : A .sym → ∀ vm, I vm → I { vm with st := clearSymbolTableValues vm.st }
  world : A .io → ∀ vm w, I vm → I { vm with world := w }
  col : A .io → ∀ vm c, I vm → I { vm with col := c }
  cs : ∀ vm cs, A .jump ∨ cs.code = vm.cs.code → A .jump ∨ A .line ∨ cs.sourceLine = vm.cs.sourceLine → I vm → I { vm with cs := cs }
  stopped : A .stop → ∀ vm b, I vm → I { vm with stopped := b }
  programData : A .data → ∀ vm n, I vm → I { vm with programData := n }
  immediateData : A .data → ∀ vm n, I vm → I { vm with immediateData := n }
  fn : A .fn → ∀ vm f, I vm → I { vm with fn := f }
  input : A .input → ∀ vm s, s.length ≤ 255 ∨ s.length ≤ vm.input.length → I vm → I { vm with input := s }
  inp : A .input → ∀ vm n, I vm → I { vm with inp := n }
  inputPc : A .input → ∀ vm n, I vm → I { vm with inputPc := n }
  defCode : A .fn → ∀ vm c, I vm → I { vm with defCode := { vm.defCode with bcode := c } }
  forTop : A .loop → ∀ id, Keeps I (dumpForStack "overflow") → Keeps I (forTop id)
  setTopFor : A .loop → ∀ f, (∀ x : ForLoop, (f x).symbolId = x.symbolId ∧ (f x).codeState = x.codeState) → Keeps I (setTopFor f)
  trace : A .io ∨ ∀ vm, I vm → vm.traceFor = false ∧ vm.traceBasic = false
  erase : A .loop → ∀ vm si, I vm → I { vm with forStack := vm.forStack.eraseIdx si }

/-- `keeps` with the primitive changes. -/
macro "kept" h:ident : tactic => `(tactic| (keeps <;> with_reducible first
  | (apply ($h).push; assumption) | apply ($h).pop | (apply ($h).pushStr; assumption) | apply ($h).popStr
  | (apply ($h).pushReturn; assumption) | (apply ($h).popReturn; assumption)
  | (apply ($h).updSym (by assumption); (with_unfolding_all exact fun _ => ⟨rfl, rfl, rfl, rfl⟩);
      (first | exact .inl (by assumption) | (with_unfolding_all exact .inr (fun _ => ⟨rfl, rfl, rfl⟩)));
      (first | exact .inl (by assumption) | (with_unfolding_all exact .inr (fun _ => rfl)));
      (first | exact .inl (by assumption) | (with_unfolding_all exact .inr (fun _ => ⟨rfl, rfl⟩))))
  | skip))

variable {A : Act → Prop} {I : VM → Prop}

theorem keeps_out (h : Closed A I) (hi : A .io) (s : CStr) : Keeps I (out s) := Keeps.modify (fun vm => h.world hi vm _)
theorem keeps_setPc (h : Closed A I) (pc : Nat) : Keeps I (setPc pc) := Keeps.modify (fun vm => h.cs vm _ (.inr rfl) (.inr (.inr rfl)))
theorem keeps_popLogic (h : Closed A I) : Keeps I popLogic := by unfold popLogic; kept h
theorem keeps_popUnsigned (h : Closed A I) : Keeps I popUnsigned := by unfold popUnsigned; kept h
theorem keeps_popIndex (h : Closed A I) : Keeps I popIndex := by unfold popIndex; kept h
theorem keeps_popIndexLoop (h : Closed A I) (n : Nat) : Keeps I (popIndexLoop n) := by
  induction n with
  | zero => exact Keeps.pure _
  | succ n ih => exact Keeps.bind (keeps_popIndex h) (fun _ => Keeps.bind ih (fun _ => Keeps.pure _))
theorem keeps_popIndexes (h : Closed A I) (n : Nat) : Keeps I (popIndexes n) := by
  unfold popIndexes; keeps; exact keeps_popIndexLoop h n
theorem keeps_pushLogic (h : Closed A I) (hm : A .num) (b : Bool) : Keeps I (pushLogic b) := h.push hm _
theorem keeps_compareStrings (h : Closed A I) : Keeps I compareStrings := by unfold compareStrings; kept h
theorem keeps_getNumericSimple (h : Closed A I) (hs : A .sym) (hm : A .num) (id : Nat) : Keeps I (getNumericSimple id) := by
  unfold getNumericSimple; kept h
theorem keeps_setNumericSimple (h : Closed A I) (hs : A .sym) (hm : A .num) (id : Nat) (x : Dbl) : Keeps I (setNumericSimple id x) := by
  unfold setNumericSimple; kept h
theorem keeps_getStringSimple (h : Closed A I) (hs : A .sym) (ht : A .str) (id : Nat) : Keeps I (getStringSimple id) := by
  unfold getStringSimple; kept h
theorem keeps_setStringSimple (h : Closed A I) (hs : A .sym) (ht : A .str) (id : Nat) (x : CStr) : Keeps I (setStringSimple id x) := by
  unfold setStringSimple; kept h

/-- The two array fields only concern values. -/
def FieldOk {α} (A : Act → Prop) (F : ArrField α) : Prop :=
  ∀ a, ValueOnly (F.set a) ∧ (A .str ∨ StringsKept (F.set a)) ∧ DefKept (F.set a) ∧ (A .num ∨ NumbersKept (F.set a))

theorem numField_ok (hm : A .num) : FieldOk A numField := fun _ => ⟨fun _ => ⟨rfl, rfl, rfl, rfl⟩, .inr (fun _ => ⟨rfl, rfl, rfl⟩), fun _ => rfl, .inl hm⟩
theorem strField_ok (ht : A .str) : FieldOk A strField := fun _ => ⟨fun _ => ⟨rfl, rfl, rfl, rfl⟩, .inl ht, fun _ => rfl, .inr (fun _ => ⟨rfl, rfl⟩)⟩

section
variable {α : Type} {F : ArrField α}

theorem keeps_dimension (h : Closed A I) (hs : A .sym) (hF : FieldOk A F) (id : Nat) (m : List Nat) :
    Keeps I (dimension F id m) := by
  unfold dimension
  kept h
  · exact h.updSym hs _ _ (fun s => (hF none).1 s) ((hF none).2.1.imp _root_.id (fun k s => k s)) (.inr (fun s => (hF none).2.2.1 s))
      ((hF none).2.2.2.imp _root_.id (fun k s => k s))
  · exact h.updSym hs _ _ (fun s => (hF _).1 s) ((hF _).2.1.imp _root_.id (fun k s => k s)) (.inr (fun s => (hF _).2.2.1 s))
      ((hF _).2.2.2.imp _root_.id (fun k s => k s))
theorem keeps_dimensionAuto (h : Closed A I) (hs : A .sym) (hF : FieldOk A F) (id : Nat) (m : List Nat) :
    Keeps I (dimensionAuto F id m) := by
  unfold dimensionAuto; keeps; exact keeps_dimension h hs hF _ _
theorem keeps_dimStatement (h : Closed A I) (hs : A .sym) (hF : FieldOk A F) (id n : Nat) : Keeps I (dimStatement F id n) := by
  unfold dimStatement
  keeps
  · exact h.updSym hs _ _ (fun s => (hF none).1 s) ((hF none).2.1.imp _root_.id (fun k s => k s)) (.inr (fun s => (hF none).2.2.1 s))
      ((hF none).2.2.2.imp _root_.id (fun k s => k s))
  · exact keeps_popIndexes h n
  · exact keeps_dimension h hs hF _ _
theorem keeps_elementArray (h : Closed A I) (hs : A .sym) (hF : FieldOk A F) (id n : Nat) : Keeps I (elementArray F id n) := by
  unfold elementArray
  keeps
  · exact keeps_popIndexes h n
  · exact keeps_dimensionAuto h hs hF _ _
theorem keeps_getElement (h : Closed A I) (hs : A .sym) (hF : FieldOk A F) (id n : Nat) : Keeps I (getElement F id n) := by
  unfold getElement
  keeps
  exact keeps_elementArray h hs hF _ _
theorem keeps_setElement (h : Closed A I) (hs : A .sym) (hF : FieldOk A F) (id n : Nat) (v : α) : Keeps I (setElement F id n v) := by
  unfold setElement
  keeps
  · exact keeps_elementArray h hs hF _ _
  · exact h.updSym hs _ _ (hF _).1 (hF _).2.1 (.inr (hF _).2.2.1) (hF _).2.2.2
end

theorem keeps_setNumeric (h : Closed A I) (hs : A .sym) (hm : A .num) (id n : Nat) (x : Dbl) : Keeps I (setNumeric id n x) := by
  unfold setNumeric
  keeps
  · exact keeps_setNumericSimple h hs hm _ _
  · exact keeps_setElement h hs (numField_ok hm) _ _ _
theorem keeps_setString (h : Closed A I) (hs : A .sym) (ht : A .str) (id n : Nat) (x : CStr) : Keeps I (setString id n x) := by
  unfold setString
  keeps
  · exact keeps_setStringSimple h hs ht _ _
  · exact keeps_setElement h hs (strField_ok ht) _ _ _

theorem keeps_goToBasicLine (h : Closed A I) (hj : A .jump) (n : Nat) : Keeps I (goToBasicLine n) := by
  unfold goToBasicLine; keeps; exact Keeps.modify (fun vm => h.cs vm _ (.inl hj) (.inl hj))

theorem keeps_findData (h : Closed A I) (hd : A .data) : Keeps I findData := by
  unfold findData
  keeps
  · exact Keeps.modify (fun vm hv => h.immediateData hd vm _ hv)
  · exact Keeps.modify (fun vm hv => h.programData hd vm _ hv)

theorem keeps_dumpEntries (fs : List ForLoop) : Keeps I (dumpEntries fs) := by
  induction fs with
  | nil => exact Keeps.pure _
  | cons f fs ih => unfold dumpEntries dumpEntry; keeps

theorem keeps_dumpForStack (h : Closed A I) (hi : A .io) (t : String) : Keeps I (dumpForStack t) := by
  unfold dumpForStack
  keeps
  · exact keeps_out h hi _
  · exact keeps_dumpEntries _
  · exact keeps_out h hi _

theorem keeps_dumpFor (h : Closed A I) (hi : A .io) (t : String) : Keeps I (dumpFor t) := by
  unfold dumpFor
  keeps
  · exact keeps_out h hi _
  · exact keeps_dumpForStack h hi _

theorem keeps_traced (h : Closed A I) {x : VmM Unit} (hx : A .io → Keeps I x) : Keeps I (traced x) := by
  intro vm hv
  simp only [traced, bind_apply, get_apply, when_apply]
  split
  · rcases h.trace with hi | hi
    · exact hx hi vm hv
    · have := (hi vm hv).1
      simp_all
  · exact hv

theorem keeps_next (h : Closed A I) (hj : A .jump) (hs : A .sym) (hl : A .loop) (hm : A .num) (si : Nat) : Keeps I (next si) := by
  unfold next
  keeps
  · exact Keeps.modify (fun vm hv => h.erase hl vm si hv)
  · rename_i f _ s
    refine Keeps.modify (fun vm hv => ?_)
    have := h.updSym hs f.symbolId (fun s' => { s' with num := Dbl.add s.num f.step }) (fun _ => ⟨rfl, rfl, rfl, rfl⟩)
      (.inr (fun _ => ⟨rfl, rfl, rfl⟩)) (.inr (fun _ => rfl)) (.inl hm) vm hv
    exact h.cs _ f.codeState (.inl hj) (.inl hj) this
  · exact keeps_traced h (fun hi => keeps_dumpForStack h hi _)

theorem keeps_forStatement (h : Closed A I) (hi : A .io) (hs : A .sym) (hl : A .loop) (hm : A .num) (id : Nat) : Keeps I (forStatement id) := by
  unfold forStatement
  kept h
  · exact keeps_traced h (fun hi => keeps_dumpFor h hi _)
  · exact h.forTop hl _ (keeps_dumpForStack h hi _)
  · exact h.setTopFor hl _ (fun _ => ⟨rfl, rfl⟩)
  · exact h.setTopFor hl _ (fun _ => ⟨rfl, rfl⟩)
  · exact keeps_traced h (fun hi => keeps_dumpForStack h hi _)

theorem keeps_nextVariable (h : Closed A I) (hj : A .jump) (hs : A .sym) (hl : A .loop) (hm : A .num) (id : Nat) : Keeps I (nextVariable id) := by
  unfold nextVariable
  keeps
  · exact keeps_traced h (fun hi => keeps_dumpFor h hi _)
  · exact keeps_next h hj hs hl hm _
  · exact keeps_next h hj hs hl hm _

theorem keeps_nextImplicit (h : Closed A I) (hj : A .jump) (hs : A .sym) (hl : A .loop) (hm : A .num) : Keeps I nextImplicit := by
  unfold nextImplicit
  keeps
  · exact keeps_traced h (fun hi => keeps_dumpFor h hi _)
  · exact keeps_next h hj hs hl hm _

theorem keeps_callDef (h : Closed A I) (hj : A .jump) (hf : A .fn) (hs : A .sym) (hm : A .num) (id n : Nat) : Keeps I (callDef id n) := by
  unfold callDef
  kept h
  · exact Keeps.modify (fun vm => h.fn hf vm _)
  · exact Keeps.modify (fun vm => h.defCode hf vm _)
  · exact Keeps.modify (fun vm => h.cs vm _ (.inl hj) (.inl hj))
  · exact Keeps.modify (fun vm => h.fn hf vm _)
  · exact Keeps.modify (fun vm => h.cs vm _ (.inl hj) (.inl hj))

theorem keeps_endDef (h : Closed A I) (hj : A .jump) (hf : A .fn) (hs : A .sym) (hm : A .num) : Keeps I endDef := by
  unfold endDef
  kept h
  · exact Keeps.modify (fun vm => h.cs vm _ (.inl hj) (.inl hj))
  · exact Keeps.modify (fun vm => h.fn hf vm _)

theorem keeps_defStatement (h : Closed A I) (hs : A .sym) (ht : A .str) (hd : A .def_) (id n : Nat) : Keeps I (defStatement id n) := by
  unfold defStatement
  kept h
  exact keeps_setPc h _

theorem keeps_rndStep (h : Closed A I) (hi : A .io) (hm : A .num) (env : Env) : Keeps I (rndStep env) := by
  unfold rndStep
  kept h
  exact Keeps.modify (fun vm => h.world hi vm _)

theorem keeps_readClock (h : Closed A I) (hi : A .io) (env : Env) : Keeps I (readClock env) := by
  unfold readClock
  keeps
  exact Keeps.modify (fun vm => h.world hi vm _)

theorem keeps_leftFn (h : Closed A I) (ht : A .str) : Keeps I leftFn := by
  unfold leftFn; kept h; exact keeps_popUnsigned h
theorem keeps_rightFn (h : Closed A I) (ht : A .str) : Keeps I rightFn := by
  unfold rightFn; kept h; exact keeps_popUnsigned h
theorem keeps_midFn (h : Closed A I) (ht : A .str) : Keeps I midFn := by
  unfold midFn; kept h <;> exact keeps_popUnsigned h
theorem keeps_valFn (h : Closed A I) (hm : A .num) : Keeps I valFn := by
  unfold valFn; kept h

/-- The restricted kinds of changes an instruction may make, except those of numbers. -/
@[simp] def changes : Inst → Act → Bool
  | .clear, .sym => true
  | .getSimpleNum _, .sym => true
  | .setSimpleNum _, .sym => true
  | .dimNum _ _, .sym => true
  | .getParenNum _ _, .sym => true
  | .setArrayNum _ _, .sym => true
  | .setSimpleStr _, .sym => true
  | .getSimpleStr _, .sym => true
  | .dimStr _ _, .sym => true
  | .getParenStr _ _, .sym => true
  | .setArrayStr _ _, .sym => true
  | .gosub _, .ret => true
  | .return_, .ret => true
  | .for_ _, .sym => true
  | .for_ _, .loop => true
  | .nextVar _, .sym => true
  | .nextVar _, .loop => true
  | .nextImp, .sym => true
  | .nextImp, .loop => true
  | .def_ _ _, .sym => true
  | .endDef, .sym => true
  | .onGosub _, .ret => true
  | .inputNum _ _, .sym => true
  | .inputStr _ _, .sym => true
  | .inputLine _ _, .sym => true
  | .readNum _ _, .sym => true
  | .readNum _ _, .data => true
  | .readStr _ _, .sym => true
  | .readStr _ _, .data => true
  | .restore, .data => true
  | .restoreLine _, .data => true
  | .for_ _, .io => true
  | .getParenNum _ _, .fn => true
  | .getParenStr _ _, .fn => true
  | .endDef, .fn => true
  | .stop, .stop => true
  | .goto_ _, .jump => true
  | .gotrue _, .jump => true
  | .gosub _, .jump => true
  | .return_, .jump => true
  | .nextVar _, .jump => true
  | .nextImp, .jump => true
  | .onGoto _, .jump => true
  | .onGosub _, .jump => true
  | .getParenNum _ _, .jump => true
  | .getParenStr _ _, .jump => true
  | .endDef, .jump => true
  | .printLn, .io => true
  | .printSpc, .io => true
  | .printTab, .io => true
  | .printComma, .io => true
  | .printNum, .io => true
  | .printStr, .io => true
  | .cls, .io => true
  | .inputBuf _, .io => true
  | .inputBuf _, .input => true
  | .inputEnd, .io => true
  | .inputEnd, .input => true
  | .inputSep, .io => true
  | .inputSep, .input => true
  | .inputNum _ _, .io => true
  | .inputNum _ _, .input => true
  | .inputStr _ _, .input => true
  | .inputLine _ _, .input => true
  | .rand, .io => true
  | .seed, .io => true
  | .bi .rnd, .io => true
  | .bi .timeStr, .io => true
  | .pushStr _, .str => true
  | .concat, .str => true
  | .setSimpleStr _, .str => true
  | .getSimpleStr _, .str => true
  | .dimStr _ _, .str => true
  | .getParenStr _ _, .str => true
  | .setArrayStr _ _, .str => true
  | .def_ _ _, .str => true
  | .def_ _ _, .def_ => true
  | .inputStr _ _, .str => true
  | .inputLine _ _, .str => true
  | .readStr _ _, .str => true
  | .bi .left, .str => true
  | .bi .mid3, .str => true
  | .bi .right, .str => true
  | .bi .chr, .str => true
  | .bi .str, .str => true
  | .bi .timeStr, .str => true
  | .sourceLine _, .line => true
  | _, _ => false

/-- The instructions that may change numbers. -/
@[simp] def changesNum : Inst → Bool
  | .pushNum _ => true
  | .getSimpleNum _ => true
  | .setSimpleNum _ => true
  | .dimNum _ _ => true
  | .getParenNum _ _ => true
  | .getParenStr _ _ => true
  | .setArrayNum _ _ => true
  | .neg => true
  | .arith _ => true
  | .cmpNum _ => true
  | .cmpStr _ => true
  | .or => true
  | .and => true
  | .not => true
  | .for_ _ => true
  | .nextVar _ => true
  | .nextImp => true
  | .endDef => true
  | .inputNum _ _ => true
  | .readNum _ _ => true
  | .bi .asc => true
  | .bi .abs => true
  | .bi .atn => true
  | .bi .cos => true
  | .bi .exp => true
  | .bi .int => true
  | .bi .len => true
  | .bi .log => true
  | .bi .rnd => true
  | .bi .sgn => true
  | .bi .sin => true
  | .bi .sqr => true
  | .bi .tan => true
  | .bi .val => true
  | _ => false

/-- The restricted kinds of changes an instruction may make. -/
def touches (i : Inst) (a : Act) : Bool := if a = .num then changesNum i else changes i a

theorem keeps_builtinOp (h : Closed A I) (env : Env) (b : Bi) (hA : ∀ a, touches (.bi b) a = true → A a) :
    Keeps I (builtinOp env b) := by
  cases b <;> (try have ht := hA .str rfl) <;> (try have hm := hA .num rfl) <;> (try have hi := hA .io rfl) <;> simp only [builtinOp] <;> kept h
  · exact keeps_leftFn h ht
  · exact keeps_midFn h ht
  · exact keeps_rightFn h ht
  · exact keeps_readClock h hi env
  · exact keeps_valFn h hm

theorem keeps_outCol (h : Closed A I) (hi : A .io) (s : CStr) (c : Nat) : Keeps I (outCol s c) := by
  unfold outCol
  keeps
  · exact keeps_out h hi _
  · exact Keeps.modify (fun vm => h.col hi vm _)

theorem keeps_printSpc (h : Closed A I) (hi : A .io) : Keeps I printSpc := by
  unfold printSpc; keeps
  · exact keeps_popUnsigned h
  · exact keeps_outCol h hi _ _
theorem keeps_printTab (h : Closed A I) (hi : A .io) : Keeps I printTab := by
  unfold printTab; keeps
  · exact keeps_popUnsigned h
  all_goals exact keeps_outCol h hi _ _
theorem keeps_printComma (h : Closed A I) (hi : A .io) : Keeps I printComma := by
  unfold printComma; keeps
  exact keeps_outCol h hi _ _
theorem keeps_printNum (h : Closed A I) (hi : A .io) : Keeps I printNum := by
  unfold printNum; kept h
  exact keeps_outCol h hi _ _
theorem keeps_printStr (h : Closed A I) (hi : A .io) : Keeps I printStr := by
  unfold printStr; kept h
  exact keeps_outCol h hi _ _

theorem keeps_readInputLine (h : Closed A I) (hi : A .io) (hn : A .input) : Keeps I readInputLine := by
  unfold readInputLine
  refine Keeps.modify (fun vm hv => ?_)
  split
  · exact hv
  · rename_i buf rest hb
    have hl : (cstr buf).length ≤ 255 := by
      unfold fgets at hb
      split at hb
      · simp at hb
      · simp only [Option.some.injEq] at hb
        have h1 := fgetsGo_length (inputSize - 1) vm.world.stdin
        have h2 := cstr_length buf
        have h3 : buf = (fgetsGo (inputSize - 1) vm.world.stdin).1 := by rw [hb]
        rw [h3] at h2 ⊢
        exact Nat.le_trans h2 (Nat.le_trans h1 (by decide))
    have := h.world hi _ { vm.world with stdin := rest } (h.input hn vm (cstr buf) (.inl hl) hv)
    exact this

theorem keeps_inputBuf (h : Closed A I) (hi : A .io) (hn : A .input) (p : Option CStr) : Keeps I (inputBuf p) := by
  unfold inputBuf; keeps
  · exact keeps_out h hi _
  · exact keeps_out h hi _
  · exact keeps_readInputLine h hi hn
  · refine Keeps.modify (fun vm hv => ?_)
    have := h.inputPc hn _ vm.cs.pc (h.inp hn vm 0 hv)
    exact this

theorem keeps_advance (h : Closed A I) (hn : A .input) (n : Nat) : Keeps I (advance n) := Keeps.modify (fun vm => h.inp hn vm _)

theorem keeps_inputEnd (h : Closed A I) (hi : A .io) (hn : A .input) : Keeps I inputEnd := by
  unfold inputEnd; keeps
  · exact keeps_advance h hn _
  · exact keeps_out h hi _

theorem keeps_inputAgain (h : Closed A I) (hi : A .io) (m : String) : Keeps I (inputAgain m) := by
  unfold inputAgain; keeps
  · exact keeps_out h hi _
  · exact Keeps.modify (fun vm => h.cs vm _ (.inr rfl) (.inr (.inr rfl)))

theorem keeps_inputSep (h : Closed A I) (hi : A .io) (hn : A .input) : Keeps I inputSep := by
  unfold inputSep; keeps
  · exact keeps_advance h hn _
  · exact keeps_advance h hn _
  · exact keeps_inputAgain h hi _

theorem keeps_inputNum (h : Closed A I) (hi : A .io) (hn : A .input) (hs : A .sym) (hm : A .num) (id n : Nat) : Keeps I (inputNum id n) := by
  unfold inputNum; keeps
  · exact keeps_setNumeric h hs hm _ _ _
  · exact Keeps.modify (fun vm => h.inp hn vm _)
  · exact keeps_inputAgain h hi _
  · exact keeps_inputAgain h hi _

theorem keeps_inputStr (h : Closed A I) (hn : A .input) (hs : A .sym) (ht : A .str) (id n : Nat) : Keeps I (inputStr id n) := by
  unfold inputStr; keeps
  · exact keeps_advance h hn _
  · exact keeps_setString h hs ht _ _ _

theorem keeps_inputLine (h : Closed A I) (hn : A .input) (hs : A .sym) (ht : A .str) (id n : Nat) : Keeps I (inputLine id n) := by
  unfold inputLine; keeps
  · exact Keeps.modify (fun vm => h.input hn vm _ (.inr (List.takeWhile_prefix _).length_le))
  · exact keeps_setString h hs ht _ _ _

theorem keeps_readNum (h : Closed A I) (hs : A .sym) (hd : A .data) (hm : A .num) (id n : Nat) : Keeps I (readNum id n) := by
  unfold readNum; keeps
  · exact keeps_findData h hd
  · exact keeps_setNumeric h hs hm _ _ _

theorem keeps_readStr (h : Closed A I) (hs : A .sym) (hd : A .data) (ht : A .str) (id n : Nat) : Keeps I (readStr id n) := by
  unfold readStr; keeps
  · exact keeps_findData h hd
  · exact keeps_setString h hs ht _ _ _

theorem keeps_getParenNum (h : Closed A I) (hj : A .jump) (hf : A .fn) (hs : A .sym) (hm : A .num) (id n : Nat) : Keeps I (getParenNum id n) := by
  unfold getParenNum; kept h
  · exact keeps_getElement h hs (numField_ok hm) _ _
  · exact keeps_callDef h hj hf hs hm _ _

theorem keeps_getParenStr (h : Closed A I) (hj : A .jump) (hf : A .fn) (hs : A .sym) (ht : A .str) (hm : A .num) (id n : Nat) : Keeps I (getParenStr id n) := by
  unfold getParenStr; kept h
  · exact keeps_getElement h hs (strField_ok ht) _ _
  · exact keeps_callDef h hj hf hs hm _ _

theorem keeps_onGoto (h : Closed A I) (hj : A .jump) (n : Nat) : Keeps I (onStatement n false) := by
  simp only [onStatement, when_, Bool.false_eq_true, if_false]
  kept h
  · exact keeps_setPc h _
  · exact keeps_goToBasicLine h hj _

theorem keeps_onGosub (h : Closed A I) (hj : A .jump) (hr : A .ret) (n : Nat) : Keeps I (onStatement n true) := by
  unfold onStatement; kept h
  · exact keeps_setPc h _
  · exact keeps_goToBasicLine h hj _

theorem keeps_skipTo (h : Closed A I) (p : Inst → Bool) : Keeps I (skipTo p) := by
  unfold skipTo; keeps
  exact keeps_setPc h _

theorem keeps_sourceLineInst (h : Closed A I) (hln : A .line) (l : Nat) : Keeps I (sourceLineInst l) := by
  unfold sourceLineInst
  refine Keeps.bind (Keeps.modify (fun vm => h.cs vm _ (.inr rfl) (.inr (.inl hln)))) (fun _ => ?_)
  intro vm hv
  simp only [bind_apply, get_apply]
  rcases h.trace with hi | hi
  · refine (?_ : Keeps I _) vm hv
    keeps
    exact keeps_out h hi _
  · simp [(hi vm hv).2, hv]

theorem keeps_exec (h : Closed A I) (env : Env) (i : Inst) (hA : ∀ a, touches i a = true → A a) :
    Keeps I (exec env i) := by
  cases i with
  | bi b =>
    cases b with
    | rnd => exact keeps_rndStep h (hA .io rfl) (hA .num rfl) env
    | _ => exact Keeps.brk (keeps_builtinOp h env _ hA)
  | _ =>
    (try have hs := hA .sym rfl) <;> (try have hl := hA .loop rfl) <;> (try have hd := hA .data rfl) <;>
    (try have hr := hA .ret rfl) <;> (try have hi := hA .io rfl) <;> (try have hn := hA .input rfl) <;>
    (try have hf := hA .fn rfl) <;> (try have hp := hA .stop rfl) <;> (try have ht := hA .str rfl) <;> (try have hg := hA .def_ rfl) <;> (try have hj := hA .jump rfl) <;> (try have hm := hA .num rfl) <;> (try have hln := hA .line rfl) <;>
    simp only [exec] <;> kept h <;> with_reducible first
    | exact keeps_sourceLineInst h hln _
    | exact keeps_getNumericSimple h hs hm _
    | exact keeps_setNumericSimple h hs hm _ _
    | exact keeps_dimStatement h hs (numField_ok hm) _ _
    | exact keeps_dimStatement h hs (strField_ok ht) _ _
    | exact keeps_getParenNum h hj hf hs hm _ _
    | exact keeps_getParenStr h hj hf hs ht hm _ _
    | exact keeps_setElement h hs (numField_ok hm) _ _ _
    | exact keeps_setElement h hs (strField_ok ht) _ _ _
    | exact keeps_pushLogic h hm _
    | exact keeps_popLogic h
    | exact keeps_setStringSimple h hs ht _ _
    | exact keeps_getStringSimple h hs ht _
    | exact keeps_compareStrings h
    | exact keeps_setPc h _
    | exact keeps_goToBasicLine h hj _
    | exact keeps_forStatement h hi hs hl hm _
    | exact keeps_nextVariable h hj hs hl hm _
    | exact keeps_nextImplicit h hj hs hl hm
    | exact keeps_defStatement h hs ht hg _ _
    | exact keeps_endDef h hj hf hs hm
    | exact keeps_onGoto h hj _
    | exact keeps_onGosub h hj hr _
    | exact keeps_skipTo h _
    | exact keeps_outCol h hi _ _
    | exact keeps_printSpc h hi
    | exact keeps_printTab h hi
    | exact keeps_printComma h hi
    | exact keeps_printNum h hi
    | exact keeps_printStr h hi
    | exact keeps_inputBuf h hi hn _
    | exact keeps_inputEnd h hi hn
    | exact keeps_inputSep h hi hn
    | exact keeps_inputNum h hi hn hs hm _ _
    | exact keeps_inputStr h hn hs ht _ _
    | exact keeps_inputLine h hn hs ht _ _
    | exact keeps_readNum h hs hd hm _ _
    | exact keeps_readStr h hs hd ht _ _
    | (refine Keeps.modify (fun vm hv => ?_); with_unfolding_all
        first
        | exact h.clear hs vm hv
        | exact h.stopped hp vm _ hv
        | exact h.programData hd vm _ hv
        | exact h.world hi vm _ hv
        | exact (have := h.immediateData hd _ 0 (h.programData hd vm 0 hv); this))
    | exact keeps_readClock h hi env
    | exact keeps_popUnsigned h

theorem keeps_execute (h : Closed (fun _ => True) I) (env : Env) : Keeps I (execute env) := by
  unfold execute; keeps
  · exact keeps_exec h env _ (fun _ _ => trivial)
  · exact Keeps.modify (fun vm => h.cs vm _ (.inr rfl) (.inr (.inr rfl)))

end V
end LB
