import Verif.Proofs.Keeps
/- What an instruction leaves alone. -/
namespace LB
namespace V

/-- A field of the machine that no allowed change concerns is kept. -/
theorem closed_of_field {β : Type} (A : Act → Prop) (g : VM → β) (b : β)
    (stack : ∀ vm s, g { vm with stack := s } = g vm)
    (strstack : ∀ vm s, g { vm with strstack := s } = g vm)
    (ret : A .ret → ∀ vm s cs, g { vm with retstack := s, cs := cs } = g vm)
    (sym : A .sym → ∀ vm st, g { vm with st := st } = g vm)
    (data : A .data → ∀ vm p i, g { vm with programData := p, immediateData := i } = g vm)
    (loop : A .loop → ∀ vm f, g { vm with forStack := f } = g vm)
    (cs : ∀ vm cs, A .jump ∨ cs.code = vm.cs.code → g { vm with cs := cs } = g vm)
    (io : A .io → ∀ vm w c, g { vm with world := w, col := c } = g vm)
    (trace : A .io ∨ ∀ vm, g vm = b → vm.traceFor = false ∧ vm.traceBasic = false)
    (input : A .input → ∀ vm i n p, g { vm with input := i, inp := n, inputPc := p } = g vm)
    (fn : A .fn → ∀ vm f d, g { vm with fn := f, defCode := { vm.defCode with bcode := d } } = g vm)
    (stop : A .stop → ∀ vm b, g { vm with stopped := b } = g vm) :
    Closed A (fun vm => g vm = b) where
  push _ x := by
    intro vm h; simp only [push]; split
    · exact h
    · exact (stack vm _).trans h
  pop := by
    intro vm h; simp only [pop]; split
    · exact h
    · exact (stack vm _).trans h
  pushStr _ x := by
    intro vm h; simp only [pushStr]; split
    · exact h
    · exact (strstack vm _).trans h
  popStr := by
    intro vm h; simp only [popStr]; split
    · exact h
    · exact (strstack vm _).trans h
  pushReturn hr pc := by
    intro vm h; simp only [pushReturn]; split
    · exact h
    · exact (ret hr vm _ vm.cs).trans h
  popReturn hr := by
    intro vm h; simp only [popReturn]; split
    · exact h
    · exact (ret hr vm _ _).trans h
  updSym hs id f _ _ _ _ := Keeps.modify (fun vm h => (sym hs vm _).trans h)
  clear hs vm h := (sym hs vm _).trans h
  world hi vm w h := (io hi vm w vm.col).trans h
  col hi vm c h := (io hi vm vm.world c).trans h
  cs vm c hj _ h := (cs vm c hj).trans h
  stopped ht vm c h := (stop ht vm c).trans h
  fn hf vm c h := (fn hf vm c vm.defCode.bcode).trans h
  defCode hf vm c h := (fn hf vm vm.fn c).trans h
  input hn vm c _ h := (input hn vm c vm.inp vm.inputPc).trans h
  inp hn vm c h := (input hn vm vm.input c vm.inputPc).trans h
  inputPc hn vm c h := (input hn vm vm.input vm.inp c).trans h
  trace := trace
  programData hd vm n h := (data hd vm n vm.immediateData).trans h
  immediateData hd vm n h := (data hd vm vm.programData n).trans h
  forTop hl id hd := by
    unfold forTop forEntry
    keeps
    · exact Keeps.modify (fun vm h => (loop hl vm _).trans h)
    · exact Keeps.modify (fun vm h => (loop hl vm _).trans h)
    · exact Keeps.modify (fun vm h => (loop hl vm _).trans h)
  setTopFor hl f _ := Keeps.modify (fun vm h => (loop hl vm _).trans h)
  erase hl vm si h := (loop hl vm _).trans h

/-- Everything that no instruction changes. -/
theorem closed_fixed {β : Type} (g : Code → Code → CodeState → Bool → Bool → Bool → Bool → β) (b : β) :
    Closed (fun _ => True) (fun vm => g vm.stored vm.immediate vm.stoppedProgram vm.keywordsAnywhere vm.traceBasic
      vm.traceFor vm.inputPrompt = b) := by
  refine closed_of_field _ (fun vm => g vm.stored vm.immediate vm.stoppedProgram vm.keywordsAnywhere vm.traceBasic
      vm.traceFor vm.inputPrompt) b ?_ ?_ ?_ ?_ ?_ ?_ ?_ ?_ (.inl trivial) ?_ ?_ ?_ <;> intros <;> rfl

theorem closed_retstack (r : List CodeState) : Closed (· ≠ .ret) (fun vm => vm.retstack = r) := by
  refine closed_of_field _ (fun vm => vm.retstack) r ?_ ?_ (fun h => absurd rfl h) ?_ ?_ ?_ ?_ ?_ (.inl (by decide)) ?_ ?_ ?_ <;>
    intros <;> rfl

theorem closed_forStack (r : List ForLoop) : Closed (· ≠ .loop) (fun vm => vm.forStack = r) := by
  refine closed_of_field _ (fun vm => vm.forStack) r ?_ ?_ ?_ ?_ ?_ (fun h => absurd rfl h) ?_ ?_ (.inl (by decide)) ?_ ?_ ?_ <;>
    intros <;> rfl

theorem closed_st (r : SymTab) : Closed (· ≠ .sym) (fun vm => vm.st = r) := by
  refine closed_of_field _ (fun vm => vm.st) r ?_ ?_ ?_ (fun h => absurd rfl h) ?_ ?_ ?_ ?_ (.inl (by decide)) ?_ ?_ ?_ <;>
    intros <;> rfl

theorem closed_data (r : Nat × Nat) : Closed (· ≠ .data) (fun vm => (vm.programData, vm.immediateData) = r) := by
  refine closed_of_field _ (fun vm => (vm.programData, vm.immediateData)) r ?_ ?_ ?_ ?_ (fun h => absurd rfl h) ?_ ?_ ?_
    (.inl (by decide)) ?_ ?_ ?_ <;> intros <;> rfl

/-- Without tracing, only some instructions write or read anything outside the machine. -/
theorem closed_io (w : World) (c : Nat) :
    Closed (· ≠ .io) (fun vm => (vm.world, vm.col, vm.traceFor, vm.traceBasic) = (w, c, false, false)) := by
  refine closed_of_field _ (fun vm => (vm.world, vm.col, vm.traceFor, vm.traceBasic)) _ ?_ ?_ ?_ ?_ ?_ ?_ ?_
    (fun h => absurd rfl h) (.inr ?_) ?_ ?_ ?_ <;> intros <;> first | rfl | simp_all

theorem closed_input (i : CStr) (n : Int) (p : Nat) :
    Closed (· ≠ .input) (fun vm => (vm.input, vm.inp, vm.inputPc) = (i, n, p)) := by
  refine closed_of_field _ (fun vm => (vm.input, vm.inp, vm.inputPc)) _ ?_ ?_ ?_ ?_ ?_ ?_ ?_ ?_ (.inl (by decide))
    (fun h => absurd rfl h) ?_ ?_ <;> intros <;> rfl

theorem closed_fn (f : FnState) (d : Code) : Closed (· ≠ .fn) (fun vm => (vm.fn, vm.defCode) = (f, d)) := by
  refine closed_of_field _ (fun vm => (vm.fn, vm.defCode)) _ ?_ ?_ ?_ ?_ ?_ ?_ ?_ ?_ (.inl (by decide))
    ?_ (fun h => absurd rfl h) ?_ <;> intros <;> rfl

theorem closed_stopped (b : Bool) : Closed (· ≠ .stop) (fun vm => vm.stopped = b) := by
  refine closed_of_field _ (fun vm => vm.stopped) _ ?_ ?_ ?_ ?_ ?_ ?_ ?_ ?_ (.inl (by decide))
    ?_ ?_ (fun h => absurd rfl h) <;> intros <;> rfl

end V
end LB
