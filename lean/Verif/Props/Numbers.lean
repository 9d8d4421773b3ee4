import Verif.Proofs.Numbers
import Verif.Proofs.Exec
import Verif.Proofs.Demo
import Verif.Props.Data
/- C33: the texts VAL, READ and INPUT accept as numbers. -/
namespace LB
open LB.Spec

/-- C33.  A text denotes at most one number. -/
theorem C33_unique (s : CStr) (x y : Dbl) (hx : Numeric s x) (hy : Numeric s y) : x = y := by
  have h1 := (convert_whole s x).2 hx
  have h2 := (convert_whole s y).2 hy
  rw [h1] at h2; cases h2; rfl

/-- C33.  VAL gives the number a text denotes; of every other text it makes an error, and nothing is assigned or
printed. -/
theorem C33_val (env : Env) (vm : VM) (s : CStr) (rest : List CStr) (hat : At vm (.bi .val))
    (hs : vm.strstack = s :: rest) (hroom : vm.stack.length < 16) :
    (∀ x, Numeric s x → V.execute env vm = .ok () { vm with
      stack := x :: vm.stack, strstack := rest, cs := following vm.cs }) ∧
    ((∀ x, ¬ Numeric s x) → V.execute env vm = .err .invalidNumber { vm with strstack := rest }) := by
  have hr : ¬ vm.stack.length ≥ maxNumStack := by simp [maxNumStack]; omega
  constructor
  · intro x hx
    rw [V.execute_at env hat]
    simp [V.exec, V.builtinOp, V.valFn, V.popStr, hs, (convert_whole s x).2 hx, V.push, hr]
  · intro hx
    rw [V.execute_at env hat]
    simp only [V.exec, V.brk_apply, V.builtinOp, V.valFn, V.bind_apply, V.popStr, hs]
    cases hc : V.convert s with
    | none => rfl
    | some p =>
      obtain ⟨x, t⟩ := p
      cases t with
      | nil => exact absurd ((convert_whole s x).1 hc) (hx x)
      | cons c t => rfl

/-- C33.  READ of a number assigns the number the next item denotes; of every other item it makes an error, and no
variable has changed. -/
theorem C33_read (env : Env) (vm : VM) (id : Nat) (s : CStr) (more : List CStr) (hat : At vm (.readNum id 0))
    (hp : ReadsProgram vm) (hk : DataKnown vm) (hv : NumVar vm.st id) (hs : pending vm = s :: more) :
    (∀ x, Numeric s x → ∃ vm', V.execute env vm = .ok () vm' ∧ num vm'.st id = x ∧ SameBut id vm.st vm'.st) ∧
    ((∀ x, ¬ Numeric s x) → ∃ vm', V.execute env vm = .err .numericDataExpected vm' ∧ vm'.st = vm.st) := by
  constructor
  · intro x hx
    obtain ⟨vm', h1, h2, h3, -⟩ := C22_read_number env vm id s more x hat hp hk hv hs hx
    exact ⟨vm', h1, h2, h3⟩
  · exact C22_not_number env vm id 0 s more hat hp hk hs

/-- C33.  INPUT of a number assigns the number the text up to the next comma or the end of the line denotes, and goes
on behind that text; of every other text it says so, and no variable has changed. -/
theorem C33_input (env : Env) (vm : VM) (id : Nat) (p : Nat) (hat : At vm (.inputNum id 0))
    (hv : NumVar vm.st id) (hp : vm.inp = p) (hle : p ≤ vm.input.length) :
    (∀ x, Numeric (upToComma (vm.input.drop p)) x → ∃ vm', V.execute env vm = .ok () vm' ∧ num vm'.st id = x ∧
      SameBut id vm.st vm'.st ∧ vm'.input = vm.input ∧ vm'.inp = p + (upToComma (vm.input.drop p)).length ∧
      vm'.world = vm.world ∧ vm'.cs = following vm.cs) ∧
    ((∀ x, ¬ Numeric (upToComma (vm.input.drop p)) x) → V.execute env vm = .ok () { vm with
      world := { vm.world with out := vm.world.out ++ "* Invalid input *\n".toList },
      cs := { vm.cs with pc := vm.inputPc } }) := by
  have hrest : V.inputRest vm = .ok (vm.input.drop p) vm := by
    simp only [V.inputRest, hp]
    rw [if_neg (by omega)]; rfl
  constructor
  · intro x hx
    obtain ⟨t, hc, he⟩ := (convert_input _ _).1 hx
    have hlen : t.length + (upToComma (vm.input.drop p)).length = vm.input.length - p := by
      have h1 := congrArg List.length (upToComma_eq (vm.input.drop p))
      rw [← convert_input_rest hc he] at h1
      simp only [List.length_drop, List.length_append] at h1
      omega
    obtain ⟨q, hq, hkind, ht⟩ := hv
    rw [V.execute_at env hat]
    simp only [V.exec, V.inputNum, V.bind_apply, hrest, hc, he, if_true, V.setNumeric, V.setNumericSimple, V.sym_ok hq,
      V.assert_apply, V.isVar, hkind, ht, beq_self_eq_true, Bool.and_self, V.updSym, V.modify_apply, V.pure_apply]
    refine ⟨_, rfl, ?_, symUpdate_sameBut .., rfl, ?_, rfl, rfl⟩
    · simp only [num, symUpdate_same hq]; simp
    · simp only; omega
  · intro hx
    rw [V.execute_at env hat]
    simp only [V.exec, V.inputNum, V.bind_apply, hrest]
    cases hc : V.convert (vm.input.drop p) with
    | none => rfl
    | some r =>
      obtain ⟨x, t⟩ := r
      cases he : V.endsNumber t with
      | true => exact absurd ((convert_input _ _).2 ⟨t, hc, he⟩) (hx x)
      | false => simp only [he]; rfl

private theorem unsigned123 : Unsigned "12.5E-1".toList (.fin (5/4)) := by
  have h : Mantissa _root_.Spec.IsDigit "12.5".toList "12".toList "5".toList := ⟨by decide, by decide, .inr rfl⟩
  have h' : Exponent 'E' "E-1".toList (-1) :=
    .inr ⟨'E', "1".toList, by decide, by decide, by decide, .inr (.inr ⟨rfl, by decide⟩)⟩
  have := Unsigned.decimal h h' (Dbl.rnd_rounded _)
  rwa [show Dbl.rnd (_root_.Spec.decimal ("12".toList ++ "5".toList) * power 10 (-1 - ("5".toList.length : Int))) = .fin (5/4) by
    decide +kernel] at this

example : Numeric " -12.5E-1\t".toList (.fin (-5/4)) := by
  refine ⟨[' '], "-12.5E-1".toList, ['\t'], by decide, by unfold Blank; decide, by unfold Blank; decide, ?_⟩
  have := NumberText.minus unsigned123 (Dbl.neg_opposite _)
  rwa [show Dbl.neg (.fin (5/4)) = .fin (-5/4) by decide +kernel] at this

/-- Not every text that starts with a digit is a number. -/
example : ∀ x, ¬ Numeric "12E".toList x := by
  intro x h
  have := (convert_whole _ _).2 h
  rw [show V.convert "12E".toList = some (.fin 12, ['E']) by decide +kernel] at this
  cases this

example : Numeric (upToComma "12.5E-1,x\n".toList) (.fin (5/4)) :=
  ⟨[], "12.5E-1".toList, [], by decide, by unfold Blank; decide, by unfold Blank; decide, .plain unsigned123 ⟨'1', _, rfl, .inl (by decide)⟩⟩

private def valDemo (s : String) : VM := { Demo.machine [.bi .val] [] with strstack := [s.toList] }
example : At (valDemo "12E") (.bi .val) ∧ (valDemo "12E").strstack = "12E".toList :: [] :=
  ⟨⟨.stored, _, rfl, rfl, rfl⟩, rfl⟩

private def inputDemo (s : String) : VM :=
  { Demo.machine [.inputBuf none, .inputNum 0 0] [Demo.numSym "X" 0 (.fin 3)] with
    input := s.toList, inp := 1, cs := { code := some .stored, sourceLine := 0, pc := 1 } }
example : At (inputDemo ",12.5E-1,x\n") (.inputNum 0 0) ∧ NumVar (inputDemo ",12.5E-1,x\n").st 0 :=
  ⟨⟨.stored, _, rfl, rfl, rfl⟩, ⟨_, rfl, rfl, rfl⟩⟩

set_option maxRecDepth 100000 in
example : Demo.shows "PRINT VAL(\" 1E2 \")\nPRINT VAL(\"0x1F\")\nPRINT VAL(\"7 8\")\nINPUT A\nx\n 5 \nPRINT A\n"
    = .ok ">  100 \n>  31 \n> > ? * Invalid input *\n? >  5 \n".toList := by decide +kernel

end LB
