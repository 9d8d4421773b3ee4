import Verif.Proofs.AllDoubles
import Verif.Proofs.DemoRun
import Verif.Spec.AllNumbers
import Verif.Props.Arithmetic
import Verif.Props.Digits
/- C55: every number a session holds is a double. -/
namespace LB
open LB.Spec

/-- C55.  At every moment of every session, every number held anywhere is one that a double can hold: no operation,
literal, item of DATA or input brings in a number of more than 53 bits or beyond the range of exponents. -/
theorem C55_doubles {vm : VM} (h : Moment vm) {x : Dbl} (hx : HoldsNumber vm x) : Valid x := by
  have hd := V.moment_doubly h
  cases hx with
  | operand hx => exact hd.stack _ hx
  | simple hs => exact (hd.tab _ hs).num
  | element hs ha hx => exact (hd.tab _ hs).arr _ ha _ hx
  | limit hf => exact (hd.loops _ hf).1
  | step hf => exact (hd.loops _ hf).2
  | saved => exact hd.param
  | stored hb hx => exact hd.stored _ hb _ hx
  | typed hb hx => exact hd.immediate _ hb _ hx
  | body hs hdef hx => exact (hd.tab _ hs).code _ hdef _ hx

/-- A third is not a double: the claim is not met by all exact numbers. -/
example : ¬ Valid (.fin (1/3)) := by
  intro h
  rcases Dbl.rnd_rounded (1/3) with ⟨h1, _⟩ | ⟨h1, _⟩ | ⟨r, hr, _, _, _, hn, _⟩
  · exact absurd h1 (by decide +kernel)
  · exact absurd h1 (by decide +kernel)
  · have hg := hn (1/3) h
    have hz : gap (1/3) (1/3) = 0 := by decide +kernel
    have he : Dbl.rnd (1/3) = .fin (6004799503160661 / 18014398509481984) := by decide +kernel
    rw [he] at hr
    simp only [Dbl.toRat?, Option.some.injEq] at hr
    rw [← hr, hz] at hg
    exact absurd hg (by decide +kernel)

set_option maxRecDepth 100000 in
/-- A third as computed, in a variable and in an array, during a loop with a fractional step. -/
example : ∃ vm : VM, Moment vm ∧ HoldsNumber vm (.fin (6004799503160661 / 18014398509481984)) ∧ HoldsNumber vm (.fin (1/4)) := by
  obtain ⟨vm, h1, h2⟩ := Demo.moment (lines := [(10, "A=1/3:FOR I=1 TO 9 STEP 1/4:NEXT")]) (n := 12)
    (P := fun vm => vm.st.psym.any (fun s => s.num == .fin (6004799503160661 / 18014398509481984)) && vm.forStack.any (fun f => f.step == .fin (1/4)))
    (by decide +kernel)
  simp only [Bool.and_eq_true, List.any_eq_true, beq_iff_eq] at h2
  obtain ⟨⟨s, hs, he⟩, f, hf, hg⟩ := h2
  exact ⟨vm, h1, he ▸ .simple hs, hg ▸ .step hf⟩

/-- C55.  So the operators give the results of IEEE 754 in every session, whatever their operands come from. -/
theorem C55_operator (env : Env) {vm : VM} (h : Moment vm) (o : Arith) (x y : Dbl) (rest : List Dbl) (hat : At vm (.arith o))
    (hs : vm.stack = y :: x :: rest) (hroom : vm.stack.length ≤ 16) (ho : o ≠ .pow) :
    ∃ z, V.execute env vm = .ok () { vm with stack := z :: rest, cs := following vm.cs } ∧ Spec.Result o x y z ∧
      ∀ z', Spec.Result o x y z' → z' = z := by
  have hx : Valid x := C55_doubles h (.operand (by rw [hs]; simp))
  have hy : Valid y := C55_doubles h (.operand (by rw [hs]; simp))
  obtain ⟨z, h1, h2, _⟩ := C53_operator env vm o x y rest hat hs hroom hx hy
  exact ⟨z, h1, h2, fun z' h' => C53_unique o x y z' z ho hx hy h' h2⟩

/-- C55.  So PRINT writes the number as C54 says in every session. -/
theorem C55_print (env : Env) {vm : VM} (h : Moment vm) (x : Dbl) (rest : List Dbl) (hat : At vm .printNum) (hs : vm.stack = x :: rest) :
    ∃ vm' t, V.execute env vm = .ok () vm' ∧ vm'.world = { vm.world with out := vm.world.out ++ (' ' :: t ++ [' ']) } ∧
      vm'.stack = rest ∧ vm'.st = vm.st ∧ Printed x t ∧ ∀ t', Printed x t' → t' = t :=
  C54_print env vm x rest hat hs (C55_doubles h (.operand (by rw [hs]; simp)))

/-- C55.  So does STR$. -/
theorem C55_str (env : Env) {vm : VM} (h : Moment vm) (x : Dbl) (rest : List Dbl) (hat : At vm (.bi .str)) (hs : vm.stack = x :: rest)
    (hroom : vm.strstack.length < 8) :
    ∃ t, V.execute env vm = .ok () { vm with stack := rest, strstack := t :: vm.strstack, cs := following vm.cs } ∧
      Printed x t ∧ ∀ t', Printed x t' → t' = t :=
  C54_str env vm x rest hat hs (C55_doubles h (.operand (by rw [hs]; simp))) hroom

set_option maxRecDepth 100000 in
/-- A division, and the PRINT behind it. -/
example : (∃ vm : VM, Moment vm ∧ At vm (.arith .div) ∧ vm.stack = [.fin 3, .fin 1] ∧ vm.stack.length ≤ 16) ∧
    ∃ vm : VM, Moment vm ∧ At vm .printNum ∧ vm.stack = [.fin (6004799503160661 / 18014398509481984)] := by
  constructor
  · obtain ⟨vm, h1, h2⟩ := Demo.moment (lines := [(10, "PRINT 1/3")]) (n := 3)
      (P := fun vm => Demo.nextIs (.arith .div) vm && vm.stack == [.fin 3, .fin 1]) (by decide +kernel)
    simp only [Bool.and_eq_true, beq_iff_eq] at h2
    exact ⟨vm, h1, Demo.at_of_nextIs h2.1, h2.2, by rw [h2.2]; decide⟩
  · obtain ⟨vm, h1, h2⟩ := Demo.moment (lines := [(10, "PRINT 1/3")]) (n := 4)
      (P := fun vm => Demo.nextIs .printNum vm && vm.stack == [.fin (6004799503160661 / 18014398509481984)]) (by decide +kernel)
    simp only [Bool.and_eq_true, beq_iff_eq] at h2
    exact ⟨vm, h1, Demo.at_of_nextIs h2.1, h2.2⟩

end LB
