import Verif.Proofs.Digits
import Verif.Proofs.Branches
import Verif.Proofs.Demo
/- C54: numbers are written rounded to six significant digits. -/
namespace LB
open LB.Spec

/-- C54.  PRINT writes a number between two spaces, in the only way there is to write it: rounded to the nearest number
with six significant digits, without zeros at the end, with an exponent if it is below 0.0001 or not below 1000000. -/
theorem C54_print (env : Env) (vm : VM) (x : Dbl) (rest : List Dbl) (hat : At vm .printNum) (hs : vm.stack = x :: rest)
    (hx : Valid x) :
    ∃ vm' t, V.execute env vm = .ok () vm' ∧ vm'.world = { vm.world with out := vm.world.out ++ (' ' :: t ++ [' ']) } ∧
      vm'.stack = rest ∧ vm'.st = vm.st ∧ Printed x t ∧ ∀ t', Printed x t' → t' = t := by
  rw [V.execute_at env hat]
  simp only [V.exec, V.brk_apply, V.printNum, V.outCol, V.out, V.bind_apply, V.pop, hs, V.get_apply, V.modify_apply]
  exact ⟨_, Dbl.fmtG x, rfl, rfl, rfl, rfl, Dbl.fmtG_printed hx, fun t' h => Dbl.printed_unique h (Dbl.fmtG_printed hx)⟩

/-- C54.  STR$ gives the same text without the spaces. -/
theorem C54_str (env : Env) (vm : VM) (x : Dbl) (rest : List Dbl) (hat : At vm (.bi .str)) (hs : vm.stack = x :: rest)
    (hx : Valid x) (hroom : vm.strstack.length < 8) :
    ∃ t, V.execute env vm = .ok () { vm with stack := rest, strstack := t :: vm.strstack, cs := following vm.cs } ∧
      Printed x t ∧ ∀ t', Printed x t' → t' = t := by
  have hr : ¬ vm.strstack.length ≥ maxStrStack := by simp [maxStrStack]; omega
  refine ⟨Dbl.fmtG x, ?_, Dbl.fmtG_printed hx, fun t' h => Dbl.printed_unique h (Dbl.fmtG_printed hx)⟩
  rw [V.execute_at env hat]
  simp only [V.exec, V.brk_apply, V.builtinOp, V.bind_apply, V.pop, hs, V.pushStr, hr, if_false]

/-- C54.  Whole numbers of at most six digits are written exactly. -/
theorem C54_integer (n : Nat) (h0 : 0 < n) (h : n < 1000000) :
    Printed (.fin n) (_root_.Spec.numeral n) ∧ Printed (.fin (-n)) ('-' :: _root_.Spec.numeral n) := by
  have hn : (0 : Rat) < n := by
    have := Rat.natCast_lt_natCast (a := 0) (b := n)
    simpa using this.2 h0
  have key : Shown n (_root_.Spec.numeral n) := Dbl.shown_integer n h0 h
  refine ⟨.pos hn key, .neg (by grind) ?_⟩
  rw [Rat.neg_neg]
  exact key

/-- A half, and a number with an exponent. -/
example : At (Demo.machine [.printNum] []) .printNum ∧ Valid (.fin (1/2)) ∧ Printed (.fin (1/2)) "0.5".toList ∧
    ¬ Printed (.fin (1/2)) "0.50".toList ∧ Valid (.fin 12345678) ∧ Printed (.fin 12345678) "1.23457e+07".toList := by
  have h1 : Valid (.fin (1/2)) := ⟨1, -1, by decide, by decide, by decide, by decide +kernel⟩
  have h2 : Valid (.fin 12345678) := ⟨12345678, 0, by decide, by decide, by decide, by decide +kernel⟩
  refine ⟨⟨.stored, _, rfl, rfl, rfl⟩, h1, ?_, ?_, h2, ?_⟩
  · rw [Dbl.fmtG_iff h1]; decide +kernel
  · rw [Dbl.fmtG_iff h1]; decide +kernel
  · rw [Dbl.fmtG_iff h2]; decide +kernel

set_option maxRecDepth 100000 in
example : Demo.shows "PRINT 1/3;-999999;1000000;99999.95;1/10000;1/100000;STR$(1/4)\n" =
    .ok ">  0.333333  -999999  1e+06  99999.9  0.0001  1e-05 0.25\n".toList := by decide +kernel

/-- C54.  The text written for a positive number is read back by VAL, READ and INPUT as the double nearest to the number
with six significant digits that is nearest to the number. -/
theorem C54_back (q : Rat) (t : CStr) (y : Dbl) (hq : 0 < q) (ht : Printed (.fin q) t) :
    Numeric t y ↔ ∃ m e, Nearest q m e ∧ Rounded (scaled m e) y := by
  cases ht with
  | zero => exact absurd hq (by decide)
  | neg h => exact absurd hq (by grind)
  | pos _ h =>
    obtain ⟨m, e, hn, hb⟩ := Dbl.shown_back h
    constructor
    · intro hy
      have := (convert_whole t y).2 hy
      have h2 := (convert_whole t _).2 (hb _ (Dbl.rnd_rounded _))
      rw [this] at h2
      simp only [Option.some.injEq, Prod.mk.injEq, and_true] at h2
      exact ⟨m, e, hn, h2 ▸ Dbl.rnd_rounded _⟩
    · rintro ⟨m', e', hn', hr⟩
      obtain ⟨rfl, rfl⟩ := Dbl.nearest_unique hn hn'
      exact hb y hr

end LB
