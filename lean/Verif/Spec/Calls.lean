import Verif.Spec.Machine
/- What GOSUB, ON..GOSUB and RETURN mean. -/
namespace LB.Spec

/-- The machine is about to call a subroutine, and the place right after the call is `back`.  A call is a
`GOSUB`, or an `ON..GOSUB` with `n` lines (which take one instruction each) whose value is one of 1…n. -/
inductive CallAt : VM → CodeState → Prop
  | gosub {vm : VM} (line : Nat) : At vm (.gosub line) → CallAt vm (following vm.cs)
  | onGosub {vm : VM} (n k : Nat) (rest : List Dbl) : At vm (.onGosub n) → vm.stack = .fin k :: rest →
      1 ≤ k → k ≤ n → CallAt vm { vm.cs with pc := vm.cs.pc + n + 1 }

/-- `SameLevel env a b`: the run goes from `a` to `b`, and every subroutine called on the way has been
returned from, and no `RETURN` belonging to an earlier call has been executed. -/
inductive SameLevel (env : Env) : VM → VM → Prop
  | here (a : VM) : SameLevel env a a
  | step {a b c : VM} : SameLevel env a b → V.execute env b = .ok () c →
      (∀ back, ¬ CallAt b back) → ¬ At b .return_ → SameLevel env a c
  | call {a b c d e : VM} (back : CodeState) : SameLevel env a b →
      CallAt b back → V.execute env b = .ok () c →
      SameLevel env c d →
      At d .return_ → V.execute env d = .ok () e → SameLevel env a e

/-- `Deeper env n a b`: the run goes from `a` to `b`, and `n` of the calls made on the way are still open. -/
inductive Deeper (env : Env) : Nat → VM → VM → Prop
  | same {a b : VM} : SameLevel env a b → Deeper env 0 a b
  | call {n : Nat} {a b c d : VM} (back : CodeState) : Deeper env n a b → CallAt b back →
      V.execute env b = .ok () c → SameLevel env c d → Deeper env (n + 1) a d

end LB.Spec
