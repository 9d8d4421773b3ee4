import Verif.Spec.Semantics
/- Continuing a program that stopped at a STOP statement. -/
namespace LB.Src
open LB.Spec

/-- What CONT starts with, after STOP in the situation `c`: the place after the STOP, everything else as it was; `i` is
now the input still to be read, and nothing has been printed since. -/
def resume (prog : Program) (c : Config) (i : CStr) : Config :=
  { c with place := prog[c.place.1]?.elim c.place (fun l => after l.2 c.place), stdin := i, out := [] }

/-- The machine, after the text `o` was printed and when `i` is the input still to be read. -/
def meanwhile (vm : VM) (o i : CStr) : VM := { vm with world := { vm.world with out := vm.world.out ++ o, stdin := i } }

/-- RUN, followed by CONT any number of times, ended each time with STOP, the last time in the situation `c`. -/
inductive Paused (env : Env) (brk : Nat → Bool) (src : Source) (prog : Program) : VM → Config → Prop
  | run {vm vm' : VM} {c : Config} {k n : Nat} : Ready vm src prog → steps env prog k (start prog vm) = .stop .stopped c →
      runProgram env brk n vm = .ok (some ⟨none, false⟩, vm') → Paused env brk src prog vm' c
  | cont {vm vm' : VM} {c c' : Config} {o i : CStr} {k n : Nat} : Paused env brk src prog vm c →
      steps env prog k (resume prog c i) = .stop .stopped c' →
      vmContinue env brk n (meanwhile vm o i) = .ok (some ⟨none, false⟩, vm') → Paused env brk src prog vm' c'

end LB.Src
