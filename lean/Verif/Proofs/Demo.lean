import Verif.Model.Monitor
import Verif.Proofs.Arith
/- Concrete sessions for the examples. -/
namespace LB.Demo

/-- Some library functions. -/
def env : Env :=
  { pow := fun x y => match x, y with
      | .fin a, .fin b => Dbl.rnd (a ^ b.floor.toNat)
      | _, _ => .nan
    atan := id, cos := id, exp := id, log := id, sin := id, sqrt := id, tan := id
    pow_double := by
      intro x y _ _
      split
      · exact Dbl.rounded_valid (Dbl.rnd_rounded _)
      · trivial
    math_double := by
      intro f hf x hx
      simp only [List.mem_cons, List.not_mem_nil, or_false, or_self] at hf
      rw [hf]
      exact hx
    rand := fun g => ((g * 1103515245 + 12345) % 2147483648, g + 1)
    srand := id, randMax := 2147483647, time := id
    localtime := fun _ => (12, 0, 0), clearScreen := [] }

/-- No interrupts, few steps. -/
def ctx (fuel : Nat := 200) : Ctx := { env := env, brk := fun _ => false, fuel := fuel, canWrite := fun _ => true }

/-- Typing lines until the session ends. -/
def go (c : Ctx) : Nat → Session → Outcome Session
  | 0, s => .ok s
  | n + 1, s =>
    match interactStep c s with
    | .halt h => .halt h
    | .ok none => .ok s
    | .ok (some s') => go c n s'

/-- The session after typing the lines of a text. -/
def session (text : String) (fuel : Nat := 200) : Outcome Session :=
  go (ctx fuel) 1000 (newSession false false false { stdin := text.toList } (fun _ => none))

/-- What is shown when typing the lines of a text. -/
def shows (text : String) (fuel : Nat := 200) : Outcome CStr :=
  match session text fuel with
  | .halt h => .halt h
  | .ok s => .ok s.vm.world.out

/-- A machine running the given code as its stored program. -/
def machine (insts : List Inst) (psym : List Symbol) : VM :=
  { newVm false false false {} with
    st := { hash := fun _ => [], psym := psym, nextId := psym.length }
    stored := { source := none, bcode := some ⟨insts, insts.any Inst.isData⟩, index := some (newLineMap 0) }
    cs := { code := some .stored, sourceLine := 0, pc := 0 } }

/-- A numeric scalar with a value. -/
def numSym (name : String) (id : Nat) (x : Dbl) : Symbol :=
  { name := name.toList, id := id, kind := .variable, type := .num, defined := true, num := x }

/-- A string scalar with a value. -/
def strSym (name : String) (id : Nat) (x : String) : Symbol :=
  { name := name.toList, id := id, kind := .variable, type := .str, defined := true, str := some x.toList }

end LB.Demo
