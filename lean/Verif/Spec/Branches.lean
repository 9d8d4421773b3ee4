import Verif.Spec.Machine
/- What GOTO, ON and IF mean. -/
namespace LB.Spec

/-- Where the stored program's line `n` begins, as far as the machine knows (C06 says that it knows it
exactly). -/
def lineStart (vm : VM) (n : Nat) : Option Nat := vm.stored.index.bind (lookupLineMapping · n)

/-- The instruction at a position of the code being executed. -/
def instAt (vm : VM) (pc : Nat) : Option Inst :=
  vm.cs.code.bind (fun r => (V.codeOf vm r).bcode.bind (fun b => b.inst[pc]?))

/-- The machine is about to execute `ON x GOTO l1,…,lk` or `ON x GOSUB l1,…,lk`. -/
def OnAt (vm : VM) (gosub : Bool) (lines : List Nat) : Prop :=
  At vm (if gosub then .onGosub lines.length else .onGoto lines.length) ∧
  ∀ i l, lines[i]? = some l → instAt vm (vm.cs.pc + 1 + i) = some (.onLine l)

/-- `x` is the integer `k`. -/
def IsInt (x : Dbl) (k : Int) : Prop := x = .fin k ∨ (x = .nzero ∧ k = 0)

/-- The number counts as false: it is a zero. -/
def IsFalse (x : Dbl) : Prop := x = .fin 0 ∨ x = .nzero

/-- The code of `IF c THEN s1 ELSE s2` after the code of `c`, up to the end of its line: `before` is the code
in front, `s1` and `s2` belong to the two branches (other statements of the line that follow `s2`
included), `rest` are the following lines. -/
structure IfElseCode (vm : VM) (before s1 s2 rest : List Inst) : Prop where
  code : ∃ r b, vm.cs.code = some r ∧ (V.codeOf vm r).bcode = some b ∧
    b.inst = before ++ [.ifElse] ++ s1 ++ [.else_] ++ s2 ++ rest
  noElse : Inst.else_ ∉ s1
  oneLine : ∀ l, Inst.sourceLine l ∉ s2
  next : rest = [] ∨ ∃ l r, rest = .sourceLine l :: r

/-- The code of `IF c THEN s1` after the code of `c`, up to the end of its line. -/
structure IfCode (vm : VM) (before s1 rest : List Inst) : Prop where
  code : ∃ r b, vm.cs.code = some r ∧ (V.codeOf vm r).bcode = some b ∧ b.inst = before ++ [.ifThen] ++ s1 ++ rest
  oneLine : ∀ l, Inst.sourceLine l ∉ s1
  next : rest = [] ∨ ∃ l r, rest = .sourceLine l :: r

end LB.Spec
