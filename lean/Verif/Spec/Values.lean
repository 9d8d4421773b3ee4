import Verif.Spec.Branches
/- What values mean where they are used. -/
namespace LB.Spec

/-- `x` is the whole number `n` and fits into 32 bits: it can be a count, a position or a subscript. -/
def IsCount (x : Dbl) (n : Nat) : Prop := IsInt x n ∧ n ≤ 4294967295

/-- `x` is the integer `k` and fits into 32 bits with a sign: it can be an operand of AND, OR, NOT. -/
def IsWord (x : Dbl) (k : Int) : Prop := IsInt x k ∧ -2147483648 ≤ k ∧ k ≤ 2147483647

/-- The machine is about to execute an instruction that uses `x` as a count or position. -/
inductive CountAt : VM → Dbl → Prop
  | spc {vm : VM} {x : Dbl} {rest : List Dbl} : At vm .printSpc → vm.stack = x :: rest → CountAt vm x
  | tab {vm : VM} {x : Dbl} {rest : List Dbl} : At vm .printTab → vm.stack = x :: rest → CountAt vm x
  | seed {vm : VM} {x : Dbl} {rest : List Dbl} : At vm .seed → vm.stack = x :: rest → CountAt vm x
  | left {vm : VM} {x : Dbl} {rest : List Dbl} : At vm (.bi .left) → vm.strstack ≠ [] → vm.stack = x :: rest →
      CountAt vm x
  | right {vm : VM} {x : Dbl} {rest : List Dbl} : At vm (.bi .right) → vm.strstack ≠ [] → vm.stack = x :: rest →
      CountAt vm x
  | midLength {vm : VM} {x : Dbl} {rest : List Dbl} : At vm (.bi .mid3) → vm.strstack ≠ [] → vm.stack = x :: rest →
      CountAt vm x
  | midPosition {vm : VM} {x y : Dbl} {n : Nat} {rest : List Dbl} : At vm (.bi .mid3) → vm.strstack ≠ [] →
      vm.stack = y :: x :: rest → IsCount y n → CountAt vm x

/-- Bit `i` of an integer in two's complement. -/
def bit (k : Int) (i : Nat) : Bool := decide (k / 2 ^ i % 2 = 1)

/-- The relation between two strings that an operator tests; strings are ordered like words in a dictionary
with the character codes as alphabet. -/
def relStrings : Rel → CStr → CStr → Prop
  | .eq, s, t => s = t
  | .ne, s, t => s ≠ t
  | .lt, s, t => s < t
  | .gt, s, t => t < s
  | .le, s, t => s < t ∨ s = t
  | .ge, s, t => t < s ∨ s = t

/-- The values are the whole numbers `ns` from 0 to 4294967295. -/
def AreCounts : List Dbl → List Nat → Prop
  | [], [] => True
  | x :: xs, n :: ns => IsCount x n ∧ AreCounts xs ns
  | _, _ => False

end LB.Spec
