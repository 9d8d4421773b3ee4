import Verif.Spec.Data
import Verif.Spec.Values
import Verif.Spec.Digits
/- The print position. -/
namespace LB.Spec

/-- The column after writing `t` starting in column `c`: one more than the number of characters since the last
newline. -/
def columnAfter (c : Nat) (t : CStr) : Nat :=
  if '\n' ∈ t then 1 + (t.reverse.takeWhile (· ≠ '\n')).length else c + t.length

/-- The instructions that write without keeping the print position (INPUT and LINE INPUT), or that clear the screen. -/
def OtherOutput : Inst → Prop
  | .inputBuf _ => True
  | .inputEnd => True
  | .inputSep => True
  | .inputNum _ _ => True
  | .cls => True
  | _ => False

/-- What a PRINT instruction writes in column `c`, given the values on the stacks. -/
inductive Prints (c : Nat) : Inst → List Dbl → List CStr → CStr → Prop
  | ln {ns ss} : Prints c .printLn ns ss ['\n']
  | number {x t ns ss} : Valid x → Printed x t → Prints c .printNum (x :: ns) ss (' ' :: t ++ [' '])
  | string {s ns ss} : Prints c .printStr ns (s :: ss) s
  | spc {x n ns ss} : IsCount x n → Prints c .printSpc (x :: ns) ss (List.replicate n ' ')
  | tabForward {x n ns ss} : IsCount x n → c ≤ n → Prints c .printTab (x :: ns) ss (List.replicate (n - c) ' ')
  | tabBack {x n ns ss} : IsCount x n → n < c → Prints c .printTab (x :: ns) ss ('\n' :: List.replicate (n - 1) ' ')
  | comma {k ns ss} : 1 ≤ k → k ≤ 8 → (c + k) % 8 = 1 → Prints c .printComma ns ss (List.replicate k ' ')

end LB.Spec
