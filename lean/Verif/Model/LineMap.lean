import Verif.Model.Basics
/- Basic/linemap.c: hashed map from BASIC line number to a value. -/
namespace LB

/-- `LINE_HASH_SIZE` (Basic/linemap.c:16). -/
def lineHashSize : Nat := 397

/-- `struct line_node` (Basic/linemap.c:10-14), without the link. -/
structure LineNode where
  basicLine : Nat
  val : Nat
  deriving DecidableEq, Repr

/-- `struct line_map` (Basic/linemap.c:18-23).  `hash h` is the chain of slot `h` in link order;
the nodes live in the chains, so only the count of used nodes is kept of the `nodes` array. -/
structure LineMap where
  hash : Nat → List LineNode
  allocated : Nat
  count : Nat

/-- `new_line_map` (Basic/linemap.c:25-32). -/
def newLineMap (lines : Nat) : LineMap := { hash := fun _ => [], allocated := lines, count := 0 }

/-- `insert_line_mapping` (Basic/linemap.c:41-54): false when the node array is full. -/
def insertLineMapping (m : LineMap) (basicLine val : Nat) : Outcome (Bool × LineMap) :=
  if m.count > m.allocated then .halt (.assertFail "insert_line_mapping")
  else if m.count = m.allocated then .ok (false, m)
  else
    let h := basicLine % lineHashSize
    .ok (true, { m with
      hash := fun i => if i = h then ⟨basicLine, val⟩ :: m.hash i else m.hash i
      count := m.count + 1 })

/-- `lookup_line_mapping` (Basic/linemap.c:56-67). -/
def lookupLineMapping (m : LineMap) (basicLine : Nat) : Option Nat :=
  ((m.hash (basicLine % lineHashSize)).find? (fun n => n.basicLine == basicLine)).map (·.val)

end LB
