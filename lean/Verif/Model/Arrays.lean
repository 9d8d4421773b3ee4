import Verif.Model.Basics
/- Basic/arrays.c: BASIC arrays of one or two dimensions. -/
namespace LB

/-- `MAX_DIMENSIONS` (Basic/arrays.h:9). -/
def maxDimensions : Nat := 2

/-- `MAX_ELEMENTS` (Basic/arrays.h:11). -/
def maxElements : Nat := 64 * 1024

/-- `struct array_size` (Basic/arrays.h:13-18): `base`, `dimensions` and `max` are `unsigned short`. -/
structure ArraySize where
  base : Nat
  dimensions : Nat
  max : List Nat
  elements : Nat
  deriving DecidableEq, Repr

/-- Loop of `compute_total_elements` (Basic/arrays.c:14-21).  `none` is the result false.
`size` is computed in 32-bit unsigned arithmetic and wraps for `max[i] - base = 2^32 - 1`;
then `*elements` becomes 0 and the next iteration divides by zero. -/
def totalElementsLoop (base : Nat) : List Nat → Nat → Outcome (Option Nat)
  | [], elements => .ok (some elements)
  | m :: ms, elements =>
    if m < base then .ok none
    else
      let size := u32 (m - base + 1)
      if elements = 0 then .halt (.divByZero "compute_total_elements")
      else if size > maxElements / elements then .ok none
      else totalElementsLoop base ms (u32 (elements * size))

/-- `compute_total_elements` (Basic/arrays.c:10-23). -/
def computeTotalElements (base : Nat) (max : List Nat) : Outcome (Option Nat) :=
  totalElementsLoop base max 1

/-- `init_array_size` (Basic/arrays.c:25-41); the stored maxima are truncated to 16 bits. -/
def initArraySize (base : Nat) (max : List Nat) : Outcome (Option ArraySize) :=
  if max.length < 1 ∨ max.length > maxDimensions then .ok none
  else match computeTotalElements base max with
    | .halt h => .halt h
    | .ok none => .ok none
    | .ok (some elements) =>
      .ok (some { base := u16 base, dimensions := max.length, max := max.map u16, elements := elements })

/-- Range check loop of `compute_element_offset` (Basic/arrays.c:48-51). -/
def indexesInRange (base : Nat) : List Nat → List Nat → Bool
  | [], _ => true
  | _ :: _, [] => false
  | i :: is, m :: ms => !(decide (i < base) || decide (i > m)) && indexesInRange base is ms

/-- `compute_element_offset` (Basic/arrays.c:43-66): `none` is the result false. -/
def computeElementOffset (p : ArraySize) (indexes : List Nat) : Outcome (Option Nat) :=
  if indexes.length ≠ p.dimensions then .ok none
  else if !indexesInRange p.base indexes p.max then .ok none
  else match indexes, p.max with
    | [i], _ => .ok (some (i - p.base))
    | [i, j], [_, m1] =>
      let size1 := u32 (m1 - p.base + 1)
      let base1 := u32 ((i - p.base) * size1)
      .ok (some (u32 (base1 + j - p.base)))
    | _, _ => .halt (.exit "unsupported number of dimensions")

/-- `struct numeric_array` / `struct string_array` (Basic/arrays.h:20-23, 29-32). -/
structure BArray (α : Type) where
  size : ArraySize
  val : List α
  deriving DecidableEq, Repr

/-- `new_numeric_array` and `new_string_array` (Basic/arrays.c:68-76, 93-101):
`elements` zeroed cells, `none` when the dimensions are refused. -/
def newArray {α : Type} (zero : α) (base : Nat) (max : List Nat) : Outcome (Option (BArray α)) :=
  match initArraySize base max with
  | .halt h => .halt h
  | .ok none => .ok none
  | .ok (some sz) => .ok (some { size := sz, val := List.replicate sz.elements zero })

/-- Reading through the address computed by `compute_numeric_element` / `compute_string_element`
(Basic/arrays.c:82-91, 111-118): an offset outside the cells is an out-of-bounds access. -/
def arrayGet {α : Type} (p : BArray α) (indexes : List Nat) : Outcome (Option α) :=
  match computeElementOffset p.size indexes with
  | .halt h => .halt h
  | .ok none => .ok none
  | .ok (some off) => match p.val[off]? with
    | some v => .ok (some v)
    | none => .halt (.outOfBounds "array element read")

/-- Writing through the address computed by `compute_numeric_element` / `compute_string_element`
(Basic/arrays.c:82-91, 111-118). -/
def arraySet {α : Type} (p : BArray α) (indexes : List Nat) (v : α) : Outcome (Option (BArray α)) :=
  match computeElementOffset p.size indexes with
  | .halt h => .halt h
  | .ok none => .ok none
  | .ok (some off) =>
    if off < p.val.length then .ok (some { p with val := p.val.set off v })
    else .halt (.outOfBounds "array element write")

end LB
