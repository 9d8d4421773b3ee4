import Verif.Model.Basics
/- Shared/hash.c: PJW hash of the upper-cased name. -/
namespace LB

/-- `hash_in` (Shared/hash.c:9-17): one step of the PJW hash on 32-bit unsigned. -/
def hashIn (h : Nat) (c : Nat) : Nat :=
  let h := u32 (h * 16 + c)
  let g := h &&& 0xf0000000
  if g ≠ 0 then (h ^^^ (g >>> 24)) ^^^ g else h

/-- `hashpjw_upper` (Shared/hash.c:19-24).  `toupper(*p)` on a `char` ≥ 128 would be a negative
number converted to `unsigned`; hashed names contain only letters, digits and `$`. -/
def hashpjwUpper (s : CStr) : Nat := s.foldl (fun h c => hashIn h (toupper c).toNat) 0

/-- `hashpjw_upper_len` (Shared/hash.c:26-31) for `len ≤ strlen s`. -/
def hashpjwUpperLen (s : CStr) (len : Nat) : Nat := hashpjwUpper (s.take len)

end LB
