import Verif.Model.Basics
/-
The C type `double` (IEEE 754 binary64, round to nearest, ties to even), `strtod` and `printf("%g")`.
All numbers of BASIC programs are doubles (Basic/run.c:69, Basic/symbol.h:31, Basic/bcode.h:141).
-/
namespace LB

/-- A `double` (Basic/run.c:69).  `fin q` with `q ≠ 0` is the finite number `q`, `fin 0` is `+0`,
`nzero` is `-0`.  Simplification: all NaNs are one value, without sign or payload. -/
inductive Dbl where
  | nan
  | pinf
  | ninf
  | nzero
  | fin (q : Rat)
  deriving DecidableEq, Repr

namespace Dbl

/-- `2^e` (platform arithmetic used by Basic/run.c:542-569). -/
def pow2 (e : Int) : Rat := (2 : Rat) ^ e.toNat / (2 : Rat) ^ (-e).toNat

/-- `10^e` (platform arithmetic used by `strtod`, Basic/lexer.c:268, Basic/run.c:1430). -/
def pow10 (e : Int) : Rat := (10 : Rat) ^ e.toNat / (10 : Rat) ^ (-e).toNat

/-- The exponent `e` with `2^e ≤ a < 2^(e+1)`, for `a > 0`
(platform arithmetic used by Basic/run.c:542-569). -/
def ilog2 (a : Rat) : Int :=
  let e0 : Int := (a.num.natAbs.log2 : Int) - (a.den.log2 : Int)
  if a < pow2 e0 then e0 - 1 else e0

/-- Nearest integer, ties to even (IEEE 754 rounding, used by Basic/run.c:542-569). -/
def roundEven (a : Rat) : Int :=
  let f := a.floor
  let r := a - f
  if r < 1/2 then f else if 1/2 < r then f + 1 else if f % 2 = 0 then f else f + 1

/-- Spacing of the doubles around `a > 0` (IEEE 754 binary64, used by Basic/run.c:542-569). -/
def ulp (a : Rat) : Rat := pow2 (max (ilog2 a - 52) (-1074))

/-- Magnitude of `a > 0` rounded to binary64, `none` on overflow
(IEEE 754 binary64, used by Basic/run.c:542-569). -/
def roundMag (a : Rat) : Option Rat :=
  let r := roundEven (a / ulp a) * ulp a
  if pow2 1024 ≤ r then none else some r

/-- Rounding of an exact real result to a double (IEEE 754 binary64, used by every arithmetic
operation: Basic/run.c:542-569, Basic/lexer.c:268). -/
def rnd (q : Rat) : Dbl :=
  if q = 0 then fin 0
  else if 0 < q then
    match roundMag q with
    | none => pinf
    | some r => fin r
  else
    match roundMag (-q) with
    | none => ninf
    | some r => if r = 0 then nzero else fin (-r)

/-- Sign bit (IEEE 754, used by the multiplication rules for Basic/run.c:553-566). -/
def isNeg : Dbl → Bool
  | nan => false
  | pinf => false
  | ninf => true
  | nzero => true
  | fin q => decide (q < 0)

/-- Unary minus (Basic/run.c:543). -/
def neg : Dbl → Dbl
  | nan => nan
  | pinf => ninf
  | ninf => pinf
  | nzero => fin 0
  | fin q => if q = 0 then nzero else fin (-q)

/-- Rational value of a finite double (Basic/run.c:545-569). -/
def toRat? : Dbl → Option Rat
  | fin q => some q
  | nzero => some 0
  | _ => none

/-- Addition (Basic/run.c:547, 725, 1519). -/
def add : Dbl → Dbl → Dbl
  | nan, _ => nan
  | _, nan => nan
  | pinf, ninf => nan
  | ninf, pinf => nan
  | pinf, _ => pinf
  | _, pinf => pinf
  | ninf, _ => ninf
  | _, ninf => ninf
  | nzero, nzero => nzero
  | nzero, fin q => fin q
  | fin p, nzero => fin p
  | fin p, fin q => rnd (p + q)

/-- Subtraction (Basic/run.c:551). -/
def sub (x y : Dbl) : Dbl := add x (neg y)

/-- Zero with the given sign (Basic/run.c:553-566). -/
def signedZero (s : Bool) : Dbl := if s then nzero else fin 0

/-- Infinity with the given sign (Basic/run.c:553-566). -/
def signedInf (s : Bool) : Dbl := if s then ninf else pinf

/-- Is the value an infinity? (Basic/run.c:553-566). -/
def isInf : Dbl → Bool
  | pinf => true
  | ninf => true
  | _ => false

/-- Is the value a zero of either sign? (Basic/run.c:561, 709). -/
def isZero : Dbl → Bool
  | nzero => true
  | fin q => decide (q = 0)
  | _ => false

/-- Multiplication (Basic/run.c:555). -/
def mul (x y : Dbl) : Dbl :=
  let s := x.isNeg != y.isNeg
  if x = nan ∨ y = nan then nan
  else if x.isInf || y.isInf then
    if x.isZero || y.isZero then nan else signedInf s
  else match x.toRat?, y.toRat? with
    | some p, some q => if p * q = 0 then signedZero s else rnd (p * q)
    | _, _ => nan

/-- Division (Basic/run.c:564, 1127). -/
def div (x y : Dbl) : Dbl :=
  let s := x.isNeg != y.isNeg
  if x = nan ∨ y = nan then nan
  else if x.isInf then
    if y.isInf then nan else signedInf s
  else if y.isInf then signedZero s
  else match x.toRat?, y.toRat? with
    | some p, some q =>
      if q = 0 then (if p = 0 then nan else signedInf s)
      else if p = 0 then signedZero s
      else rnd (p / q)
    | _, _ => nan

/-- `x < y` (Basic/run.c:578, 1521); false when an operand is NaN. -/
def lt : Dbl → Dbl → Bool
  | nan, _ => false
  | _, nan => false
  | ninf, ninf => false
  | ninf, _ => true
  | _, ninf => false
  | pinf, _ => false
  | _, pinf => true
  | nzero, nzero => false
  | nzero, fin q => decide (0 < q)
  | fin p, nzero => decide (p < 0)
  | fin p, fin q => decide (p < q)

/-- `x == y` (Basic/run.c:572); the zeros are equal, NaN equals nothing. -/
def eq : Dbl → Dbl → Bool
  | nan, _ => false
  | _, nan => false
  | pinf, pinf => true
  | ninf, ninf => true
  | nzero, nzero => true
  | nzero, fin q => decide (q = 0)
  | fin p, nzero => decide (p = 0)
  | fin p, fin q => decide (p = q)
  | _, _ => false

/-- `x <= y` (Basic/run.c:588). -/
def le (x y : Dbl) : Bool := lt x y || eq x y

/-- `x != y` (Basic/run.c:583); true when an operand is NaN. -/
def ne (x y : Dbl) : Bool := !eq x y

/-- `floor` (Basic/run.c:1052, 1201, 1208).  Exact: the floor of a double is a double. -/
def floor : Dbl → Dbl
  | fin q => fin q.floor
  | x => x

/-- `fabs` (Basic/run.c:1016). -/
def fabs : Dbl → Dbl
  | ninf => pinf
  | nzero => fin 0
  | fin q => if q < 0 then fin (-q) else fin q
  | x => x

/-- Conversion of an integer to `double` (Basic/run.c:1196, 603); exact below `2^53`. -/
def ofInt (n : Int) : Dbl := rnd n

/-- Conversion of a finite non-negative double to `unsigned` (Basic/run.c:1212);
the callers check the range first. -/
def toNat : Dbl → Nat
  | fin q => q.floor.toNat
  | _ => 0

/-- Conversion of a finite double to `int32_t` (Basic/run.c:1203); truncates toward zero,
the callers check the range first. -/
def toInt : Dbl → Int
  | fin q => if q < 0 then -((-q).floor) else q.floor
  | _ => 0

end Dbl

/-- `isspace` in the C locale, for the white space that `strtod` skips
(Basic/run.c:1430, Basic/lexer.c:268). -/
def isspace (c : Char) : Bool := decide (c.toNat = 32 ∨ (9 ≤ c.toNat ∧ c.toNat ≤ 13))

/-- `isxdigit` in the C locale (inside `strtod`, Basic/run.c:1430). -/
def isxdigit (c : Char) : Bool :=
  isdigit c || decide ((65 ≤ c.toNat ∧ c.toNat ≤ 70) ∨ (97 ≤ c.toNat ∧ c.toNat ≤ 102))

/-- Value of a hexadecimal digit (inside `strtod`, Basic/run.c:1430). -/
def xdigitVal (c : Char) : Nat :=
  if isdigit c then c.toNat - 48 else (tolower c).toNat - 87

/-- Value of a digit sequence in a base (inside `strtod`, Basic/run.c:1430). -/
def digitsVal (base : Nat) (ds : CStr) : Nat :=
  ds.foldl (fun acc c => base * acc + xdigitVal c) 0

/-- An exponent part: one of the markers, an optional sign and at least one digit; nothing is
consumed otherwise (inside `strtod`, Basic/run.c:1430). -/
def scanExponent (marker : Char) (s : CStr) : Int × CStr :=
  match s with
  | [] => (0, [])
  | c :: rest =>
    if tolower c = marker then
      let (negative, body) := match rest with
        | '-' :: r => (true, r)
        | '+' :: r => (false, r)
        | r => (false, r)
      let ds := body.takeWhile isdigit
      if ds.isEmpty then (0, s)
      else
        let v : Int := digitsVal 10 ds
        (if negative then -v else v, body.dropWhile isdigit)
    else (0, s)

/-- Digits with an optional point: integer digits, fraction digits and the rest
(inside `strtod`, Basic/run.c:1430). -/
def scanMantissa (isd : Char → Bool) (s : CStr) : CStr × CStr × CStr :=
  let ip := s.takeWhile isd
  match s.dropWhile isd with
  | '.' :: r => (ip, r.takeWhile isd, r.dropWhile isd)
  | r => (ip, [], r)

/-- Does `s` start with `w`, ignoring case?  Gives the rest (inside `strtod`, Basic/run.c:1430). -/
def dropWord (w s : CStr) : Option CStr :=
  if strncasecmp w s w.length = 0 then some (s.drop w.length) else none

/-- The unsigned number at the start of `s`: its value and the rest; `none` if there is none
(C standard `strtod`; used by Basic/run.c:1430, Basic/lexer.c:268). -/
def scanUnsigned (s : CStr) : Option (Dbl × CStr) :=
  match dropWord "infinity".toList s with
  | some r => some (.pinf, r)
  | none =>
  match dropWord "inf".toList s with
  | some r => some (.pinf, r)
  | none =>
  match dropWord "nan".toList s with
  | some ('(' :: r) =>
    match r.dropWhile (fun c => isalnum c || c == '_') with
    | ')' :: r' => some (.nan, r')
    | _ => some (.nan, '(' :: r)
  | some r => some (.nan, r)
  | none =>
  let decimal : Option (Dbl × CStr) :=
    let (ip, fp, r) := scanMantissa isdigit s
    if ip.isEmpty && fp.isEmpty then none
    else
      let (e, r') := scanExponent 'e' r
      some (Dbl.rnd ((digitsVal 10 (ip ++ fp) : Nat) * Dbl.pow10 (e - fp.length)), r')
  match dropWord "0x".toList s with
  | some h =>
    let (ip, fp, r) := scanMantissa isxdigit h
    if ip.isEmpty && fp.isEmpty then decimal
    else
      let (e, r') := scanExponent 'p' r
      some (Dbl.rnd ((digitsVal 16 (ip ++ fp) : Nat) * Dbl.pow2 (e - 4 * fp.length)), r')
  | none => decimal

/-- `strtod` (C standard; called in Basic/lexer.c:268 and Basic/run.c:1430): the value and the
text after the number.  Without a number the value is 0 and the whole text remains. -/
def strtod (s : CStr) : Dbl × CStr :=
  let t := s.dropWhile isspace
  let (negative, body) := match t with
    | '-' :: r => (true, r)
    | '+' :: r => (false, r)
    | r => (false, r)
  match scanUnsigned body with
  | none => (.fin 0, s)
  | some (x, r) => (if negative then x.neg else x, r)

namespace Dbl

/-- The exponent `e` with `10^e ≤ a < 10^(e+1)`, for `a > 0`
(inside `printf("%g")`, Basic/run.c:866, 1104). -/
def ilog10 (a : Rat) : Int :=
  let e0 : Int := ((Nat.toDigits 10 a.num.natAbs).length : Int) - ((Nat.toDigits 10 a.den).length : Int)
  if a < pow10 e0 then e0 - 1 else e0

/-- Decimal digits and exponent of `a > 0` rounded to six significant digits
(inside `printf("%g")`, Basic/run.c:866, 1104). -/
def sixDigits (a : Rat) : Nat × Int :=
  let e := ilog10 a
  let m := (roundEven (a * pow10 (5 - e))).toNat
  if m = 1000000 then (100000, e + 1) else (m, e)

/-- Digit sequence without trailing zeros (inside `printf("%g")`, Basic/run.c:866, 1104). -/
def dropTrailingZeros (ds : CStr) : CStr := (ds.reverse.dropWhile (· == '0')).reverse

/-- A point and the digits, or nothing when there are no digits
(inside `printf("%g")`, Basic/run.c:866, 1104). -/
def fraction (ds : CStr) : CStr := if ds.isEmpty then [] else '.' :: ds

/-- `%g` of a positive finite number (inside `printf("%g")`, Basic/run.c:866, 1104). -/
def fmtPos (a : Rat) : CStr :=
  let (m, e) := sixDigits a
  let ds := Nat.toDigits 10 m
  if e < -4 ∨ 6 ≤ e then
    let ex := Nat.toDigits 10 e.natAbs
    ds.take 1 ++ fraction (dropTrailingZeros (ds.drop 1)) ++
      ['e', if e < 0 then '-' else '+'] ++ (if ex.length < 2 then '0' :: ex else ex)
  else if e < 0 then
    '0' :: fraction (dropTrailingZeros (List.replicate (e.natAbs - 1) '0' ++ ds))
  else
    ds.take (e.toNat + 1) ++ fraction (dropTrailingZeros (ds.drop (e.toNat + 1)))

/-- `printf("%g", x)` of a double (Basic/run.c:866, 1104).  NaN prints as `nan`: its sign is not modelled. -/
def fmtDbl : Dbl → CStr
  | nan => "nan".toList
  | pinf => "inf".toList
  | ninf => "-inf".toList
  | nzero => "-0".toList
  | fin q =>
    if q = 0 then "0".toList
    else if q < 0 then '-' :: fmtPos (-q)
    else fmtPos q

/-- The double nearest to a number (Basic/run.c:69).  Values of the C type are unchanged. -/
def canon : Dbl → Dbl
  | fin q => rnd q
  | x => x

/-- `printf("%g", x)` (Basic/run.c:866, 1104).  A rational number that is not a value of the C type is rounded
first. -/
def fmtG (x : Dbl) : CStr := fmtDbl x.canon

end Dbl
end LB
