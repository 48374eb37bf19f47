import Verif.Model.Vector
import Verif.Rust

/-!
# Model of `/repo/src/r3/precisevector.rs`

The numbers are `BigDecimal`s of the crate `bigdecimal`, which is not in `/repo`. A `BigDecimal` is modelled as its two fields:
the decimal digits as an integer and the scale, with the value `digits * 10 ^ (-scale)`. Addition and subtraction bring both
numbers to the greater scale, a product adds the scales, and comparisons compare the digits at a common scale. The scale (an
`i64`) and the digits are unbounded integers in the model. A `f64` is given by its 64 bits. The conversion back to a `Vector`
(`to_f64`) and the parsing of a string (`prec_str`) are not modelled.
-/

namespace Verif

/-- A `BigDecimal`: `digits * 10 ^ (-scale)`. -/
structure Dec where
  digits : Int
  scale : Int
deriving DecidableEq

namespace Dec

/-- The digits of a number at the scale `s` (at least its own). -/
def at_ (d : Dec) (s : Int) : Int := d.digits * 10 ^ (s - d.scale).toNat

/-- `Add` of `BigDecimal`. -/
def add (a b : Dec) : Dec := ⟨a.at_ (max a.scale b.scale) + b.at_ (max a.scale b.scale), max a.scale b.scale⟩

/-- `Sub` of `BigDecimal`. -/
def sub (a b : Dec) : Dec := ⟨a.at_ (max a.scale b.scale) - b.at_ (max a.scale b.scale), max a.scale b.scale⟩

/-- `Mul` of `BigDecimal`. -/
def mul (a b : Dec) : Dec := ⟨a.digits * b.digits, a.scale + b.scale⟩

/-- `BigDecimal::abs`. -/
def abs (a : Dec) : Dec := ⟨|a.digits|, a.scale⟩

/-- `==` of `BigDecimal`. -/
def beq (a b : Dec) : Bool := decide (a.at_ (max a.scale b.scale) = b.at_ (max a.scale b.scale))

/-- `<` of `BigDecimal`. -/
def blt (a b : Dec) : Bool := decide (a.at_ (max a.scale b.scale) < b.at_ (max a.scale b.scale))

/-- `prec_int`, precisevector.rs lines 26-28. -/
def ofInt (i : Int) : Dec := ⟨i, 0⟩

/-- `frac * 2 ^ e` as a decimal (the core of `BigDecimal::from_f64`). -/
def ofParts (neg : Bool) (frac : Nat) (e : Int) : Dec :=
  let m : Int := if neg then -(frac : Int) else frac
  if frac = 0 then ⟨0, 0⟩
  else if e < 0 then ⟨m * 5 ^ (-e).toNat, -e⟩
  else ⟨m * 2 ^ e.toNat, 0⟩

/-- `prec_float`, precisevector.rs lines 30-32: the sign, the exponent and the fraction of the bits; infinities and NaNs have no
decimal, and `unwrap` panics. -/
def ofF64 (b : U64) : Option Dec :=
  let e : Nat := (b.toNat / 2 ^ 52) % 2 ^ 11
  let f : Nat := b.toNat % 2 ^ 52
  let neg := decide (2 ^ 63 ≤ b.toNat)
  if e = 2047 then none
  else if e = 0 then some (ofParts neg (2 * f) (-1075))
  else some (ofParts neg (2 ^ 52 + f) ((e : Int) - 1075))

end Dec

/-- `PreciseVector`, precisevector.rs lines 39-45. -/
structure PVec where
  x : Dec
  y : Dec
  z : Dec
deriving DecidableEq

namespace PVec

/-- `From<Vector>` and `new`, precisevector.rs lines 47-51 and 64-71. -/
def ofF64 (x y z : U64) : Option PVec := do
  let x ← Dec.ofF64 x
  let y ← Dec.ofF64 y
  let z ← Dec.ofF64 z
  return ⟨x, y, z⟩

/-- The derived `==`, precisevector.rs line 39. -/
def beq (a b : PVec) : Bool := a.x.beq b.x && a.y.beq b.y && a.z.beq b.z

/-- `dot`, precisevector.rs lines 139-143. -/
def dot (a b : PVec) : Dec := ((a.x.mul b.x).add (a.y.mul b.y)).add (a.z.mul b.z)

/-- `norm2`, precisevector.rs lines 74-76. -/
def norm2 (a : PVec) : Dec := a.dot a

/-- `is_unit`, precisevector.rs lines 79-81. -/
def isUnit (a : PVec) : Bool := a.norm2.beq (Dec.ofInt 1)

/-- `abs`, precisevector.rs lines 84-90. -/
def abs (a : PVec) : PVec := ⟨a.x.abs, a.y.abs, a.z.abs⟩

/-- `Add`, precisevector.rs lines 93-103. -/
def add (a b : PVec) : PVec := ⟨a.x.add b.x, a.y.add b.y, a.z.add b.z⟩

/-- `Sub`, precisevector.rs lines 105-115. -/
def sub (a b : PVec) : PVec := ⟨a.x.sub b.x, a.y.sub b.y, a.z.sub b.z⟩

/-- `Mul<BigDecimal>`, precisevector.rs lines 117-127. -/
def mul (a : PVec) (f : Dec) : PVec := ⟨a.x.mul f, a.y.mul f, a.z.mul f⟩

/-- `Mul<f64>`, precisevector.rs lines 129-135. -/
def mulF64 (a : PVec) (f : U64) : Option PVec := do
  let f ← Dec.ofF64 f
  return a.mul f

/-- `cross`, precisevector.rs lines 146-152. -/
def cross (a b : PVec) : PVec :=
  ⟨(a.y.mul b.z).sub (a.z.mul b.y), (a.z.mul b.x).sub (a.x.mul b.z), (a.x.mul b.y).sub (a.y.mul b.x)⟩

/-- `largest_component`, precisevector.rs lines 155-168 (`a > b` is `b < a`). -/
def largestComponent (v : PVec) : Vec.Axis :=
  let a := v.abs
  if a.y.blt a.x then (if a.z.blt a.x then .X else .Z) else if a.z.blt a.y then .Y else .Z

/-- `smallest_component`, precisevector.rs lines 171-184. -/
def smallestComponent (v : PVec) : Vec.Axis :=
  let t := v.abs
  if t.x.blt t.y then (if t.x.blt t.z then .X else .Z) else if t.y.blt t.z then .Y else .Z

end PVec

end Verif
