import Verif.Rust

/-!
# Doubles by their bits, and `ChordAngle::successor`

A `f64` is its 64 bits. `nextafter` is the C library's function (of the crate `float_extras`, which is not in `/repo`), modelled from
its usual implementation on the bits: one step of the integer that the bits without the sign are.
-/

namespace Verif.F64

/-- The bits without the sign. -/
def mag (b : U64) : Nat := b.toNat % 2 ^ 63

/-- The sign bit. -/
def neg (b : U64) : Bool := decide (2 ^ 63 ≤ b.toNat)

/-- `is_nan`. -/
def isNaN (b : U64) : Bool := decide (mag b > 0x7FF0000000000000)

/-- The place of a number that is not NaN in the order of the doubles. -/
def key (b : U64) : Int := if neg b then -(mag b : Int) else mag b

/-- `<` of `f64`. -/
def lt (a b : U64) : Bool := !isNaN a && !isNaN b && decide (key a < key b)

/-- `<=` of `f64`. -/
def le (a b : U64) : Bool := !isNaN a && !isNaN b && decide (key a ≤ key b)

/-- `f64::INFINITY`. -/
def inf : U64 := 0x7FF0000000000000#64

/-- `nextafter(x, y)` of the C library. -/
def nextafter (x y : U64) : U64 :=
  if isNaN x || isNaN y then 0x7FF8000000000000#64
  else if key x = key y then y
  else if mag x = 0 then (if neg y then 0x8000000000000001#64 else 1#64)
  else if mag x > mag y ∨ neg x ≠ neg y then x - 1#64
  else x + 1#64

end Verif.F64

namespace Verif.ChordAngle

/-- `successor`, chordangle.rs lines 263-271, on the bits of the squared length (the constants are 4, 0 and 10). -/
def successor (c : U64) : U64 :=
  if F64.le 0x4010000000000000#64 c then F64.inf
  else if F64.lt c 0#64 then 0#64
  else F64.nextafter c 0x4024000000000000#64

end Verif.ChordAngle
