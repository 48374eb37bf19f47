import Mathlib.Data.Int.Log
import Mathlib.Algebra.Order.Field.Basic

/-!
# Model of `/repo/src/s2/metric.rs`

Values are elements of an ordered field with integer parts (finite doubles are such numbers), `fl` is the rounding of the
division. `None` is a panic. Not modelled: NaN and infinite values, and quotients that overflow to infinity.
-/

namespace Verif.S2
variable {K : Type} [Field K] [LinearOrder K] [IsStrictOrderedRing K] [FloorRing K]

/-- `Metric`, lines 33-39. -/
structure Metric (K : Type) where
  dim : Nat
  deriv : K

namespace Metric

/-- `libm::ilogb`: the binary exponent of the argument; for zero it is `i32::MIN`. -/
def ilogb (x : K) : Int := if x = 0 then -2 ^ 31 else Int.log 2 |x|

/-- Negation of an `i32` with overflow check. -/
def negI32 (x : Int) : Option Int := if x = -2 ^ 31 then none else some (-x)

/-- `value`, lines 114-117; `ldexp` is multiplication by a power of two. -/
def value (m : Metric K) (level : Nat) : K := m.deriv * (2 : K) ^ (-(m.dim : Int) * (level : Int))

/-- The common end of `min_level` and `max_level`, lines 132-138 and 154-160. -/
def clampLevel (level : Int) : Nat := if level > 30 then 30 else if level < 0 then 0 else level.toNat

/-- `min_level`, lines 126-139. The unary minus binds stronger than `>>`, and `>>` on `i32` is an arithmetic shift. -/
def minLevel (fl : K → K) (m : Metric K) (val : K) : Option Nat :=
  if val < 0 then some 30
  else do
    let n ← negI32 (ilogb (fl (val / m.deriv)))
    some (clampLevel (n / 2 ^ (m.dim - 1)))

/-- `max_level`, lines 148-161. -/
def maxLevel (fl : K → K) (m : Metric K) (val : K) : Option Nat :=
  if val ≤ 0 then some 30
  else some (clampLevel (ilogb (fl (m.deriv / val)) / 2 ^ (m.dim - 1)))

/-- `closest_level`, lines 167-170. `sqrt2` is the constant `SQRT_2`. -/
def closestLevel (fl : K → K) (sqrt2 : K) (m : Metric K) (val : K) : Option Nat :=
  minLevel fl m (fl ((if m.dim = 2 then 2 else sqrt2) * val))

end Metric
end Verif.S2
