import Verif.Model.Float
import Mathlib.Algebra.Order.Floor.Ring

/-!
# Model of `/repo/src/s1/angle.rs`

An `Angle`, `Rad` or `Deg` is its number; `E5`, `E6`, `E7` are integers. `fl` is the rounding after each operation; `pi` is the
constant `PI`. The operator `%` of `f64` is a parameter `fmod`: it is exact in IEEE 754 (see `Spec.IsFmod`). Infinite and NaN angles
are not modelled here.
-/

namespace Verif.Angle
variable {K : Type} [Field K] [LinearOrder K] (fl : K → K) (pi : K)

/-- `normalized`, angle.rs lines 104-111. -/
def normalized (fmod : K → K → K) (a : K) : K :=
  let rem := fmod a (fl (2 * pi))
  if rem < 0 then fl (rem + fl (2 * pi)) else rem

/-- `max`, angle.rs lines 113-115. -/
def max (a b : K) : K := if a < b then b else a

/-- `min`, angle.rs lines 117-119. -/
def min (a b : K) : K := if a > b then b else a

/-- `PI / 180.`, angle.rs lines 342-343. -/
def degMul : K := fl (pi / 180)

/-- `From<Deg> for Angle`, the macro of angle.rs lines 291-314 with line 343. -/
def fromDeg (d : K) : K := fl (d * degMul fl pi)

/-- `From<Angle> for Deg`, the macro of angle.rs lines 291-314 with line 343. -/
def toDeg (a : K) : K := fl (a / degMul fl pi)

/-- `PI / 180. / 1e5` (`1e6`, `1e7`), angle.rs lines 345-347; `t` is `1e5`, `1e6`, `1e7`. -/
def eMul (t : K) : K := fl (degMul fl pi / t)

/-- `1. / 1e5` (`1e6`, `1e7`), angle.rs lines 349-351. -/
def eDegMul (t : K) : K := fl (1 / t)

/-- `f64::round`: to the nearest integer, ties away from zero. -/
def roundAway [FloorRing K] (x : K) : Int := if 0 ≤ x then ⌊x + 1 / 2⌋ else -⌊-x + 1 / 2⌋

/-- `From<E5> for Angle` and the like, the macro of angle.rs lines 316-339; `mul` is `eMul` or `eDegMul`. -/
def fromE (mul : K) (n : Int) : K := fl ((n : K) * mul)

/-- `From<Angle> for E5` and the like, the macro of angle.rs lines 316-339. -/
def toE [FloorRing K] (mul : K) (a : K) : Int := f64ToI32 (roundAway (fl (a / mul)))

end Verif.Angle
