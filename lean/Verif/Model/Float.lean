import Verif.Model.Consts
import Mathlib.Algebra.Order.Field.Basic
import Mathlib.Algebra.Order.Ring.Rat
import Mathlib.Data.Rat.Floor

/-!
# Floating-point numbers

A finite `f64` is a number of an ordered field `K` (the rationals, or the reals where square roots are taken). An arithmetic operation of Rust on `f64` is the exact operation
followed by a rounding function `fl`. Nothing is assumed about `fl` except the error bound that the
IEEE 754 rounding of binary64 satisfies on its normal and subnormal range; the theorems hold for every
such `fl`. Comparisons, negation, `floor` and conversions from `i32` are exact.
-/

namespace Verif

/-- The error bound of binary64 rounding: half a unit in the last place, or half the least subnormal. -/
def Rounding {K : Type} [Field K] [LinearOrder K] (fl : K → K) : Prop :=
  ∀ x : K, |x| ≤ 2 ^ 1023 → |fl x - x| ≤ |x| / 2 ^ 53 + 1 / 2 ^ 1075

/-- `x as i32` for a finite float (saturating truncation; used only on values with no fraction part). -/
def f64ToI32 (x : Int) : Int := Max.max (-2 ^ 31) (Min.min (2 ^ 31 - 1) x)

end Verif
