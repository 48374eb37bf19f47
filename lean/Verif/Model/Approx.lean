import Verif.Model.R2
import Verif.Model.S2Rect

/-!
# Model of the approximate comparisons of intervals and rectangles

`approx_eq_by` of `/repo/src/s1/interval.rs`, `/repo/src/r2/rect.rs` and `/repo/src/s2/rect.rs` (that of `/repo/src/r1/interval.rs`
is in Model/R1.lean). `approx_eq` is the same function with the error `1e-14`. `fmod` is the operator `%` of `f64` for a division
by `2 * PI`, which is exact; products with 2 are exact.
-/

namespace Verif
variable {K : Type} [Field K] [LinearOrder K] (π : K) (fl fmod : K → K)

/-- `approx_eq_by`, s1/interval.rs lines 420-437. -/
def S1.Interval.approxEqBy (i other : S1.Interval K) (maxError : K) : Bool :=
  if i.isEmpty π then decide (other.len π fl < 2 * maxError)
  else if other.isEmpty π then decide (i.len π fl < 2 * maxError)
  else if i.isFull π then decide (other.len π fl ≥ 2 * fl (π - maxError))
  else if other.isFull π then decide (i.len π fl ≥ 2 * fl (π - maxError))
  else decide (|fmod (fl (other.lo - i.lo))| ≤ maxError) && decide (|fmod (fl (other.hi - i.hi))| ≤ maxError)
    && decide (|fl (i.len π fl - other.len π fl)| ≤ 2 * maxError)

/-- `approx_eq_by`, r2/rect.rs lines 211-213. -/
def R2.Rect.approxEqBy (r other : R2.Rect K) (maxError : K) : Bool :=
  r.x.approxEqBy fl other.x maxError && r.y.approxEqBy fl other.y maxError

/-- `approx_eq_by`, s2/rect.rs lines 250-253. -/
def S2.Rect.approxEqBy (r other : S2.Rect K) (maxError : S2.LatLng K) : Bool :=
  r.lat.approxEqBy fl other.lat maxError.lat && r.lng.approxEqBy π fl fmod other.lng maxError.lng

end Verif
