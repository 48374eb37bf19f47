import Verif.Model.EdgeUtil

/-!
# Model of the centroids and of `regular_points` of `/repo/src/s2/point.rs`

`fl` is the rounding after each operation; `sqrt`, `atan2`, `sin`, `cos` are the library functions, also followed by a rounding.
-/

namespace Verif.Vec
variable {K : Type} [Field K] [LinearOrder K] (fl sqrt : K → K)

/-- The ratio of an arc to its sine inside `true_centroid`, point.rs lines 324, 326 and 328. -/
def arcRatio (sin : K → K) (s : K) : K := if s = 0 then 1 else fl (s / fl (sin s))

/-- `true_centroid`, point.rs lines 322-353. -/
def trueCentroid (atan2 : K → K → K) (sin : K → K) (a b c : Vec K) : Vec K :=
  let ra := arcRatio fl sin (angle fl sqrt atan2 b c)
  let rb := arcRatio fl sin (angle fl sqrt atan2 c a)
  let rc := arcRatio fl sin (angle fl sqrt atan2 a b)
  let x : Vec K := ⟨a.x, fl (b.x - a.x), fl (c.x - a.x)⟩
  let y : Vec K := ⟨a.y, fl (b.y - a.y), fl (c.y - a.y)⟩
  let z : Vec K := ⟨a.z, fl (b.z - a.z), fl (c.z - a.z)⟩
  let r : Vec K := ⟨ra, fl (rb - ra), fl (rc - ra)⟩
  scale fl ⟨dot fl (cross fl y z) r, dot fl (cross fl z x) r, dot fl (cross fl x y) r⟩ (1 / 2)

/-- `planar_centroid`, point.rs lines 371-373. -/
def planarCentroid (a b c : Vec K) : Vec K := scale fl (add fl (add fl a b) c) (fl (1 / 3))

/-- `regular_points_for_frame`, point.rs lines 395-417; `pi` is the constant `PI`. The conversions of `usize` to `f64` are exact
below `2 ^ 53`. -/
def regularPointsForFrame (sin cos : K → K) (pi : K) (frame : Frame K) (radius : K) (n : Nat) : List (Vec K) :=
  let z := fl (cos radius)
  let r := fl (sin radius)
  let step := fl (fl (2 * pi) / n)
  (List.range n).map fun (i : Nat) =>
    let angle := fl ((i : K) * step)
    normalize fl sqrt (fromFrame fl frame ⟨fl (r * fl (cos angle)), fl (r * fl (sin angle)), z⟩)

/-- `regular_points`, point.rs lines 387-389. -/
def regularPoints (sin cos : K → K) (pi : K) (center : Vec K) (radius : K) (n : Nat) : List (Vec K) :=
  regularPointsForFrame fl sqrt sin cos pi (frame fl sqrt center) radius n

end Verif.Vec
