import Verif.Model.EdgeUtil
import Verif.Model.Cell
import Verif.Model.Metric

/-!
# Model of the areas of `/repo/src/s2/point.rs` and `/repo/src/s2/cell.rs`

`fl` is the rounding after each operation; `sqrt`, `atan2`, `tan`, `atan`, `sin` are the library functions, also followed by a
rounding. Decimal constants are rounded. `max` is exact.
-/

namespace Verif.Vec
variable {K : Type} [Field K] [LinearOrder K] (fl sqrt : K → K) (atan2 : K → K → K)

/-- The area by Girard's formula inside `point_area`, point.rs lines 280-287. -/
def girardArea (a b c : Vec K) : K :=
  let ab := pointCross fl sqrt a b
  let bc := pointCross fl sqrt b c
  let ac := pointCross fl sqrt a c
  let abAc := angle fl sqrt atan2 ab ac
  let abBc := angle fl sqrt atan2 ab bc
  let bcAc := angle fl sqrt atan2 bc ac
  max (fl (fl (abAc - abBc) + bcAc)) 0

/-- The area by l'Huilier's formula at the end of `point_area`, point.rs lines 296-302. -/
def lhuilierArea (tan atan : K → K) (sa sb sc s : K) : K :=
  fl (4 * fl (atan (fl (sqrt (max
    (fl (fl (fl (fl (tan (fl (fl (1 / 2) * s))) * fl (tan (fl (fl (1 / 2) * fl (s - sa))))) * fl (tan (fl (fl (1 / 2) * fl (s - sb))))) *
      fl (tan (fl (fl (1 / 2) * fl (s - sc)))))) 0)))))

/-- `point_area`, point.rs lines 270-303. -/
def pointArea (tan atan : K → K) (a b c : Vec K) : K :=
  let sa := angle fl sqrt atan2 b c
  let sb := angle fl sqrt atan2 c a
  let sc := angle fl sqrt atan2 a b
  let s := fl (fl (1 / 2) * fl (fl (sa + sb) + sc))
  let lhuilier := lhuilierArea fl sqrt tan atan sa sb sc s
  if s ≥ fl (3 / 10000) then
    let dmin := fl (s - max sa (max sb sc))
    if dmin < fl (fl (fl (fl (fl (fl (1 / 100) * s) * s) * s) * s) * s) then
      let area := girardArea fl sqrt atan2 a b c
      if dmin < fl (fl (s * fl (1 / 10)) * area) then area else lhuilier
    else lhuilier
  else lhuilier

end Verif.Vec

namespace Verif
variable {K : Type} [Field K] [LinearOrder K] (fl sqrt : K → K)

namespace Cell

/-- `vertices`, cell.rs lines 127-135. -/
def vertices (c : Cell K) : Option (Vec K × Vec K × Vec K × Vec K) := do
  let v0 ← c.vertex fl sqrt 0
  let v1 ← c.vertex fl sqrt 1
  let v2 ← c.vertex fl sqrt 2
  let v3 ← c.vertex fl sqrt 3
  some (v0, v1, v2, v3)

/-- `exact_area`, cell.rs lines 213-216. -/
def exactArea (atan2 : K → K → K) (tan atan : K → K) (c : Cell K) : Option K := do
  let (v0, v1, v2, v3) ← c.vertices fl sqrt
  some (fl (Vec.pointArea fl sqrt atan2 tan atan v0 v1 v2 + Vec.pointArea fl sqrt atan2 tan atan v0 v2 v3))

/-- `AVG_AREAMETRIC`, metric.rs line 95: `4. * PI / 6.`. -/
def avgAreaMetric (pi : K) : S2.Metric K := ⟨2, fl (fl (4 * pi) / 6)⟩

/-- `average_area`, cell.rs lines 249-251. -/
def averageArea (pi : K) (c : Cell K) : K := (avgAreaMetric fl pi).value c.level

/-- `approx_area`, cell.rs lines 222-245. -/
def approxArea (pi : K) (c : Cell K) : Option K :=
  if c.level < 2 then some (averageArea fl pi c)
  else do
    let (v0, v1, v2, v3) ← c.vertices fl sqrt
    let flat := fl (fl (1 / 2) * Vec.norm fl sqrt (Vec.cross fl (Vec.sub fl v2 v0) (Vec.sub fl v3 v1)))
    some (fl (fl (flat * 2) / fl (1 + fl (sqrt (fl (1 - min (fl (fl (1 / pi) * flat)) 1))))))

end Cell

/-- `MIN_AREAMETRIC`, metric.rs line 94: `8. * SQRT_2 / 9.`. -/
def minAreaMetric (sqrt2 : K) : S2.Metric K := ⟨2, fl (fl (8 * sqrt2) / 9)⟩

/-- `MAX_AREAMETRIC`, metric.rs line 96. -/
def maxAreaMetric : S2.Metric K := ⟨2, fl (26357992569631614 / 10 ^ 16)⟩

end Verif
