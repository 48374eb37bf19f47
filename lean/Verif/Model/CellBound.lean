import Verif.Model.Cap
import Verif.Model.LatLng

/-!
# Model of the bounds of a cell, `/repo/src/s2/cell.rs`

`fl` is the rounding after each operation; `sqrt`, `atan2`, `asin` are the library functions, also followed by a rounding. `π` is the `PI`
constant, `rem` the IEEE remainder of a division by `2 * PI`, `eps` is `DBL_EPSILON`. Halving, doubling and negation are exact.
-/

namespace Verif.Cell
variable {K : Type} [Field K] [LinearOrder K] (π : K) (fl sqrt asin : K → K) (atan2 : K → K → K) (rem : K → K) (eps : K)

/-- `uv_from_ij`, cell.rs lines 253-261. -/
def uvFromIJ (c : Cell K) (i j : Int) : Option (K × K) :=
  match i, j with
  | 0, 0 => some (c.uv.x.lo, c.uv.y.lo)
  | 0, 1 => some (c.uv.x.lo, c.uv.y.hi)
  | 1, 0 => some (c.uv.x.hi, c.uv.y.lo)
  | 1, 1 => some (c.uv.x.hi, c.uv.y.hi)
  | _, _ => none

/-- `point_from_ij`, cell.rs lines 263-266. -/
def pointFromIJ (c : Cell K) (i j : Int) : Option (Vec K) := do
  let (u, v) ← c.uvFromIJ i j
  faceUVtoXYZ c.face u v

/-- `latitude`, cell.rs lines 269-271. -/
def latitude (c : Cell K) (i j : Int) : Option K := do
  let p ← c.pointFromIJ i j
  some (S2.LatLng.latitude fl sqrt atan2 p)

/-- `longitude`, cell.rs lines 274-276. -/
def longitude (c : Cell K) (i j : Int) : Option K := do
  let p ← c.pointFromIJ i j
  some (S2.LatLng.longitude fl atan2 p)

/-- `POLE_MIN_LAT`, cell.rs line 34. -/
def poleMinLat : K := fl (fl (asin (fl (sqrt (fl (1 / 3))))) - 1 / 2 * eps)

/-- The corner index along one axis, cell.rs lines 295-308: `z` is the last coordinate of the axis and `u` the sum of the two ends. -/
def cornerIndex (z u : K) : Int :=
  if z = 0 then (if u < 0 then 1 else 0) else if u > 0 then 1 else 0

/-- The bound of a cell of level 0, cell.rs lines 345-370. -/
def faceBound (face : Nat) : Option (S2.Rect K) :=
  let q : K := π / 4
  let t : K := fl (3 * q)
  match face with
  | 0 => some ⟨⟨-q, q⟩, S1.Interval.new π (-q) q⟩
  | 1 => some ⟨⟨-q, q⟩, S1.Interval.new π q t⟩
  | 2 => some ⟨⟨poleMinLat fl sqrt asin eps, π / 2⟩, S1.Interval.full π⟩
  | 3 => some ⟨⟨-q, q⟩, S1.Interval.new π t (-t)⟩
  | 4 => some ⟨⟨-q, q⟩, S1.Interval.new π (-t) (-q)⟩
  | 5 => some ⟨⟨-π / 2, -poleMinLat fl sqrt asin eps⟩, S1.Interval.full π⟩
  | _ => none

/-- `rect_bound`, cell.rs lines 279-383. -/
def rectBound (c : Cell K) : Option (S2.Rect K) :=
  if c.level > 0 then do
    let u := fl (c.uv.x.lo + c.uv.x.hi)
    let v := fl (c.uv.y.lo + c.uv.y.hi)
    let ua : Vec K ← uvwAxis c.face 0
    let va : Vec K ← uvwAxis c.face 1
    let i := cornerIndex ua.z u
    let j := cornerIndex va.z v
    let lat0 ← c.latitude fl sqrt atan2 i j
    let lat1 ← c.latitude fl sqrt atan2 (1 - i) (1 - j)
    let lng0 ← c.longitude fl atan2 i (1 - j)
    let lng1 ← c.longitude fl atan2 (1 - i) j
    let lat := (R1.Interval.fromPoint lat0).addPoint lat1
    let lng := ((S1.Interval.empty π).addPoint π fl lng0).addPoint π fl lng1
    some ((S2.Rect.expanded π fl rem eps ⟨lat, lng⟩ ⟨2 * eps, 2 * eps⟩).polarClosure π)
  else do
    let bound ← faceBound π fl sqrt asin eps c.face
    some (bound.expanded π fl rem eps ⟨eps, 0⟩)

/-- `cap_bound`, cell.rs lines 412-425. -/
def capBound (c : Cell K) : Option (Cap K) := do
  let m := c.uv.center fl
  let p ← faceUVtoXYZ c.face m.x m.y
  let vs ← Cap.cellVertices fl sqrt c
  some (vs.foldl (Cap.addPoint fl) (Cap.ofPoint (p.normalize fl sqrt)))

end Verif.Cell
