import Verif.Model.CellBound
import Verif.Model.EdgeUtil

/-!
# Model of the trigonometric part of `/repo/src/s2/rect.rs`

Parameters as in `Verif/Model/CellBound.lean`; `sin`, `cos` are the library functions, followed by a rounding. The vector `(0, 0, ±1)` is
left unchanged by the normalization in `Point::from_coords`.
-/

namespace Verif.S2.Rect
variable {K : Type} [Field K] [LinearOrder K] (π : K) (fl sqrt sin cos asin : K → K) (atan2 : K → K → K) (rem : K → K) (eps : K)

/-- `area`, lines 158-165. -/
def area (r : Rect K) : K :=
  if r.isEmpty then 0 else fl (r.lng.len π fl * |fl (fl (sin r.lat.hi) - fl (sin r.lat.lo))|)

/-- `contains_point`, lines 703-705. -/
def containsPoint (r : Rect K) (p : Vec K) : Bool := r.containsLatLng π (LatLng.ofPoint fl sqrt atan2 p)

/-- `interior_contains_point`, lines 725-727. -/
def interiorContainsPoint (r : Rect K) (p : Vec K) : Bool := r.interiorContainsLatLng π (LatLng.ofPoint fl sqrt atan2 p)

/-- `intersects_lng_edge`, lines 680-689. -/
def intersectsLngEdge (a b : Vec K) (lat : R1.Interval K) (lng : K) : Bool :=
  EdgeUtil.simpleCrossing fl a b (LatLng.toPoint fl sin cos ⟨lat.lo, lng⟩) (LatLng.toPoint fl sin cos ⟨lat.hi, lng⟩)

/-- `intersects_lat_edge`, lines 623-678. -/
def intersectsLatEdge (a b : Vec K) (lat : K) (lng : S1.Interval K) : Bool :=
  let z := (Vec.pointCross fl sqrt a b).normalize fl sqrt
  let z := if z.z < 0 then z.scale fl (-1) else z
  let y := (Vec.pointCross fl sqrt z ⟨0, 0, 1⟩).normalize fl sqrt
  let x := (Vec.pointCross fl sqrt y z).normalize fl sqrt
  let sinLat := fl (sin lat)
  if |sinLat| ≥ x.z then false
  else
    let cosT := fl (sinLat / x.z)
    let sinT := fl (sqrt (fl (1 - fl (cosT * cosT))))
    let theta := fl (atan2 sinT cosT)
    let ab := S1.Interval.fromPointPair π fl (fl (atan2 (a.dot fl y) (a.dot fl x))) (fl (atan2 (b.dot fl y) (b.dot fl x)))
    let p := (x.scale fl cosT).add fl (y.scale fl sinT)
    let q := (x.scale fl cosT).sub fl (y.scale fl sinT)
    (ab.contains π theta && lng.contains π (fl (atan2 p.y p.x))) || (ab.contains π (-theta) && lng.contains π (fl (atan2 q.y q.x)))

/-- `boundary_intersects`, lines 216-239. -/
def boundaryIntersects (r : Rect K) (v0 v1 : Vec K) : Bool :=
  if r.isEmpty then false
  else if !r.lng.isFull π && intersectsLngEdge fl sin cos v0 v1 r.lat r.lng.lo then true
  else if !r.lng.isFull π && intersectsLngEdge fl sin cos v0 v1 r.lat r.lng.hi then true
  else if decide (r.lat.lo ≠ -(π / 2)) && intersectsLatEdge π fl sqrt sin atan2 v0 v1 r.lat.lo r.lng then true
  else if decide (r.lat.hi ≠ π / 2) && intersectsLatEdge π fl sqrt sin atan2 v0 v1 r.lat.hi r.lng then true
  else false

/-- `distance_to_latlng`, lines 259-279. -/
def distanceToLatLng (r : Rect K) (ll : LatLng K) : K :=
  if r.lng.contains π ll.lng then max (max (fl (ll.lat - r.lat.hi)) (fl (r.lat.lo - ll.lat))) 0
  else
    let i := S1.Interval.new π r.lng.hi (r.lng.complementCenter π fl)
    let lng := if i.contains π ll.lng then r.lng.hi else r.lng.lo
    EdgeUtil.distanceFromSegment fl sqrt asin (LatLng.toPoint fl sin cos ll) (LatLng.toPoint fl sin cos ⟨r.lat.lo, lng⟩)
      (LatLng.toPoint fl sin cos ⟨r.lat.hi, lng⟩)

/-- `bisector_intersection`, lines 405-425. -/
def bisectorIntersection (lat : R1.Interval K) (lng : K) : Vec K :=
  let lng := |lng|
  let c := lat.center fl
  let ortho : LatLng K := if c ≥ 0 then ⟨fl (c - π / 2), lng⟩ else ⟨fl (-c - π / 2), fl (lng - π)⟩
  Vec.pointCross fl sqrt (Vec.fromCoords fl sqrt 0 (-1) 0) (LatLng.toPoint fl sin cos ortho)

/-- `interior_max_distance`, lines 430-447. -/
def interiorMaxDistance (a : R1.Interval K) (b : Vec K) : Option K :=
  if a.isEmpty || decide (b.x ≥ 0) then none
  else
    let p := Vec.fromCoords fl sqrt (-b.x) 0 (-b.z)
    let lat := (LatLng.ofPoint fl sqrt atan2 p).lat
    if a.interiorContains lat then some (Vec.angle fl sqrt atan2 b p) else none

/-- `Angle::max` with an optional second argument, as in lines 384-398. -/
def maxOpt (m : K) (o : Option K) : K := match o with | some d => max m d | none => m

/-- `hausdorff_distance_helper`, lines 310-401. -/
def hausdorffHelper (lngDiff : K) (a b : R1.Interval K) : Option (WithTop K) := do
  Rust.assert (0 ≤ lngDiff ∧ lngDiff ≤ π)
  if lngDiff = 0 then some (a.directedHausdorffDistance fl b)
  else
    let bLo := LatLng.toPoint fl sin cos ⟨b.lo, lngDiff⟩
    let bHi := LatLng.toPoint fl sin cos ⟨b.hi, lngDiff⟩
    let aLo := LatLng.toPoint fl sin cos ⟨a.lo, 0⟩
    let aHi := LatLng.toPoint fl sin cos ⟨a.hi, 0⟩
    let m := max (EdgeUtil.distanceFromSegment fl sqrt asin aLo bLo bHi) (EdgeUtil.distanceFromSegment fl sqrt asin aHi bLo bHi)
    if lngDiff ≤ π / 2 then
      some ((if a.contains 0 && b.contains 0 then max m lngDiff else m : K) : WithTop K)
    else
      let p := bisectorIntersection π fl sqrt sin cos b lngDiff
      let pLat := S2.LatLng.latitude fl sqrt atan2 p
      let m := if a.contains pLat then max m (Vec.angle fl sqrt atan2 p bLo) else m
      let m := if pLat > a.lo then maxOpt m (interiorMaxDistance fl sqrt atan2 ⟨a.lo, min pLat a.hi⟩ bLo) else m
      let m := if pLat < a.hi then maxOpt m (interiorMaxDistance fl sqrt atan2 ⟨max pLat a.lo, a.hi⟩ bHi) else m
      some ((m : K) : WithTop K)

/-- `directed_hausdorff_distance`, lines 295-304. -/
def directedHausdorffDistance (r s : Rect K) : Option (WithTop K) :=
  if r.isEmpty then some ((0 : K) : WithTop K)
  else if s.isEmpty then some ((π : K) : WithTop K)
  else hausdorffHelper π fl sqrt sin cos asin atan2 (r.lng.directedHausdorffDistance π fl s.lng) r.lat s.lat

/-- `hausdorff_distance`, lines 285-288. -/
def hausdorffDistance (r s : Rect K) : Option (WithTop K) := do
  let d ← directedHausdorffDistance π fl sqrt sin cos asin atan2 r s
  let e ← directedHausdorffDistance π fl sqrt sin cos asin atan2 s r
  some (max d e)

/-- `cap_bound` of the `Region` of a rectangle, lines 490-525. The angle of the pole cap is not negative for a valid rectangle, so that the
conversion to a chord angle is `ChordAngle.ofRad`. -/
def capBound (r : Rect K) : Cap K :=
  if r.isEmpty then Cap.empty
  else
    let z : K := if fl (r.lat.hi + r.lat.lo) < 0 then -1 else 1
    let angle := if fl (r.lat.hi + r.lat.lo) < 0 then fl (π / 2 + r.lat.hi) else fl (π / 2 - r.lat.lo)
    let pole : Cap K := ⟨⟨0, 0, z⟩, ChordAngle.ofRad fl sin π angle⟩
    if rem (fl (r.lng.hi - r.lng.lo)) ≥ 0 ∧ fl (r.lng.hi - r.lng.lo) < 2 * π then
      let mid := ((Cap.ofPoint (LatLng.toPoint fl sin cos (r.center π fl))).addPoint fl (LatLng.toPoint fl sin cos r.lo)).addPoint fl
        (LatLng.toPoint fl sin cos r.hi)
      if mid.height fl < pole.height fl then mid else pole
    else pole

/-- `contains_cell`, lines 533-544. -/
def containsCell (r : Rect K) (c : Cell K) : Option Bool := do
  let b ← c.rectBound π fl sqrt asin atan2 rem eps
  some (r.contains π b)

/-- The first loop of `intersects_cell`, lines 577-587: `n` vertices left, next `k`. -/
def vertexLoop (r : Rect K) (c : Cell K) : Nat → Nat → Option Bool
  | 0, _ => some false
  | n + 1, k => do
    let v ← c.vertex fl sqrt k
    if r.containsLatLng π (LatLng.ofPoint fl sqrt atan2 v) then some true
    else do
      let inside ← c.containsPoint fl eps (LatLng.toPoint fl sin cos (r.vertex k))
      if inside then some true else vertexLoop r c n (k + 1)

/-- The second loop of `intersects_cell`, lines 592-615: `n` edges left, next `k`. -/
def edgeLoop (r : Rect K) (c : Cell K) : Nat → Nat → Option Bool
  | 0, _ => some false
  | n + 1, k => do
    let a ← c.vertex fl sqrt k
    let b ← c.vertex fl sqrt ((k + 1) &&& 3)
    let e := S1.Interval.new π (LatLng.ofPoint fl sqrt atan2 a).lng (LatLng.ofPoint fl sqrt atan2 b).lng
    if !r.lng.intersects π e then edgeLoop r c n (k + 1)
    else if e.contains π r.lng.lo && intersectsLngEdge fl sin cos a b r.lat r.lng.lo then some true
    else if e.contains π r.lng.hi && intersectsLngEdge fl sin cos a b r.lat r.lng.hi then some true
    else if intersectsLatEdge π fl sqrt sin atan2 a b r.lat.lo r.lng then some true
    else if intersectsLatEdge π fl sqrt sin atan2 a b r.lat.hi r.lng then some true
    else edgeLoop r c n (k + 1)

/-- `intersects_cell`, lines 548-618. -/
def intersectsCell (r : Rect K) (c : Cell K) : Option Bool :=
  if r.isEmpty then some false
  else do
    let m ← c.id.rawPoint fl
    if r.containsPoint π fl sqrt atan2 m then some true
    else do
      let inside ← c.containsPoint fl eps (LatLng.toPoint fl sin cos (r.center π fl))
      if inside then some true
      else do
        let b ← c.rectBound π fl sqrt asin atan2 rem eps
        if !r.intersects π b then some false
        else do
          let v ← vertexLoop π fl sqrt sin cos atan2 eps r c 4 0
          if v then some true else edgeLoop π fl sqrt sin cos atan2 r c 4 0

/-- `centroid`, lines 741-805. -/
def centroid (r : Rect K) : Vec K :=
  if r.isEmpty then ⟨0, 0, 0⟩
  else
    let z1 := fl (sin r.lat.lo)
    let z2 := fl (sin r.lat.hi)
    let r1 := fl (cos r.lat.lo)
    let r2 := fl (cos r.lat.hi)
    let alpha := fl (1 / 2 * r.lng.len π fl)
    let rr := fl (fl (sin alpha) * fl (fl (fl (r2 * z2) - fl (r1 * z1)) + r.lat.len fl))
    let lng := r.lng.center π fl
    let z := fl (fl (alpha * fl (z2 + z1)) * fl (z2 - z1))
    ⟨fl (rr * fl (cos lng)), fl (rr * fl (sin lng)), z⟩

end Verif.S2.Rect
