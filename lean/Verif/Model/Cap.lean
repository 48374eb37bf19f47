import Verif.Model.ChordAngle
import Verif.Model.Cell
import Verif.Model.S2Rect
import Verif.Model.Metric

/-!
# Model of `/repo/src/s2/cap.rs`

The radius is a finite squared chord length (an infinite radius, which is not a valid cap, is not modelled). `fl`, `sqrt`, `asin` as in
`Verif/Model/ChordAngle.lean`. Angles and distances measured with `atan2` are parameters of the functions that need them.
-/

namespace Verif

/-- `Cap`, cap.rs lines 70-75. -/
structure Cap (K : Type) where
  center : Vec K
  radius : K

namespace Cap
variable {K : Type} [Field K] [LinearOrder K] (fl sqrt : K → K)

/-- `From<&Point> for Cap`, cap.rs lines 95-100. -/
def ofPoint (p : Vec K) : Cap K := ⟨p, 0⟩

/-- `from_center_height`, cap.rs lines 120-122. -/
def ofHeight (p : Vec K) (h : K) : Cap K := ⟨p, ChordAngle.fromSquaredLength (fl (2 * h))⟩

/-- `from_center_area`, cap.rs lines 128-130. -/
def ofArea (pi : K) (p : Vec K) (a : K) : Cap K := ⟨p, ChordAngle.fromSquaredLength (fl (a / pi))⟩

/-- `empty`, cap.rs lines 133-135 (the centre is `CENTER_POINT`, lines 33-37). -/
def empty : Cap K := ⟨⟨1, 0, 0⟩, ChordAngle.negative⟩

/-- `full`, cap.rs lines 138-140. -/
def full : Cap K := ⟨⟨1, 0, 0⟩, ChordAngle.straight⟩

/-- `is_valid`, cap.rs lines 143-145; `eps` is the tolerance of `is_unit`. -/
def isValid (eps : K) (c : Cap K) : Bool := c.center.isUnit fl eps && decide (c.radius ≤ ChordAngle.straight)

/-- `is_empty`, cap.rs lines 148-150. -/
def isEmpty (c : Cap K) : Bool := decide (c.radius < 0)

/-- `is_full`, cap.rs lines 153-155. -/
def isFull (c : Cap K) : Bool := decide (c.radius = ChordAngle.straight)

/-- `height`, cap.rs lines 164-166. -/
def height (c : Cap K) : K := fl (1 / 2 * c.radius)

/-- `area`, cap.rs lines 177-179. -/
def area (pi : K) (c : Cap K) : K := fl (fl (2 * pi) * max (c.height fl) 0)

/-- `contains`, cap.rs lines 182-189. -/
def contains (c d : Cap K) : Bool :=
  if c.isFull || d.isEmpty then true
  else decide (c.radius ≥ ChordAngle.add fl sqrt (c.center.chordAngle fl d.center) d.radius)

/-- `intersects`, cap.rs lines 193-199. -/
def intersects (c d : Cap K) : Bool :=
  if c.isFull || d.isEmpty then false
  else decide (ChordAngle.add fl sqrt c.radius d.radius ≥ c.center.chordAngle fl d.center)

/-- `interior_intersects`, cap.rs lines 202-209. -/
def interiorIntersects (c d : Cap K) : Bool :=
  if c.radius ≤ 0 || d.isEmpty then false
  else decide (ChordAngle.add fl sqrt c.radius d.radius > c.center.chordAngle fl d.center)

/-- `contains_point`, cap.rs lines 212-214. -/
def containsPoint (c : Cap K) (p : Vec K) : Bool := decide (c.center.chordAngle fl p ≤ c.radius)

/-- `interior_contains_point`, cap.rs lines 217-219. -/
def interiorContainsPoint (c : Cap K) (p : Vec K) : Bool := c.isFull || decide (c.center.chordAngle fl p < c.radius)

/-- `complement`, cap.rs lines 226-234. -/
def complement (c : Cap K) : Cap K :=
  if c.isFull then empty
  else if c.isEmpty then full
  else ⟨c.center.scale fl (-1), ChordAngle.sub fl sqrt ChordAngle.straight c.radius⟩

/-- `approx_eq`, cap.rs lines 237-246; `close` is the result of `approx_eq` on the centres and `eps` the constant `1e-14`. -/
def approxEq (eps : K) (close : Vec K → Vec K → Bool) (c d : Cap K) : Bool :=
  close c.center d.center && decide (|fl (c.radius - d.radius)| ≤ eps)
    || c.isEmpty && decide (d.radius ≤ eps)
    || d.isEmpty && decide (c.radius ≤ eps)
    || c.isFull && decide (d.radius ≥ fl (2 - eps))
    || d.isFull && decide (c.radius ≥ fl (2 - eps))

/-- `expanded`, cap.rs lines 250-256, for a finite distance of at least zero. -/
def expanded (sin : K → K) (pi : K) (c : Cap K) (d : K) : Cap K :=
  if c.isEmpty then empty else ⟨c.center, ChordAngle.add fl sqrt c.radius (ChordAngle.ofRad fl sin pi d)⟩

/-- `rect_bound`, cap.rs lines 267-311. `angle` is the radius as an angle, `lat` and `lng` are the latitude and longitude of the centre, and
`rem` is the function `remainder` of consts.rs. -/
def rectBound (sin cos asin : K → K) (rem : K → K → K) (pi : K) (c : Cap K) (angle lat lng : K) : S2.Rect K :=
  if c.isEmpty then S2.Rect.empty pi
  else
    let lo := fl (lat - angle)
    let hi := fl (lat + angle)
    let south := decide (lo < fl (pi / -2))
    let lo := if south then fl (pi / 2) else lo
    let north := decide (hi > fl (pi / 2))
    let hi := if north then fl (pi / 2) else hi
    let lng : S1.Interval K :=
      if !(south || north) then
        let sinA := fl (sin c.radius)
        let sinC := fl (cos lat)
        if sinA ≤ sinC then
          let a := fl (asin (fl (sinA / sinC)))
          ⟨rem (fl (lng - a)) (fl (pi * 2)), rem (fl (lng + a)) (fl (pi * 2))⟩
        else ⟨-pi, pi⟩
      else ⟨-pi, pi⟩
    ⟨⟨lo, hi⟩, lng⟩

/-- The loop of `intersects_cell_vertices`, cap.rs lines 385-408: `n` edges left, next edge `k`. -/
def edgeLoop (c : Cap K) (cell : Cell K) (vs : List (Vec K)) (sin2 : K) : Nat → Nat → Option Bool
  | 0, _ => some false
  | n + 1, k => do
    let edge ← cell.edge fl sqrt k
    let dot := c.center.dot fl edge
    if dot > 0 then edgeLoop c cell vs sin2 n (k + 1)
    else if fl (dot * dot) > fl (sin2 * edge.norm2 fl) then some false
    else
      let dir := edge.cross fl c.center
      let v ← vs[k]?
      let w ← vs[(k + 1) &&& 3]?
      if dir.dot fl v < 0 ∧ dir.dot fl w > 0 then some true else edgeLoop c cell vs sin2 n (k + 1)

/-- `intersects_cell_vertices`, cap.rs lines 362-409; `eps` is `DBL_EPSILON`. -/
def intersectsCellVertices (eps : K) (c : Cap K) (cell : Cell K) (vs : List (Vec K)) : Option Bool :=
  if c.radius ≥ ChordAngle.right then some false
  else if c.isEmpty then some false
  else do
    let inside ← cell.containsPoint fl eps c.center
    if inside then some true else edgeLoop fl sqrt c cell vs (ChordAngle.sin2 fl c.radius) 4 0

/-- `Cell::vertices`, cell.rs lines 127-135. -/
def cellVertices (cell : Cell K) : Option (List (Vec K)) := do
  let v0 ← cell.vertex fl sqrt 0
  let v1 ← cell.vertex fl sqrt 1
  let v2 ← cell.vertex fl sqrt 2
  let v3 ← cell.vertex fl sqrt 3
  some [v0, v1, v2, v3]

/-- `contains_cell`, cap.rs lines 314-324. -/
def containsCell (eps : K) (c : Cap K) (cell : Cell K) : Option Bool := do
  let vs ← cellVertices fl sqrt cell
  if vs.all (c.containsPoint fl) then do
    let r ← (c.complement fl sqrt).intersectsCellVertices fl sqrt eps cell vs
    some (!r)
  else some false

/-- `intersects_cell`, cap.rs lines 327-336. -/
def intersectsCell (eps : K) (c : Cap K) (cell : Cell K) : Option Bool := do
  let vs ← cellVertices fl sqrt cell
  if vs.any (c.containsPoint fl) then some true else c.intersectsCellVertices fl sqrt eps cell vs

/-- `centroid`, cap.rs lines 423-441. -/
def centroid (pi : K) (c : Cap K) : Vec K :=
  if c.isEmpty then ⟨0, 0, 0⟩ else c.center.scale fl (fl (fl (1 - fl (1 / 2 * c.height fl)) * c.area fl pi))

/-- `union`, cap.rs lines 444-471. `dist` is `Point::distance` and `interp` is `interpolate_at_distance` of edgeutil.rs. -/
def union (asin : K → K) (dist : Vec K → Vec K → K) (interp : K → Vec K → Vec K → Vec K) (c d : Cap K) : Cap K :=
  let a := if c.radius > d.radius then c else d
  let b := if c.radius > d.radius then d else c
  if a.isFull || b.isEmpty then a
  else
    let ra := ChordAngle.toRad fl sqrt asin a.radius
    let rb := ChordAngle.toRad fl sqrt asin b.radius
    let distance := dist a.center b.center
    if ra ≥ fl (distance + rb) then a
    else ⟨interp (fl (1 / 2 * fl (fl (distance - ra) + rb))) c.center d.center, fl (1 / 2 * fl (fl (distance + ra) + rb))⟩

/-- `PartialEq`, cap.rs lines 474-480. -/
def eq (c d : Cap K) : Bool :=
  (decide (c.radius = d.radius) && decide (c.center.x = d.center.x ∧ c.center.y = d.center.y ∧ c.center.z = d.center.z))
    || (c.isEmpty && d.isEmpty) || (c.isFull && d.isFull)

/-- `Add<&Point>`, cap.rs lines 482-497. -/
def addPoint (c : Cap K) (p : Vec K) : Cap K :=
  if c.isEmpty then ofPoint p else ⟨c.center, max (c.center.chordAngle fl p) c.radius⟩

/-- `Add<&Cap>`, cap.rs lines 505-522. The distance is not special, so `expanded` clamps it (chordangle.rs lines 193-200). -/
def addCap (c d : Cap K) : Cap K :=
  if c.isEmpty then d
  else if d.isEmpty then c
  else
    let dist := ChordAngle.add fl sqrt (c.center.chordAngle fl d.center) d.radius
    let e := max 0 (min 4 (fl (dist + fl (Predicates.dblEpsilon fl * dist))))
    ⟨c.center, max e c.radius⟩

end Cap
end Verif
