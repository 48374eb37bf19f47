import Verif.Model.ChordAngle

/-!
# Model of `/repo/src/s2/edgeutil.rs`

`fl` is the rounding after each operation; `sqrt`, `atan2`, `sin`, `cos`, `asin` are the library functions, also followed by a
rounding. Chord angles are finite here (`min_dist`, `max_dist` are values of `K`). Negation, comparison, `min`, `max` and absolute
value are exact.
-/

namespace Verif

/-- `Vector::angle`, vector.rs lines 215-217. -/
def Vec.angle {K : Type} [Field K] [LinearOrder K] (fl sqrt : K → K) (atan2 : K → K → K) (p q : Vec K) : K :=
  fl (atan2 (Vec.norm fl sqrt (Vec.cross fl p q)) (Vec.dot fl p q))

namespace EdgeUtil
variable {K : Type} [Field K] [LinearOrder K] (fl sqrt : K → K)

/-- `simple_crossing`, edgeutil.rs lines 96-113. -/
def simpleCrossing (a b c d : Vec K) : Bool :=
  let ab := Vec.cross fl a b
  let acb := -Vec.dot fl ab c
  let bda := Vec.dot fl ab d
  if fl (acb * bda) ≤ 0 then false
  else
    let cd := Vec.cross fl c d
    let cbd := -Vec.dot fl cd b
    let dac := Vec.dot fl cd a
    decide (fl (acb * cbd) > 0) && decide (fl (acb * dac) > 0)

/-- `interpolate_at_distance`, edgeutil.rs lines 133-149. -/
def interpolateAtDistance (sin cos : K → K) (ax : K) (a b : Vec K) : Vec K :=
  let normal := Vec.pointCross fl sqrt a b
  let tangent := Vec.cross fl normal a
  Vec.normalize fl sqrt
    (Vec.add fl (Vec.scale fl a (fl (cos ax))) (Vec.scale fl tangent (fl (fl (sin ax) / Vec.norm fl sqrt tangent))))

/-- `interpolate`, edgeutil.rs lines 120-129. -/
def interpolate (atan2 : K → K → K) (sin cos : K → K) (t : K) (a b : Vec K) : Vec K :=
  if t = 0 then a
  else if t = 1 then b
  else interpolateAtDistance fl sqrt sin cos (fl (t * Vec.angle fl sqrt atan2 a b)) a b

/-- `project`, edgeutil.rs lines 157-172. -/
def project (x a b : Vec K) : Vec K :=
  let axb := Vec.pointCross fl sqrt a b
  let p := Vec.sub fl x (Vec.scale fl axb (fl (Vec.dot fl x axb / Vec.norm2 fl axb)))
  if Predicates.sign fl axb a p && Predicates.sign fl p b axb then Vec.normalize fl sqrt p
  else if Vec.norm2 fl (Vec.sub fl x a) ≤ Vec.norm2 fl (Vec.sub fl x b) then a
  else b

/-- The error bound of the planar test in `interior_dist`, edgeutil.rs line 281. -/
def maxError (xa2 xb2 ab2 : K) : K :=
  fl (fl (fl (fl (475 / 100) * Predicates.dblEpsilon fl) * fl (fl (xa2 + xb2) + ab2)) +
    fl (fl (8 * Predicates.dblEpsilon fl) * Predicates.dblEpsilon fl))

/-- `interior_dist`, edgeutil.rs lines 233-332. -/
def interiorDist (x a b : Vec K) (minDist : K) (alwaysUpdate : Bool) : K × Bool :=
  let xa2 := Vec.norm2 fl (Vec.sub fl x a)
  let xb2 := Vec.norm2 fl (Vec.sub fl x b)
  let ab2 := Vec.norm2 fl (Vec.sub fl a b)
  if |fl (xa2 - xb2)| ≥ fl (ab2 + maxError fl xa2 xb2 ab2) then (minDist, false)
  else
    let c := Vec.pointCross fl sqrt a b
    let c2 := Vec.norm2 fl c
    let xDotC := Vec.dot fl x c
    let xDotC2 := fl (xDotC * xDotC)
    if !alwaysUpdate && decide (xDotC2 > fl (c2 * minDist)) then (minDist, false)
    else
      let cx := Vec.cross fl c x
      if Vec.dot fl (Vec.sub fl a x) cx ≥ 0 ∨ Vec.dot fl (Vec.sub fl b x) cx ≤ 0 then (minDist, false)
      else
        let qr := fl (1 - fl (sqrt (fl (Vec.norm2 fl cx / c2))))
        let dist := fl (fl (xDotC2 / c2) + fl (qr * qr))
        if !alwaysUpdate && decide (dist ≥ minDist) then (minDist, false) else (dist, true)

/-- `update_min_distance`, edgeutil.rs lines 177-196. -/
def updateMinDistance (x a b : Vec K) (minDist : K) (alwaysUpdate : Bool) : K × Bool :=
  let (d, ok) := interiorDist fl sqrt x a b minDist alwaysUpdate
  if ok then (d, true)
  else
    let dist := min (Vec.norm2 fl (Vec.sub fl x a)) (Vec.norm2 fl (Vec.sub fl x b))
    if !alwaysUpdate && decide (dist ≥ minDist) then (minDist, false) else (dist, true)

/-- `update_max_distance`, edgeutil.rs lines 202-218. -/
def updateMaxDistance (x a b : Vec K) (maxDist : K) : K × Bool :=
  let dist := max (Vec.chordAngle fl x a) (Vec.chordAngle fl x b)
  let dist :=
    if dist > ChordAngle.right then
      ChordAngle.sub fl sqrt ChordAngle.straight (updateMinDistance fl sqrt (Vec.scale fl x (-1)) a b dist true).1
    else dist
  if maxDist < dist then (dist, true) else (maxDist, false)

/-- `distance_from_segment`, edgeutil.rs lines 224-227, an angle in radians; the least distance is a squared length, hence neither
negative nor infinite, so that the conversion to an angle is `ChordAngle.toRad`. -/
def distanceFromSegment (asin : K → K) (x a b : Vec K) : K :=
  ChordAngle.toRad fl sqrt asin (updateMinDistance fl sqrt x a b 0 true).1

end EdgeUtil
end Verif
