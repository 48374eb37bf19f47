import Verif.Model.R2
import Verif.Model.Vector
import Verif.Model.Predicates

/-!
# Model of `/repo/src/s2/edge_clipping.rs`

`fl` is the rounding after each arithmetic operation, `sqrt` the exact square root (also followed by a rounding). Negation, absolute
values and comparisons are exact. `none` is a panic (a face number above 5), or a run of `face_segments` that never returns.
-/

namespace Verif.EdgeClip
variable {K : Type} [Field K] [LinearOrder K] (fl sqrt : K → K)

/-- `FACE_CLIP_ERROR_RADIANS`, line 46. -/
def faceClipErrorRadians : K := fl (3 * Predicates.dblEpsilon fl)

/-- `FACE_CLIP_ERROR_UV_COORD`, line 59: `9.0 * (1.0 / SQRT_2) * DBL_EPSILON`; `sqrt2` is the constant `SQRT_2`. -/
def faceClipErrorUVCoord (sqrt2 : K) : K := fl (fl (9 * fl (1 / sqrt2)) * Predicates.dblEpsilon fl)

/-- `sum_equal`, lines 211-213. -/
def sumEqual (u v w : K) : Bool := decide (fl (u + v) = w) && decide (u = fl (w - v)) && decide (v = fl (w - u))

/-- `Axis`, lines 217-220. -/
inductive Axis where
  | U
  | V
deriving DecidableEq

/-- `Axis::value`, lines 223-228. -/
def Axis.value : Axis → Nat
  | .U => 0
  | .V => 1

/-- `intersects_face`, lines 234-247. -/
def intersectsFace (n : Vec K) : Bool :=
  let u := |n.x|
  let v := |n.y|
  let w := |n.z|
  decide (v ≥ fl (w - u)) && decide (u ≥ fl (w - v))

/-- `intersects_opposite_edges`, lines 253-273. -/
def intersectsOppositeEdges (n : Vec K) : Bool :=
  let u := |n.x|
  let v := |n.y|
  let w := |n.z|
  if |fl (u - v)| ≠ w then decide (|fl (u - v)| ≥ w)
  else if u ≥ v then decide (fl (u - w) ≥ v)
  else decide (fl (v - w) ≥ u)

/-- `exit_axis`, lines 280-305. `neg` is `is_sign_negative`, which is `x < 0` except that it distinguishes the two zeros. -/
def exitAxis (neg : K → Bool) (n : Vec K) : Axis :=
  if intersectsOppositeEdges fl n then (if |n.x| ≥ |n.y| then .V else .U)
  else if xor (xor (neg n.x) (neg n.y)) (neg n.z) = false then .V else .U

/-- `exit_point`, lines 310-330. -/
def exitPoint (n : Vec K) : Axis → R2.Point K
  | .U =>
    let u : K := if n.y > 0 then 1 else -1
    ⟨u, fl (fl (fl (-u * n.x) - n.z) / n.y)⟩
  | .V =>
    let v : K := if n.x < 0 then 1 else -1
    ⟨fl (fl (fl (-v * n.y) - n.z) / n.x), v⟩

/-- `clip_destination`, lines 345-412. `sqrt2` is the constant `SQRT_2`. -/
def clipDestination (neg : K → Bool) (sqrt2 : K) (a b scaledN aTan bTan : Vec K) (scale : K) : R2.Point K × Nat :=
  let maxSafe := fl (1 - faceClipErrorUVCoord fl sqrt2)
  let buv : R2.Point K := ⟨fl (b.x / b.z), fl (b.y / b.z)⟩
  if b.z > 0 ∧ max |buv.x| |buv.y| < maxSafe then (buv, 0)
  else
    let uv := (exitPoint fl scaledN (exitAxis fl neg scaledN)).smul fl scale
    let p : Vec K := ⟨uv.x, uv.y, 1⟩
    let score := if (p.sub fl a).dot fl aTan < 0 then 2 else if (p.sub fl b).dot fl bTan < 0 then 1 else 0
    if score > 0 then (if b.z ≤ 0 then (uv, 3) else (buv, score)) else (uv, score)

/-- `clip_to_padded_face`, lines 86-156. -/
def clipToPaddedFace (neg : K → Bool) (sqrt2 : K) (a b : Vec K) (f : Nat) (padding : K) : Option (R2.Point K × R2.Point K × Bool) :=
  if vecFace a = f ∧ vecFace b = f then do
    let (au, av) ← validFaceXYZtoUV fl f a
    let (bu, bv) ← validFaceXYZtoUV fl f b
    some (⟨au, av⟩, ⟨bu, bv⟩, true)
  else do
    let normUVW ← faceXYZtoUVW f (a.pointCross fl sqrt b)
    let aUVW ← faceXYZtoUVW f a
    let bUVW ← faceXYZtoUVW f b
    let scale := fl (1 + padding)
    let scaledN : Vec K := ⟨fl (scale * normUVW.x), fl (scale * normUVW.y), normUVW.z⟩
    if !intersectsFace fl scaledN then some (⟨0, 0⟩, ⟨0, 0⟩, false)
    else
      let normUVW := if max |normUVW.x| (max |normUVW.y| |normUVW.z|) < 1 / 2 ^ 511 then normUVW.scale fl (2 ^ 563) else normUVW
      let normUVW := normUVW.normalize fl sqrt
      let aTan := normUVW.pointCross fl sqrt aUVW
      let bTan := normUVW.pointCross fl sqrt bUVW
      let ra := clipDestination fl neg sqrt2 bUVW aUVW (scaledN.scale fl (-1)) bTan aTan scale
      let rb := clipDestination fl neg sqrt2 aUVW bUVW (scaledN.scale fl (-1)) aTan bTan scale
      some (ra.1, rb.1, decide (ra.2 + rb.2 < 3))

/-- `clip_to_face`, lines 77-79. -/
def clipToFace (neg : K → Bool) (sqrt2 : K) (a b : Vec K) (f : Nat) : Option (R2.Point K × R2.Point K × Bool) :=
  clipToPaddedFace fl sqrt neg sqrt2 a b f 0

/-- `update_endpoint`, lines 417-439. -/
def updateEndpoint (bound : R1.Interval K) (high : Bool) (value : K) : R1.Interval K × Bool :=
  if !high then
    if bound.hi < value then (bound, false) else (⟨if bound.lo < value then value else bound.lo, bound.hi⟩, true)
  else if bound.lo > value then (bound, false)
  else (⟨bound.lo, if bound.hi > value then value else bound.hi⟩, true)

/-- `interpolate`, lines 569-577. -/
def interpolate (x a b a1 b1 : K) : K :=
  if a = b then a1
  else if |fl (a - x)| ≤ |fl (b - x)| then fl (a1 + fl (fl (fl (b1 - a1) * fl (x - a)) / fl (b - a)))
  else fl (b1 + fl (fl (fl (a1 - b1) * fl (x - b)) / fl (a - b)))

/-- The first half of `clip_bound_axis`, lines 458-471. -/
def clipLow (a0 b0 : K) (bound0 : R1.Interval K) (a1 b1 : K) (bound1 : R1.Interval K) (negSlope : Bool) (clip : R1.Interval K) :
    R1.Interval K × R1.Interval K × Bool :=
  if bound0.lo < clip.lo then
    if bound0.hi < clip.lo then (bound0, bound1, false)
    else
      let r := updateEndpoint bound1 negSlope (interpolate fl clip.lo a0 b0 a1 b1)
      (⟨clip.lo, bound0.hi⟩, r.1, r.2)
  else (bound0, bound1, true)

/-- The second half of `clip_bound_axis`, lines 473-487. -/
def clipHigh (a0 b0 : K) (bound0 : R1.Interval K) (a1 b1 : K) (bound1 : R1.Interval K) (negSlope : Bool) (clip : R1.Interval K) :
    R1.Interval K × R1.Interval K × Bool :=
  if bound0.hi > clip.hi then
    if bound0.lo > clip.hi then (bound0, bound1, false)
    else
      let r := updateEndpoint bound1 (!negSlope) (interpolate fl clip.hi a0 b0 a1 b1)
      (⟨bound0.lo, clip.hi⟩, r.1, r.2)
  else (bound0, bound1, true)

/-- `clip_bound_axis`, lines 448-488. -/
def clipBoundAxis (a0 b0 : K) (bound0 : R1.Interval K) (a1 b1 : K) (bound1 : R1.Interval K) (negSlope : Bool) (clip : R1.Interval K) :
    R1.Interval K × R1.Interval K × Bool :=
  let r := clipLow fl a0 b0 bound0 a1 b1 bound1 negSlope clip
  if r.2.2 then clipHigh fl a0 b0 r.1 a1 b1 r.2.1 negSlope clip else r

/-- `clip_edge_bound`, lines 538-559. -/
def clipEdgeBound (a b : R2.Point K) (clip bound : R2.Rect K) : R2.Rect K × Bool :=
  let negSlope := xor (decide (a.x > b.x)) (decide (a.y > b.y))
  let r := clipBoundAxis fl a.x b.x bound.x a.y b.y bound.y negSlope clip.x
  if !r.2.2 then (bound, false)
  else
    let s := clipBoundAxis fl a.y b.y r.2.1 a.x b.x r.1 negSlope clip.y
    if !s.2.2 then (⟨r.1, r.2.1⟩, false) else (⟨s.2.1, s.1⟩, true)

/-- `clip_edge`, lines 162-186. -/
def clipEdge (a b : R2.Point K) (clip : R2.Rect K) : R2.Point K × R2.Point K × Bool :=
  let r := clipEdgeBound fl a b clip (R2.Rect.fromPointList [a, b])
  if !r.2 then (⟨0, 0⟩, ⟨0, 0⟩, false)
  else
    let ai : Int := if a.x > b.x then 1 else 0
    let aj : Int := if a.y > b.y then 1 else 0
    (r.1.vertexIJ ai aj, r.1.vertexIJ (1 - ai) (1 - aj), true)

/-- `edge_intersects_rect`, lines 493-515. -/
def edgeIntersectsRect (a b : R2.Point K) (r : R2.Rect K) : Bool :=
  if !(r.intersects (R2.Rect.fromPointList [a, b])) then false
  else
    let n := (b.sub fl a).ortho
    let i : Int := if n.x ≥ 0 then 1 else 0
    let j : Int := if n.y ≥ 0 then 1 else 0
    decide (n.dot fl ((r.vertexIJ i j).sub fl a) ≥ 0) && decide (n.dot fl ((r.vertexIJ (1 - i) (1 - j)).sub fl a) ≤ 0)

/-- `clipped_edge_bound`, lines 521-529. -/
def clippedEdgeBound (a b : R2.Point K) (clip : R2.Rect K) : R2.Rect K :=
  let r := clipEdgeBound fl a b clip (R2.Rect.fromPointList [a, b])
  if r.2 then r.1 else R2.Rect.empty

/-- `FaceSegment`, lines 584-588. -/
structure FaceSegment (K : Type) where
  face : Nat
  a : R2.Point K
  b : R2.Point K

/-- `move_origin_to_valid_face`, lines 682-731. -/
def moveOrigin (neg : K → Bool) (sqrt2 : K) (face : Nat) (a ab : Vec K) (auv : R2.Point K) : Option (Nat × R2.Point K) :=
  let maxSafe := fl (1 - faceClipErrorUVCoord fl sqrt2)
  if max |auv.x| |auv.y| ≤ maxSafe then some (face, auv)
  else do
    let n ← faceXYZtoUVW face ab
    let uv := exitPoint fl n (exitAxis fl neg n)
    let exit ← faceUVtoXYZ face uv.x uv.y
    let aTan := (ab.normalize fl sqrt).pointCross fl sqrt a
    if intersectsFace fl n = true ∧ (exit.sub fl a).dot fl aTan ≥ -faceClipErrorRadians fl then some (face, auv)
    else do
      let face ← if |auv.x| ≥ |auv.y| then uvwFace face 0 (if auv.x > 0 then 1 else 0) else uvwFace face 1 (if auv.y > 0 then 1 else 0)
      let (x, y) ← validFaceXYZtoUV fl face a
      some (face, ⟨max (-1) (min 1 x), max (-1) (min 1 y)⟩)

/-- `next_face`, lines 739-772. -/
def nextFace (face : Nat) (exit : R2.Point K) (axis : Axis) (n : Vec K) (target : Nat) : Option Nat := do
  let (exitA, exitB) := if axis = .V then (exit.y, exit.x) else (exit.x, exit.y)
  let other ← uvwFace face (1 - axis.value) (if exitB > 0 then 1 else 0)
  if |exitB| = 1 ∧ other = target ∧ sumEqual fl (fl (exit.x * n.x)) (fl (exit.y * n.y)) (-n.z) = true then some target
  else uvwFace face axis.value (if exitA > 0 then 1 else 0)

/-- The loop of `face_segments`, lines 645-668; the first argument is `ab`, `seg` the mutable `segment`. -/
def segmentLoop (neg : K → Bool) (ab : Vec K) (bFace : Nat) (bSaved : R2.Point K) (face : Nat) (seg : FaceSegment K) :
    Option (List (FaceSegment K)) :=
  if face = bFace then some [⟨seg.face, seg.a, bSaved⟩]
  else do
    let n ← faceXYZtoUVW face ab
    let axis := exitAxis fl neg n
    let exit := exitPoint fl n axis
    let exitXYZ ← faceUVtoXYZ face exit.x exit.y
    let next ← nextFace fl face exit axis n bFace
    let exitUVW ← faceXYZtoUVW next exitXYZ
    let rest ← segmentLoop neg ab bFace bSaved next ⟨next, ⟨exitUVW.x, exitUVW.y⟩, exit⟩
    some (⟨seg.face, seg.a, exit⟩ :: rest)
partial_fixpoint

/-- `face_segments`, lines 602-669. -/
def faceSegments (neg : K → Bool) (sqrt2 : K) (a b : Vec K) : Option (List (FaceSegment K)) := do
  let (aFace, ax, ay) ← xyzToFaceUV fl a
  let (bFace, bx, by') ← xyzToFaceUV fl b
  if aFace = bFace then some [⟨aFace, ⟨ax, ay⟩, ⟨bx, by'⟩⟩]
  else
    let ab := a.pointCross fl sqrt b
    let (aFace, sa) ← moveOrigin fl sqrt neg sqrt2 aFace a ab ⟨ax, ay⟩
    let (bFace, sb) ← moveOrigin fl sqrt neg sqrt2 bFace b (ab.scale fl (-1)) ⟨bx, by'⟩
    segmentLoop fl neg ab bFace sb aFace ⟨aFace, sa, sb⟩

end Verif.EdgeClip
