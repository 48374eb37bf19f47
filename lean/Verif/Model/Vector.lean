import Verif.Model.Stuv

/-!
# Model of `/repo/src/r3/vector.rs` and of the vector part of `/repo/src/s2/point.rs`

A `Point` of s2 is its vector. `fl` is the rounding after each arithmetic operation and `sqrt` the exact square root, which is
also followed by a rounding. Negation, absolute value and comparisons are exact. `angle` (which needs `atan2`) is in
`Verif/Model/EdgeUtil.lean`.
-/

namespace Verif.Vec
variable {K : Type} [Field K] [LinearOrder K] (fl sqrt : K → K)

/-- `Add`, vector.rs lines 44-54. -/
def add (p q : Vec K) : Vec K := ⟨fl (p.x + q.x), fl (p.y + q.y), fl (p.z + q.z)⟩

/-- `Sub`, vector.rs lines 63-72. -/
def sub (p q : Vec K) : Vec K := ⟨fl (p.x - q.x), fl (p.y - q.y), fl (p.z - q.z)⟩

/-- `Mul<f64>`, vector.rs lines 91-101. -/
def scale (p : Vec K) (m : K) : Vec K := ⟨fl (p.x * m), fl (p.y * m), fl (p.z * m)⟩

/-- `Ord::cmp`, vector.rs lines 120-146. -/
def cmp (p q : Vec K) : Ordering :=
  if p.x < q.x then .lt
  else if p.x > q.x then .gt
  else if p.y < q.y then .lt
  else if p.y > q.y then .gt
  else if p.z < q.z then .lt
  else if p.z > q.z then .gt
  else .eq

/-- `dot`, vector.rs lines 181-183. -/
def dot (p q : Vec K) : K := fl (fl (fl (p.x * q.x) + fl (p.y * q.y)) + fl (p.z * q.z))

/-- `norm2`, vector.rs lines 167-169. -/
def norm2 (p : Vec K) : K := dot fl p p

/-- `norm`, vector.rs lines 162-164. -/
def norm (p : Vec K) : K := fl (sqrt (norm2 fl p))

/-- `normalize`, vector.rs lines 172-178. -/
def normalize (p : Vec K) : Vec K :=
  if p.x = 0 ∧ p.y = 0 ∧ p.z = 0 then p else scale fl p (fl (1 / norm fl sqrt p))

/-- `is_unit`, vector.rs lines 186-189. -/
def isUnit (eps : K) (p : Vec K) : Bool := decide (|fl (norm2 fl p - 1)| < eps)

/-- `abs`, vector.rs lines 192-198. -/
def abs (p : Vec K) : Vec K := ⟨|p.x|, |p.y|, |p.z|⟩

/-- `cross`, vector.rs lines 201-207. -/
def cross (p q : Vec K) : Vec K :=
  ⟨fl (fl (p.y * q.z) - fl (p.z * q.y)), fl (fl (p.z * q.x) - fl (p.x * q.z)), fl (fl (p.x * q.y) - fl (p.y * q.x))⟩

/-- `Axis`, vector.rs lines 260-267. -/
inductive Axis where
  | X
  | Y
  | Z
deriving DecidableEq

/-- `largest_component`, vector.rs lines 236-245. -/
def largestComponent (p : Vec K) : Axis :=
  if |p.x| > |p.y| then (if |p.x| > |p.z| then .X else .Z) else if |p.y| > |p.z| then .Y else .Z

/-- `smallest_component`, vector.rs lines 248-257. -/
def smallestComponent (p : Vec K) : Axis :=
  if |p.x| < |p.y| then (if |p.x| < |p.z| then .X else .Z) else if |p.y| < |p.z| then .Y else .Z

/-- The vector `ov` of `ortho`, vector.rs lines 222-231 (the three constants are `a`, `b`, `c`). -/
def orthoDir (a b c : K) (p : Vec K) : Vec K :=
  match p.largestComponent with
  | .X => ⟨a, b, 1⟩
  | .Y => ⟨1, b, c⟩
  | .Z => ⟨a, 1, c⟩

/-- `ortho`, vector.rs lines 221-233. The constants `0.012`, `0.0053`, `0.00457` are rounded decimals. -/
def ortho (p : Vec K) : Vec K :=
  normalize fl sqrt (cross fl p (orthoDir (fl (12 / 1000)) (fl (53 / 10000)) (fl (457 / 100000)) p))

/-- `Point::cross`, point.rs lines 144-157. -/
def pointCross (p q : Vec K) : Vec K :=
  let v := cross fl (add fl p q) (sub fl q p)
  if v.x = 0 ∧ v.y = 0 ∧ v.z = 0 then ortho fl sqrt p else v

/-- `Point::chordangle`, point.rs lines 378-380 (the squared length). -/
def chordAngle (p q : Vec K) : K := min 4 (norm2 fl (sub fl p q))

/-- `ORIGIN`, point.rs lines 97-101 (rounded decimals). -/
def origin : Vec K :=
  ⟨-fl (999946643502502 / 10 ^ 17), fl (2592454260932412 / 10 ^ 18), fl (999946643502502 / 10 ^ 15)⟩

/-- `Point::from_coords`, point.rs lines 111-117. -/
def fromCoords (x y z : K) : Vec K := if x = 0 ∧ y = 0 ∧ z = 0 then origin fl else normalize fl sqrt ⟨x, y, z⟩

/-- A `Matrix3` by its columns. -/
structure Frame (K : Type) where
  c0 : Vec K
  c1 : Vec K
  c2 : Vec K

/-- `frame`, point.rs lines 185-191. -/
def frame (p : Vec K) : Frame K :=
  let c1 := ortho fl sqrt p
  ⟨cross fl c1 p, c1, p⟩

/-- `from_frame`, point.rs lines 198-201: the product of the matrix and the vector. The product of the crate cgmath is not in
`/repo`; it is modelled as the scalar products with the rows. -/
def fromFrame (m : Frame K) (p : Vec K) : Vec K :=
  ⟨dot fl ⟨m.c0.x, m.c1.x, m.c2.x⟩ p, dot fl ⟨m.c0.y, m.c1.y, m.c2.y⟩ p, dot fl ⟨m.c0.z, m.c1.z, m.c2.z⟩ p⟩

/-- `to_frame`, point.rs lines 206-209: the product of the transposed matrix and the vector. -/
def toFrame (m : Frame K) (p : Vec K) : Vec K := ⟨dot fl m.c0 p, dot fl m.c1 p, dot fl m.c2 p⟩

end Verif.Vec
