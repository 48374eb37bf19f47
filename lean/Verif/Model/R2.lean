import Verif.Model.R1

/-!
# Model of `/repo/src/r2/point.rs` and `/repo/src/r2/rect.rs`

Coordinates as in `Verif.Model.R1`: an arbitrary linear order or ordered field `K`, with a rounding function `fl`
after each arithmetic operation. `hypot` (`norm`, `normalize`) is not modelled.
-/

namespace Verif.R2

/-- `Point`, point.rs lines 22-29. -/
structure Point (K : Type) where
  x : K
  y : K
deriving DecidableEq

namespace Point

/-- `Ord::cmp`, point.rs lines 35-51. -/
def cmp {K : Type} [LinearOrder K] (p o : Point K) : Ordering :=
  if p.x < o.x then .lt
  else if p.x > o.x then .gt
  else if p.y < o.y then .lt
  else if p.y > o.y then .gt
  else .eq

/-- `PartialEq::eq`, point.rs lines 61-63. -/
def eq {K : Type} [LinearOrder K] (p o : Point K) : Bool := p.cmp o == .eq

variable {K : Type} [Field K] (fl : K → K)

/-- `Add`, point.rs lines 65-74. -/
def add (p o : Point K) : Point K := ⟨fl (p.x + o.x), fl (p.y + o.y)⟩

/-- `Sub`, point.rs lines 76-85. -/
def sub (p o : Point K) : Point K := ⟨fl (p.x - o.x), fl (p.y - o.y)⟩

/-- `Mul<&Point>`, point.rs lines 87-96 (as written: `self.x * self.x` and `other.y * other.y`). -/
def mul (p o : Point K) : Point K := ⟨fl (p.x * p.x), fl (o.y * o.y)⟩

/-- `Mul<f64>`, point.rs lines 112-121. -/
def smul (p : Point K) (m : K) : Point K := ⟨fl (p.x * m), fl (p.y * m)⟩

/-- `ortho`, point.rs lines 130-135. -/
def ortho (p : Point K) : Point K := ⟨-p.y, p.x⟩

/-- `dot`, point.rs lines 138-140. -/
def dot (p o : Point K) : K := fl (fl (p.x * o.x) + fl (p.y * o.y))

/-- `cross`, point.rs lines 143-145. -/
def cross (p o : Point K) : K := fl (fl (p.x * o.y) - fl (p.y * o.x))

end Point

/-- `Rect`, rect.rs lines 24-31. -/
structure Rect (K : Type) where
  x : R1.Interval K
  y : R1.Interval K

namespace Rect

section order
variable {K : Type} [LinearOrder K]

/-- `is_valid`, rect.rs lines 74-76. -/
def isValid (r : Rect K) : Bool := r.x.isEmpty == r.y.isEmpty

/-- `is_empty`, rect.rs lines 79-81. -/
def isEmpty (r : Rect K) : Bool := r.x.isEmpty

/-- `vertices`, rect.rs lines 85-92. -/
def vertices (r : Rect K) : List (Point K) :=
  [⟨r.x.lo, r.y.lo⟩, ⟨r.x.hi, r.y.lo⟩, ⟨r.x.hi, r.y.hi⟩, ⟨r.x.lo, r.y.hi⟩]

/-- `vertex_ij`, rect.rs lines 96-100. -/
def vertexIJ (r : Rect K) (i j : Int) : Point K :=
  ⟨if i = 0 then r.x.lo else r.x.hi, if j = 0 then r.y.lo else r.y.hi⟩

/-- `contains_point`, rect.rs lines 125-127. -/
def containsPoint (r : Rect K) (p : Point K) : Bool := r.x.contains p.x && r.y.contains p.y

/-- `interior_contains_point`, rect.rs lines 131-133. -/
def interiorContainsPoint (r : Rect K) (p : Point K) : Bool := r.x.interiorContains p.x && r.y.interiorContains p.y

/-- `contains`, rect.rs lines 136-138. -/
def contains (r s : Rect K) : Bool := r.x.containsInterval s.x && r.y.containsInterval s.y

/-- `interior_contains`, rect.rs lines 142-144. -/
def interiorContains (r s : Rect K) : Bool := r.x.interiorContainsInterval s.x && r.y.interiorContainsInterval s.y

/-- `intersects`, rect.rs lines 147-149. -/
def intersects (r s : Rect K) : Bool := r.x.intersects s.x && r.y.intersects s.y

/-- `interior_intersects`, rect.rs lines 153-155. -/
def interiorIntersects (r s : Rect K) : Bool := r.x.interiorIntersects s.x && r.y.interiorIntersects s.y

/-- `clamp_point`, rect.rs lines 159-161. -/
def clampPoint (r : Rect K) (p : Point K) : Point K := ⟨r.x.clampPoint p.x, r.y.clampPoint p.y⟩

/-- `union`, rect.rs lines 184-189; also `Add<&Rect>`, lines 233-244. -/
def union (r s : Rect K) : Rect K := ⟨r.x.union s.x, r.y.union s.y⟩

/-- `Add<&Point>`, rect.rs lines 221-231. -/
def addPoint (r : Rect K) (p : Point K) : Rect K := ⟨r.x.addPoint p.x, r.y.addPoint p.y⟩

/-- The derived `PartialEq`, rect.rs line 24. -/
def eq (r s : Rect K) : Bool := r.x.eq s.x && r.y.eq s.y

/-- `from_points` on a non-empty list, rect.rs lines 43-62. -/
def fromPoints (p : Point K) (ps : List (Point K)) : Rect K :=
  ps.foldl addPoint ⟨R1.Interval.fromPoint p.x, R1.Interval.fromPoint p.y⟩

end order

section field
variable {K : Type} [Field K] [LinearOrder K] (fl : K → K)

/-- `EMPTY`, rect.rs lines 36-39. -/
def empty : Rect K := ⟨R1.Interval.empty, R1.Interval.empty⟩

/-- `intersection`, rect.rs lines 193-201. -/
def intersection (r s : Rect K) : Rect K :=
  let x := r.x.intersection s.x
  let y := r.y.intersection s.y
  if x.isEmpty || y.isEmpty then empty else ⟨x, y⟩

/-- `expanded`, rect.rs lines 167-175. -/
def expanded (r : Rect K) (margin : Point K) : Rect K :=
  let x := r.x.expanded fl margin.x
  let y := r.y.expanded fl margin.y
  if x.isEmpty || y.isEmpty then empty else ⟨x, y⟩

/-- `expanded_by_margin`, rect.rs lines 178-180. -/
def expandedByMargin (r : Rect K) (m : K) : Rect K := r.expanded fl ⟨m, m⟩

/-- `center`, rect.rs lines 113-115. -/
def center (r : Rect K) : Point K := ⟨r.x.center fl, r.y.center fl⟩

/-- `from_center_size`, rect.rs lines 65-70. -/
def fromCenterSize (c size : Point K) : Rect K :=
  ⟨(R1.Interval.fromPoint c.x).expanded fl (fl (size.x / 2)), (R1.Interval.fromPoint c.y).expanded fl (fl (size.y / 2))⟩

/-- `from_points`, rect.rs lines 43-61: on an empty slice the default rectangle `[0,0] × [0,0]`. -/
def fromPointList : List (Point K) → Rect K
  | [] => ⟨⟨0, 0⟩, ⟨0, 0⟩⟩
  | p :: ps => fromPoints p ps

end field
end Rect
end Verif.R2
