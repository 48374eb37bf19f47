import Mathlib.Order.WithBot
import Mathlib.Algebra.Order.Field.Basic

/-!
# Model of `/repo/src/r1/interval.rs`

The type of coordinates is any type `K` with a linear order, or any ordered field where there is
arithmetic. Doubles without NaN are such values, up to the sign of zero. Infinite values are included where only
comparisons occur. Every arithmetic operation is followed by a rounding function `fl`; for `fl = id` the
arithmetic is exact.
-/

namespace Verif.R1

/-- `Interval`, lines 25-32. -/
structure Interval (K : Type) where
  lo : K
  hi : K

namespace Interval

section order
variable {K : Type} [LinearOrder K]

/-- `Interval::new`, lines 43-45. -/
def new (lo hi : K) : Interval K := ⟨lo, hi⟩

/-- `from_point`, lines 48-50. -/
def fromPoint (p : K) : Interval K := ⟨p, p⟩

/-- `from_point_pair`, lines 55-61. -/
def fromPointPair (p1 p2 : K) : Interval K := if p1 ≤ p2 then ⟨p1, p2⟩ else ⟨p2, p1⟩

/-- `is_empty`, lines 64-66. -/
def isEmpty (i : Interval K) : Bool := decide (i.lo > i.hi)

/-- `contains`, lines 81-83. -/
def contains (i : Interval K) (p : K) : Bool := decide (i.lo ≤ p) && decide (p ≤ i.hi)

/-- `contains_interval`, lines 86-92. -/
def containsInterval (i oi : Interval K) : Bool :=
  if oi.isEmpty then true else decide (i.lo ≤ oi.lo) && decide (oi.hi ≤ i.hi)

/-- `interior_contains`, lines 95-97. -/
def interiorContains (i : Interval K) (p : K) : Bool := decide (i.lo < p) && decide (p < i.hi)

/-- `interior_contains_interval`, lines 100-106. -/
def interiorContainsInterval (i oi : Interval K) : Bool :=
  if oi.isEmpty then true else decide (i.lo < oi.lo) && decide (oi.hi < i.hi)

/-- `intersects`, lines 109-117. -/
def intersects (i oi : Interval K) : Bool :=
  if i.lo ≤ oi.lo then decide (oi.lo ≤ i.hi) && decide (oi.lo ≤ oi.hi)
  else decide (i.lo ≤ oi.hi) && decide (i.lo ≤ i.hi)

/-- `interior_intersects`, lines 121-123. -/
def interiorIntersects (i oi : Interval K) : Bool :=
  decide (oi.lo < i.hi) && decide (i.lo < oi.hi) && decide (i.lo < i.hi) && decide (oi.lo ≤ oi.hi)

/-- `intersection`, lines 126-132. -/
def intersection (i other : Interval K) : Interval K := ⟨max i.lo other.lo, min i.hi other.hi⟩

/-- `clamp_point`, lines 136-138. -/
def clampPoint (i : Interval K) (p : K) : K := max i.lo (min i.hi p)

/-- `union`, lines 156-167. -/
def union (i other : Interval K) : Interval K :=
  if i.isEmpty then other
  else if other.isEmpty then i
  else ⟨min i.lo other.lo, max i.hi other.hi⟩

/-- `Add<f64>`, lines 202-221. -/
def addPoint (i : Interval K) (p : K) : Interval K :=
  if i.isEmpty then ⟨p, p⟩
  else if p < i.lo then ⟨p, i.hi⟩
  else if p > i.hi then ⟨i.lo, p⟩
  else i

/-- `PartialEq`, lines 223-228. -/
def eq (i other : Interval K) : Bool :=
  (decide (i.lo = other.lo) && decide (i.hi = other.hi)) || (i.isEmpty && other.isEmpty)

end order

section field
variable {K : Type} [Field K] [LinearOrder K] (fl : K → K)

/-- `EMPTY`, line 40. -/
def empty : Interval K := ⟨1, 0⟩

/-- `center`, lines 70-72. -/
def center (i : Interval K) : K := fl (1 / 2 * fl (i.lo + i.hi))

/-- `len`, lines 76-78. -/
def len (i : Interval K) : K := fl (i.hi - i.lo)

/-- `expanded`, lines 144-153. -/
def expanded (i : Interval K) (margin : K) : Interval K :=
  if i.isEmpty then i else ⟨fl (i.lo - margin), fl (i.hi + margin)⟩

/-- `approx_eq_by`, lines 178-186. (`2. * max_error` is exact.) -/
def approxEqBy (i other : Interval K) (maxError : K) : Bool :=
  if i.isEmpty then decide (other.len fl < 2 * maxError)
  else if other.isEmpty then decide (i.len fl < 2 * maxError)
  else decide (|fl (i.lo - other.lo)| ≤ maxError) && decide (|fl (i.hi - other.hi)| ≤ maxError)

/-- `directed_hausdorff_distance`, lines 191-199. `⊤` is the infinite value. -/
def directedHausdorffDistance (i other : Interval K) : WithTop K :=
  if i.isEmpty then ((0 : K) : WithTop K)
  else if other.isEmpty then ⊤
  else ((max 0 (max (fl (i.hi - other.hi)) (fl (other.lo - i.lo))) : K) : WithTop K)

end field
end Interval
end Verif.R1
