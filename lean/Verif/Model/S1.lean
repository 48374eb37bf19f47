import Mathlib.Algebra.Order.Field.Basic

/-!
# Model of `/repo/src/s1/interval.rs`

Angles are values of any ordered field `K`; `π` is a parameter (the constant `PI`, of which only `0 < π` is used).
Every arithmetic operation is followed by a rounding function `fl`, except those by which a float is negated, halved or doubled. `remainder` (`libm::remquo`) is a
parameter `rem`. `Debug` and the conversions from and to `r1` are left out.
-/

namespace Verif.S1

/-- `Interval`, lines 35-40. -/
structure Interval (K : Type) where
  lo : K
  hi : K

variable {K : Type} [Field K] [LinearOrder K] (π : K) (fl : K → K)

/-- `EMPTY`, line 48. -/
def Interval.empty : Interval K := ⟨π, -π⟩

/-- `FULL`, line 50. -/
def Interval.full : Interval K := ⟨-π, π⟩

/-- `positive_distance`, lines 53-56. -/
def positiveDistance (a b : K) : K :=
  let d := fl (b - a)
  if d ≥ 0 then d else fl (fl (b + π) - fl (a - π))

namespace Interval

/-- `Interval::new`, lines 62-71. -/
def new (lo hi : K) : Interval K :=
  ⟨if lo = -π ∧ hi ≠ π then π else lo, if hi = -π ∧ lo ≠ π then π else hi⟩

/-- `-PI` is replaced by `PI`, lines 76-81, 160-162, 184-186 and 455-457. -/
def toPi (p : K) : K := if p = -π then π else p

/-- `from_point_pair`, lines 75-87. -/
def fromPointPair (a b : K) : Interval K :=
  let a := toPi π a
  let b := toPi π b
  if positiveDistance π fl a b ≤ π then ⟨a, b⟩ else ⟨b, a⟩

/-- `is_valid`, lines 90-95. -/
def isValid (i : Interval K) : Bool :=
  decide (|i.lo| ≤ π) && decide (|i.hi| ≤ π) && !(decide (i.lo = -π) && decide (i.hi ≠ π))
    && !(decide (i.hi = -π) && decide (i.lo ≠ π))

/-- `is_full`, lines 98-100. -/
def isFull (i : Interval K) : Bool := decide (i.lo = -π) && decide (i.hi = π)

/-- `is_empty`, lines 103-105. -/
def isEmpty (i : Interval K) : Bool := decide (i.lo = π) && decide (i.hi = -π)

/-- `is_inverted`, lines 108-110. -/
def isInverted (i : Interval K) : Bool := decide (i.lo > i.hi)

/-- `invert`, lines 113-118. -/
def invert (i : Interval K) : Interval K := ⟨i.hi, i.lo⟩

/-- `center`, lines 122-131. -/
def center (i : Interval K) : K :=
  let c := 1 / 2 * fl (i.lo + i.hi)
  if !i.isInverted then c
  else if c ≤ 0 then fl (c + π)
  else fl (c - π)

/-- `len`, lines 135-145. -/
def len (i : Interval K) : K :=
  let l := fl (i.hi - i.lo)
  if l ≥ 0 then l
  else
    let l := fl (l + 2 * π)
    if l > 0 then l else -1

/-- `fast_contains`, lines 149-155. -/
def fastContains (i : Interval K) (p : K) : Bool :=
  if i.isInverted then (decide (p ≥ i.lo) || decide (p ≤ i.hi)) && !i.isEmpty π
  else decide (p ≥ i.lo) && decide (p ≤ i.hi)

/-- `contains`, lines 159-164. -/
def contains (i : Interval K) (p : K) : Bool := i.fastContains π (toPi π p)

/-- `contains_interval`, lines 167-179. -/
def containsInterval (i other : Interval K) : Bool :=
  if i.isInverted then
    if other.isInverted then decide (other.lo ≥ i.lo) && decide (other.hi ≤ i.hi)
    else (decide (other.lo ≥ i.lo) || decide (other.hi ≤ i.hi)) && !i.isEmpty π
  else if other.isInverted then i.isFull π || other.isEmpty π
  else decide (other.lo ≥ i.lo) && decide (other.hi ≤ i.hi)

/-- `interior_contains`, lines 183-192. -/
def interiorContains (i : Interval K) (p : K) : Bool :=
  let p := toPi π p
  if i.isInverted then decide (p > i.lo) || decide (p < i.hi)
  else (decide (p > i.lo) && decide (p < i.hi)) || i.isFull π

/-- `interior_contains_interval`, lines 195-207. -/
def interiorContainsInterval (i other : Interval K) : Bool :=
  if i.isInverted then
    if other.isInverted then (decide (other.lo > i.lo) && decide (other.hi < i.hi)) || other.isEmpty π
    else decide (other.lo > i.lo) || decide (other.hi < i.hi)
  else if other.isInverted then i.isFull π || other.isEmpty π
  else (decide (other.lo > i.lo) && decide (other.hi < i.hi)) || i.isFull π

/-- `intersects`, lines 210-220. -/
def intersects (i other : Interval K) : Bool :=
  if i.isEmpty π || other.isEmpty π then false
  else if i.isInverted then other.isInverted || decide (other.lo ≤ i.hi) || decide (other.hi ≥ i.lo)
  else if other.isInverted then decide (other.lo ≤ i.hi) || decide (other.hi ≥ i.lo)
  else decide (other.lo ≤ i.hi) && decide (other.hi ≥ i.lo)

/-- `interior_intersects`, lines 224-234. -/
def interiorIntersects (i other : Interval K) : Bool :=
  if i.isEmpty π || other.isEmpty π || decide (i.lo = i.hi) then false
  else if i.isInverted then other.isInverted || decide (other.lo < i.hi) || decide (other.hi > i.lo)
  else if other.isInverted then decide (other.lo < i.hi) || decide (other.hi > i.lo)
  else (decide (other.lo < i.hi) && decide (other.hi > i.lo)) || i.isFull π

/-- `union`, lines 237-274. -/
def union (i other : Interval K) : Interval K :=
  if other.isEmpty π then i
  else if i.fastContains π other.lo then
    if i.fastContains π other.hi then
      if i.containsInterval π other then i else full π
    else ⟨i.lo, other.hi⟩
  else if i.fastContains π other.hi then ⟨other.lo, i.hi⟩
  else if i.isEmpty π || other.fastContains π i.lo then other
  else if positiveDistance π fl other.hi i.lo < positiveDistance π fl i.hi other.lo then ⟨other.lo, i.hi⟩
  else ⟨i.lo, other.hi⟩

/-- `intersection`, lines 277-311. -/
def intersection (i other : Interval K) : Interval K :=
  if other.isEmpty π then empty π
  else if i.fastContains π other.lo then
    if i.fastContains π other.hi then
      if other.len π fl < i.len π fl then other else i
    else ⟨other.lo, i.hi⟩
  else if i.fastContains π other.hi then ⟨i.lo, other.hi⟩
  else if other.fastContains π i.lo then i
  else empty π

/-- `expanded`, lines 318-346. `eps` is `DBL_EPSILON`. -/
def expanded (rem : K → K) (eps : K) (i : Interval K) (margin : K) : Interval K :=
  let rest : Unit → Interval K := fun _ =>
    let result := new π (rem (fl (i.lo - margin))) (rem (fl (i.hi + margin)))
    if result.lo ≤ -π then ⟨π, result.hi⟩ else result
  if margin ≥ 0 then
    if i.isEmpty π then i
    else if fl (fl (i.len π fl + 2 * margin) + 2 * eps) ≥ 2 * π then full π
    else rest ()
  else
    if i.isFull π then i
    else if fl (fl (i.len π fl + 2 * margin) - 2 * eps) ≤ 0 then empty π
    else rest ()

/-- `complement`, lines 353-363. -/
def complement (i : Interval K) : Interval K :=
  if i.lo = i.hi then full π else ⟨i.hi, i.lo⟩

/-- `complement_center`, lines 368-376. -/
def complementCenter (i : Interval K) : K :=
  if i.lo ≠ i.hi then (i.complement π).center π fl
  else if i.hi ≤ 0 then fl (i.hi + π)
  else fl (i.hi - π)

/-- `directed_hausdorff_distance`, lines 382-406: the angle in radians. -/
def directedHausdorffDistance (i y : Interval K) : K :=
  if y.containsInterval π i then 0
  else if y.isEmpty π then π
  else
    let c := y.complementCenter π fl
    if i.contains π c then positiveDistance π fl y.hi c
    else
      let hiHi := if (new π y.hi c).contains π i.hi then positiveDistance π fl y.hi i.hi else 0
      let loLo := if (new π c y.lo).contains π i.lo then positiveDistance π fl i.lo y.lo else 0
      max hiHi loLo

/-- `Add<f64>`, lines 440-469. -/
def addPoint (i : Interval K) (p : K) : Interval K :=
  if |p| > π then i
  else
    let p := toPi π p
    if i.fastContains π p then i
    else if i.isEmpty π then ⟨p, p⟩
    else if positiveDistance π fl p i.lo < positiveDistance π fl i.hi p then ⟨p, i.hi⟩
    else ⟨i.lo, p⟩

end Interval
end Verif.S1
