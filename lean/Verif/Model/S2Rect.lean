import Verif.Model.R1
import Verif.Model.S1

/-!
# Model of `/repo/src/s2/rect.rs` and of the coordinate part of `/repo/src/s2/latlng.rs`

An `Angle` is its number of radians (`Angle::from(Rad(x)).rad()` is `x`, `/repo/src/s1/angle.rs` lines 58 and 79-81). As in
`Model/S1.lean`, `π` is the `PI` constant, `fl` the rounding, `rem` the IEEE remainder of a division by `2 * PI`, and
`PI / 2.` is exact.

Not modelled: everything that needs trigonometric functions (`area`, `centroid`, distances, `cap_bound`, cells, points).
-/

namespace Verif.S2
variable {K : Type} [Field K] [LinearOrder K] (π : K) (fl : K → K)

/-- `LatLng`, latlng.rs lines 11-16. -/
structure LatLng (K : Type) where
  lat : K
  lng : K

namespace LatLng

/-- `is_valid`, latlng.rs lines 43-45. -/
def isValid (ll : LatLng K) : Bool := decide (|ll.lat| ≤ π / 2) && decide (|ll.lng| ≤ π)

/-- `normalized`, latlng.rs lines 47-60. -/
def normalized (rem : K → K) (ll : LatLng K) : LatLng K :=
  ⟨if ll.lat > π / 2 then π / 2 else if ll.lat < -(π / 2) then -(π / 2) else ll.lat, rem ll.lng⟩

end LatLng

/-- `Rect`, lines 12-17. -/
structure Rect (K : Type) where
  lat : R1.Interval K
  lng : S1.Interval K

namespace Rect

/-- `VALID_RECT_LAT_RANGE`, lines 25-28. -/
def validLat : R1.Interval K := ⟨-π / 2, π / 2⟩

/-- `empty`, lines 48-53. -/
def empty : Rect K := ⟨R1.Interval.empty, S1.Interval.empty π⟩

/-- `full`, lines 55-60. -/
def full : Rect K := ⟨validLat π, S1.Interval.full π⟩

/-- `from_point_pair`, lines 86-91. -/
def fromPointPair (p q : LatLng K) : Rect K :=
  ⟨R1.Interval.fromPointPair p.lat q.lat, S1.Interval.fromPointPair π fl p.lng q.lng⟩

/-- `is_valid`, lines 93-98. -/
def isValid (r : Rect K) : Bool :=
  decide (|r.lat.lo| ≤ π / 2) && decide (r.lat.hi ≤ π / 2) && r.lng.isValid π
    && (r.lat.isEmpty == r.lng.isEmpty π)

/-- `is_empty`, lines 100-102. -/
def isEmpty (r : Rect K) : Bool := r.lat.isEmpty

/-- `is_full`, lines 104-106. -/
def isFull (r : Rect K) : Bool := r.lat.eq (validLat π) && r.lng.isFull π

/-- `is_point`, lines 108-110. -/
def isPoint (r : Rect K) : Bool := decide (r.lat.lo = r.lat.hi) && decide (r.lng.lo = r.lng.hi)

/-- `is_inverted`, lines 114-116. -/
def isInverted (r : Rect K) : Bool := r.lng.isInverted

/-- `vertex`, lines 122-134. -/
def vertex (r : Rect K) (i : Nat) : LatLng K :=
  match i % 4 with
  | 0 => ⟨r.lat.lo, r.lng.lo⟩
  | 1 => ⟨r.lat.lo, r.lng.hi⟩
  | 2 => ⟨r.lat.hi, r.lng.hi⟩
  | _ => ⟨r.lat.hi, r.lng.lo⟩

/-- `lo`, lines 136-138. -/
def lo (r : Rect K) : LatLng K := r.vertex 0

/-- `hi`, lines 140-142. -/
def hi (r : Rect K) : LatLng K := r.vertex 2

/-- `center`, lines 144-149. -/
def center (r : Rect K) : LatLng K := ⟨r.lat.center fl, r.lng.center π fl⟩

/-- `size`, lines 151-156. -/
def size (r : Rect K) : LatLng K := ⟨r.lat.len fl, r.lng.len π fl⟩

/-- `expanded`, lines 167-179. `eps` is `DBL_EPSILON`. -/
def expanded (rem : K → K) (eps : K) (r : Rect K) (margin : LatLng K) : Rect K :=
  let lat := r.lat.expanded fl margin.lat
  let lng := r.lng.expanded π fl rem eps margin.lng
  if lat.isEmpty || lng.isEmpty π then empty π
  else ⟨lat.intersection (validLat π), lng⟩

/-- `polar_closure`, lines 181-190. -/
def polarClosure (r : Rect K) : Rect K :=
  if r.lat.lo = -π / 2 ∨ r.lat.hi = π / 2 then ⟨r.lat, S1.Interval.full π⟩ else r

/-- `union`, lines 192-197. -/
def union (r other : Rect K) : Rect K := ⟨r.lat.union other.lat, r.lng.union π fl other.lng⟩

/-- `intersection`, lines 199-208. -/
def intersection (r other : Rect K) : Rect K :=
  let lat := r.lat.intersection other.lat
  let lng := r.lng.intersection π fl other.lng
  if lat.isEmpty || lng.isEmpty π then empty π else ⟨lat, lng⟩

/-- `intersects`, lines 210-212. -/
def intersects (r other : Rect K) : Bool := r.lat.intersects other.lat && r.lng.intersects π other.lng

/-- `interior_intersects`, lines 241-243. -/
def interiorIntersects (r other : Rect K) : Bool :=
  r.lat.interiorIntersects other.lat && r.lng.interiorIntersects π other.lng

/-- `Add<&LatLng>`, lines 450-462. -/
def add (r : Rect K) (ll : LatLng K) : Rect K :=
  if !ll.isValid π then r else ⟨r.lat.addPoint ll.lat, r.lng.addPoint π fl ll.lng⟩

/-- `From<LatLng>`, lines 470-480. -/
def from_ (ll : LatLng K) : Rect K := ⟨R1.Interval.fromPoint ll.lat, ⟨ll.lng, ll.lng⟩⟩

/-- `from_center_size`, lines 62-68. (Multiplication by 0.5 is exact.) -/
def fromCenterSize (rem : K → K) (eps : K) (center size : LatLng K) : Rect K :=
  expanded π fl rem eps (from_ center) ⟨size.lat / 2, size.lng / 2⟩

/-- `contains`, lines 693-695. -/
def contains (r other : Rect K) : Bool := r.lat.containsInterval other.lat && r.lng.containsInterval π other.lng

/-- `contains_latlng`, lines 698-700. -/
def containsLatLng (r : Rect K) (ll : LatLng K) : Bool := ll.isValid π && r.lat.contains ll.lat && r.lng.contains π ll.lng

/-- `interior_contains`, lines 710-713. -/
def interiorContains (r other : Rect K) : Bool :=
  r.lat.interiorContainsInterval other.lat && r.lng.interiorContainsInterval π other.lng

/-- `interior_contains_latlng`, lines 718-720. -/
def interiorContainsLatLng (r : Rect K) (ll : LatLng K) : Bool := r.lat.interiorContains ll.lat && r.lng.interiorContains π ll.lng

end Rect
end Verif.S2
