import Verif.Model.S2Rect
import Verif.Model.Vector

/-!
# Model of the trigonometric part of `/repo/src/s2/latlng.rs`

`fl` is the rounding after each operation; `sqrt`, `sin`, `cos`, `atan2` are the library functions, also followed by a rounding. Zero
has no sign here.
-/

namespace Verif.S2.LatLng
variable {K : Type} [Field K] [LinearOrder K] (fl sqrt sin cos : K → K) (atan2 : K → K → K)

/-- `distance`, latlng.rs lines 62-68. -/
def distance (a b : LatLng K) : K :=
  let dlat := fl (sin (fl (1 / 2 * fl (b.lat - a.lat))))
  let dlng := fl (sin (fl (1 / 2 * fl (b.lng - a.lng))))
  let x := fl (fl (dlat * dlat) + fl (fl (fl (dlng * dlng) * fl (cos a.lat)) * fl (cos b.lat)))
  fl (2 * fl (atan2 (fl (sqrt x)) (fl (sqrt (max (fl (1 - x)) 0)))))

/-- `Point::latitude`, latlng.rs lines 72-76. -/
def latitude (v : Vec K) : K := fl (atan2 v.z (fl (sqrt (fl (fl (v.x * v.x) + fl (v.y * v.y))))))

/-- `Point::longitude`, latlng.rs lines 78-81. -/
def longitude (v : Vec K) : K := fl (atan2 v.y v.x)

/-- `From<&LatLng> for Point`, latlng.rs lines 85-96. -/
def toPoint (ll : LatLng K) : Vec K :=
  let c := fl (cos ll.lat)
  ⟨fl (fl (cos ll.lng) * c), fl (fl (sin ll.lng) * c), fl (sin ll.lat)⟩

/-- `From<&Point> for LatLng`, latlng.rs lines 103-110. -/
def ofPoint (v : Vec K) : LatLng K := ⟨latitude fl sqrt atan2 v, longitude fl atan2 v⟩

end Verif.S2.LatLng
