import Verif.Model.Cell
import Verif.Model.LatLng

/-!
# Model of the conversions between `CellID` and `LatLng` in `/repo/src/s2/cellid.rs`

`fl`, `sqrt`, `sin`, `cos`, `atan2` as in `Verif/Model/LatLng.lean`.
-/

namespace Verif.CellID
variable {K : Type} [Field K] [LinearOrder K] (fl sqrt sin cos : K → K) (atan2 : K → K → K)

/-- `From<&CellID> for LatLng`, cellid.rs lines 795-799. -/
def toLatLng (c : CellID) : Option (S2.LatLng K) := do
  let p ← c.toPoint fl sqrt
  some (S2.LatLng.ofPoint fl sqrt atan2 p)

/-- `From<&LatLng> for CellID`, cellid.rs lines 806-811. -/
def fromLatLng [FloorRing K] (ll : S2.LatLng K) : Option CellID := fromPoint fl sqrt (S2.LatLng.toPoint fl sin cos ll)

end Verif.CellID
