import Verif.Model.CapUnion
import Verif.Model.CellBound
import Verif.Model.Area
import Verif.Model.RectRegion

/-!
# Models of cell unions, cells and points as regions, and of the areas of a cell union

Line numbers refer to `/repo/src/s2/cellunion.rs` unless another file is named. Parameters as in the models of caps and cells.
-/

namespace Verif
variable {K : Type} [Field K] [LinearOrder K]

namespace CellUnion

/-- The loop of lines 428-431: the sum of the centres, weighted by the average areas. -/
def centroidSum (fl sqrt : K → K) (pi : K) : List CellID → Vec K → Option (Vec K)
  | [], s => some s
  | ci :: cs, s => do
    let l ← ci.level
    let p ← ci.toPoint fl sqrt
    centroidSum fl sqrt pi cs (Vec.add fl s (Vec.scale fl p ((Cell.avgAreaMetric fl pi).value l)))

/-- The loop of lines 444-446. -/
def addCaps (fl sqrt : K → K) : List CellID → Cap K → Option (Cap K)
  | [], cap => some cap
  | ci :: cs, cap => do
    let c ← Cell.fromCellID fl ci
    let b ← c.capBound fl sqrt
    addCaps fl sqrt cs (cap.addCap fl sqrt b)

/-- `cap_bound`, lines 415-448. -/
def capBound (fl sqrt : K → K) (pi : K) (v : List CellID) : Option (Cap K) :=
  if v.isEmpty then some Cap.empty
  else do
    let s ← centroidSum fl sqrt pi v ⟨0, 0, 0⟩
    let c := if s.x = 0 ∧ s.y = 0 ∧ s.z = 0 then Vec.fromCoords fl sqrt 1 0 0 else s.normalize fl sqrt
    addCaps fl sqrt v (Cap.ofPoint c)

/-- The loop of `rect_bound`, lines 453-455. `Cell::from(c).rect_bound()` is the method of `Cell`, not that of the trait. -/
def addRects (π : K) (fl sqrt asin : K → K) (atan2 : K → K → K) (rem : K → K) (eps : K) : List CellID → S2.Rect K → Option (S2.Rect K)
  | [], b => some b
  | ci :: cs, b => do
    let c ← Cell.fromCellID fl ci
    let r ← c.rectBound π fl sqrt asin atan2 rem eps
    addRects π fl sqrt asin atan2 rem eps cs (b.union π fl r)

/-- `rect_bound`, lines 451-457. -/
def rectBound (π : K) (fl sqrt asin : K → K) (atan2 : K → K → K) (rem : K → K) (eps : K) (v : List CellID) : Option (S2.Rect K) :=
  addRects π fl sqrt asin atan2 rem eps v (S2.Rect.empty π)

/-- A cell union as the `Region` of a coverer, lines 460-471: a panic in a test is written as `false`; C29 and C30 show that there is none for valid cells. `xs` is the
result of `cell_union_bound`. -/
def region (v xs : List CellID) : Region where
  intersectsCell id := intersectsCellID v id == some true
  containsCell id := containsCellID v id == some true
  cellUnionBound := xs

/-- `average_area`, lines 398-400; `AVG_AREAMETRIC.value(MAX_LEVEL)` has a power of two as a factor. -/
def averageArea (fl : K → K) (pi : K) (v : List CellID) : Option K := do
  let n ← leafCellCovered v
  some (fl ((Cell.avgAreaMetric fl pi).value maxLevel * fl (n.toNat : K)))

/-- The sum of an iterator of `f64`, as in lines 404 and 409. -/
def sumOf (fl : K → K) (f : CellID → Option K) : List CellID → K → Option K
  | [], s => some s
  | ci :: cs, s => do
    let a ← f ci
    sumOf fl f cs (fl (s + a))

/-- `approx_area`, lines 403-405. -/
def approxArea (fl sqrt : K → K) (pi : K) (v : List CellID) : Option K :=
  sumOf fl (fun ci => (Cell.fromCellID fl ci).bind fun c => c.approxArea fl sqrt pi) v 0

/-- `exact_area`, lines 408-410. -/
def exactArea (fl sqrt : K → K) (atan2 : K → K → K) (tan atan : K → K) (v : List CellID) : Option K :=
  sumOf fl (fun ci => (Cell.fromCellID fl ci).bind fun c => c.exactArea fl sqrt atan2 tan atan) v 0

end CellUnion

/-- A cell as the `Region` of a coverer, cell.rs lines 428-435. -/
def Cell.region (c : CellID) (xs : List CellID) : Region where
  intersectsCell id := c.intersects id == some true
  containsCell id := c.contains id == some true
  cellUnionBound := xs

/-- A point as the `Region` of a coverer, point.rs lines 431-438. -/
def Vec.region (fl : K → K) (eps : K) (p : Vec K) (xs : List CellID) : Region where
  intersectsCell id := ((Cell.fromCellID fl id).bind fun c => c.containsPoint fl eps p) == some true
  containsCell _ := false
  cellUnionBound := xs

/-- A rectangle as the `Region` of a coverer, rect.rs lines 488-618 and the default `cell_union_bound` of region.rs lines 58-60. -/
def S2.Rect.region (π : K) (fl sqrt sin cos asin : K → K) (atan2 : K → K → K) (rem : K → K) (eps : K) (r : S2.Rect K) (xs : List CellID) : Region where
  intersectsCell id := ((Cell.fromCellID fl id).bind fun c => r.intersectsCell π fl sqrt sin cos asin atan2 rem eps c) == some true
  containsCell id := ((Cell.fromCellID fl id).bind fun c => r.containsCell π fl sqrt asin atan2 rem eps c) == some true
  cellUnionBound := xs

end Verif
