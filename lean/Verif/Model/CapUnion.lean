import Verif.Model.Cap
import Verif.Model.Neighbors
import Verif.Model.Coverer

/-!
# Model of `Cap::cell_union_bound`, `/repo/src/s2/cap.rs` lines 341-357

`sqrt2` is the constant `SQRT_2`, `flq` the rounding inside `vertex_neighbors`.
-/

namespace Verif
open Rust
variable {K : Type} [Field K] [LinearOrder K] [IsStrictOrderedRing K] [FloorRing K]

/-- `MIN_WIDTHMETRIC`, metric.rs line 76. -/
def minWidthMetric (fl : K → K) (sqrt2 : K) : S2.Metric K := ⟨1, fl (fl (2 * sqrt2) / 3)⟩

/-- `Cap::radius`, cap.rs lines 172-174, with the conversion of chordangle.rs lines 93-104. -/
def Cap.angle (fl sqrt asin : K → K) (c : Cap K) : K := if c.radius < 0 then -1 else ChordAngle.toRad fl sqrt asin c.radius

/-- `cell_union_bound`, cap.rs lines 341-356. -/
def Cap.cellUnionBound (fl sqrt asin : K → K) (sqrt2 : K) (flq : ℚ → ℚ) (c : Cap K) : Option (List CellID) := do
  let level ← (minWidthMetric fl sqrt2).maxLevel fl (c.angle fl sqrt asin)
  if level = 0 then [0#64, 1#64, 2#64, 3#64, 4#64, 5#64].mapM CellID.fromFace
  else do
    let ci ← CellID.fromPoint fl sqrt c.center
    let l ← natSub level 1
    ci.vertexNeighbors flq l

/-- A cap as the `Region` of a coverer, cap.rs lines 259-357: the coverer turns an identifier into a cell with `Cell::from`
(region.rs lines 214 and 332) and asks the cap (lines 179, 193, 199 and 216). `xs` is the result of `cell_union_bound`. A panic in a test is written as `false`; C97
shows that there is none. -/
def Cap.region (fl sqrt : K → K) (eps : K) (c : Cap K) (xs : List CellID) : Region where
  intersectsCell id := ((Cell.fromCellID fl id).bind (c.intersectsCell fl sqrt eps)) == some true
  containsCell id := ((Cell.fromCellID fl id).bind (c.containsCell fl sqrt eps)) == some true
  cellUnionBound := xs

end Verif
