import Verif.Model.Expand
import Verif.Model.CapUnion

/-!
# Model of `CellUnion::expand_by_radius`

Line numbers refer to `/repo/src/s2/cellunion.rs`. `fl` is the rounding of the comparisons with the metric, `flq` that inside `all_neighbors`.
-/

namespace Verif.CellUnion
open Rust

/-- The least level of the cells, lines 386-389. -/
def leastLevel : List CellID → Nat → Option Nat
  | [], m => some m
  | c :: cs, m => do
    let l ← c.level
    leastLevel cs (min m l)

/-- The sum of line 394 with its overflow check. -/
def addU64 (a b : Nat) : Option Nat := if a + b < 2 ^ 64 then some (a + b) else none

variable {K : Type} [Field K] [LinearOrder K] [IsStrictOrderedRing K] [FloorRing K]

/-- `expand_by_radius`, lines 385-395: the new content. -/
def expandByRadius (fl : K → K) (sqrt2 : K) (flq : ℚ → ℚ) (v : List CellID) (minRadius : K) (maxLevelDiff : Nat) : Option (List CellID) := do
  let minLevel ← leastLevel v maxLevel
  let radiusLevel ← (minWidthMetric fl sqrt2).maxLevel fl minRadius
  let v ← (if radiusLevel = 0 ∧ minRadius > (minWidthMetric fl sqrt2).value 0 then expandAtLevel flq v 0 else some v)
  let s ← addU64 minLevel maxLevelDiff
  expandAtLevel flq v (min s radiusLevel)

end Verif.CellUnion
