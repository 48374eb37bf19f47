import Verif.Model.CellUnion
import Verif.Model.Neighbors

/-!
# Model of `CellUnion::expand_at_level`

Line numbers refer to `/repo/src/s2/cellunion.rs`.
-/

namespace Verif.CellUnion
open Rust

/-- The outer loop of `expand_at_level`, lines 366-378. The elements still to be visited are kept
last element first. The inner loop (lines 372-374) drops the elements at the end that `id` contains, as
`popContained` does. -/
def expandLoop (fl : ℚ → ℚ) (level : Nat) (levelLsb : U64) (todo : List CellID) : Option (List CellID) :=
  match todo with
  | [] => some []
  | id :: rest => do
    let l ← id.lsb
    let (id, rest) ← (if l < levelLsb then do
        let id ← id.parent level
        let rest ← popContained rest id
        some (id, rest)
      else some (id, rest))
    let ns ← id.allNeighbors fl level
    let out ← expandLoop fl level levelLsb rest
    some (id :: ns ++ out)
partial_fixpoint

/-- `expand_at_level`, lines 363-381: the new content. -/
def expandAtLevel (fl : ℚ → ℚ) (v : List CellID) (level : Nat) : Option (List CellID) := do
  let levelLsb ← lsbForLevel level
  let out ← expandLoop fl level levelLsb v.reverse
  normalize out

end Verif.CellUnion
