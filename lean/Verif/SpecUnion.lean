import Verif.Spec
import Verif.Model.CellID

/-!
# Specification of cell unions, independent of the modelled operations

Only the data type `CellID` (a 64-bit number) is taken from the model.
-/

namespace Verif.Spec

/-- Every number in the list is the number of a cell. -/
def AllCells (v : List CellID) : Prop := ∀ c ∈ v, ∃ k p, IsCell k p ∧ c.id.toNat = cellNum k p

/-- Leaf `q` is covered by the list. -/
def Covers (v : List CellID) (q : Nat) : Prop := ∃ c ∈ v, HasLeaf c.id.toNat q

/-- Earlier elements lie entirely before later ones. -/
def Ordered (v : List CellID) : Prop :=
  v.Pairwise fun a b => ∀ q r, HasLeaf a.id.toNat q → HasLeaf b.id.toNat r → q < r

/-- No four elements are the four children of one cell. -/
def NoSiblings (v : List CellID) : Prop :=
  ¬ ∃ k p, IsCell k p ∧ k < 30 ∧ ∀ i, i < 4 → ∃ c ∈ v, c.id.toNat = cellNum (k + 1) (4 * p + i)

/-- Valid, sorted and non-overlapping. -/
def IsUnion (v : List CellID) : Prop := AllCells v ∧ Ordered v

/-- Valid, sorted, non-overlapping and without four siblings. -/
def Normal (v : List CellID) : Prop := IsUnion v ∧ NoSiblings v

end Verif.Spec
