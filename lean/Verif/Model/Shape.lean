import Verif.Model.R2

/-!
# Model of `/repo/src/s2/shape.rs`

The orders of `Edge` and `ShapeEdgeID`, and the two provided methods of the trait `Shape`, which depend on the numbers of edges and chains
and on the dimension only.
-/

namespace Verif.Shape

/-- `Edge`, shape.rs lines 20-23. -/
structure Edge (K : Type) where
  v0 : R2.Point K
  v1 : R2.Point K

/-- `Ord::cmp` for `Edge`, shape.rs lines 27-36. -/
def Edge.cmp {K : Type} [LinearOrder K] (e o : Edge K) : Ordering :=
  let v0cmp := e.v0.cmp o.v0
  if v0cmp ≠ .eq then v0cmp else e.v0.cmp o.v1

/-- `PartialEq::eq` for `Edge`, shape.rs lines 44-48. -/
def Edge.eq {K : Type} [LinearOrder K] (e o : Edge K) : Bool := decide (e.cmp o = .eq)

/-- `ShapeEdgeID`, shape.rs lines 56-60. -/
structure ShapeEdgeID where
  shapeId : Int
  edgeId : Int

/-- `Ord::cmp` for `i32`. -/
def cmpInt (a b : Int) : Ordering := if a < b then .lt else if a = b then .eq else .gt

/-- `Ord::cmp` for `ShapeEdgeID`, shape.rs lines 67-73; `then` keeps the first comparison unless it is `Equal`. -/
def ShapeEdgeID.cmp (a b : ShapeEdgeID) : Ordering :=
  match cmpInt a.shapeId b.shapeId with
  | .eq => cmpInt a.edgeId b.edgeId
  | o => o

/-- `Shape::is_empty`, shape.rs lines 225-227. -/
def isEmpty (numEdges numChains dimension : Int) : Bool := decide (numEdges = 0) && (decide (dimension ≠ 2) || decide (numChains = 0))

/-- `Shape::is_full`, shape.rs lines 230-232. -/
def isFull (numEdges numChains dimension : Int) : Bool := decide (numEdges = 0) && decide (dimension = 2) && decide (numChains > 0)

end Verif.Shape
