import Verif.Model.Hilbert
import Mathlib.Algebra.Order.Group.Unbundled.Int

/-!
# Specification of squares and of the cube, independent of the model's helpers

A face has `2^30 × 2^30` leaf squares; leaf `(i, j)` has the lattice points `(i, j) .. (i+1, j+1)`
as corners. The six faces are glued to the surface of a cube of side `2·2^30`: lattice point
`(a, b)` of a face has the position `cubePt f a b`. Two lattice points of different faces are the
same point of the sphere exactly when their positions agree.
-/

namespace Verif.Spec

/-- Half the side of the cube, and the number of leaf squares along a face. -/
abbrev side : Int := 1073741824

/-- A point of the cube. -/
structure Pt where
  x : Int
  y : Int
  z : Int
deriving DecidableEq

/-- Position on the cube of lattice point `(a, b)` of face `f` (the face frames of S2). -/
def cubePt (f : Nat) (a b : Int) : Pt :=
  let u := 2 * a - side
  let v := 2 * b - side
  match f with
  | 0 => ⟨side, u, v⟩
  | 1 => ⟨-u, side, v⟩
  | 2 => ⟨-u, -v, side⟩
  | 3 => ⟨-side, -v, -u⟩
  | 4 => ⟨v, -side, -u⟩
  | _ => ⟨v, u, -side⟩

/-- Leaf `l` has coordinates `(f, i, j)`. -/
def LeafAt (l : CellID) (f : Nat) (i j : Int) : Prop := ∃ o, l.faceIJOrientation = some (f, i, j, o)

/-- The leaves in the cell `c` are exactly the leaves of face `f` in the square with lower corner
`(i0, j0)` and side `s`. -/
structure Square (c : CellID) (f : Nat) (i0 j0 s : Int) : Prop where
  face : f < 6
  pos : 0 < s
  i_lo : 0 ≤ i0
  i_hi : i0 + s ≤ side
  j_lo : 0 ≤ j0
  j_hi : j0 + s ≤ side
  leaves : ∀ l g i j, l.isValid = some true → l.level = some 30 → LeafAt l g i j →
    (c.contains l = some true ↔ g = f ∧ i0 ≤ i ∧ i < i0 + s ∧ j0 ≤ j ∧ j < j0 + s)

/-- `P` is a lattice point of the closed square of the cell `c`. -/
def OnCell (c : CellID) (P : Pt) : Prop :=
  ∃ f i0 j0 s a b, Square c f i0 j0 s ∧ 0 ≤ a ∧ a ≤ s ∧ 0 ≤ b ∧ b ≤ s ∧ P = cubePt f (i0 + a) (j0 + b)

/-- `P` is a corner of the cell `c`. -/
def IsCorner (c : CellID) (P : Pt) : Prop :=
  ∃ f i0 j0 s a b, Square c f i0 j0 s ∧ (a = 0 ∨ a = s) ∧ (b = 0 ∨ b = s) ∧
    P = cubePt f (i0 + a) (j0 + b)

/-- `P` is one of the eight vertices of the cube. -/
def CubeVertex (P : Pt) : Prop := |P.x| = side ∧ |P.y| = side ∧ |P.z| = side

/-- The closed squares have a common point. -/
def Touch (c d : CellID) : Prop := ∃ P, OnCell c P ∧ OnCell d P

/-- The cells (of one level) have an edge in common: two different common corners. -/
def ShareEdge (c d : CellID) : Prop :=
  ∃ P Q, P ≠ Q ∧ IsCorner c P ∧ IsCorner c Q ∧ IsCorner d P ∧ IsCorner d Q

end Verif.Spec
