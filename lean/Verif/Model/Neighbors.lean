import Verif.Model.Hilbert
import Verif.Model.Stuv

/-!
# Model of `src/s2/cellid.rs`: neighbours

Line numbers refer to `/repo/src/s2/cellid.rs`. `fl` is the rounding function of `f64`, see
`Verif/Model/Float.lean`. `i32` values are `Int` with range checks.
-/

namespace Verif
open Rust

/-- `MAX_SIZE_I32`, line 64. -/
def maxSize : Int := 2 ^ 30

/-- `st_to_ij`, lines 751-753. -/
def stToIJ {K : Type} [Field K] [LinearOrder K] [FloorRing K] (fl : K → K) (s : K) : Int :=
  clamp (f64ToI32 ⌊fl (2 ^ 30 * s)⌋) 0 (maxSize - 1)

/-- `size_ij(level) as i32`. -/
def sizeI32 (level : Nat) : Option Int := do
  let s ← sizeIJ level
  some (s.setWidth 32).toInt

namespace CellID

/-- The `u` (or `v`) coordinate computed in `from_face_ij_wrap`, lines 111-120:
`clamp(SCALE * (2. * f64::from(i) + 1. - MAX_SIZE_F64), -LIMIT, LIMIT)`. -/
def wrapU (fl : ℚ → ℚ) (i : Int) : ℚ :=
  clamp (fl (1 / 2 ^ 30 * fl (fl (fl (2 * (i : ℚ)) + 1) - 2 ^ 30))) (-(1 + 1 / 2 ^ 52)) (1 + 1 / 2 ^ 52)

/-- `from_face_ij_wrap`, lines 101-126. -/
def fromFaceIJWrap (fl : ℚ → ℚ) (face : Nat) (i j : Int) : Option CellID := do
  let i := clamp i (-1) maxSize
  let j := clamp j (-1) maxSize
  let u := wrapU fl i
  let v := wrapU fl j
  let r ← faceUVtoXYZ face u v
  let (f, u, v) ← xyzToFaceUV fl r
  fromFaceIJ f (stToIJ fl (fl (1 / 2 * fl (u + 1)))) (stToIJ fl (fl (1 / 2 * fl (v + 1))))

/-- `from_face_ij_same`, lines 150-156. -/
def fromFaceIJSame (fl : ℚ → ℚ) (f : Nat) (i j : Int) (sameFace : Bool) : Option CellID :=
  if sameFace then fromFaceIJ f i j else fromFaceIJWrap fl f i j

/-- `edge_neighbors`, lines 287-298. -/
def edgeNeighbors (fl : ℚ → ℚ) (c : CellID) : Option (List CellID) := do
  let level ← c.level
  let size ← sizeI32 level
  let (f, i, j, _) ← c.faceIJOrientation
  let jm ← i32 (j - size)
  let a ← fromFaceIJWrap fl f i jm
  let a ← a.parent level
  let ip ← i32 (i + size)
  let b ← fromFaceIJWrap fl f ip j
  let b ← b.parent level
  let jp ← i32 (j + size)
  let d ← fromFaceIJWrap fl f i jp
  let d ← d.parent level
  let im ← i32 (i - size)
  let e ← fromFaceIJWrap fl f im j
  let e ← e.parent level
  some [a, b, d, e]

/-- The choice of the offset in `vertex_neighbors`, lines 308-317: `(same, offset)`. -/
def vertexOffset (i halfSize size : Int) : Option (Bool × Int) :=
  if (BitVec.ofInt 32 i) &&& (BitVec.ofInt 32 halfSize) ≠ 0#32 then do
    let x ← i32 (i + size)
    some (decide (x < maxSize), size)
  else do
    let x ← i32 (i - size)
    let m ← i32 (-size)
    some (decide (x ≥ 0), m)

/-- `vertex_neighbors`, lines 303-330. -/
def vertexNeighbors (fl : ℚ → ℚ) (c : CellID) (level : Nat) : Option (List CellID) := do
  let halfSize ← sizeI32 (level + 1)
  let size := ((BitVec.ofInt 32 halfSize) <<< 1).toInt
  let (f, i, j, _) ← c.faceIJOrientation
  let (isame, ioffset) ← vertexOffset i halfSize size
  let (jsame, joffset) ← vertexOffset j halfSize size
  let r0 ← c.parent level
  let i' ← i32 (i + ioffset)
  let r1 ← fromFaceIJSame fl f i' j isame
  let r1 ← r1.parent level
  let j' ← i32 (j + joffset)
  let r2 ← fromFaceIJSame fl f i j' jsame
  let r2 ← r2.parent level
  if isame || jsame then do
    let r3 ← fromFaceIJSame fl f i' j' (isame && jsame)
    let r3 ← r3.parent level
    some [r0, r1, r2, r3]
  else some [r0, r1, r2]

/-- Two pushes of `all_neighbors`, lines 356-363, for `0 <= k < size`. -/
def allNeighborsMid (fl : ℚ → ℚ) (face : Nat) (i j size nbrSize : Int) (level : Nat) (k : Int) :
    Option (List CellID) := do
  let x ← i32 (i + k)
  let y ← i32 (j - nbrSize)
  let t ← i32 (j - size)
  let a ← fromFaceIJSame fl face x y (decide (t ≥ 0))
  let a ← a.parent level
  let y ← i32 (j + size)
  let b ← fromFaceIJSame fl face x y (decide (y < maxSize))
  let b ← b.parent level
  some [a, b]

/-- The two last pushes of `all_neighbors`, lines 367-380. -/
def allNeighborsSides (fl : ℚ → ℚ) (face : Nat) (i j size nbrSize : Int) (level : Nat) (k : Int)
    (sameFace : Bool) : Option (List CellID) := do
  let x ← i32 (i - nbrSize)
  let y ← i32 (j + k)
  let t ← i32 (i - size)
  let a ← fromFaceIJSame fl face x y (sameFace && decide (t ≥ 0))
  let a ← a.parent level
  let x ← i32 (i + size)
  let b ← fromFaceIJSame fl face x y (sameFace && decide (x < maxSize))
  let b ← b.parent level
  some [a, b]

/-- The loop of `all_neighbors`, lines 350-386. (The evaluation of `i - size >= 0` in Rust is skipped
if `same_face` is false; the subtraction cannot overflow either way.) -/
def allNeighborsLoop (fl : ℚ → ℚ) (face : Nat) (i j size nbrSize : Int) (level : Nat) (k : Int) :
    Option (List CellID) := do
  let y ← i32 (j + k)
  let mid ← if k < 0 then some [] else if k ≥ size then some []
    else allNeighborsMid fl face i j size nbrSize level k
  let sameFace := if k < 0 then decide (y ≥ 0) else if k ≥ size then decide (y < maxSize) else true
  let sides ← allNeighborsSides fl face i j size nbrSize level k sameFace
  if k ≥ size then some (mid ++ sides)
  else do
    let k' ← i32 (k + nbrSize)
    let rest ← allNeighborsLoop fl face i j size nbrSize level k'
    some (mid ++ sides ++ rest)
partial_fixpoint

/-- `all_neighbors`, lines 340-390. -/
def allNeighbors (fl : ℚ → ℚ) (c : CellID) (level : Nat) : Option (List CellID) := do
  let (face, i, j, _) ← c.faceIJOrientation
  let l ← c.level
  let size ← sizeI32 l
  let neg ← i32 (-size)
  let i := ((BitVec.ofInt 32 i) &&& (BitVec.ofInt 32 neg)).toInt
  let j := ((BitVec.ofInt 32 j) &&& (BitVec.ofInt 32 neg)).toInt
  let nbrSize ← sizeI32 level
  let k ← i32 (-nbrSize)
  allNeighborsLoop fl face i j size nbrSize level k

end CellID
end Verif
