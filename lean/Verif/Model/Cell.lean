import Verif.Model.Neighbors
import Verif.Model.Vector
import Verif.Model.R2

/-!
# Model of the conversions between points and cells (`/repo/src/s2/cellid.rs`) and of `/repo/src/s2/cell.rs`

`fl` and `sqrt` as in `Verif/Model/Vector.lean`. The bounds of a `Cell` are in `Verif/Model/CellBound.lean`, its areas
in `Verif/Model/Area.lean`.
-/

namespace Verif
open Rust
variable {K : Type} [Field K] [LinearOrder K]

/-- `x as u64` for an `i32`. -/
def i32ToU64 (x : Int) : Nat := (BitVec.ofInt 64 x).toNat

/-- `ij_to_stmin`, cellid.rs lines 746-748. -/
def ijToSTMin (fl : K → K) (i : Int) : K := fl ((i : K) / 2 ^ 30)

/-- `ij_level_to_bound_uv`, cellid.rs lines 949-964. -/
def ijLevelToBoundUV (fl : K → K) (i j : Int) (level : Nat) : Option (R2.Rect K) := do
  let size ← sizeI32 level
  let neg ← i32 (-size)
  let xlo := ((BitVec.ofInt 32 i) &&& (BitVec.ofInt 32 neg)).toInt
  let ylo := ((BitVec.ofInt 32 j) &&& (BitVec.ofInt 32 neg)).toInt
  let xhi ← i32 (xlo + size)
  let yhi ← i32 (ylo + size)
  some ⟨⟨stToUV fl (ijToSTMin fl xlo), stToUV fl (ijToSTMin fl xhi)⟩, ⟨stToUV fl (ijToSTMin fl ylo), stToUV fl (ijToSTMin fl yhi)⟩⟩

namespace CellID

/-- `From<&Point> for CellID`, cellid.rs lines 813-820. -/
def fromPoint [FloorRing K] (fl sqrt : K → K) (p : Vec K) : Option CellID := do
  let (f, u, v) ← xyzToFaceUV fl p
  fromFaceIJ f (stToIJ fl (uvToST fl sqrt u)) (stToIJ fl (uvToST fl sqrt v))

/-- `raw_point`, cellid.rs lines 426-433. -/
def rawPoint (fl : K → K) (c : CellID) : Option (Vec K) := do
  let (f, si, ti) ← c.faceSiTi
  faceUVtoXYZ f (stToUV fl (sitiToST fl (i32ToU64 si))) (stToUV fl (sitiToST fl (i32ToU64 ti)))

/-- `From<&CellID> for Point`, cellid.rs lines 784-786. -/
def toPoint (fl sqrt : K → K) (c : CellID) : Option (Vec K) := do
  let r ← c.rawPoint fl
  some (r.normalize fl sqrt)

/-- `center_uv`, cellid.rs lines 611-617. -/
def centerUV (fl : K → K) (c : CellID) : Option (R2.Point K) := do
  let (_, si, ti) ← c.faceSiTi
  some ⟨stToUV fl (sitiToST fl (i32ToU64 si)), stToUV fl (sitiToST fl (i32ToU64 ti))⟩

/-- `bound_uv`, cellid.rs lines 620-623. -/
def boundUV (fl : K → K) (c : CellID) : Option (R2.Rect K) := do
  let (_, i, j, _) ← c.faceIJOrientation
  let l ← c.level
  ijLevelToBoundUV fl i j l

end CellID

/-- `Cell`, cell.rs lines 42-48. -/
structure Cell (K : Type) where
  face : Nat
  level : Nat
  orientation : Nat
  id : CellID
  uv : R2.Rect K

namespace Cell

/-- `From<&CellID> for Cell`, cell.rs lines 50-62. -/
def fromCellID (fl : K → K) (id : CellID) : Option (Cell K) := do
  let (f, i, j, o) ← id.faceIJOrientation
  assert (f < 6)
  let level ← id.level
  let uv ← ijLevelToBoundUV fl i j level
  some ⟨f, level % 256, o, id, uv⟩

/-- `From<&Point> for Cell`, cell.rs lines 71-73. -/
def fromPoint [FloorRing K] (fl sqrt : K → K) (p : Vec K) : Option (Cell K) := do
  let id ← CellID.fromPoint fl sqrt p
  fromCellID fl id

/-- `is_leaf`, cell.rs lines 112-114. -/
def isLeaf (c : Cell K) : Bool := c.level == maxLevel

/-- `vertex`, cell.rs lines 122-125. -/
def vertex (fl sqrt : K → K) (c : Cell K) (k : Nat) : Option (Vec K) := do
  let v ← c.uv.vertices[k]?
  let r ← faceUVtoXYZ c.face v.x v.y
  some (r.normalize fl sqrt)

/-- `edge`, cell.rs lines 139-147. -/
def edge (fl sqrt : K → K) (c : Cell K) (k : Nat) : Option (Vec K) :=
  match k with
  | 0 => do let n ← vnorm c.face c.uv.y.lo; some (n.normalize fl sqrt)
  | 1 => do let n ← unorm c.face c.uv.x.hi; some (n.normalize fl sqrt)
  | 2 => do let n ← vnorm c.face c.uv.y.hi; some ((n.scale fl (-1)).normalize fl sqrt)
  | 3 => do let n ← unorm c.face c.uv.x.lo; some ((n.scale fl (-1)).normalize fl sqrt)
  | _ => none

/-- `center`, cell.rs lines 158-160. -/
def center (fl sqrt : K → K) (c : Cell K) : Option (Vec K) := c.id.toPoint fl sqrt

/-- The body of the loop of `children`, cell.rs lines 177-204, for one position. -/
def childAt (c : Cell K) (mid : R2.Point K) (cid : CellID) (pos : Nat) : Option (Cell K) := do
  let po ← posToOrientation[pos]?
  let row ← posToIJ[c.orientation]?
  let ij ← row[pos]?
  some ⟨c.face, c.level + 1, c.orientation ^^^ po, cid,
    ⟨if ij >>> 1 = 1 then ⟨mid.x, c.uv.x.hi⟩ else ⟨c.uv.x.lo, mid.x⟩, if ij &&& 1 = 1 then ⟨mid.y, c.uv.y.hi⟩ else ⟨c.uv.y.lo, mid.y⟩⟩⟩

/-- The loop of `children`, cell.rs lines 176-206: positions `pos, .., 3` with `n` iterations left. -/
def childLoop (c : Cell K) (mid : R2.Point K) : Nat → Nat → CellID → Option (List (Cell K))
  | 0, _, _ => some []
  | n + 1, pos, cid => do
    let d ← childAt c mid cid pos
    let nx ← cid.next
    let rest ← childLoop c mid n (pos + 1) nx
    some (d :: rest)

/-- `children`, cell.rs lines 166-210; the inner `none` is `None`. -/
def children (fl : K → K) (c : Cell K) : Option (Option (List (Cell K))) :=
  if c.isLeaf then some none
  else do
    let mid ← c.id.centerUV fl
    let cid ← c.id.childBegin
    let l ← childLoop c mid 4 0 cid
    some (some l)

/-- `contains_point`, cell.rs lines 392-407; `eps` is `DBL_EPSILON`. -/
def containsPoint (fl : K → K) (eps : K) (c : Cell K) (p : Vec K) : Option Bool := do
  let r ← faceXYZtoUV fl c.face p
  match r with
  | some (u, v) => some ((c.uv.expandedByMargin fl eps).containsPoint ⟨u, v⟩)
  | none => some false

/-- `intersects_cell`, cell.rs lines 428-430. -/
def intersectsCell (c d : Cell K) : Option Bool := c.id.intersects d.id

/-- `contains_cell`, cell.rs lines 433-435. -/
def containsCell (c d : Cell K) : Option Bool := c.id.contains d.id

end Cell
end Verif
