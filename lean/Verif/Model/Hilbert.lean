import Verif.Model.CellID

/-!
# Model of `src/s2/cellid.rs`: the Hilbert curve tables and `(face, i, j)` coordinates

Line numbers refer to `/repo/src/s2/cellid.rs`. `i32` values are `Int` with range checks; bit
operations on them go through `BitVec 32`. Small unsigned intermediate values (table indices and
entries, all below 1024) are `Nat`. A table access out of range is a panic (`none`).
-/

namespace Verif
open Rust

/-- `LOOKUP_BITS`, line 67. -/
def lookupBits : Nat := 4
/-- `SWAP_MASK`, `src/s2/stuv.rs` line 241. -/
def swapMask : Nat := 1
/-- `INVERT_MASK`, line 68. -/
def invertMask : Nat := 2

/-- `IJ_TO_POS`, line 863 (public; not used by the functions below). -/
def ijToPos : List (List Nat) := [[0, 1, 3, 2], [0, 3, 1, 2], [2, 3, 1, 0], [2, 1, 3, 0]]
/-- `POS_TO_IJ`, line 864. -/
def posToIJ : List (List Nat) := [[0, 1, 3, 2], [0, 2, 3, 1], [3, 2, 0, 1], [3, 1, 0, 2]]
/-- `POS_TO_ORIENTATION`, line 865. -/
def posToOrientation : List Nat := [swapMask, 0, 0, invertMask ||| swapMask]

/-- The two lookup tables during construction. -/
structure Tables where
  pos : List Nat
  ij : List Nat
deriving DecidableEq

/-- `tbl[idx] = v` (panics out of range). -/
def setAt (tbl : List Nat) (idx v : Nat) : Option (List Nat) :=
  if idx < tbl.length then some (tbl.set idx v) else none

/-- `init_lookup_cell`, lines 913-945. The argument `rem` is `LOOKUP_BITS - level`. -/
def initLookupCell : Nat → Nat → Nat → Nat → Nat → Nat → Tables → Option Tables
  | 0, i, j, orig, pos, orient, t => do
    let ij := (i <<< lookupBits) + j
    let p ← setAt t.pos ((ij <<< 2) + orig) ((pos <<< 2) + orient)
    let q ← setAt t.ij ((pos <<< 2) + orig) ((ij <<< 2) + orient)
    some ⟨p, q⟩
  | rem + 1, i, j, orig, pos, orient, t => do
    let r ← posToIJ[orient]?
    let visit := fun (idx : Nat) (t : Tables) => do
      let x ← r[idx]?
      let o ← posToOrientation[idx]?
      initLookupCell rem ((i <<< 1) + (x >>> 1)) ((j <<< 1) + (x &&& 1)) orig ((pos <<< 2) + idx)
        (orient ^^^ o) t
    let t ← visit 0 t
    let t ← visit 1 t
    let t ← visit 2 t
    visit 3 t

/-- `LOOKUP_TBL`, lines 868-909. -/
def lookupTbl : Option Tables := do
  let size := 1 <<< (2 * lookupBits + 2)
  let t : Tables := ⟨List.replicate size 0, List.replicate size 0⟩
  let t ← initLookupCell lookupBits 0 0 0 0 0 t
  let t ← initLookupCell lookupBits 0 0 swapMask 0 swapMask t
  let t ← initLookupCell lookupBits 0 0 invertMask 0 invertMask t
  initLookupCell lookupBits 0 0 (swapMask ||| invertMask) 0 (swapMask ||| invertMask) t

/-- `LOOKUP_POS[idx]`, line 907. -/
def lookupPos (idx : Nat) : Option Nat := do
  let t ← lookupTbl
  t.pos[idx]?

/-- `LOOKUP_IJ[idx]`, line 908. -/
def lookupIJ (idx : Nat) : Option Nat := do
  let t ← lookupTbl
  t.ij[idx]?

namespace CellID

/-- `(i >> (k * LOOKUP_BITS)) & mask` on `i32`, lines 136-137. -/
def nibble (i : Int) (k : Nat) : Nat :=
  ((BitVec.ofInt 32 i).sshiftRight (k * lookupBits) &&& 15#32).toNat

/-- The loop of `from_face_ij`, lines 135-146: the iterations `k, .., 0` where the first argument
is `k + 1`; `tbl` is `LOOKUP_POS`. -/
def fromFaceIJLoop (tbl : Nat → Option Nat) (i j : Int) : Nat → U64 → Nat → Option U64
  | 0, n, _ => some n
  | k + 1, n, bits => do
    let b ← tbl (bits + (nibble i k <<< (lookupBits + 2)) + (nibble j k <<< 2))
    let s ← shl (BitVec.ofNat 64 (b >>> 2)) (k * 2 * lookupBits)
    fromFaceIJLoop tbl i j k (n ||| s) (b &&& (swapMask ||| invertMask))

/-- `from_face_ij`, lines 129-148. -/
def fromFaceIJ (f : Nat) (i j : Int) : Option CellID := do
  let n ← shl (BitVec.ofNat 64 f) (posBits - 1)
  let n ← fromFaceIJLoop lookupPos i j 8 n (f &&& swapMask)
  let d ← mul n 2#64
  let x ← add d 1#64
  some ⟨x⟩

/-- The loop of `face_ij_orientation`, lines 262-277: the iterations `k, .., 0` where the first
argument is `k + 1`; `tbl` is `LOOKUP_IJ`. -/
def faceIJLoop (tbl : Nat → Option Nat) (c : CellID) : Nat → Nat → Int → Int → Nat → Option (Int × Int × Nat)
  | 0, _, i, j, o => some (i, j, o)
  | k + 1, nbits, i, j, o => do
    let s ← shr c.id (k * 2 * lookupBits + 1)
    let d := (s &&& (BitVec.ofNat 64 (2 ^ (2 * nbits) - 1))).toNat
    let b ← tbl (o + (d <<< 2))
    let i ← i32 (i + ((b >>> (lookupBits + 2)) <<< (k * lookupBits) : Nat))
    let j ← i32 (j + (((b >>> 2) &&& (2 ^ lookupBits - 1)) <<< (k * lookupBits) : Nat))
    faceIJLoop tbl c k lookupBits i j (b &&& (swapMask ||| invertMask))

/-- `face_ij_orientation`, lines 255-282: face, i, j, orientation. -/
def faceIJOrientation (c : CellID) : Option (Nat × Int × Int × Nat) := do
  let f := c.face
  let (i, j, o) ← faceIJLoop lookupIJ c 8 (maxLevel - 7 * lookupBits) 0 0 (f &&& swapMask)
  let l ← c.lsb
  let o := if l &&& 0x1111111111111110#64 ≠ 0#64 then o ^^^ swapMask else o
  some (f, i, j, o)

/-- `face_siti`, lines 413-423. `(i ^ (self.0 as i32 >> 2)) & 1`: the low bit of `i` against bit 2
of the identifier. -/
def faceSiTi (c : CellID) : Option (Nat × Int × Int) := do
  let (face, i, j, _) ← c.faceIJOrientation
  let delta : Int := if c.isLeaf then 1
    else if ((BitVec.ofInt 32 i) ^^^ ((c.id.setWidth 32).sshiftRight 2)) &&& 1#32 ≠ 0#32 then 2
    else 0
  let si ← i32 (2 * i)
  let si ← i32 (si + delta)
  let ti ← i32 (2 * j)
  let ti ← i32 (ti + delta)
  some (face, si, ti)

/-- `center_face_siti`, lines 673-684 (the same computation on `i64`). -/
def centerFaceSiTi (c : CellID) : Option (Nat × Int × Int) := do
  let (face, i, j, _) ← c.faceIJOrientation
  let delta : Int := if c.isLeaf then 1
    else if ((BitVec.ofInt 64 i) ^^^ (c.id.sshiftRight 2)) &&& 1#64 = 1#64 then 2
    else 0
  let si ← i32 (2 * i)
  let si ← i32 (si + delta)
  let ti ← i32 (2 * j)
  let ti ← i32 (ti + delta)
  some (face, si, ti)

end CellID
end Verif
