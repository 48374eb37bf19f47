import Verif.Rust

/-!
# Model of `src/s2/cellid.rs`: identifier arithmetic

Line numbers refer to `/repo/src/s2/cellid.rs`. Levels and shift amounts (`u64` in Rust) are
`Nat`, with checked subtraction. `none` is a panic (or, for functions with loops, a run that
never returns).
-/

namespace Verif
open Rust

/-- `pub struct CellID(pub u64)`, line 53. -/
structure CellID where
  id : U64
deriving DecidableEq, Repr, Inhabited

/-- `MAX_LEVEL`, line 59. -/
def maxLevel : Nat := 30
/-- `NUM_FACES`, line 58. -/
def numFaces : Nat := 6
/-- `POS_BITS = 2*MAX_LEVEL + 1`, line 60. -/
def posBits : Nat := 2 * maxLevel + 1
/-- `WRAP_OFFSET = NUM_FACES << POS_BITS`, line 62. -/
def wrapOffset : U64 := 6#64 <<< posBits

/-- `lsb_for_level`, lines 70-72. -/
def lsbForLevel (level : Nat) : Option U64 := do
  let d ← natSub maxLevel level
  shl 1#64 (2 * d)

/-- `size_ij`, lines 75-77. -/
def sizeIJ (level : Nat) : Option U64 := do
  let d ← natSub maxLevel level
  shl 1#64 d

namespace CellID

/-- `lsb`, lines 236-238: `self.0 & (-(self.0 as i64) as u64)`. -/
def lsb (c : CellID) : Option U64 := do
  let n ← negI64 c.id
  some (c.id &&& n)

/-- `face`, lines 187-189. The cast to `u8` loses nothing (3 bits). -/
def face (c : CellID) : Nat := (c.id >>> posBits).toNat

/-- `pos`, lines 192-194: `self.0 & (!0u64 >> FACE_BITS)`. -/
def pos (c : CellID) : U64 := c.id &&& ((~~~ 0#64) >>> 3)

/-- `is_valid`, lines 182-184. `&&` is short-circuit: `lsb` is evaluated only if the face is < 6. -/
def isValid (c : CellID) : Option Bool :=
  if c.face < numFaces then do
    let l ← c.lsb
    some (l &&& 0x1555555555555555#64 != 0#64)
  else some false

/-- `level`, lines 197-199: `MAX_LEVEL - (trailing_zeros >> 1)`. -/
def level (c : CellID) : Option Nat := natSub maxLevel (c.id.ctz.toNat >>> 1)

/-- `is_leaf`, lines 203-205. -/
def isLeaf (c : CellID) : Bool := c.id &&& 1#64 != 0#64

/-- `child_position`, lines 212-214. -/
def childPosition (c : CellID) (level : Nat) : Option U64 := do
  let d ← natSub maxLevel level
  let s ← shr c.id (2 * d + 1)
  some (s &&& 3#64)

/-- `parent`, lines 217-220. -/
def parent (c : CellID) (level : Nat) : Option CellID := do
  let lsb ← lsbForLevel level
  let n ← negI64 lsb
  some ⟨(c.id &&& n) ||| lsb⟩

/-- `immediate_parent`, lines 223-226. -/
def immediateParent (c : CellID) : Option CellID := do
  let l ← c.lsb
  let nlsb := l <<< 2
  let n ← negI64 nlsb
  some ⟨(c.id &&& n) ||| nlsb⟩

/-- `is_face`, lines 230-232. -/
def isFace (c : CellID) : Option Bool := do
  let l ← lsbForLevel 0
  let m ← sub l 1#64
  some (c.id &&& m == 0#64)

/-- `from_face_pos_level`, lines 91-93. -/
def fromFacePosLevel (face : U64) (pos : U64) (level : Nat) : Option CellID := do
  let f ← shl face posBits
  let x ← add f (pos ||| 1#64)
  parent ⟨x⟩ level

/-- `from_face`, lines 96-98. -/
def fromFace (face : U64) : Option CellID := do
  let f ← shl face posBits
  let l ← lsbForLevel 0
  let x ← add f l
  some ⟨x⟩

/-- `children`, lines 242-251 (`[CellID; 4]` as a list). -/
def children (c : CellID) : Option (List CellID) := do
  let l ← c.lsb
  let a ← sub c.id l
  let ch0 ← add a (l >>> 2)
  let l := l >>> 1
  let ch1 ← add ch0 l
  let ch2 ← add ch1 l
  let ch3 ← add ch2 l
  some [⟨ch0⟩, ⟨ch1⟩, ⟨ch2⟩, ⟨ch3⟩]

/-- `range_min`, lines 393-395. -/
def rangeMin (c : CellID) : Option CellID := do
  let l ← c.lsb
  let m ← sub l 1#64
  let x ← sub c.id m
  some ⟨x⟩

/-- `range_max`, lines 398-400. -/
def rangeMax (c : CellID) : Option CellID := do
  let l ← c.lsb
  let m ← sub l 1#64
  let x ← add c.id m
  some ⟨x⟩

/-- `contains`, lines 403-405 (derived `PartialOrd` on `CellID(u64)` is unsigned order;
`&&` is short-circuit). -/
def contains (c other : CellID) : Option Bool := do
  let lo ← c.rangeMin
  if lo.id ≤ other.id then do
    let hi ← c.rangeMax
    some (decide (other.id ≤ hi.id))
  else some false

/-- `intersects`, lines 408-410. -/
def intersects (c other : CellID) : Option Bool := do
  let olo ← other.rangeMin
  let hi ← c.rangeMax
  if olo.id ≤ hi.id then do
    let ohi ← other.rangeMax
    let lo ← c.rangeMin
    some (decide (lo.id ≤ ohi.id))
  else some false

/-- `child_begin`, lines 436-439. -/
def childBegin (c : CellID) : Option CellID := do
  let ol ← c.lsb
  let a ← sub c.id ol
  let x ← add a (ol >>> 2)
  some ⟨x⟩

/-- `child_begin_at_level`, lines 444-448. -/
def childBeginAtLevel (c : CellID) (level : Nat) : Option CellID := do
  let own ← c.level
  assert (own ≤ level)
  let l ← c.lsb
  let a ← sub c.id l
  let b ← lsbForLevel level
  let x ← add a b
  some ⟨x⟩

/-- `child_end`, lines 452-455. -/
def childEnd (c : CellID) : Option CellID := do
  let ol ← c.lsb
  let a ← add c.id ol
  let x ← add a (ol >>> 2)
  some ⟨x⟩

/-- `child_end_at_level`, lines 461-465. -/
def childEndAtLevel (c : CellID) (level : Nat) : Option CellID := do
  let own ← c.level
  assert (own ≤ level)
  let l ← c.lsb
  let a ← add c.id l
  let b ← lsbForLevel level
  let x ← add a b
  some ⟨x⟩

/-- `next`, lines 470-472 (`wrapping_add`). -/
def next (c : CellID) : Option CellID := do
  let l ← c.lsb
  some ⟨c.id + (l <<< 1)⟩

/-- `prev`, lines 475-477 (`wrapping_sub`). -/
def prev (c : CellID) : Option CellID := do
  let l ← c.lsb
  some ⟨c.id - (l <<< 1)⟩

/-- `next_wrap`, lines 481-488. -/
def nextWrap (c : CellID) : Option CellID := do
  let n ← c.next
  if n.id < wrapOffset then some n else some ⟨n.id - wrapOffset⟩

/-- `prev_wrap`, lines 492-499. -/
def prevWrap (c : CellID) : Option CellID := do
  let p ← c.prev
  if p.id < wrapOffset then some p else some ⟨p.id + wrapOffset⟩

/-- `advance_wrap`, lines 504-530. `steps : i64` is an `Int`; `as i64` is `BitVec.toInt`. -/
def advanceWrap (c : CellID) (steps : Int) : Option CellID :=
  if steps = 0 then some c else do
    let lv ← c.level
    let d ← natSub maxLevel lv
    let shift := 2 * d + 1
    let steps ←
      (if steps < 0 then do
        let s ← shr c.id shift
        let min ← i64 (-s.toInt)
        if steps < min then do
          let w ← shr wrapOffset shift
          let wrap := w.toInt
          let steps ← i64Rem steps wrap
          if steps < min then i64 (steps + wrap) else some steps
        else some steps
      else do
        let r ← sub wrapOffset c.id
        let m ← shr r shift
        let max := m.toInt
        if steps > max then do
          let w ← shr wrapOffset shift
          let wrap := w.toInt
          let steps ← i64Rem steps wrap
          if steps > max then i64 (steps - wrap) else some steps
        else some steps)
    let s ← shl (BitVec.ofInt 64 steps) shift
    some ⟨c.id + s⟩

/-- `distance_from_begin`, lines 539-541. -/
def distanceFromBegin (c : CellID) : Option Int := do
  let lv ← c.level
  let d ← natSub maxLevel lv
  let s ← shr c.id (2 * d + 1)
  some s.toInt

/-- `find_msb_set_nonzero64`, lines 966-968: `63 - leading_zeros`. -/
def findMsb (bits : U64) : Option Nat := natSub 63 bits.clz.toNat

/-- `common_ancestor_level`, lines 544-560. The outer `Option` is panic, the inner one is
the returned `Option<u64>`. -/
def commonAncestorLevel (c other : CellID) : Option (Option Nat) := do
  let bits := c.id ^^^ other.id
  let l ← c.lsb
  let bits := if bits < l then l else bits
  let ol ← other.lsb
  let bits := if bits < ol then ol else bits
  let msb ← findMsb bits
  if msb > 60 then some none
  else do
    let d ← natSub 60 msb
    some (some (d >>> 1))

/-- `advance`, lines 565-583. `steps << step_shift` on `i64` keeps the low 64 bits. -/
def advance (c : CellID) (steps : Int) : Option CellID :=
  if steps = 0 then some c else do
    let lv ← c.level
    let d ← natSub maxLevel lv
    let shift := 2 * d + 1
    let steps ←
      (if steps < 0 then do
        let s ← shr c.id shift
        let min ← i64 (-s.toInt)
        some (if steps < min then min else steps)
      else do
        let l ← c.lsb
        let a ← add wrapOffset l
        let r ← sub a c.id
        let m ← shr r shift
        some (if steps > m.toInt then m.toInt else steps))
    let s ← shl (BitVec.ofInt 64 steps) shift
    some ⟨c.id + s⟩

/-- The shrinking loop of `max_tile`, lines 647-652. `none` if it panics or never exits. -/
def maxTileShrink (ci limit : CellID) : Option CellID := do
  let ch ← ci.children
  let c0 ← ch.head?
  let hi ← c0.rangeMax
  if hi.id < limit.id then some c0 else maxTileShrink c0 limit
partial_fixpoint

/-- The growing loop of `max_tile`, lines 658-664. -/
def maxTileGrow (ci start limit : CellID) : Option CellID := do
  let f ← ci.isFace
  if f then some ci
  else do
    let par ← ci.immediateParent
    let pmin ← par.rangeMin
    if pmin ≠ start then some ci
    else do
      let pmax ← par.rangeMax
      if limit.id ≤ pmax.id then some ci
      else maxTileGrow par start limit
partial_fixpoint

/-- `max_tile`, lines 636-666. -/
def maxTile (c limit : CellID) : Option CellID := do
  let start ← c.rangeMin
  let lmin ← limit.rangeMin
  if lmin.id ≤ start.id then some limit
  else do
    let hi ← c.rangeMax
    if limit.id ≤ hi.id then maxTileShrink c limit
    else maxTileGrow c start limit

/-- `struct Iter`, lines 827-830. -/
structure Iter where
  cur : CellID
  stop : CellID

/-- `Iter::next`, lines 835-843. -/
def Iter.next (it : Iter) : Option (Option CellID × Iter) :=
  if it.cur = it.stop then some (none, it)
  else do
    let n ← it.cur.next
    some (some it.cur, { it with cur := n })

/-- Draining an `Iter` into a vector (what `for`/`collect` over the iterator does).
`none` if the iteration panics or never ends. -/
def Iter.collect (it : Iter) : Option (List CellID) := do
  let (x, it') ← it.next
  match x with
  | none => some []
  | some c => do
    let rest ← Iter.collect it'
    some (c :: rest)
partial_fixpoint

/-- `child_iter`, lines 847-852. -/
def childIter (c : CellID) : Option Iter := do
  let b ← c.childBegin
  let e ← c.childEnd
  some ⟨b, e⟩

/-- `child_iter_at_level`, lines 854-859. -/
def childIterAtLevel (c : CellID) (level : Nat) : Option Iter := do
  let b ← c.childBeginAtLevel level
  let e ← c.childEndAtLevel level
  some ⟨b, e⟩

end CellID
end Verif
