import Verif.Model.CellID

/-!
# Model of `src/s2/cellunion.rs` and `search_lower_by` of `src/consts.rs`

A `CellUnion(Vec<CellID>)` is the list of its elements. Line numbers refer to
`/repo/src/s2/cellunion.rs` unless another file is named. `none` is a panic (including failed
`debug_assert!`s) or a run that never returns. `average_area`, `approx_area`, `exact_area`,
`cap_bound`, `rect_bound`, `expand_by_radius` (floating point) are not modelled here.
-/

namespace Verif
open Rust

/-- The loop of `search_lower_by`, `src/consts.rs` lines 64-71. The predicate may panic. -/
def searchLoop (f : Nat → Option Bool) (i j : Nat) : Option Nat :=
  if h : i < j then
    (f (i + (j - i) / 2)).bind fun b =>
      if !b then searchLoop f (i + (j - i) / 2 + 1) j else searchLoop f i (i + (j - i) / 2)
  else some i
termination_by j - i
decreasing_by all_goals omega

/-- `search_lower_by`, `src/consts.rs` lines 57-73. -/
def searchLowerBy (len : Nat) (f : Nat → Option Bool) : Option Nat := searchLoop f 0 len

/-- `Vec::is_sorted` on `[CellID]` (derived order of `CellID(u64)`). -/
def isSorted : List CellID → Bool
  | [] => true
  | [_] => true
  | a :: b :: rest => decide (a.id ≤ b.id) && isSorted (b :: rest)

namespace CellUnion

/-- The loop of `from_range`, lines 48-52. -/
def fromRangeLoop (cur stop : CellID) : Option (List CellID) :=
  if cur = stop then some []
  else do
    let n ← cur.next
    let cur' ← n.maxTile stop
    let rest ← fromRangeLoop cur' stop
    some (cur :: rest)
partial_fixpoint

/-- `from_range`, lines 46-54. -/
def fromRange (start stop : CellID) : Option (List CellID) := do
  let cur ← start.maxTile stop
  fromRangeLoop cur stop

/-- `whole_sphere`, lines 57-66. -/
def wholeSphere : Option (List CellID) := do
  let f0 ← CellID.fromFace 0#64
  let f1 ← CellID.fromFace 1#64
  let f2 ← CellID.fromFace 2#64
  let f3 ← CellID.fromFace 3#64
  let f4 ← CellID.fromFace 4#64
  let f5 ← CellID.fromFace 5#64
  some [f0, f1, f2, f3, f4, f5]

/-- The `while let` loop of `normalize`, lines 91-93. `output` is kept last element first. -/
def popContained : List CellID → CellID → Option (List CellID)
  | [], _ => some []
  | last :: rest, ci => do
    let b ← ci.contains last
    if b then popContained rest ci else some (last :: rest)

/-- The mask `!(mask + (mask << 1))` with `mask = lsb << 1`, lines 111-112 and 494-495. -/
def siblingMask (ci : CellID) : Option U64 := do
  let l ← ci.lsb
  let mask := l <<< 1
  let s ← add mask (mask <<< 1)
  some (~~~ s)

/-- The `while output.len() >= 3` loop of `normalize` and the final push, lines 98-129.
`output` is kept last element first. -/
def collapse (output : List CellID) (ci : CellID) : Option (List CellID) :=
  match output with
  | fin2 :: fin1 :: fin0 :: rest =>
    if fin0.id ^^^ fin1.id ^^^ fin2.id ^^^ ci.id ≠ 0#64 then some (ci :: output)
    else do
      let mask ← siblingMask ci
      let should := ci.id &&& mask
      if fin0.id &&& mask ≠ should ∨ fin1.id &&& mask ≠ should ∨ fin2.id &&& mask ≠ should then
        some (ci :: output)
      else do
        let isf ← ci.isFace
        if isf then some (ci :: output)
        else do
          let par ← ci.immediateParent
          collapse rest par
  | _ => some (ci :: output)

/-- The body of the `for` loop of `normalize`, lines 74-130. -/
def normalizeStep (output : List CellID) (ci : CellID) : Option (List CellID) := do
  let skip ← (match output with
    | [] => some false
    | last :: _ => last.contains ci)
  if skip then some output
  else do
    let output ← popContained output ci
    collapse output ci

/-- The `for` loop of `normalize`, lines 74-130. -/
def normalizeLoop (output : List CellID) : List CellID → Option (List CellID)
  | [] => some output
  | ci :: rest => do
    let output ← normalizeStep output ci
    normalizeLoop output rest

/-- `normalize`, lines 69-135: the new content of the vector. `v.sort()` is `List.mergeSort`
with the order of `CellID(u64)`. -/
def normalize (v : List CellID) : Option (List CellID) := do
  let out ← normalizeLoop [] (v.mergeSort (fun a b => decide (a.id ≤ b.id)))
  some out.reverse

/-- `intersects_cellid`, lines 139-147. -/
def intersectsCellID (v : List CellID) (c : CellID) : Option Bool := do
  let i ← searchLowerBy v.length (fun i => (v[i]?).map fun x => decide (c.id < x.id))
  let first ← (if i ≠ v.length then do
      let x ← v[i]?
      let lo ← x.rangeMin
      let hi ← c.rangeMax
      some (decide (lo.id ≤ hi.id))
    else some false)
  if first then some true
  else if i ≠ 0 then do
    let x ← v[i - 1]?
    let hi ← x.rangeMax
    let lo ← c.rangeMin
    some (decide (lo.id ≤ hi.id))
  else some false

/-- `contains_cellid`, lines 153-161. -/
def containsCellID (v : List CellID) (c : CellID) : Option Bool := do
  let i ← searchLowerBy v.length (fun i => (v[i]?).map fun x => decide (c.id < x.id))
  let first ← (if i ≠ v.length then do
      let x ← v[i]?
      let lo ← x.rangeMin
      some (decide (lo.id ≤ c.id))
    else some false)
  if first then some true
  else if i ≠ 0 then do
    let x ← v[i - 1]?
    let hi ← x.rangeMax
    some (decide (c.id ≤ hi.id))
  else some false

/-- The level computation of `denormalize`, lines 171-181. -/
def denormLevel (level minLevel levelMod : Nat) : Option Nat := do
  let nl := if level < minLevel then minLevel else level
  if levelMod > 1 then do
    let d ← natSub nl minLevel
    let e ← natSub maxLevel d
    let nl := nl + e % levelMod
    some (if nl > maxLevel then maxLevel else nl)
  else some nl

/-- `denormalize`, lines 168-192: the new content of the vector. -/
def denormalize (v : List CellID) (minLevel levelMod : Nat) : Option (List CellID) :=
  match v with
  | [] => some []
  | c :: rest => do
    let level ← c.level
    let nl ← denormLevel level minLevel levelMod
    let here ← (if nl = level then some [c] else do
      let it ← c.childIterAtLevel nl
      it.collect)
    let more ← denormalize rest minLevel levelMod
    some (here ++ more)

/-- `leaf_cell_covered`, lines 196-202, starting from the sum `acc`. -/
def leafCellCoveredFrom (acc : U64) : List CellID → Option U64
  | [] => some acc
  | c :: rest => do
    let lv ← c.level
    let d ← natSub maxLevel lv
    let n ← shl 1#64 (d <<< 1)
    let acc ← add acc n
    leafCellCoveredFrom acc rest

/-- `leaf_cell_covered`, lines 196-202. -/
def leafCellCovered (v : List CellID) : Option U64 := leafCellCoveredFrom 0#64 v

/-- The loop of `is_valid`, lines 206-213; `prev` is `self.0[i - 1]` if `i > 0`. -/
def isValidLoop (prev : Option CellID) : List CellID → Option Bool
  | [] => some true
  | c :: rest => do
    let v ← c.isValid
    if !v then some false
    else do
      let bad ← (match prev with
        | none => some false
        | some p => do
          let hi ← p.rangeMax
          let lo ← c.rangeMin
          some (decide (lo.id ≤ hi.id)))
      if bad then some false else isValidLoop (some c) rest

/-- `is_valid`, lines 205-215. -/
def isValid (v : List CellID) : Option Bool := isValidLoop none v

/-- `are_siblings`, lines 483-501. -/
def areSiblings (a b c d : CellID) : Option Bool :=
  if a.id ^^^ b.id ^^^ c.id ≠ d.id then some false
  else do
    let mask ← siblingMask d
    let m := d.id &&& mask
    if a.id &&& mask = m ∧ b.id &&& mask = m ∧ c.id &&& mask = m then do
      let f ← d.isFace
      some (!f)
    else some false

/-- The overlap test against the previous element, lines 223-225; `seen` holds the earlier
elements, last first. -/
def overlapsPrev : List CellID → CellID → Option Bool
  | [], _ => some false
  | p :: _, c => do
    let hi ← p.rangeMax
    let lo ← c.rangeMin
    some (decide (lo.id ≤ hi.id))

/-- The sibling test against the three previous elements, lines 226-228. -/
def siblingsPrev : List CellID → CellID → Option Bool
  | p1 :: p2 :: p3 :: _, c => areSiblings p3 p2 p1 c
  | _, _ => some false

/-- The loop of `is_normalized`, lines 219-229; `seen` holds the earlier elements, last first. -/
def isNormalizedLoop (seen : List CellID) : List CellID → Option Bool
  | [] => some true
  | c :: rest => do
    let v ← c.isValid
    if !v then some false
    else do
      let bad ← overlapsPrev seen c
      if bad then some false
      else do
        let sib ← siblingsPrev seen c
        if sib then some false else isNormalizedLoop (c :: seen) rest

/-- `is_normalized`, lines 218-231. -/
def isNormalized (v : List CellID) : Option Bool := isNormalizedLoop [] v

/-- `debug_assert!(out.is_normalized() || !a.is_normalized() || ..)`, lines 302, 314, 326, 343:
`ins` are the inputs. -/
def assertNormalized (out : List CellID) (ins : List (List CellID)) : Option Unit := do
  let o ← isNormalized out
  if o then some () else go ins
where
  go : List (List CellID) → Option Unit
    | [] => none
    | x :: rest => do
      let b ← isNormalized x
      if b then go rest else some ()

/-- `merge`, lines 234-242. -/
def merge (us : List (List CellID)) : Option (List CellID) := normalize us.flatten

/-- `union`, lines 245-247. -/
def union (a b : List CellID) : Option (List CellID) := merge [a, b]

/-- `lower_bound_cellids`, lines 474-481. -/
def lowerBound (cells : List CellID) (first last : Nat) (c : CellID) : Option Nat :=
  if h : first < last then
    (cells[first]?).bind fun x =>
      if c.id ≤ x.id then some first else lowerBound cells (first + 1) last c
  else some last
termination_by last - first

/-- The `while` loop of `intersection`, lines 267-299: what is pushed from state `(i, j)` on. -/
def intersectionLoop (x y : List CellID) (i j : Nat) : Option (List CellID) :=
  if i < x.length ∧ j < y.length then do
    let xi ← x[i]?
    let yj ← y[j]?
    let imin ← xi.rangeMin
    let jmin ← yj.rangeMin
    if jmin.id < imin.id then do
      let hi ← yj.rangeMax
      if xi.id ≤ hi.id then do
        let rest ← intersectionLoop x y (i + 1) j
        some (xi :: rest)
      else do
        let j' ← lowerBound y (j + 1) y.length imin
        let jm ← natSub j' 1
        let yp ← y[jm]?
        let hp ← yp.rangeMax
        intersectionLoop x y i (if xi.id ≤ hp.id then jm else j')
    else if imin.id < jmin.id then do
      let hi ← xi.rangeMax
      if yj.id ≤ hi.id then do
        let rest ← intersectionLoop x y i (j + 1)
        some (yj :: rest)
      else do
        let i' ← lowerBound x (i + 1) x.length jmin
        let im ← natSub i' 1
        let xp ← x[im]?
        let hp ← xp.rangeMax
        intersectionLoop x y (if yj.id ≤ hp.id then im else i') j
    else if xi.id < yj.id then do
      let rest ← intersectionLoop x y (i + 1) j
      some (xi :: rest)
    else do
      let rest ← intersectionLoop x y i (j + 1)
      some (yj :: rest)
  else some []
partial_fixpoint

/-- `intersection`, lines 258-304, with its debug assertions. -/
def intersection (a b : List CellID) : Option (List CellID) := do
  assert (isSorted a)
  assert (isSorted b)
  let cu ← intersectionLoop a b 0 0
  assert (isSorted cu)
  assertNormalized cu [a, b]
  some cu

/-- The loop of `intersection_with_cell_id`, lines 321-324. -/
def takeUpTo (hi : CellID) : List CellID → List CellID
  | [] => []
  | c :: rest => if c.id ≤ hi.id then c :: takeUpTo hi rest else []

/-- `intersection_with_cell_id`, lines 310-328. -/
def intersectionWithCellID (x : List CellID) (c : CellID) : Option (List CellID) := do
  let v ← c.isValid
  assert v
  let b ← containsCellID x c
  if b then do
    assertNormalized [c] [x]
    some [c]
  else do
    let hi ← c.rangeMax
    let lo ← c.rangeMin
    let start ← lowerBound x 0 x.length lo
    let cu := takeUpTo hi (x.drop start)
    assertNormalized cu [x]
    some cu

/-- `cell_union_difference_internal`, lines 503-523: the cells pushed for `c`. -/
def differenceInternal (c : CellID) (other : List CellID) : Option (List CellID) := do
  let b ← intersectsCellID other c
  if !b then some [c]
  else do
    let b ← containsCellID other c
    if !b then do
      let ch0 ← c.childBegin
      let r0 ← differenceInternal ch0 other
      let ch1 ← ch0.next
      let r1 ← differenceInternal ch1 other
      let ch2 ← ch1.next
      let r2 ← differenceInternal ch2 other
      let ch3 ← ch2.next
      let r3 ← differenceInternal ch3 other
      some (r0 ++ (r1 ++ (r2 ++ r3)))
    else some []
partial_fixpoint

/-- The `for` loop of `difference`, lines 339-341. -/
def differenceLoop (other : List CellID) : List CellID → Option (List CellID)
  | [] => some []
  | c :: rest => do
    let r ← differenceInternal c other
    let rs ← differenceLoop other rest
    some (r ++ rs)

/-- `difference`, lines 335-345. -/
def difference (x y : List CellID) : Option (List CellID) := do
  let cu ← differenceLoop y x
  assertNormalized cu [x]
  some cu

/-- `contains_cell_union`, lines 348-350 (`Iterator::all` stops at the first `false`). -/
def containsCellUnion (v : List CellID) : List CellID → Option Bool
  | [] => some true
  | c :: rest => do
    let b ← containsCellID v c
    if b then containsCellUnion v rest else some false

/-- `intersects_cell_union`, lines 353-355 (`Iterator::any` over `self`). -/
def intersectsCellUnion (v other : List CellID) : Option Bool :=
  match v with
  | [] => some false
  | c :: rest => do
    let b ← intersectsCellID other c
    if b then some true else intersectsCellUnion rest other

end CellUnion
end Verif
