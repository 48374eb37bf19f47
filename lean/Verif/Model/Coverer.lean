import Verif.Model.CellUnion
import Verif.Model.Consts

/-!
# Model of `src/s2/region.rs`: `RegionCoverer`

Line numbers refer to `/repo/src/s2/region.rs`. `none` is a panic (overflow checks on) or a run that never
returns.

* A region is given by its answers: two Boolean functions and the vector of `cell_union_bound`. Nothing is
  assumed about them. A `Cell` is made from a `CellID` by `Cell::from` and is determined by it, so the
  callbacks take the `CellID`.
* `BinaryHeap::pop` (line 355) is an arbitrary choice: the `n`-th pop returns the element with index
  `pick n` (modulo the length). The theorems hold for every `pick`, so for every order of the heap,
  including the order by priority.
* `u8` values are natural numbers; additions and products are checked. `usize` has 64 bits.
-/

namespace Verif
open Rust

/-- `struct RegionCoverer`, lines 124-133. -/
structure RegionCoverer where
  minLevel : Nat
  maxLevel : Nat
  levelMod : Nat
  maxCells : Nat

/-- The methods of `trait Region` (lines 34-63) that the coverer calls. -/
structure Region where
  intersectsCell : CellID → Bool
  containsCell : CellID → Bool
  cellUnionBound : List CellID

/-- `struct Candidate`, lines 148-153. -/
structure Candidate where
  cell : CellID
  terminal : Bool
  children : List Candidate
  priority : Int

/-- The fields `result` and `pq` of `struct Coverer`, lines 135-144. -/
structure CovererState where
  result : List CellID
  pq : List Candidate

namespace RegionCoverer

/-- The range check of `u8` arithmetic. -/
def u8 (n : Nat) : Option Nat := if n < 256 then some n else none

/-- The range check of `usize` arithmetic. -/
def usize (n : Nat) : Option Nat := if n < 2 ^ 64 then some n else none

/-- `a << s` on `usize`. -/
def usizeShl (a s : Nat) : Option Nat := if s < 64 then some ((a <<< s) % 2 ^ 64) else none

/-- `x as isize` for `x: usize`. -/
def asIsize (x : Nat) : Int := if x < 2 ^ 63 then x else x - 2 ^ 64

/-- `new_candidate`, lines 178-206. The outer `Option` is panic, the inner one the result. -/
def newCandidate (rc : RegionCoverer) (r : Region) (interior : Bool) (cell : CellID) : Option (Option Candidate) :=
  if !r.intersectsCell cell then some none
  else do
    let level ← cell.level
    if level ≥ rc.minLevel then
      if interior then
        if r.containsCell cell then some (some ⟨cell, true, [], 0⟩)
        else do
          let s ← u8 (level + rc.levelMod)
          if s > rc.maxLevel then some none else some (some ⟨cell, false, [], 0⟩)
      else do
        let s ← u8 (level + rc.levelMod)
        some (some ⟨cell, decide (s > rc.maxLevel) || r.containsCell cell, [], 0⟩)
    else some (some ⟨cell, false, [], 0⟩)

/-- The `for` loop of `expand_children`, lines 213-229; `f` is its body. The results are the candidates pushed and
the number of terminal ones. -/
def expandList (f : CellID → Option (List Candidate × Nat)) : List CellID → Option (List Candidate × Nat)
  | [] => some ([], 0)
  | c :: cs => do
    let (a, m) ← f c
    let (b, n) ← expandList f cs
    some (a ++ b, m + n)

/-- Lines 223-228 of `expand_children`: the candidate for a child at the last level. -/
def pushChild (rc : RegionCoverer) (r : Region) (interior : Bool) (c : CellID) : Option (List Candidate × Nat) := do
  match ← rc.newCandidate r interior c with
  | none => some ([], 0)
  | some child => some ([child], if child.terminal then 1 else 0)

/-- `expand_children`, lines 210-230: the candidates pushed and the return value. -/
def expandChildren (rc : RegionCoverer) (r : Region) (interior : Bool) (cell : CellID) (numLevels : Int) :
    Option (List Candidate × Nat) := do
  let it ← cell.childIter
  let cs ← it.collect
  expandList (fun c =>
    if numLevels - 1 > 0 then
      if r.intersectsCell c then expandChildren rc r interior c (numLevels - 1) else some ([], 0)
    else rc.pushChild r interior c) cs
termination_by numLevels.toNat
decreasing_by omega

/-- The priority of a candidate, lines 274-276. -/
def priority (level nChildren numTerminals shift : Nat) : Option Int := do
  let a ← usizeShl level shift
  let b ← usize (a + nChildren)
  let c ← usizeShl b shift
  let d ← usize (c + numTerminals)
  i64 (-(asIsize d))

/-- `add_candidate`, lines 235-279. The call of itself on a terminal candidate (line 263) is a push. -/
def addCandidate (rc : RegionCoverer) (r : Region) (interior : Bool) (st : CovererState) (cand : Candidate) :
    Option CovererState :=
  if cand.terminal then some { st with result := st.result ++ [cand.cell] }
  else do
    let level ← cand.cell.level
    let numLevels := if level < rc.minLevel then 1 else rc.levelMod
    let (cs, numTerminals) ← rc.expandChildren r interior cand.cell numLevels
    let shift ← u8 (rc.levelMod * 2)
    let children := cand.children ++ cs
    if children.isEmpty then some st
    else do
      let full ← (if interior then some false else do
        let n ← usizeShl 1 shift
        some (decide (numTerminals = n) && decide (level ≥ rc.minLevel)))
      if full then some { st with result := st.result ++ [cand.cell] }
      else do
        let p ← priority level children.length numTerminals shift
        some { st with pq := st.pq ++ [{ cand with children := children, priority := p }] }

/-- `adjust_level`, lines 488-494. -/
def adjustLevel (rc : RegionCoverer) (level : Nat) : Nat :=
  if rc.levelMod > 1 ∧ level > rc.minLevel then level - (level - rc.minLevel) % rc.levelMod else level

/-- `ci` or its ancestor at level `newLevel`, lines 294-298 and 510-512. -/
def replaceLevel (ci : CellID) (level newLevel : Nat) : Option CellID :=
  if newLevel ≠ level then ci.parent newLevel else some ci

/-- The `for` loop of `adjust_cell_levels`, lines 291-313. `out` is kept last element first. -/
def adjustLoop (rc : RegionCoverer) (out : List CellID) : List CellID → Option (List CellID)
  | [] => some out
  | ci :: rest => do
    let level ← ci.level
    let cur ← replaceLevel ci level (rc.adjustLevel level)
    match out with
    | [] => adjustLoop rc [cur] rest
    | last :: out' => do
      let b ← last.contains cur
      if b then adjustLoop rc out rest
      else do
        let p ← cur.contains last
        if p then adjustLoop rc (cur :: out') rest else adjustLoop rc (cur :: out) rest

/-- `adjust_cell_levels`, lines 285-316. -/
def adjustCellLevels (rc : RegionCoverer) (cells : List CellID) : Option (List CellID) :=
  if rc.levelMod = 1 then some cells
  else do
    let out ← adjustLoop rc [] cells
    some out.reverse

/-- Lines 506-514 of `normalize_covering`: the levels of the input are reduced. -/
def adjustAll (rc : RegionCoverer) : List CellID → Option (List CellID)
  | [] => some []
  | ci :: rest => do
    let level ← ci.level
    let c ← replaceLevel ci level (rc.adjustLevel (min level rc.maxLevel))
    let cs ← adjustAll rc rest
    some (c :: cs)

/-- The `for` loop of `normalize_covering`, lines 525-533, from index `i` on: `best_level` and `best_index`. -/
def bestPair (rc : RegionCoverer) (i : Nat) (bestLevel bestIndex : Int) : List CellID → Option (Int × Int)
  | a :: b :: rest => do
    match ← a.commonAncestorLevel b with
    | none => bestPair rc (i + 1) bestLevel bestIndex (b :: rest)
    | some l =>
      if (rc.adjustLevel l : Int) > bestLevel then bestPair rc (i + 1) (rc.adjustLevel l) i (b :: rest)
      else bestPair rc (i + 1) bestLevel bestIndex (b :: rest)
  | _ => some (bestLevel, bestIndex)

/-- The `while` loop of `normalize_covering`, lines 519-542. (`v.len() - 1` cannot underflow, because
`v.len() > max_cells`.) -/
def mergeLoop (rc : RegionCoverer) (v : List CellID) : Option (List CellID) :=
  if v.length > rc.maxCells then do
    let (bestLevel, bestIndex) ← bestPair rc 0 (-1) (-1) v
    if bestLevel < rc.minLevel then some v
    else do
      let x ← v[bestIndex.toNat]?
      let p ← x.parent bestLevel.toNat
      let v' ← CellUnion.normalize (v.set bestIndex.toNat p)
      mergeLoop rc v'
  else some v
partial_fixpoint

/-- `normalize_covering`, lines 504-549. -/
def normalizeCovering (rc : RegionCoverer) (v : List CellID) : Option (List CellID) := do
  let v ← (if rc.maxLevel < Verif.maxLevel ∨ rc.levelMod > 1 then adjustAll rc v else some v)
  let v ← CellUnion.normalize v
  let v ← mergeLoop rc v
  if rc.minLevel > 0 ∨ rc.levelMod > 1 then CellUnion.denormalize v rc.minLevel rc.levelMod else some v

/-- `fast_covering`, lines 475-482. -/
def fastCovering (rc : RegionCoverer) (r : Region) : Option (List CellID) :=
  rc.normalizeCovering r.cellUnionBound

/-- The `for` loop of `initial_candidates`, lines 331-335. -/
def addInitial (rc : RegionCoverer) (r : Region) (interior : Bool) (st : CovererState) :
    List CellID → Option CovererState
  | [] => some st
  | ci :: rest => do
    match ← rc.newCandidate r interior ci with
    | none => addInitial rc r interior st rest
    | some cand => do
      let st ← rc.addCandidate r interior st cand
      addInitial rc r interior st rest

/-- `initial_candidates`, lines 319-336, on the empty state. -/
def initialCandidates (rc : RegionCoverer) (r : Region) (interior : Bool) : Option CovererState := do
  let temp : RegionCoverer := ⟨0, rc.maxLevel, 1, min rc.maxCells 4⟩
  let cells ← temp.fastCovering r
  let v ← rc.adjustCellLevels cells
  rc.addInitial r interior ⟨[], []⟩ v

/-- The `for` loop of `covering_internal`, lines 374-378. -/
def addChildren (rc : RegionCoverer) (r : Region) (interior : Bool) (st : CovererState) :
    List Candidate → Option CovererState
  | [] => some st
  | child :: rest =>
    if !interior || decide (st.result.length < rc.maxCells) then do
      let st ← rc.addCandidate r interior st child
      addChildren rc r interior st rest
    else addChildren rc r interior st rest

/-- The `while` loop of `covering_internal`, lines 355-383; `n` counts the pops. -/
def coverLoop (rc : RegionCoverer) (r : Region) (interior : Bool) (pick : Nat → Nat) (n : Nat) (st : CovererState) :
    Option (List CellID) :=
  if st.pq.isEmpty then some st.result
  else do
    let cand ← st.pq[pick n % st.pq.length]?
    let pq := st.pq.eraseIdx (pick n % st.pq.length)
    if !(!interior || decide (st.result.length < rc.maxCells)) then some st.result
    else do
      let level ← cand.cell.level
      if interior || decide (level < rc.minLevel) || decide (cand.children.length = 1) ||
          decide (st.result.length + pq.length + cand.children.length ≤ rc.maxCells) then do
        let st ← rc.addChildren r interior ⟨st.result, pq⟩ cand.children
        coverLoop rc r interior pick (n + 1) st
      else do
        let st ← rc.addCandidate r interior ⟨st.result, pq⟩ { cand with terminal := true }
        coverLoop rc r interior pick (n + 1) st
partial_fixpoint

/-- `covering_internal`, lines 352-386: the field `result` afterwards. -/
def coveringInternal (rc : RegionCoverer) (r : Region) (interior : Bool) (pick : Nat → Nat) : Option (List CellID) := do
  let st ← rc.initialCandidates r interior
  rc.coverLoop r interior pick 0 st

/-- `cellunion` (lines 438-447) for `interior = false` and `interior_cellunion` (lines 455-465) for
`interior = true`. -/
def cellUnion (rc : RegionCoverer) (r : Region) (interior : Bool) (pick : Nat → Nat) : Option (List CellID) := do
  let res ← rc.coveringInternal r interior pick
  CellUnion.normalize res

/-- `covering`, lines 406-416. -/
def covering (rc : RegionCoverer) (r : Region) (pick : Nat → Nat) : Option (List CellID) := do
  let cu ← rc.cellUnion r false pick
  CellUnion.denormalize cu (clamp rc.minLevel 0 Verif.maxLevel) (clamp rc.levelMod 1 3)

/-- `interior_covering`, lines 420-430. -/
def interiorCovering (rc : RegionCoverer) (r : Region) (pick : Nat → Nat) : Option (List CellID) := do
  let cu ← rc.cellUnion r true pick
  CellUnion.denormalize cu (clamp rc.minLevel 0 Verif.maxLevel) (clamp rc.levelMod 1 3)

end RegionCoverer
end Verif
