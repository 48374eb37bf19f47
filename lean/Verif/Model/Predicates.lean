import Verif.Model.Vector

/-!
# Model of `/repo/src/s2/predicates.rs` and of `ordered_ccw` (`/repo/src/s2/point.rs`)

`fl` is the rounding after each operation, `sqrt` the exact square root (also followed by a rounding). Negation is exact.
-/

namespace Verif.Predicates
variable {K : Type} [Field K] [LinearOrder K] (fl sqrt : K → K)

/-- `Direction`, predicates.rs lines 58-64. -/
inductive Direction where
  | clockwise
  | indeterminate
  | counterClockwise
deriving DecidableEq

/-- `DBL_EPSILON`, consts.rs line 11 (a rounded decimal). -/
def dblEpsilon : K := fl (2220446049250313 / 10 ^ 31)

/-- `MAX_DETERMINANT_ERROR`, predicates.rs line 46. -/
def maxDeterminantError : K := fl (fl (18274 / 10000) * dblEpsilon fl)

/-- `DET_ERROR_MULTIPLIER`, predicates.rs line 56. -/
def detErrorMultiplier : K := fl (fl (32321 / 10000) * dblEpsilon fl)

/-- `sign`, predicates.rs lines 75-87. -/
def sign (a b c : Vec K) : Bool := decide (Vec.dot fl (Vec.cross fl c a) b > 0)

/-- The comparison of a determinant with its error bound: the end of `stable_sign` (predicates.rs lines 163-169) and of
`triage_sign` (lines 180-186). -/
def ofDet (det err : K) : Direction :=
  if det > err then .counterClockwise else if det < -err then .clockwise else .indeterminate

/-- The choice of two edges and a vertex in `stable_sign`, predicates.rs lines 147-156. -/
def stableEdges (a b c : Vec K) : Vec K × Vec K × Vec K :=
  let ab := Vec.sub fl b a
  let ab2 := Vec.norm2 fl ab
  let bc := Vec.sub fl c b
  let bc2 := Vec.norm2 fl bc
  let ca := Vec.sub fl a c
  let ca2 := Vec.norm2 fl ca
  if ab2 ≥ bc2 ∧ ab2 ≥ ca2 then (ca, bc, c)
  else if bc2 ≥ ca2 then (ab, ca, a)
  else (bc, ab, b)

/-- `stable_sign`, predicates.rs lines 134-170. -/
def stableSign (a b c : Vec K) : Direction :=
  let (e1, e2, op) := stableEdges fl a b c
  ofDet (-Vec.dot fl (Vec.cross fl e1 e2) op)
    (fl (detErrorMultiplier fl * fl (sqrt (fl (Vec.norm2 fl e1 * Vec.norm2 fl e2)))))

/-- `triage_sign`, predicates.rs lines 178-187. -/
def triageSign (a b c : Vec K) : Direction := ofDet (Vec.dot fl (Vec.cross fl a b) c) (maxDeterminantError fl)

/-- `exact_sign`, predicates.rs lines 216-224. -/
def exactSign (_ _ _ : Vec K) (_ : Bool) : Direction := .indeterminate

/-- `expensive_sign`, predicates.rs lines 192-213. -/
def expensiveSign (a b c : Vec K) : Direction :=
  if a = b ∨ b = c ∨ c = a then .indeterminate
  else if stableSign fl sqrt a b c ≠ .indeterminate then stableSign fl sqrt a b c
  else exactSign a b c false

/-- `robust_sign`, predicates.rs lines 113-120. -/
def robustSign (a b c : Vec K) : Direction :=
  if triageSign fl a b c = .indeterminate then expensiveSign fl sqrt a b c else triageSign fl a b c

/-- `ordered_ccw`, point.rs lines 224-236. -/
def orderedCCW (a b c o : Vec K) : Bool :=
  let sum : Nat := 0
  let sum := if robustSign fl sqrt b o a ≠ .clockwise then sum + 1 else sum
  let sum := if robustSign fl sqrt c o b ≠ .clockwise then sum + 1 else sum
  let sum := if robustSign fl sqrt a o c = .counterClockwise then sum + 1 else sum
  decide (sum ≥ 2)

end Verif.Predicates
