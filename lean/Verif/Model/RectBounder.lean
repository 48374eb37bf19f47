import Verif.Model.LatLng

/-!
# Model of `/repo/src/s2/rect_bounder.rs`

`fl` is the rounding after each operation; `sqrt`, `sin`, `asin`, `atan2` are the library functions, also followed by a rounding. `π` is the
`PI` constant, `rem` the IEEE remainder of a division by `2 * PI`, `eps` is `DBL_EPSILON`. Halving, doubling and negation are exact.
The numeric literals of the code are a parameter, `Margins`, with the value of the code in `Margins.code`.
-/

namespace Verif.S2

/-- A vertex of the chain, lines 44-47, and the bounder, lines 60-66. -/
structure RectBounder (K : Type) where
  a : Option (Vec K × LatLng K)
  bound : Rect K

/-- The literals of `add_point`: line 110 and the two of line 157. -/
structure Margins (K : Type) where
  short : K
  rel : K
  abs : K

variable {K : Type} [Field K] [LinearOrder K]

/-- The values in the code. -/
def Margins.code (fl : K → K) : Margins K :=
  ⟨fl (191346 / 10 ^ 20), fl (606638 / 10 ^ 21), fl (683174 / 10 ^ 36)⟩

namespace RectBounder
variable (π : K) (fl sqrt sin asin : K → K) (atan2 : K → K → K) (rem : K → K) (eps : K) (mg : Margins K)

/-- `new`, lines 75-80. -/
def new : RectBounder K := ⟨none, Rect.empty π⟩

/-- Line 95: twice the normal of the edge. -/
def normal (a b : Vec K) : Vec K := (Vec.sub fl a b).cross fl (Vec.add fl a b)

/-- Lines 127-134: the longitudes of an edge. -/
def edgeLng (a b : LatLng K) : S1.Interval K :=
  let lng := S1.Interval.fromPointPair π fl a.lng b.lng
  if lng.len π fl ≥ fl (π - 2 * eps) then S1.Interval.full π else lng

/-- Lines 178-180: the greatest latitude of the great circle. -/
def maxLat (n : Vec K) : K :=
  min (fl (fl (atan2 (fl (sqrt (fl (fl (n.x * n.x) + fl (n.y * n.y))))) |n.z|) + fl (3 * eps))) (π / 2)

/-- Lines 191-195: how far the latitude may go beyond those of the ends. -/
def maxDelta (a b : Vec K) (maxLat : K) (lat : R1.Interval K) : K :=
  let z := fl (1 / 2 * (Vec.sub fl a b).norm fl sqrt * fl (sin maxLat))
  let budget := 2 * fl (asin (min (fl (fl (1 + 4 * eps) * z)) 1))
  fl (1 / 2 * fl (budget - lat.len fl) + eps)

/-- Lines 138-206: the latitudes of an edge. -/
def edgeLat (n a b : Vec K) (la lb : LatLng K) : R1.Interval K :=
  let lat := R1.Interval.fromPointPair la.lat lb.lat
  let m := n.cross fl ⟨0, 0, 1⟩
  let ma := m.dot fl a
  let mb := m.dot fl b
  let err := fl (fl (mg.rel * n.norm fl sqrt) + mg.abs)
  if fl (ma * mb) < 0 ∨ |ma| ≤ err ∨ |mb| ≤ err then
    let top := maxLat π fl sqrt atan2 eps n
    let delta := maxDelta fl sqrt sin asin eps a b top lat
    let lat' : R1.Interval K := if ma ≤ err ∧ mb ≥ -err then ⟨lat.lo, min top (fl (lat.hi + delta))⟩ else lat
    if mb ≤ err ∧ ma ≥ -err then ⟨max (-top) (fl (lat'.lo - delta)), lat'.hi⟩ else lat'
  else lat

/-- `add_point`, lines 83-220. -/
def addPoint (r : RectBounder K) (b : Vec K) : RectBounder K :=
  let lb := LatLng.ofPoint fl sqrt atan2 b
  match r.a with
  | none => ⟨some (b, lb), r.bound.add π fl lb⟩
  | some (a, la) =>
    let n := normal fl a b
    let bound :=
      if n.norm fl sqrt < mg.short then
        if Vec.dot fl a b < 0 then Rect.full π
        else r.bound.union π fl (Rect.fromPointPair π fl la lb)
      else r.bound.union π fl ⟨edgeLat π fl sqrt sin asin atan2 eps mg n a b la lb, edgeLng π fl eps la lb⟩
    ⟨some (b, lb), bound⟩

/-- `get_bound`, lines 226-250. -/
def getBound (r : RectBounder K) : Rect K := (r.bound.expanded π fl rem eps ⟨2 * eps, 0⟩).polarClosure π

/-- `expand_for_subregions`, lines 267-397; the literals of lines 323, 343 and 373 are `t1`, `t2`, `t3`. -/
def expandForSubregions (t1 t2 t3 : K) (bound : Rect K) : Rect K :=
  if bound.isEmpty then bound
  else
    let gap := max 0 (fl (fl (π - bound.lng.len π fl) - fl (5 / 2 * eps)))
    let minAbs := max bound.lat.lo (-bound.lat.hi)
    let south := fl (π / 2 + bound.lat.lo)
    let north := fl (π / 2 - bound.lat.hi)
    let full : Bool :=
      if minAbs ≥ 0 then decide (fl (2 * minAbs + gap) < t1)
      else if gap ≥ π / 2 then decide (fl (south + north) < t2)
      else decide (fl (max south north * gap) < t3)
    if full then Rect.full π
    else (bound.expanded π fl rem eps ⟨fl (9 * eps), if gap ≤ 0 then π else 0⟩).polarClosure π

end RectBounder
end Verif.S2
