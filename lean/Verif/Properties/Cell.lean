import Verif.Model.Cell
import Verif.Properties.Neighbors
import Verif.Properties.Stuv

/-!
# Cells and their ids: C68, and the real-valued centre of C22

The grid lines of a face are the images of the multiples of `2^-30` under `st_to_uv`: `uvLine fl x` is the line number `x`. The
theorems hold for every rounding function `fl`, except where monotonicity is assumed.
-/

namespace Verif
open Rust Spec CellID

namespace Spec
variable {K : Type} [Field K] [LinearOrder K]

/-- The `u` (or `v`) coordinate of grid line `x` of a face. -/
def uvLine (fl : K → K) (x : Int) : K := stToUV fl (fl ((x : K) / 2 ^ 30))

/-- The rectangle between grid lines of the square with corner `(i, j)` and side `s`. -/
def uvRect (fl : K → K) (i j s : Int) : R2.Rect K := ⟨⟨uvLine fl i, uvLine fl (i + s)⟩, ⟨uvLine fl j, uvLine fl (j + s)⟩⟩

end Spec

variable {K : Type} [Field K] [LinearOrder K] [IsStrictOrderedRing K]

theorem ijLevelToBoundUV_eq (fl : K → K) {k : Nat} {n i0 j0 i j : Int} (hk : k ≤ 30) (hn : n = ((2 ^ (30 - k) : Nat) : Int))
    (hi0 : 0 ≤ i0) (hdi : n ∣ i0) (h1 : i0 ≤ i) (h2 : i < i0 + n) (h3 : i0 + n ≤ side)
    (hj0 : 0 ≤ j0) (hdj : n ∣ j0) (h4 : j0 ≤ j) (h5 : j < j0 + n) (h6 : j0 + n ≤ side) :
    ijLevelToBoundUV fl i j k = some (uvRect fl i0 j0 n) := by
  have hnp := size_bounds (k := k)
  rw [← hn] at hnp
  unfold ijLevelToBoundUV
  unfold side at *
  simp only [Option.bind_eq_bind]
  rw [sizeI32_eq hk, ← hn, Option.bind_some, i32_ok (x := -n) (by omega) (by omega), Option.bind_some,
    mask_eq hk hn hi0 hdi h1 h2 h3, mask_eq hk hn hj0 hdj h4 h5 h6, i32_ok (x := i0 + n) (by omega) (by omega), Option.bind_some,
    i32_ok (x := j0 + n) (by omega) (by omega), Option.bind_some]
  rfl

/-- **C68.** `Cell::from(id)` has the face, level and orientation of the id, and its `(u, v)` rectangle lies between the grid lines of
the id's square; `bound_uv` of the id is the same rectangle. -/
theorem c68_from (fl : K → K) {c : CellID} {k f o : Nat} {i j i0 j0 s : Int} (h : Valid c) (hk : c.level = some k)
    (hs : Square c f i0 j0 s) (hij : c.faceIJOrientation = some (f, i, j, o)) :
    Cell.fromCellID fl c = some ⟨f, k, o, c, uvRect fl i0 j0 s⟩ ∧ c.boundUV fl = some (uvRect fl i0 j0 s) := by
  obtain ⟨n, f', i0', j0', i', j', o', e1, e2, e3, e4, e5, e6, e7, e8, e9, e10, e11, e12, e13, e14⟩ := h.setting hk
  obtain ⟨rfl, rfl, rfl, rfl⟩ := square_unique hs e7
  rw [e10] at hij
  simp only [Option.some.injEq, Prod.mk.injEq, true_and] at hij
  obtain ⟨rfl, rfl, rfl⟩ := hij
  have hb := ijLevelToBoundUV_eq fl (i := i') (j := j') e2 e1 e7.i_lo e8 e11 e12 e7.i_hi e7.j_lo e9 e13 e14 e7.j_hi
  constructor
  · unfold Cell.fromCellID
    simp only [e10, hk, Option.bind_eq_bind, Option.bind_some, hb]
    have : Rust.assert (f' < 6) = some () := by simp [Rust.assert, e3]
    rw [this, Option.bind_some, Nat.mod_eq_of_lt (by omega)]
  · unfold boundUV
    simp only [e10, hk, Option.bind_eq_bind, Option.bind_some, hb]

theorem i32ToU64_of {x : Int} (h0 : 0 ≤ x) (h1 : x < 2 ^ 31) : i32ToU64 x = x.toNat := by
  obtain ⟨n, rfl⟩ := Int.eq_ofNat_of_zero_le h0
  unfold i32ToU64
  rw [BitVec.ofInt_natCast, BitVec.toNat_ofNat, Int.toNat_natCast]
  exact Nat.mod_eq_of_lt (by omega)

theorem sitiToST_of (fl : K → K) {x : Int} (h0 : 0 ≤ x) (h1 : x < 2 ^ 31) : sitiToST fl (i32ToU64 x) = fl ((x : K) / 2 ^ 31) := by
  rw [i32ToU64_of h0 h1]
  obtain ⟨n, rfl⟩ := Int.eq_ofNat_of_zero_le h0
  unfold sitiToST
  rw [Int.toNat_natCast, if_neg (by omega)]
  simp

/-- **C22.** `center_uv` and `raw_point` are the point of the face at the centre of the square. -/
theorem c22_real (fl : K → K) {c : CellID} {f : Nat} {i0 j0 s : Int} (h : Valid c) (hs : Square c f i0 j0 s) :
    ∃ p : R2.Point K, p = ⟨stToUV fl (fl ((2 * i0 + s : Int) / 2 ^ 31)), stToUV fl (fl ((2 * j0 + s : Int) / 2 ^ 31))⟩ ∧
      c.centerUV fl = some p ∧ c.rawPoint fl = faceUVtoXYZ f p.x p.y := by
  obtain ⟨h1, _, h3, h4, h5, h6⟩ := c22_centre h hs
  refine ⟨_, rfl, ?_, ?_⟩
  · unfold centerUV
    rw [h1]
    simp only [Option.bind_eq_bind, Option.bind_some]
    rw [sitiToST_of fl (by omega) (by omega), sitiToST_of fl (by omega) (by omega)]
  · unfold rawPoint
    rw [h1]
    simp only [Option.bind_eq_bind, Option.bind_some]
    rw [sitiToST_of fl (by omega) (by omega), sitiToST_of fl (by omega) (by omega)]

/-! ## Children -/

theorem kid_sr {c : CellID} (h : Valid c) (hl : lv c < 30) {d : Nat} (hd : d < 4) : sf (kid c d) = sf c ∧
    sr (kid c d) = ((sr c).1 * 2 + (quad (sr c).2.2 d).1, (sr c).2.1 * 2 + (quad (sr c).2.2 d).2, ori (sr c).2.2 d) := by
  have hc := child_isCell h.isCell hl hd
  have e1 : lv (kid c d) = lv c + 1 := lv_mk hc
  have e2 : px (kid c d) = 4 * px c + d := px_mk hc
  have h4 := pow4_pos (lv c)
  have hm := Nat.mod_lt (px c) h4
  have hdm := div_mod_face (px c) (lv c)
  have e3 : sf (kid c d) = sf c := by
    rw [sf, e1, e2, Nat.pow_succ, Nat.mul_comm (4 ^ lv c) 4, ← Nat.div_div_eq_div_mul, show (4 * px c + d) / 4 = px c by omega]
    rfl
  have e4 : (4 * px c + d) % 4 ^ (lv c + 1) = 4 * (px c % 4 ^ lv c) + d := by
    have hs : 4 * px c + d = px c / 4 ^ lv c * 4 ^ (lv c + 1) + (4 * (px c % 4 ^ lv c) + d) := by
      rw [Nat.pow_succ]
      conv_lhs => rw [hdm]
      ring
    rw [hs]
    exact add_mod_pow (by rw [Nat.pow_succ]; omega)
  refine ⟨e3, ?_⟩
  have hlt : 4 * (px c % 4 ^ lv c) + d < 4 ^ (lv c + 1) := by rw [Nat.pow_succ]; omega
  have ha := ijOf_add' (m := lv c) (n := 1) (o := sf c % 2) hlt
  rw [show 4 ^ 1 = 4 from rfl, show 2 ^ 1 = 2 from rfl, show (4 * (px c % 4 ^ lv c) + d) / 4 = px c % 4 ^ lv c by omega,
    show (4 * (px c % 4 ^ lv c) + d) % 4 = d by omega] at ha
  unfold sr
  rw [e3, e1, e2, e4, ha]
  simp [ijOf]

/-- The lines of the quadrants. -/
theorem uvLine_mid (fl : K → K) (i0 m : Int) : stToUV fl (fl ((2 * i0 + 2 * m : Int) / 2 ^ 31)) = uvLine fl (i0 + m) := by
  unfold uvLine
  congr 2
  push_cast
  ring

theorem childAt_eq (fl : K → K) {c : CellID} (h : Valid c) (hl : lv c < 30) {d : Nat} (hd : d < 4) {C : Cell K} {mid : R2.Point K}
    (hC : Cell.fromCellID fl c = some C) (hm : c.centerUV fl = some mid) :
    ∃ D, C.childAt mid (kid c d) d = some D ∧ Cell.fromCellID fl (kid c d) = some D := by
  have hk := kid_valid h hl hd
  obtain ⟨q1, q2⟩ := kid_sr h hl hd
  have hlk := lv_kid h hl hd
  have r1 := (c68_from fl h h.level h.square h.faceIJ).1
  have r2 := (c68_from fl hk hk.level hk.square hk.faceIJ).1
  obtain ⟨p, hp, hp2, _⟩ := c22_real fl h h.square
  rw [hC] at r1
  rw [hm] at hp2
  obtain rfl := Option.some.inj r1
  obtain rfl := Option.some.inj hp2
  have ho := h.sr_lt.2.2
  have hss : ss c = 2 * ss (kid c d) := by
    rw [ss, ss, hlk, ← Nat.pow_succ', show (30 - (lv c + 1)).succ = 30 - lv c by omega]
  refine ⟨_, ?_, r2⟩
  rw [hp, q1, q2, hlk]
  have hmx : ∀ a : Int, 2 * a + ((ss c : Nat) : Int) = 2 * a + 2 * ((ss (kid c d) : Nat) : Int) := by intro a; rw [hss]; push_cast; ring
  rw [hmx, hmx, uvLine_mid, uvLine_mid, hss]
  unfold Cell.childAt uvRect
  generalize ss (kid c d) = m
  generalize (sr c).2.2 = o at *
  generalize (sr c).1 = a
  generalize (sr c).2.1 = b
  interval_cases o <;> interval_cases d <;>
    simp [posToIJ, posToOrientation, quad, ori, swapMask, invertMask] <;>
    refine ⟨?_, ?_⟩ <;> ring_nf <;> simp

/-- **C68.** `children` of a cell that is not a leaf are the cells of the four children of its id, in the same order. -/
theorem c68_children (fl : K → K) {c : CellID} {k : Nat} {C : Cell K} (h : Valid c) (hk : c.level = some k) (hk30 : k < 30)
    (hC : Cell.fromCellID fl c = some C) :
    ∃ xs Ds, c.children = some xs ∧ C.children fl = some (some Ds) ∧ xs.mapM (Cell.fromCellID fl) = some Ds := by
  have hlv := lv_of_level hk
  have hl : lv c < 30 := by omega
  obtain ⟨mid, _, hm, _⟩ := c22_real fl h h.square
  obtain ⟨D0, a0, b0⟩ := childAt_eq fl h hl (d := 0) (by omega) hC hm
  obtain ⟨D1, a1, b1⟩ := childAt_eq fl h hl (d := 1) (by omega) hC hm
  obtain ⟨D2, a2, b2⟩ := childAt_eq fl h hl (d := 2) (by omega) hC hm
  obtain ⟨D3, a3, b3⟩ := childAt_eq fl h hl (d := 3) (by omega) hC hm
  have nx : ∀ d, d < 4 → (kid c d).next = some (kid c (d + 1)) := fun d hd => next_raw (child_isCell h.isCell hl hd)
  have ec : c.children = some [kid c 0, kid c 1, kid c 2, kid c 3] := by
    conv_lhs => rw [h.eq, children_mk h.isCell hl]
    rfl
  have eb : c.childBegin = some (kid c 0) := by
    conv_lhs => rw [h.eq, childBegin_mk h.isCell hl]
    rfl
  have r1 := (c68_from fl h h.level h.square h.faceIJ).1
  rw [hC] at r1
  have hid : C.id = c := by rw [Option.some.inj r1]
  have hle : C.isLeaf = false := by
    rw [Option.some.inj r1]
    simp only [Cell.isLeaf, maxLevel]
    simp
    omega
  refine ⟨_, [D0, D1, D2, D3], ec, ?_, ?_⟩
  · unfold Cell.children
    rw [hle, hid, hm, eb]
    simp only [Bool.false_eq_true, if_false, Option.bind_eq_bind, Option.bind_some, Cell.childLoop, a0, a1, a2, a3, nx 0 (by omega), nx 1 (by omega),
      nx 2 (by omega), nx 3 (by omega)]
  · simp [b0, b1, b2, b3]

/-- **C68.** A leaf cell has no children. -/
theorem c68_leaf (fl : K → K) {c : CellID} {C : Cell K} (h : Valid c) (hk : c.level = some 30)
    (hC : Cell.fromCellID fl c = some C) : C.children fl = some none := by
  have r1 := (c68_from fl h hk h.square h.faceIJ).1
  rw [hC] at r1
  rw [Option.some.inj r1]
  simp [Cell.children, Cell.isLeaf, maxLevel]

/-! ## Rectangles of nested and of disjoint cells -/

theorem uvLine_mono {fl : K → K} (hm : Monotone fl) (f0 : fl 0 = 0) (fh : fl (1 / 2) = 1 / 2) (f1 : fl 1 = 1) (f2 : fl 2 = 2) :
    Monotone (uvLine fl) := by
  intro a b h
  refine c59_stToUV_rounded hm f0 fh f1 f2 (hm ?_)
  have : (a : K) ≤ b := by exact_mod_cast h
  gcongr

theorem leaf_in_square {c : CellID} {f : Nat} {i j s a b : Int} (hs : Square c f i j s) (h1 : i ≤ a) (h2 : a < i + s) (h3 : j ≤ b)
    (h4 : b < j + s) : ∃ l, Valid l ∧ l.level = some 30 ∧ LeafAt l f a b ∧ c.contains l = some true := by
  have := hs.i_lo; have := hs.j_lo; have := hs.i_hi; have := hs.j_hi
  unfold side at *
  obtain ⟨l, hl, hlev, hat⟩ := valid_leaf_exists (i := a.toNat) (j := b.toNat) hs.face (by omega) (by omega)
  rw [Int.toNat_of_nonneg (by omega), Int.toNat_of_nonneg (by omega)] at hat
  exact ⟨l, hl, hlev, hat, (hs.leaves l f a b hl hlev hat).2 ⟨rfl, h1, h2, h3, h4⟩⟩

theorem square_nested {c d : CellID} {f g : Nat} {i j s i' j' s' : Int} (hc : Valid c) (hd : Valid d) (hs : Square c f i j s)
    (hs' : Square d g i' j' s') (h : c.contains d = some true) : g = f ∧ i ≤ i' ∧ i' + s' ≤ i + s ∧ j ≤ j' ∧ j' + s' ≤ j + s := by
  have p := hs'.pos
  obtain ⟨l, hl, hlev, hat, hin⟩ := leaf_in_square hs' (le_refl i') (by omega) (le_refl j') (by omega)
  obtain ⟨m, hm, hmev, hmat, hmin⟩ := leaf_in_square hs' (a := i' + s' - 1) (b := j' + s' - 1) (by omega) (by omega) (by omega) (by omega)
  have k1 := (hs.leaves l _ _ _ hl hlev hat).1 (c03_trans hc hd hl h hin)
  have k2 := (hs.leaves m _ _ _ hm hmev hmat).1 (c03_trans hc hd hm h hmin)
  omega

theorem containsInterval_of {i oi : R1.Interval K} (h1 : i.lo ≤ oi.lo) (h2 : oi.hi ≤ i.hi) : i.containsInterval oi = true := by
  unfold R1.Interval.containsInterval
  simp [h1, h2]

/-- **C68.** `contains_cell` means inclusion of the rectangles on one face, also with rounding. -/
theorem c68_nested {fl : K → K} (hm : Monotone fl) (f0 : fl 0 = 0) (fh : fl (1 / 2) = 1 / 2) (f1 : fl 1 = 1) (f2 : fl 2 = 2)
    {c d : CellID} {C D : Cell K} (hc : Valid c) (hd : Valid d) (hC : Cell.fromCellID fl c = some C) (hD : Cell.fromCellID fl d = some D)
    (h : C.containsCell D = some true) : C.face = D.face ∧ C.uv.contains D.uv = true := by
  have r1 := (c68_from fl hc hc.level hc.square hc.faceIJ).1
  have r2 := (c68_from fl hd hd.level hd.square hd.faceIJ).1
  rw [hC] at r1
  rw [hD] at r2
  obtain rfl := Option.some.inj r1
  obtain rfl := Option.some.inj r2
  have hmo := uvLine_mono hm f0 fh f1 f2
  obtain ⟨e1, e2, e3, e4, e5⟩ := square_nested hc hd hc.square hd.square h
  refine ⟨e1.symm, ?_⟩
  simp only [R2.Rect.contains, uvRect, Bool.and_eq_true]
  exact ⟨containsInterval_of (hmo e2) (hmo e3), containsInterval_of (hmo e4) (hmo e5)⟩

/-- **C68.** Cells of one face that do not intersect have rectangles with disjoint interiors, also with rounding. -/
theorem c68_disjoint {fl : K → K} (hm : Monotone fl) (f0 : fl 0 = 0) (fh : fl (1 / 2) = 1 / 2) (f1 : fl 1 = 1) (f2 : fl 2 = 2)
    {c d : CellID} {C D : Cell K} (hc : Valid c) (hd : Valid d) (hC : Cell.fromCellID fl c = some C) (hD : Cell.fromCellID fl d = some D)
    (h : C.intersectsCell D = some false) (hf : C.face = D.face) (p : R2.Point K) :
    ¬ (C.uv.interiorContainsPoint p = true ∧ D.uv.interiorContainsPoint p = true) := by
  have r1 := (c68_from fl hc hc.level hc.square hc.faceIJ).1
  have r2 := (c68_from fl hd hd.level hd.square hd.faceIJ).1
  rw [hC] at r1
  rw [hD] at r2
  obtain rfl := Option.some.inj r1
  obtain rfl := Option.some.inj r2
  have hmo := uvLine_mono hm f0 fh f1 f2
  have s1 := hc.square
  have s2 := hd.square
  dsimp only at hf
  rw [← hf] at s2
  have p1 := s1.pos
  have p2 := s2.pos
  generalize (((sr c).1 * ss c : Nat) : Int) = i at *
  generalize (((sr c).2.1 * ss c : Nat) : Int) = j at *
  generalize ((ss c : Nat) : Int) = s at *
  generalize (((sr d).1 * ss d : Nat) : Int) = i' at *
  generalize (((sr d).2.1 * ss d : Nat) : Int) = j' at *
  generalize ((ss d : Nat) : Int) = s' at *
  have hsep : i + s ≤ i' ∨ i' + s' ≤ i ∨ j + s ≤ j' ∨ j' + s' ≤ j := by
    by_contra hcon
    obtain ⟨l, hl, hlev, hat, hin⟩ := leaf_in_square s1 (a := max i i') (b := max j j') (by omega) (by omega) (by omega) (by omega)
    have hin2 := (s2.leaves l _ _ _ hl hlev hat).2 ⟨rfl, by omega, by omega, by omega, by omega⟩
    obtain ⟨r, e1, e2, _⟩ := c04_intersects hc hd
    have e3 : r = false := by
      have h' : c.intersects d = some false := h
      rw [e1] at h'
      exact Option.some.inj h'
    have : r = true := by
      rw [e2]
      obtain ⟨k, q, hk, rfl⟩ := hl.cell
      have hq : k = 30 := by rw [level_mk hk] at hlev; exact Option.some.inj hlev
      subst hq
      refine ⟨q, (c03_contains_iff hc hl).1 hin q ?_, (c03_contains_iff hd hl).1 hin2 q ?_⟩ <;>
        (rw [hasLeaf_mk hk]; simp [LeafIn])
    rw [this] at e3
    cases e3
  rintro ⟨a, b⟩
  simp only [R2.Rect.interiorContainsPoint, uvRect, R1.Interval.interiorContains, Bool.and_eq_true, decide_eq_true_eq] at a b
  rcases hsep with q | q | q | q <;> have := hmo q <;> linarith [of_decide_eq_true a.1.1, of_decide_eq_true a.1.2, of_decide_eq_true a.2.1,
    of_decide_eq_true a.2.2, of_decide_eq_true b.1.1, of_decide_eq_true b.1.2, of_decide_eq_true b.2.1, of_decide_eq_true b.2.2]

theorem quads {o : Nat} (ho : o < 4) (P : Nat → Nat → Prop) :
    (P (quad o 0).1 (quad o 0).2 ∨ P (quad o 1).1 (quad o 1).2 ∨ P (quad o 2).1 (quad o 2).2 ∨ P (quad o 3).1 (quad o 3).2) ↔
      (P 0 0 ∨ P 0 1 ∨ P 1 0 ∨ P 1 1) := by
  interval_cases o <;> simp [quad, posToIJ] <;> tauto

/-- **C68.** The rectangle of a cell is the union of the rectangles of its children, also with rounding. -/
theorem c68_union {fl : K → K} (hm : Monotone fl) (f0 : fl 0 = 0) (fh : fl (1 / 2) = 1 / 2) (f1 : fl 1 = 1) (f2 : fl 2 = 2)
    {c : CellID} {C : Cell K} {Ds : List (Cell K)} (hc : Valid c) (hC : Cell.fromCellID fl c = some C)
    (hD : C.children fl = some (some Ds)) (p : R2.Point K) :
    C.uv.containsPoint p = true ↔ ∃ D ∈ Ds, D.uv.containsPoint p = true := by
  have hmo := uvLine_mono hm f0 fh f1 f2
  by_cases hl : lv c < 30
  swap
  · have h30 : lv c = 30 := by have := hc.lv_le; omega
    rw [c68_leaf fl hc (by rw [hc.level, h30]) hC] at hD
    cases hD
  obtain ⟨xs, Ds', e1, e2, e3⟩ := c68_children fl hc hc.level hl hC
  rw [hD] at e2
  obtain rfl : Ds = Ds' := Option.some.inj (Option.some.inj e2)
  have ec : c.children = some [kid c 0, kid c 1, kid c 2, kid c 3] := by
    conv_lhs => rw [hc.eq, children_mk hc.isCell hl]
    rfl
  rw [ec] at e1
  obtain rfl := Option.some.inj e1
  have cf : ∀ d, d < 4 → Cell.fromCellID fl (kid c d) = some _ := fun d hd =>
    (c68_from fl (kid_valid hc hl hd) (kid_valid hc hl hd).level (kid_valid hc hl hd).square (kid_valid hc hl hd).faceIJ).1
  have e4 := cf 0 (by omega)
  have e5 := cf 1 (by omega)
  have e6 := cf 2 (by omega)
  have e7 := cf 3 (by omega)
  simp only [List.mapM_cons, List.mapM_nil, e4, e5, e6, e7, Option.bind_eq_bind, Option.bind_some, Option.pure_def, Option.some.injEq] at e3
  subst e3
  have r1 := (c68_from fl hc hc.level hc.square hc.faceIJ).1
  rw [hC] at r1
  obtain rfl := Option.some.inj r1
  simp only [List.mem_cons, List.not_mem_nil, or_false, exists_eq_or_imp, exists_eq_left]
  have hss : ∀ d, d < 4 → ss c = 2 * ss (kid c d) := by
    intro d hd
    rw [ss, ss, lv_kid hc hl hd, ← Nat.pow_succ', show (30 - (lv c + 1)).succ = 30 - lv c by omega]
  have q : ∀ d, d < 4 → ss (kid c d) = ss (kid c 0) := by
    intro d hd
    have := hss d hd
    have := hss 0 (by omega)
    omega
  rw [(kid_sr hc hl (d := 0) (by omega)).2, (kid_sr hc hl (d := 1) (by omega)).2, (kid_sr hc hl (d := 2) (by omega)).2,
    (kid_sr hc hl (d := 3) (by omega)).2, q 1 (by omega), q 2 (by omega), q 3 (by omega), hss 0 (by omega)]
  have ho := hc.sr_lt.2.2
  have hp := ss_pos (kid c 0)
  generalize ss (kid c 0) = m at *
  generalize (sr c).2.2 = o at *
  generalize (sr c).1 = a at *
  generalize (sr c).2.1 = b at *
  have A1 : ∀ a : Nat, uvLine fl ((a * (2 * m) : Nat) : Int) ≤ uvLine fl ((a * (2 * m) + m : Nat) : Int) := fun a => hmo (by push_cast; omega)
  have A2 : ∀ a : Nat, uvLine fl ((a * (2 * m) + m : Nat) : Int) ≤ uvLine fl ((a * (2 * m) + 2 * m : Nat) : Int) := fun a => hmo (by push_cast; omega)
  have B0 : ∀ a : Nat, (a * 2 + 0) * m = a * (2 * m) := by intro a; ring
  have B1 : ∀ a : Nat, (a * 2 + 1) * m = a * (2 * m) + m := by intro a; ring
  have C1 : ∀ a : Nat, (((a * (2 * m) : Nat) : Int) + (m : Int)) = ((a * (2 * m) + m : Nat) : Int) := by intro a; push_cast; ring
  have C2 : ∀ a : Nat, (((a * (2 * m) + m : Nat) : Int) + (m : Int)) = ((a * (2 * m) + 2 * m : Nat) : Int) := by intro a; push_cast; ring
  have C3 : ∀ a : Nat, (((a * (2 * m) : Nat) : Int) + ((2 * m : Nat) : Int)) = ((a * (2 * m) + 2 * m : Nat) : Int) := by intro a; push_cast; ring
  have ha1 := A1 a
  have ha2 := A2 a
  have hb1 := A1 b
  have hb2 := A2 b
  have key := quads ho (fun x y => R2.Rect.containsPoint (uvRect fl (((a * 2 + x) * m : Nat) : Int) (((b * 2 + y) * m : Nat) : Int) (m : Int)) p = true)
  dsimp only at key ⊢
  rw [key]
  simp only [R2.Rect.containsPoint, uvRect, R1.Interval.contains, Bool.and_eq_true, decide_eq_true_eq, B0, B1, C1, C2, C3]
  generalize uvLine fl ((a * (2 * m) : Nat) : Int) = x0 at *
  generalize uvLine fl ((a * (2 * m) + m : Nat) : Int) = x1 at *
  generalize uvLine fl ((a * (2 * m) + 2 * m : Nat) : Int) = x2 at *
  generalize uvLine fl ((b * (2 * m) : Nat) : Int) = y0 at *
  generalize uvLine fl ((b * (2 * m) + m : Nat) : Int) = y1 at *
  generalize uvLine fl ((b * (2 * m) + 2 * m : Nat) : Int) = y2 at *
  constructor
  · rintro ⟨⟨h1, h2⟩, h3, h4⟩
    rcases le_total p.x x1 with hx | hx <;> rcases le_total p.y y1 with hy | hy
    · exact .inl ⟨⟨h1, hx⟩, h3, hy⟩
    · exact .inr (.inl ⟨⟨h1, hx⟩, hy, h4⟩)
    · exact .inr (.inr (.inl ⟨⟨hx, h2⟩, h3, hy⟩))
    · exact .inr (.inr (.inr ⟨⟨hx, h2⟩, hy, h4⟩))
  · rintro (⟨⟨h1, h2⟩, h3, h4⟩ | ⟨⟨h1, h2⟩, h3, h4⟩ | ⟨⟨h1, h2⟩, h3, h4⟩ | ⟨⟨h1, h2⟩, h3, h4⟩) <;>
      exact ⟨⟨by linarith, by linarith⟩, by linarith, by linarith⟩

/-! ## Examples -/

/-- A valid cell of level 10 on face 3, and its second child. -/
theorem exCell : Valid ⟨0x6060730000000000#64⟩ ∧ (CellID.mk 0x6060730000000000#64).level = some 10 ∧
    Valid ⟨0x606072c000000000#64⟩ ∧ (CellID.mk 0x6060730000000000#64).contains ⟨0x606072c000000000#64⟩ = some true := by
  unfold Valid; decide +kernel

-- its record in exact arithmetic
example : ∃ f o i j s, Cell.fromCellID (_root_.id : ℚ → ℚ) ⟨0x6060730000000000#64⟩ = some ⟨f, 10, o, ⟨0x6060730000000000#64⟩, uvRect _root_.id i j s⟩ :=
  ⟨_, _, _, _, _, (c68_from _root_.id exCell.1 exCell.2.1 exCell.1.square exCell.1.faceIJ).1⟩

-- its four children, and a child contained in it
example : ∃ C xs Ds, Cell.fromCellID (_root_.id : ℚ → ℚ) ⟨0x6060730000000000#64⟩ = some C ∧
    (CellID.mk 0x6060730000000000#64).children = some xs ∧ C.children _root_.id = some (some Ds) ∧ xs.mapM (Cell.fromCellID _root_.id) = some Ds := by
  have h := (c68_from (_root_.id : ℚ → ℚ) exCell.1 exCell.2.1 exCell.1.square exCell.1.faceIJ).1
  obtain ⟨xs, Ds, h1, h2, h3⟩ := c68_children _root_.id exCell.1 exCell.2.1 (by norm_num) h
  exact ⟨_, xs, Ds, h, h1, h2, h3⟩

example : ∃ C D, Cell.fromCellID (_root_.id : ℚ → ℚ) ⟨0x6060730000000000#64⟩ = some C ∧ Cell.fromCellID (_root_.id : ℚ → ℚ) ⟨0x606072c000000000#64⟩ = some D ∧
    C.face = D.face ∧ C.uv.contains D.uv = true := by
  have h := (c68_from (_root_.id : ℚ → ℚ) exCell.1 exCell.2.1 exCell.1.square exCell.1.faceIJ).1
  have hd := (c68_from (_root_.id : ℚ → ℚ) exCell.2.2.1 exCell.2.2.1.level exCell.2.2.1.square exCell.2.2.1.faceIJ).1
  refine ⟨_, _, h, hd, c68_nested monotone_id rfl rfl rfl rfl exCell.1 exCell.2.2.1 h hd exCell.2.2.2⟩

end Verif
