import Verif.Model.UnionRegion
import Verif.Properties.CapUnion
import Verif.Properties.PointRound
import Verif.Properties.Centroid
import Verif.Properties.RectExact

/-!
# C106: cell unions, cells and points as regions

Exact arithmetic over the reals.
-/

namespace Verif
open Spec CellID CellUnion S2 RegionCoverer

/-! ## Bounds of a cell union -/

theorem centroidSum_total (pi : ℝ) : ∀ (v : List CellID) (s : Vec ℝ), (∀ c ∈ v, Valid c) → ∃ t, centroidSum _root_.id Real.sqrt pi v s = some t := by
  intro v
  induction v with
  | nil => exact fun s _ => ⟨s, rfl⟩
  | cons c v ih =>
    intro s hv
    have hc := hv c (by simp)
    obtain ⟨p, l, h1, -⟩ := c61_roundtrip (fl := (_root_.id : ℝ → ℝ)) rounding_id isSqrt_real hc
    obtain ⟨t, ht⟩ := ih (Vec.add _root_.id s (Vec.scale _root_.id p ((Cell.avgAreaMetric _root_.id pi).value (lv c)))) fun x hx => hv x (by simp [hx])
    refine ⟨t, ?_⟩
    rw [centroidSum, hc.level, h1]
    exact ht

/-- What the sum of caps is. -/
theorem addCaps_spec : ∀ (v : List CellID) (cap : Cap ℝ), (∀ c ∈ v, Valid c) → UnitV cap.center → 0 ≤ cap.radius → cap.radius ≤ 4 →
    ∃ B, addCaps _root_.id Real.sqrt v cap = some B ∧ B.center = cap.center ∧ 0 ≤ B.radius ∧ B.radius ≤ 4 ∧ (∀ p, UnitV p → InCap cap p → InCap B p) ∧
      ∀ x ∈ v, ∀ C, Cell.fromCellID _root_.id x = some C → ∀ p, UnitV p → InCell C p → InCap B p := by
  intro v
  induction v with
  | nil => exact fun cap _ h1 h2 h3 => ⟨cap, rfl, rfl, h2, h3, fun _ _ h => h, by simp⟩
  | cons c v ih =>
    intro cap hv h1 h2 h3
    have hc := hv c (by simp)
    obtain ⟨C, hC⟩ := cell_exists hc
    obtain ⟨b, b1, b2, -, b3, b4, b5, -⟩ := c88_capBound hc hC
    have a1 : (cap.addCap _root_.id Real.sqrt b).center = cap.center ∧ 0 ≤ (cap.addCap _root_.id Real.sqrt b).radius ∧ (cap.addCap _root_.id Real.sqrt b).radius ≤ 4 := by
      have e1 : cap.isEmpty = false := decide_eq_false (not_lt.2 h2)
      have e2 : b.isEmpty = false := decide_eq_false (not_lt.2 b3)
      unfold Cap.addCap
      rw [e1, e2]
      exact ⟨rfl, le_max_of_le_right h2, max_le (max_le (by norm_num) (min_le_left _ _)) h3⟩
    obtain ⟨B, e, k1, k2, k3, k4, k5⟩ := ih (cap.addCap _root_.id Real.sqrt b) (fun x hx => hv x (by simp [hx])) (by rw [a1.1]; exact h1) a1.2.1 a1.2.2
    refine ⟨B, ?_, by rw [k1, a1.1], k2, k3, fun p hp hin => k4 p hp ((c64_addCap_exact h1 b2 h3 (by linarith) hp).1 hin), ?_⟩
    · rw [addCaps, hC, Option.bind_eq_bind, Option.bind_some, b1]
      exact e
    · intro x hx D hD p hp hin
      rcases List.mem_cons.1 hx with rfl | hx
      · rw [hC] at hD
        obtain rfl := Option.some.inj hD
        exact k4 p hp ((c64_addCap_exact h1 b2 h3 (by linarith) hp).2 ((c64_containsPoint b2 hp).1.1 (b5 p hin hp)))
      · exact k5 x hx D hD p hp hin

/-- **C106.** `cap_bound` of a union contains every point of every cell of it; it is the empty cap for the empty union. -/
theorem c106_capBound {v : List CellID} (hv : AllCells v) (pi : ℝ) :
    ∃ B, CellUnion.capBound _root_.id Real.sqrt pi v = some B ∧ UnitV B.center ∧ B.radius ≤ 4 ∧ (B.isEmpty = true ↔ v = []) ∧
      ∀ x ∈ v, ∀ C, Cell.fromCellID _root_.id x = some C → ∀ p, UnitV p → InCell C p → B.containsPoint _root_.id p = true := by
  rw [allCells_iff] at hv
  unfold CellUnion.capBound
  rcases v with - | ⟨c, v⟩
  · refine ⟨Cap.empty, rfl, ?_, ?_, ?_, by simp⟩
    · unfold UnitV dot Cap.empty; norm_num
    · unfold Cap.empty ChordAngle.negative; norm_num
    · simp [Cap.isEmpty, Cap.empty, ChordAngle.negative]
  · obtain ⟨s, hs⟩ := centroidSum_total pi (c :: v) ⟨0, 0, 0⟩ hv
    have hu : UnitV (if s.x = 0 ∧ s.y = 0 ∧ s.z = 0 then Vec.fromCoords _root_.id Real.sqrt 1 0 0 else s.normalize _root_.id Real.sqrt) := by
      split_ifs with hz
      · have : UnitV (⟨1, 0, 0⟩ : Vec ℝ) := by unfold UnitV dot; norm_num
        unfold Vec.fromCoords
        rw [if_neg (by norm_num), normalize_unit this]
        exact this
      · refine (normalize_pos ?_).1
        by_contra hle
        have h0 : s.x * s.x + s.y * s.y + s.z * s.z ≤ 0 := not_lt.1 hle
        have := mul_self_nonneg s.x
        have := mul_self_nonneg s.y
        have := mul_self_nonneg s.z
        exact hz ⟨mul_self_eq_zero.1 (by linarith), mul_self_eq_zero.1 (by linarith), mul_self_eq_zero.1 (by linarith)⟩
    obtain ⟨B, e, k1, k2, k3, -, k5⟩ := addCaps_spec (c :: v) (Cap.ofPoint _) hv hu le_rfl (by unfold Cap.ofPoint; norm_num)
    have hB : UnitV B.center := by rw [k1]; exact hu
    refine ⟨B, ?_, hB, k3, ?_, fun x hx C hC p hp hin => (c64_containsPoint hB hp).1.2 (k5 x hx C hC p hp hin)⟩
    · rw [if_neg (by simp), hs, Option.bind_eq_bind, Option.bind_some]
      exact e
    · simp [Cap.isEmpty, k2]

theorem addRects_spec {atan2 : ℝ → ℝ → ℝ} (h : IsArg atan2) {rem : ℝ → ℝ} (hr : S1.IsRem Real.pi rem) {eps : ℝ} (he : 0 ≤ eps) (he1 : eps ≤ 1) :
    ∀ (v : List CellID) (r : S2.Rect ℝ), (∀ c ∈ v, Valid c) → r.isValid Real.pi = true →
    ∃ B, addRects Real.pi _root_.id Real.sqrt Real.arcsin atan2 rem eps v r = some B ∧ B.isValid Real.pi = true ∧
      (∀ a b, RPts Real.pi r a b → RPts Real.pi B a b) ∧
      ∀ x ∈ v, ∀ C, Cell.fromCellID _root_.id x = some C → ∀ p, InCell C p → B.containsLatLng Real.pi (LatLng.ofPoint _root_.id Real.sqrt atan2 p) = true := by
  intro v
  induction v with
  | nil => exact fun r _ hv => ⟨r, rfl, hv, fun _ _ h => h, by simp⟩
  | cons c v ih =>
    intro r hv h1
    have hc := hv c (by simp)
    obtain ⟨C, hC⟩ := cell_exists hc
    obtain ⟨b, b1, b2, b3⟩ := c87_rectBound hc hC h hr he he1
    obtain ⟨u1, u2⟩ := c56_union Real.pi_pos h1 b2 _root_.id
    obtain ⟨B, e, k1, k2, k3⟩ := ih (r.union Real.pi _root_.id b) (fun x hx => hv x (by simp [hx])) u1
    refine ⟨B, ?_, k1, fun a b h => k2 a b (u2 a b (Or.inl h)), ?_⟩
    · rw [addRects, hC, Option.bind_eq_bind, Option.bind_some, b1]
      exact e
    · intro x hx D hD p hin
      rcases List.mem_cons.1 hx with rfl | hx
      · rw [hC] at hD
        obtain rfl := Option.some.inj hD
        rw [c56_containsLatLng Real.pi_pos k1]
        exact k2 _ _ (u2 _ _ (Or.inr ((c56_containsLatLng Real.pi_pos b2 _).1 (b3 p hin))))
      · exact k3 x hx D hD p hin

/-- **C106.** `rect_bound` of a union is valid and contains every point of every cell of it. -/
theorem c106_rectBound {v : List CellID} (hv : AllCells v) {atan2 : ℝ → ℝ → ℝ} (h : IsArg atan2) {rem : ℝ → ℝ} (hr : S1.IsRem Real.pi rem) {eps : ℝ}
    (he : 0 ≤ eps) (he1 : eps ≤ 1) :
    ∃ B, CellUnion.rectBound Real.pi _root_.id Real.sqrt Real.arcsin atan2 rem eps v = some B ∧ B.isValid Real.pi = true ∧
      ∀ x ∈ v, ∀ C, Cell.fromCellID _root_.id x = some C → ∀ p, InCell C p → B.containsLatLng Real.pi (LatLng.ofPoint _root_.id Real.sqrt atan2 p) = true := by
  obtain ⟨B, e, k1, -, k3⟩ := addRects_spec h hr he he1 v (S2.Rect.empty Real.pi) ((allCells_iff v).1 hv) (isValid_iff.2 (empty_ok Real.pi_pos (by linarith [Real.pi_gt_three])))
  exact ⟨B, e, k1, k3⟩

/-! ## Coverings -/

/-- The centre of a valid cell is a unit vector. -/
theorem toPoint_unit {c : CellID} (hc : Valid c) {p : Vec ℝ} (h : c.toPoint _root_.id Real.sqrt = some p) : UnitV p := by
  obtain ⟨m, -, -, hr⟩ := c22_real (_root_.id : ℝ → ℝ) hc hc.square
  unfold CellID.toPoint at h
  rw [hr] at h
  have hf := hc.square.face
  obtain ⟨w, hw⟩ : ∃ w, faceUVtoXYZ (sf c) m.x m.y = some w := by
    interval_cases sf c <;> exact ⟨_, rfl⟩
  rw [hw] at h
  obtain rfl := Option.some.inj h
  refine (normalize_pos ?_).1
  have := mul_self_nonneg m.x
  have := mul_self_nonneg m.y
  unfold dot
  interval_cases sf c <;> obtain rfl := Option.some.inj hw <;> dsimp only <;> linarith

/-- Every leaf has a point of it. -/
theorem leaf_point {x : CellID} {q : Nat} (h : HasLeaf x.id.toNat q) :
    ∃ l p, Valid l ∧ l.level = some 30 ∧ HasLeaf l.id.toNat q ∧ UnitV p ∧ fromPoint _root_.id Real.sqrt p = some l := by
  have hq : IsCell 30 q := by
    obtain ⟨k, p, ⟨h1, h2⟩, -, h3⟩ := h
    refine ⟨le_rfl, ?_⟩
    unfold LeafIn at h3
    rw [← h3, Nat.div_lt_iff_lt_mul (by positivity), mul_assoc, ← pow_add, show k + (30 - k) = 30 by omega] at h2
    exact h2
  have hl : Valid (mk 30 q) := valid_mk hq
  obtain ⟨p, l, h1, h2, -, -, -, h3⟩ := c61_roundtrip (fl := (_root_.id : ℝ → ℝ)) rounding_id isSqrt_real hl
  obtain rfl := h3 (level_mk hq)
  exact ⟨mk 30 q, p, hl, level_mk hq, (hasLeaf_mk hq).2 (by simp [LeafIn]), toPoint_unit hl h1, h2⟩

section regions
variable {flq : ℚ → ℚ} (hfl : Rounding flq)

include hfl in
/-- The bound of a cap with all points of a cell covers the leaves of the cell. -/
theorem bound_cell {B : Cap ℝ} (hB : UnitV B.center) (h4 : B.radius ≤ 4) {xs : List CellID}
    (hxs : B.cellUnionBound _root_.id Real.sqrt Real.arcsin (Real.sqrt 2) flq = some xs) {x : CellID} (hx : Valid x)
    (hin : ∀ C, Cell.fromCellID _root_.id x = some C → ∀ p, UnitV p → InCell C p → B.containsPoint _root_.id p = true) {q : Nat}
    (hq : HasLeaf x.id.toNat q) : Covers xs q := by
  obtain ⟨l, p, h1, h2, h3, h4', h5⟩ := leaf_point hq
  obtain ⟨C, hC⟩ := cell_exists hx
  exact bound_leaves hfl hB h4 hxs h4' ((c64_containsPoint hB h4').1.1 (hin C hC p h4' (fromPoint_inCell h4' h5 hx ((contains_leaf hx h1 h2 h3).2 hq) hC))) h5 h3

section union
variable {v : List CellID} {pi : ℝ} {B : Cap ℝ} (hB : CellUnion.capBound _root_.id Real.sqrt pi v = some B)
  {xs : List CellID} (hxs : B.cellUnionBound _root_.id Real.sqrt Real.arcsin (Real.sqrt 2) flq = some xs)

/-- **C106.** `cell_union_bound` of a union returns without panic at most six valid cells, which cover the union. -/
theorem c106_cellUnionBound {flq : ℚ → ℚ} (hfl : Rounding flq) {v : List CellID} (hv : AllCells v) (pi : ℝ) :
    ∃ B xs, CellUnion.capBound _root_.id Real.sqrt pi v = some B ∧ B.cellUnionBound _root_.id Real.sqrt Real.arcsin (Real.sqrt 2) flq = some xs ∧
      AllCells xs ∧ xs.length ≤ 6 ∧ ∀ q, Covers v q → Covers xs q := by
  obtain ⟨B, h1, h2, h3, -, h4⟩ := c106_capBound hv pi
  obtain ⟨xs, k1, k2, k3, -⟩ := c98_covers hfl h2 h3
  refine ⟨B, xs, h1, k1, (allCells_iff _).2 k2, k3, ?_⟩
  rintro q ⟨x, hx, hq⟩
  exact bound_cell hfl h2 h3 k1 ((allCells_iff _).1 hv x hx) (h4 x hx) hq

include hfl hB hxs in
theorem union_bound (hv : AllCells v) : AllCells xs ∧ ∀ q, Covers v q → Covers xs q := by
  obtain ⟨B', xs', h1, h2, h3, -, h4⟩ := c106_cellUnionBound hfl hv pi
  rw [hB] at h1
  obtain rfl := Option.some.inj h1
  rw [hxs] at h2
  obtain rfl := Option.some.inj h2
  exact ⟨h3, h4⟩

include hfl hB hxs

/-- **C106.** `covering` of a union, for every permitted parameter and every order of the queue, covers the union, and every cell of it has a
leaf of the union. -/
theorem c106_covering (hv : IsUnion v) {rc : RegionCoverer} (hmin : rc.minLevel ≤ 30) (hmax : rc.maxLevel ≤ 30) (hm1 : 1 ≤ rc.levelMod)
    (hm3 : rc.levelMod ≤ 3) (pick : Nat → Nat) :
    ∃ out, covering rc (CellUnion.region v xs) pick = some out ∧ IsUnion out ∧ (∀ q, Covers v q → Covers out q) ∧
      ∀ d ∈ out, ∃ q, HasLeaf d.id.toNat q ∧ Covers v q := by
  obtain ⟨b1, b2⟩ := union_bound hfl hB hxs hv.1
  obtain ⟨out, h1, h2, h3⟩ := c42_covering_covers (r := CellUnion.region v xs) hmin hmax hm1 hm3 (R := Covers v) (by
    intro X q hX hR hq
    obtain ⟨b, e1, e2⟩ := c30_intersectsCellID hv hX
    show (intersectsCellID v X == some true) = true
    rw [e1, e2.2 ⟨q, hq, hR⟩]
    rfl) b1 b2 pick
  refine ⟨out, h1, h2, h3, fun d hd => ?_⟩
  obtain ⟨X, hX, k1, k2⟩ := c42_covering_tight hmin hmax hm1 hm3 (r := CellUnion.region v xs) b1 pick h1 d hd
  obtain ⟨b, e1, e2⟩ := c30_intersectsCellID hv hX
  have k3 : (intersectsCellID v X == some true) = true := k2
  rw [e1, beq_iff_eq, Option.some.injEq] at k3
  obtain ⟨q, hq, hR⟩ := e2.1 k3
  exact ⟨q, (c03_contains_iff ((allCells_iff _).1 h2.1 d hd) hX).1 k1 q hq, hR⟩

/-- **C106.** `interior_covering` of a union lies in the union. -/
theorem c106_interior (hv : IsUnion v) {rc : RegionCoverer} (hmin : rc.minLevel ≤ 30) (hmax : rc.maxLevel ≤ 30) (hm1 : 1 ≤ rc.levelMod)
    (hm3 : rc.levelMod ≤ 3) (pick : Nat → Nat) :
    ∃ out, interiorCovering rc (CellUnion.region v xs) pick = some out ∧ IsUnion out ∧ ∀ q, Covers out q → Covers v q := by
  obtain ⟨b1, b2⟩ := union_bound hfl hB hxs hv.1
  obtain ⟨out, h1, h2, -, h3⟩ := c44_interior hmin hmax hm1 hm3 (r := CellUnion.region v xs) b1 pick
  refine ⟨out, h1, h2, fun q hq => ?_⟩
  obtain ⟨Y, hY, k1, hYq⟩ := h3 q hq
  obtain ⟨b, e1, e2⟩ := c29_containsCellID_union hv hY
  have k3 : (containsCellID v Y == some true) = true := k1
  rw [e1, beq_iff_eq, Option.some.injEq] at k3
  obtain ⟨x, hx, h⟩ := e2.1 k3
  exact ⟨x, hx, h q hYq⟩

/-- **C106.** `fast_covering` of a union covers the union. -/
theorem c106_fastCovering (hv : AllCells v) {rc : RegionCoverer} (hmin : rc.minLevel ≤ 30) :
    ∃ out, fastCovering rc (CellUnion.region v xs) = some out ∧ IsUnion out ∧ ∀ q, Covers v q → Covers out q := by
  obtain ⟨b1, b2⟩ := union_bound hfl hB hxs hv
  obtain ⟨out, h1, h2, h3⟩ := c46_fastCovering_covers hmin (r := CellUnion.region v xs) b1
  exact ⟨out, h1, h2, fun q hq => h3 q (b2 q hq)⟩

end union

include hfl

/-- **C106.** Coverings of a cell: `covering` has all leaves of the cell, and each cell of it has one; `interior_covering` lies in the cell;
`fast_covering` has all leaves. -/
theorem c106_cell {c : CellID} (hc : Valid c) {rc : RegionCoverer} (hmin : rc.minLevel ≤ 30) (hmax : rc.maxLevel ≤ 30) (hm1 : 1 ≤ rc.levelMod)
    (hm3 : rc.levelMod ≤ 3) (pick : Nat → Nat) :
    ∃ C B xs, Cell.fromCellID _root_.id c = some C ∧ C.capBound _root_.id Real.sqrt = some B ∧
      B.cellUnionBound _root_.id Real.sqrt Real.arcsin (Real.sqrt 2) flq = some xs ∧ AllCells xs ∧ (∀ q, HasLeaf c.id.toNat q → Covers xs q) ∧
      (∃ out, covering rc (Cell.region c xs) pick = some out ∧ IsUnion out ∧ (∀ q, HasLeaf c.id.toNat q → Covers out q) ∧
        ∀ d ∈ out, ∃ q, HasLeaf d.id.toNat q ∧ HasLeaf c.id.toNat q) ∧
      (∃ out, interiorCovering rc (Cell.region c xs) pick = some out ∧ IsUnion out ∧ ∀ q, Covers out q → HasLeaf c.id.toNat q) ∧
      ∃ out, fastCovering rc (Cell.region c xs) = some out ∧ IsUnion out ∧ ∀ q, HasLeaf c.id.toNat q → Covers out q := by
  obtain ⟨C, hC⟩ := cell_exists hc
  obtain ⟨B, e1, h1, -, h2, h3, h4, -⟩ := c88_capBound hc hC
  have hr : B.radius ≤ 4 := by linarith
  obtain ⟨xs, k1, k2, -⟩ := c98_covers hfl h1 hr
  have ha := (allCells_iff _).2 k2
  have hcov : ∀ q, HasLeaf c.id.toNat q → Covers xs q := fun q hq => bound_cell hfl h1 hr k1 hc (fun D hD p hp hin => by
    rw [hC] at hD
    obtain rfl := Option.some.inj hD
    exact h4 p hin hp) hq
  refine ⟨C, B, xs, hC, e1, k1, ha, hcov, ?_, ?_, ?_⟩
  · obtain ⟨out, o1, o2, o3⟩ := c42_covering_covers (r := Cell.region c xs) hmin hmax hm1 hm3 (R := HasLeaf c.id.toNat) (by
      intro X q hX hR hq
      obtain ⟨b, e1, e2, -⟩ := c04_intersects hc hX
      show (c.intersects X == some true) = true
      rw [e1, e2.2 ⟨q, hR, hq⟩]
      rfl) ha hcov pick
    refine ⟨out, o1, o2, o3, fun d hd => ?_⟩
    obtain ⟨X, hX, k1, k2⟩ := c42_covering_tight hmin hmax hm1 hm3 (r := Cell.region c xs) ha pick o1 d hd
    obtain ⟨b, e1, e2, -⟩ := c04_intersects hc hX
    have k3 : (c.intersects X == some true) = true := k2
    rw [e1, beq_iff_eq, Option.some.injEq] at k3
    obtain ⟨q, hR, hq⟩ := e2.1 k3
    exact ⟨q, (c03_contains_iff ((allCells_iff _).1 o2.1 d hd) hX).1 k1 q hq, hR⟩
  · obtain ⟨out, o1, o2, -, o3⟩ := c44_interior hmin hmax hm1 hm3 (r := Cell.region c xs) ha pick
    refine ⟨out, o1, o2, fun q hq => ?_⟩
    obtain ⟨Y, hY, k1, hYq⟩ := o3 q hq
    have k3 : (c.contains Y == some true) = true := k1
    rw [beq_iff_eq] at k3
    exact (c03_contains_iff hc hY).1 k3 q hYq
  · obtain ⟨out, o1, o2, o3⟩ := c46_fastCovering_covers hmin (r := Cell.region c xs) ha
    exact ⟨out, o1, o2, fun q hq => o3 q (hcov q hq)⟩

/-- **C106.** Coverings of a point: `covering` and `fast_covering` have a cell with the leaf of the point, each cell of `covering` has a cell in which
`Cell::contains_point` accepts the point, and `interior_covering` is empty. -/
theorem c106_point {p : Vec ℝ} (hp : UnitV p) {eps : ℝ} (he : 0 ≤ eps) {rc : RegionCoverer} (hmin : rc.minLevel ≤ 30) (hmax : rc.maxLevel ≤ 30)
    (hm1 : 1 ≤ rc.levelMod) (hm3 : rc.levelMod ≤ 3) (pick : Nat → Nat) :
    ∃ l xs, fromPoint _root_.id Real.sqrt p = some l ∧ (Cap.ofPoint p).cellUnionBound _root_.id Real.sqrt Real.arcsin (Real.sqrt 2) flq = some xs ∧
      (∃ out, covering rc (Vec.region _root_.id eps p xs) pick = some out ∧ IsUnion out ∧ (∃ X ∈ out, X.contains l = some true) ∧
        ∀ d ∈ out, ∃ X C, Valid X ∧ d.contains X = some true ∧ Cell.fromCellID _root_.id X = some C ∧ C.containsPoint _root_.id eps p = some true) ∧
      interiorCovering rc (Vec.region _root_.id eps p xs) pick = some [] ∧
      ∃ out, fastCovering rc (Vec.region _root_.id eps p xs) = some out ∧ IsUnion out ∧ ∃ X ∈ out, X.contains l = some true := by
  have h4 : (Cap.ofPoint p).radius ≤ 4 := by unfold Cap.ofPoint; norm_num
  obtain ⟨l, _, _, _, _, _, _, _, e1, e2, e3, -⟩ := point_lines hp
  obtain ⟨xs, k1, k2, -⟩ := c98_covers hfl (c := Cap.ofPoint p) hp h4
  have ha := (allCells_iff _).2 k2
  have hin : InCap (Cap.ofPoint p) p := by unfold InCap Cap.ofPoint dot diff; norm_num
  obtain ⟨q, hq⟩ := leaf_exists e2 e3
  have hcov := bound_leaves hfl hp h4 k1 hp hin e1 hq
  refine ⟨l, xs, e1, k1, ?_, ?_, ?_⟩
  · obtain ⟨out, o1, o2, o3⟩ := c42_covering_covers (r := Vec.region _root_.id eps p xs) hmin hmax hm1 hm3 (R := fun r => r = q) (by
      rintro X _ hX rfl hXq
      obtain ⟨C, hC⟩ := cell_exists hX
      have := fromPoint_inCell hp e1 hX ((contains_leaf hX e2 e3 hq).2 hXq) hC
      show (((Cell.fromCellID _root_.id X).bind fun c => c.containsPoint _root_.id eps p) == some true) = true
      rw [hC, Option.bind_some, inCell_containsPoint hX hC he this]
      rfl) ha (by rintro _ rfl; exact hcov) pick
    obtain ⟨X, hX, hXq⟩ := o3 q rfl
    refine ⟨out, o1, o2, ⟨X, hX, (contains_leaf ((allCells_iff _).1 o2.1 X hX) e2 e3 hq).2 hXq⟩, fun d hd => ?_⟩
    obtain ⟨Y, hY, r1, r2⟩ := c42_covering_tight hmin hmax hm1 hm3 (r := Vec.region _root_.id eps p xs) ha pick o1 d hd
    obtain ⟨C, hC⟩ := cell_exists hY
    have k3 : (((Cell.fromCellID _root_.id Y).bind fun c => c.containsPoint _root_.id eps p) == some true) = true := r2
    rw [hC, Option.bind_some, beq_iff_eq] at k3
    exact ⟨Y, C, hY, r1, hC, k3⟩
  · obtain ⟨out, o1, o2, -, o3⟩ := c44_interior hmin hmax hm1 hm3 (r := Vec.region _root_.id eps p xs) ha pick
    rcases out with - | ⟨d, out⟩
    · exact o1
    · obtain ⟨k, r, hd, rfl⟩ := ((allCells_iff _).1 o2.1 d (by simp)).cell
      obtain ⟨Y, -, h, -⟩ := o3 (r * 4 ^ (30 - k)) ⟨mk k r, by simp, (hasLeaf_mk hd).2 (Nat.mul_div_cancel _ (by positivity))⟩
      exact absurd h (by simp [Vec.region])
  · obtain ⟨out, o1, o2, o3⟩ := c46_fastCovering_covers hmin (r := Vec.region _root_.id eps p xs) ha
    obtain ⟨X, hX, hXq⟩ := o3 q hcov
    exact ⟨out, o1, o2, X, hX, (contains_leaf ((allCells_iff _).1 o2.1 X hX) e2 e3 hq).2 hXq⟩

end regions

-- a union of cells of three levels on two faces
example {flq : ℚ → ℚ} (hfl : Rounding flq) (pick : Nat → Nat) : ∃ B xs out, CellUnion.capBound _root_.id Real.sqrt Real.pi exU = some B ∧ B.isEmpty = false ∧
    B.cellUnionBound _root_.id Real.sqrt Real.arcsin (Real.sqrt 2) flq = some xs ∧ covering ⟨2, 20, 1, 8⟩ (CellUnion.region exU xs) pick = some out ∧ Covers out 0 := by
  obtain ⟨B, h1, -, -, h2, -⟩ := c106_capBound exU_normal.1.1 Real.pi
  obtain ⟨B', xs, h1', h3, -⟩ := c106_cellUnionBound hfl exU_normal.1.1 Real.pi
  rw [h1] at h1'
  obtain rfl := Option.some.inj h1'
  obtain ⟨out, h4, -, h5, -⟩ := c106_covering hfl h1 h3 exU_normal.1 (rc := ⟨2, 20, 1, 8⟩) (by decide) (by decide) (by decide) (by decide) pick
  exact ⟨B, xs, out, h1, Bool.eq_false_iff.2 fun h => absurd (h2.1 h) (by simp [exU]), h3, h4,
    h5 0 ⟨⟨0x1000000000000000#64⟩, by simp [exU], 0, 0, by decide +kernel, by decide +kernel, by decide +kernel⟩⟩

-- its interior covering
example {flq : ℚ → ℚ} (hfl : Rounding flq) (pick : Nat → Nat) : ∃ B xs out, CellUnion.capBound _root_.id Real.sqrt Real.pi exU = some B ∧
    B.cellUnionBound _root_.id Real.sqrt Real.arcsin (Real.sqrt 2) flq = some xs ∧ interiorCovering ⟨2, 20, 1, 8⟩ (CellUnion.region exU xs) pick = some out ∧
    ∀ q, Covers out q → Covers exU q := by
  obtain ⟨B, xs, h1, h3, -⟩ := c106_cellUnionBound hfl exU_normal.1.1 Real.pi
  obtain ⟨out, h4, -, h5⟩ := c106_interior hfl h1 h3 exU_normal.1 (rc := ⟨2, 20, 1, 8⟩) (by decide) (by decide) (by decide) (by decide) pick
  exact ⟨B, xs, out, h1, h3, h4, h5⟩

-- a cell of face 3
example : Valid ⟨0x6060730000000000#64⟩ := by unfold Valid; decide +kernel

-- a point on face 0
example {flq : ℚ → ℚ} (hfl : Rounding flq) (pick : Nat → Nat) : ∃ xs, interiorCovering ⟨0, 30, 1, 8⟩ (Vec.region _root_.id (1 / 2 ^ 52) (⟨40 / 41, 9 / 41, 0⟩ : Vec ℝ) xs) pick = some [] ∧
    ∃ out, covering ⟨0, 30, 1, 8⟩ (Vec.region _root_.id (1 / 2 ^ 52) (⟨40 / 41, 9 / 41, 0⟩ : Vec ℝ) xs) pick = some out ∧ out ≠ [] := by
  obtain ⟨l, xs, -, -, ⟨out, h1, -, ⟨X, hX, -⟩, -⟩, h2, -⟩ := c106_point hfl (p := ⟨40 / 41, 9 / 41, 0⟩) (by unfold UnitV dot; norm_num) (eps := 1 / 2 ^ 52) (by positivity)
    (rc := ⟨0, 30, 1, 8⟩) (by decide) (by decide) (by decide) (by decide) pick
  exact ⟨xs, h2, out, h1, List.ne_nil_of_mem hX⟩

end Verif
