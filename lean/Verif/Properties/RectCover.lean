import Verif.Model.UnionRegion
import Verif.Properties.CapUnion
import Verif.Properties.RectCell
import Verif.Properties.RectExact
import Verif.Properties.ExpandRadius

/-!
# C108: coverings of rectangles

Exact arithmetic over the reals. `fast_covering` covers, `interior_covering` lies inside, `covering` can miss points.
-/

namespace Verif
open Spec CellID CellUnion S2 RegionCoverer

theorem dist_le_four {p q : Vec ℝ} (hp : UnitV p) (hq : UnitV q) : dot (diff p q) (diff p q) ≤ 4 := by
  have h := dot_self_nonneg (lin 1 p 1 q)
  have e : dot (diff p q) (diff p q) + dot (lin 1 p 1 q) (lin 1 p 1 q) = 2 * dot p p + 2 * dot q q := by
    simp only [dot, diff, lin]; ring
  rw [hp, hq] at e
  linarith

section rect
variable {flq : ℚ → ℚ} (hfl : Rounding flq) {r : S2.Rect ℝ} (hv : r.isValid Real.pi = true) {rem : ℝ → ℝ} (hr : S1.IsRem Real.pi rem)

include hv hr in
theorem rect_cap : UnitV (r.capBound Real.pi _root_.id Real.sin Real.cos rem).center ∧ (r.capBound Real.pi _root_.id Real.sin Real.cos rem).radius ≤ 4 := by
  obtain ⟨h1, h2, -, h3⟩ := c89_capBound hv hr
  refine ⟨h2, ?_⟩
  by_cases hE : r.isEmpty = true
  · have := of_decide_eq_true (h1 hE)
    linarith
  · obtain ⟨a, b, -, e⟩ := h3 (by simpa using hE)
    rw [← e]
    exact dist_le_four (unit_direction a b) h2

include hfl hv hr in
/-- **C108.** `cell_union_bound` of a rectangle returns at most six valid cells, one of which contains the leaf of every point of the rectangle. -/
theorem c108_cellUnionBound : ∃ xs, (r.capBound Real.pi _root_.id Real.sin Real.cos rem).cellUnionBound _root_.id Real.sqrt Real.arcsin (Real.sqrt 2) flq = some xs ∧
    AllCells xs ∧ xs.length ≤ 6 ∧ ∀ a b, RPts Real.pi r a b → ∃ l X, fromPoint _root_.id Real.sqrt (direction a b) = some l ∧ X ∈ xs ∧ X.contains l = some true := by
  obtain ⟨h1, h2⟩ := rect_cap hv hr
  obtain ⟨xs, k1, k2, k3, -, k4⟩ := c98_covers hfl h1 h2
  exact ⟨xs, k1, (allCells_iff _).2 k2, k3, fun a b hab => k4 _ (unit_direction a b)
    ((c64_containsPoint h1 (unit_direction a b)).1.1 ((c89_capBound hv hr).2.2.1 a b hab))⟩

variable {xs : List CellID} (hxs : (r.capBound Real.pi _root_.id Real.sin Real.cos rem).cellUnionBound _root_.id Real.sqrt Real.arcsin (Real.sqrt 2) flq = some xs)
  {atan2 : ℝ → ℝ → ℝ} (h : IsArg atan2) {eps : ℝ} (he : 0 ≤ eps) {rc : RegionCoverer} (hmin : rc.minLevel ≤ 30)

include hfl hv hr hxs hmin in
/-- **C108.** `fast_covering` of a rectangle has the leaf of every point of the rectangle. -/
theorem c108_fastCovering : ∃ out, fastCovering rc (r.region Real.pi _root_.id Real.sqrt Real.sin Real.cos Real.arcsin atan2 rem eps xs) = some out ∧ IsUnion out ∧
    ∀ a b, RPts Real.pi r a b → ∃ l X, fromPoint _root_.id Real.sqrt (direction a b) = some l ∧ X ∈ out ∧ X.contains l = some true := by
  obtain ⟨h1, h2⟩ := rect_cap hv hr
  obtain ⟨out, k1, k2, k3⟩ := c46_fastCovering_covers hmin (r := r.region Real.pi _root_.id Real.sqrt Real.sin Real.cos Real.arcsin atan2 rem eps xs)
    (bound_spec hfl h1 h2 hxs).1
  exact ⟨out, k1, k2, fun a b hab => covers_point k2 (unit_direction a b) fun l q hl hq => k3 q (bound_leaves hfl h1 h2 hxs (unit_direction a b)
    ((c64_containsPoint h1 (unit_direction a b)).1.1 ((c89_capBound hv hr).2.2.1 a b hab)) hl hq)⟩

include hfl hv hr hxs h he hmin

/-- **C108.** Every point whose leaf is in a cell of `interior_covering` of a rectangle is in the rectangle. -/
theorem c108_interior (he1 : eps ≤ 1) (hmax : rc.maxLevel ≤ 30) (hm1 : 1 ≤ rc.levelMod) (hm3 : rc.levelMod ≤ 3) (pick : Nat → Nat) :
    ∃ out, interiorCovering rc (r.region Real.pi _root_.id Real.sqrt Real.sin Real.cos Real.arcsin atan2 rem eps xs) pick = some out ∧ IsUnion out ∧
      ∀ p l X, UnitV p → fromPoint _root_.id Real.sqrt p = some l → X ∈ out → X.contains l = some true →
        r.containsLatLng Real.pi (LatLng.ofPoint _root_.id Real.sqrt atan2 p) = true := by
  obtain ⟨h1, h2⟩ := rect_cap hv hr
  obtain ⟨out, k1, k2, -, k3⟩ := c44_interior hmin hmax hm1 hm3 (r := r.region Real.pi _root_.id Real.sqrt Real.sin Real.cos Real.arcsin atan2 rem eps xs)
    (bound_spec hfl h1 h2 hxs).1 pick
  refine ⟨out, k1, k2, fun p l X hp hl hX hXl => ?_⟩
  obtain ⟨l', f, u, v, t, i, j, o, e1, e2, e3, -⟩ := point_lines hp
  rw [hl] at e1
  obtain rfl := Option.some.inj e1
  obtain ⟨q, hq⟩ := leaf_exists e2 e3
  obtain ⟨Y, hY, h5, hYq⟩ := k3 q ⟨X, hX, (contains_leaf ((allCells_iff _).1 k2.1 X hX) e2 e3 hq).1 hXl⟩
  obtain ⟨C, hC⟩ := cell_exists hY
  obtain ⟨b, g1, g2⟩ := c91_containsCell hv hY hC h hr he he1
  have h6 : (((Cell.fromCellID _root_.id Y).bind fun c => r.containsCell Real.pi _root_.id Real.sqrt Real.arcsin atan2 rem eps c) == some true) = true := h5
  rw [hC, Option.bind_some, g1, beq_iff_eq, Option.some.injEq] at h6
  exact g2 h6 p (fromPoint_inCell hp hl hY ((contains_leaf hY e2 e3 hq).2 hYq) hC)

/-- **C108.** `covering` of a rectangle is not loose: every cell of it contains a cell in which `Cell::contains_point` accepts a point of the rectangle. -/
theorem c108_tight (hmax : rc.maxLevel ≤ 30) (hm1 : 1 ≤ rc.levelMod) (hm3 : rc.levelMod ≤ 3) (pick : Nat → Nat) :
    ∃ out, covering rc (r.region Real.pi _root_.id Real.sqrt Real.sin Real.cos Real.arcsin atan2 rem eps xs) pick = some out ∧ IsUnion out ∧
      ∀ d ∈ out, ∃ X C a b, Valid X ∧ d.contains X = some true ∧ Cell.fromCellID _root_.id X = some C ∧ RPts Real.pi r a b ∧
        C.containsPoint _root_.id eps (direction a b) = some true := by
  obtain ⟨h1, h2⟩ := rect_cap hv hr
  have hb := (bound_spec hfl h1 h2 hxs).1
  obtain ⟨out, k1, k2, -⟩ := covering_both (rc := rc) ⟨hmin, hmax, hm1, hm3⟩ false (R := fun _ => False)
    (r := r.region Real.pi _root_.id Real.sqrt Real.sin Real.cos Real.arcsin atan2 rem eps xs) (fun _ _ _ _ h => h.elim) pick hb (fun _ _ h => h.elim)
  refine ⟨out, k1, k2, fun d hd => ?_⟩
  obtain ⟨X, hX, g1, g2⟩ := c42_covering_tight hmin hmax hm1 hm3 (r := r.region Real.pi _root_.id Real.sqrt Real.sin Real.cos Real.arcsin atan2 rem eps xs) hb pick k1 d hd
  obtain ⟨C, hC⟩ := cell_exists hX
  have h6 : (((Cell.fromCellID _root_.id X).bind fun c => r.intersectsCell Real.pi _root_.id Real.sqrt Real.sin Real.cos Real.arcsin atan2 rem eps c) == some true) = true := g2
  rw [hC, Option.bind_some, beq_iff_eq] at h6
  obtain ⟨a, b, e1, e2⟩ := c94_sound h hv hX hC he h6
  exact ⟨X, C, a, b, hX, g1, hC, e1, e2⟩

end rect

/-- A direction strictly inside face 0 belongs to the cell of face 0. -/
theorem face0_leaf {p : Vec ℝ} (hp : UnitV p) (hy : |p.y| < p.x) (hz : |p.z| < p.x) {c : CellID} (hc : CellID.fromFace 0 = some c) :
    ∃ l, fromPoint _root_.id Real.sqrt p = some l ∧ Valid l ∧ l.level = some 30 ∧ c.contains l = some true := by
  obtain ⟨l, f, u, v, t, i, j, o, e1, e2, e3, e4, hf, ht, e5, e6, e7, -⟩ := point_lines hp
  obtain ⟨c', h1, h2, h3, h4⟩ := c15_fromFace (f := 0) (by decide)
  rw [hc] at h1
  obtain rfl := Option.some.inj h1
  have sq := face_square h2 h3
  rw [h4] at sq
  have f0 : f = 0 := by
    rw [abs_lt] at hy hz
    rw [abs_le] at e6 e7
    have k1 : -t ≤ t * u := by nlinarith
    have k2 : t * u ≤ t := by nlinarith
    have k3 : -t ≤ t * v := by nlinarith
    have k4 : t * v ≤ t := by nlinarith
    have a1 := congrArg Vec.x e5
    have a2 := congrArg Vec.y e5
    have a3 := congrArg Vec.z e5
    interval_cases f
    · rfl
    all_goals
      exfalso
      simp only [loc] at a1 a2 a3
      linarith
  subst f0
  have q := sq.leaves l 0 i j e2 e3 ⟨o, e4⟩
  have sl := leaf_square e2 e3 ⟨o, e4⟩
  exact ⟨l, e1, e2, e3, q.2 ⟨rfl, sl.i_lo, by have := sl.i_hi; omega, sl.j_lo, by have := sl.j_hi; omega⟩⟩

/-- Cells of one level with a common descendant are equal. -/
theorem same_level {a b l : CellID} (ha : Valid a) (hb : Valid b) (hl : Valid l) {k : Nat} (la : a.level = some k) (lb : b.level = some k)
    (h1 : a.contains l = some true) (h2 : b.contains l = some true) : a = b := by
  obtain ⟨r, e, -, h⟩ := c03_contains ha hl
  rw [h1] at e
  obtain ⟨ka, kl, f1, -, -, f2⟩ := h.1 (Option.some.inj e).symm
  obtain ⟨r', e', -, h'⟩ := c03_contains hb hl
  rw [h2] at e'
  obtain ⟨kb, kl', f3, -, -, f4⟩ := h'.1 (Option.some.inj e').symm
  rw [la] at f1
  rw [lb] at f3
  obtain rfl := Option.some.inj f1
  obtain rfl := Option.some.inj f3
  rw [f2] at f4
  exact Option.some.inj f4

/-- Every cell of a covering contains a cell of a permitted level that meets the region. -/
theorem covering_done {rc : RegionCoverer} (hp : Params rc) {r : Region} (pick : Nat → Nat) (hb : AllCells r.cellUnionBound) :
    ∃ out, covering rc r pick = some out ∧ IsUnion out ∧ (rc.minLevel ≤ rc.maxLevel → ∀ d ∈ out, Valid d ∧ lv d ≤ rc.maxLevel ∧
      ∃ x, Valid x ∧ lv x ≤ rc.maxLevel ∧ d.contains x = some true ∧ r.intersectsCell x = true) := by
  rw [allCells_iff] at hb
  obtain ⟨res, e, r1, -, -⟩ := coveringInternal_spec hp false (R := fun _ => False) (fun _ _ _ _ h => h.elim) pick hb (fun _ _ h => h.elim)
  obtain ⟨u, out, eu, eo, o1, o2, -, o4, -, o6⟩ := finish hp r1
  refine ⟨out, ?_, (isUnion_iff out).2 ⟨o1, o2⟩, fun hl d hd => ⟨o1 d hd, (o4 d hd).2.1 hl, ?_⟩⟩
  · unfold covering cellUnion
    simp only [Option.bind_eq_bind]
    rw [e, Option.bind_some, eu, Option.bind_some, clamp_min hp, clamp_mod hp, eo]
  · obtain ⟨x, hx, hxd⟩ := o6 d hd
    exact ⟨x, (r1 x hx).valid, (r1 x hx).max hl, (within_iff (r1 x hx).valid (o1 d hd)).2 hxd, (r1 x hx).meets⟩

/-- **C108.** `covering` of a rectangle can miss points of the rectangle: with level 0 only, the covering of the rectangle of C94 has no cell with the
leaf of the direction (1, 0, 0.95), whatever the order of the queue and whatever the bound. -/
theorem c108_missed {atan2 : ℝ → ℝ → ℝ} (h : IsArg atan2) {rem : ℝ → ℝ} (hr : S1.IsRem Real.pi rem) {eps : ℝ} (he : 0 ≤ eps) (he1 : eps ≤ 1 / 100) :
    ∃ r : S2.Rect ℝ, r.isValid Real.pi = true ∧ ∃ a b l, RInts Real.pi r a b ∧ fromPoint _root_.id Real.sqrt (direction a b) = some l ∧
      ∀ xs, AllCells xs → ∀ rc : RegionCoverer, rc.minLevel = 0 → rc.maxLevel = 0 → 1 ≤ rc.levelMod → rc.levelMod ≤ 3 → ∀ pick,
        ∃ out, covering rc (r.region Real.pi _root_.id Real.sqrt Real.sin Real.cos Real.arcsin atan2 rem eps xs) pick = some out ∧
          ∀ X ∈ out, X.contains l = some false := by
  obtain ⟨c, C, e1, hc, hC, r, hv, ⟨a, b, hab, -, hy, hz⟩, ef⟩ := c94_missed h hr he he1
  obtain ⟨l, g1, g2, g3, g4⟩ := face0_leaf (unit_direction a b) hy hz e1
  refine ⟨r, hv, a, b, l, hab, g1, fun xs hxs rc hmin hmax hm1 hm3 pick => ?_⟩
  have hp : Params rc := ⟨by omega, by omega, hm1, hm3⟩
  obtain ⟨out, k1, k2, k3⟩ := covering_done hp (r := r.region Real.pi _root_.id Real.sqrt Real.sin Real.cos Real.arcsin atan2 rem eps xs) pick hxs
  refine ⟨out, k1, fun X hX => ?_⟩
  obtain ⟨hX0, hXl, x, hx, hxl, hXx, h5⟩ := k3 (by omega) X hX
  have u1 : lv X = 0 := by omega
  have u2 : lv x = 0 := by omega
  obtain ⟨b, q1, -, q2⟩ := c03_contains hX0 g2
  cases b with
  | false => exact q1
  | true =>
    exfalso
    have eX := same_level hX0 hc g2 (by rw [hX0.level, u1]) (c15_fromFace (f := 0) (by decide) |>.elim fun c' hc' => by
      rw [e1] at hc'; exact (Option.some.inj hc'.1) ▸ hc'.2.2.1) q1 g4
    have ex := same_level hX0 hx hx (by rw [hX0.level, u1]) (by rw [hx.level, u2]) hXx (c03_refl hx)
    rw [← ex, eX] at h5
    have h6 : (((Cell.fromCellID _root_.id c).bind fun c => r.intersectsCell Real.pi _root_.id Real.sqrt Real.sin Real.cos Real.arcsin atan2 rem eps c) == some true) = true := h5
    rw [hC, Option.bind_some, ef] at h6
    exact absurd h6 (by decide)

/-! ## Instances -/

/-- The rectangle [-1/2, 1] x [2, -2], which crosses the antimeridian: the direction (1, 2) is covered by `fast_covering`, and `interior_covering` and
`covering` return unions. -/
example {flq : ℚ → ℚ} (hfl : Rounding flq) : ∃ xs out out' out'' l X,
    (exRect.capBound Real.pi _root_.id Real.sin Real.cos exists_rem_real.choose).cellUnionBound _root_.id Real.sqrt Real.arcsin (Real.sqrt 2) flq = some xs ∧
    fastCovering ⟨4, 20, 2, 8⟩ (exRect.region Real.pi _root_.id Real.sqrt Real.sin Real.cos Real.arcsin (fun y x => Complex.arg ⟨x, y⟩)
      exists_rem_real.choose (1 / 2 ^ 53) xs) = some out ∧
    fromPoint _root_.id Real.sqrt (direction 1 2) = some l ∧ X ∈ out ∧ X.contains l = some true ∧
    interiorCovering ⟨4, 20, 2, 8⟩ (exRect.region Real.pi _root_.id Real.sqrt Real.sin Real.cos Real.arcsin (fun y x => Complex.arg ⟨x, y⟩)
      exists_rem_real.choose (1 / 2 ^ 53) xs) (fun _ => 0) = some out' ∧ IsUnion out' ∧
    covering ⟨4, 20, 2, 8⟩ (exRect.region Real.pi _root_.id Real.sqrt Real.sin Real.cos Real.arcsin (fun y x => Complex.arg ⟨x, y⟩)
      exists_rem_real.choose (1 / 2 ^ 53) xs) (fun _ => 0) = some out'' ∧ IsUnion out'' := by
  obtain ⟨h1, h2⟩ := exRect_valid
  have hr := exists_rem_real.choose_spec
  obtain ⟨xs, k1, -⟩ := c108_cellUnionBound hfl h1 hr
  obtain ⟨out, k2, -, k3⟩ := c108_fastCovering hfl h1 hr k1 (atan2 := fun y x => Complex.arg ⟨x, y⟩) (eps := 1 / 2 ^ 53) (rc := ⟨4, 20, 2, 8⟩) (by decide)
  obtain ⟨l, X, k4, k5, k6⟩ := k3 1 2 (c72_vertex Real.pi_pos h1 h2 3)
  obtain ⟨out', k7, k8, -⟩ := c108_interior hfl h1 hr k1 isArg_arg (eps := 1 / 2 ^ 53) (by positivity) (rc := ⟨4, 20, 2, 8⟩) (by decide) (by norm_num)
    (by decide) (by decide) (by decide) (fun _ => 0)
  obtain ⟨out'', k9, k10, -⟩ := c108_tight hfl h1 hr k1 isArg_arg (eps := 1 / 2 ^ 53) (by positivity) (rc := ⟨4, 20, 2, 8⟩) (by decide)
    (by decide) (by decide) (by decide) (fun _ => 0)
  exact ⟨xs, out, out', out'', l, X, k1, k2, k4, k5, k6, k7, k8, k9, k10⟩

end Verif
