import Verif.Model.CapUnion
import Verif.Proofs.CapUnion2
import Verif.Properties.CapCell
import Verif.Properties.Metric
import Verif.Properties.Coverer

/-!
# C98 and C99: coverings of caps

Exact arithmetic over the reals. `flq` is the rounding inside `vertex_neighbors`, `eps` the margin of `Cell::contains_point`, `pick` the
order of the priority queue.
-/

namespace Verif
open Spec CellID RegionCoverer

/-- A point from its coordinates in the frame of a face. -/
theorem loc_inv {f : Nat} (hf : f < 6) {p : Vec ℝ} {u v t : ℝ} (h : loc f p = ⟨t, t * u, t * v⟩) :
    ∃ w, faceUVtoXYZ f u v = some w ∧ p = smul t w := by
  obtain ⟨x, y, z⟩ := p
  interval_cases f <;> refine ⟨_, rfl, ?_⟩ <;> simp only [loc, Vec.mk.injEq] at h <;> obtain ⟨h1, h2, h3⟩ := h <;>
    apply vec_ext' <;> simp only [smul] <;> linarith

/-- The points of the leaves of a cell are points of the cell. -/
theorem fromPoint_inCell {p : Vec ℝ} (hp : UnitV p) {l X : CellID} (hl : fromPoint _root_.id Real.sqrt p = some l) (hX : Valid X)
    (hc : X.contains l = some true) {C : Cell ℝ} (hC : Cell.fromCellID _root_.id X = some C) : InCell C p := by
  obtain ⟨l', f, u, v, t, i, j, o, e1, e2, e3, e4, hf, ht, e5, -, -, ⟨u1, u2⟩, v1, v2⟩ := point_lines hp
  rw [hl] at e1
  obtain rfl := Option.some.inj e1
  have sq := hX.square
  obtain ⟨hfX, a1, a2, a3, a4⟩ := (sq.leaves l f i j e2 e3 ⟨o, e4⟩).1 hc
  have r := (c68_from (_root_.id : ℝ → ℝ) hX hX.level hX.square hX.faceIJ).1
  rw [hC] at r
  rw [Option.some.inj r]
  subst hfX
  have line : ∀ a : Int, uvLine (_root_.id : ℝ → ℝ) a = gUV (grd a) := by
    intro a
    unfold uvLine
    rw [gUV_stToUV]
    rfl
  have hw := loc_inv hf e5
  obtain ⟨w, hw1, hw2⟩ := hw
  refine ⟨u, v, w, t, ⟨⟨?_, ?_⟩, ?_, ?_⟩, hw1, ht, hw2⟩ <;> dsimp only [uvRect] <;> rw [line]
  · exact (gUV_mono.monotone (grd_le.2 a1)).trans u1
  · exact u2.trans (gUV_mono.monotone (grd_le.2 (by omega)))
  · exact (gUV_mono.monotone (grd_le.2 a3)).trans v1
  · exact v2.trans (gUV_mono.monotone (grd_le.2 (by omega)))

/-- The radius of a cap as an angle. -/
theorem angle_spec {c : Cap ℝ} (hc : UnitV c.center) (h4 : c.radius ≤ 4) {p : Vec ℝ} (hp : UnitV p) (h : InCap c p) :
    0 ≤ c.radius ∧ 0 ≤ c.angle _root_.id Real.sqrt Real.arcsin ∧ c.angle _root_.id Real.sqrt Real.arcsin ≤ Real.pi ∧
      ang c.center p ≤ c.angle _root_.id Real.sqrt Real.arcsin := by
  have h0 : 0 ≤ c.radius := (dot_self_nonneg _).trans h
  obtain ⟨a1, a2, a3⟩ := chordOf_surj h0 h4
  have e : c.angle _root_.id Real.sqrt Real.arcsin = 2 * Real.arcsin (1 / 2 * Real.sqrt c.radius) := by
    unfold Cap.angle
    rw [if_neg (not_lt.2 h0)]
    rfl
  rw [e]
  refine ⟨h0, a1, a2, ?_⟩
  unfold InCap at h
  rw [← (dist_le_chord hp hc a1 a2).1, a3]
  exact h

theorem width_value {L : Nat} (hL : L + 1 ≤ 30) : (minWidthMetric (_root_.id : ℝ → ℝ) (Real.sqrt 2)).value (L + 1) =
    widthOf (2 * ((((2 ^ (30 - L) : Nat) : Int) : ℝ) / 2 ^ 30)) := by
  have e : (2 : ℝ) ^ (30 - L) * 2 ^ L = 2 ^ 30 := by rw [← pow_add]; congr 1; omega
  have h2 : (2 : ℝ) ^ L ≠ 0 := by positivity
  have v : (minWidthMetric (_root_.id : ℝ → ℝ) (Real.sqrt 2)).value (L + 1) = (2 * Real.sqrt 2 / 3) * ((2 : ℝ) ^ (L + 1))⁻¹ := by
    rw [S2.Metric.value_eq]
    show _ * ((2 : ℝ) ^ (((1 : Nat) : Int) * ((L + 1 : Nat) : Int)))⁻¹ = _
    rw [Nat.cast_one, one_mul, zpow_natCast]
    rfl
  rw [v, widthOf, Int.cast_natCast, Nat.cast_pow, Nat.cast_ofNat, ← e, pow_succ]
  field_simp
  ring

theorem faces_ok : ∃ xs, [0#64, 1#64, 2#64, 3#64, 4#64, 5#64].mapM CellID.fromFace = some xs ∧ (∀ X ∈ xs, Valid X) ∧ xs.length = 6 ∧
    ∀ f < 6, ∃ X ∈ xs, Valid X ∧ X.level = some 0 ∧ X.face = f := by
  obtain ⟨x0, a0, b0, c0, d0⟩ := c15_fromFace (f := 0#64) (by decide)
  obtain ⟨x1, a1, b1, c1, d1⟩ := c15_fromFace (f := 1#64) (by decide)
  obtain ⟨x2, a2, b2, c2, d2⟩ := c15_fromFace (f := 2#64) (by decide)
  obtain ⟨x3, a3, b3, c3, d3⟩ := c15_fromFace (f := 3#64) (by decide)
  obtain ⟨x4, a4, b4, c4, d4⟩ := c15_fromFace (f := 4#64) (by decide)
  obtain ⟨x5, a5, b5, c5, d5⟩ := c15_fromFace (f := 5#64) (by decide)
  refine ⟨[x0, x1, x2, x3, x4, x5], ?_, ?_, rfl, ?_⟩
  · simp [List.mapM_cons, a0, a1, a2, a3, a4, a5]
  · intro X hX
    simp only [List.mem_cons, List.not_mem_nil, or_false] at hX
    rcases hX with rfl | rfl | rfl | rfl | rfl | rfl <;> assumption
  · intro f hf
    interval_cases f
    · exact ⟨x0, by simp, b0, c0, d0⟩
    · exact ⟨x1, by simp, b1, c1, d1⟩
    · exact ⟨x2, by simp, b2, c2, d2⟩
    · exact ⟨x3, by simp, b3, c3, d3⟩
    · exact ⟨x4, by simp, b4, c4, d4⟩
    · exact ⟨x5, by simp, b5, c5, d5⟩

theorem level0_eq {A B : CellID} (hA : Valid A) (hB : Valid B) (lA : A.level = some 0) (lB : B.level = some 0) (h : A.face = B.face) : A = B := by
  obtain ⟨k, p, hc, rfl⟩ := hA.cell
  obtain ⟨l, q, hd, rfl⟩ := hB.cell
  rw [level_mk hc] at lA
  rw [level_mk hd] at lB
  obtain rfl := Option.some.inj lA
  obtain rfl := Option.some.inj lB
  rw [face_mk hc, face_mk hd] at h
  simp at h
  rw [h]

theorem level0_face {A : CellID} (hA : Valid A) : A.face < 6 := by
  obtain ⟨k, p, hc, rfl⟩ := hA.cell
  rw [face_mk hc]
  exact Nat.div_lt_of_lt_mul (by rw [mul_comm]; exact hc.2)

/-- The level at which the bound of a cap is taken. -/
theorem bound_level (v : ℝ) : ∃ L, (minWidthMetric (_root_.id : ℝ → ℝ) (Real.sqrt 2)).maxLevel _root_.id v = some L ∧ L ≤ 30 ∧
    (v ≤ Real.sqrt 2 / 3 → L ≠ 0) ∧ (v ≤ (minWidthMetric (_root_.id : ℝ → ℝ) (Real.sqrt 2)).value L ∨ L = 0) := by
  have hs : 0 < Real.sqrt 2 := Real.sqrt_pos.2 (by norm_num)
  have hm : 0 < (minWidthMetric (_root_.id : ℝ → ℝ) (Real.sqrt 2)).deriv := by
    show 0 < 2 * Real.sqrt 2 / 3
    positivity
  by_cases hv : v ≤ 0
  · refine ⟨30, ?_, le_rfl, fun _ => by decide, Or.inl (hv.trans ?_)⟩
    · unfold S2.Metric.maxLevel
      rw [if_pos hv]
    · rw [S2.Metric.value_eq]
      exact mul_nonneg hm.le (inv_nonneg.2 (zpow_nonneg (by norm_num) _))
  · obtain ⟨L, h1, h2, h3, h4⟩ := S2.Metric.c58_maxLevel (m := minWidthMetric (_root_.id : ℝ → ℝ) (Real.sqrt 2)) (Or.inl rfl) hm (not_le.1 hv)
    refine ⟨L, h1, h2, ?_, h4⟩
    rintro hle rfl
    have := h3 1 (by decide) (by decide)
    rw [width_value (L := 0) (by decide)] at this
    have e : widthOf (2 * ((((2 ^ (30 - 0) : Nat) : Int) : ℝ) / 2 ^ 30)) = Real.sqrt 2 / 3 := by
      unfold widthOf
      norm_num
      ring
    rw [e] at this
    linarith

/-- **C98.** `cell_union_bound` covers the cap: it returns without panic at most six valid cells (at most four if the angle of the cap is at
most the least width of a cell of level 1), and the leaf of every point of the cap is in one of them. -/
theorem c98_covers {flq : ℚ → ℚ} (hfl : Rounding flq) {c : Cap ℝ} (hc : UnitV c.center) (h4 : c.radius ≤ 4) :
    ∃ xs, c.cellUnionBound _root_.id Real.sqrt Real.arcsin (Real.sqrt 2) flq = some xs ∧ (∀ X ∈ xs, Valid X) ∧ xs.length ≤ 6 ∧
      (c.angle _root_.id Real.sqrt Real.arcsin ≤ Real.sqrt 2 / 3 → xs.length ≤ 4) ∧
      ∀ p, UnitV p → InCap c p → ∃ l X, fromPoint _root_.id Real.sqrt p = some l ∧ X ∈ xs ∧ X.contains l = some true := by
  obtain ⟨L, k1, k2, k3, k4⟩ := bound_level (c.angle _root_.id Real.sqrt Real.arcsin)
  unfold Cap.cellUnionBound
  rw [k1, Option.bind_eq_bind, Option.bind_some]
  by_cases h0 : L = 0
  · rw [if_pos h0]
    obtain ⟨xs, a1, a2, a3, a4⟩ := faces_ok
    refine ⟨xs, a1, a2, a3.le, fun h => absurd h0 (k3 h), fun p hp _ => ?_⟩
    obtain ⟨l, f, u, v, t, i, j, o, e1, e2, e3, e4, -⟩ := point_lines hp
    obtain ⟨A, b1, b2, b3, b4, -⟩ := c05_parent e2 e3 (show 0 ≤ 30 by decide)
    obtain ⟨X, c1, c2, c3, c4⟩ := a4 A.face (level0_face b2)
    exact ⟨l, X, e1, c1, by rw [level0_eq c2 b2 c3 b3 c4]; exact b4⟩
  rw [if_neg h0]
  obtain ⟨M, rfl⟩ := Nat.exists_eq_succ_of_ne_zero h0
  obtain ⟨l, f, u, v, t, i, j, o, e1, e2, e3, e4, -⟩ := point_lines hc
  obtain ⟨P, xs, A, b1, b2, -, -, b3, b4, b5, b6, -⟩ := c24_vertex_neighbors hfl e2 e3 (show M ≤ 30 by omega) (show M < 30 by omega)
  obtain ⟨B, d1, -⟩ := c05_parent e2 e3 (show M + 1 ≤ 30 by omega)
  have hlen : xs.length ≤ 4 := by rcases b6 with h | h <;> omega
  rw [e1]
  refine ⟨xs, ?_, fun X hX => ((b5 X).1 hX).1, by omega, fun _ => hlen, fun p hp hin => ?_⟩
  · rw [Option.bind_eq_bind, Option.bind_some, Nat.succ_eq_add_one]
    rw [Rust.natSub, if_pos (by omega), Option.bind_some]
    exact b1
  obtain ⟨-, r1, r2, r3⟩ := angle_spec hc h4 hp hin
  have hw := k4.resolve_right h0
  rw [Nat.succ_eq_add_one, width_value (by omega)] at hw
  obtain ⟨N, hN⟩ : ∃ N : Int, N = ((2 ^ (30 - M) : Nat) : Int) := ⟨_, rfl⟩
  rw [← hN] at hw
  have hN0 : 0 < N := by rw [hN]; positivity
  have hN1 : (N : ℝ) ≤ 2 ^ 30 := by
    rw [hN, Int.cast_natCast, Nat.cast_pow, Nat.cast_ofNat]
    exact pow_le_pow_right₀ (by norm_num) (by omega)
  have hH : 0 < 2 * ((N : ℝ) / 2 ^ 30) := by
    have : (0 : ℝ) < N := by exact_mod_cast hN0
    positivity
  have hH2 : 2 * ((N : ℝ) / 2 ^ 30) ≤ 2 := by
    have : (N : ℝ) / 2 ^ 30 ≤ 1 := (div_le_one (by positivity)).2 hN1
    linarith
  have hcos : Real.cos (widthOf (2 * ((N : ℝ) / 2 ^ 30))) ≤ dot c.center p := by
    rw [← cos_ang hc hp]
    exact Real.cos_le_cos_of_nonneg_of_le_pi (ang_nonneg _ _) ((widthOf_le hH hH2).trans (by linarith [Real.pi_gt_three])) (r3.trans hw)
  have reach := near_corner hc hp e1 (show M + 1 ≤ 30 by omega) d1 b2 b3 (b4 B (by omega) d1) hN hcos
  have hP : MeshPt N P := by
    obtain ⟨A', i0, j0, n, hn, hA', -, -, -, -, n0, ns, sq, ni, nj, -⟩ := parent_setting e2 e3 (show M ≤ 30 by omega) e4
    rw [b2] at hA'
    obtain rfl := Option.some.inj hA'
    rw [← hN] at hn
    obtain rfl := hn
    obtain ⟨f', i1, j1, s, a, b, sq', ha, hb, rfl⟩ := b3
    obtain ⟨rfl, rfl, rfl, rfl⟩ := square_unique sq' sq
    have w1 := sq'.i_lo
    have w2 := sq'.i_hi
    have w3 := sq'.j_lo
    have w4 := sq'.j_hi
    refine meshPt_of ns ?_ ?_ ?_ ?_ ?_ ?_
    · rcases ha with rfl | rfl <;> omega
    · rcases ha with rfl | rfl <;> omega
    · rcases hb with rfl | rfl <;> omega
    · rcases hb with rfl | rfl <;> omega
    · rcases ha with rfl | rfl
      · simpa using ni
      · exact dvd_add ni dvd_rfl
    · rcases hb with rfl | rfl
      · simpa using nj
      · exact dvd_add nj dvd_rfl
  obtain ⟨m, _, _, _, _, _, _, _, g1, -⟩ := point_lines hp
  obtain ⟨X, -, x2, x3, x4, x5⟩ := reach_corner hp g1 (show M ≤ 30 by omega) hN hP reach
  exact ⟨m, X, g1, (b5 X).2 ⟨x2, x3, x5⟩, x4⟩

-- a cap around (1, 0, 0) with the point (40/41, 9/41, 0): at most four cells, one of which has the leaf of the point
example {flq : ℚ → ℚ} (hfl : Rounding flq) : ∃ xs l X, (⟨⟨1, 0, 0⟩, 1 / 20⟩ : Cap ℝ).cellUnionBound _root_.id Real.sqrt Real.arcsin (Real.sqrt 2) flq = some xs ∧
    fromPoint _root_.id Real.sqrt (⟨40 / 41, 9 / 41, 0⟩ : Vec ℝ) = some l ∧ X ∈ xs ∧ X.contains l = some true := by
  obtain ⟨xs, h1, -, -, -, h2⟩ := c98_covers hfl (c := ⟨⟨1, 0, 0⟩, 1 / 20⟩) (by unfold UnitV dot; norm_num) (by norm_num)
  obtain ⟨l, X, h3, h4, h5⟩ := h2 ⟨40 / 41, 9 / 41, 0⟩ (by unfold UnitV dot; norm_num) (by unfold InCap dot diff; norm_num)
  exact ⟨xs, l, X, h1, h3, h4, h5⟩

theorem leaf_unique {l : CellID} (hl : Valid l) (h30 : l.level = some 30) {q r : Nat} (hq : HasLeaf l.id.toNat q) (hr : HasLeaf l.id.toNat r) : q = r := by
  obtain ⟨k, p, hc, rfl⟩ := hl.cell
  rw [level_mk hc] at h30
  obtain rfl := Option.some.inj h30
  rw [hasLeaf_mk hc, LeafIn] at hq hr
  simp at hq hr
  omega

theorem leaf_exists {l : CellID} (hl : Valid l) (h30 : l.level = some 30) : ∃ q, HasLeaf l.id.toNat q := by
  obtain ⟨k, p, hc, rfl⟩ := hl.cell
  rw [level_mk hc] at h30
  obtain rfl := Option.some.inj h30
  exact ⟨p, (hasLeaf_mk hc).2 (by simp [LeafIn])⟩

theorem contains_leaf {X l : CellID} (hX : Valid X) (hl : Valid l) (h30 : l.level = some 30) {q : Nat} (hq : HasLeaf l.id.toNat q) :
    X.contains l = some true ↔ HasLeaf X.id.toNat q := by
  rw [c03_contains_iff hX hl]
  exact ⟨fun h => h q hq, fun h r hr => by rw [leaf_unique hl h30 hr hq]; exact h⟩

/-- The cell of a valid identifier exists. -/
theorem cell_exists {X : CellID} (hX : Valid X) : ∃ C, Cell.fromCellID (_root_.id : ℝ → ℝ) X = some C :=
  ⟨_, (c68_from (_root_.id : ℝ → ℝ) hX hX.level hX.square hX.faceIJ).1⟩

section coverings
variable {flq : ℚ → ℚ} (hfl : Rounding flq) {c : Cap ℝ} (hc : UnitV c.center) (h4 : c.radius ≤ 4) {eps : ℝ} (he : 0 ≤ eps) {xs : List CellID}
  (hxs : c.cellUnionBound _root_.id Real.sqrt Real.arcsin (Real.sqrt 2) flq = some xs)
  {rc : RegionCoverer} (hmin : rc.minLevel ≤ 30)

include hfl hc h4 hxs in
theorem bound_spec : AllCells xs ∧ ∀ p, UnitV p → InCap c p → ∃ l X, fromPoint _root_.id Real.sqrt p = some l ∧ X ∈ xs ∧ X.contains l = some true := by
  obtain ⟨ys, e, h1, -, -, h2⟩ := c98_covers hfl hc h4
  rw [hxs] at e
  obtain rfl := Option.some.inj e
  exact ⟨(allCells_iff _).2 h1, h2⟩

include hfl hc h4 hxs in
/-- The leaves of the points of the cap are covered by the bound. -/
theorem bound_leaves {p : Vec ℝ} {l : CellID} {q : Nat} (hp : UnitV p) (hin : InCap c p) (hl : fromPoint _root_.id Real.sqrt p = some l)
    (hq : HasLeaf l.id.toNat q) : Covers xs q := by
  obtain ⟨h1, h2⟩ := bound_spec hfl hc h4 hxs
  obtain ⟨l', X, e, hX, hXl⟩ := h2 p hp hin
  rw [hl] at e
  obtain rfl := Option.some.inj e
  obtain ⟨l', f, u, v, t, i, j, o, e1, e2, e3, -⟩ := point_lines hp
  rw [hl] at e1
  obtain rfl := Option.some.inj e1
  exact ⟨X, hX, (contains_leaf ((allCells_iff _).1 h1 X hX) e2 e3 hq).1 hXl⟩

/-- From leaf numbers to points. -/
theorem covers_point {out : List CellID} (ho : IsUnion out) {p : Vec ℝ} (hp : UnitV p)
    (h : ∀ l q, fromPoint _root_.id Real.sqrt p = some l → HasLeaf l.id.toNat q → Covers out q) :
    ∃ l X, fromPoint _root_.id Real.sqrt p = some l ∧ X ∈ out ∧ X.contains l = some true := by
  obtain ⟨l, f, u, v, t, i, j, o, e1, e2, e3, -⟩ := point_lines hp
  obtain ⟨q, hq⟩ := leaf_exists e2 e3
  obtain ⟨X, hX, hXq⟩ := h l q e1 hq
  exact ⟨l, X, e1, hX, (contains_leaf ((allCells_iff _).1 ho.1 X hX) e2 e3 hq).2 hXq⟩

include hfl hc h4 he hxs hmin

/-- **C99.** `covering` of a cap, for every permitted parameter and every order of the queue, returns a valid union with the leaf of every
point of the cap. -/
theorem c99_covering (hmax : rc.maxLevel ≤ 30) (hm1 : 1 ≤ rc.levelMod) (hm3 : rc.levelMod ≤ 3) (pick : Nat → Nat) :
    ∃ out, covering rc (c.region _root_.id Real.sqrt eps xs) pick = some out ∧ IsUnion out ∧
      ∀ p, UnitV p → InCap c p → ∃ l X, fromPoint _root_.id Real.sqrt p = some l ∧ X ∈ out ∧ X.contains l = some true := by
  obtain ⟨out, h1, h2, h3⟩ := c42_covering_covers (r := c.region _root_.id Real.sqrt eps xs) hmin hmax hm1 hm3
    (R := fun q => ∃ p l, UnitV p ∧ InCap c p ∧ fromPoint _root_.id Real.sqrt p = some l ∧ HasLeaf l.id.toNat q)
    (by
      rintro X q hX ⟨p, l, hp, hin, hl, hq⟩ hXq
      obtain ⟨C, hC⟩ := cell_exists hX
      obtain ⟨l', f, u, v, t, i, j, o, e1, e2, e3, -⟩ := point_lines hp
      rw [hl] at e1
      obtain rfl := Option.some.inj e1
      have := c97_intersects_complete hX hC he hc hp (fromPoint_inCell hp hl hX ((contains_leaf hX e2 e3 hq).2 hXq) hC) hin
      show (((Cell.fromCellID _root_.id X).bind (c.intersectsCell _root_.id Real.sqrt eps)) == some true) = true
      rw [hC, Option.bind_some, this]
      rfl)
    (bound_spec hfl hc h4 hxs).1 (fun q ⟨p, l, hp, hin, hl, hq⟩ => bound_leaves hfl hc h4 hxs hp hin hl hq) pick
  exact ⟨out, h1, h2, fun p hp hin => covers_point h2 hp fun l q hl hq => h3 q ⟨p, l, hp, hin, hl, hq⟩⟩

/-- **C99.** `covering` of a cap is not loose: every cell of it contains a cell in which `Cell::contains_point` accepts a point of the cap. -/
theorem c99_tight (hmax : rc.maxLevel ≤ 30) (hm1 : 1 ≤ rc.levelMod) (hm3 : rc.levelMod ≤ 3) (pick : Nat → Nat) {out : List CellID}
    (ho : covering rc (c.region _root_.id Real.sqrt eps xs) pick = some out) : ∀ d ∈ out, ∃ X C p, Valid X ∧ d.contains X = some true ∧
      Cell.fromCellID _root_.id X = some C ∧ UnitV p ∧ InCap c p ∧ C.containsPoint _root_.id eps p = some true := by
  intro d hd
  obtain ⟨X, hX, h1, h2⟩ := c42_covering_tight hmin hmax hm1 hm3 (r := c.region _root_.id Real.sqrt eps xs) (bound_spec hfl hc h4 hxs).1 pick ho d hd
  obtain ⟨C, hC⟩ := cell_exists hX
  obtain ⟨b, e1, e2⟩ := c97_intersects_sound hX hC he hc
  have h3 : (((Cell.fromCellID _root_.id X).bind (c.intersectsCell _root_.id Real.sqrt eps)) == some true) = true := h2
  rw [hC, Option.bind_some, e1, beq_iff_eq, Option.some.injEq] at h3
  obtain ⟨p, p1, p2, p3⟩ := e2 h3
  exact ⟨X, C, p, hX, h1, hC, p1, p2, p3⟩

/-- **C99.** Every point whose leaf is in a cell of `interior_covering` of a cap is in the cap. -/
theorem c99_interior (hmax : rc.maxLevel ≤ 30) (hm1 : 1 ≤ rc.levelMod) (hm3 : rc.levelMod ≤ 3) (pick : Nat → Nat) :
    ∃ out, interiorCovering rc (c.region _root_.id Real.sqrt eps xs) pick = some out ∧ IsUnion out ∧
      ∀ p l X, UnitV p → fromPoint _root_.id Real.sqrt p = some l → X ∈ out → X.contains l = some true → InCap c p := by
  obtain ⟨out, h1, h2, -, h3⟩ := c44_interior hmin hmax hm1 hm3 (r := c.region _root_.id Real.sqrt eps xs) (bound_spec hfl hc h4 hxs).1 pick
  refine ⟨out, h1, h2, fun p l X hp hl hX hXl => ?_⟩
  obtain ⟨l', f, u, v, t, i, j, o, e1, e2, e3, -⟩ := point_lines hp
  rw [hl] at e1
  obtain rfl := Option.some.inj e1
  obtain ⟨q, hq⟩ := leaf_exists e2 e3
  obtain ⟨Y, hY, h5, hYq⟩ := h3 q ⟨X, hX, (contains_leaf ((allCells_iff _).1 h2.1 X hX) e2 e3 hq).1 hXl⟩
  obtain ⟨C, hC⟩ := cell_exists hY
  obtain ⟨b, g1, g2, -⟩ := c97_contains hY hC he hc h4
  have h6 : (((Cell.fromCellID _root_.id Y).bind (c.containsCell _root_.id Real.sqrt eps)) == some true) = true := h5
  rw [hC, Option.bind_some, g1, beq_iff_eq, Option.some.injEq] at h6
  exact g2 h6 p hp (fromPoint_inCell hp hl hY ((contains_leaf hY e2 e3 hq).2 hYq) hC)

omit he in
/-- **C99.** `fast_covering` of a cap returns a valid union with the leaf of every point of the cap. -/
theorem c99_fastCovering : ∃ out, fastCovering rc (c.region _root_.id Real.sqrt eps xs) = some out ∧ IsUnion out ∧
      ∀ p, UnitV p → InCap c p → ∃ l X, fromPoint _root_.id Real.sqrt p = some l ∧ X ∈ out ∧ X.contains l = some true := by
  obtain ⟨out, h1, h2, h3⟩ := c46_fastCovering_covers hmin (r := c.region _root_.id Real.sqrt eps xs) (bound_spec hfl hc h4 hxs).1
  exact ⟨out, h1, h2, fun p hp hin => covers_point h2 hp fun l q hl hq => h3 q (bound_leaves hfl hc h4 hxs hp hin hl hq)⟩

end coverings

-- the cap of the example of C98, eight cells of even levels from 4 to 20
example {flq : ℚ → ℚ} (hfl : Rounding flq) : ∃ xs out l X, (⟨⟨1, 0, 0⟩, 1 / 20⟩ : Cap ℝ).cellUnionBound _root_.id Real.sqrt Real.arcsin (Real.sqrt 2) flq = some xs ∧
    covering ⟨4, 20, 2, 8⟩ ((⟨⟨1, 0, 0⟩, 1 / 20⟩ : Cap ℝ).region _root_.id Real.sqrt (1 / 2 ^ 53) xs) (fun _ => 0) = some out ∧
    fromPoint _root_.id Real.sqrt (⟨40 / 41, 9 / 41, 0⟩ : Vec ℝ) = some l ∧ X ∈ out ∧ X.contains l = some true := by
  have hu : UnitV (⟨1, 0, 0⟩ : Vec ℝ) := by unfold UnitV dot; norm_num
  obtain ⟨xs, h1, -⟩ := c98_covers hfl (c := ⟨⟨1, 0, 0⟩, 1 / 20⟩) hu (by norm_num)
  obtain ⟨out, h2, -, h3⟩ := c99_covering hfl (c := ⟨⟨1, 0, 0⟩, 1 / 20⟩) (eps := 1 / 2 ^ 53) hu (by norm_num) (by positivity) h1
    (rc := ⟨4, 20, 2, 8⟩) (by decide) (by decide) (by decide) (by decide) (fun _ => 0)
  obtain ⟨l, X, h4, h5, h6⟩ := h3 ⟨40 / 41, 9 / 41, 0⟩ (by unfold UnitV dot; norm_num) (by unfold InCap dot diff; norm_num)
  exact ⟨xs, out, l, X, h1, h2, h4, h5, h6⟩

end Verif
