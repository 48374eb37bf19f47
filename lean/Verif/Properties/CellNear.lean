import Verif.Properties.CellSize
import Verif.Properties.Hilbert

/-!
# C109, second part: centres, neighbours and levels

Exact arithmetic over the reals.
-/

namespace Verif
open Spec CellID

/-- The centre of a cell. -/
theorem center_loc {c : CellID} (hc : Valid c) : ∃ Z, c.toPoint (_root_.id : ℝ → ℝ) Real.sqrt = some Z ∧ UnitV Z ∧
    loc (sf c) Z = facePt (gUV (grd (((sr c).1 * ss c : Nat) : Int) + (2 ^ lv c)⁻¹)) (gUV (grd (((sr c).2.1 * ss c : Nat) : Int) + (2 ^ lv c)⁻¹)) := by
  obtain ⟨p, hp, -, h2⟩ := c22_real (_root_.id : ℝ → ℝ) hc hc.square
  have hl : ∀ a : Int, stToUV (_root_.id : ℝ → ℝ) (_root_.id (((2 * a + ((ss c : Nat) : Int) : Int) : ℝ) / 2 ^ 31)) = gUV (grd a + (2 ^ lv c)⁻¹) := by
    intro a
    rw [gUV_stToUV, ← ss_div hc]
    refine congrArg gUV ?_
    unfold grd
    simp only [_root_.id]
    push_cast
    ring
  obtain ⟨w, t, hw, t0, hu, e⟩ := exists_facePt hc.sf_lt p.x p.y
  obtain ⟨r, r0, r1, r2⟩ := normalize_exact isSqrt_real (faceUV_nonzero hw)
  refine ⟨w.normalize _root_.id Real.sqrt, ?_, r2, ?_⟩
  · unfold toPoint
    rw [h2, hw]
    rfl
  · rw [r1]
    have r2' : UnitV (w.normalize _root_.id Real.sqrt) := r2
    rw [r1] at r2'
    rw [loc_facePt hc.sf_lt hw r0 r2', hp, hl, hl]

theorem value_maxEdge (l : Nat) : (maxEdgeMetric : S2.Metric ℝ).value l = 3839087150473305 / 2 ^ 51 * (2 ^ l)⁻¹ := by
  rw [value_grid rfl]
  show (3839087150473305 / 2 ^ 51 : ℝ) / 2 * (2 * (2 ^ l)⁻¹) = _
  ring

/-- **C109.** Every point of a cell is within half of `MAX_DIAGMETRIC` for its level of the centre of the cell. -/
theorem c109_center {c : CellID} {C : Cell ℝ} (hc : Valid c) (hC : Cell.fromCellID _root_.id c = some C) {p : Vec ℝ} (hp : UnitV p) (h : InCell C p) :
    ∃ Z, C.center _root_.id Real.sqrt = some Z ∧ UnitV Z ∧ ang p Z ≤ maxDiagMetric.value C.level / 2 := by
  obtain ⟨Z, h1, h2, h3⟩ := center_loc hc
  have G := cell_grid hc hC
  have hid : C.id = c := by
    have r1 := (c68_from (_root_.id : ℝ → ℝ) hc hc.level hc.square hc.faceIJ).1
    rw [hC] at r1
    rw [Option.some.inj r1]
  obtain ⟨f1, f2, -⟩ := cell_rect hc hC
  refine ⟨Z, by unfold Cell.center; rw [hid]; exact h1, h2, ?_⟩
  obtain ⟨a, b, a0, a1, b0, b1, e⟩ := G.point hp h
  rw [← f1, ← f2] at h3
  rw [G.value rfl, ang_loc G.face, e, h3]
  have := face_diag_le (s := a) (t := b) (s' := grd (((sr c).1 * ss c : Nat) : Int) + (2 ^ C.level)⁻¹)
    (t' := grd (((sr c).2.1 * ss c : Nat) : Int) + (2 ^ C.level)⁻¹) (m := (2 ^ C.level)⁻¹)
    (abs_le.2 ⟨by linarith, by linarith⟩) (abs_le.2 ⟨by linarith, by linarith⟩)
  refine this.trans (le_of_eq ?_)
  show _ = (5491361961389203 / 2 ^ 51 : ℝ) / 2 * (2 * (2 ^ C.level)⁻¹) / 2
  ring

/-! ## Neighbours -/

/-- The direction of a point of the cube surface. -/
noncomputable def sph (X : Vec ℝ) : Vec ℝ :=
  let g : Vec ℝ := ⟨gUV X.x, gUV X.y, gUV X.z⟩
  smul (1 / √(dot g g)) g

theorem loc_sph {f : Nat} (hf : f < 6) (X : Vec ℝ) : loc f (sph X) = sph (loc f X) := by
  have key : ∀ (g h : Vec ℝ), dot g g = dot h h → ∀ r, r = 1 / √(dot g g) → r = 1 / √(dot h h) := fun g h e r hr => by rw [← e]; exact hr
  have sc : ∀ r (g : Vec ℝ), loc f (smul r g) = smul r (loc f g) := by
    intro r g
    interval_cases f <;> simp only [loc, smul, mul_neg]
  have wl : loc f ⟨gUV X.x, gUV X.y, gUV X.z⟩ = ⟨gUV (loc f X).x, gUV (loc f X).y, gUV (loc f X).z⟩ := by
    interval_cases f <;> simp only [loc, gUV_neg]
  unfold sph
  dsimp only
  rw [sc, wl, ← loc_dot hf ⟨gUV X.x, gUV X.y, gUV X.z⟩, wl]

theorem sph_face (a b : ℝ) : sph ⟨1, a, b⟩ = facePt (gUV a) (gUV b) := by
  unfold sph facePt
  simp only [smul, dot, gUV_one]
  rw [show (1 : ℝ) * 1 + gUV a * gUV a + gUV b * gUV b = 1 + gUV a ^ 2 + gUV b ^ 2 by ring]
  simp only [Vec.mk.injEq]
  refine ⟨by ring, by ring, by ring⟩

/-- The middle of two points. -/
noncomputable def midV (X Y : Vec ℝ) : Vec ℝ := ⟨(X.x + Y.x) / 2, (X.y + Y.y) / 2, (X.z + Y.z) / 2⟩

theorem loc_midV {f : Nat} (hf : f < 6) (X Y : Vec ℝ) : loc f (midV X Y) = midV (loc f X) (loc f Y) := by
  interval_cases f <;> simp only [loc, midV, Vec.mk.injEq] <;> (refine ⟨?_, ?_, ?_⟩ <;> first | trivial | ring)

/-- The points differ in one coordinate. -/
def OneAxis (P Q : Pt) : Prop := P.y = Q.y ∧ P.z = Q.z ∨ P.x = Q.x ∧ P.z = Q.z ∨ P.x = Q.x ∧ P.y = Q.y

/-- From the centre of a square to the middle of an edge. -/
theorem half_edge_core {f : Nat} (hf : f < 6) {i j s a b a' b' : Int} {δ : ℝ} {Z : Vec ℝ}
    (e3 : loc f Z = facePt (gUV (grd i + δ)) (gUV (grd j + δ))) (dv : (s : ℝ) / 2 ^ 30 = δ) (dp : 0 < δ)
    (x1 : -1 ≤ grd i) (x2 : grd i + 2 * δ ≤ 1) (y1 : -1 ≤ grd j) (y2 : grd j + 2 * δ ≤ 1)
    (ha : a = 0 ∨ a = s) (hb : b = 0 ∨ b = s) (ha' : a' = 0 ∨ a' = s) (hb' : b' = 0 ∨ b' = s)
    (axes : (a = a' ∧ b ≠ b') ∨ (b = b' ∧ a ≠ a')) :
    UnitV (sph (midV (ptR (cubePt f (i + a) (j + b))) (ptR (cubePt f (i + a') (j + b'))))) ∧
    ang Z (sph (midV (ptR (cubePt f (i + a) (j + b))) (ptR (cubePt f (i + a') (j + b'))))) ≤ 3839087150473305 / 2 ^ 51 / 2 * δ := by
  have g0 : ∀ x : Int, grd (x + 0) = grd x := fun x => by rw [add_zero]
  have gs : ∀ x : Int, grd (x + s) = grd x + 2 * δ := fun x => by rw [grd_add, dv]
  have el := loc_midV hf (ptR (cubePt f (i + a) (j + b))) (ptR (cubePt f (i + a') (j + b')))
  rw [ptR_loc hf, ptR_loc hf] at el
  have em : midV ⟨1, grd (i + a), grd (j + b)⟩ ⟨1, grd (i + a'), grd (j + b')⟩ = ⟨1, (grd (i + a) + grd (i + a')) / 2, (grd (j + b) + grd (j + b')) / 2⟩ := by
    simp only [midV, Vec.mk.injEq, and_self, and_true]
    norm_num
  rw [em] at el
  have es := loc_sph hf (midV (ptR (cubePt f (i + a) (j + b))) (ptR (cubePt f (i + a') (j + b'))))
  rw [el, sph_face] at es
  constructor
  · unfold UnitV
    rw [← loc_dot hf, es]
    exact facePt_unit _ _
  rw [ang_loc hf, es, e3]
  have line : ∀ (x m : ℝ) (y : ℝ), -1 ≤ x → x + 2 * δ ≤ 1 → m = x ∨ m = x + 2 * δ →
      ang (facePt (gUV (x + δ)) y) (facePt (gUV m) y) ≤ 3839087150473305 / 2 ^ 51 / 2 * δ := by
    intro x m y h0 h1 hm
    have k := face_line_le (s := x + δ) (s' := m) y (abs_le.2 ⟨by linarith, by linarith⟩)
      (by rcases hm with rfl | rfl <;> exact abs_le.2 ⟨by linarith, by linarith⟩)
    rwa [show |m - (x + δ)| = δ by
      rcases hm with rfl | rfl
      · rw [show m - (m + δ) = -δ by ring, abs_neg, abs_of_pos dp]
      · rw [show x + 2 * δ - (x + δ) = δ by ring, abs_of_pos dp]] at k
  rcases axes with ⟨rfl, hbb⟩ | ⟨rfl, haa⟩
  · have m2 : (grd (j + b) + grd (j + b')) / 2 = grd j + δ := by
      rcases hb with rfl | rfl <;> rcases hb' with rfl | rfl
      · exact absurd rfl hbb
      · rw [g0, gs]; ring
      · rw [g0, gs]; ring
      · exact absurd rfl hbb
    have m1 : (grd (i + a) + grd (i + a)) / 2 = grd (i + a) := by ring
    rw [m1, m2]
    exact line _ _ _ x1 x2 (by rcases ha with rfl | rfl <;> simp [gs])
  · have m2 : (grd (i + a) + grd (i + a')) / 2 = grd i + δ := by
      rcases ha with rfl | rfl <;> rcases ha' with rfl | rfl
      · exact absurd rfl haa
      · rw [g0, gs]; ring
      · rw [g0, gs]; ring
      · exact absurd rfl haa
    have m1 : (grd (j + b) + grd (j + b)) / 2 = grd (j + b) := by ring
    rw [m1, m2, facePt_swap]
    exact line _ _ _ y1 y2 (by rcases hb with rfl | rfl <;> simp [gs])

theorem cubePt_axes {f : Nat} (hf : f < 6) {i j a b a' b' : Int} (hne : cubePt f (i + a) (j + b) ≠ cubePt f (i + a') (j + b'))
    (hax : OneAxis (cubePt f (i + a) (j + b)) (cubePt f (i + a') (j + b'))) : (a = a' ∧ b ≠ b') ∨ (b = b' ∧ a ≠ a') := by
  have hne' : ¬ (a = a' ∧ b = b') := by rintro ⟨rfl, rfl⟩; exact hne rfl
  unfold OneAxis at hax
  clear hne
  interval_cases f <;> simp only [cubePt] at hax <;> omega

theorem cubePt_edge {f : Nat} (hf : f < 6) {a b a' b' : Int} (h : (a = a' ∧ b ≠ b') ∨ (b = b' ∧ a ≠ a')) :
    cubePt f a b ≠ cubePt f a' b' ∧ OneAxis (cubePt f a b) (cubePt f a' b') := by
  constructor
  · intro e
    obtain ⟨e1, e2, e3⟩ : (cubePt f a b).x = (cubePt f a' b').x ∧ (cubePt f a b).y = (cubePt f a' b').y ∧ (cubePt f a b).z = (cubePt f a' b').z := by rw [e]; exact ⟨rfl, rfl, rfl⟩
    interval_cases f <;> simp only [cubePt] at e1 e2 e3 <;> omega
  · unfold OneAxis
    rcases h with ⟨rfl, -⟩ | ⟨rfl, -⟩ <;> interval_cases f <;> simp [cubePt]

/-- From the centre of a cell to the middle of an edge. -/
theorem half_edge {c : CellID} (hc : Valid c) {P Q : Pt} (hP : IsCorner c P) (hQ : IsCorner c Q) (hne : P ≠ Q) (hax : OneAxis P Q) {Z : Vec ℝ}
    (hZ : c.toPoint (_root_.id : ℝ → ℝ) Real.sqrt = some Z) :
    UnitV Z ∧ UnitV (sph (midV (ptR P) (ptR Q))) ∧ ang Z (sph (midV (ptR P) (ptR Q))) ≤ 3839087150473305 / 2 ^ 51 / 2 * (2 ^ lv c)⁻¹ := by
  obtain ⟨Z', e1, e2, e3⟩ := center_loc hc
  rw [hZ] at e1
  obtain rfl := Option.some.inj e1
  obtain ⟨f, i, j, s, a, b, sq1, ha, hb, rfl⟩ := hP
  obtain ⟨f', i', j', s', a', b', sq2, ha', hb', rfl⟩ := hQ
  obtain ⟨rfl, rfl, rfl, rfl⟩ := square_unique hc.square sq1
  obtain ⟨rfl, rfl, rfl, rfl⟩ := square_unique hc.square sq2
  obtain ⟨b1, b2, -⟩ := hc.sr_lt
  obtain ⟨x1, x2, -⟩ := grid_line hc b1
  obtain ⟨y1, y2, -⟩ := grid_line hc b2
  have dv : ((((ss c : Nat) : Int)) : ℝ) / 2 ^ 30 = (2 ^ lv c)⁻¹ := by rw [← ss_div hc]; push_cast; rfl
  exact ⟨e2, half_edge_core hc.sf_lt e3 dv (by positivity) x1 x2 y1 y2 ha hb ha' hb' (cubePt_axes hc.sf_lt hne hax)⟩

/-- **C109.** The centres of two cells of the same level with a common edge are at most `MAX_EDGEMETRIC` for that level apart. -/
theorem c109_share {c d : CellID} {k : Nat} (hc : Valid c) (hk : c.level = some k) (hd : Valid d) (hdk : d.level = some k) (hne : d ≠ c) (h : ShareEdge c d) :
    ∃ P Q, c.toPoint (_root_.id : ℝ → ℝ) Real.sqrt = some P ∧ d.toPoint (_root_.id : ℝ → ℝ) Real.sqrt = some Q ∧ ang P Q ≤ maxEdgeMetric.value k := by
  obtain ⟨xs, x1, x2⟩ := c23_exact rounding_id hc hk hd hdk
  obtain ⟨a, b, u, e, hE, -, -, hcor⟩ := c23_edge_neighbors rounding_id hc hk
  rw [hE] at x1
  obtain rfl := Option.some.inj x1
  have hm := x2.2 ⟨hne, h⟩
  obtain ⟨Z, z1, -⟩ := center_loc hc
  obtain ⟨Y, w1, -⟩ := center_loc hd
  refine ⟨Z, Y, z1, w1, ?_⟩
  obtain ⟨⟨k1, k2⟩, ⟨k3, k4⟩, ⟨k5, k6⟩, k7, k8⟩ := hcor _ _ _ _ hc.square
  have hf := hc.sf_lt
  have key : ∀ P Q, IsCorner c P → IsCorner c Q → IsCorner d P → IsCorner d Q → P ≠ Q → OneAxis P Q → ang Z Y ≤ maxEdgeMetric.value k := by
    intro P Q c1 c2 d1 d2 h1 h2
    obtain ⟨uZ, uM, q1⟩ := half_edge hc c1 c2 h1 h2 z1
    obtain ⟨uY, -, q2⟩ := half_edge hd d1 d2 h1 h2 w1
    rw [lv_of_level hk] at q1
    rw [lv_of_level hdk] at q2
    have := ang_triangle uZ uM uY
    rw [ang_comm (sph (midV (ptR P) (ptR Q))) Y] at this
    rw [value_maxEdge]
    generalize ((2 : ℝ) ^ k)⁻¹ = y at *
    linarith
  have s0 := hc.square.pos
  have sq := hc.square
  generalize (((sr c).1 * ss c : Nat) : Int) = i at *
  generalize (((sr c).2.1 * ss c : Nat) : Int) = j at *
  generalize ((ss c : Nat) : Int) = s at *
  have cor : ∀ a b, (a = 0 ∨ a = s) → (b = 0 ∨ b = s) → IsCorner c (cubePt (sf c) (i + a) (j + b)) := fun a b ha hb => ⟨_, _, _, _, a, b, sq, ha, hb, rfl⟩
  have c00 := cor 0 0 (Or.inl rfl) (Or.inl rfl)
  have c10 := cor s 0 (Or.inr rfl) (Or.inl rfl)
  have c01 := cor 0 s (Or.inl rfl) (Or.inr rfl)
  have c11 := cor s s (Or.inr rfl) (Or.inr rfl)
  rw [add_zero, add_zero] at c00
  rw [add_zero] at c10 c01
  simp only [List.mem_cons, List.not_mem_nil, or_false] at hm
  rcases hm with rfl | rfl | rfl | rfl
  · obtain ⟨n1, n2⟩ := cubePt_edge hf (a := i) (b := j) (a' := i + s) (b' := j) (by omega)
    exact key _ _ c00 c10 k1 k2 n1 n2
  · obtain ⟨n1, n2⟩ := cubePt_edge hf (a := i + s) (b := j) (a' := i + s) (b' := j + s) (by omega)
    exact key _ _ c10 c11 k3 k4 n1 n2
  · obtain ⟨n1, n2⟩ := cubePt_edge hf (a := i) (b := j + s) (a' := i + s) (b' := j + s) (by omega)
    exact key _ _ c01 c11 k5 k6 n1 n2
  · obtain ⟨n1, n2⟩ := cubePt_edge hf (a := i) (b := j) (a' := i) (b' := j + s) (by omega)
    exact key _ _ c00 c01 k7 k8 n1 n2

/-- **C109.** The centres of the edge neighbours are at most `MAX_EDGEMETRIC` away. -/
theorem c109_neighbors {fl : ℚ → ℚ} (hfl : Rounding fl) {c : CellID} {k : Nat} (hc : Valid c) (hk : c.level = some k) :
    ∃ xs P, c.edgeNeighbors fl = some xs ∧ c.toPoint (_root_.id : ℝ → ℝ) Real.sqrt = some P ∧
      ∀ d ∈ xs, ∃ Q, d.toPoint (_root_.id : ℝ → ℝ) Real.sqrt = some Q ∧ ang P Q ≤ maxEdgeMetric.value k := by
  obtain ⟨a, b, u, e, hE, -, hv, -⟩ := c23_edge_neighbors hfl hc hk
  obtain ⟨P, hP, -⟩ := center_loc hc
  refine ⟨_, P, hE, hP, fun d hd => ?_⟩
  obtain ⟨d1, d2⟩ := hv d hd
  obtain ⟨xs, x1, x2⟩ := c23_exact hfl hc hk d1 d2
  rw [hE] at x1
  obtain rfl := Option.some.inj x1
  obtain ⟨h1, h2⟩ := x2.1 hd
  obtain ⟨P', Q, p1, q1, q2⟩ := c109_share hc hk d1 d2 h1 h2
  rw [hP] at p1
  obtain rfl := Option.some.inj p1
  exact ⟨Q, q1, q2⟩

/-- **C109.** The centre of the next cell of the curve is at most `MAX_EDGEMETRIC` away. -/
theorem c109_next {c d : CellID} {k : Nat} (hc : Valid c) (hk : c.level = some k) (hd : c.nextWrap = some d) :
    ∃ P Q, c.toPoint (_root_.id : ℝ → ℝ) Real.sqrt = some P ∧ d.toPoint (_root_.id : ℝ → ℝ) Real.sqrt = some Q ∧ ang P Q ≤ maxEdgeMetric.value k := by
  have hs := c21_closed_curve hc hd
  obtain ⟨e, hi⟩ := nextWrap_valid hc
  rw [hd] at e
  obtain rfl := Option.some.inj e
  have hv := valid_mk hi
  refine c109_share hc hk hv (by rw [level_mk hi, lv_of_level hk]) (fun h => ?_) hs
  have hp := congrArg px h
  rw [px_mk hi] at hp
  have := hc.isCell.2
  have := pow4_pos (lv c)
  rcases Nat.lt_or_ge (px c + 1) (6 * 4 ^ lv c) with g | g
  · rw [Nat.mod_eq_of_lt g] at hp; omega
  · rw [show px c + 1 = 6 * 4 ^ lv c by omega, Nat.mod_self] at hp
    omega

/-- **C109.** The cells of level `MAX_DIAGMETRIC.min_level(x)` and of the finer levels have diameters of at most `x`. -/
theorem c109_minLevel {x : ℝ} (hx : maxDiagMetric.value 30 ≤ x) :
    ∃ L, maxDiagMetric.minLevel _root_.id x = some L ∧ ∀ {c : CellID} {C : Cell ℝ}, Valid c → Cell.fromCellID _root_.id c = some C → L ≤ C.level →
      ∀ {p q : Vec ℝ}, UnitV p → UnitV q → InCell C p → InCell C q → ang p q ≤ x := by
  have dp : 0 < (maxDiagMetric : S2.Metric ℝ).deriv := by show (0 : ℝ) < 5491361961389203 / 2 ^ 51; norm_num
  obtain ⟨L, h1, h2, -, h3⟩ := S2.Metric.c58_minLevel (m := (maxDiagMetric : S2.Metric ℝ)) rfl dp (v := x) (by
    refine le_trans ?_ hx
    rw [value_grid rfl, show (maxDiagMetric : S2.Metric ℝ).deriv / 2 * (2 * (2 ^ 30)⁻¹) = maxDiagMetric.deriv * (2 ^ 30)⁻¹ by ring]
    refine mul_le_mul_of_nonneg_left ?_ dp.le
    rw [show ((2 : ℝ) ^ 30)⁻¹ = 2 ^ (-30 : ℤ) by norm_num]
    exact zpow_le_zpow_right₀ (by norm_num) (by norm_num))
  refine ⟨L, h1, fun {c C} hc hC hl p q hp hq i1 i2 => (c109_diameter hc hC hp hq i1 i2).trans ?_⟩
  have vL : (maxDiagMetric : S2.Metric ℝ).value L ≤ x := by
    rcases h3 with h | rfl
    · exact h
    · exact hx
  refine le_trans ?_ vL
  rw [value_grid rfl, value_grid rfl]
  refine mul_le_mul_of_nonneg_left ?_ (by linarith)
  have : ((2 : ℝ) ^ C.level)⁻¹ ≤ (2 ^ L)⁻¹ := inv_anti₀ (by positivity) (pow_le_pow_right₀ (by norm_num) hl)
  linarith

end Verif
