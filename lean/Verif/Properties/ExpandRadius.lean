import Verif.Model.ExpandRadius
import Verif.Proofs.Touching

/-!
# C105: `expand_by_radius`

Exact arithmetic over the reals; `flq` is the rounding inside `all_neighbors`.
-/

namespace Verif
open Spec CellID CellUnion

/-- A point of a cell is a point of the cells around it. -/
theorem onCell_mono {x A : CellID} (hx : Valid x) (hA : Valid A) (hc : x.contains A = some true) {P : Pt} (h : OnCell A P) : OnCell x P := by
  obtain ⟨f, i0, j0, s, a, b, sq, a0, a1, b0, b1, rfl⟩ := h
  have sx := hx.square
  have h1 := sq.pos
  have h2 := sq.i_lo
  have h3 := sq.i_hi
  have h4 := sq.j_lo
  have h5 := sq.j_hi
  have key : ∀ i j : Int, i0 ≤ i → i < i0 + s → j0 ≤ j → j < j0 + s → f = sf x ∧ ((sr x).1 * ss x : Nat) ≤ i ∧ i < ((sr x).1 * ss x : Nat) + (ss x : Nat) ∧
      ((sr x).2.1 * ss x : Nat) ≤ j ∧ j < ((sr x).2.1 * ss x : Nat) + (ss x : Nat) := by
    intro i j k1 k2 k3 k4
    unfold side at *
    obtain ⟨l, hl, hlev, hat⟩ := valid_leaf_exists (i := i.toNat) (j := j.toNat) sq.face (by omega) (by omega)
    rw [Int.toNat_of_nonneg (by omega), Int.toNat_of_nonneg (by omega)] at hat
    exact (sx.leaves l f i j hl hlev hat).1 (c03_trans hx hA hl hc ((sq.leaves l f i j hl hlev hat).2 ⟨rfl, k1, k2, k3, k4⟩))
  obtain ⟨rfl, m1, m2, m3, m4⟩ := key i0 j0 le_rfl (by omega) le_rfl (by omega)
  obtain ⟨-, n1, n2, n3, n4⟩ := key (i0 + s - 1) (j0 + s - 1) (by omega) (by omega) (by omega) (by omega)
  refine ⟨sf x, _, _, _, i0 + a - ((sr x).1 * ss x : Nat), j0 + b - ((sr x).2.1 * ss x : Nat), sx, by omega, by omega, by omega, by omega, ?_⟩
  rw [add_sub_cancel, add_sub_cancel]

/-! ## Faces -/

theorem faces_meet : ∀ f < 6, ∀ g < 6, g ≠ (f + 3) % 6 →
    ∃ a ∈ [0, side], ∃ b ∈ [0, side], ∃ a' ∈ [0, side], ∃ b' ∈ [0, side], cubePt f a b = cubePt g a' b' := by
  decide +kernel

theorem face_square {A : CellID} (hA : Valid A) (h0 : A.level = some 0) : Square A A.face 0 0 side := by
  obtain ⟨A', i0, j0, n, hn, hA', -, -, -, -, n0, -, sq, -⟩ := parent_setting hA h0 (le_refl 0) hA.faceIJ
  rw [(c05_parent_parent hA h0 (le_refl 0) (le_refl 0) hA').2] at hA'
  obtain rfl := Option.some.inj hA'
  have e : n = side := hn
  subst e
  have h2 := sq.i_hi
  have h3 := sq.j_hi
  have h4 := sq.i_lo
  have h5 := sq.j_lo
  obtain rfl : i0 = 0 := by omega
  obtain rfl : j0 = 0 := by omega
  rw [hA.face]
  exact sq

theorem faces_touch {A B : CellID} (hA : Valid A) (hB : Valid B) (lA : A.level = some 0) (lB : B.level = some 0) (h : B.face ≠ (A.face + 3) % 6) : Touch A B := by
  obtain ⟨a, ha, b, hb, a', ha', b', hb', e⟩ := faces_meet A.face (level0_face hA) B.face (level0_face hB) h
  have s0 : (0 : Int) ≤ side := by decide
  refine ⟨cubePt A.face a b, ⟨A.face, 0, 0, side, a, b, face_square hA lA, ?_, ?_, ?_, ?_, by simp⟩, ⟨B.face, 0, 0, side, a', b', face_square hB lB, ?_, ?_, ?_, ?_, by simpa using e⟩⟩ <;>
    simp only [List.mem_cons, List.not_mem_nil, or_false] at ha hb ha' hb' <;> omega

/-- Points on opposite faces are far from each other. -/
theorem opp_dot {a b c a' b' c' : ℝ} (h : a * a + b * b + c * c = 1) (h' : a' * a' + b' * b' + c' * c' = 1) (k1 : b * b ≤ a * a) (k2 : c * c ≤ a * a)
    (k3 : b' * b' ≤ a' * a') (k4 : c' * c' ≤ a' * a') (hs : a * a' ≤ 0) : a * a' + b * b' + c * c' ≤ 1 / 3 := by
  obtain ⟨m, hm⟩ : ∃ m, m = -(a * a') := ⟨_, rfl⟩
  have m0 : 0 ≤ m := by linarith
  have m2 : m * m = (a * a) * (a' * a') := by rw [hm]; ring
  have m3 : 1 / 3 ≤ m := by
    by_contra hlt
    have : (1 / 3 : ℝ) * (1 / 3) ≤ (a * a) * (a' * a') := mul_le_mul (by linarith) (by linarith) (by norm_num) (mul_self_nonneg a)
    nlinarith
  have m4 : m ≤ 1 := by nlinarith [mul_self_nonneg (a + a'), mul_self_nonneg b, mul_self_nonneg c, mul_self_nonneg b', mul_self_nonneg c']
  have cs : (b * b' + c * c') ^ 2 ≤ (1 - m) ^ 2 := by
    have e1 : (b * b' + c * c') ^ 2 ≤ (b * b + c * c) * (b' * b' + c' * c') := by nlinarith [mul_self_nonneg (b * c' - c * b')]
    have e2 : (b * b + c * c) * (b' * b' + c' * c') = (1 - a * a) * (1 - a' * a') := by
      rw [show b * b + c * c = 1 - a * a by linarith, show b' * b' + c' * c' = 1 - a' * a' by linarith]
    have e3 : (1 - a * a) * (1 - a' * a') ≤ (1 - m) ^ 2 := by nlinarith [mul_self_nonneg (a + a')]
    linarith
  have := abs_le_of_sq_le_sq cs (by linarith)
  linarith [le_abs_self (b * b' + c * c')]

theorem opp_far {p q : Vec ℝ} (hp : UnitV p) (hq : UnitV q) {f : Nat} (hf : f < 6) {t u v t' u' v' : ℝ} (ht : 0 < t) (ht' : 0 < t')
    (h : loc f p = ⟨t, t * u, t * v⟩) (h' : loc ((f + 3) % 6) q = ⟨t', t' * u', t' * v'⟩) (hu : |u| ≤ 1) (hv : |v| ≤ 1) (hu' : |u'| ≤ 1) (hv' : |v'| ≤ 1) :
    dot p q ≤ 1 / 3 := by
  have hp' : p.x * p.x + p.y * p.y + p.z * p.z = 1 := hp
  have hq' : q.x * q.x + q.y * q.y + q.z * q.z = 1 := hq
  have sq : ∀ t u : ℝ, |u| ≤ 1 → (t * u) * (t * u) ≤ t * t := by
    intro t u hu
    have : u * u ≤ 1 := by rw [← abs_mul_abs_self]; nlinarith [abs_nonneg u]
    nlinarith [mul_self_nonneg t]
  have a1 := sq t u hu
  have a2 := sq t v hv
  have a3 := sq t' u' hu'
  have a4 := sq t' v' hv'
  have tt := mul_pos ht ht'
  unfold dot
  interval_cases f <;> simp only [loc, Vec.mk.injEq] at h h' <;> obtain ⟨rfl, e1, e2⟩ := h <;> obtain ⟨rfl, e3, e4⟩ := h' <;>
    rw [← e1] at a1 <;> rw [← e2] at a2 <;> rw [← e3] at a3 <;> rw [← e4] at a4
  · exact opp_dot hp' hq' (by linarith) (by linarith) (by linarith) (by linarith) (by linarith)
  · have := opp_dot (a := p.y) (b := p.x) (c := p.z) (a' := q.y) (b' := q.x) (c' := q.z) (by linarith) (by linarith) (by linarith) (by linarith) (by linarith) (by linarith) (by linarith)
    linarith
  · have := opp_dot (a := p.z) (b := p.x) (c := p.y) (a' := q.z) (b' := q.x) (c' := q.y) (by linarith) (by linarith) (by linarith) (by linarith) (by linarith) (by linarith) (by linarith)
    linarith
  · exact opp_dot hp' hq' (by linarith) (by linarith) (by linarith) (by linarith) (by linarith)
  · have := opp_dot (a := p.y) (b := p.x) (c := p.z) (a' := q.y) (b' := q.x) (c' := q.z) (by linarith) (by linarith) (by linarith) (by linarith) (by linarith) (by linarith) (by linarith)
    linarith
  · have := opp_dot (a := p.z) (b := p.x) (c := p.y) (a' := q.z) (b' := q.x) (c' := q.y) (by linarith) (by linarith) (by linarith) (by linarith) (by linarith) (by linarith) (by linarith)
    linarith

theorem value_zero : (minWidthMetric (_root_.id : ℝ → ℝ) (Real.sqrt 2)).value 0 = 2 * Real.sqrt 2 / 3 := by
  rw [S2.Metric.value_eq]
  show _ * ((2 : ℝ) ^ (((1 : Nat) : Int) * ((0 : Nat) : Int)))⁻¹ = _
  simp
  rfl

/-- The same as `near_touch` at level 0. -/
theorem near_face {p q : Vec ℝ} (hp : UnitV p) (hq : UnitV q) {l m A X : CellID} (hl : fromPoint _root_.id Real.sqrt p = some l)
    (hm : fromPoint _root_.id Real.sqrt q = some m) (hA : l.parent 0 = some A) (hX : m.parent 0 = some X) (hd : ang p q ≤ 2 * Real.sqrt 2 / 3) : Touch A X := by
  obtain ⟨l', f, u, v, t, i, j, o, e1, e2, e3, e4, e5, e6, e7, e8, e9, -⟩ := point_lines hp
  rw [hl] at e1
  obtain rfl := Option.some.inj e1
  obtain ⟨m', f', u', v', t', i', j', o', g1, g2, g3, g4, g5, g6, g7, g8, g9, -⟩ := point_lines hq
  rw [hm] at g1
  obtain rfl := Option.some.inj g1
  obtain ⟨A', _, _, _, -, hA', vA, lA, -, -, -, -, sA, -⟩ := parent_setting e2 e3 (show 0 ≤ 30 by decide) e4
  obtain ⟨X', _, _, _, -, hX', vX, lX, -, -, -, -, sX, -⟩ := parent_setting g2 g3 (show 0 ≤ 30 by decide) g4
  rw [hA] at hA'
  obtain rfl := Option.some.inj hA'
  rw [hX] at hX'
  obtain rfl := Option.some.inj hX'
  have fA := (square_unique (face_square vA lA) sA).1
  have fX := (square_unique (face_square vX lX) sX).1
  refine faces_touch vA vX lA lX ?_
  rw [← fA, ← fX]
  rintro rfl
  have h1 := opp_far hp hq e5 e6 g6 e7 g7 e8 e9 g8 g9
  rw [← cos_ang hp hq] at h1
  have h2 := Real.one_sub_sq_div_two_le_cos (x := ang p q)
  have h3 : ang p q ^ 2 ≤ (2 * Real.sqrt 2 / 3) ^ 2 := pow_le_pow_left₀ (ang_nonneg _ _) hd 2
  rw [div_pow, mul_pow, Real.sq_sqrt (by norm_num)] at h3
  linarith

theorem value_anti {k L : Nat} (h : k ≤ L) : (minWidthMetric (_root_.id : ℝ → ℝ) (Real.sqrt 2)).value L ≤ (minWidthMetric (_root_.id : ℝ → ℝ) (Real.sqrt 2)).value k := by
  have e : ∀ n : Nat, (minWidthMetric (_root_.id : ℝ → ℝ) (Real.sqrt 2)).value n = (2 * Real.sqrt 2 / 3) * ((2 : ℝ) ^ n)⁻¹ := by
    intro n
    rw [S2.Metric.value_eq]
    show _ * ((2 : ℝ) ^ (((1 : Nat) : Int) * ((n : Nat) : Int)))⁻¹ = _
    rw [Nat.cast_one, one_mul, zpow_natCast]
    rfl
  rw [e, e]
  refine mul_le_mul_of_nonneg_left ?_ (by positivity)
  exact inv_anti₀ (by positivity) (pow_le_pow_right₀ (by norm_num) h)

/-- At every level, points no further apart than the least width of its cells are in cells that touch. -/
theorem near_cells {p q : Vec ℝ} (hp : UnitV p) (hq : UnitV q) {l m A X : CellID} (hl : fromPoint _root_.id Real.sqrt p = some l)
    (hm : fromPoint _root_.id Real.sqrt q = some m) {L : Nat} (hL : L ≤ 30) (hA : l.parent L = some A) (hX : m.parent L = some X)
    (hd : ang p q ≤ (minWidthMetric (_root_.id : ℝ → ℝ) (Real.sqrt 2)).value L) : Touch A X := by
  rcases Nat.eq_zero_or_pos L with rfl | h
  · rw [value_zero] at hd
    exact near_face hp hq hl hm hA hX hd
  · obtain ⟨M, rfl⟩ := Nat.exists_eq_succ_of_ne_zero h.ne'
    exact near_touch hp hq hl hm hL hA hX hd

/-! ## Expansion -/

/-- A cell that touches the cell of a covered leaf is covered. -/
theorem expand_step {flq : ℚ → ℚ} (hfl : Rounding flq) {v u : List CellID} {L : Nat} (hv : AllCells v) (hL : L ≤ 30) (hu : expandAtLevel flq v L = some u)
    {x l A X : CellID} (hx : x ∈ v) (hl : Valid l) (h30 : l.level = some 30) (hc : x.contains l = some true) (hA : l.parent L = some A)
    (hX : Valid X) (lX : X.level = some L) (ht : Touch A X) {q : Nat} (hq : HasLeaf X.id.toNat q) : Covers u q := by
  obtain ⟨u', e, -, h⟩ := c41_expand_exact hfl hv hL
  rw [hu] at e
  obtain rfl := Option.some.inj e
  rw [h]
  have xv := (allCells_iff v).1 hv x hx
  obtain ⟨A', a1, a2, a3, a4, -⟩ := c05_parent hl h30 hL
  rw [hA] at a1
  obtain rfl := Option.some.inj a1
  obtain ⟨r, e1, -, e2⟩ := c03_contains xv hl
  rw [hc] at e1
  obtain rfl := Option.some.inj e1
  obtain ⟨k, kb, l1, l2, l3, l4⟩ := e2.1 rfl
  rw [h30] at l2
  obtain rfl := Option.some.inj l2
  by_cases hk : k ≤ L
  · refine ⟨x, hx, x, ⟨xv, c03_refl xv, k, l1, by rw [min_eq_right hk]; exact l1⟩, Or.inr ⟨X, hX, lX, ?_, hq⟩⟩
    obtain ⟨P, p1, p2⟩ := ht
    refine ⟨P, onCell_mono xv a2 ?_ p1, p2⟩
    obtain ⟨B, b1, -, -, b4, -⟩ := c05_parent a2 a3 hk
    rw [(c05_parent_parent hl h30 hL hk hA).1, l4] at b1
    obtain rfl := Option.some.inj b1
    exact b4
  · obtain ⟨B, b1, -, -, b4, -⟩ := c05_parent xv l1 (show L ≤ k by omega)
    rw [(c05_parent_parent hl h30 l3 (show L ≤ k by omega) l4).1, hA] at b1
    obtain rfl := Option.some.inj b1
    exact ⟨x, hx, A, ⟨a2, b4, k, l1, by rw [min_eq_left (by omega)]; exact a3⟩, Or.inr ⟨X, hX, lX, ht, hq⟩⟩

theorem leastLevel_spec : ∀ (v : List CellID) (m : Nat), (∀ c ∈ v, Valid c) → ∃ k, leastLevel v m = some k ∧ k ≤ m ∧ (∀ x ∈ v, ∀ j, x.level = some j → k ≤ j) ∧
    (k = m ∨ ∃ x ∈ v, x.level = some k) := by
  intro v
  induction v with
  | nil => exact fun m _ => ⟨m, rfl, le_rfl, by simp, Or.inl rfl⟩
  | cons c v ih =>
    intro m hv
    have hc := hv c (by simp)
    obtain ⟨k, e, h1, h2, h3⟩ := ih (min m (lv c)) fun x hx => hv x (by simp [hx])
    refine ⟨k, ?_, by omega, ?_, ?_⟩
    · rw [leastLevel, hc.level]
      exact e
    · intro x hx j hj
      rcases List.mem_cons.1 hx with rfl | hx
      · rw [hc.level] at hj
        obtain rfl := Option.some.inj hj
        omega
      · exact h2 x hx j hj
    · rcases h3 with rfl | ⟨x, hx, h⟩
      · rcases le_total m (lv c) with h | h
        · exact Or.inl (min_eq_left h)
        · exact Or.inr ⟨c, by simp, by rw [hc.level, min_eq_right h]⟩
      · exact Or.inr ⟨x, by simp [hx], h⟩

/-- The level of `MIN_WIDTHMETRIC::max_level`, also for radii that are not positive. -/
theorem radius_level (r : ℝ) : ∃ L, (minWidthMetric (_root_.id : ℝ → ℝ) (Real.sqrt 2)).maxLevel _root_.id r = some L ∧
    IsMaxLevel (fun n => (minWidthMetric (_root_.id : ℝ → ℝ) (Real.sqrt 2)).value n) r L := by
  have hs : 0 < Real.sqrt 2 := Real.sqrt_pos.2 (by norm_num)
  have hm : 0 < (minWidthMetric (_root_.id : ℝ → ℝ) (Real.sqrt 2)).deriv := by
    show 0 < 2 * Real.sqrt 2 / 3
    positivity
  by_cases hv : r ≤ 0
  · refine ⟨30, ?_, le_rfl, fun l h1 h2 => by omega, Or.inl (hv.trans ?_)⟩
    · unfold S2.Metric.maxLevel
      rw [if_pos hv]
    · show 0 ≤ S2.Metric.value _ _
      rw [S2.Metric.value_eq]
      exact mul_nonneg hm.le (inv_nonneg.2 (zpow_nonneg (by norm_num) _))
  · exact S2.Metric.c58_maxLevel (m := minWidthMetric (_root_.id : ℝ → ℝ) (Real.sqrt 2)) (Or.inl rfl) hm (not_le.1 hv)

/-- Two expansions at level 0 reach every leaf. -/
theorem expand_twice {flq : ℚ → ℚ} (hfl : Rounding flq) {v u w : List CellID} (hv : AllCells v) (h1 : expandAtLevel flq v 0 = some u)
    (h2 : expandAtLevel flq u 0 = some w) {x l m : CellID} (hx : x ∈ v) (hl : Valid l) (h30 : l.level = some 30) (hc : x.contains l = some true)
    (hm : Valid m) (m30 : m.level = some 30) {q : Nat} (hq : HasLeaf m.id.toNat q) : Covers w q := by
  obtain ⟨A, a1, a2, a3, a4, -⟩ := c05_parent hl h30 (show 0 ≤ 30 by decide)
  obtain ⟨B, b1, b2, b3, b4, -⟩ := c05_parent hm m30 (show 0 ≤ 30 by decide)
  have hA := level0_face a2
  obtain ⟨xs, -, -, -, hf⟩ := faces_ok
  obtain ⟨H, -, c2, c3, c4⟩ := hf (if B.face = (A.face + 3) % 6 then (A.face + 1) % 6 else A.face) (by split <;> omega)
  have t1 : Touch A H := by
    refine faces_touch a2 c2 a3 c3 ?_
    rw [c4]
    split <;> omega
  have t2 : Touch H B := by
    refine faces_touch c2 b2 c3 b3 ?_
    rw [c4]
    split <;> omega
  have sH := face_square c2 c3
  obtain ⟨h, hh, hlev, hat⟩ := valid_leaf_exists (i := 0) (j := 0) (level0_face c2) (by decide) (by decide)
  have hin := (sH.leaves h _ _ _ hh hlev hat).2 ⟨rfl, by decide, by decide, by decide, by decide⟩
  obtain ⟨r, hr⟩ := leaf_exists hh hlev
  obtain ⟨y, hy, hyr⟩ := expand_step hfl hv (by decide) h1 hx hl h30 hc a1 c2 c3 t1 ((contains_leaf c2 hh hlev hr).1 hin)
  obtain ⟨u', e, hn, -⟩ := c41_expand_exact hfl hv (show 0 ≤ 30 by decide)
  rw [h1] at e
  obtain rfl := Option.some.inj e
  have hH : h.parent 0 = some H := by
    obtain ⟨H', d1, d2, d3, d4, d5⟩ := c05_parent hh hlev (show 0 ≤ 30 by decide)
    rw [d5 H c2 c3 hin]
    exact d1
  exact expand_step hfl hn.1.1 (by decide) h2 hy hh hlev ((contains_leaf ((allCells_iff _).1 hn.1.1 y hy) hh hlev hr).2 hyr) hH b2 b3 t2
    ((contains_leaf b2 hm m30 hq).1 b4)

/-- **C105.** `expand_by_radius` returns a normalized union, and the leaf of every point within the radius of a covered point is covered. -/
theorem c105_covers {flq : ℚ → ℚ} (hfl : Rounding flq) {v : List CellID} (hv : AllCells v) (r : ℝ) {d : Nat} (hd : 30 + d < 2 ^ 64) :
    ∃ u, expandByRadius _root_.id (Real.sqrt 2) flq v r d = some u ∧ Normal u ∧
      ∀ p q, UnitV p → UnitV q → ang p q ≤ r → (∃ l, ∃ x ∈ v, fromPoint _root_.id Real.sqrt p = some l ∧ x.contains l = some true) →
        ∃ m, ∃ X ∈ u, fromPoint _root_.id Real.sqrt q = some m ∧ X.contains m = some true := by
  obtain ⟨k, k1, k2, -⟩ := leastLevel_spec v maxLevel ((allCells_iff v).1 hv)
  obtain ⟨L, l1, l2, l3, l4⟩ := radius_level r
  have k30 : k ≤ 30 := k2
  unfold expandByRadius
  rw [Option.bind_eq_bind, k1, Option.bind_some, Option.bind_eq_bind, l1, Option.bind_some]
  have hs : addU64 k d = some (k + d) := if_pos (by omega)
  by_cases hb : L = 0 ∧ r > (minWidthMetric (_root_.id : ℝ → ℝ) (Real.sqrt 2)).value 0
  · obtain ⟨w, w1, w2, -⟩ := c41_expand_exact hfl hv (show 0 ≤ 30 by decide)
    obtain ⟨u, u1, u2, -⟩ := c41_expand_exact hfl w2.1.1 (show 0 ≤ 30 by decide)
    refine ⟨u, ?_, u2, ?_⟩
    · rw [if_pos hb, w1, Option.bind_some, hs, Option.bind_some, hb.1, Nat.min_zero, u1]
    · rintro p q hp hq - ⟨l, x, hx, hl, hc⟩
      obtain ⟨l', _, _, _, _, _, _, _, e1, e2, e3, -⟩ := point_lines hp
      rw [hl] at e1
      obtain rfl := Option.some.inj e1
      obtain ⟨m, X, h1, h2, h3⟩ := covers_point u2.1 hq fun m n hm hn => by
        obtain ⟨m', _, _, _, _, _, _, _, g1, g2, g3, -⟩ := point_lines hq
        rw [hm] at g1
        obtain rfl := Option.some.inj g1
        exact expand_twice hfl hv w1 u1 hx e2 e3 hc g2 g3 hn
      exact ⟨m, X, h2, h1, h3⟩
  · have hr : r ≤ (minWidthMetric (_root_.id : ℝ → ℝ) (Real.sqrt 2)).value L := by
      rcases l4 with h | rfl
      · exact h
      · by_contra hlt
        exact hb ⟨rfl, not_le.1 hlt⟩
    have hM : min (k + d) L ≤ 30 := (min_le_right _ _).trans l2
    obtain ⟨u, u1, u2, -⟩ := c41_expand_exact hfl hv hM
    refine ⟨u, ?_, u2, ?_⟩
    · rw [if_neg hb, Option.bind_some, hs, Option.bind_some, u1]
    · rintro p q hp hq hpq ⟨l, x, hx, hl, hc⟩
      obtain ⟨l', _, _, _, _, _, _, _, e1, e2, e3, -⟩ := point_lines hp
      rw [hl] at e1
      obtain rfl := Option.some.inj e1
      obtain ⟨A, hA, -⟩ := c05_parent e2 e3 hM
      obtain ⟨m, X, h1, h2, h3⟩ := covers_point u2.1 hq fun m n hm hn => by
        obtain ⟨m', _, _, _, _, _, _, _, g1, g2, g3, -⟩ := point_lines hq
        rw [hm] at g1
        obtain rfl := Option.some.inj g1
        obtain ⟨B, b1, b2, b3, b4, -⟩ := c05_parent g2 g3 hM
        exact expand_step hfl hv hM u1 hx e2 e3 hc hA b2 b3
          (near_cells hp hq hl hm hM hA b1 (hpq.trans (hr.trans (value_anti (min_le_right _ _))))) ((contains_leaf b2 g2 g3 hn).1 b4)
      exact ⟨m, X, h2, h1, h3⟩

-- a point 0.22 from (1, 0, 0) is covered by the expansion by 1/4 of any union that covers (1, 0, 0)
example {flq : ℚ → ℚ} (hfl : Rounding flq) : ∃ l u, fromPoint _root_.id Real.sqrt (⟨1, 0, 0⟩ : Vec ℝ) = some l ∧
    expandByRadius _root_.id (Real.sqrt 2) flq [l] (1 / 4 : ℝ) 3 = some u ∧
      ∃ m, ∃ X ∈ u, fromPoint _root_.id Real.sqrt (⟨40 / 41, 9 / 41, 0⟩ : Vec ℝ) = some m ∧ X.contains m = some true := by
  have hp : UnitV (⟨1, 0, 0⟩ : Vec ℝ) := by unfold UnitV dot; norm_num
  have hq : UnitV (⟨40 / 41, 9 / 41, 0⟩ : Vec ℝ) := by unfold UnitV dot; norm_num
  obtain ⟨l, _, _, _, _, _, _, _, e1, e2, -⟩ := point_lines hp
  obtain ⟨u, h1, -, h2⟩ := c105_covers hfl (v := [l]) ((allCells_iff _).2 (by simpa using e2)) (1 / 4) (d := 3) (by norm_num)
  refine ⟨l, u, e1, h1, h2 _ _ hp hq ?_ ⟨l, l, by simp, e1, c03_refl e2⟩⟩
  by_contra hlt
  have h3 := Real.cos_lt_cos_of_nonneg_of_le_pi (by norm_num) (ang_le_pi _ _) (not_le.1 hlt)
  rw [cos_ang hp hq] at h3
  have h4 := abs_le.1 (Real.cos_bound (x := 1 / 4) (by norm_num [abs_of_pos]))
  have e : |(1 / 4 : ℝ)| = 1 / 4 := abs_of_pos (by norm_num)
  rw [e] at h4
  have : dot (⟨1, 0, 0⟩ : Vec ℝ) ⟨40 / 41, 9 / 41, 0⟩ = 40 / 41 := by unfold dot; norm_num
  rw [this] at h3
  linarith [h4.2]

/-- **C105.** For radii up to the least width of a face the result is exactly that of `expand_at_level` at the level that is the smaller of the
greatest level whose cells are at least as wide as the radius, and of the least level of the given cells plus the allowed difference. -/
theorem c105_exact {flq : ℚ → ℚ} (hfl : Rounding flq) {v : List CellID} (hv : AllCells v) {r : ℝ} (hr : r ≤ 2 * Real.sqrt 2 / 3) {d : Nat} (hd : 30 + d < 2 ^ 64) :
    ∃ u k L, expandByRadius _root_.id (Real.sqrt 2) flq v r d = some u ∧
      (k ≤ 30 ∧ (∀ x ∈ v, ∀ j, x.level = some j → k ≤ j) ∧ (k = 30 ∨ ∃ x ∈ v, x.level = some k)) ∧
      L ≤ 30 ∧ r ≤ (2 * Real.sqrt 2 / 3) / 2 ^ L ∧ (∀ n, L < n → n ≤ 30 → (2 * Real.sqrt 2 / 3) / 2 ^ n < r) ∧
      ∀ q, Covers u q ↔ ∃ x ∈ v, ∃ X, Enlarged x (min (k + d) L) X ∧ InRim X (min (k + d) L) q := by
  obtain ⟨k, k1, k2, k3, k4⟩ := leastLevel_spec v maxLevel ((allCells_iff v).1 hv)
  obtain ⟨L, l1, l2, l3, l4⟩ := radius_level r
  have k30 : k ≤ 30 := k2
  have hs : addU64 k d = some (k + d) := if_pos (by omega)
  have hM : min (k + d) L ≤ 30 := (min_le_right _ _).trans l2
  obtain ⟨u, u1, -, u3⟩ := c41_expand_exact hfl hv hM
  have e : ∀ n : Nat, (minWidthMetric (_root_.id : ℝ → ℝ) (Real.sqrt 2)).value n = (2 * Real.sqrt 2 / 3) / (2 : ℝ) ^ n := by
    intro n
    rw [S2.Metric.value_eq]
    show _ * ((2 : ℝ) ^ (((1 : Nat) : Int) * ((n : Nat) : Int)))⁻¹ = _
    rw [Nat.cast_one, one_mul, zpow_natCast]
    rfl
  simp only [e] at l3 l4
  refine ⟨u, k, L, ?_, ⟨k30, k3, k4⟩, l2, ?_, l3, u3⟩
  · unfold expandByRadius
    rw [Option.bind_eq_bind, k1, Option.bind_some, Option.bind_eq_bind, l1, Option.bind_some, if_neg, Option.bind_some, hs,
      Option.bind_some, u1]
    rw [value_zero]
    exact fun h => absurd h.2 (not_lt.2 hr)
  · rcases l4 with h | rfl
    · exact h
    · simpa using hr

-- any cell, radius 1/2, difference 5: the level is 0, the cell is enlarged to its face
example {flq : ℚ → ℚ} (hfl : Rounding flq) {x : CellID} (hx : Valid x) :
    ∃ u, expandByRadius _root_.id (Real.sqrt 2) flq [x] (1 / 2 : ℝ) 5 = some u ∧
      ∀ q, Covers u q ↔ ∃ X, Enlarged x 0 X ∧ InRim X 0 q := by
  have s1 : Real.sqrt 2 < 3 / 2 := by
    rw [Real.sqrt_lt' (by norm_num)]
    norm_num
  have s2 : 1 ≤ Real.sqrt 2 := Real.one_le_sqrt.2 (by norm_num)
  obtain ⟨u, k, L, h1, -, h2, h3, h4, h5⟩ := c105_exact hfl (v := [x]) ((allCells_iff _).2 (by simpa using hx)) (r := 1 / 2) (by linarith) (d := 5) (by norm_num)
  have : L = 0 := by
    by_contra hL
    have p2 : (2 : ℝ) ^ 1 ≤ 2 ^ L := pow_le_pow_right₀ (by norm_num) (by omega)
    rw [le_div_iff₀ (by positivity)] at h3
    linarith
  subst this
  refine ⟨u, h1, fun q => ?_⟩
  rw [h5, Nat.min_zero]
  simp

/-- **C105.** A level difference near the end of the range of `u64` makes the sum overflow. -/
theorem c105_overflow (flq : ℚ → ℚ) {v : List CellID} (hv : AllCells v) (r : ℝ) {d : Nat}
    (hk : ∀ y ∈ v, ∀ j, y.level = some j → 2 ^ 64 ≤ j + d) (hd : 2 ^ 64 ≤ 30 + d) : expandByRadius _root_.id (Real.sqrt 2) flq v r d = none := by
  obtain ⟨k, k1, k2, -, k4⟩ := leastLevel_spec v maxLevel ((allCells_iff v).1 hv)
  obtain ⟨L, l1, l2, -⟩ := radius_level r
  have hs : addU64 k d = none := by
    refine if_neg ?_
    rcases k4 with h | ⟨y, hy, h⟩
    · have : k = 30 := h
      omega
    · have := hk y hy k h
      omega
  unfold expandByRadius
  rw [Option.bind_eq_bind, k1, Option.bind_some, Option.bind_eq_bind, l1, Option.bind_some]
  rw [hs]
  simp

-- a cell of level 1 with the greatest difference
example {x : CellID} (hx : Valid x) (h1 : x.level = some 1) (r : ℝ) : expandByRadius _root_.id (Real.sqrt 2) _root_.id [x] r (2 ^ 64 - 1) = none :=
  c105_overflow _root_.id ((allCells_iff _).2 (by simpa using hx)) r (by
    intro y hy j hj
    obtain rfl := List.mem_singleton.1 hy
    rw [h1] at hj
    obtain rfl := Option.some.inj hj
    norm_num) (by norm_num)

end Verif
