import Verif.Properties.CellGeom

/-!
# Vectors: C74

The laws that the documentation promises exactly (antisymmetry of the cross product, `ortho(-v) = -ortho(v)`, properties (2) to (4) of
`Point::cross`, symmetry of `chordangle`) hold for every odd rounding function. The geometric meaning is proved in exact arithmetic.
-/

namespace Verif
open Spec

namespace Spec
variable {K : Type} [Field K] [LinearOrder K]

/-- A rounding that treats the two signs alike (as rounding to nearest does). -/
def OddFl (fl : K → K) : Prop := ∀ x, fl (-x) = -fl x

/-- The zero vector. -/
def IsZero (p : Vec K) : Prop := p.x = 0 ∧ p.y = 0 ∧ p.z = 0

/-- The component of a vector along an axis. -/
def comp (p : Vec K) : Vec.Axis → K
  | .X => p.x
  | .Y => p.y
  | .Z => p.z

end Spec

variable {K : Type} [Field K] [LinearOrder K] [IsStrictOrderedRing K]
set_option linter.unusedSectionVars false

theorem smul_neg_one (p : Vec K) : smul (-1) p = ⟨-p.x, -p.y, -p.z⟩ := by
  unfold smul; simp

theorem smul_neg_neg (p : Vec K) : smul (-1) (smul (-1) p) = p := by
  unfold smul; simp

theorem Spec.OddFl.eq {fl : K → K} (h : OddFl fl) (x : K) : fl (-x) = -fl x := h x

theorem Spec.OddFl.zero {fl : K → K} (h : OddFl fl) : fl 0 = 0 := by
  have := h 0
  rw [neg_zero] at this
  linarith

/-! ## Order -/

omit [IsStrictOrderedRing K] in
/-- **C74.** The order of vectors is the lexicographic order of the components. -/
theorem c74_cmp (p q : Vec K) :
    (Vec.cmp p q = .lt ↔ p.x < q.x ∨ p.x = q.x ∧ (p.y < q.y ∨ p.y = q.y ∧ p.z < q.z)) ∧
    (Vec.cmp p q = .eq ↔ p = q) ∧ (Vec.cmp p q = .gt ↔ Vec.cmp q p = .lt) := by
  obtain ⟨a, b, c⟩ := p
  obtain ⟨a', b', c'⟩ := q
  unfold Vec.cmp
  dsimp only
  simp only [Vec.mk.injEq, gt_iff_lt]
  rcases lt_trichotomy a a' with h | h | h
  · simp [h, h.not_gt, h.ne]
  · subst h
    rcases lt_trichotomy b b' with h | h | h
    · simp [h, h.not_gt, h.ne]
    · subst h
      rcases lt_trichotomy c c' with h | h | h
      · simp [h, h.not_gt, h.ne]
      · subst h; simp
      · simp [h, h.not_gt, h.ne']
    · simp [h, h.not_gt, h.ne']
  · simp [h, h.not_gt, h.ne']

omit [IsStrictOrderedRing K] in
/-- **C74.** The order of vectors is transitive. -/
theorem c74_cmp_trans {p q r : Vec K} (h1 : Vec.cmp p q = .lt) (h2 : Vec.cmp q r = .lt) : Vec.cmp p r = .lt := by
  rw [(c74_cmp _ _).1] at *
  grind

/-! ## Laws that hold with rounding -/

omit [LinearOrder K] [IsStrictOrderedRing K] in
/-- **C74.** `dot` is commutative, whatever the rounding. -/
theorem c74_dot_comm [LinearOrder K] (fl : K → K) (p q : Vec K) : Vec.dot fl p q = Vec.dot fl q p := by
  unfold Vec.dot
  rw [mul_comm p.x, mul_comm p.y, mul_comm p.z]

theorem cross_swap {fl : K → K} (h : OddFl fl) (p q : Vec K) : Vec.cross fl q p = smul (-1) (Vec.cross fl p q) := by
  rw [smul_neg_one]
  unfold Vec.cross
  simp only [Vec.mk.injEq, ← h.eq, neg_sub]
  refine ⟨?_, ?_, ?_⟩ <;> (congr 2 <;> (congr 1; ring))

/-- **C74.** `cross` is antisymmetric for every odd rounding, and zero for equal vectors. -/
theorem c74_cross_anti {fl : K → K} (h : OddFl fl) (p q : Vec K) :
    Vec.cross fl q p = smul (-1) (Vec.cross fl p q) ∧ IsZero (Vec.cross fl p p) := by
  refine ⟨cross_swap h p q, ?_⟩
  have h0 := h.zero
  unfold Vec.cross IsZero
  refine ⟨?_, ?_, ?_⟩ <;> dsimp only
  · rw [mul_comm p.y, sub_self, h0]
  · rw [mul_comm p.z, sub_self, h0]
  · rw [mul_comm p.x, sub_self, h0]

theorem cross_neg_left {fl : K → K} (h : OddFl fl) (p q : Vec K) : Vec.cross fl (smul (-1) p) q = smul (-1) (Vec.cross fl p q) := by
  rw [smul_neg_one, smul_neg_one]
  unfold Vec.cross
  simp only [neg_mul, h.eq, Vec.mk.injEq]
  refine ⟨?_, ?_, ?_⟩ <;> (rw [← h.eq (_ - _)]; congr 1; ring)

theorem cross_neg_right {fl : K → K} (h : OddFl fl) (p q : Vec K) : Vec.cross fl p (smul (-1) q) = smul (-1) (Vec.cross fl p q) := by
  rw [cross_swap h (smul (-1) q) p, cross_neg_left h, cross_swap h p q, smul_neg_neg]

theorem norm2_neg (fl : K → K) (p : Vec K) : Vec.norm2 fl (smul (-1) p) = Vec.norm2 fl p := by
  unfold Vec.norm2 Vec.dot smul
  simp

theorem isZero_neg (p : Vec K) : IsZero (smul (-1) p) ↔ IsZero p := by
  unfold IsZero smul
  simp

theorem normalize_neg {fl : K → K} (sqrt : K → K) (h : OddFl fl) (p : Vec K) :
    Vec.normalize fl sqrt (smul (-1) p) = smul (-1) (Vec.normalize fl sqrt p) := by
  have hz := isZero_neg p
  unfold IsZero at hz
  unfold Vec.normalize
  by_cases h0 : p.x = 0 ∧ p.y = 0 ∧ p.z = 0
  · rw [if_pos h0, if_pos (hz.2 h0)]
  · rw [if_neg h0, if_neg (fun c => h0 (hz.1 c))]
    unfold Vec.norm
    rw [norm2_neg]
    rw [smul_neg_one, smul_neg_one]
    unfold Vec.scale
    simp only [neg_mul, h.eq]

/-- **C74.** `ortho(-v) == -ortho(v)` for every odd rounding, as documented. -/
theorem c74_ortho_odd {fl : K → K} (sqrt : K → K) (h : OddFl fl) (p : Vec K) :
    Vec.ortho fl sqrt (smul (-1) p) = smul (-1) (Vec.ortho fl sqrt p) := by
  have e : ∀ a b c : K, Vec.orthoDir a b c (smul (-1) p) = Vec.orthoDir a b c p := by
    intro a b c
    unfold Vec.orthoDir Vec.largestComponent smul
    simp
  unfold Vec.ortho
  rw [e, cross_neg_left h, normalize_neg sqrt h]

/-! ## `Point::cross` -/

theorem add_comm_vec (fl : K → K) (p q : Vec K) : Vec.add fl p q = Vec.add fl q p := by
  unfold Vec.add; rw [add_comm p.x, add_comm p.y, add_comm p.z]

theorem sub_swap {fl : K → K} (h : OddFl fl) (p q : Vec K) : Vec.sub fl p q = smul (-1) (Vec.sub fl q p) := by
  rw [smul_neg_one]
  unfold Vec.sub
  simp only [← h.eq, neg_sub]

theorem pointCross_of {fl : K → K} (sqrt : K → K) {p q : Vec K} (h : ¬ IsZero (Vec.cross fl (Vec.add fl p q) (Vec.sub fl q p))) :
    Vec.pointCross fl sqrt p q = Vec.cross fl (Vec.add fl p q) (Vec.sub fl q p) := by
  unfold Vec.pointCross
  exact if_neg h

/-- **C74.** Properties (2), (3) and (4) of `Point::cross` for every odd rounding: unless the product that is computed first is zero,
exchanging the points or negating one of them negates the result exactly. -/
theorem c74_pointCross_odd {fl : K → K} (sqrt : K → K) (h : OddFl fl) {p q : Vec K}
    (hz : ¬ IsZero (Vec.cross fl (Vec.add fl p q) (Vec.sub fl q p))) :
    Vec.pointCross fl sqrt q p = smul (-1) (Vec.pointCross fl sqrt p q) ∧
    Vec.pointCross fl sqrt (smul (-1) p) q = smul (-1) (Vec.pointCross fl sqrt p q) ∧
    Vec.pointCross fl sqrt p (smul (-1) q) = smul (-1) (Vec.pointCross fl sqrt p q) := by
  have e1 : Vec.cross fl (Vec.add fl q p) (Vec.sub fl p q) = smul (-1) (Vec.cross fl (Vec.add fl p q) (Vec.sub fl q p)) := by
    rw [add_comm_vec fl q p, sub_swap h p q, cross_neg_right h]
  have a1 : Vec.add fl (smul (-1) p) q = Vec.sub fl q p := by
    rw [smul_neg_one]
    unfold Vec.add Vec.sub
    simp only [neg_add_eq_sub]
  have a2 : Vec.sub fl q (smul (-1) p) = Vec.add fl p q := by
    rw [smul_neg_one]
    unfold Vec.add Vec.sub
    simp only [sub_neg_eq_add, add_comm]
  have e2 : Vec.cross fl (Vec.add fl (smul (-1) p) q) (Vec.sub fl q (smul (-1) p)) = smul (-1) (Vec.cross fl (Vec.add fl p q) (Vec.sub fl q p)) := by
    rw [a1, a2, cross_swap h]
  have a3 : Vec.add fl p (smul (-1) q) = smul (-1) (Vec.sub fl q p) := by
    rw [← sub_swap h]
    rw [smul_neg_one]
    unfold Vec.add Vec.sub
    simp only [← sub_eq_add_neg]
  have a4 : Vec.sub fl (smul (-1) q) p = smul (-1) (Vec.add fl p q) := by
    rw [smul_neg_one, smul_neg_one]
    unfold Vec.add Vec.sub
    simp only [← h.eq, Vec.mk.injEq]
    refine ⟨?_, ?_, ?_⟩ <;> (congr 1; ring)
  have e3 : Vec.cross fl (Vec.add fl p (smul (-1) q)) (Vec.sub fl (smul (-1) q) p) = smul (-1) (Vec.cross fl (Vec.add fl p q) (Vec.sub fl q p)) := by
    rw [a3, a4, cross_neg_left h, cross_neg_right h, cross_swap h (Vec.add fl p q), smul_neg_neg]
  rw [pointCross_of sqrt hz]
  refine ⟨?_, ?_, ?_⟩
  · rw [pointCross_of sqrt (by rw [e1, isZero_neg]; exact hz), e1]
  · rw [pointCross_of sqrt (by rw [e2, isZero_neg]; exact hz), e2]
  · rw [pointCross_of sqrt (by rw [e3, isZero_neg]; exact hz), e3]

/-- **C74.** `chordangle` is symmetric for every odd rounding, at most 4, and 0 for equal points. -/
theorem c74_chordAngle {fl : K → K} (h : OddFl fl) (p q : Vec K) :
    Vec.chordAngle fl p q = Vec.chordAngle fl q p ∧ Vec.chordAngle fl p q ≤ 4 ∧ Vec.chordAngle fl p p = 0 := by
  refine ⟨?_, min_le_left _ _, ?_⟩
  · unfold Vec.chordAngle
    rw [sub_swap h q p, norm2_neg]
  · have h0 := h.zero
    unfold Vec.chordAngle Vec.norm2 Vec.dot Vec.sub
    simp [h0]

/-! ## Components -/

/-- **C74.** `largest_component` and `smallest_component` name a component of extreme absolute value. -/
theorem c74_components (p : Vec K) (a : Vec.Axis) :
    |comp p a| ≤ |comp p p.largestComponent| ∧ |comp p p.smallestComponent| ≤ |comp p a| := by
  unfold Vec.largestComponent Vec.smallestComponent
  constructor
  · split_ifs <;> cases a <;> simp only [comp] at * <;> grind
  · split_ifs <;> cases a <;> simp only [comp] at * <;> grind

/-! ## Exact arithmetic -/

/-- **C74.** In exact arithmetic `cross` and `dot` are the scalar and vector products, so `cross` is orthogonal to both factors. -/
theorem c74_products (p q : Vec K) : Vec.dot _root_.id p q = dot p q ∧ Vec.cross _root_.id p q = cross p q ∧
    dot (Vec.cross _root_.id p q) p = 0 ∧ dot (Vec.cross _root_.id p q) q = 0 ∧
    dot (Vec.cross _root_.id p q) (Vec.cross _root_.id p q) + dot p q * dot p q = dot p p * dot q q := by
  refine ⟨rfl, rfl, ?_, ?_, ?_⟩ <;> simp only [dot, Vec.cross, _root_.id] <;> ring

/-- **C74.** In exact arithmetic `normalize` of a non-zero vector is the unit vector in the same direction. -/
theorem c74_normalize {sqrt : K → K} (hs : IsSqrt sqrt) {p : Vec K} (h : ¬ IsZero p) :
    ∃ t, 0 < t ∧ Vec.normalize _root_.id sqrt p = smul t p ∧ dot (Vec.normalize _root_.id sqrt p) (Vec.normalize _root_.id sqrt p) = 1 :=
  normalize_exact hs h

theorem orthoDir_cross {a b c : K} (ha : |a| < 1) (hb : |b| < 1) (hc : |c| < 1) {p : Vec K} (h : ¬ IsZero p) :
    ¬ IsZero (Vec.cross _root_.id p (Vec.orthoDir a b c p)) := by
  obtain ⟨x, y, z⟩ := p
  rintro ⟨h1, h2, h3⟩
  apply h
  have hX := c74_components (⟨x, y, z⟩ : Vec K) .X
  have hY := c74_components (⟨x, y, z⟩ : Vec K) .Y
  have hZ := c74_components (⟨x, y, z⟩ : Vec K) .Z
  have key : ∀ s t k : K, |k| < 1 → |s| ≤ |t| → s * k = t → t = 0 := by
    intro s t k hk hst e
    by_contra hne
    have ht : 0 < |t| := abs_pos.2 hne
    have : |t| = |s| * |k| := by rw [← e, abs_mul]
    nlinarith [abs_nonneg s, abs_nonneg k]
  have fin : ∀ t s : K, t = 0 → |s| ≤ |t| → s = 0 := by
    intro t s ht hs
    rw [ht, abs_zero] at hs
    exact abs_eq_zero.1 (le_antisymm hs (abs_nonneg _))
  unfold Vec.orthoDir at h1 h2 h3
  generalize hg : Vec.largestComponent (⟨x, y, z⟩ : Vec K) = ax at *
  cases ax <;> simp only [comp, Vec.cross, _root_.id] at *
  · have := key z x a ha hZ.1 (by linarith)
    exact ⟨this, fin _ _ this hY.1, fin _ _ this hZ.1⟩
  · have := key x y b hb hX.1 (by linarith)
    exact ⟨fin _ _ this hX.1, this, fin _ _ this hZ.1⟩
  · have := key y z c hc hY.1 (by linarith)
    exact ⟨fin _ _ this hX.1, fin _ _ this hY.1, this⟩

/-- **C74.** In exact arithmetic `ortho` of a non-zero vector is a unit vector orthogonal to it. -/
theorem c74_ortho {sqrt : K → K} (hs : IsSqrt sqrt) {p : Vec K} (h : ¬ IsZero p) :
    dot (Vec.ortho _root_.id sqrt p) p = 0 ∧ dot (Vec.ortho _root_.id sqrt p) (Vec.ortho _root_.id sqrt p) = 1 := by
  have hk : ∀ x : K, 0 < x → x < 1 → |x| < 1 := fun x h0 h1 => by rw [abs_of_pos h0]; exact h1
  have hz : ¬ IsZero (Vec.cross _root_.id p (Vec.orthoDir (12 / 1000 : K) (53 / 10000) (457 / 100000) p)) :=
    orthoDir_cross (hk _ (by norm_num) (by norm_num)) (hk _ (by norm_num) (by norm_num)) (hk _ (by norm_num) (by norm_num)) h
  obtain ⟨t, t0, t1, t2⟩ := normalize_exact hs hz
  refine ⟨?_, t2⟩
  have e : Vec.ortho _root_.id sqrt p = smul t (Vec.cross _root_.id p (Vec.orthoDir (12 / 1000 : K) (53 / 10000) (457 / 100000) p)) := t1
  rw [e]
  have := (c74_products p (Vec.orthoDir (12 / 1000 : K) (53 / 10000) (457 / 100000) p)).2.2.1
  simp only [dot, smul] at this ⊢
  linear_combination t * this

/-- **C74.** In exact arithmetic `Point::cross` of points of equal length is a non-zero vector orthogonal to both, namely twice the
cross product unless that is zero. -/
theorem c74_pointCross {sqrt : K → K} (hs : IsSqrt sqrt) {p q : Vec K} (h : ¬ IsZero p) (hl : dot p p = dot q q) :
    ¬ IsZero (Vec.pointCross _root_.id sqrt p q) ∧ dot (Vec.pointCross _root_.id sqrt p q) p = 0 ∧
    dot (Vec.pointCross _root_.id sqrt p q) q = 0 ∧
    (¬ IsZero (cross p q) → Vec.pointCross _root_.id sqrt p q = smul 2 (cross p q)) ∧
    (IsZero (cross p q) → (q = p ∨ q = smul (-1) p) ∧ Vec.pointCross _root_.id sqrt p q = Vec.ortho _root_.id sqrt p) := by
  have e : Vec.cross _root_.id (Vec.add _root_.id p q) (Vec.sub _root_.id q p) = smul 2 (cross p q) := by
    simp only [Vec.cross, Vec.add, Vec.sub, smul, cross, _root_.id, Vec.mk.injEq]
    refine ⟨?_, ?_, ?_⟩ <;> ring
  have hz2 : IsZero (smul 2 (cross p q)) ↔ IsZero (cross p q) := by unfold IsZero smul; simp
  by_cases hz : IsZero (cross p q)
  · have e2 : Vec.pointCross _root_.id sqrt p q = Vec.ortho _root_.id sqrt p := by
      unfold Vec.pointCross
      rw [e]
      exact if_pos (hz2.2 hz)
    obtain ⟨o1, o2⟩ := c74_ortho hs h
    have hpp : 0 < dot p p := by
      unfold dot
      by_contra hc
      have h1 := mul_self_nonneg p.x
      have h2 := mul_self_nonneg p.y
      have h3 := mul_self_nonneg p.z
      exact h ⟨mul_self_eq_zero.1 (by linarith), mul_self_eq_zero.1 (by linarith), mul_self_eq_zero.1 (by linarith)⟩
    -- equal or opposite
    have hpar : q = p ∨ q = smul (-1) p := by
      obtain ⟨z1, z2, z3⟩ := hz
      have lag := (c74_products p q).2.2.2.2
      have z : dot (cross p q) (cross p q) = 0 := by unfold dot; rw [z1, z2, z3]; ring
      have e5 : Vec.cross _root_.id p q = cross p q := rfl
      rw [e5, z, ← hl] at lag
      have h4 : (dot p q - dot p p) * (dot p q + dot p p) = 0 := by linear_combination lag
      have sq : ∀ a b c : K, a * a + b * b + c * c = 0 → a = 0 ∧ b = 0 ∧ c = 0 := by
        intro a b c habc
        exact ⟨mul_self_eq_zero.1 (by nlinarith [mul_self_nonneg a, mul_self_nonneg b, mul_self_nonneg c]),
          mul_self_eq_zero.1 (by nlinarith [mul_self_nonneg a, mul_self_nonneg b, mul_self_nonneg c]),
          mul_self_eq_zero.1 (by nlinarith [mul_self_nonneg a, mul_self_nonneg b, mul_self_nonneg c])⟩
      obtain ⟨px, py, pz⟩ := p
      obtain ⟨qx, qy, qz⟩ := q
      simp only [dot, smul, Vec.mk.injEq] at *
      rcases mul_eq_zero.1 h4 with h4 | h4
      · left
        obtain ⟨a1, a2, a3⟩ := sq (qx - px) (qy - py) (qz - pz) (by linear_combination -hl - 2 * h4)
        exact ⟨sub_eq_zero.1 a1, sub_eq_zero.1 a2, sub_eq_zero.1 a3⟩
      · right
        obtain ⟨a1, a2, a3⟩ := sq (qx + px) (qy + py) (qz + pz) (by linear_combination -hl + 2 * h4)
        exact ⟨by linarith, by linarith, by linarith⟩
    rw [e2]
    refine ⟨?_, o1, ?_, fun hn => absurd hz hn, fun _ => ⟨hpar, rfl⟩⟩
    · rintro ⟨z1, z2, z3⟩
      unfold dot at o2
      rw [z1, z2, z3] at o2
      norm_num at o2
    · rcases hpar with rfl | rfl
      · exact o1
      · simp only [dot, smul] at o1 ⊢
        linear_combination -o1
  · have e2 : Vec.pointCross _root_.id sqrt p q = smul 2 (cross p q) := by
      unfold Vec.pointCross
      rw [e]
      exact if_neg (fun hn => hz (hz2.1 hn))
    rw [e2]
    refine ⟨fun hn => hz (hz2.1 hn), ?_, ?_, fun _ => rfl, fun hn => absurd hn hz⟩ <;> simp only [dot, smul, cross] <;> ring

/-- **C74.** In exact arithmetic the frame of a unit vector is a right-handed orthonormal frame whose third axis is the vector, and
`to_frame` and `from_frame` undo each other and preserve scalar products. -/
theorem c74_frame {sqrt : K → K} (hs : IsSqrt sqrt) {p : Vec K} (h : dot p p = 1) (q r : Vec K) :
    (Vec.frame _root_.id sqrt p).c2 = p ∧ cross (Vec.frame _root_.id sqrt p).c0 (Vec.frame _root_.id sqrt p).c1 = p ∧
    Vec.toFrame _root_.id (Vec.frame _root_.id sqrt p) (Vec.fromFrame _root_.id (Vec.frame _root_.id sqrt p) q) = q ∧
    Vec.fromFrame _root_.id (Vec.frame _root_.id sqrt p) (Vec.toFrame _root_.id (Vec.frame _root_.id sqrt p) q) = q ∧
    dot (Vec.fromFrame _root_.id (Vec.frame _root_.id sqrt p) q) (Vec.fromFrame _root_.id (Vec.frame _root_.id sqrt p) r) = dot q r := by
  have hz : ¬ IsZero p := by
    rintro ⟨z1, z2, z3⟩
    unfold dot at h
    rw [z1, z2, z3] at h
    norm_num at h
  obtain ⟨o1, o2⟩ := c74_ortho hs hz
  unfold Vec.frame
  generalize Vec.ortho _root_.id sqrt p = a at *
  obtain ⟨px, py, pz⟩ := p
  obtain ⟨ax, ay, az⟩ := a
  obtain ⟨qx, qy, qz⟩ := q
  obtain ⟨rx, ry, rz⟩ := r
  simp only [dot, cross, Vec.toFrame, Vec.fromFrame, Vec.dot, Vec.cross, _root_.id, Vec.mk.injEq] at *
  have d1 : (ay * pz - az * py) * (ay * pz - az * py) + ax * ax + px * px = 1 := by
    linear_combination (px * px + py * py + pz * pz - px * px) * o2 + (1 - ax * ax) * h + (2 * ax * px - (ax * px + ay * py + az * pz)) * o1
  have d2 : (az * px - ax * pz) * (az * px - ax * pz) + ay * ay + py * py = 1 := by
    linear_combination (px * px + py * py + pz * pz - py * py) * o2 + (1 - ay * ay) * h + (2 * ay * py - (ax * px + ay * py + az * pz)) * o1
  have d3 : (ax * py - ay * px) * (ax * py - ay * px) + az * az + pz * pz = 1 := by
    linear_combination (px * px + py * py + pz * pz - pz * pz) * o2 + (1 - az * az) * h + (2 * az * pz - (ax * px + ay * py + az * pz)) * o1
  have d4 : (ay * pz - az * py) * (az * px - ax * pz) + ax * ay + px * py = 0 := by
    linear_combination (-px * py) * o2 - (ax * ay) * h + (ax * py + px * ay) * o1
  have d5 : (ay * pz - az * py) * (ax * py - ay * px) + ax * az + px * pz = 0 := by
    linear_combination (-px * pz) * o2 - (ax * az) * h + (ax * pz + px * az) * o1
  have d6 : (az * px - ax * pz) * (ax * py - ay * px) + ay * az + py * pz = 0 := by
    linear_combination (-py * pz) * o2 - (ay * az) * h + (ay * pz + py * az) * o1
  have c1 : (ay * pz - az * py) * (ay * pz - az * py) + (az * px - ax * pz) * (az * px - ax * pz) +
      (ax * py - ay * px) * (ax * py - ay * px) = 1 := by linear_combination d1 + d2 + d3 - o2 - h
  have c2 : (ay * pz - az * py) * ax + (az * px - ax * pz) * ay + (ax * py - ay * px) * az = 0 := by ring
  have c3 : (ay * pz - az * py) * px + (az * px - ax * pz) * py + (ax * py - ay * px) * pz = 0 := by ring
  have c4 : (az * px - ax * pz) * az - (ax * py - ay * px) * ay = px := by linear_combination px * o2 - ax * o1
  have c5 : (ax * py - ay * px) * ax - (ay * pz - az * py) * az = py := by linear_combination py * o2 - ay * o1
  have c6 : (ay * pz - az * py) * ay - (az * px - ax * pz) * ax = pz := by linear_combination pz * o2 - az * o1
  generalize ay * pz - az * py = ux at *
  generalize az * px - ax * pz = uy at *
  generalize ax * py - ay * px = uz at *
  refine ⟨trivial, ⟨c4, c5, c6⟩, ⟨?_, ?_, ?_⟩, ⟨?_, ?_, ?_⟩, ?_⟩
  · linear_combination qx * c1 + qy * c2 + qz * c3
  · linear_combination qx * c2 + qy * o2 + qz * o1
  · linear_combination qx * c3 + qy * o1 + qz * h
  · linear_combination qx * d1 + qy * d4 + qz * d5
  · linear_combination qx * d4 + qy * d2 + qz * d6
  · linear_combination qx * d5 + qy * d6 + qz * d3
  · linear_combination qx * rx * c1 + qy * ry * o2 + qz * rz * h + (qx * ry + qy * rx) * c2 + (qx * rz + qz * rx) * c3 +
      (qy * rz + qz * ry) * o1

/-! ## Examples -/

example : Vec.cmp (⟨1, 2, 3⟩ : Vec ℚ) ⟨1, 2, 4⟩ = .lt := by decide +kernel

example : OddFl (_root_.id : ℚ → ℚ) := fun _ => rfl

-- two points for which `Point::cross` takes its first branch, and two for which it takes the second
example : ¬ IsZero (Vec.cross _root_.id (Vec.add _root_.id ⟨1, 0, 0⟩ ⟨3 / 5, 4 / 5, 0⟩) (Vec.sub _root_.id ⟨3 / 5, 4 / 5, 0⟩ (⟨1, 0, 0⟩ : Vec ℚ))) := by
  unfold IsZero Vec.cross Vec.add Vec.sub; norm_num

example : dot (⟨3 / 5, 4 / 5, 0⟩ : Vec ℝ) (smul 1 (⟨0, -3 / 5, 4 / 5⟩ : Vec ℝ)) ≠ 0 ∧
    Vec.pointCross _root_.id Real.sqrt ⟨3 / 5, 4 / 5, 0⟩ ⟨3 / 5, 4 / 5, 0⟩ = Vec.ortho _root_.id Real.sqrt (⟨3 / 5, 4 / 5, 0⟩ : Vec ℝ) := by
  refine ⟨by norm_num [dot, smul], ?_⟩
  exact ((c74_pointCross isSqrt_real (by unfold IsZero; norm_num) rfl).2.2.2.2 (by unfold IsZero cross; norm_num)).2

example : cross (Vec.frame _root_.id Real.sqrt (⟨3 / 5, 4 / 5, 0⟩ : Vec ℝ)).c0 (Vec.frame _root_.id Real.sqrt ⟨3 / 5, 4 / 5, 0⟩).c1 = ⟨3 / 5, 4 / 5, 0⟩ :=
  (c74_frame isSqrt_real (by norm_num [dot]) ⟨0, 0, 0⟩ ⟨0, 0, 0⟩).2.1

end Verif
