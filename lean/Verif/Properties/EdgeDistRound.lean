import Verif.Proofs.EdgeDistRound

/-!
# The distance from an edge with rounding (C120)
-/

namespace Verif
open Spec EdgeUtil

/-- A number much smaller than every error. -/
noncomputable def tau600 : ℝ := 1 / 2 ^ 600

theorem tau600_pos : 0 < tau600 := by unfold tau600; positivity
theorem tau600_mul : tau600 ≤ 1 / 2 ^ 150 * (1 / 2 ^ 150) := by
  unfold tau600
  rw [one_div_mul_one_div, ← pow_add]
  exact one_div_le_one_div_of_le (by positivity) (pow_le_pow_right₀ (by norm_num) (by norm_num))
theorem tau600_sq : tau600 ≤ eps53 ^ 2 / 10 ^ 50 := tau600_mul.trans (by unfold eps53; norm_num)
theorem tau600_le : tau600 ≤ eps53 / 10 ^ 40 := tau600_mul.trans (by unfold eps53; norm_num)
theorem tau6_le : (1 : ℝ) / 2 ^ 1075 ≤ tau600 := one_div_le_one_div_of_le (by positivity) (pow_le_pow_right₀ (by norm_num) (by norm_num))

/-- The rounding error of a number of moderate size. -/
theorem fl_err6 {fl : ℝ → ℝ} (h : Rounding fl) {x : ℝ} (hx : |x| ≤ 100) : |fl x - x| ≤ |x| * eps53 + tau600 := by
  have h1 := h x (hx.trans ((by norm_num : (100 : ℝ) ≤ 2 ^ 7).trans (pow_le_pow_right₀ (by norm_num) (by norm_num))))
  have := tau6_le
  have e : |x| / 2 ^ 53 = |x| * eps53 := by unfold eps53; ring
  linarith

theorem eps53_sq_le : eps53 ^ 2 ≤ eps53 / 10 ^ 15 := by
  have := mul_le_mul_of_nonneg_left eps53_le eps53_pos.le
  rw [pow_two]; linarith

/-- Three components of a bounded size. -/
theorem sq_three {x y z k B : ℝ} (hx : |x| ≤ k) (hy : |y| ≤ k) (hz : |z| ≤ k) (hB : 3 * k ^ 2 ≤ B ^ 2) : x ^ 2 + y ^ 2 + z ^ 2 ≤ B ^ 2 := by
  have q : ∀ x : ℝ, |x| ≤ k → x ^ 2 ≤ k ^ 2 := fun x hx => by rw [← sq_abs]; exact pow_le_pow_left₀ (abs_nonneg _) hx 2
  have := q _ hx
  have := q _ hy
  have := q _ hz
  linarith

/-- A vector near a multiple of `g`, with a point `x` near the sphere: the setting of the second half of `interior_dist`. -/
structure Plane (c g x X : Vec ℝ) (L r : ℝ) : Prop where
  L0 : 1 / 2 ^ 43 ≤ L
  L1 : L ≤ 4
  hg : UnitV g
  hX : UnitV X
  hx : x = smul r X
  hr : |r - 1| ≤ 9 * eps53
  c1 : |c.x - L * g.x| ≤ 55 / 10 * eps53 * L
  c2 : |c.y - L * g.y| ≤ 55 / 10 * eps53 * L
  c3 : |c.z - L * g.z| ≤ 55 / 10 * eps53 * L

variable {c g x X : Vec ℝ} {L r : ℝ}

theorem Plane.pos (H : Plane c g x X L r) : 0 < L := lt_of_lt_of_le (by positivity) H.L0

theorem Plane.tau (H : Plane c g x X L r) : tau600 ≤ eps53 ^ 2 * L ^ 2 / 10 ^ 15 := by
  have : (1 / 2 ^ 43) ^ 2 ≤ L ^ 2 := pow_le_pow_left₀ (by positivity) H.L0 2
  have e := pow_pos eps53_pos 2
  have m := mul_le_mul_of_nonneg_left this e.le
  refine tau600_sq.trans ?_
  rw [div_le_div_iff₀ (by positivity) (by positivity)]
  have : (10 : ℝ) ^ 15 ≤ (1 / 2 ^ 43) ^ 2 * 10 ^ 50 := by norm_num
  have m2 := mul_le_mul_of_nonneg_left this e.le
  linarith

theorem Plane.tauL (H : Plane c g x X L r) : tau600 ≤ eps53 * L / 10 ^ 20 := by
  have t := H.tau
  have p := H.pos
  have e0 := eps53_pos
  have a := mul_le_mul_of_nonneg_right eps53_sq_le (pow_pos p 2).le
  have b : L ^ 2 ≤ 4 * L := by rw [pow_two]; exact mul_le_mul_of_nonneg_right H.L1 p.le
  have b' := mul_le_mul_of_nonneg_left b e0.le
  have : 0 < eps53 * L := mul_pos e0 p
  linarith

/-- The length of the computed normal. -/
theorem Plane.norm (H : Plane c g x X L r) {fl : ℝ → ℝ} (h : Rounding fl) :
    dot c c ≤ (1001 / 1000 * L) ^ 2 ∧ ∃ C, 0 < C ∧ Vec.norm2 fl c = C ^ 2 ∧ |C - L| ≤ 12 * (eps53 * L) := by
  have e0 := eps53_pos
  have e1 := eps53_le
  have Lp := H.pos
  have L1 := H.L1
  have Le := mul_pos e0 Lp
  have Le1 := mul_le_mul_of_nonneg_right e1 Lp.le
  have ng : (L : ℝ) ^ 2 = dot (smul L g) (smul L g) := by
    have : dot (smul L g) (smul L g) = L ^ 2 * dot g g := by unfold dot smul; ring
    rw [this, show dot g g = 1 from H.hg, mul_one]
  have ln := length_lip (v := c) (w := smul L g) (Real.sqrt_nonneg _) Lp.le (Real.sq_sqrt (dot_self_ge c)) ng (B := 96 / 10 * (eps53 * L)) (by linarith)
    (sq_three H.c1 H.c2 H.c3 (by
      have := sq_nonneg (eps53 * L)
      linarith [show (55 / 10 * eps53 * L) ^ 2 = 3025 / 100 * (eps53 * L) ^ 2 by ring, show (96 / 10 * (eps53 * L)) ^ 2 = 9216 / 100 * (eps53 * L) ^ 2 by ring]))
  have rs := Real.sq_sqrt (dot_self_ge c)
  have r0 := Real.sqrt_nonneg (dot c c)
  generalize Real.sqrt (dot c c) = R at *
  have ln' := abs_le.1 ln
  have Rp : 0 < R := by linarith
  have nn : dot c c ≤ (1001 / 1000 * L) ^ 2 := by rw [← rs]; exact pow_le_pow_left₀ r0 (by linarith) 2
  have R1 : R ≤ 401 / 100 := by linarith
  have R2 : R ^ 2 ≤ 17 := by
    have := pow_le_pow_left₀ r0 R1 2
    linarith
  refine ⟨nn, ?_⟩
  have hd : dot c c = c.x * c.x + c.y * c.y + c.z * c.z := rfl
  have B : (64 : ℝ) ≤ big1000 := by
    calc (64 : ℝ) = 2 ^ 6 := by norm_num
      _ ≤ big1000 := pow_le_pow_right₀ (by norm_num) (by norm_num)
  have e : eta75 ≤ R ^ 2 * eps53 / 1000 := by
    have t := H.tau
    have : eta75 ≤ tau600 := tau6_le
    have q : L ^ 2 ≤ 4 * R ^ 2 := by
      have := pow_le_pow_left₀ Lp.le (by linarith : L ≤ 2 * R) 2
      linarith [show (2 * R) ^ 2 = 4 * R ^ 2 by ring]
    have m := mul_le_mul_of_nonneg_left q (pow_pos e0 2).le
    have m2 := mul_le_mul_of_nonneg_right eps53_sq_le (pow_pos Rp 2).le
    have : 0 < eps53 * R ^ 2 := by positivity
    linarith
  have g := dot_gen h (P := c.x * c.x) (Q := c.y * c.y) (R := c.z * c.z) (M := R ^ 2)
    (by rw [abs_mul_self, abs_mul_self, abs_mul_self, rs]; exact le_of_eq hd.symm) (by linarith) e
  have g' : |Vec.norm2 fl c - R ^ 2| ≤ 301 / 100 * eps53 * R ^ 2 := by
    rw [rs, hd]; refine g.trans (le_of_eq ?_); rw [rs, hd]; ring
  have s := sqrt_rel Rp (by positivity) (by linarith) g'
  have Re := mul_le_mul_of_nonneg_right e1 r0
  have Re2 := mul_le_mul_of_nonneg_left (by linarith : R ≤ 1001 / 1000 * L) e0.le
  have s' := abs_le.1 s
  have n0 : 0 ≤ Vec.norm2 fl c := by
    have := (abs_le.1 g').1
    have m := mul_le_mul_of_nonneg_right e1 (sq_nonneg R)
    have := sq_nonneg R
    linarith
  refine ⟨Real.sqrt (Vec.norm2 fl c), by linarith, (Real.sq_sqrt n0).symm, ?_⟩
  rw [abs_le]
  constructor <;> linarith

/-- The computed scalar product with the normal. -/
theorem Plane.xdot (H : Plane c g x X L r) {fl : ℝ → ℝ} (h : Rounding fl) : |Vec.dot fl x c - L * dot X g| ≤ 26 * (eps53 * L) := by
  have e0 := eps53_pos
  have e1 := eps53_le
  have Lp := H.pos
  have L1 := H.L1
  have Le := mul_pos e0 Lp
  have Le1 := mul_le_mul_of_nonneg_right e1 Lp.le
  have hr := abs_le.1 H.hr
  have cc := (H.norm h).1
  have xx : dot x x ≤ (1001 / 1000) ^ 2 := by
    have : dot x x = r ^ 2 * dot X X := by rw [H.hx]; unfold dot smul; ring
    rw [this, show dot X X = 1 from H.hX, mul_one]
    exact pow_le_pow_left₀ (by linarith) (by linarith) 2
  have M : |x.x * c.x| + |x.y * c.y| + |x.z * c.z| ≤ 2 * L := by
    obtain ⟨x1, x2, x3⟩ := comp_le (by norm_num) xx
    have s := abs_sum_le (by positivity) cc
    simp only [abs_mul]
    have m1 := mul_le_mul_of_nonneg_right x1 (abs_nonneg c.x)
    have m2 := mul_le_mul_of_nonneg_right x2 (abs_nonneg c.y)
    have m3 := mul_le_mul_of_nonneg_right x3 (abs_nonneg c.z)
    linarith
  have B : (64 : ℝ) ≤ big1000 := by
    calc (64 : ℝ) = 2 ^ 6 := by norm_num
      _ ≤ big1000 := pow_le_pow_right₀ (by norm_num) (by norm_num)
  have t := H.tauL
  have tt : eta75 ≤ tau600 := tau6_le
  have g1 := dot_gen h M (by linarith) (by linarith)
  have d := dot_small (d := Vec.mk (c.x - L * g.x) (c.y - L * g.y) (c.z - L * g.z)) (v := X) (r := 1) (k := 55 / 10 * eps53 * L) (by positivity) zero_le_one
    (by rw [one_pow]; exact le_of_eq H.hX) H.c1 H.c2 H.c3
  have hd := dot_le_one H.hX H.hg
  have e : x.x * c.x + x.y * c.y + x.z * c.z - L * dot X g =
      r * dot (Vec.mk (c.x - L * g.x) (c.y - L * g.y) (c.z - L * g.z)) X + (r - 1) * (L * dot X g) := by
    rw [H.hx]; unfold dot smul; ring
  have a1 : |r * dot (Vec.mk (c.x - L * g.x) (c.y - L * g.y) (c.z - L * g.z)) X| ≤ 1001 / 1000 * (1733 / 1000 * (55 / 10 * eps53 * L * 1)) := by
    rw [abs_mul]
    exact mul_le_mul (by rw [abs_le]; constructor <;> linarith) d (abs_nonneg _) (by norm_num)
  have a2 : |(r - 1) * (L * dot X g)| ≤ 9 * eps53 * (L * 1) := by
    rw [abs_mul, abs_mul, abs_of_pos Lp]
    exact mul_le_mul H.hr (mul_le_mul_of_nonneg_left (abs_le.2 hd) Lp.le) (by positivity) (by positivity)
  have tri := abs_add_le (r * dot (Vec.mk (c.x - L * g.x) (c.y - L * g.y) (c.z - L * g.z)) X) ((r - 1) * (L * dot X g))
  rw [← e] at tri
  have := abs_sub_le (Vec.dot fl x c) (x.x * c.x + x.y * c.y + x.z * c.z) (L * dot X g)
  unfold Vec.dot at this ⊢
  linarith

/-- The computed vector product with the normal. -/
theorem Plane.cross (H : Plane c g x X L r) {fl : ℝ → ℝ} (h : Rounding fl) :
    |(Vec.cross fl c x).x - L * (Spec.cross g X).x| ≤ 222 / 10 * eps53 * L ∧ |(Vec.cross fl c x).y - L * (Spec.cross g X).y| ≤ 222 / 10 * eps53 * L ∧
      |(Vec.cross fl c x).z - L * (Spec.cross g X).z| ≤ 222 / 10 * eps53 * L := by
  have e1 := eps53_le
  have hr := abs_le.1 H.hr
  have cc := (H.norm h).1
  have xx : dot x x ≤ (1001 / 1000) ^ 2 := by
    have : dot x x = r ^ 2 * dot X X := by rw [H.hx]; unfold dot smul; ring
    rw [this, show dot X X = 1 from H.hX, mul_one]
    exact pow_le_pow_left₀ (by linarith) (by linarith) 2
  have ww : dot (Spec.cross g X) (Spec.cross g X) ≤ 1 ^ 2 := by
    rw [cross_sq, show dot g g = 1 from H.hg, show dot X X = 1 from H.hX]
    have := sq_nonneg (dot g X)
    linarith
  obtain ⟨d1, d2, d3⟩ := comp_le zero_le_one ww
  have ex : x.x = r * X.x := by rw [H.hx]; rfl
  have ey : x.y = r * X.y := by rw [H.hx]; rfl
  have ez : x.z = r * X.z := by rw [H.hx]; rfl
  have dn : dot c c = c.x * c.x + c.y * c.y + c.z * c.z := rfl
  have da : dot x x = x.x * x.x + x.y * x.y + x.z * x.z := rfl
  have x0 := mul_self_nonneg c.x
  have y0 := mul_self_nonneg c.y
  have z0 := mul_self_nonneg c.z
  have x0' := mul_self_nonneg x.x
  have y0' := mul_self_nonneg x.y
  have z0' := mul_self_nonneg x.z
  have N0 : 1 / 2 ^ 300 ≤ L := le_trans (one_div_le_one_div_of_le (by positivity) (pow_le_pow_right₀ (by norm_num) (by norm_num))) H.L0
  have N1 : L ≤ 16 := H.L1.trans (by norm_num)
  exact ⟨tangent_comp h N0 N1 H.c2 H.c3 (by linarith) (by linarith) ey ez H.hr d1, tangent_comp h N0 N1 H.c3 H.c1 (by linarith) (by linarith) ez ex H.hr d2,
    tangent_comp h N0 N1 H.c1 H.c2 (by linarith) (by linarith) ex ey H.hr d3⟩

/-- The computed scalar products that decide on which side of the ends the foot is. -/
theorem Plane.wedge (H : Plane c g x X L r) {fl : ℝ → ℝ} (h : Rounding fl) {a A : Vec ℝ} {la : ℝ} (hA : UnitV A) (ea : a = smul la A)
    (hla : |la - 1| ≤ 9 * eps53) :
    |Vec.dot fl (Vec.sub fl a x) (Vec.cross fl c x) - L * (la * dot A (Spec.cross g X))| ≤ 107 * (eps53 * L) := by
  have e0 := eps53_pos
  have e1 := eps53_le
  have Lp := H.pos
  have L1 := H.L1
  have Le := mul_pos e0 Lp
  have Le1 := mul_le_mul_of_nonneg_right e1 Lp.le
  have hr := abs_le.1 H.hr
  have hl := abs_le.1 hla
  obtain ⟨k1, k2, k3⟩ := H.cross h
  have ww : dot (Spec.cross g X) (Spec.cross g X) ≤ 1 ^ 2 := by
    rw [cross_sq, show dot g g = 1 from H.hg, show dot X X = 1 from H.hX]
    have := sq_nonneg (dot g X)
    linarith
  have w0 : dot X (Spec.cross g X) = 0 := by unfold dot Spec.cross; ring
  obtain ⟨d1, d2, d3⟩ := comp_le zero_le_one ww
  generalize Vec.cross fl c x = T at *
  generalize Spec.cross g X = w at *
  have Tb : ∀ {t w : ℝ}, |t - L * w| ≤ 222 / 10 * eps53 * L → |w| ≤ 1 → |t| ≤ 101 / 100 * L := by
    intro t w h1 h2
    have a := abs_sub_abs_le_abs_sub t (L * w)
    rw [abs_mul, abs_of_pos Lp] at a
    have := mul_le_mul_of_nonneg_left h2 Lp.le
    linarith
  have T1 := Tb k1 d1
  have T2 := Tb k2 d2
  have T3 := Tb k3 d3
  obtain ⟨A1, A2, A3⟩ := comp_le zero_le_one (by rw [one_pow]; exact le_of_eq hA : dot A A ≤ 1 ^ 2)
  obtain ⟨X1, X2, X3⟩ := comp_le zero_le_one (by rw [one_pow]; exact le_of_eq H.hX : dot X X ≤ 1 ^ 2)
  have db : ∀ {A X : ℝ}, |A| ≤ 1 → |X| ≤ 1 → |la * A - r * X| ≤ 2002 / 1000 := by
    intro A X h1 h2
    have a := abs_sub (la * A) (r * X)
    rw [abs_mul, abs_mul] at a
    have m1 := mul_le_mul (by rw [abs_le]; constructor <;> linarith : |la| ≤ 1001 / 1000) h1 (abs_nonneg _) (by norm_num)
    have m2 := mul_le_mul (by rw [abs_le]; constructor <;> linarith : |r| ≤ 1001 / 1000) h2 (abs_nonneg _) (by norm_num)
    linarith
  have t1 := tau600_le
  have fe : ∀ {u : ℝ}, |u| ≤ 2002 / 1000 → |fl u - u| ≤ 21 / 10 * eps53 ∧ |fl u| ≤ 21 / 10 := by
    intro u hu
    have a := fl_err6 h (x := u) (by linarith)
    have m := mul_le_mul_of_nonneg_right hu e0.le
    have b := abs_sub_abs_le_abs_sub (fl u) u
    exact ⟨by linarith, by linarith⟩
  have hs : Vec.sub fl a x = ⟨fl (la * A.x - r * X.x), fl (la * A.y - r * X.y), fl (la * A.z - r * X.z)⟩ := by rw [ea, H.hx]; rfl
  rw [hs]
  have u1 := db A1 X1
  have u2 := db A2 X2
  have u3 := db A3 X3
  have v2 : dot (Vec.mk (la * A.x - r * X.x) (la * A.y - r * X.y) (la * A.z - r * X.z)) (Vec.mk (la * A.x - r * X.x) (la * A.y - r * X.y) (la * A.z - r * X.z)) ≤
      (2002 / 1000) ^ 2 := by
    have e : dot (Vec.mk (la * A.x - r * X.x) (la * A.y - r * X.y) (la * A.z - r * X.z))
        (Vec.mk (la * A.x - r * X.x) (la * A.y - r * X.y) (la * A.z - r * X.z)) = la ^ 2 * dot A A - 2 * (la * r) * dot A X + r ^ 2 * dot X X := by
      unfold dot; ring
    rw [e, show dot A A = 1 from hA, show dot X X = 1 from H.hX]
    have m := mul_le_mul_of_nonneg_left (by linarith [(dot_le_one hA H.hX).1] : -dot A X ≤ 1) (mul_nonneg (by linarith : 0 ≤ la) (by linarith : 0 ≤ r))
    have q : (la + r) ^ 2 ≤ (2002 / 1000) ^ 2 := pow_le_pow_left₀ (by linarith) (by linarith) 2
    linarith [show (la + r) ^ 2 = la ^ 2 + 2 * (la * r) + r ^ 2 by ring]
  have dsm := dot_small (d := Vec.mk (T.x - L * w.x) (T.y - L * w.y) (T.z - L * w.z)) (k := 222 / 10 * eps53 * L) (by positivity) (by norm_num) v2 k1 k2 k3
  have ex : L * (la * dot A w) = L * ((la * A.x - r * X.x) * w.x + (la * A.y - r * X.y) * w.y + (la * A.z - r * X.z) * w.z) := by
    have : (la * A.x - r * X.x) * w.x + (la * A.y - r * X.y) * w.y + (la * A.z - r * X.z) * w.z = la * dot A w - r * dot X w := by unfold dot; ring
    rw [this, w0, mul_zero, sub_zero]
  rw [ex]
  clear ex v2 w0 hs db Tb
  simp only [dot] at dsm
  generalize la * A.x - r * X.x = p at *
  generalize la * A.y - r * X.y = q at *
  generalize la * A.z - r * X.z = o at *
  obtain ⟨f1, b1⟩ := fe u1
  obtain ⟨f2, b2⟩ := fe u2
  obtain ⟨f3, b3⟩ := fe u3
  have pr : ∀ {u v m n : ℝ}, |u| ≤ m → |v| ≤ n → |u * v| ≤ m * n := by
    intro u v m n h1 h2
    rw [abs_mul]
    exact mul_le_mul h1 h2 (abs_nonneg _) (le_trans (abs_nonneg _) h1)
  have B : (64 : ℝ) ≤ big1000 := by
    calc (64 : ℝ) = 2 ^ 6 := by norm_num
      _ ≤ big1000 := pow_le_pow_right₀ (by norm_num) (by norm_num)
  have t := H.tauL
  have tt : eta75 ≤ tau600 := tau6_le
  have g1 := dot_gen h (P := fl p * T.x) (Q := fl q * T.y) (R := fl o * T.z) (M := 64 / 10 * L) (by linarith [pr b1 T1, pr b2 T2, pr b3 T3]) (by linarith) (by linarith)
  have s1 := pr f1 T1
  have s2 := pr f2 T2
  have s3 := pr f3 T3
  have s4 := abs_add_three ((fl p - p) * T.x) ((fl q - q) * T.y) ((fl o - o) * T.z)
  have e : fl p * T.x + fl q * T.y + fl o * T.z - L * (p * w.x + q * w.y + o * w.z) =
      (fl p - p) * T.x + (fl q - q) * T.y + (fl o - o) * T.z + ((T.x - L * w.x) * p + (T.y - L * w.y) * q + (T.z - L * w.z) * o) := by ring
  have s5 := abs_add_le ((fl p - p) * T.x + (fl q - q) * T.y + (fl o - o) * T.z) ((T.x - L * w.x) * p + (T.y - L * w.y) * q + (T.z - L * w.z) * o)
  rw [← e] at s5
  have s6 := abs_sub_le (fl (fl (fl (fl p * T.x) + fl (fl q * T.y)) + fl (fl o * T.z))) (fl p * T.x + fl q * T.y + fl o * T.z) (L * (p * w.x + q * w.y + o * w.z))
  show |fl (fl (fl (fl p * T.x) + fl (fl q * T.y)) + fl (fl o * T.z)) - _| ≤ _
  linarith

/-- A quotient whose parts are near multiples of `L`. -/
theorem quot_near {m C L s k : ℝ} (Lp : 0 < L) (hC : |C - L| ≤ 12 * (eps53 * L)) (hm : |m - L * s| ≤ k * (eps53 * L)) (s1 : |s| ≤ 1) :
    |m / C - s| ≤ 101 / 100 * ((k + 12) * eps53) := by
  have e0 := eps53_pos
  have Le1 := mul_le_mul_of_nonneg_right eps53_le Lp.le
  have hC' := abs_le.1 hC
  have C0 : 0 < C := by linarith
  have k0 : 0 ≤ k * (eps53 * L) := (abs_nonneg _).trans hm
  have e : m / C - s = ((m - L * s) - s * (C - L)) / C := by field_simp; ring
  rw [e, abs_div, abs_of_pos C0, div_le_iff₀ C0]
  have a := abs_sub (m - L * s) (s * (C - L))
  rw [abs_mul] at a
  have b := mul_le_mul s1 hC (abs_nonneg _) zero_le_one
  have kk : 0 ≤ k := by
    by_contra hc
    have := mul_neg_of_neg_of_pos (not_le.1 hc) (mul_pos e0 Lp)
    linarith
  have d : (k + 12) * eps53 * (99 / 100 * L + 1 / 100 * (99 / 100 * L)) ≤ (k + 12) * eps53 * (101 / 100 * C) := mul_le_mul_of_nonneg_left (by linarith) (by positivity)
  have d' : (k + 12) * eps53 * L ≤ (k + 12) * eps53 * (101 / 100 * C) := mul_le_mul_of_nonneg_left (by linarith) (by positivity)
  linarith

/-- The computed difference between 1 and the length of the projection. -/
theorem qr_near {fl : ℝ → ℝ} (h : Rounding fl) {z μ s : ℝ} (s0 : 0 ≤ s) (s1 : s ≤ 1) (μ0 : 0 ≤ μ) (qm : |μ - s| ≤ 101 / 100 * ((386 / 10 + 12) * eps53))
    (n3 : |z - μ ^ 2| ≤ 301 / 100 * (eps53 * μ ^ 2) + eps53 ^ 2 / 10 ^ 9) : |fl (1 - fl (Real.sqrt (fl z))) - (1 - s)| ≤ 59 * eps53 := by
  have e0 := eps53_pos
  have e1 := eps53_le
  have t0 := tau600_pos
  have t1 := tau600_le
  have es := eps53_sq_le
  have ts := tau600_sq
  have ee0 : 0 < eps53 ^ 2 := pow_pos e0 2
  have qm' := abs_le.1 qm
  have μ1 : μ ≤ 101 / 100 := by linarith
  have μ2 : μ ^ 2 ≤ 11 / 10 := by have := pow_le_pow_left₀ μ0 μ1 2; linarith
  have μe := mul_nonneg e0.le (sq_nonneg μ)
  have μe1 := mul_le_mul_of_nonneg_right e1 (sq_nonneg μ)
  have μee := mul_le_mul_of_nonneg_left μe1 e0.le
  have za : |z| ≤ 1002 / 1000 * μ ^ 2 + eps53 ^ 2 := by
    have := abs_sub_abs_le_abs_sub z (μ ^ 2)
    rw [abs_of_nonneg (sq_nonneg μ)] at this
    linarith
  have f1 := fl_err6 h (x := z) (by linarith)
  have zae := mul_le_mul_of_nonneg_right za e0.le
  have eee := mul_le_mul_of_nonneg_left e1 ee0.le
  have N1 : |fl z - μ ^ 2| ≤ 41 / 10 * eps53 * μ * μ + eps53 ^ 2 := by
    have := abs_sub_le (fl z) z (μ ^ 2)
    linarith [show 41 / 10 * eps53 * μ * μ = 41 / 10 * (eps53 * μ ^ 2) by ring]
  have N2 := sqrt_tol μ0 (by positivity) e0.le N1
  have eμ := mul_le_mul_of_nonneg_left μ1 e0.le
  generalize Real.sqrt (fl z) = n at *
  have N3 : |n - s| ≤ 566 / 10 * eps53 := by have := abs_sub_le n μ s; linarith
  have N3' := abs_le.1 N3
  have n1 : |n| ≤ 101 / 100 := by rw [abs_le]; constructor <;> linarith
  have f2 := fl_err6 h (x := n) (by linarith)
  have f2' := mul_le_mul_of_nonneg_right n1 e0.le
  generalize fl n = ρ at *
  have ρ1 : |ρ - s| ≤ 577 / 10 * eps53 := by have := abs_sub_le ρ n s; linarith
  have ρ1' := abs_le.1 ρ1
  have ρ2 : |1 - ρ| ≤ 101 / 100 := by rw [abs_le]; constructor <;> linarith
  have f3 := fl_err6 h (x := 1 - ρ) (by linarith)
  have f3' := mul_le_mul_of_nonneg_right ρ2 e0.le
  have a := abs_sub_le (fl (1 - ρ)) (1 - ρ) (1 - s)
  rw [show 1 - ρ - (1 - s) = -(ρ - s) by ring, abs_neg] at a
  linarith

/-- The computed component along the normal, squared. -/
theorem normal_near {fl : ℝ → ℝ} (h : Rounding fl) {α ν η : ℝ} (η1 : |η| ≤ 1) (qy : |ν - η| ≤ 101 / 100 * ((26 + 12) * eps53))
    (a1 : |α - ν ^ 2| ≤ eps53 * ν ^ 2 + eps53 ^ 2 / 10 ^ 9) : ν ^ 2 ≤ 11 / 10 ∧ |fl α - ν ^ 2| ≤ 21 / 10 * (eps53 * ν ^ 2) + eps53 ^ 2 / 100 := by
  have e0 := eps53_pos
  have e1 := eps53_le
  have t0 := tau600_pos
  have t1 := tau600_le
  have es := eps53_sq_le
  have ts := tau600_sq
  have ee0 : 0 < eps53 ^ 2 := pow_pos e0 2
  have qy' := abs_le.1 qy
  have η1' := abs_le.1 η1
  have νa : |ν| ≤ 101 / 100 := by rw [abs_le]; constructor <;> linarith
  have ν2 : ν ^ 2 ≤ 11 / 10 := by rw [← sq_abs]; have := pow_le_pow_left₀ (abs_nonneg ν) νa 2; linarith
  have ν0 := sq_nonneg ν
  have νe := mul_nonneg e0.le ν0
  have νe1 := mul_le_mul_of_nonneg_right e1 ν0
  have νee := mul_le_mul_of_nonneg_left νe1 e0.le
  have αa : |α| ≤ 1002 / 1000 * ν ^ 2 + eps53 ^ 2 := by
    have := abs_sub_abs_le_abs_sub α (ν ^ 2)
    rw [abs_of_nonneg ν0] at this
    linarith
  have αae := mul_le_mul_of_nonneg_right αa e0.le
  have eee := mul_le_mul_of_nonneg_left e1 ee0.le
  have f5 := fl_err6 h (x := α) (by linarith)
  refine ⟨ν2, ?_⟩
  have := abs_sub_le (fl α) α (ν ^ 2)
  linarith

/-- The sum of the two squares. -/
theorem sum_near {fl : ℝ → ℝ} (h : Rounding fl) {A ν η v s : ℝ} (s0 : 0 ≤ s) (s1 : s ≤ 1) (sh : s ^ 2 + η ^ 2 = 1)
    (qy : |ν - η| ≤ 101 / 100 * ((26 + 12) * eps53)) (ν2 : ν ^ 2 ≤ 11 / 10) (A1 : |A - ν ^ 2| ≤ 21 / 10 * (eps53 * ν ^ 2) + eps53 ^ 2 / 100)
    (v1 : |v - (1 - s)| ≤ 59 * eps53) : |Real.sqrt (fl (A + fl (v * v))) - Real.sqrt (2 - 2 * s)| ≤ 128 * eps53 := by
  have e0 := eps53_pos
  have e1 := eps53_le
  have t0 := tau600_pos
  have t1 := tau600_le
  have es := eps53_sq_le
  have ts := tau600_sq
  have ee0 : 0 < eps53 ^ 2 := pow_pos e0 2
  have ν0 := sq_nonneg ν
  have νe := mul_nonneg e0.le ν0
  have νe1 := mul_le_mul_of_nonneg_right e1 ν0
  have νee := mul_le_mul_of_nonneg_left νe1 e0.le
  have eee := mul_le_mul_of_nonneg_left e1 ee0.le
  have v1' := abs_le.1 v1
  have va : |v| ≤ 101 / 100 := by rw [abs_le]; constructor <;> linarith
  have v2 : v ^ 2 ≤ 11 / 10 := by rw [← sq_abs]; have := pow_le_pow_left₀ (abs_nonneg v) va 2; linarith
  have v0 := sq_nonneg v
  have f6 := fl_err6 h (x := v * v) (by rw [abs_mul_self]; linarith [pow_two v])
  rw [abs_mul_self, ← pow_two] at f6
  rw [← pow_two]
  have ve := mul_nonneg e0.le v0
  have ve1 := mul_le_mul_of_nonneg_right e1 v0
  have vee := mul_le_mul_of_nonneg_left ve1 e0.le
  generalize fl (v ^ 2) = Q at *
  have AQ : |A + Q - (ν ^ 2 + v ^ 2)| ≤ 21 / 10 * (eps53 * (ν ^ 2 + v ^ 2)) + eps53 ^ 2 / 50 := by
    have := abs_add_le (A - ν ^ 2) (Q - v ^ 2)
    rw [show A - ν ^ 2 + (Q - v ^ 2) = A + Q - (ν ^ 2 + v ^ 2) by ring] at this
    linarith
  have s00 : 0 ≤ ν ^ 2 + v ^ 2 := by linarith
  have s02 : ν ^ 2 + v ^ 2 ≤ 22 / 10 := by linarith
  have AQa : |A + Q| ≤ 1002 / 1000 * (ν ^ 2 + v ^ 2) + eps53 ^ 2 := by
    have := abs_sub_abs_le_abs_sub (A + Q) (ν ^ 2 + v ^ 2)
    rw [abs_of_nonneg s00] at this
    linarith
  have f7 := fl_err6 h (x := A + Q) (by linarith)
  have AQe := mul_le_mul_of_nonneg_right AQa e0.le
  have hw := Real.sq_sqrt s00
  have w0 := Real.sqrt_nonneg (ν ^ 2 + v ^ 2)
  have lip := length_lip (v := Vec.mk ν v 0) (w := Vec.mk η (1 - s) 0) w0 (Real.sqrt_nonneg (2 - 2 * s)) (by rw [hw]; unfold dot; ring)
    (by rw [Real.sq_sqrt (by linarith)]; unfold dot; linarith [show η * η + (1 - s) * (1 - s) + 0 * 0 = η ^ 2 + s ^ 2 + 1 - 2 * s by ring]) (B := 71 * eps53) (by positivity)
    (by
      have b1 : (ν - η) ^ 2 ≤ (101 / 100 * ((26 + 12) * eps53)) ^ 2 := by rw [← sq_abs]; exact pow_le_pow_left₀ (abs_nonneg _) qy 2
      have b2 : (v - (1 - s)) ^ 2 ≤ (59 * eps53) ^ 2 := by rw [← sq_abs]; exact pow_le_pow_left₀ (abs_nonneg _) v1 2
      show (ν - η) ^ 2 + (v - (1 - s)) ^ 2 + (0 - 0) ^ 2 ≤ _
      rw [sub_zero, zero_pow (by norm_num : (2 : ℕ) ≠ 0), add_zero]
      linarith [show (101 / 100 * ((26 + 12) * eps53)) ^ 2 = (101 / 100 * 38) ^ 2 * eps53 ^ 2 by ring, show (59 * eps53) ^ 2 = 59 ^ 2 * eps53 ^ 2 by ring,
        show (71 * eps53) ^ 2 = 71 ^ 2 * eps53 ^ 2 by ring])
  generalize Real.sqrt (ν ^ 2 + v ^ 2) = W at *
  have W1 : W ≤ 3 / 2 := le_of_sq_le_sq (by linarith) (by norm_num)
  have fin : |fl (A + Q) - W ^ 2| ≤ 32 / 10 * eps53 * W * W + eps53 ^ 2 := by
    have := abs_sub_le (fl (A + Q)) (A + Q) (ν ^ 2 + v ^ 2)
    rw [hw]
    linarith [show 32 / 10 * eps53 * W * W = 32 / 10 * (eps53 * W ^ 2) by ring, show eps53 * W ^ 2 = eps53 * (ν ^ 2 + v ^ 2) by rw [hw]]
  have fin2 := sqrt_tol w0 (by positivity) e0.le fin
  have eW := mul_le_mul_of_nonneg_left W1 e0.le
  have := abs_sub_le (Real.sqrt (fl (A + Q))) W (Real.sqrt (2 - 2 * s))
  linarith

/-- The computed squared distance of the foot. -/
theorem Plane.value (H : Plane c g x X L r) {fl : ℝ → ℝ} (h : Rounding fl) {s : ℝ} (s0 : 0 ≤ s) (s1 : s ≤ 1) (sh : s ^ 2 + dot X g ^ 2 = 1) :
    |Real.sqrt (fl (fl (fl (Vec.dot fl x c * Vec.dot fl x c) / Vec.norm2 fl c) +
      fl (fl (1 - fl (Real.sqrt (fl (Vec.norm2 fl (Vec.cross fl c x) / Vec.norm2 fl c)))) *
        fl (1 - fl (Real.sqrt (fl (Vec.norm2 fl (Vec.cross fl c x) / Vec.norm2 fl c))))))) - Real.sqrt (2 - 2 * s)| ≤ 128 * eps53 := by
  have e0 := eps53_pos
  have e1 := eps53_le
  have t0 := tau600_pos
  have t1 := tau600_le
  have es := eps53_sq_le
  have Lp := H.pos
  have L1 := H.L1
  have Le := mul_pos e0 Lp
  have Le1 := mul_le_mul_of_nonneg_right e1 Lp.le
  obtain ⟨-, C, C0, hC2, hC⟩ := H.norm h
  have hC' := abs_le.1 hC
  have hy := H.xdot h
  obtain ⟨k1, k2, k3⟩ := H.cross h
  have ww : s ^ 2 = dot (Spec.cross g X) (Spec.cross g X) := by
    rw [cross_sq, show dot g g = 1 from H.hg, show dot X X = 1 from H.hX, dot_comm g X]
    linarith
  have ht := H.tau
  rw [hC2]
  generalize dot X g = η at *
  have η1 : |η| ≤ 1 := abs_le_of_sq_le_sq (by have := sq_nonneg s; linarith) zero_le_one
  generalize Vec.dot fl x c = y at *
  generalize Vec.cross fl c x = T at *
  generalize Spec.cross g X = w at *
  -- `tau600` in terms of `C`
  have tC : tau600 / C ^ 2 ≤ eps53 ^ 2 / 10 ^ 14 := by
    rw [div_le_iff₀ (by positivity)]
    have q : L ^ 2 ≤ 4 * C ^ 2 := by
      have := pow_le_pow_left₀ Lp.le (by linarith : L ≤ 2 * C) 2
      linarith [show (2 * C) ^ 2 = 4 * C ^ 2 by ring]
    have m := mul_le_mul_of_nonneg_left q (pow_pos e0 2).le
    have : 0 < eps53 ^ 2 * C ^ 2 := by positivity
    linarith
  have ts := tau600_sq
  have ee0 : 0 < eps53 ^ 2 := by positivity
  -- the length of the projection
  have nw : (L * s) ^ 2 = dot (smul L w) (smul L w) := by rw [mul_pow, ww]; unfold dot smul; ring
  have lw := length_lip (v := T) (w := smul L w) (Real.sqrt_nonneg _) (mul_nonneg Lp.le s0) (Real.sq_sqrt (dot_self_ge T)) nw (B := 386 / 10 * (eps53 * L)) (by linarith)
    (sq_three k1 k2 k3 (by
      have := sq_nonneg (eps53 * L)
      linarith [show (222 / 10 * eps53 * L) ^ 2 = 49284 / 100 * (eps53 * L) ^ 2 by ring, show (386 / 10 * (eps53 * L)) ^ 2 = 148996 / 100 * (eps53 * L) ^ 2 by ring]))
  have m0 := Real.sqrt_nonneg (dot T T)
  have m2 := Real.sq_sqrt (dot_self_ge T)
  generalize Real.sqrt (dot T T) = m at *
  have sa : |s| ≤ 1 := by rw [abs_of_nonneg s0]; exact s1
  have qm := quot_near Lp hC lw sa
  have qy := quot_near Lp hC hy η1
  have Ls := mul_le_mul_of_nonneg_left s1 Lp.le
  have mL : m ≤ 41 / 10 := by have := (abs_le.1 lw).2; linarith
  have mm : m ^ 2 ≤ 17 := by have := pow_le_pow_left₀ m0 mL 2; linarith
  have big : (17 : ℝ) + 1 ≤ big1000 / 2 := by
    have : (64 : ℝ) ≤ big1000 := by
      calc (64 : ℝ) = 2 ^ 6 := by norm_num
        _ ≤ big1000 := pow_le_pow_right₀ (by norm_num) (by norm_num)
    linarith
  have cc0 : 0 < C ^ 2 := by positivity
  have cc1 : C ^ 2 ≤ 17 := by have := pow_le_pow_left₀ C0.le (by linarith : C ≤ 41 / 10) 2; linarith
  have tC1 : tau600 ≤ eps53 ^ 2 / 10 ^ 14 * C ^ 2 := (div_le_iff₀ cc0).1 tC
  have ecc := mul_pos e0 cc0
  have tt : eta75 ≤ tau600 := tau6_le
  have n2 : |Vec.norm2 fl T - m ^ 2| ≤ 301 / 100 * ((m ^ 2 + eps53 * C ^ 2 / 10 ^ 10) * eps53) := by
    have hd : dot T T = T.x * T.x + T.y * T.y + T.z * T.z := rfl
    have g1 := dot_gen h (P := T.x * T.x) (Q := T.y * T.y) (R := T.z * T.z) (M := m ^ 2 + eps53 * C ^ 2 / 10 ^ 10)
      (by rw [abs_mul_self, abs_mul_self, abs_mul_self]; linarith)
      (by have := mul_le_mul e1 cc1 cc0.le (by norm_num); linarith)
      (by have := mul_nonneg (sq_nonneg m) e0.le; linarith [show (m ^ 2 + eps53 * C ^ 2 / 10 ^ 10) * eps53 / 1000 = m ^ 2 * eps53 / 1000 + eps53 ^ 2 / 10 ^ 13 * C ^ 2 by ring, mul_pos ee0 cc0])
    rw [← hd, ← m2] at g1
    exact g1
  clear big
  have n3 : |Vec.norm2 fl T / C ^ 2 - (m / C) ^ 2| ≤ 301 / 100 * (eps53 * (m / C) ^ 2) + eps53 ^ 2 / 10 ^ 9 := by
    rw [div_pow, ← sub_div, abs_div, abs_of_pos cc0, div_le_iff₀ cc0]
    refine n2.trans ?_
    have : (301 / 100 * (eps53 * (m ^ 2 / C ^ 2)) + eps53 ^ 2 / 10 ^ 9) * C ^ 2 = 301 / 100 * (eps53 * m ^ 2) + eps53 ^ 2 / 10 ^ 9 * C ^ 2 := by field_simp
    rw [this]
    have := mul_pos ee0 cc0
    linarith
  have v1 := qr_near h s0 s1 (div_nonneg m0 C0.le) qm n3
  have hy' := abs_le.1 hy
  have yb : |y| ≤ 41 / 10 := by
    have a := abs_sub_abs_le_abs_sub y (L * η)
    rw [abs_mul, abs_of_pos Lp] at a
    have := mul_le_mul_of_nonneg_left η1 Lp.le
    linarith
  have y2 : |y * y| ≤ 17 := by
    rw [abs_mul]
    have := mul_le_mul yb yb (abs_nonneg _) (by norm_num)
    linarith
  have f4 := fl_err6 h (x := y * y) (by linarith)
  rw [abs_mul_self] at f4
  have a1 : |fl (y * y) / C ^ 2 - (y / C) ^ 2| ≤ eps53 * (y / C) ^ 2 + eps53 ^ 2 / 10 ^ 9 := by
    rw [div_pow, ← sub_div, abs_div, abs_of_pos cc0, div_le_iff₀ cc0]
    have : (eps53 * (y ^ 2 / C ^ 2) + eps53 ^ 2 / 10 ^ 9) * C ^ 2 = eps53 * y ^ 2 + eps53 ^ 2 / 10 ^ 9 * C ^ 2 := by field_simp
    rw [this, pow_two y]
    have := mul_pos ee0 cc0
    linarith
  obtain ⟨ν2, A1⟩ := normal_near h η1 qy a1
  exact sum_near h s0 s1 sh qy ν2 A1 v1

/-- The computed squared distance of two points. -/
theorem sqdist_near {fl : ℝ → ℝ} (h : Rounding fl) {x X a A : Vec ℝ} {r l : ℝ} (hX : UnitV X) (hA : UnitV A) (ex : x = smul r X) (ea : a = smul l A)
    (hr : |r - 1| ≤ 9 * eps53) (hl : |l - 1| ≤ 9 * eps53) : |Vec.norm2 fl (Vec.sub fl x a) - dist2 X A| ≤ 24 * (eps53 * dist2 X A) + 400 * eps53 ^ 2 := by
  have e0 := eps53_pos
  have e1 := eps53_le
  have es := eps53_sq_le
  have ee0 : 0 < eps53 ^ 2 := pow_pos e0 2
  have ts := tau600_sq
  have t0 := tau600_pos
  have hr' := abs_le.1 hr
  have hl' := abs_le.1 hl
  have D0 : 0 ≤ dist2 X A := dot_self_ge _
  have D4 : dist2 X A ≤ 4 := by rw [dist2_unit hX hA]; linarith [(dot_le_one hX hA).1]
  have ed : dot (diff x a) (diff x a) = (r - l) ^ 2 + r * l * dist2 X A := by
    rw [dist2_unit hX hA]
    have : dot (diff x a) (diff x a) = r ^ 2 * dot X X - 2 * (r * l) * dot X A + l ^ 2 * dot A A := by rw [ex, ea]; simp only [dot, diff, smul]; ring
    rw [this, show dot X X = 1 from hX, show dot A A = 1 from hA]; ring
  generalize dist2 X A = D at *
  have q1 : (r - l) ^ 2 ≤ 324 * eps53 ^ 2 := by
    have : |r - l| ≤ 18 * eps53 := by rw [abs_le]; constructor <;> linarith
    have := pow_le_pow_left₀ (abs_nonneg _) this 2
    rw [sq_abs] at this
    linarith [show (18 * eps53) ^ 2 = 324 * eps53 ^ 2 by ring]
  have q0 := sq_nonneg (r - l)
  have rl : |r * l - 1| ≤ 181 / 10 * eps53 := by
    have e : r * l - 1 = (r - 1) * (l - 1) + (r - 1) + (l - 1) := by ring
    have m : |(r - 1) * (l - 1)| ≤ 9 * eps53 * (9 * eps53) := by rw [abs_mul]; exact mul_le_mul hr hl (abs_nonneg _) (by positivity)
    have a := abs_add_three ((r - 1) * (l - 1)) (r - 1) (l - 1)
    rw [← e] at a
    linarith [show 9 * eps53 * (9 * eps53) = 81 * eps53 ^ 2 by ring]
  have rlD := mul_le_mul_of_nonneg_right rl D0
  rw [← abs_of_nonneg D0, ← abs_mul, abs_of_nonneg D0] at rlD
  have eD := mul_nonneg e0.le D0
  have eD1 := mul_le_mul_of_nonneg_right e1 D0
  have eeD := mul_le_mul_of_nonneg_left eD1 e0.le
  have W1 : |dot (diff x a) (diff x a) - D| ≤ 181 / 10 * (eps53 * D) + 324 * eps53 ^ 2 := by
    rw [ed]
    have := abs_le.1 rlD
    rw [abs_le]
    constructor <;> linarith
  have W1' := abs_le.1 W1
  have hn : Vec.norm2 fl (Vec.sub fl x a) = fl (fl (fl (fl (diff x a).x * fl (diff x a).x) + fl (fl (diff x a).y * fl (diff x a).y)) + fl (fl (diff x a).z * fl (diff x a).z)) := rfl
  rw [hn]
  have Wb : dot (diff x a) (diff x a) ≤ 4 ^ 2 := by linarith
  obtain ⟨b1, b2, b3⟩ := comp_le (by norm_num) Wb
  have tt := tau6_le
  have k53 : ∀ u : ℝ, (302 / 100) / 2 ^ 53 * u = 302 / 100 * (eps53 * u) := by intro u; unfold eps53; ring
  have s1 := square_near h b1
  have s2 := square_near h b2
  have s3 := square_near h b3
  rw [k53] at s1 s2 s3
  have hW : dot (diff x a) (diff x a) = (diff x a).x * (diff x a).x + (diff x a).y * (diff x a).y + (diff x a).z * (diff x a).z := rfl
  generalize fl (fl (diff x a).x * fl (diff x a).x) = p1 at *
  generalize fl (fl (diff x a).y * fl (diff x a).y) = p2 at *
  generalize fl (fl (diff x a).z * fl (diff x a).z) = p3 at *
  have x0 := mul_self_nonneg (diff x a).x
  have y0 := mul_self_nonneg (diff x a).y
  have z0 := mul_self_nonneg (diff x a).z
  generalize (diff x a).x * (diff x a).x = u1 at *
  generalize (diff x a).y * (diff x a).y = u2 at *
  generalize (diff x a).z * (diff x a).z = u3 at *
  generalize dot (diff x a) (diff x a) = W at *
  have W0 : 0 ≤ W := by linarith
  generalize (1 : ℝ) / 2 ^ 1075 = η at *
  have s1' := abs_le.1 s1
  have s2' := abs_le.1 s2
  have s3' := abs_le.1 s3
  have m1 := mul_nonneg e0.le x0
  have m2 := mul_nonneg e0.le y0
  have m3 := mul_nonneg e0.le z0
  have eW : eps53 * W = eps53 * u1 + eps53 * u2 + eps53 * u3 := by rw [hW]; ring
  have M1 := mul_le_mul_of_nonneg_right e1 x0
  have M2 := mul_le_mul_of_nonneg_right e1 y0
  have M3 := mul_le_mul_of_nonneg_right e1 z0
  have c12 : |p1 + p2| ≤ 1001 / 1000 * (u1 + u2) + 24 * tau600 := by rw [abs_le]; constructor <;> linarith
  have f1 := fl_err6 h (x := p1 + p2) (by linarith)
  have f1' := mul_le_mul_of_nonneg_right c12 e0.le
  have f1a := abs_le.1 f1
  have te := mul_le_mul_of_nonneg_left e1 t0.le
  generalize fl (p1 + p2) = p4 at *
  have c3 : |p4 + p3| ≤ 1002 / 1000 * W + 40 * tau600 := by rw [abs_le]; constructor <;> linarith
  have f2 := fl_err6 h (x := p4 + p3) (by linarith)
  have f2' := mul_le_mul_of_nonneg_right c3 e0.le
  have f2a := abs_le.1 f2
  have WD : eps53 * W ≤ 1001 / 1000 * (eps53 * D) + eps53 ^ 2 := by
    have := mul_le_mul_of_nonneg_left (by linarith : W ≤ 1001 / 1000 * D + eps53) e0.le
    linarith [show eps53 * (1001 / 1000 * D + eps53) = 1001 / 1000 * (eps53 * D) + eps53 ^ 2 by ring]
  rw [abs_le]
  constructor <;> linarith

theorem sqdist_sqrt {N D : ℝ} (D0 : 0 ≤ D) (D4 : D ≤ 4) (hN : |N - D| ≤ 24 * (eps53 * D) + 400 * eps53 ^ 2) : |Real.sqrt N - Real.sqrt D| ≤ 70 * eps53 := by
  have e0 := eps53_pos
  have s := Real.sq_sqrt D0
  have s0 := Real.sqrt_nonneg D
  have s2 : Real.sqrt D ≤ 2 := Real.sqrt_le_iff.2 ⟨by norm_num, by linarith⟩
  generalize Real.sqrt D = d at *
  have := sqrt_tol (N := N) (r := d) (A := 24 * eps53 * d) (B := 20 * eps53) s0 (by positivity) (by positivity)
    (by rw [s]; refine hN.trans (le_of_eq ?_); rw [← s]; ring)
  have := mul_le_mul_of_nonneg_left s2 e0.le
  linarith

/-- The distances compared in the planar test. -/
theorem planar_near {fl : ℝ → ℝ} (h : Rounding fl) (hm : Monotone fl) {xa xb ab me DA DB DC : ℝ} (a0 : 0 ≤ DA) (b0 : 0 ≤ DB) (c0 : 0 ≤ DC) (a4 : DA ≤ 4) (c4 : DC ≤ 4)
    (ha : |xa - DA| ≤ 24 * (eps53 * DA) + 400 * eps53 ^ 2) (hb : |xb - DB| ≤ 24 * (eps53 * DB) + 400 * eps53 ^ 2)
    (hc : |ab - DC| ≤ 24 * (eps53 * DC) + 400 * eps53 ^ 2) (ab0 : 0 ≤ ab) (me0 : 0 ≤ me) {w : ℝ} (hw : |w| = xa - xb) (ht : fl (ab + me) ≤ |fl w|) :
    DC - 26 * eps53 * (DA + DB + DC) - 1500 * eps53 ^ 2 ≤ DA - DB := by
  have e0 := eps53_pos
  have e1 := eps53_le
  have ee0 : 0 < eps53 ^ 2 := pow_pos e0 2
  have es := eps53_sq_le
  have ts := tau600_sq
  have ha' := abs_le.1 ha
  have hb' := abs_le.1 hb
  have hc' := abs_le.1 hc
  have mA := mul_le_mul_of_nonneg_right e1 a0
  have mB := mul_le_mul_of_nonneg_right e1 b0
  have mC := mul_le_mul_of_nonneg_right e1 c0
  have pA := mul_nonneg e0.le a0
  have pB := mul_nonneg e0.le b0
  have pC := mul_nonneg e0.le c0
  have hz : 0 ≤ xa - xb := by rw [← hw]; exact abs_nonneg w
  have f1 := fl_err6 h (x := w) (by rw [hw]; linarith)
  rw [hw] at f1
  have f2 := fl_err6 h (x := ab) (by rw [abs_le]; constructor <;> linarith)
  rw [abs_of_nonneg ab0] at f2
  have g := hm (by linarith : ab ≤ ab + me)
  have f1a := abs_sub_abs_le_abs_sub (fl w) w
  rw [hw] at f1a
  have f2a := (abs_le.1 f2).1
  have n1 := mul_le_mul_of_nonneg_right (by linarith : xa - xb ≤ 1001 / 1000 * DA + eps53) e0.le
  have n2 := mul_le_mul_of_nonneg_right (by linarith : ab ≤ 1001 / 1000 * DC + eps53) e0.le
  linarith [show (1001 / 1000 * DA + eps53) * eps53 = 1001 / 1000 * (eps53 * DA) + eps53 ^ 2 by ring,
    show (1001 / 1000 * DC + eps53) * eps53 = 1001 / 1000 * (eps53 * DC) + eps53 ^ 2 by ring,
    show 26 * eps53 * (DA + DB + DC) = 26 * (eps53 * DA) + 26 * (eps53 * DB) + 26 * (eps53 * DC) by ring]

/-- The cases of `update_min_distance` when it always updates. -/
theorem update_true (fl sqrt : ℝ → ℝ) (x a b : Vec ℝ) (m : ℝ) :
    updateMinDistance fl sqrt x a b m true =
      if fl (Vec.norm2 fl (Vec.sub fl a b) + maxError fl (Vec.norm2 fl (Vec.sub fl x a)) (Vec.norm2 fl (Vec.sub fl x b)) (Vec.norm2 fl (Vec.sub fl a b))) ≤
          |fl (Vec.norm2 fl (Vec.sub fl x a) - Vec.norm2 fl (Vec.sub fl x b))| ∨
          (0 ≤ Vec.dot fl (Vec.sub fl a x) (Vec.cross fl (Vec.pointCross fl sqrt a b) x) ∨
            Vec.dot fl (Vec.sub fl b x) (Vec.cross fl (Vec.pointCross fl sqrt a b) x) ≤ 0) then
        (min (Vec.norm2 fl (Vec.sub fl x a)) (Vec.norm2 fl (Vec.sub fl x b)), true)
      else
        (fl (fl (fl (Vec.dot fl x (Vec.pointCross fl sqrt a b) * Vec.dot fl x (Vec.pointCross fl sqrt a b)) / Vec.norm2 fl (Vec.pointCross fl sqrt a b)) +
          fl (fl (1 - fl (sqrt (fl (Vec.norm2 fl (Vec.cross fl (Vec.pointCross fl sqrt a b) x) / Vec.norm2 fl (Vec.pointCross fl sqrt a b))))) *
            fl (1 - fl (sqrt (fl (Vec.norm2 fl (Vec.cross fl (Vec.pointCross fl sqrt a b) x) / Vec.norm2 fl (Vec.pointCross fl sqrt a b))))))), true) := by
  unfold updateMinDistance interiorDist
  simp only [ge_iff_le, Bool.not_true, Bool.false_and, Bool.false_eq_true, if_false]
  split_ifs <;> first | rfl | (exfalso; tauto)

/-- The length of a vector that is a multiple of a unit vector. -/
theorem mult_near {v V : Vec ℝ} {l : ℝ} (l0 : 0 < l) (hV : UnitV V) (e : v = smul l V) (hv : |dot v v - 1| ≤ 16 * eps53) : |l - 1| ≤ 9 * eps53 := by
  have e0 := eps53_pos
  have e1 := eps53_le
  have hd : dot v v = l ^ 2 := by
    have : dot v v = l ^ 2 * dot V V := by rw [e]; unfold dot smul; ring
    rw [this, show dot V V = 1 from hV, mul_one]
  have := sqrt_rel (N := dot v v) (r := 1) (k := 16 * eps53) one_pos (by positivity) (by linarith) (by rw [one_pow, mul_one]; exact hv)
  rw [hd, Real.sqrt_sq l0.le] at this
  linarith

/-- The error of the distance from an edge in its three cases. -/
theorem update_cases {fl : ℝ → ℝ} (h : Rounding fl) (hm : Monotone fl) (h0 : fl 0 = 0) {x a b X A B : Vec ℝ} {lx la lb S α β P q η s : ℝ} (m : ℝ)
    (E : EdgeGeo X A B S α β P q η s) (lx0 : 0 < lx) (la0 : 0 < la) (lb0 : 0 < lb) (ex : x = smul lx X) (ea : a = smul la A) (eb : b = smul lb B)
    (hx : |dot x x - 1| ≤ 16 * eps53) (ha : |dot a a - 1| ≤ 16 * eps53) (hb : |dot b b - 1| ≤ 16 * eps53) (hS : 1 / 2 ^ 42 ≤ S) :
    (updateMinDistance fl Real.sqrt x a b m true).2 = true ∧
    ((|Real.sqrt (updateMinDistance fl Real.sqrt x a b m true).1 - Real.sqrt (2 - 2 * s)| ≤ 128 * eps53 ∧ -(110 * eps53) ≤ P ∧ -(110 * eps53) ≤ q) ∨
      (((∃ p, OnEdge A B p ∧ Real.sqrt (dist2 X p) ≤ Real.sqrt (updateMinDistance fl Real.sqrt x a b m true).1 + 70 * eps53) ∧
        ((∀ p, OnEdge A B p → Real.sqrt (updateMinDistance fl Real.sqrt x a b m true).1 ≤ Real.sqrt (dist2 X p) + 290 * eps53) ∨
          (Real.sqrt (updateMinDistance fl Real.sqrt x a b m true).1 ≤ min (Real.sqrt (dist2 X A)) (Real.sqrt (dist2 X B)) + 70 * eps53 ∧
            (1 - dot A B) - 26 * eps53 * ((1 - α) + (1 - β) + (1 - dot A B)) - 750 * eps53 ^ 2 ≤ |β - α|))))) ∧
    (∃ p, OnEdge A B p ∧ Real.sqrt (dist2 X p) ≤ Real.sqrt (min (Vec.norm2 fl (Vec.sub fl x a)) (Vec.norm2 fl (Vec.sub fl x b))) + 70 * eps53) ∧
    (fl (Vec.norm2 fl (Vec.pointCross fl Real.sqrt a b) * m) < fl (Vec.dot fl x (Vec.pointCross fl Real.sqrt a b) * Vec.dot fl x (Vec.pointCross fl Real.sqrt a b)) →
      Real.sqrt m ≤ Real.sqrt (2 - 2 * s) + 40 * eps53) := by
  have e0 := eps53_pos
  have e1 := eps53_le
  have hlx := mult_near lx0 E.hX ex hx
  have hla := mult_near la0 E.hA ea ha
  have hlb := mult_near lb0 E.hB eb hb
  have hla' := abs_le.1 hla
  have hlb' := abs_le.1 hlb
  have Sp := E.S0
  have Sn := Sp.ne'
  have da := sqdist_near h E.hX E.hA ex ea hlx hla
  have db := sqdist_near h E.hX E.hB ex eb hlx hlb
  have dc := sqdist_near h E.hA E.hB ea eb hla hlb
  have four : ∀ {U V : Vec ℝ}, UnitV U → UnitV V → dist2 U V ≤ 4 := by
    intro U V hU hV; rw [dist2_unit hU hV]; linarith [(dot_le_one hU hV).1]
  have a0 : 0 ≤ dist2 X A := dot_self_ge _
  have b0 : 0 ≤ dist2 X B := dot_self_ge _
  have a4 := four E.hX E.hA
  have b4 := four E.hX E.hB
  have c4 := four E.hA E.hB
  have ra := abs_le.1 (sqdist_sqrt a0 a4 da)
  have rb := abs_le.1 (sqdist_sqrt b0 b4 db)
  obtain ⟨k0, k1⟩ := E.not_anti
  have c0 : 0 ≤ dist2 A B := dot_self_ge _
  -- when an end is taken
  have ends : ∀ V, V = min (Vec.norm2 fl (Vec.sub fl x a)) (Vec.norm2 fl (Vec.sub fl x b)) →
      (∃ p, OnEdge A B p ∧ Real.sqrt (dist2 X p) ≤ Real.sqrt V + 70 * eps53) ∧
        Real.sqrt V ≤ min (Real.sqrt (dist2 X A)) (Real.sqrt (dist2 X B)) + 70 * eps53 := by
    intro V hV
    constructor
    · rcases min_choice (Vec.norm2 fl (Vec.sub fl x a)) (Vec.norm2 fl (Vec.sub fl x b)) with e | e
      · exact ⟨A, onEdge_left E.hA, by rw [hV, e]; linarith⟩
      · exact ⟨B, onEdge_right E.hB, by rw [hV, e]; linarith⟩
    · rw [← sub_le_iff_le_add, hV]
      have m1 := Real.sqrt_le_sqrt (min_le_left (Vec.norm2 fl (Vec.sub fl x a)) (Vec.norm2 fl (Vec.sub fl x b)))
      have m2 := Real.sqrt_le_sqrt (min_le_right (Vec.norm2 fl (Vec.sub fl x a)) (Vec.norm2 fl (Vec.sub fl x b)))
      exact le_min (by linarith) (by linarith)
  -- the plane
  obtain ⟨G, hG⟩ : ∃ G, G = la * lb * S := ⟨_, rfl⟩
  have S2 : S ^ 2 = 1 - dot A B ^ 2 := by linarith [E.hS]
  have hg : UnitV (smul (1 / S) (cross A B)) := by
    have : dot (smul (1 / S) (cross A B)) (smul (1 / S) (cross A B)) = (1 / S) ^ 2 * dot (cross A B) (cross A B) := by unfold dot smul; ring
    unfold UnitV
    rw [this, cross_sq, show dot A A = 1 from E.hA, show dot B B = 1 from E.hB, one_mul, ← S2, div_pow, one_pow, one_div_mul_cancel (by positivity)]
  have eg : cross a b = smul G (smul (1 / S) (cross A B)) := by
    rw [ea, eb, hG]; simp only [cross, smul, Vec.mk.injEq]
    refine ⟨?_, ?_, ?_⟩ <;> field_simp
  have hG2 : G ^ 2 = dot (cross a b) (cross a b) := by
    have : dot (smul G (smul (1 / S) (cross A B))) (smul G (smul (1 / S) (cross A B))) = G ^ 2 * dot (smul (1 / S) (cross A B)) (smul (1 / S) (cross A B)) := by
      unfold dot smul; ring
    rw [eg, this, show dot (smul (1 / S) (cross A B)) (smul (1 / S) (cross A B)) = 1 from hg, mul_one]
  have Gl : 1 / 2 ^ 43 ≤ G := by
    have m1 := mul_le_mul (by linarith : (99 : ℝ) / 100 ≤ la) (by linarith : (99 : ℝ) / 100 ≤ lb) (by norm_num) la0.le
    have m2 := mul_le_mul m1 hS (by positivity) (mul_nonneg la0.le lb0.le)
    rw [hG]
    exact le_trans (by norm_num) m2
  have G1 : 64 * eps53 ≤ G := le_trans (by unfold eps53; norm_num) Gl
  obtain ⟨Gu, -, hn⟩ := pcross_plane h ha hb G1 hG2 eg hg
  have H : Plane (Vec.pointCross fl Real.sqrt a b) (smul (1 / S) (cross A B)) x X (2 * G) lx :=
    ⟨by linarith [show (0 : ℝ) < 1 / 2 ^ 43 by positivity], by linarith, hg, E.hX, ex, hlx, hn .X, hn .Y, hn .Z⟩
  have eη : dot X (smul (1 / S) (cross A B)) = η := by
    have : dot X (smul (1 / S) (cross A B)) = 1 / S * dot X (cross A B) := by unfold dot smul; ring
    rw [this, ← E.eh]; field_simp
  have val := H.value h E.s0 E.s1 (by rw [eη]; exact E.sh)
  have wa := H.wedge h E.hA ea hla
  have wb := H.wedge h E.hB eb hlb
  have gP : dot A (cross (smul (1 / S) (cross A B)) X) = -P := by
    have : dot A (cross (smul (1 / S) (cross A B)) X) = 1 / S * (dot A B * dot X A - dot A A * dot X B) := by simp only [dot, cross, smul]; ring
    rw [this, show dot A A = 1 from E.hA, one_mul, ← E.eα, ← E.eβ, E.hβ]; field_simp; ring
  have gq : dot B (cross (smul (1 / S) (cross A B)) X) = q := by
    have : dot B (cross (smul (1 / S) (cross A B)) X) = 1 / S * (dot B B * dot X A - dot A B * dot X B) := by simp only [dot, cross, smul]; ring
    rw [this, show dot B B = 1 from E.hB, one_mul, ← E.eα, ← E.eβ, E.hP]; field_simp; ring
  rw [gP] at wa
  rw [gq] at wb
  have Lp := H.pos
  have wa' := abs_le.1 wa
  have wb' := abs_le.1 wb
  -- a component from the sign of its product
  have comp1 : ∀ {l t : ℝ}, 99 / 100 ≤ l → 2 * G * (l * t) ≤ 107 * (eps53 * (2 * G)) → t ≤ 110 * eps53 := by
    intro l t hl ht
    have : l * t ≤ 107 * eps53 := le_of_mul_le_mul_left (by linarith [show 2 * G * (107 * eps53) = 107 * (eps53 * (2 * G)) by ring] : 2 * G * (l * t) ≤ 2 * G * (107 * eps53)) Lp
    by_contra hc
    have hc := not_le.1 hc
    have m := mul_le_mul_of_nonneg_right hl (by linarith : 0 ≤ t)
    linarith
  -- the test against the given distance
  have early : fl (Vec.norm2 fl (Vec.pointCross fl Real.sqrt a b) * m) < fl (Vec.dot fl x (Vec.pointCross fl Real.sqrt a b) * Vec.dot fl x (Vec.pointCross fl Real.sqrt a b)) →
      Real.sqrt m ≤ Real.sqrt (2 - 2 * s) + 40 * eps53 := by
    intro hlt
    have hlt := hm.reflect_lt hlt
    obtain ⟨-, C, C0, hC2, hC⟩ := H.norm h
    have hy := H.xdot h
    rw [eη] at hy
    rw [hC2] at hlt
    have R2 := Real.sq_sqrt (by linarith [E.s1] : 0 ≤ 2 - 2 * s)
    have ηR : |η| ≤ Real.sqrt (2 - 2 * s) := by
      refine abs_le_of_sq_le_sq ?_ (Real.sqrt_nonneg _)
      rw [R2]
      have := E.sh
      linarith [sq_nonneg (1 - s), show (1 - s) ^ 2 = 1 - 2 * s + s ^ 2 by ring]
    have η1 : |η| ≤ 1 := abs_le_of_sq_le_sq (by have := sq_nonneg s; linarith [E.sh]) zero_le_one
    have qy := quot_near Lp hC hy η1
    have mm : m ≤ |Vec.dot fl x (Vec.pointCross fl Real.sqrt a b) / C| ^ 2 := by
      rw [sq_abs, div_pow, le_div_iff₀ (by positivity), pow_two (Vec.dot fl x _)]
      linarith
    have := Real.sqrt_le_sqrt mm
    rw [Real.sqrt_sq (abs_nonneg _)] at this
    have := abs_sub_abs_le_abs_sub (Vec.dot fl x (Vec.pointCross fl Real.sqrt a b) / C) η
    linarith
  refine and_assoc.1 ⟨?_, (ends _ rfl).1, early⟩
  rw [update_true]
  split_ifs with hc
  · refine ⟨rfl, Or.inr ?_⟩
    obtain ⟨up, lo⟩ := ends _ rfl
    refine ⟨up, ?_⟩
    rcases hc with hc | hc | hc
    · -- the planar test
      refine Or.inr ⟨lo, ?_⟩
      have fn : ∀ {u : ℝ}, 0 ≤ u → 0 ≤ fl u := fun {u} hu => by have := hm hu; rwa [h0] at this
      have nn : ∀ v : Vec ℝ, 0 ≤ Vec.norm2 fl v := fun v => fn (add_nonneg (fn (add_nonneg (fn (mul_self_nonneg _)) (fn (mul_self_nonneg _)))) (fn (mul_self_nonneg _)))
      have dn : 0 ≤ Predicates.dblEpsilon fl := fn (by norm_num)
      have me0 : 0 ≤ maxError fl (Vec.norm2 fl (Vec.sub fl x a)) (Vec.norm2 fl (Vec.sub fl x b)) (Vec.norm2 fl (Vec.sub fl a b)) :=
        fn (add_nonneg (fn (mul_nonneg (fn (mul_nonneg (fn (by norm_num)) dn)) (fn (add_nonneg (fn (add_nonneg (nn _) (nn _))) (nn _)))))
          (fn (mul_nonneg (fn (mul_nonneg (by norm_num) dn)) dn)))
      rcases le_total 0 (Vec.norm2 fl (Vec.sub fl x a) - Vec.norm2 fl (Vec.sub fl x b)) with hz | hz
      · have t := planar_near h hm a0 b0 c0 a4 c4 da db dc (nn _) me0 (abs_of_nonneg hz) hc
        rw [dist2_unit E.hX E.hA, dist2_unit E.hX E.hB, dist2_unit E.hA E.hB, ← E.eα, ← E.eβ] at t
        have := le_abs_self (β - α)
        linarith
      · have t := planar_near h hm b0 a0 c0 b4 c4 db da dc (nn _) me0 (by rw [abs_of_nonpos hz]; ring) hc
        rw [dist2_unit E.hX E.hA, dist2_unit E.hX E.hB, dist2_unit E.hA E.hB, ← E.eα, ← E.eβ] at t
        have := neg_abs_le (β - α)
        linarith
    · refine Or.inl fun p hp => ?_
      have := E.vertex (δ := 110 * eps53) (by positivity) (Or.inl (comp1 (by linarith : 99 / 100 ≤ la) (by linarith))) hp
      linarith
    · refine Or.inl fun p hp => ?_
      have := E.vertex (δ := 110 * eps53) (by positivity) (Or.inr (comp1 (by linarith : 99 / 100 ≤ lb) (by linarith))) hp
      linarith
  · push Not at hc
    obtain ⟨-, h1, h2⟩ := hc
    refine ⟨rfl, Or.inl ⟨val, ?_, ?_⟩⟩
    · have := comp1 (t := -P) (by linarith : 99 / 100 ≤ la) (by linarith)
      linarith
    · have := comp1 (t := -q) (by linarith : 99 / 100 ≤ lb) (by linarith)
      linarith

theorem hS20 {S : ℝ} (hS : 1 / 2 ^ 20 ≤ S) : 1 / 2 ^ 42 ≤ S :=
  le_trans (one_div_le_one_div_of_le (by positivity) (pow_le_pow_right₀ (by norm_num) (by norm_num))) hS

theorem onEdge_swap {A B p : Vec ℝ} (hp : OnEdge A B p) : OnEdge B A p := by
  obtain ⟨hu, σ, τ, s0, t0, e⟩ := hp
  exact ⟨hu, τ, σ, t0, s0, by rw [e]; simp only [lin, Vec.mk.injEq]; refine ⟨?_, ?_, ?_⟩ <;> ring⟩

/-- The planar test for an edge that is not short. -/
theorem EdgeGeo.planar_long {X A B : Vec ℝ} {S α β P q η s : ℝ} (E : EdgeGeo X A B S α β P q η s) (hS : 1 / 2 ^ 20 ≤ S)
    (ht : (1 - dot A B) - 26 * eps53 * ((1 - α) + (1 - β) + (1 - dot A B)) - 750 * eps53 ^ 2 ≤ |β - α|) {p : Vec ℝ} (hp : OnEdge A B p) :
    min (Real.sqrt (dist2 X A)) (Real.sqrt (dist2 X B)) ≤ Real.sqrt (dist2 X p) + 216 * eps53 * ((1 - dot A B) / S) := by
  have e0 := eps53_pos
  have S2 := pow_le_pow_left₀ (by positivity) hS 2
  have c1 : 750 * eps53 ^ 2 ≤ eps53 * (1 - dot A B) := by
    have v : S ^ 2 ≤ 2 * (1 - dot A B) := by linarith [sq_nonneg (1 - dot A B), show (1 - dot A B) ^ 2 = 1 - 2 * dot A B + dot A B ^ 2 by ring, E.hS]
    have k : 1500 * eps53 ≤ S ^ 2 := le_trans (by unfold eps53; norm_num) S2
    have := mul_le_mul_of_nonneg_left (by linarith : 750 * eps53 ≤ 1 - dot A B) e0.le
    linarith [show eps53 * (750 * eps53) = 750 * eps53 ^ 2 by ring]
  have K0 : 8 * (27 * eps53) < S ^ 2 := lt_of_lt_of_le (by unfold eps53; norm_num) S2
  have one : ∀ {X A : Vec ℝ}, UnitV X → UnitV A → 0 ≤ 1 - dot X A := fun hX hA => by linarith [(dot_le_one hX hA).2]
  have a1 := mul_nonneg e0.le (one E.hX E.hA)
  have b1 := mul_nonneg e0.le (one E.hX E.hB)
  rw [← E.eα] at a1
  rw [← E.eβ] at b1
  have e : 8 * (27 * eps53) * ((1 - dot A B) / S) = 216 * eps53 * ((1 - dot A B) / S) := by ring
  rw [← e]
  rcases abs_choice (β - α) with hc | hc <;> rw [hc] at ht
  · exact E.planar (by positivity) K0 (by linarith) hp
  · have := E.swap.planar (K := 27 * eps53) (by positivity) K0 (by rw [dot_comm B A]; linarith) (onEdge_swap hp)
    rwa [min_comm, dot_comm B A] at this

/-- The planar test for an edge of at most 90 degrees, of any length, and a point not far from the plane. -/
theorem EdgeGeo.planar_fine {X A B : Vec ℝ} {S α β P q η s : ℝ} (E : EdgeGeo X A B S α β P q η s) (hS : 1 / 2 ^ 42 ≤ S) (hk : 0 ≤ dot A B) (hs : 49 / 100 ≤ s)
    (ht : (1 - dot A B) - 26 * eps53 * ((1 - α) + (1 - β) + (1 - dot A B)) - 750 * eps53 ^ 2 ≤ β - α) {p : Vec ℝ} (hp : OnEdge A B p) :
    min (Real.sqrt (dist2 X A)) (Real.sqrt (dist2 X B)) ≤ Real.sqrt (dist2 X p) + 220 * eps53 := by
  have e0 := eps53_pos
  have e1 := eps53_le
  have ee0 : 0 < eps53 ^ 2 := pow_pos e0 2
  obtain ⟨k0, k1⟩ := E.not_anti
  have Sp := E.S0
  have S1 : S ≤ 1 := le_of_sq_le_sq (by have := sq_nonneg (dot A B); linarith [E.hS]) zero_le_one
  have v0 : 0 < 1 - dot A B := by linarith
  by_cases hi : 0 < P ∧ 0 < q
  · obtain ⟨P0, q0⟩ := hi
    have α1 : α ≤ 1 := by rw [E.eα]; exact (dot_le_one E.hX E.hA).2
    have β1 : β ≤ 1 := by rw [E.eβ]; exact (dot_le_one E.hX E.hB).2
    have hq := E.hq
    have hP := E.hP
    have hβ := E.hβ
    have sβ := E.sβ
    have kP := mul_nonneg hk P0.le
    have α0 : 0 < α := pos_of_mul_pos_right (by linarith : 0 < S * α) Sp.le
    have qS : q ≤ S := by have := mul_le_mul_of_nonneg_left α1 Sp.le; linarith
    have β0 : 0 ≤ β := by have := mul_nonneg hk α0.le; have := mul_pos Sp P0; linarith
    have vS : 1 - dot A B ≤ S ^ 2 := by have := mul_nonneg hk v0.le; linarith [E.hS, show dot A B * (1 - dot A B) = dot A B - dot A B ^ 2 by ring]
    have qq : q ^ 2 ≤ S * q := by rw [pow_two]; exact mul_le_mul_of_nonneg_right qS q0.le
    have Sq := mul_pos Sp q0
    have sp : β ≤ s := le_of_sq_le_sq (by have := sq_nonneg q; linarith) E.s0
    have su : s - β ≤ 25 / 12 * q ^ 2 := by
      have a : (s - β) * (s + β) = q ^ 2 := by linarith [show (s - β) * (s + β) = s ^ 2 - β ^ 2 by ring]
      have b : (s - β) * (49 / 100) ≤ (s - β) * (s + β) := mul_le_mul_of_nonneg_left (by linarith) (by linarith)
      linarith
    have R0 := Real.sqrt_nonneg (2 - 2 * s)
    have R2 := Real.sq_sqrt (by linarith [E.s1] : 0 ≤ 2 - 2 * s)
    have c := E.dist_circle hp
    refine (min_le_right _ _).trans ?_
    have key : Real.sqrt (dist2 X B) ≤ Real.sqrt (2 - 2 * s) + 220 * eps53 := by
      rw [dist2_unit E.hX E.hB, ← E.eβ]
      have R1 : Real.sqrt (2 - 2 * s) ≤ 11 / 10 := Real.sqrt_le_iff.2 ⟨by norm_num, by linarith⟩
      -- the test bounds `S q`
      have α2 : 1 - α ≤ (1 - β) + (1 - dot A B) := by
        have := mul_nonneg v0.le (by linarith : 0 ≤ 1 - β)
        linarith [show (1 - dot A B) * (1 - β) = 1 - β - dot A B + dot A B * β by ring]
      have Kα := mul_le_mul_of_nonneg_left α2 e0.le
      have vu := mul_nonneg v0.le (by linarith : 0 ≤ 1 - β)
      have main : S * q ≤ 52 * (eps53 * (1 - β)) + 52 * (eps53 * (1 - dot A B)) + 750 * eps53 ^ 2 := by
        linarith [show (1 - dot A B) * (1 - β) = 1 - β - dot A B + dot A B * β by ring]
      have Kv := mul_le_mul_of_nonneg_left vS e0.le
      have Ku := mul_le_mul_of_nonneg_left (by linarith : 1 - β ≤ (2 - 2 * s) / 2 + 25 / 12 * (S * q)) e0.le
      have eSq := mul_le_mul_of_nonneg_right e1 Sq.le
      have main2 : S * q ≤ 1001 / 1000 * (26 * (eps53 * (2 - 2 * s)) + 52 * (eps53 * S ^ 2) + 750 * eps53 ^ 2) := by linarith
      have near := near_end (δ := 110 * eps53) β0 sβ E.s0 E.s1
      rw [← R2] at main2
      generalize Real.sqrt (2 - 2 * s) = R at *
      rcases le_or_gt S R with hSR | hSR
      · have S2R := mul_le_mul_of_nonneg_left (pow_le_pow_left₀ Sp.le hSR 2) e0.le
        have RR : eps53 * R ^ 2 ≤ 11 / 10 * (eps53 * R) := by
          have := mul_le_mul_of_nonneg_right R1 R0
          have := mul_le_mul_of_nonneg_left this e0.le
          linarith [show eps53 * R ^ 2 = eps53 * (R * R) by ring]
        have eR := mul_nonneg e0.le R0
        refine Real.sqrt_le_iff.2 ⟨by linarith, ?_⟩
        linarith [show (R + 220 * eps53) ^ 2 = R ^ 2 + 440 * (eps53 * R) + 48400 * eps53 ^ 2 by ring]
      · have R2S := mul_le_mul_of_nonneg_left (pow_le_pow_left₀ R0 hSR.le 2) e0.le
        have SS : eps53 * S ^ 2 ≤ eps53 * S := by
          have := mul_le_mul_of_nonneg_left (by rw [pow_two]; linarith [mul_le_mul_of_nonneg_left S1 Sp.le] : S ^ 2 ≤ S) e0.le
          exact this
        have cS : 750 * eps53 ^ 2 ≤ eps53 * S := by
          have k : 750 * eps53 ≤ S := le_trans (by unfold eps53; norm_num) hS
          have := mul_le_mul_of_nonneg_left k e0.le
          linarith [show eps53 * (750 * eps53) = 750 * eps53 ^ 2 by ring]
        have : S * q ≤ S * (110 * eps53) := by
          have := mul_pos e0 Sp
          linarith
        have := near (by rw [abs_of_pos q0]; exact le_of_mul_le_mul_left this Sp)
        linarith
    linarith
  · have := E.vertex (δ := 0) le_rfl (by by_contra hc; push Not at hc; exact hi hc) hp
    linarith

/-- **C120.** `update_min_distance` with rounding when it always updates: points `x`, `a`, `b` of unit length up to `2^-49`, in the directions
`X`, `A`, `B`; an edge that is neither shorter than about `2^-20` nor that close to a half circle (`S` is the sine of its angle). The root of the
result is at most `2^-43 / S` above the distance from `X` to each point of the edge, and at most so far below the distance to one of its points. -/
theorem c120_updateMin {fl : ℝ → ℝ} (h : Rounding fl) (hm : Monotone fl) (h0 : fl 0 = 0) {x a b X A B : Vec ℝ} {lx la lb S : ℝ} (m : ℝ)
    (hX : UnitV X) (hA : UnitV A) (hB : UnitV B) (lx0 : 0 < lx) (la0 : 0 < la) (lb0 : 0 < lb) (ex : x = smul lx X) (ea : a = smul la A) (eb : b = smul lb B)
    (hx : |dot x x - 1| ≤ 1 / 2 ^ 49) (ha : |dot a a - 1| ≤ 1 / 2 ^ 49) (hb : |dot b b - 1| ≤ 1 / 2 ^ 49) (hS : 1 / 2 ^ 20 ≤ S) (hAB : S ^ 2 + dot A B ^ 2 = 1) :
    (updateMinDistance fl Real.sqrt x a b m true).2 = true ∧
      (∀ p, OnEdge A B p → Real.sqrt (updateMinDistance fl Real.sqrt x a b m true).1 ≤ Real.sqrt (dist2 X p) + 1 / 2 ^ 43 / S) ∧
      ∃ p, OnEdge A B p ∧ Real.sqrt (dist2 X p) ≤ Real.sqrt (updateMinDistance fl Real.sqrt x a b m true).1 + 1 / 2 ^ 43 / S := by
  have k49 : (1 : ℝ) / 2 ^ 49 = 16 * eps53 := by unfold eps53; norm_num
  have k43 : (1 : ℝ) / 2 ^ 43 = 1024 * eps53 := by unfold eps53; norm_num
  rw [k49] at hx ha hb
  rw [k43]
  have e0 := eps53_pos
  have S0 : 0 < S := lt_of_lt_of_le (by positivity) hS
  obtain ⟨α, β, P, q, η, s, E⟩ := edgeGeo_exists hX hA hB S0 hAB
  obtain ⟨u1, u2, -⟩ := update_cases h hm h0 m E lx0 la0 lb0 ex ea eb hx ha hb (hS20 hS)
  refine ⟨u1, ?_⟩
  have S1 : S ≤ 1 := le_of_sq_le_sq (by have := sq_nonneg (dot A B); linarith) zero_le_one
  obtain ⟨k0, k1⟩ := E.not_anti
  obtain ⟨J, hJ⟩ : ∃ J, J = eps53 / S := ⟨_, rfl⟩
  have eJ : eps53 ≤ J := by rw [hJ, le_div_iff₀ S0]; have := mul_le_mul_of_nonneg_left S1 e0.le; linarith
  have J1 : 1024 * eps53 / S = 1024 * J := by rw [hJ]; ring
  have J2 : 5 * (110 * eps53 / S) = 550 * J := by rw [hJ]; ring
  have J3 : 216 * eps53 * ((1 - dot A B) / S) ≤ 432 * J := by
    have : 216 * eps53 * ((1 - dot A B) / S) = 216 * J * (1 - dot A B) := by rw [hJ]; ring
    rw [this]
    have := mul_le_mul_of_nonneg_left (by linarith : 1 - dot A B ≤ 2) (by linarith : 0 ≤ 216 * J)
    linarith
  rw [J1]
  rcases u2 with ⟨v, vP, vq⟩ | ⟨⟨p, hp, up⟩, lo⟩
  · have v' := abs_le.1 v
    refine ⟨fun p hp => by have := E.dist_circle hp; linarith, ?_⟩
    obtain ⟨p, hp, i1, -⟩ := E.inside (mul_nonneg (by norm_num) e0.le) vP vq (le_trans (by unfold eps53; norm_num) hS)
    exact ⟨p, hp, by linarith⟩
  · refine ⟨fun p hp => ?_, p, hp, by linarith⟩
    rcases lo with lo | ⟨lo, t⟩
    · have := lo p hp; linarith
    · have := E.planar_long hS t hp; linarith

/-- **C120.** For an edge of at most a quarter circle and a point whose computed distance is at most 60 degrees the error is at most `2^-44`
(the first half, for every point). -/
theorem c120_short {fl : ℝ → ℝ} (h : Rounding fl) (hm : Monotone fl) (h0 : fl 0 = 0) {x a b X A B : Vec ℝ} {lx la lb S : ℝ} (m : ℝ)
    (hX : UnitV X) (hA : UnitV A) (hB : UnitV B) (lx0 : 0 < lx) (la0 : 0 < la) (lb0 : 0 < lb) (ex : x = smul lx X) (ea : a = smul la A) (eb : b = smul lb B)
    (hx : |dot x x - 1| ≤ 1 / 2 ^ 49) (ha : |dot a a - 1| ≤ 1 / 2 ^ 49) (hb : |dot b b - 1| ≤ 1 / 2 ^ 49) (hS : 1 / 2 ^ 20 ≤ S) (hAB : S ^ 2 + dot A B ^ 2 = 1)
    (hk : 0 ≤ dot A B) :
    (∀ p, OnEdge A B p → Real.sqrt (updateMinDistance fl Real.sqrt x a b m true).1 ≤ Real.sqrt (dist2 X p) + 1 / 2 ^ 44) ∧
      ((updateMinDistance fl Real.sqrt x a b m true).1 ≤ 1 →
        ∃ p, OnEdge A B p ∧ Real.sqrt (dist2 X p) ≤ Real.sqrt (updateMinDistance fl Real.sqrt x a b m true).1 + 1 / 2 ^ 44) := by
  have k49 : (1 : ℝ) / 2 ^ 49 = 16 * eps53 := by unfold eps53; norm_num
  have k44 : (1 : ℝ) / 2 ^ 44 = 512 * eps53 := by unfold eps53; norm_num
  rw [k49] at hx ha hb
  rw [k44]
  have e0 := eps53_pos
  have e1 := eps53_le
  have S0 : 0 < S := lt_of_lt_of_le (by positivity) hS
  obtain ⟨α, β, P, q, η, s, E⟩ := edgeGeo_exists hX hA hB S0 hAB
  obtain ⟨-, u2, -⟩ := update_cases h hm h0 m E lx0 la0 lb0 ex ea eb hx ha hb (hS20 hS)
  obtain ⟨k0, k1⟩ := E.not_anti
  have J3 : 216 * eps53 * ((1 - dot A B) / S) ≤ 216 * eps53 := by
    have : (1 - dot A B) / S ≤ 1 := by
      rw [div_le_one S0]
      refine le_of_sq_le_sq ?_ S0.le
      have := mul_nonneg hk (by linarith : 0 ≤ 1 - dot A B)
      linarith [show dot A B * (1 - dot A B) = dot A B - dot A B ^ 2 by ring, show (1 - dot A B) ^ 2 = 1 - 2 * dot A B + dot A B ^ 2 by ring]
    have := mul_le_mul_of_nonneg_left this (by linarith : 0 ≤ 216 * eps53)
    linarith
  rcases u2 with ⟨v, vP, vq⟩ | ⟨⟨p, hp, up⟩, lo⟩
  · have v' := abs_le.1 v
    refine ⟨fun p hp => by have := E.dist_circle hp; linarith, fun h1 => ?_⟩
    have r1 : Real.sqrt (updateMinDistance fl Real.sqrt x a b m true).1 ≤ 1 := Real.sqrt_le_one.2 h1
    have R0 := Real.sqrt_nonneg (2 - 2 * s)
    have R2 := Real.sq_sqrt (by linarith [E.s1] : 0 ≤ 2 - 2 * s)
    have R3 := pow_le_pow_left₀ R0 (by linarith : Real.sqrt (2 - 2 * s) ≤ 1001 / 1000) 2
    have s4 : 1 / 4 ≤ s := by linarith
    obtain ⟨p, hp, -, i2⟩ := E.inside (mul_nonneg (by norm_num) e0.le) vP vq (le_trans (by unfold eps53; norm_num) hS)
    have := i2 (by
      have k : 12 * (110 * eps53) ≤ 1 / 4 * (1 / 2 ^ 20) := by unfold eps53; norm_num
      exact k.trans (mul_le_mul s4 hS (by positivity) E.s0)) (by linarith)
    exact ⟨p, hp, by linarith⟩
  · refine ⟨fun p hp => ?_, fun _ => ⟨p, hp, by linarith⟩⟩
    rcases lo with lo | ⟨lo, t⟩
    · have := lo p hp; linarith
    · have := E.planar_long hS t hp; linarith

/-- **C120.** For edges from about `2^-41` (a few micrometres on the earth) to 90 degrees, and points whose computed distance is at most 60 degrees, the error
is at most `2^-44`. -/
theorem c120_fine {fl : ℝ → ℝ} (h : Rounding fl) (hm : Monotone fl) (h0 : fl 0 = 0) {x a b X A B : Vec ℝ} {lx la lb S : ℝ} (m : ℝ)
    (hX : UnitV X) (hA : UnitV A) (hB : UnitV B) (lx0 : 0 < lx) (la0 : 0 < la) (lb0 : 0 < lb) (ex : x = smul lx X) (ea : a = smul la A) (eb : b = smul lb B)
    (hx : |dot x x - 1| ≤ 1 / 2 ^ 49) (ha : |dot a a - 1| ≤ 1 / 2 ^ 49) (hb : |dot b b - 1| ≤ 1 / 2 ^ 49) (hS1 : 1 / 2 ^ 41 ≤ S) (hAB : S ^ 2 + dot A B ^ 2 = 1)
    (hk : 0 ≤ dot A B) (h1 : (updateMinDistance fl Real.sqrt x a b m true).1 ≤ 1) :
    (∀ p, OnEdge A B p → Real.sqrt (updateMinDistance fl Real.sqrt x a b m true).1 ≤ Real.sqrt (dist2 X p) + 1 / 2 ^ 44) ∧
      ∃ p, OnEdge A B p ∧ Real.sqrt (dist2 X p) ≤ Real.sqrt (updateMinDistance fl Real.sqrt x a b m true).1 + 1 / 2 ^ 44 := by
  have hS : 1 / 2 ^ 42 ≤ S := le_trans (by norm_num) hS1
  have k49 : (1 : ℝ) / 2 ^ 49 = 16 * eps53 := by unfold eps53; norm_num
  have k44 : (1 : ℝ) / 2 ^ 44 = 512 * eps53 := by unfold eps53; norm_num
  rw [k49] at hx ha hb
  rw [k44]
  have e0 := eps53_pos
  have e1 := eps53_le
  have S0 : 0 < S := lt_of_lt_of_le (by positivity) hS
  obtain ⟨α, β, P, q, η, s, E⟩ := edgeGeo_exists hX hA hB S0 hAB
  obtain ⟨-, u2, -⟩ := update_cases h hm h0 m E lx0 la0 lb0 ex ea eb hx ha hb hS
  have r1 : Real.sqrt (updateMinDistance fl Real.sqrt x a b m true).1 ≤ 1 := Real.sqrt_le_one.2 h1
  have R0 := Real.sqrt_nonneg (2 - 2 * s)
  have R2 := Real.sq_sqrt (by linarith [E.s1] : 0 ≤ 2 - 2 * s)
  have s49 : Real.sqrt (2 - 2 * s) ≤ 1001 / 1000 → 49 / 100 ≤ s := by
    intro hR
    have := pow_le_pow_left₀ R0 hR 2
    linarith
  rcases u2 with ⟨v, vP, vq⟩ | ⟨⟨r, hr, up⟩, lo⟩
  · have v' := abs_le.1 v
    refine ⟨fun p hp => by have := E.dist_circle hp; linarith, ?_⟩
    obtain ⟨p, hp, -, i2⟩ := E.inside (mul_nonneg (by norm_num) e0.le) vP vq (le_trans (by unfold eps53; norm_num) hS)
    have s4 := s49 (by linarith)
    have := i2 (by
      have k : 12 * (110 * eps53) ≤ 49 / 100 * (1 / 2 ^ 41) := by unfold eps53; norm_num
      exact k.trans (mul_le_mul s4 hS1 (by positivity) E.s0)) (by linarith)
    exact ⟨p, hp, by linarith⟩
  · refine ⟨fun p hp => ?_, r, hr, by linarith⟩
    rcases lo with lo | ⟨lo, t⟩
    · have := lo p hp; linarith
    · have s4 := s49 (by have := E.dist_circle hr; linarith)
      rcases abs_choice (β - α) with hc | hc <;> rw [hc] at t
      · have := E.planar_fine hS hk s4 t hp
        linarith
      · have := E.swap.planar_fine hS (by rwa [dot_comm]) s4 (by rw [dot_comm B A]; linarith) (onEdge_swap hp)
        rw [min_comm] at this
        linarith

/-- Twice the arc sine of half a chord is well conditioned up to 60 degrees. -/
theorem arcsin_lip {u w : ℝ} (w0 : 0 ≤ w) (h : w ≤ u) (u1 : u ≤ 11 / 10) : 2 * Real.arcsin (u / 2) - 2 * Real.arcsin (w / 2) ≤ 6 / 5 * (u - w) := by
  have y0 : 0 ≤ Real.arcsin (w / 2) := Real.arcsin_nonneg.2 (by linarith)
  have x1 := Real.arcsin_le_pi_div_two (u / 2)
  have sx := Real.sin_arcsin (by linarith : -1 ≤ u / 2) (by linarith)
  have sy := Real.sin_arcsin (by linarith : -1 ≤ w / 2) (by linarith)
  have cx := Real.cos_arcsin (u / 2)
  have yx := Real.monotone_arcsin (by linarith : w / 2 ≤ u / 2)
  rcases yx.eq_or_lt with e | lt
  · rw [e]; linarith
  · obtain ⟨c, ⟨c1, c2⟩, hc⟩ := exists_deriv_eq_slope Real.sin lt Real.continuous_sin.continuousOn Real.differentiable_sin.differentiableOn
    rw [Real.deriv_sin, sx, sy, eq_div_iff (by linarith)] at hc
    have cc : 5 / 6 ≤ Real.cos c := by
      have m := Real.cos_le_cos_of_nonneg_of_le_pi (by linarith) (by linarith [Real.pi_pos]) c2.le
      rw [cx] at m
      refine le_trans (Real.le_sqrt_of_sq_le ?_) m
      have := pow_le_pow_left₀ (by linarith : 0 ≤ u / 2) (by linarith : u / 2 ≤ 11 / 20) 2
      linarith
    have := mul_le_mul_of_nonneg_right cc (by linarith : 0 ≤ Real.arcsin (u / 2) - Real.arcsin (w / 2))
    linarith

/-- An angle from its chord. -/
theorem angle_chord {X p : Vec ℝ} (hX : UnitV X) (hp : UnitV p) : 2 * Real.arcsin (Real.sqrt (dist2 X p) / 2) = Real.arccos (dot X p) := by
  rw [dist2_unit hX hp]
  obtain ⟨d1, d2⟩ := dot_le_one hX hp
  have r0 := Real.sqrt_nonneg (2 - 2 * dot X p)
  have r2 := Real.sq_sqrt (by linarith : 0 ≤ 2 - 2 * dot X p)
  have r1 : Real.sqrt (2 - 2 * dot X p) ≤ 2 := Real.sqrt_le_iff.2 ⟨by norm_num, by linarith⟩
  generalize Real.sqrt (2 - 2 * dot X p) = r at *
  have s := Real.sin_arcsin (by linarith : -1 ≤ r / 2) (by linarith)
  have c : Real.cos (2 * Real.arcsin (r / 2)) = dot X p := by
    rw [Real.cos_two_mul, Real.cos_sq', s]
    linarith [show (r / 2) ^ 2 = r ^ 2 / 4 by ring]
  rw [← c, Real.arccos_cos (by have := Real.arcsin_nonneg.2 (by linarith : 0 ≤ r / 2); linarith) (by linarith [Real.arcsin_le_pi_div_two (r / 2)])]

/-- **C120.** `distance_from_segment` with rounding, for edges from about `2^-41` to 90 degrees and distances up to 60 degrees: the result is the least angle
between the point and a point of the edge, up to `2^-43`. -/
theorem c120_segment {fl asin : ℝ → ℝ} (h : Rounding fl) (hm : Monotone fl) (h0 : fl 0 = 0) (hasin : NearRel asin Real.arcsin) {x a b X A B : Vec ℝ} {lx la lb S : ℝ}
    (hX : UnitV X) (hA : UnitV A) (hB : UnitV B) (lx0 : 0 < lx) (la0 : 0 < la) (lb0 : 0 < lb) (ex : x = smul lx X) (ea : a = smul la A) (eb : b = smul lb B)
    (hx : |dot x x - 1| ≤ 1 / 2 ^ 49) (ha : |dot a a - 1| ≤ 1 / 2 ^ 49) (hb : |dot b b - 1| ≤ 1 / 2 ^ 49) (hS : 1 / 2 ^ 41 ≤ S) (hAB : S ^ 2 + dot A B ^ 2 = 1)
    (hk : 0 ≤ dot A B) (h1 : (updateMinDistance fl Real.sqrt x a b 0 true).1 ≤ 1) :
    (∀ p, OnEdge A B p → distanceFromSegment fl Real.sqrt asin x a b ≤ Real.arccos (dot X p) + 1 / 2 ^ 43) ∧
      ∃ p, OnEdge A B p ∧ Real.arccos (dot X p) ≤ distanceFromSegment fl Real.sqrt asin x a b + 1 / 2 ^ 43 := by
  obtain ⟨lo, p, hp, up⟩ := c120_fine h hm h0 0 hX hA hB lx0 la0 lb0 ex ea eb hx ha hb hS hAB hk h1
  have k44 : (1 : ℝ) / 2 ^ 44 = 512 * eps53 := by unfold eps53; norm_num
  have k43 : (1 : ℝ) / 2 ^ 43 = 1024 * eps53 := by unfold eps53; norm_num
  rw [k44] at lo up
  rw [k43]
  have e0 := eps53_pos
  have e1 := eps53_le
  have t1 := tau600_le
  have t2 := tau200_le
  unfold distanceFromSegment ChordAngle.toRad
  have r1 : Real.sqrt (updateMinDistance fl Real.sqrt x a b 0 true).1 ≤ 1 := Real.sqrt_le_one.2 h1
  have r0 := Real.sqrt_nonneg (updateMinDistance fl Real.sqrt x a b 0 true).1
  generalize Real.sqrt (updateMinDistance fl Real.sqrt x a b 0 true).1 = R at *
  -- the conversion to an angle
  have f1 := fl_err6 h (x := R) (by rw [abs_of_nonneg r0]; linarith)
  rw [abs_of_nonneg r0] at f1
  have f1' := abs_le.1 f1
  have R1 := mul_le_mul_of_nonneg_right r1 e0.le
  have f2 := fl_err6 h (x := 1 / 2 * fl R) (by rw [abs_le]; constructor <;> linarith)
  have b2 : |1 / 2 * fl R| ≤ 51 / 100 := by rw [abs_le]; constructor <;> linarith
  have b2' := mul_le_mul_of_nonneg_right b2 e0.le
  have f2' := abs_le.1 f2
  generalize fl (1 / 2 * fl R) = z at *
  have z1 : |z - R / 2| ≤ 11 / 10 * eps53 := by rw [abs_le]; constructor <;> linarith
  have z1' := abs_le.1 z1
  have az : |Real.arcsin z - Real.arcsin (R / 2)| ≤ 2 * eps53 := by
    have mono := @Real.monotone_arcsin
    rcases le_total 0 z with z0 | z0
    · rcases le_total (R / 2) z with hz | hz
      · have := arcsin_lip (w := R) (u := 2 * z) r0 (by linarith) (by linarith)
        rw [mul_div_cancel_left₀ _ (by norm_num : (2 : ℝ) ≠ 0)] at this
        have := mono hz
        rw [abs_le]; constructor <;> linarith
      · have := arcsin_lip (w := 2 * z) (u := R) (by linarith) (by linarith) (by linarith)
        rw [mul_div_cancel_left₀ _ (by norm_num : (2 : ℝ) ≠ 0)] at this
        have := mono hz
        rw [abs_le]; constructor <;> linarith
    · -- a tiny negative value
      have a1 := arcsin_lip (w := 0) (u := R) le_rfl r0 (by linarith)
      have a2 := arcsin_lip (w := 0) (u := 2 * (-z)) le_rfl (by linarith) (by linarith)
      rw [mul_div_cancel_left₀ _ (by norm_num : (2 : ℝ) ≠ 0), Real.arcsin_neg] at a2
      rw [zero_div, Real.arcsin_zero] at a1 a2
      have := Real.arcsin_nonneg.2 (by linarith : 0 ≤ R / 2)
      have := Real.arcsin_nonpos.2 z0
      rw [abs_le]; constructor <;> linarith
  have aR : |Real.arcsin (R / 2)| ≤ 61 / 100 := by
    have a1 := arcsin_lip (w := 0) (u := R) le_rfl r0 (by linarith)
    rw [zero_div, Real.arcsin_zero] at a1
    rw [abs_of_nonneg (Real.arcsin_nonneg.2 (by linarith : 0 ≤ R / 2))]
    linarith
  have az' := abs_le.1 az
  have aR' := abs_le.1 aR
  have bz : |Real.arcsin z| ≤ 62 / 100 := by rw [abs_le]; constructor <;> linarith
  have f3 := lib_err h hasin (x := z) (by linarith)
  have bze := mul_le_mul_of_nonneg_left bz (by linarith : 0 ≤ 4 * eps53)
  have f3' := abs_le.1 f3
  generalize fl (asin z) = y at *
  have b4 : |2 * y| ≤ 13 / 10 := by rw [abs_le]; constructor <;> linarith
  have f4 := fl_err6 h (x := 2 * y) (by linarith)
  have b4' := mul_le_mul_of_nonneg_right b4 e0.le
  have f4' := abs_le.1 f4
  have near : |fl (2 * y) - 2 * Real.arcsin (R / 2)| ≤ 12 * eps53 := by rw [abs_le]; constructor <;> linarith
  have near' := abs_le.1 near
  refine ⟨fun p hp => ?_, p, hp, ?_⟩
  · rw [← angle_chord hX hp.1]
    have l := lo p hp
    have d0 := Real.sqrt_nonneg (dist2 X p)
    generalize Real.sqrt (dist2 X p) = d at *
    rcases le_total R d with hd | hd
    · have := @Real.monotone_arcsin (R / 2) (d / 2) (by linarith)
      linarith
    · have := arcsin_lip d0 hd (by linarith)
      linarith
  · rw [← angle_chord hX hp.1]
    have d0 := Real.sqrt_nonneg (dist2 X p)
    generalize Real.sqrt (dist2 X p) = d at *
    rcases le_total R d with hd | hd
    · have := arcsin_lip r0 hd (by linarith)
      linarith
    · have := @Real.monotone_arcsin (d / 2) (R / 2) (by linarith)
      linarith

/-- The cases of `update_min_distance` when it updates only to a smaller value. -/
theorem update_false (fl sqrt : ℝ → ℝ) (x a b : Vec ℝ) (m : ℝ) :
    (updateMinDistance fl sqrt x a b m false = ((updateMinDistance fl sqrt x a b m true).1, true) ∧ (updateMinDistance fl sqrt x a b m true).1 < m) ∨
    (updateMinDistance fl sqrt x a b m false =
        (if m ≤ min (Vec.norm2 fl (Vec.sub fl x a)) (Vec.norm2 fl (Vec.sub fl x b)) then (m, false)
          else (min (Vec.norm2 fl (Vec.sub fl x a)) (Vec.norm2 fl (Vec.sub fl x b)), true)) ∧
      ((updateMinDistance fl sqrt x a b m true).1 = min (Vec.norm2 fl (Vec.sub fl x a)) (Vec.norm2 fl (Vec.sub fl x b)) ∨
        m ≤ (updateMinDistance fl sqrt x a b m true).1 ∨
        fl (Vec.norm2 fl (Vec.pointCross fl sqrt a b) * m) < fl (Vec.dot fl x (Vec.pointCross fl sqrt a b) * Vec.dot fl x (Vec.pointCross fl sqrt a b)))) := by
  rw [update_true]
  unfold updateMinDistance interiorDist
  simp only [ge_iff_le, gt_iff_lt, Bool.not_false, Bool.true_and, decide_eq_true_eq]
  by_cases h1 : fl (Vec.norm2 fl (Vec.sub fl a b) + maxError fl (Vec.norm2 fl (Vec.sub fl x a)) (Vec.norm2 fl (Vec.sub fl x b)) (Vec.norm2 fl (Vec.sub fl a b))) ≤
          |fl (Vec.norm2 fl (Vec.sub fl x a) - Vec.norm2 fl (Vec.sub fl x b))|
  · rw [if_pos h1, if_pos (Or.inl h1)]
    exact Or.inr ⟨rfl, Or.inl rfl⟩
  · rw [if_neg h1]
    by_cases h2 : fl (Vec.norm2 fl (Vec.pointCross fl sqrt a b) * m) < fl (Vec.dot fl x (Vec.pointCross fl sqrt a b) * Vec.dot fl x (Vec.pointCross fl sqrt a b))
    · rw [if_pos h2]
      exact Or.inr ⟨rfl, Or.inr (Or.inr h2)⟩
    · rw [if_neg h2]
      by_cases h3 : 0 ≤ Vec.dot fl (Vec.sub fl a x) (Vec.cross fl (Vec.pointCross fl sqrt a b) x) ∨
            Vec.dot fl (Vec.sub fl b x) (Vec.cross fl (Vec.pointCross fl sqrt a b) x) ≤ 0
      · rw [if_pos h3, if_pos (Or.inr h3)]
        exact Or.inr ⟨rfl, Or.inl rfl⟩
      · rw [if_neg h3, if_neg (not_or.2 ⟨h1, h3⟩)]
        generalize fl (fl (fl (Vec.dot fl x (Vec.pointCross fl sqrt a b) * Vec.dot fl x (Vec.pointCross fl sqrt a b)) / Vec.norm2 fl (Vec.pointCross fl sqrt a b)) + _) = V
        by_cases h4 : m ≤ V
        · rw [if_pos h4]
          exact Or.inr ⟨rfl, Or.inr (Or.inl h4)⟩
        · rw [if_neg h4]
          exact Or.inl ⟨rfl, not_le.1 h4⟩

/-- **C120.** `update_min_distance` with rounding when it updates only to a smaller value: if it does not update, the given value is not much above
the distance from any point of the edge; if it does, the result is smaller than the given value and is the distance from the edge up to `2^-43 / S`. -/
theorem c120_keep {fl : ℝ → ℝ} (h : Rounding fl) (hm : Monotone fl) (h0 : fl 0 = 0) {x a b X A B : Vec ℝ} {lx la lb S : ℝ} (m : ℝ)
    (hX : UnitV X) (hA : UnitV A) (hB : UnitV B) (lx0 : 0 < lx) (la0 : 0 < la) (lb0 : 0 < lb) (ex : x = smul lx X) (ea : a = smul la A) (eb : b = smul lb B)
    (hx : |dot x x - 1| ≤ 1 / 2 ^ 49) (ha : |dot a a - 1| ≤ 1 / 2 ^ 49) (hb : |dot b b - 1| ≤ 1 / 2 ^ 49) (hS : 1 / 2 ^ 20 ≤ S) (hAB : S ^ 2 + dot A B ^ 2 = 1) :
    (∀ p, OnEdge A B p → Real.sqrt (updateMinDistance fl Real.sqrt x a b m false).1 ≤ Real.sqrt (dist2 X p) + 1 / 2 ^ 43 / S) ∧
      ((updateMinDistance fl Real.sqrt x a b m false).2 = false → (updateMinDistance fl Real.sqrt x a b m false).1 = m) ∧
      ((updateMinDistance fl Real.sqrt x a b m false).2 = true → (updateMinDistance fl Real.sqrt x a b m false).1 < m ∧
        ∃ p, OnEdge A B p ∧ Real.sqrt (dist2 X p) ≤ Real.sqrt (updateMinDistance fl Real.sqrt x a b m false).1 + 1 / 2 ^ 43 / S) := by
  obtain ⟨-, lo, up⟩ := c120_updateMin h hm h0 m hX hA hB lx0 la0 lb0 ex ea eb hx ha hb hS hAB
  have k49 : (1 : ℝ) / 2 ^ 49 = 16 * eps53 := by unfold eps53; norm_num
  have k43 : (1 : ℝ) / 2 ^ 43 = 1024 * eps53 := by unfold eps53; norm_num
  rw [k49] at hx ha hb
  rw [k43] at lo up ⊢
  have e0 := eps53_pos
  have S0 : 0 < S := lt_of_lt_of_le (by positivity) hS
  have S1 : S ≤ 1 := le_of_sq_le_sq (by have := sq_nonneg (dot A B); linarith) zero_le_one
  have eS : 1024 * eps53 ≤ 1024 * eps53 / S := by
    rw [le_div_iff₀ S0]
    have := mul_le_mul_of_nonneg_left S1 (by linarith : 0 ≤ 1024 * eps53)
    linarith
  obtain ⟨α, β, P, q, η, s, E⟩ := edgeGeo_exists hX hA hB S0 hAB
  obtain ⟨-, -, ⟨p, hp, hv⟩, early⟩ := update_cases h hm h0 m E lx0 la0 lb0 ex ea eb hx ha hb (hS20 hS)
  rcases update_false fl Real.sqrt x a b m with ⟨e, lt⟩ | ⟨e, c⟩
  · rw [e]
    exact ⟨lo, fun hc => absurd hc (by simp), fun _ => ⟨lt, up⟩⟩
  · have low : ∀ r, r ≤ m → r ≤ min (Vec.norm2 fl (Vec.sub fl x a)) (Vec.norm2 fl (Vec.sub fl x b)) → ∀ p, OnEdge A B p →
        Real.sqrt r ≤ Real.sqrt (dist2 X p) + 1024 * eps53 / S := by
      intro r r1 r2 p hp
      have a1 := Real.sqrt_le_sqrt r1
      rcases c with c | c | c
      · have := lo p hp
        rw [c] at this
        exact (Real.sqrt_le_sqrt r2).trans this
      · exact (a1.trans (Real.sqrt_le_sqrt c)).trans (lo p hp)
      · have := early c
        have := E.dist_circle hp
        linarith
    rw [e]
    split_ifs with h5
    · exact ⟨low m le_rfl h5, fun _ => rfl, fun hc => absurd hc (by simp)⟩
    · exact ⟨low _ (not_le.1 h5).le le_rfl, fun hc => absurd hc (by simp), fun _ => ⟨not_le.1 h5, p, hp, by linarith⟩⟩

example : (∀ p, OnEdge (⟨1, 0, 0⟩ : Vec ℝ) ⟨3 / 5, 4 / 5, 0⟩ p →
      Real.sqrt (updateMinDistance rne Real.sqrt ⟨0, 0, 1⟩ ⟨1, 0, 0⟩ ⟨3 / 5, 4 / 5, 0⟩ 1 false).1 ≤ Real.sqrt (dist2 ⟨0, 0, 1⟩ p) + 1 / 2 ^ 43 / (4 / 5)) ∧
    (∀ p, OnEdge (⟨1, 0, 0⟩ : Vec ℝ) ⟨3 / 5, 4 / 5, 0⟩ p →
      Real.sqrt (updateMinDistance rne Real.sqrt ⟨3 / 5, 0, 4 / 5⟩ ⟨1, 0, 0⟩ ⟨3 / 5, 4 / 5, 0⟩ 1 true).1 ≤ Real.sqrt (dist2 ⟨3 / 5, 0, 4 / 5⟩ p) + 1 / 2 ^ 44) := by
  have one : ∀ v : Vec ℝ, v = smul 1 v := fun v => by simp [smul]
  refine ⟨(c120_keep rounding_rne rne_mono rne_zero 1 (X := ⟨0, 0, 1⟩) (A := ⟨1, 0, 0⟩) (B := ⟨3 / 5, 4 / 5, 0⟩) (S := 4 / 5) ?_ ?_ ?_ one_pos one_pos one_pos (one _) (one _)
      (one _) ?_ ?_ ?_ ?_ ?_).1,
    (c120_short rounding_rne rne_mono rne_zero 1 (X := ⟨3 / 5, 0, 4 / 5⟩) (A := ⟨1, 0, 0⟩) (B := ⟨3 / 5, 4 / 5, 0⟩) (S := 4 / 5) ?_ ?_ ?_ one_pos one_pos one_pos (one _) (one _)
      (one _) ?_ ?_ ?_ ?_ ?_ ?_).1⟩ <;> norm_num [UnitV, dot]

example : ∃ p, OnEdge (⟨1, 0, 0⟩ : Vec ℝ) ⟨3 / 5, 4 / 5, 0⟩ p ∧
    Real.arccos (dot ⟨3 / 5, 0, 4 / 5⟩ p) ≤ distanceFromSegment rne Real.sqrt Real.arcsin ⟨3 / 5, 0, 4 / 5⟩ ⟨1, 0, 0⟩ ⟨3 / 5, 4 / 5, 0⟩ + 1 / 2 ^ 43 := by
  have one : ∀ v : Vec ℝ, v = smul 1 v := fun v => by simp [smul]
  have uX : UnitV (⟨3 / 5, 0, 4 / 5⟩ : Vec ℝ) := by norm_num [UnitV, dot]
  have uA : UnitV (⟨1, 0, 0⟩ : Vec ℝ) := by norm_num [UnitV, dot]
  have uB : UnitV (⟨3 / 5, 4 / 5, 0⟩ : Vec ℝ) := by norm_num [UnitV, dot]
  have n : ∀ {v : Vec ℝ}, UnitV v → |dot v v - 1| ≤ 1 / 2 ^ 49 := fun {v} hv => by rw [show dot v v = 1 from hv]; norm_num
  have hAB : (4 / 5 : ℝ) ^ 2 + dot (⟨1, 0, 0⟩ : Vec ℝ) ⟨3 / 5, 4 / 5, 0⟩ ^ 2 = 1 := by norm_num [dot]
  have hk : 0 ≤ dot (⟨1, 0, 0⟩ : Vec ℝ) ⟨3 / 5, 4 / 5, 0⟩ := by norm_num [dot]
  have lo := (c120_short rounding_rne rne_mono rne_zero 0 uX uA uB one_pos one_pos one_pos (one _) (one _) (one _) (n uX) (n uA) (n uB) (by norm_num) hAB hk).1 _ (onEdge_left uA)
  have d : Real.sqrt (dist2 (⟨3 / 5, 0, 4 / 5⟩ : Vec ℝ) ⟨1, 0, 0⟩) ≤ 9 / 10 := Real.sqrt_le_iff.2 ⟨by norm_num, by norm_num [dist2, dot, diff]⟩
  have e : (1 : ℝ) / 2 ^ 44 ≤ 1 / 10 := by norm_num
  exact (c120_segment rounding_rne rne_mono rne_zero (nearRel_self _) uX uA uB one_pos one_pos one_pos (one _) (one _) (one _) (n uX) (n uA) (n uB)
    (S := 4 / 5) (by norm_num) hAB hk (Real.sqrt_le_one.1 (by linarith))).2

end Verif
