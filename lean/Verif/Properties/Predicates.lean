import Verif.Proofs.DetError

/-!
# Orientation predicates: C62

`sign`, `triage_sign`, `stable_sign`, `robust_sign` and `ordered_ccw`. The results `Clockwise` and `CounterClockwise` are proved right
for every rounding with the error bound of IEEE 754, so that two calls can never contradict each other. The laws of the documentation
that need the last stage (`exact_sign`, which is not implemented) fail, and this is proved too.
-/

namespace Verif
open Spec Verif.Predicates

namespace Spec
variable {K : Type} [Field K] [LinearOrder K]

/-- The signed volume of three vectors: positive when they are counterclockwise. -/
def det (a b c : Vec K) : K := dot (cross a b) c

/-- A vector no longer than a unit vector with rounding errors. -/
def UnitLe (p : Vec K) : Prop := dot p p ≤ 1 + 1 / 2 ^ 40

/-- The difference of two vectors. -/
def diff (p q : Vec K) : Vec K := ⟨p.x - q.x, p.y - q.y, p.z - q.z⟩

/-- Two points farther apart than `2^-200`. -/
def Apart (p q : Vec K) : Prop := 1 / 2 ^ 400 ≤ dot (diff p q) (diff p q)

end Spec

variable {K : Type} [Field K] [LinearOrder K] [IsStrictOrderedRing K]

/-! ## Sizes -/

theorem fl_rel {fl : K → K} (h : Rounding fl) {x : K} (h1 : 1 / 2 ^ 900 ≤ |x|) (h2 : |x| ≤ 2 ^ 40) : |fl x - x| ≤ |x| / 2 ^ 52 := by
  have := h x (h2.trans (pow_le_pow_right₀ (by norm_num) (by norm_num)))
  have h3 : (1 : K) / 2 ^ 1075 ≤ |x| / 2 ^ 53 := by
    have e : (1 : K) / 2 ^ 1075 ≤ 1 / 2 ^ 900 / 2 ^ 53 := by
      rw [div_div, ← pow_add]
      exact one_div_le_one_div_of_le (by positivity) (pow_le_pow_right₀ (by norm_num) (by norm_num))
    exact e.trans (div_le_div_of_nonneg_right h1 (by positivity))
  have e2 : |x| / 2 ^ 52 = |x| / 2 ^ 53 + |x| / 2 ^ 53 := by
    rw [show (2 : K) ^ 53 = 2 * 2 ^ 52 by norm_num]; field_simp; norm_num
  linarith

theorem pow900 : (1 : K) / 2 ^ 900 ≤ 1 / 2 ^ 60 :=
  one_div_le_one_div_of_le (by positivity) (pow_le_pow_right₀ (by norm_num) (by norm_num))

theorem pow1075 : (1 : K) / 2 ^ 1075 ≤ 1 / 2 ^ 100 :=
  one_div_le_one_div_of_le (by positivity) (pow_le_pow_right₀ (by norm_num) (by norm_num))

theorem fl_bounds {fl : K → K} (h : Rounding fl) {x lo hi : K} (hlo : 1 / 2 ^ 60 ≤ lo) (h1 : lo ≤ x) (h2 : x ≤ hi) (hhi : hi ≤ 2 ^ 40) :
    lo - lo / 2 ^ 52 ≤ fl x ∧ fl x ≤ hi + hi / 2 ^ 52 := by
  have h0 : 0 ≤ x := le_trans (by positivity) (hlo.trans h1)
  have e := fl_rel h (x := x) (by rw [abs_of_nonneg h0]; exact pow900.trans (hlo.trans h1)) (by rw [abs_of_nonneg h0]; exact h2.trans hhi)
  rw [abs_of_nonneg h0, abs_le] at e
  constructor
  · have : lo - lo / 2 ^ 52 ≤ x - x / 2 ^ 52 := by norm_num at *; linarith
    linarith
  · have : x + x / 2 ^ 52 ≤ hi + hi / 2 ^ 52 := by norm_num at *; linarith
    linarith

theorem dblEps_bounds {fl : K → K} (h : Rounding fl) :
    19999999999 / 10 ^ 10 / 2 ^ 53 ≤ dblEpsilon fl ∧ dblEpsilon fl ≤ 20000000001 / 10 ^ 10 / 2 ^ 53 := by
  unfold dblEpsilon
  obtain ⟨h1, h2⟩ := fl_bounds h (x := 2220446049250313 / 10 ^ 31) (by norm_num) le_rfl le_rfl (by norm_num)
  norm_num at *
  constructor <;> linarith


theorem maxDet_bounds {fl : K → K} (h : Rounding fl) :
    365479 / 100000 / 2 ^ 53 ≤ maxDeterminantError fl ∧ maxDeterminantError fl ≤ 365481 / 100000 / 2 ^ 53 := by
  unfold maxDeterminantError
  obtain ⟨e1, e2⟩ := dblEps_bounds h
  obtain ⟨h1, h2⟩ := fl_bounds h (x := 18274 / 10000) (by norm_num) le_rfl le_rfl (by norm_num)
  have l := mul_le_mul h1 e1 (by norm_num) (by norm_num at *; linarith)
  have r := mul_le_mul h2 e2 (by norm_num at *; linarith) (by norm_num)
  obtain ⟨k1, k2⟩ := fl_bounds h (x := fl (18274 / 10000) * dblEpsilon fl) (by norm_num) l r (by norm_num)
  constructor
  · exact le_trans (by norm_num) k1
  · exact k2.trans (by norm_num)

theorem detMul_bounds {fl : K → K} (h : Rounding fl) :
    646419 / 100000 / 2 ^ 53 ≤ detErrorMultiplier fl ∧ detErrorMultiplier fl ≤ 646421 / 100000 / 2 ^ 53 := by
  unfold detErrorMultiplier
  obtain ⟨e1, e2⟩ := dblEps_bounds h
  obtain ⟨h1, h2⟩ := fl_bounds h (x := 32321 / 10000) (by norm_num) le_rfl le_rfl (by norm_num)
  have l := mul_le_mul h1 e1 (by norm_num) (by norm_num at *; linarith)
  have r := mul_le_mul h2 e2 (by norm_num at *; linarith) (by norm_num)
  obtain ⟨k1, k2⟩ := fl_bounds h (x := fl (32321 / 10000) * dblEpsilon fl) (by norm_num) l r (by norm_num)
  constructor
  · exact le_trans (by norm_num) k1
  · exact k2.trans (by norm_num)

theorem dot_self_nonneg (p : Vec K) : 0 ≤ dot p p := by
  unfold dot; nlinarith [mul_self_nonneg p.x, mul_self_nonneg p.y, mul_self_nonneg p.z]

theorem unit_comp {p : Vec K} (h : UnitLe p) : |p.x| ≤ 2 ∧ |p.y| ≤ 2 ∧ |p.z| ≤ 2 :=
  abs_le_of_dot (by norm_num) (h.trans (by norm_num))

omit [IsStrictOrderedRing K] in
theorem ofDet_ccw {d e : K} (h : ofDet d e = .counterClockwise) : e < d := by
  unfold ofDet at h
  by_contra hn
  rw [if_neg hn] at h
  split at h <;> cases h

omit [IsStrictOrderedRing K] in
theorem ofDet_cw {d e : K} (h : ofDet d e = .clockwise) : d < -e := by
  unfold ofDet at h
  split at h
  · cases h
  · split at h
    · assumption
    · cases h

/-! ## `triage_sign` -/

theorem triage_near {fl : K → K} (h : Rounding fl) {a b c : Vec K} (ha : UnitLe a) (hb : UnitLe b) (hc : UnitLe c) :
    ∃ M0, Vec.dot fl (Vec.cross fl a b) c = fl M0 ∧ |M0| ≤ 128 ∧
      |M0 - det a b c| ≤ 365472 / 100000 / 2 ^ 53 + 1 / 2 ^ 54 * |det a b c| := by
  obtain ⟨ax, ay, az⟩ := unit_comp ha
  obtain ⟨bx, b_y, bz⟩ := unit_comp hb
  obtain ⟨M0, h1, h2, h3⟩ := det_near h (p := a) (q := b) (c := c) (R := 1 + 1 / 2 ^ 40) ⟨by linarith, by linarith, by linarith⟩
    ⟨by linarith, by linarith, by linarith⟩ hc (by norm_num) (by norm_num)
    (mul_le_mul ha hb (dot_self_nonneg _) (by norm_num))
  refine ⟨M0, h1, h2, h3.trans ?_⟩
  have := pow1075 (K := K)
  change _ + _ * |det a b c| + _ ≤ _
  generalize |det a b c| = d at *
  generalize (1 : K) / 2 ^ 1075 = t at *
  norm_num at *
  linarith

/-- **C62.** A decided `triage_sign` is right, whatever the rounding errors. -/
theorem c62_triage_sound {fl : K → K} (h : Rounding fl) {a b c : Vec K} (ha : UnitLe a) (hb : UnitLe b) (hc : UnitLe c) :
    (triageSign fl a b c = .counterClockwise → 0 < det a b c) ∧ (triageSign fl a b c = .clockwise → det a b c < 0) := by
  obtain ⟨M0, h1, h2, h3⟩ := triage_near h ha hb hc
  have h4 := h M0 (h2.trans (le_trans (by norm_num : (128 : K) ≤ 2 ^ 10) (pow_le_pow_right₀ (by norm_num) (by norm_num))))
  obtain ⟨h5, _⟩ := maxDet_bounds h
  have := pow1075 (K := K)
  unfold triageSign
  rw [h1]
  generalize maxDeterminantError fl = E at *
  generalize det a b c = D at *
  generalize (1 : K) / 2 ^ 1075 = t at *
  generalize fl M0 = M at *
  rw [abs_le] at h4 h3
  constructor
  · intro hh
    by_contra hD
    rw [not_lt] at hD
    rw [abs_of_nonpos hD] at h3
    have := ofDet_ccw hh
    rcases abs_cases M0 with ⟨e, _⟩ | ⟨e, _⟩ <;> rw [e] at h4 <;> norm_num at * <;> linarith
  · intro hh
    by_contra hD
    rw [not_lt] at hD
    rw [abs_of_nonneg hD] at h3
    have := ofDet_cw hh
    rcases abs_cases M0 with ⟨e, _⟩ | ⟨e, _⟩ <;> rw [e] at h4 <;> norm_num at * <;> linarith

/-- **C62.** `triage_sign` decides every triple whose volume exceeds `2^-50`. -/
theorem c62_triage_complete {fl : K → K} (h : Rounding fl) {a b c : Vec K} (ha : UnitLe a) (hb : UnitLe b) (hc : UnitLe c) :
    (1 / 2 ^ 50 ≤ det a b c → triageSign fl a b c = .counterClockwise) ∧ (det a b c ≤ -(1 / 2 ^ 50) → triageSign fl a b c = .clockwise) := by
  obtain ⟨M0, h1, h2, h3⟩ := triage_near h ha hb hc
  have h4 := h M0 (h2.trans (le_trans (by norm_num : (128 : K) ≤ 2 ^ 10) (pow_le_pow_right₀ (by norm_num) (by norm_num))))
  obtain ⟨h6, h5⟩ := maxDet_bounds h
  have := pow1075 (K := K)
  unfold triageSign ofDet
  rw [h1]
  generalize maxDeterminantError fl = E at *
  generalize det a b c = D at *
  generalize (1 : K) / 2 ^ 1075 = t at *
  generalize fl M0 = M at *
  rw [abs_le] at h4 h3
  constructor
  · intro hD
    rw [abs_of_nonneg (le_trans (by positivity) hD)] at h3
    have : M > E := by rcases abs_cases M0 with ⟨e, _⟩ | ⟨e, _⟩ <;> rw [e] at h4 <;> norm_num at * <;> linarith
    rw [if_pos this]
  · intro hD
    rw [abs_of_nonpos (hD.trans (by norm_num))] at h3
    have h7 : M < -E := by rcases abs_cases M0 with ⟨e, _⟩ | ⟨e, _⟩ <;> rw [e] at h4 <;> norm_num at * <;> linarith
    have h8 : ¬ M > E := by norm_num at *; linarith
    rw [if_neg h8, if_pos h7]

/-! ## `stable_sign` -/

/-- One product of the determinant with rounded factors. -/
theorem prod_back {u t x y X Y : K} (hu0 : 0 ≤ u) (hu : u ≤ 1 / 10 ^ 15) (ht0 : 0 ≤ t) (ht : t ≤ 1) (hx : |x| ≤ 4) (hy : |y| ≤ 4)
    (h1 : |X - x| ≤ 100001 / 100000 * u * |x| + 2 * t) (h2 : |Y - y| ≤ 100001 / 100000 * u * |y| + 2 * t) :
    |X * Y - x * y| ≤ 200003 / 100000 * u * |x * y| + 24 * t := by
  have e : X * Y - x * y = (X - x) * y + x * (Y - y) + (X - x) * (Y - y) := by ring
  have a1 : |(X - x) * y| ≤ 100001 / 100000 * u * |x * y| + 8 * t := by
    rw [abs_mul, abs_mul]
    have := mul_le_mul_of_nonneg_right h1 (abs_nonneg y)
    have : 2 * t * |y| ≤ 2 * t * 4 := mul_le_mul_of_nonneg_left hy (by linarith)
    linarith
  have a2 : |x * (Y - y)| ≤ 100001 / 100000 * u * |x * y| + 8 * t := by
    rw [abs_mul, abs_mul]
    have := mul_le_mul_of_nonneg_left h2 (abs_nonneg x)
    have : |x| * (2 * t) ≤ 4 * (2 * t) := mul_le_mul_of_nonneg_right hx (by linarith)
    linarith
  have a3 : |(X - x) * (Y - y)| ≤ 1 / 100000 * u * |x * y| + 8 * t := by
    rw [abs_mul, abs_mul]
    have := mul_le_mul h1 h2 (abs_nonneg _) (by positivity)
    refine this.trans ?_
    have p0 := abs_nonneg x
    have q0 := abs_nonneg y
    generalize |x| = p at *
    generalize |y| = q at *
    have k1 : 100001 / 100000 * u * p * (100001 / 100000 * u * q) ≤ 1 / 100000 * u * (p * q) := by
      have : 0 ≤ u * (p * q) := by positivity
      nlinarith
    have k2 : 100001 / 100000 * u * p * (2 * t) ≤ t := by
      have : u * p ≤ 1 / 10 ^ 15 * 4 := mul_le_mul hu hx p0 (by norm_num)
      nlinarith
    have k3 : 2 * t * (100001 / 100000 * u * q) ≤ t := by
      have : u * q ≤ 1 / 10 ^ 15 * 4 := mul_le_mul hu hy q0 (by norm_num)
      nlinarith
    have k4 : 2 * t * (2 * t) ≤ 4 * t := by nlinarith
    linarith
  rw [e]
  have := abs_add_le ((X - x) * y + x * (Y - y)) ((X - x) * (Y - y))
  have := abs_add_le ((X - x) * y) (x * (Y - y))
  linarith

theorem fl_back {fl : K → K} (h : Rounding fl) {x : K} (hx : |x| ≤ 3) :
    |x - fl x| ≤ 100001 / 100000 * (1 / 2 ^ 53) * |fl x| + 2 * (1 / 2 ^ 1075) ∧ |fl x| ≤ 4 := by
  have h1 := h x (hx.trans (le_trans (by norm_num : (3 : K) ≤ 2 ^ 2) (pow_le_pow_right₀ (by norm_num) (by norm_num))))
  have h2 := pow1075 (K := K)
  have h0 : (0 : K) ≤ 1 / 2 ^ 1075 := by positivity
  rw [abs_sub_comm] at h1
  generalize (1 : K) / 2 ^ 1075 = t at *
  have h3 := abs_of_near h1 (le_refl |fl x|)
  rw [abs_sub_comm] at h1
  have h4 := abs_of_near h1 (le_refl |x|)
  rw [abs_sub_comm] at h1
  generalize |fl x| = p at *
  generalize |x| = q at *
  generalize |x - fl x| = r at *
  norm_num at *
  constructor <;> linarith

/-- A vector with its components rounded. -/
def flVec (fl : K → K) (P : Vec K) : Vec K := ⟨fl P.x, fl P.y, fl P.z⟩

theorem rounding_small {fl : K → K} (h : Rounding fl) : ∀ x : K, |x| ≤ 256 → |fl x - x| ≤ 1 / 2 ^ 53 * |x| + 1 / 2 ^ 1075 := by
  intro x hx
  have := h x (hx.trans (le_trans (by norm_num : (256 : K) ≤ 2 ^ 10) (pow_le_pow_right₀ (by norm_num) (by norm_num))))
  rwa [div_eq_mul_inv, mul_comm, ← one_div] at this

/-- The determinant of the rounded vectors. -/
theorem det_back {fl : K → K} (h : Rounding fl) {P Q c : Vec K} (hP : dot P P ≤ 9) (hQ : dot Q Q ≤ 9) (hc : UnitLe c) :
    |det (flVec fl P) (flVec fl Q) c - det P Q c| ≤
      200003 / 100000 * (1 / 2 ^ 53) * absDet (flVec fl P) (flVec fl Q) c + 96 * (1 / 2 ^ 1075) := by
  obtain ⟨px, py, pz⟩ := abs_le_of_dot (c := P) (B := 3) (by norm_num) (hP.trans (by norm_num))
  obtain ⟨qx, qy, qz⟩ := abs_le_of_dot (c := Q) (B := 3) (by norm_num) (hQ.trans (by norm_num))
  have hcs : |c.x| + |c.y| + |c.z| ≤ 2 := by
    have := cs3 (a1 := (1 : K)) (a2 := 1) (a3 := 1) (c1 := c.x) (c2 := c.y) (c3 := c.z) (S := 2) (by norm_num)
      (by unfold UnitLe dot at hc; norm_num at *; linarith)
    rwa [abs_one, one_mul, one_mul, one_mul] at this
  have h0 : (0 : K) ≤ 1 / 2 ^ 1075 := by positivity
  have h1 : (1 : K) / 2 ^ 1075 ≤ 1 := pow1075.trans (by norm_num)
  obtain ⟨a1, a1'⟩ := fl_back h px
  obtain ⟨a2, a2'⟩ := fl_back h py
  obtain ⟨a3, a3'⟩ := fl_back h pz
  obtain ⟨b1, b1'⟩ := fl_back h qx
  obtain ⟨b2, b2'⟩ := fl_back h qy
  obtain ⟨b3, b3'⟩ := fl_back h qz
  have pb : ∀ {x y X Y : K}, |x| ≤ 4 → |y| ≤ 4 → |X - x| ≤ 100001 / 100000 * (1 / 2 ^ 53) * |x| + 2 * (1 / 2 ^ 1075) →
      |Y - y| ≤ 100001 / 100000 * (1 / 2 ^ 53) * |y| + 2 * (1 / 2 ^ 1075) →
      |X * Y - x * y| ≤ 200003 / 100000 * (1 / 2 ^ 53) * |x * y| + 24 * (1 / 2 ^ 1075) :=
    fun hx hy e1 e2 => prod_back (by positivity) (by norm_num) h0 h1 hx hy e1 e2
  have c1 := pb a2' b3' a2 b3
  have c2 := pb a3' b2' a3 b2
  have c3 := pb a3' b1' a3 b1
  have c4 := pb a1' b3' a1 b3
  have c5 := pb a1' b2' a1 b2
  have c6 := pb a2' b1' a2 b1
  clear pb a1 a1' a2 a2' a3 a3' b1 b1' b2 b2' b3 b3' px py pz qx qy qz h1 hP hQ
  unfold absDet det flVec cross dot
  dsimp only
  generalize (1 : K) / 2 ^ 1075 = t at *
  generalize 200003 / 100000 * ((1 : K) / 2 ^ 53) = u at *
  have two : ∀ {x y X Y d : K}, |X - x| ≤ u * |x| + 24 * t → |Y - y| ≤ u * |y| + 24 * t →
      |(x - y) * d - (X - Y) * d| ≤ u * ((|x| + |y|) * |d|) + 48 * t * |d| := by
    intro x y X Y d e1 e2
    rw [← sub_mul, abs_mul, show x - y - (X - Y) = (Y - y) - (X - x) by ring]
    have := mul_le_mul_of_nonneg_right ((abs_sub (Y - y) (X - x)).trans (add_le_add e2 e1)) (abs_nonneg d)
    linarith
  have d1 := two (d := c.x) c1 c2
  have d2 := two (d := c.y) c3 c4
  have d3 := two (d := c.z) c5 c6
  have e : ∀ {x1 x2 x3 y1 y2 y3 : K}, x1 + x2 + x3 - (y1 + y2 + y3) = (x1 - y1) + (x2 - y2) + (x3 - y3) := by intros; ring
  rw [e]
  refine (abs_add_le _ _).trans ((add_le_add (abs_add_le _ _) le_rfl).trans ?_)
  refine (add_le_add (add_le_add d1 d2) d3).trans ?_
  have : 48 * t * (|c.x| + |c.y| + |c.z|) ≤ 48 * t * 2 := mul_le_mul_of_nonneg_left hcs (by linarith)
  linear_combination this

theorem pow_small (n m : ℕ) (h : n ≤ m) : (1 : K) / 2 ^ m ≤ 1 / 2 ^ n :=
  one_div_le_one_div_of_le (by positivity) (pow_le_pow_right₀ (by norm_num) h)

/-- The squared length of the rounded vector. -/
theorem flVec_norm {fl : K → K} (h : Rounding fl) {P : Vec K} (hP : dot P P ≤ 9) (hP0 : 1 / 2 ^ 400 ≤ dot P P) :
    1 / 2 ^ 402 ≤ dot (flVec fl P) (flVec fl P) ∧ (|fl P.x| ≤ 4 ∧ |fl P.y| ≤ 4 ∧ |fl P.z| ≤ 4) ∧
    |Vec.norm2 fl (flVec fl P) - dot (flVec fl P) (flVec fl P)| ≤ 1 / 10 ^ 14 * dot (flVec fl P) (flVec fl P) := by
  obtain ⟨px, py, pz⟩ := abs_le_of_dot (c := P) (B := 3) (by norm_num) (hP.trans (by norm_num))
  have h0 : (0 : K) ≤ 1 / 2 ^ 1075 := by positivity
  have h1 : (1 : K) / 2 ^ 1075 ≤ 1 / 2 ^ 600 * (1 / 2 ^ 402) := by
    rw [div_mul_div_comm, one_mul, ← pow_add]; exact pow_small _ _ (by norm_num)
  have h2 : (1 : K) / 2 ^ 402 = 1 / 2 ^ 400 / 4 := by
    rw [div_div, show (4 : K) = 2 ^ 2 by norm_num, ← pow_add]
  have h3 : (0 : K) < 1 / 2 ^ 400 := by positivity
  have h4 : (1 : K) / 2 ^ 600 ≤ 1 / 10 ^ 16 := (pow_small 60 600 (by norm_num)).trans (by norm_num)
  have h5 : (1 : K) / 2 ^ 1075 ≤ 1 / 10 ^ 16 * (1 / 2 ^ 402) := h1.trans (mul_le_mul_of_nonneg_right h4 (by positivity))
  obtain ⟨a1, a1'⟩ := fl_back h px
  obtain ⟨a2, a2'⟩ := fl_back h py
  obtain ⟨a3, a3'⟩ := fl_back h pz
  have sqb : ∀ {x X : K}, |x| ≤ 4 → |X - x| ≤ 100001 / 100000 * (1 / 2 ^ 53) * |x| + 2 * (1 / 2 ^ 1075) →
      X * X ≤ 2 * (x * x) + 24 * (1 / 2 ^ 1075) := by
    intro x X hx hX
    have := prod_back (u := 1 / 2 ^ 53) (by positivity) (by norm_num) h0 (pow1075.trans (by norm_num)) hx hx hX hX
    rw [abs_mul_self x] at this
    have h6 := (abs_le.1 this).2
    have : 0 ≤ x * x := mul_self_nonneg x
    generalize (1 : K) / 2 ^ 1075 = t at *
    norm_num at *
    linarith
  have s1 := sqb a1' a1
  have s2 := sqb a2' a2
  have s3 := sqb a3' a3
  have hlow : 1 / 2 ^ 402 ≤ dot (flVec fl P) (flVec fl P) := by
    unfold dot at hP0
    unfold dot flVec
    dsimp only
    rw [h2] at h5 ⊢
    generalize (1 : K) / 2 ^ 1075 = t at *
    generalize (1 : K) / 2 ^ 400 = g at *
    norm_num at *
    linarith
  refine ⟨hlow, ⟨a1', a2', a3'⟩, ?_⟩
  have hx16 : ∀ {x : K}, |x| ≤ 4 → |x * x| ≤ 16 := by
    intro x hx; rw [abs_mul]; nlinarith [abs_nonneg x]
  have hd := dot3_near (u := 1 / 2 ^ 53) (t := 1 / 2 ^ 1075) (by positivity) (by norm_num) h0 (pow1075.trans (by norm_num)) (rounding_small h)
    ((hx16 a1').trans (by norm_num)) ((hx16 a2').trans (by norm_num)) ((hx16 a3').trans (by norm_num))
  have u1 := hx16 a1'
  have u2 := hx16 a2'
  have u3 := hx16 a3'
  rw [abs_mul_self] at u1 u2 u3
  rw [abs_mul_self, abs_mul_self, abs_mul_self] at hd
  unfold Vec.norm2 Vec.dot
  unfold dot at *
  unfold flVec at *
  dsimp only at *
  set s := fl P.x * fl P.x + fl P.y * fl P.y + fl P.z * fl P.z with hs
  have hs0 : 0 ≤ s := le_trans (by positivity) hlow
  have hs48 : s ≤ 48 := by linarith
  rw [abs_of_nonneg hs0] at hd
  have h6 : (1 : K) / 2 ^ 1075 ≤ 1 / 10 ^ 16 * s := h5.trans (mul_le_mul_of_nonneg_left hlow (by norm_num))
  generalize fl (fl (fl P.x * fl P.x) + fl (fl P.y * fl P.y)) + fl (fl P.z * fl P.z) = M0 at *
  have hd2 : |M0 - s| ≤ 1 / 10 ^ 15 * s := by
    refine hd.trans ?_
    generalize (1 : K) / 2 ^ 1075 = t at *
    norm_num at *
    linarith
  have hM := abs_of_near hd2 (le_of_eq (abs_of_nonneg hs0))
  have hf := rounding_small h M0 (hM.trans (by norm_num; linarith))
  have := abs_add_le (fl M0 - M0) (M0 - s)
  rw [sub_add_sub_cancel] at this
  refine this.trans ?_
  generalize (1 : K) / 2 ^ 1075 = t at *
  generalize |M0| = m at *
  generalize |fl M0 - M0| = m1 at *
  generalize |M0 - s| = m2 at *
  norm_num at *
  linarith

set_option maxHeartbeats 1000000 in
/-- The error bound computed by `stable_sign` is at least 6.464 rounding units of the product of the lengths. -/
theorem stable_err {fl sqrt : K → K} (h : Rounding fl) (hs : IsSqrt sqrt) {n1 n2 s1 s2 R : K} (h1 : 1 / 2 ^ 402 ≤ s1) (h2 : 1 / 2 ^ 402 ≤ s2)
    (h1' : s1 ≤ 48) (h2' : s2 ≤ 48) (hn1 : |n1 - s1| ≤ 1 / 10 ^ 14 * s1) (hn2 : |n2 - s2| ≤ 1 / 10 ^ 14 * s2) (hR : 0 ≤ R) (hRR : R * R = s1 * s2) :
    6464 / 1000 * (1 / 2 ^ 53 * R) ≤ fl (detErrorMultiplier fl * fl (sqrt (fl (n1 * n2)))) ∧ 1 / 2 ^ 402 ≤ R := by
  have g0 : (0 : K) < 1 / 2 ^ 402 := by positivity
  have hR0 : 1 / 2 ^ 402 ≤ R := by
    refine abs_le_of_sq_le_sq' ?_ hR |>.2
    rw [pow_two, pow_two, hRR]
    exact mul_le_mul h1 h2 g0.le (g0.le.trans h1)
  refine ⟨?_, hR0⟩
  obtain ⟨a1, a2⟩ := abs_le.1 hn1
  obtain ⟨b1, b2⟩ := abs_le.1 hn2
  have c1 : (1 - 1 / 10 ^ 14) * s1 ≤ n1 := by linarith
  have c2 : (1 - 1 / 10 ^ 14) * s2 ≤ n2 := by linarith
  have d1 : n1 ≤ 49 := by norm_num at *; linarith
  have d2 : n2 ≤ 49 := by norm_num at *; linarith
  have s10 := g0.le.trans h1
  have s20 := g0.le.trans h2
  have n10 : 0 ≤ n1 := le_trans (by norm_num; linarith) c1
  have n20 : 0 ≤ n2 := le_trans (by norm_num; linarith) c2
  have hprod : (1 - 3 / 10 ^ 14) * (R * R) ≤ n1 * n2 := by
    have := mul_le_mul c1 c2 (by norm_num; linarith) n10
    rw [hRR]
    have : 0 ≤ s1 * s2 := by positivity
    norm_num at *
    linarith
  have hprod2 : n1 * n2 ≤ 2401 := by nlinarith
  have RR0 : 1 / 2 ^ 402 * (1 / 2 ^ 402) ≤ R * R := mul_le_mul hR0 hR0 g0.le hR
  have small : ∀ {x : K}, 1 / 2 ^ 402 * (1 / 2 ^ 402) ≤ 2 * x → (1 : K) / 2 ^ 900 ≤ x := by
    intro x hx
    have e : (1 : K) / 2 ^ 900 ≤ 1 / 2 ^ 402 * (1 / 2 ^ 402) / 2 := by
      rw [div_mul_div_comm, one_mul, ← pow_add, div_div, ← pow_succ]
      exact pow_small _ _ (by norm_num)
    linarith
  have x0 : 0 ≤ n1 * n2 := by positivity
  have f1 := fl_rel h (x := n1 * n2) (small (by rw [abs_of_nonneg x0]; norm_num at *; linarith)) (by rw [abs_of_nonneg x0]; exact hprod2.trans (by norm_num))
  rw [abs_of_nonneg x0, abs_le] at f1
  generalize n1 * n2 = x at *
  have f2 : (1 - 4 / 10 ^ 14) * (R * R) ≤ fl x := by
    have := f1.1
    have : 0 ≤ R * R := by positivity
    norm_num at *
    linarith
  have f3 : fl x ≤ 2500 := by have := f1.2; norm_num at *; linarith
  have RRn : 0 ≤ R * R := by positivity
  obtain ⟨r0, rr⟩ := hs (fl x) (le_trans (by norm_num; linarith) f2)
  generalize sqrt (fl x) = r at *
  generalize fl x = y at *
  have r1 : (1 - 4 / 10 ^ 14) * R ≤ r := by
    refine abs_le_of_sq_le_sq' ?_ r0 |>.2
    rw [pow_two, pow_two, rr]
    norm_num at *
    linarith
  have r2 : r ≤ 50 := by
    refine abs_le_of_sq_le_sq' ?_ (by norm_num) |>.2
    rw [pow_two, rr]
    norm_num at *
    linarith
  have small1 : ∀ {x : K}, 1 / 2 ^ 402 * (1 / 2 ^ 60) ≤ x → (1 : K) / 2 ^ 900 ≤ x := by
    intro x hx
    refine le_trans ?_ hx
    rw [div_mul_div_comm, one_mul, ← pow_add]
    exact pow_small _ _ (by norm_num)
  have r3 : 1 / 2 ^ 402 * (1 / 2 ^ 60) ≤ r := by
    refine le_trans ?_ r1
    generalize (1 : K) / 2 ^ 402 = g at *
    norm_num at *
    linarith
  have f4 := fl_rel h (x := r) (small1 (by rwa [abs_of_nonneg r0])) (by rw [abs_of_nonneg r0]; exact r2.trans (by norm_num))
  rw [abs_of_nonneg r0, abs_le] at f4
  have f5 : (1 - 1 / 10 ^ 13) * R ≤ fl r := by
    have := f4.1
    norm_num at *
    linarith
  have f6 : fl r ≤ 51 := by have := f4.2; norm_num at *; linarith
  generalize fl r = w at *
  obtain ⟨m1, m2⟩ := detMul_bounds h
  generalize detErrorMultiplier fl = m at *
  have w0 : 0 ≤ w := le_trans (by norm_num; linarith) f5
  have k1 : 646419 / 100000 / 2 ^ 53 * ((1 - 1 / 10 ^ 13) * R) ≤ m * w :=
    mul_le_mul m1 f5 (by norm_num; linarith) (le_trans (by norm_num) m1)
  have k2 : m * w ≤ 646421 / 100000 / 2 ^ 53 * 51 := mul_le_mul m2 f6 w0 (by norm_num)
  generalize m * w = z at *
  have z0 : 1 / 2 ^ 402 * (1 / 2 ^ 60) ≤ z := by
    refine le_trans ?_ k1
    generalize (1 : K) / 2 ^ 402 = g at *
    norm_num at *
    linarith
  have zn : 0 ≤ z := le_trans (by positivity) z0
  have f7 := fl_rel h (x := z) (small1 (by rwa [abs_of_nonneg zn])) (by rw [abs_of_nonneg zn]; exact k2.trans (by norm_num))
  rw [abs_of_nonneg zn, abs_le] at f7
  have := f7.1
  clear small small1 r3 z0 RR0 h1 h2 hR0 g0
  norm_num at *
  linarith

theorem dot_le_of_comp {p : Vec K} (h : |p.x| ≤ 4 ∧ |p.y| ≤ 4 ∧ |p.z| ≤ 4) : dot p p ≤ 48 := by
  have e : ∀ {x : K}, |x| ≤ 4 → x * x ≤ 16 := by
    intro x hx; rw [← abs_mul_abs_self]; nlinarith [abs_nonneg x]
  have := e h.1
  have := e h.2.1
  have := e h.2.2
  unfold dot
  linarith

/-- The determinant of two rounded edges and its error bound. -/
theorem stable_core {fl sqrt : K → K} (h : Rounding fl) (hs : IsSqrt sqrt) {P Q c : Vec K} (hP : dot P P ≤ 9) (hQ : dot Q Q ≤ 9)
    (hP0 : 1 / 2 ^ 400 ≤ dot P P) (hQ0 : 1 / 2 ^ 400 ≤ dot Q Q) (hc : UnitLe c) {d e : K}
    (hd : d = Vec.dot fl (Vec.cross fl (flVec fl P) (flVec fl Q)) c)
    (he : e = fl (detErrorMultiplier fl * fl (sqrt (fl (Vec.norm2 fl (flVec fl P) * Vec.norm2 fl (flVec fl Q)))))) :
    (det P Q c ≤ 0 → d ≤ e) ∧ (0 ≤ det P Q c → -e ≤ d) := by
  obtain ⟨p1, p2, p3⟩ := flVec_norm h hP hP0
  obtain ⟨q1, q2, q3⟩ := flVec_norm h hQ hQ0
  have hb := det_back h hP hQ hc
  generalize hp : flVec fl P = p at *
  generalize hq : flVec fl Q = q at *
  have pc : |p.x| ≤ 4 ∧ |p.y| ≤ 4 ∧ |p.z| ≤ 4 := by rw [← hp]; exact p2
  have qc : |q.x| ≤ 4 ∧ |q.y| ≤ 4 ∧ |q.z| ≤ 4 := by rw [← hq]; exact q2
  have p48 := dot_le_of_comp pc
  have q48 := dot_le_of_comp qc
  have p0 := dot_self_nonneg p
  have q0 := dot_self_nonneg q
  obtain ⟨R0, RR⟩ := hs (dot p p * dot q q) (mul_nonneg p0 q0)
  generalize sqrt (dot p p * dot q q) = R at *
  have R48 : R ≤ 48 := by
    refine abs_le_of_sq_le_sq' ?_ (by norm_num) |>.2
    rw [pow_two, RR, pow_two]
    exact mul_le_mul p48 q48 q0 (by norm_num)
  obtain ⟨e1, e2⟩ := stable_err h hs p1 q1 p48 q48 p3 q3 R0 RR
  rw [← he] at e1
  obtain ⟨M0, m1, m2, m3⟩ := det_near h pc qc hc R0 (by linarith) RR.ge
  rw [← hd] at m1
  have hV := absDet_le R0 hc RR.ge
  have hfl := rounding_small h M0 (m2.trans (by norm_num))
  rw [← m1] at hfl
  have t1 : (1 : K) / 2 ^ 1075 ≤ 1 / 2 ^ 200 * (1 / 2 ^ 402) := by
    rw [div_mul_div_comm, one_mul, ← pow_add]; exact pow_small _ _ (by norm_num)
  have t2 : (1 : K) / 2 ^ 1075 ≤ 1 / 10 ^ 30 * R :=
    t1.trans (mul_le_mul ((pow_small 100 200 (by norm_num)).trans (by norm_num)) e2 (by positivity) (by norm_num))
  change |M0 - det p q c| ≤ _ + _ * |det p q c| + _ at m3
  have t0 : (0 : K) ≤ 1 / 2 ^ 1075 := by positivity
  generalize (1 : K) / 2 ^ 1075 = t at *
  generalize absDet p q c = V at *
  generalize det p q c = D at *
  generalize det P Q c = D0 at *
  have n1 : |D - D0| ≤ 2311 / 1000 * (1 / 2 ^ 53 * R) := by refine hb.trans ?_; norm_num at *; linarith
  have n2 := abs_of_near n1 (le_refl |D0|)
  have n3 : |M0 - D0| ≤ 597 / 100 * (1 / 2 ^ 53 * R) + 1 / 2 ^ 54 * |D0| := by
    have := abs_add_le (M0 - D) (D - D0)
    rw [sub_add_sub_cancel] at this
    norm_num at *
    linarith
  rw [abs_le] at n3 hfl
  constructor
  · intro hD
    rw [abs_of_nonpos hD] at n3
    rcases abs_cases M0 with ⟨e, _⟩ | ⟨e, _⟩ <;> rw [e] at hfl <;> norm_num at * <;> linarith
  · intro hD
    rw [abs_of_nonneg hD] at n3
    rcases abs_cases M0 with ⟨e, _⟩ | ⟨e, _⟩ <;> rw [e] at hfl <;> norm_num at * <;> linarith

theorem diff_le {a b : Vec K} (ha : UnitLe a) (hb : UnitLe b) : dot (diff a b) (diff a b) ≤ 9 := by
  unfold UnitLe dot at *
  unfold diff
  dsimp only
  have : (a.x - b.x) * (a.x - b.x) + (a.y - b.y) * (a.y - b.y) + (a.z - b.z) * (a.z - b.z) ≤
      2 * (a.x * a.x + a.y * a.y + a.z * a.z) + 2 * (b.x * b.x + b.y * b.y + b.z * b.z) := by
    nlinarith [mul_self_nonneg (a.x + b.x), mul_self_nonneg (a.y + b.y), mul_self_nonneg (a.z + b.z)]
  norm_num at *
  linarith

omit [IsStrictOrderedRing K] in
theorem Spec.Apart.symm {a b : Vec K} (h : Apart a b) : Apart b a := by
  unfold Apart dot diff at *
  dsimp only at *
  convert h using 1
  ring

omit [LinearOrder K] [IsStrictOrderedRing K] in
theorem sub_flVec (fl : K → K) (a b : Vec K) : Vec.sub fl a b = flVec fl (diff a b) := rfl

omit [IsStrictOrderedRing K] in
theorem stableEdges_cases (fl : K → K) (a b c : Vec K) :
    stableEdges fl a b c = (flVec fl (diff a c), flVec fl (diff c b), c) ∨ stableEdges fl a b c = (flVec fl (diff b a), flVec fl (diff a c), a) ∨
    stableEdges fl a b c = (flVec fl (diff c b), flVec fl (diff b a), b) := by
  unfold stableEdges
  dsimp only
  split
  · exact .inl rfl
  · split
    · exact .inr (.inl rfl)
    · exact .inr (.inr rfl)

/-- **C62.** A decided `stable_sign` is right, for points at least `2^-200` apart. -/
theorem c62_stable_sound {fl sqrt : K → K} (h : Rounding fl) (hs : IsSqrt sqrt) {a b c : Vec K} (ha : UnitLe a) (hb : UnitLe b)
    (hc : UnitLe c) (hab : Apart a b) (hbc : Apart b c) (hca : Apart c a) :
    (stableSign fl sqrt a b c = .counterClockwise → 0 < det a b c) ∧ (stableSign fl sqrt a b c = .clockwise → det a b c < 0) := by
  have key : ∀ {P Q op : Vec K} {D : K}, det P Q op = -D → dot P P ≤ 9 → dot Q Q ≤ 9 → 1 / 2 ^ 400 ≤ dot P P → 1 / 2 ^ 400 ≤ dot Q Q → UnitLe op →
      (ofDet (-Vec.dot fl (Vec.cross fl (flVec fl P) (flVec fl Q)) op)
        (fl (detErrorMultiplier fl * fl (sqrt (fl (Vec.norm2 fl (flVec fl P) * Vec.norm2 fl (flVec fl Q)))))) = .counterClockwise → 0 < D) ∧
      (ofDet (-Vec.dot fl (Vec.cross fl (flVec fl P) (flVec fl Q)) op)
        (fl (detErrorMultiplier fl * fl (sqrt (fl (Vec.norm2 fl (flVec fl P) * Vec.norm2 fl (flVec fl Q)))))) = .clockwise → D < 0) := by
    intro P Q op D e p9 q9 p0 q0 ho
    obtain ⟨k1, k2⟩ := stable_core h hs p9 q9 p0 q0 ho rfl rfl
    rw [e] at k1 k2
    constructor
    · intro hh
      have := ofDet_ccw hh
      by_contra hn
      have := k2 (by linarith)
      linarith
    · intro hh
      have := ofDet_cw hh
      by_contra hn
      have := k1 (by linarith)
      linarith
  unfold stableSign
  rcases stableEdges_cases fl a b c with e | e | e <;> rw [e]
  · refine key ?_ (diff_le ha hc) (diff_le hc hb) hca.symm hbc.symm hc
    unfold det dot cross diff; ring
  · refine key ?_ (diff_le hb ha) (diff_le ha hc) hab.symm hca.symm ha
    unfold det dot cross diff; ring
  · refine key ?_ (diff_le hc hb) (diff_le hb ha) hbc.symm hab.symm hb
    unfold det dot cross diff; ring

end Verif
