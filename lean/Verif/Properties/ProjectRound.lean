import Verif.Properties.EdgeDistRound

/-!
# The nearest point of an edge with rounding (C121)
-/

namespace Verif
open Spec EdgeUtil

variable {c g x X : Vec ℝ} {L r : ℝ}

/-- A product of two approximated factors. -/
theorem prod_near {u U v V ku kv mu mv : ℝ} (h1 : |u - U| ≤ ku) (h2 : |v - V| ≤ kv) (hu : |u| ≤ mu) (hV : |V| ≤ mv) : |u * v - U * V| ≤ mu * kv + ku * mv := by
  have e : u * v - U * V = u * (v - V) + (u - U) * V := by ring
  have a := abs_add_le (u * (v - V)) ((u - U) * V)
  rw [← e, abs_mul, abs_mul] at a
  have b := mul_le_mul hu h2 (abs_nonneg _) (le_trans (abs_nonneg _) hu)
  have d := mul_le_mul h1 hV (abs_nonneg _) (le_trans (abs_nonneg _) h1)
  linarith

theorem big64 : (2 : ℝ) ^ 64 ≤ big1000 / 2 := by
  have : (2 : ℝ) ^ 64 * 2 ≤ big1000 := by
    rw [← pow_succ]
    exact pow_le_pow_right₀ (by norm_num) (by norm_num)
  linarith

/-- The factor of the normal in `project`. -/
theorem Plane.factor (H : Plane c g x X L r) {fl : ℝ → ℝ} (h : Rounding fl) :
    |fl (Vec.dot fl x c / Vec.norm2 fl c) - dot X g / L| ≤ 53 * eps53 / L := by
  have e0 := eps53_pos
  have e1 := eps53_le
  have Lp := H.pos
  have Le1 := mul_le_mul_of_nonneg_right e1 Lp.le
  obtain ⟨-, C, C0, hC2, hC⟩ := H.norm h
  have hy := H.xdot h
  have η1 : |dot X g| ≤ 1 := abs_le.2 (dot_le_one H.hX H.hg)
  have qy := quot_near Lp hC hy η1
  have hC' := abs_le.1 hC
  have iv := inv_rel Lp (by linarith) (show |C - L| ≤ 12 * eps53 * L by linarith)
  rw [hC2]
  generalize dot X g = η at *
  generalize Vec.dot fl x c = y at *
  have e : y / C ^ 2 = y / C * (1 / C) := by field_simp
  have en : η / L = η * (1 / L) := by field_simp
  have iL : 0 < 1 / L := by positivity
  have yb : |y / C| ≤ 101 / 100 := by
    have := abs_sub_abs_le_abs_sub (y / C) η
    linarith
  have pn := prod_near qy iv yb (le_of_eq (abs_of_pos iL))
  rw [← e, ← en] at pn
  have eL := mul_pos e0 iL
  have pn' : |y / C ^ 2 - η / L| ≤ 507 / 10 * (eps53 * (1 / L)) := by linarith
  have ηL : |η / L| ≤ 1 / L := by rw [abs_div, abs_of_pos Lp]; exact div_le_div_of_nonneg_right η1 Lp.le
  have yL : |y / C ^ 2| ≤ 101 / 100 * (1 / L) := by
    have := abs_sub_abs_le_abs_sub (y / C ^ 2) (η / L)
    have := mul_le_mul_of_nonneg_right e1 iL.le
    linarith
  have L43 : 1 / L ≤ 2 ^ 43 := by
    rw [div_le_iff₀ Lp]
    have := mul_le_mul_of_nonneg_left H.L0 (by positivity : (0 : ℝ) ≤ 2 ^ 43)
    rw [mul_one_div_cancel (by positivity)] at this
    exact this
  have L4 : 1 / 4 ≤ 1 / L := one_div_le_one_div_of_le Lp H.L1
  have b1 : |y / C ^ 2| ≤ big1000 := by
    have := big64
    have : (2 : ℝ) ^ 43 * 2 ≤ 2 ^ 64 := by norm_num
    have : (0 : ℝ) < big1000 := by unfold big1000; positivity
    linarith
  have et : eta75 ≤ eps53 * (1 / L) / 10 := by
    have t := tau600_le
    have : eta75 ≤ tau600 := tau6_le
    have := mul_le_mul_of_nonneg_left L4 e0.le
    linarith
  have f := fl_gen h b1 et
  have yLe := mul_le_mul_of_nonneg_right yL e0.le
  have tri := abs_sub_le (fl (y / C ^ 2)) (y / C ^ 2) (η / L)
  have : 53 * eps53 / L = 53 * (eps53 * (1 / L)) := by ring
  rw [this]
  linarith

/-- The computed projection to the plane. -/
theorem Plane.proj (H : Plane c g x X L r) {fl : ℝ → ℝ} (h : Rounding fl) (i : Vec.Axis) :
    |comp (Vec.sub fl x (Vec.scale fl c (fl (Vec.dot fl x c / Vec.norm2 fl c)))) i - comp (lin 1 X (-dot X g) g) i| ≤ 72 * eps53 := by
  have e0 := eps53_pos
  have e1 := eps53_le
  have t1 := tau600_le
  have Lp := H.pos
  have f := H.factor h
  have η1 : |dot X g| ≤ 1 := abs_le.2 (dot_le_one H.hX H.hg)
  have hx := H.hx
  have hr := H.hr
  obtain ⟨g1, g2, g3⟩ := comp_le zero_le_one (by rw [one_pow]; exact le_of_eq H.hg : dot g g ≤ 1 ^ 2)
  obtain ⟨X1, X2, X3⟩ := comp_le zero_le_one (by rw [one_pow]; exact le_of_eq H.hX : dot X X ≤ 1 ^ 2)
  have c1 := H.c1
  have c2 := H.c2
  have c3 := H.c3
  have ηL : |dot X g / L| ≤ 1 / L := by rw [abs_div, abs_of_pos Lp]; exact div_le_div_of_nonneg_right η1 Lp.le
  generalize fl (Vec.dot fl x c / Vec.norm2 fl c) = m at *
  generalize dot X g = η at *
  have key : ∀ {ci gi xi Xi : ℝ}, |ci - L * gi| ≤ 55 / 10 * eps53 * L → |gi| ≤ 1 → |Xi| ≤ 1 → xi = r * Xi → |fl (xi - fl (ci * m)) - (1 * Xi + -η * gi)| ≤ 72 * eps53 := by
    intro ci gi xi Xi hc hg hX hx
    have cb : |ci| ≤ 1001 / 1000 * L := by
      have := abs_sub_abs_le_abs_sub ci (L * gi)
      rw [abs_mul, abs_of_pos Lp] at this
      have := mul_le_mul_of_nonneg_left hg Lp.le
      have := mul_le_mul_of_nonneg_right e1 Lp.le
      linarith
    have p := prod_near hc f cb ηL
    have e : L * gi * (η / L) = η * gi := by field_simp
    have e' : 1001 / 1000 * L * (53 * eps53 / L) + 55 / 10 * eps53 * L * (1 / L) = (1001 / 1000 * 53 + 55 / 10) * eps53 := by field_simp
    rw [e, e'] at p
    have ηg : |η * gi| ≤ 1 := by
      rw [abs_mul]
      calc |η| * |gi| ≤ 1 * 1 := mul_le_mul η1 hg (abs_nonneg _) zero_le_one
        _ = 1 := one_mul 1
    have p' := abs_le.1 p
    have ηg' := abs_le.1 ηg
    have b1 : |ci * m| ≤ 101 / 100 := by rw [abs_le]; constructor <;> linarith
    have f1 := fl_err6 h (x := ci * m) (by linarith)
    have f1' := abs_le.1 f1
    have b1' := mul_le_mul_of_nonneg_right b1 e0.le
    have rX : |(r - 1) * Xi| ≤ 9 * eps53 := by
      rw [abs_mul]
      have := mul_le_mul hr hX (abs_nonneg _) (by linarith)
      linarith
    have rX' := abs_le.1 rX
    have hX' := abs_le.1 hX
    have ex : xi = Xi + (r - 1) * Xi := by rw [hx]; ring
    have b2 : |xi - fl (ci * m)| ≤ 202 / 100 := by rw [abs_le]; constructor <;> linarith
    have f2 := fl_err6 h (x := xi - fl (ci * m)) (by linarith)
    have f2' := abs_le.1 f2
    have b2' := mul_le_mul_of_nonneg_right b2 e0.le
    rw [abs_le]
    constructor <;> linarith
  cases i
  · exact key c1 g1 X1 (by rw [hx]; rfl)
  · exact key c2 g2 X2 (by rw [hx]; rfl)
  · exact key c3 g3 X3 (by rw [hx]; rfl)

/-- A computed component of a vector product with the normal. -/
theorem Plane.side_comp (H : Plane c g x X L r) {fl : ℝ → ℝ} (h : Rounding fl) {p1 p2 w1 w2 c1 c2 g1 g2 : ℝ} (hp1 : |p1 - w1| ≤ 72 * eps53) (hp2 : |p2 - w2| ≤ 72 * eps53)
    (hc1 : |c1 - L * g1| ≤ 55 / 10 * eps53 * L) (hc2 : |c2 - L * g2| ≤ 55 / 10 * eps53 * L) (hw1 : |w1| ≤ 1) (hw2 : |w2| ≤ 1) (hg1 : |g1| ≤ 1) (hg2 : |g2| ≤ 1) :
    |fl (fl (p1 * c2) - fl (p2 * c1)) - L * (w1 * g2 - w2 * g1)| ≤ 160 * (eps53 * L) := by
  have e0 := eps53_pos
  have e1 := eps53_le
  have Lp := H.pos
  have L1 := H.L1
  have Le := mul_pos e0 Lp
  have Le1 := mul_le_mul_of_nonneg_right e1 Lp.le
  have pb : ∀ {p w : ℝ}, |p - w| ≤ 72 * eps53 → |w| ≤ 1 → |p| ≤ 1001 / 1000 := by
    intro p w h1 h2
    have := abs_sub_abs_le_abs_sub p w
    linarith
  have gb : ∀ {g : ℝ}, |g| ≤ 1 → |L * g| ≤ L := by
    intro g hg
    rw [abs_mul, abs_of_pos Lp]
    have := mul_le_mul_of_nonneg_left hg Lp.le
    linarith
  have q1 := prod_near hp1 hc2 (pb hp1 hw1) (gb hg2)
  have q2 := prod_near hp2 hc1 (pb hp2 hw2) (gb hg1)
  have cb : ∀ {c g : ℝ}, |c - L * g| ≤ 55 / 10 * eps53 * L → |g| ≤ 1 → |c| ≤ 1001 / 1000 * L := by
    intro c g h1 h2
    have := abs_sub_abs_le_abs_sub c (L * g)
    have := gb h2
    linarith
  have m1 := mul_le_mul (pb hp1 hw1) (cb hc2 hg2) (abs_nonneg _) (by norm_num)
  have m2 := mul_le_mul (pb hp2 hw2) (cb hc1 hg1) (abs_nonneg _) (by norm_num)
  rw [← abs_mul] at m1 m2
  have t := H.tauL
  have tt : eta75 ≤ tau600 := tau6_le
  have B := big64
  have : (4 : ℝ) * 3 ≤ 2 ^ 64 := by norm_num
  have cr := cross_gen h (P := p1 * c2) (Q := p2 * c1) (M := 201 / 100 * L) (by linarith) (by linarith) (by linarith)
  have e : fl (fl (p1 * c2) - fl (p2 * c1)) - L * (w1 * g2 - w2 * g1) =
      (fl (fl (p1 * c2) - fl (p2 * c1)) - (p1 * c2 - p2 * c1)) + (p1 * c2 - w1 * (L * g2)) + -(p2 * c1 - w2 * (L * g1)) := by ring
  have tri := abs_add_three (fl (fl (p1 * c2) - fl (p2 * c1)) - (p1 * c2 - p2 * c1)) (p1 * c2 - w1 * (L * g2)) (-(p2 * c1 - w2 * (L * g1)))
  rw [abs_neg, ← e] at tri
  linarith

/-- A computed scalar product with an end. -/
theorem Plane.side_dot (H : Plane c g x X L r) {fl : ℝ → ℝ} (h : Rounding fl) {T Z a A : Vec ℝ} {la : ℝ} (hA : UnitV A) (ea : a = smul la A) (hla : |la - 1| ≤ 9 * eps53)
    (h1 : |T.x - L * Z.x| ≤ 160 * (eps53 * L)) (h2 : |T.y - L * Z.y| ≤ 160 * (eps53 * L)) (h3 : |T.z - L * Z.z| ≤ 160 * (eps53 * L)) (hZ : dot Z Z ≤ 1) :
    |Vec.dot fl T a - L * (la * dot A Z)| ≤ 290 * (eps53 * L) := by
  have e0 := eps53_pos
  have e1 := eps53_le
  have Lp := H.pos
  have L1 := H.L1
  have Le := mul_pos e0 Lp
  have Le1 := mul_le_mul_of_nonneg_right e1 Lp.le
  have hl := abs_le.1 hla
  obtain ⟨Z1, Z2, Z3⟩ := comp_le zero_le_one (by rw [one_pow]; exact hZ : dot Z Z ≤ 1 ^ 2)
  have Tb : ∀ {t z : ℝ}, |t - L * z| ≤ 160 * (eps53 * L) → |z| ≤ 1 → |t| ≤ 1001 / 1000 * L := by
    intro t z h1 h2
    have a := abs_sub_abs_le_abs_sub t (L * z)
    rw [abs_mul, abs_of_pos Lp] at a
    have := mul_le_mul_of_nonneg_left h2 Lp.le
    linarith
  have T1 := Tb h1 Z1
  have T2 := Tb h2 Z2
  have T3 := Tb h3 Z3
  have aa : dot a a ≤ (1001 / 1000) ^ 2 := by
    have : dot a a = la ^ 2 * dot A A := by rw [ea]; unfold dot smul; ring
    rw [this, show dot A A = 1 from hA, mul_one]
    exact pow_le_pow_left₀ (by linarith) (by linarith) 2
  have s := abs_sum_le (by norm_num) aa
  have m1 := mul_le_mul_of_nonneg_right T1 (abs_nonneg a.x)
  have m2 := mul_le_mul_of_nonneg_right T2 (abs_nonneg a.y)
  have m3 := mul_le_mul_of_nonneg_right T3 (abs_nonneg a.z)
  rw [← abs_mul] at m1 m2 m3
  have sL := mul_le_mul_of_nonneg_left s Lp.le
  have t := H.tauL
  have tt : eta75 ≤ tau600 := tau6_le
  have B := big64
  have : (4 : ℝ) * 3 ≤ 2 ^ 64 := by norm_num
  have g1 := dot_gen h (P := T.x * a.x) (Q := T.y * a.y) (R := T.z * a.z) (M := 175 / 100 * L) (by linarith) (by linarith) (by linarith)
  have d := dot_small (d := Vec.mk (T.x - L * Z.x) (T.y - L * Z.y) (T.z - L * Z.z)) (k := 160 * (eps53 * L)) (by positivity) (by norm_num) aa h1 h2 h3
  have e : L * (la * dot A Z) = L * (Z.x * a.x + Z.y * a.y + Z.z * a.z) := by rw [ea]; unfold dot smul; ring
  rw [e]
  simp only [dot] at d
  have e2 : T.x * a.x + T.y * a.y + T.z * a.z - L * (Z.x * a.x + Z.y * a.y + Z.z * a.z) = (T.x - L * Z.x) * a.x + (T.y - L * Z.y) * a.y + (T.z - L * Z.z) * a.z := by ring
  rw [← e2] at d
  have := abs_sub_le (fl (fl (fl (T.x * a.x) + fl (T.y * a.y)) + fl (T.z * a.z))) (T.x * a.x + T.y * a.y + T.z * a.z) (L * (Z.x * a.x + Z.y * a.y + Z.z * a.z))
  show |fl (fl (fl (T.x * a.x) + fl (T.y * a.y)) + fl (T.z * a.z)) - _| ≤ _
  linarith

/-- Normalizing a vector near a multiple of a unit vector. -/
theorem near_normalize_scaled {fl : ℝ → ℝ} (h : Rounding fl) {v w : Vec ℝ} {k s : ℝ} (k0 : 0 ≤ k) (k1 : k ≤ 1 / 10 ^ 6) (s1 : 1 / 2 ≤ s) (s2 : s ≤ 1) (hw : dot w w = s ^ 2)
    (hv : ∀ ax, |comp v ax - comp w ax| ≤ k) :
    (∀ ax, |comp (v.normalize fl Real.sqrt) ax - comp (smul (1 / s) w) ax| ≤ 11 / 2 * k + 6 * eps53) ∧
      |dot (v.normalize fl Real.sqrt) (v.normalize fl Real.sqrt) - 1| ≤ 105 / 10 * eps53 := by
  have e0 := eps53_pos
  have e1 := eps53_le
  have n1 := eta75_tiny
  have v1 : |v.x - w.x| ≤ k := hv .X
  have v2 : |v.y - w.y| ≤ k := hv .Y
  have v3 : |v.z - w.z| ≤ k := hv .Z
  have gs := Real.sq_sqrt (dot_self_ge v)
  have s0 := Real.sqrt_nonneg (dot v v)
  have len := length_lip (v := v) (w := w) s0 (by linarith : 0 ≤ s) gs hw.symm (B := 1733 / 1000 * k) (by positivity)
    (sq_three v1 v2 v3 (by have := sq_nonneg k; linarith [show (1733 / 1000 * k) ^ 2 = 3003289 / 1000000 * k ^ 2 by ring]))
  generalize Real.sqrt (dot v v) = r at *
  have l := abs_le.1 len
  have r0 : 49 / 100 ≤ r := by linarith
  have r1 : r ≤ 1001 / 1000 := by linarith
  have B : (1 : ℝ) / 2 ^ 400 ≤ r := le_trans (le_trans (one_div_le_one_div_of_le (by positivity) (pow_le_pow_right₀ (by norm_num) (by norm_num : 2 ≤ 400)))
    (by norm_num)) r0
  have C : r ≤ 2 ^ 400 := r1.trans (le_trans (by norm_num : (1001 : ℝ) / 1000 ≤ 2 ^ 1) (pow_le_pow_right₀ (by norm_num) (by norm_num)))
  obtain ⟨a, b, c⟩ := normalize_gen h B C gs
  refine ⟨?_, normalize_len h B C gs⟩
  have rp : 0 < r := by linarith
  have sp : 0 < s := by linarith
  clear B C
  obtain ⟨c1, c2, c3⟩ := comp_le rp.le gs.ge
  have fin : ∀ X x y : ℝ, |X - x / r| ≤ 5 * eps53 * (|x| / r) + eta75 → |x| ≤ r → |x - y| ≤ k → |X - 1 / s * y| ≤ 11 / 2 * k + 6 * eps53 := by
    intro X x y h1 h2 h3
    have m1 : |x| / r ≤ 1 := (div_le_one rp).2 h2
    have m2 := mul_le_mul_of_nonneg_left m1 e0.le
    have is : 1 / s ≤ 2 := by rw [div_le_iff₀ sp]; linarith
    have is0 : 0 < 1 / s := by positivity
    have m3 : |x / r - 1 / s * x| ≤ 1733 / 500 * k := by
      rw [show x / r - 1 / s * x = x / r * ((s - r) * (1 / s)) by field_simp, abs_mul, abs_mul, abs_div, abs_of_pos rp, abs_sub_comm s r, abs_of_pos is0]
      calc |x| / r * (|r - s| * (1 / s)) ≤ 1 * (1733 / 1000 * k * 2) :=
            mul_le_mul m1 (mul_le_mul len is is0.le (by positivity)) (by positivity) zero_le_one
        _ = 1733 / 500 * k := by ring
    have m4 : |1 / s * x - 1 / s * y| ≤ 2 * k := by
      rw [← mul_sub, abs_mul, abs_of_pos is0]
      exact mul_le_mul is h3 (abs_nonneg _) (by norm_num)
    have := abs_add_three (X - x / r) (x / r - 1 / s * x) (1 / s * x - 1 / s * y)
    rw [sub_add_sub_cancel, sub_add_sub_cancel] at this
    linarith
  intro ax
  cases ax
  · exact fin _ _ _ a c1 v1
  · exact fin _ _ _ b c2 v2
  · exact fin _ _ _ c c3 v3

theorem chord_tri (u v w : Vec ℝ) : Real.sqrt (dist2 u w) ≤ Real.sqrt (dist2 u v) + Real.sqrt (dist2 v w) := by
  have a0 : 0 ≤ dist2 u v := dot_self_ge _
  have b0 : 0 ≤ dist2 v w := dot_self_ge _
  have e : dist2 u w = dist2 u v + dist2 v w + 2 * dot (diff u v) (diff v w) := by unfold dist2 dot diff; ring
  have c := cauchy (diff u v) (diff v w)
  have a := Real.sq_sqrt a0
  have b := Real.sq_sqrt b0
  have A0 := Real.sqrt_nonneg (dist2 u v)
  have B0 := Real.sqrt_nonneg (dist2 v w)
  have c' : dot (diff u v) (diff v w) ≤ Real.sqrt (dist2 u v) * Real.sqrt (dist2 v w) := by
    refine le_of_sq_le_sq ?_ (mul_nonneg A0 B0)
    rw [mul_pow, a, b]
    exact c
  refine Real.sqrt_le_iff.2 ⟨add_nonneg A0 B0, ?_⟩
  rw [add_sq, a, b, e]
  linarith

theorem chord_comm (u v : Vec ℝ) : dist2 u v = dist2 v u := by unfold dist2 dot diff; ring

theorem chord_comps {u v : Vec ℝ} {k : ℝ} (hk : 0 ≤ k) (h : ∀ ax, |comp u ax - comp v ax| ≤ k) : Real.sqrt (dist2 u v) ≤ 1733 / 1000 * k := by
  refine Real.sqrt_le_iff.2 ⟨by positivity, ?_⟩
  have := sq_nonneg k
  have t : 3 * k ^ 2 ≤ (1733 / 1000 * k) ^ 2 := by linarith [show (1733 / 1000 * k) ^ 2 = 3003289 / 1000000 * k ^ 2 by ring]
  have e : dist2 u v = (u.x - v.x) ^ 2 + (u.y - v.y) ^ 2 + (u.z - v.z) ^ 2 := by unfold dist2 dot diff; ring
  rw [e]
  exact sq_three (h .X) (h .Y) (h .Z) t

/-- The chord to a multiple of a unit vector. -/
theorem chord_scale {a A : Vec ℝ} {l : ℝ} (hA : UnitV A) (ea : a = smul l A) (hl : |l - 1| ≤ 9 * eps53) : Real.sqrt (dist2 A a) ≤ 9 * eps53 := by
  have e0 := eps53_pos
  refine Real.sqrt_le_iff.2 ⟨by linarith, ?_⟩
  have : dist2 A a = (l - 1) ^ 2 * dot A A := by rw [ea]; unfold dist2 dot diff smul; ring
  rw [this, show dot A A = 1 from hA, mul_one, ← sq_abs]
  exact pow_le_pow_left₀ (abs_nonneg _) hl 2

/-- When the foot is at most `δ` outside the edge, a point of the edge is near it. -/
theorem EdgeGeo.foot_near {X A B F : Vec ℝ} {S α β P q η s δ : ℝ} (E : EdgeGeo X A B S α β P q η s) (d0 : 0 ≤ δ) (hP : -δ ≤ P) (hq : -δ ≤ q) (s0 : 0 < s)
    (s2 : 1 / 2 ≤ s) (hS : 12 * δ ≤ s * S) (hF : UnitV F) (pF : ∀ p, OnEdge A B p → s * dot F p = dot X p) : ∃ p, OnEdge A B p ∧ Real.sqrt (dist2 F p) ≤ 3 * δ := by
  by_cases hi : 0 < P ∧ 0 < q
  · obtain ⟨r, hr, er⟩ := E.foot_dist hi
    refine ⟨r, hr, ?_⟩
    rw [dist2_unit E.hX hr.1] at er
    have := (Real.sqrt_inj (by have := (dot_le_one E.hX hr.1).2; linarith) (by have := E.s1; linarith)).1 er
    have e := pF r hr
    have : dot F r = 1 := mul_left_cancel₀ s0.ne' (by linarith)
    rw [dist2_unit hF hr.1, this]
    norm_num
    exact d0
  · have main : ∀ {X A B : Vec ℝ} {S α β P q η : ℝ}, EdgeGeo X A B S α β P q η s → -δ ≤ P → P ≤ 0 → -δ ≤ q → 12 * δ ≤ s * S → s * dot F A = dot X A →
        Real.sqrt (dist2 F A) ≤ 3 * δ := by
      intro X A B S α β P q η E hP P0 hq hS pA
      have Sp := E.S0
      have S1 : S ≤ 1 := le_of_sq_le_sq (by have := sq_nonneg (dot A B); linarith [E.hS]) zero_le_one
      have aP : |P| ≤ δ := by rw [abs_of_nonpos P0]; linarith
      have P2 : P ^ 2 ≤ δ ^ 2 := by rw [← sq_abs]; exact pow_le_pow_left₀ (abs_nonneg _) aP 2
      have k1 : |dot A B| ≤ 1 := by rw [abs_le]; have := E.not_anti; constructor <;> linarith
      have kP : |dot A B * P| ≤ δ := by
        rw [abs_mul]
        calc |dot A B| * |P| ≤ 1 * δ := mul_le_mul k1 aP (abs_nonneg _) zero_le_one
          _ = δ := one_mul _
      have kP' := (abs_le.1 kP).1
      have ds : δ ≤ s / 12 := by have := mul_le_mul_of_nonneg_left S1 s0.le; linarith
      have sα := E.sα
      have α0 : 0 ≤ α := by
        by_contra hc
        have hc := not_le.1 hc
        have h1 : S * (-α) ≤ S * (s / 6) := by have := E.hq; linarith
        have h2 := le_of_mul_le_mul_left h1 Sp
        have h3 := pow_le_pow_left₀ (by linarith : 0 ≤ -α) h2 2
        have h4 := pow_le_pow_left₀ d0 ds 2
        have := pow_pos s0 2
        linarith [neg_sq α, show (s / 6) ^ 2 = s ^ 2 / 36 by ring, show (s / 12) ^ 2 = s ^ 2 / 144 by ring]
      have αs : α ≤ s := le_of_sq_le_sq (by have := sq_nonneg P; linarith) s0.le
      rw [dist2_unit hF E.hA]
      refine Real.sqrt_le_iff.2 ⟨by linarith, ?_⟩
      rw [← E.eα] at pA
      have m1 : (s - α) * (1 / 2) ≤ P ^ 2 := by
        have a : (s - α) * (s + α) = P ^ 2 := by linarith [show (s - α) * (s + α) = s ^ 2 - α ^ 2 by ring]
        have b : (s - α) * (1 / 2) ≤ (s - α) * (s + α) := mul_le_mul_of_nonneg_left (by linarith) (by linarith)
        linarith
      have m2 : s * (2 - 2 * dot F A) ≤ s * (8 * P ^ 2) := by
        have : 1 / 2 * (8 * P ^ 2) ≤ s * (8 * P ^ 2) := mul_le_mul_of_nonneg_right s2 (by positivity)
        linarith [show s * (2 - 2 * dot F A) = 2 * s - 2 * (s * dot F A) by ring]
      have m3 := le_of_mul_le_mul_left m2 s0
      linarith [show (3 * δ) ^ 2 = 9 * δ ^ 2 by ring, sq_nonneg δ]
    rcases le_or_gt P 0 with h1 | h1
    · exact ⟨A, onEdge_left E.hA, main E hP h1 hq hS (pF A (onEdge_left E.hA))⟩
    · have q0 : q ≤ 0 := by by_contra hc; exact hi ⟨h1, not_le.1 hc⟩
      exact ⟨B, onEdge_right E.hB, main E.swap hq q0 hP hS (pF B (onEdge_right E.hB))⟩

/-- A component from the sign of its product. -/
theorem comp_of_prod {l t L k : ℝ} (Lp : 0 < L) (k0 : 0 ≤ k) (hl : 99 / 100 ≤ l) (ht : L * (l * t) ≤ 290 * (k * L)) : t ≤ 295 * k := by
  have : l * t ≤ 290 * k := le_of_mul_le_mul_left (by linarith [show L * (290 * k) = 290 * (k * L) by ring] : L * (l * t) ≤ L * (290 * k)) Lp
  by_contra hc
  have hc := not_le.1 hc
  have m := mul_le_mul_of_nonneg_right hl (by linarith : 0 ≤ t)
  linarith

/-- The case distinction of `project`. -/
theorem plane_sides (H : Plane c g x X L r) {fl : ℝ → ℝ} (h : Rounding fl) {a A b B : Vec ℝ} {la lb s P q : ℝ} (hA : UnitV A) (hB : UnitV B) (ea : a = smul la A) (eb : b = smul lb B)
    (hla : |la - 1| ≤ 9 * eps53) (hlb : |lb - 1| ≤ 9 * eps53) (s1 : s ≤ 1) (s0 : 0 ≤ s) (hs : s ^ 2 + dot X g ^ 2 = 1) (gP : dot A (cross X g) = P) (gq : dot B (cross g X) = q) {p : Vec ℝ}
    (hp : p = Vec.sub fl x (Vec.scale fl c (fl (Vec.dot fl x c / Vec.norm2 fl c)))) :
    (Predicates.sign fl c a p = true → -(295 * eps53) ≤ P) ∧ (Predicates.sign fl c a p = false → P ≤ 295 * eps53) ∧
      (Predicates.sign fl p b c = true → -(295 * eps53) ≤ q) ∧ (Predicates.sign fl p b c = false → q ≤ 295 * eps53) := by
  have e0 := eps53_pos
  have e1 := eps53_le
  have Lp := H.pos
  have pr := H.proj h
  rw [← hp] at pr
  have p1 := pr .X
  have p2 := pr .Y
  have p3 := pr .Z
  simp only [comp] at p1 p2 p3
  have hg : dot g g = 1 := H.hg
  have hX : dot X X = 1 := H.hX
  obtain ⟨W, hW⟩ : ∃ W, W = lin 1 X (-dot X g) g := ⟨_, rfl⟩
  rw [← hW] at p1 p2 p3
  have WW : dot W W = s ^ 2 := by
    have : dot W W = dot X X - 2 * dot X g ^ 2 + dot X g ^ 2 * dot g g := by rw [hW]; simp only [dot, lin]; ring
    rw [this, hg, hX]; linarith
  have Wg : dot W g = 0 := by
    have : dot W g = dot X g - dot X g * dot g g := by rw [hW]; simp only [dot, lin]; ring
    rw [this, hg]; ring
  have s2 : s ^ 2 ≤ 1 := pow_le_one₀ s0 s1
  obtain ⟨w1, w2, w3⟩ := comp_le zero_le_one (by rw [one_pow, WW]; exact s2 : dot W W ≤ 1 ^ 2)
  obtain ⟨g1, g2, g3⟩ := comp_le zero_le_one (by rw [one_pow]; exact le_of_eq hg : dot g g ≤ 1 ^ 2)
  have Z1 : dot (cross W g) (cross W g) ≤ 1 := by rw [cross_sq, WW, hg, Wg]; linarith
  have Z2 : dot (cross g W) (cross g W) ≤ 1 := by rw [cross_sq, WW, hg, dot_comm, Wg]; linarith
  have dA : dot A (cross W g) = P := by rw [← gP, hW]; simp only [dot, cross, lin]; ring
  have dB : dot B (cross g W) = q := by rw [← gq, hW]; simp only [dot, cross, lin]; ring
  have A1 := H.side_dot h (T := Vec.cross fl p c) (Z := cross W g) hA ea hla (H.side_comp h p2 p3 H.c2 H.c3 w2 w3 g2 g3) (H.side_comp h p3 p1 H.c3 H.c1 w3 w1 g3 g1)
    (H.side_comp h p1 p2 H.c1 H.c2 w1 w2 g1 g2) Z1
  have sw : ∀ {u v u' v' M : ℝ}, u * v' - v * u' = M → v' * u - u' * v = M := by intro u v u' v' M e; linarith
  have flip : ∀ {p1 p2 w1 w2 c1 c2 g1 g2 : ℝ}, |fl (fl (p1 * c2) - fl (p2 * c1)) - L * (w1 * g2 - w2 * g1)| ≤ 160 * (eps53 * L) →
      |fl (fl (c2 * p1) - fl (c1 * p2)) - L * (g2 * w1 - g1 * w2)| ≤ 160 * (eps53 * L) := by
    intro p1 p2 w1 w2 c1 c2 g1 g2 hh
    rwa [mul_comm c2, mul_comm c1, mul_comm g2, mul_comm g1]
  have B1 := H.side_dot h (T := Vec.cross fl c p) (Z := cross g W) hB eb hlb (flip (H.side_comp h p3 p2 H.c3 H.c2 w3 w2 g3 g2)) (flip (H.side_comp h p1 p3 H.c1 H.c3 w1 w3 g1 g3))
    (flip (H.side_comp h p2 p1 H.c2 H.c1 w2 w1 g2 g1)) Z2
  rw [dA] at A1
  rw [dB] at B1
  have hla' := abs_le.1 hla
  have hlb' := abs_le.1 hlb
  have A' := abs_le.1 A1
  have B' := abs_le.1 B1
  unfold Predicates.sign
  simp only [decide_eq_true_eq, decide_eq_false_iff_not, gt_iff_lt, not_lt]
  refine ⟨fun t => ?_, fun t => ?_, fun t => ?_, fun t => ?_⟩
  · have := comp_of_prod (t := -P) Lp e0.le (by linarith : 99 / 100 ≤ la) (by linarith [show L * (la * -P) = -(L * (la * P)) by ring])
    linarith
  · exact comp_of_prod Lp e0.le (by linarith : 99 / 100 ≤ la) (by linarith)
  · have := comp_of_prod (t := -q) Lp e0.le (by linarith : 99 / 100 ≤ lb) (by linarith [show L * (lb * -q) = -(L * (lb * q)) by ring])
    linarith
  · exact comp_of_prod Lp e0.le (by linarith : 99 / 100 ≤ lb) (by linarith)

/-- The computed normal of an edge that is not too short. -/
theorem plane_exists {fl : ℝ → ℝ} (h : Rounding fl) {x a b X A B : Vec ℝ} {lx la lb S α β P q η s : ℝ}
    (E : EdgeGeo X A B S α β P q η s) (la0 : 0 < la) (lb0 : 0 < lb) (ex : x = smul lx X) (ea : a = smul la A) (eb : b = smul lb B)
    (hlx : |lx - 1| ≤ 9 * eps53) (hla : |la - 1| ≤ 9 * eps53) (hlb : |lb - 1| ≤ 9 * eps53)
    (ha : |dot a a - 1| ≤ 16 * eps53) (hb : |dot b b - 1| ≤ 16 * eps53) (hS : 1 / 2 ^ 42 ≤ S) :
    ∃ g L, Plane (Vec.pointCross fl Real.sqrt a b) g x X L lx ∧ dot X g = η ∧ dot A g = 0 ∧ dot B g = 0 ∧ dot A (cross X g) = P ∧ dot B (cross g X) = q := by
  have e0 := eps53_pos
  have e1 := eps53_le
  have hla' := abs_le.1 hla
  have hlb' := abs_le.1 hlb
  have Sp := E.S0
  have Sn := Sp.ne'
  obtain ⟨G, hG⟩ : ∃ G, G = la * lb * S := ⟨_, rfl⟩
  have S2 : S ^ 2 = 1 - dot A B ^ 2 := by linarith [E.hS]
  have hg : UnitV (smul (1 / S) (cross A B)) := by
    have : dot (smul (1 / S) (cross A B)) (smul (1 / S) (cross A B)) = (1 / S) ^ 2 * dot (cross A B) (cross A B) := by unfold dot smul; ring
    unfold UnitV
    rw [this, cross_sq, show dot A A = 1 from E.hA, show dot B B = 1 from E.hB, one_mul, ← S2, div_pow, one_pow, one_div_mul_cancel (by positivity)]
  have eg : cross a b = smul G (smul (1 / S) (cross A B)) := by
    rw [ea, eb, hG]; simp only [cross, smul, Vec.mk.injEq]
    refine ⟨?_, ?_, ?_⟩ <;> field_simp
  have hG2 : G ^ 2 = dot (cross a b) (cross a b) := by
    have : dot (smul G (smul (1 / S) (cross A B))) (smul G (smul (1 / S) (cross A B))) = G ^ 2 * dot (smul (1 / S) (cross A B)) (smul (1 / S) (cross A B)) := by
      unfold dot smul; ring
    rw [eg, this, show dot (smul (1 / S) (cross A B)) (smul (1 / S) (cross A B)) = 1 from hg, mul_one]
  have Gl : 1 / 2 ^ 43 ≤ G := by
    have m1 := mul_le_mul (by linarith : (99 : ℝ) / 100 ≤ la) (by linarith : (99 : ℝ) / 100 ≤ lb) (by norm_num) la0.le
    have m2 := mul_le_mul m1 hS (by positivity) (mul_nonneg la0.le lb0.le)
    rw [hG]
    exact le_trans (by norm_num) m2
  have G1 : 64 * eps53 ≤ G := le_trans (by unfold eps53; norm_num) Gl
  obtain ⟨Gu, -, hn⟩ := pcross_plane h ha hb G1 hG2 eg hg
  refine ⟨smul (1 / S) (cross A B), 2 * G,
    ⟨by linarith [show (0 : ℝ) < 1 / 2 ^ 43 by positivity], by linarith, hg, E.hX, ex, hlx, hn .X, hn .Y, hn .Z⟩, ?_, ?_, ?_, ?_, ?_⟩
  · have : dot X (smul (1 / S) (cross A B)) = 1 / S * dot X (cross A B) := by unfold dot smul; ring
    rw [this, ← E.eh]; field_simp
  · simp only [dot, smul, cross]; ring
  · simp only [dot, smul, cross]; ring
  · have : dot A (cross X (smul (1 / S) (cross A B))) = 1 / S * (dot A A * dot X B - dot A B * dot X A) := by simp only [dot, cross, smul]; ring
    rw [this, show dot A A = 1 from E.hA, one_mul, ← E.eα, ← E.eβ, E.hβ]; field_simp; ring
  · have : dot B (cross (smul (1 / S) (cross A B)) X) = 1 / S * (dot B B * dot X A - dot A B * dot X B) := by simp only [dot, cross, smul]; ring
    rw [this, show dot B B = 1 from E.hB, one_mul, ← E.eα, ← E.eβ, E.hP]; field_simp; ring

/-- The unit vector of the foot. -/
theorem foot_unit {W : Vec ℝ} {s : ℝ} (s0 : 0 < s) (hW : dot W W = s ^ 2) : UnitV (smul (1 / s) W) := by
  have : dot (smul (1 / s) W) (smul (1 / s) W) = (1 / s) ^ 2 * dot W W := by unfold dot smul; ring
  unfold UnitV
  rw [this, hW, div_pow, one_pow, one_div_mul_cancel (by positivity)]

/-- **C121.** `project` with rounding: points `x`, `a`, `b` of unit length up to `2^-49`, in the directions `X`, `A`, `B`; an edge that is neither
shorter than about `2^-40` nor that close to a half circle (`S` is the sine of its angle), and a point that is within 60 degrees of some point of the
edge. The result is at most `2^-42` farther from `X` than each point of the edge, it is within `2^-42` of a point of the edge, and it is of unit length up to `2^-49`. -/
theorem c121_project {fl : ℝ → ℝ} (h : Rounding fl) {x a b X A B : Vec ℝ} {lx la lb S : ℝ}
    (hX : UnitV X) (hA : UnitV A) (hB : UnitV B) (lx0 : 0 < lx) (la0 : 0 < la) (lb0 : 0 < lb) (ex : x = smul lx X) (ea : a = smul la A) (eb : b = smul lb B)
    (hx : |dot x x - 1| ≤ 1 / 2 ^ 49) (ha : |dot a a - 1| ≤ 1 / 2 ^ 49) (hb : |dot b b - 1| ≤ 1 / 2 ^ 49) (hS : 1 / 2 ^ 40 ≤ S) (hAB : S ^ 2 + dot A B ^ 2 = 1)
    (near : ∃ p, OnEdge A B p ∧ 1 / 2 ≤ dot X p) :
    (∀ p, OnEdge A B p → Real.sqrt (dist2 X (project fl Real.sqrt x a b)) ≤ Real.sqrt (dist2 X p) + 1 / 2 ^ 42) ∧
      (∃ p, OnEdge A B p ∧ Real.sqrt (dist2 (project fl Real.sqrt x a b) p) ≤ 1 / 2 ^ 42) ∧
      |dot (project fl Real.sqrt x a b) (project fl Real.sqrt x a b) - 1| ≤ 1 / 2 ^ 49 := by
  have k49 : (1 : ℝ) / 2 ^ 49 = 16 * eps53 := by unfold eps53; norm_num
  have k42 : (1 : ℝ) / 2 ^ 42 = 2048 * eps53 := by unfold eps53; norm_num
  rw [k49] at hx ha hb
  rw [k49, k42]
  have e0 := eps53_pos
  have e1 := eps53_le
  have S0 : 0 < S := lt_of_lt_of_le (by positivity) hS
  obtain ⟨α, β, P, q, η, s, E⟩ := edgeGeo_exists hX hA hB S0 hAB
  have hlx := mult_near lx0 E.hX ex hx
  have hla := mult_near la0 E.hA ea ha
  have hlb := mult_near lb0 E.hB eb hb
  obtain ⟨g, L, H, eη, Ag, Bg, gP, gq⟩ := plane_exists h E la0 lb0 ex ea eb hlx hla hlb ha hb (le_trans (by norm_num) hS)
  obtain ⟨p0, hp0, n0⟩ := near
  have s2 : 1 / 2 ≤ s := n0.trans (E.circle hp0)
  have s0 : 0 < s := by linarith
  have sη : s ^ 2 + dot X g ^ 2 = 1 := by rw [eη]; exact E.sh
  obtain ⟨p, hp⟩ : ∃ p, p = Vec.sub fl x (Vec.scale fl (Vec.pointCross fl Real.sqrt a b)
    (fl (Vec.dot fl x (Vec.pointCross fl Real.sqrt a b) / Vec.norm2 fl (Vec.pointCross fl Real.sqrt a b)))) := ⟨_, rfl⟩
  obtain ⟨at1, at2, bt1, bt2⟩ := plane_sides H h hA hB ea eb hla hlb E.s1 E.s0 sη gP gq hp
  have pr := H.proj h
  rw [← hp] at pr
  have dec : project fl Real.sqrt x a b = if (Predicates.sign fl (Vec.pointCross fl Real.sqrt a b) a p && Predicates.sign fl p b (Vec.pointCross fl Real.sqrt a b)) = true then
      Vec.normalize fl Real.sqrt p else if Vec.norm2 fl (Vec.sub fl x a) ≤ Vec.norm2 fl (Vec.sub fl x b) then a else b := by rw [hp]; rfl
  rw [dec]
  split_ifs with hc hd
  · -- the foot
    rw [Bool.and_eq_true] at hc
    obtain ⟨W, hW⟩ : ∃ W, W = lin 1 X (-dot X g) g := ⟨_, rfl⟩
    rw [← hW] at pr
    have hg : dot g g = 1 := H.hg
    have WW : dot W W = s ^ 2 := by
      have : dot W W = dot X X - 2 * dot X g ^ 2 + dot X g ^ 2 * dot g g := by rw [hW]; simp only [dot, lin]; ring
      rw [this, hg, show dot X X = 1 from hX]; linarith
    obtain ⟨n1, n2⟩ := near_normalize_scaled h (k := 72 * eps53) (by linarith) (by linarith) s2 E.s1 WW pr
    have hF := foot_unit s0 WW
    have cF := chord_comps (by linarith : 0 ≤ 11 / 2 * (72 * eps53) + 6 * eps53) n1
    have pF : ∀ p, OnEdge A B p → s * dot (smul (1 / s) W) p = dot X p := by
      intro p hp
      obtain ⟨-, σ, τ, -, -, e⟩ := hp
      have : s * dot (smul (1 / s) W) p = s * (1 / s) * dot W p := by simp only [dot, smul]; ring
      rw [this, mul_one_div_cancel s0.ne', one_mul, e, hW]
      have : dot (lin 1 X (-dot X g) g) (lin σ A τ B) = dot X (lin σ A τ B) - dot X g * (σ * dot A g + τ * dot B g) := by simp only [dot, lin]; ring
      rw [this, Ag, Bg]; ring
    have XF : dot X (smul (1 / s) W) = s := by
      have : dot X (smul (1 / s) W) = 1 / s * (dot X X - dot X g ^ 2) := by rw [hW]; simp only [dot, smul, lin]; ring
      rw [this, show dot X X = 1 from hX, show 1 - dot X g ^ 2 = s ^ 2 by linarith]; field_simp
    refine ⟨fun p' hp' => ?_, ?_, by linarith⟩
    · have t := chord_tri X (smul (1 / s) W) (Vec.normalize fl Real.sqrt p)
      rw [chord_comm (smul (1 / s) W), dist2_unit hX hF, XF] at t
      have := E.dist_circle hp'
      linarith
    · obtain ⟨p', hp', d'⟩ := E.foot_near (δ := 295 * eps53) (by linarith) (at1 hc.1) (bt1 hc.2) s0 s2 (by
        have k : 12 * (295 * eps53) ≤ 1 / 2 * (1 / 2 ^ 40) := by unfold eps53; norm_num
        exact k.trans (mul_le_mul s2 hS (by positivity) E.s0)) hF pF
      have t := chord_tri (Vec.normalize fl Real.sqrt p) (smul (1 / s) W) p'
      exact ⟨p', hp', by linarith⟩
  all_goals
    have hv : P ≤ 295 * eps53 ∨ q ≤ 295 * eps53 := by
      by_contra hn
      apply hc
      rw [Bool.and_eq_true]
      constructor
      · by_contra hf; exact hn (Or.inl (at2 (by simpa using hf)))
      · by_contra hf; exact hn (Or.inr (bt2 (by simpa using hf)))
    have four : ∀ {U V : Vec ℝ}, UnitV U → UnitV V → dist2 U V ≤ 4 := by
      intro U V hU hV; rw [dist2_unit hU hV]; linarith [(dot_le_one hU hV).1]
    have a0 : 0 ≤ dist2 X A := dot_self_ge _
    have b0 : 0 ≤ dist2 X B := dot_self_ge _
    have ra := abs_le.1 (sqdist_sqrt a0 (four E.hX E.hA) (sqdist_near h E.hX E.hA ex ea hlx hla))
    have rb := abs_le.1 (sqdist_sqrt b0 (four E.hX E.hB) (sqdist_near h E.hX E.hB ex eb hlx hlb))
    have ca := chord_scale hA ea hla
    have cb := chord_scale hB eb hlb
    have ta := chord_tri X A a
    have tb := chord_tri X B b
  · have hd := Real.sqrt_le_sqrt hd
    refine ⟨fun p hp => ?_, ⟨A, onEdge_left hA, by rw [chord_comm]; linarith⟩, ha⟩
    have v := E.vertex (δ := 295 * eps53) (by linarith) hv hp
    have : Real.sqrt (dist2 X A) - 140 * eps53 ≤ min (Real.sqrt (dist2 X A)) (Real.sqrt (dist2 X B)) := le_min (by linarith) (by linarith)
    linarith
  · have hd := Real.sqrt_le_sqrt (not_le.1 hd).le
    refine ⟨fun p hp => ?_, ⟨B, onEdge_right hB, by rw [chord_comm]; linarith⟩, hb⟩
    have v := E.vertex (δ := 295 * eps53) (by linarith) hv hp
    have : Real.sqrt (dist2 X B) - 140 * eps53 ≤ min (Real.sqrt (dist2 X A)) (Real.sqrt (dist2 X B)) := le_min (by linarith) (by linarith)
    linarith

/-- **C121.** A point of the edge is moved by at most `2^-42`. -/
theorem c121_onEdge {fl : ℝ → ℝ} (h : Rounding fl) {x a b X A B : Vec ℝ} {lx la lb S : ℝ}
    (hA : UnitV A) (hB : UnitV B) (lx0 : 0 < lx) (la0 : 0 < la) (lb0 : 0 < lb) (ex : x = smul lx X) (ea : a = smul la A) (eb : b = smul lb B)
    (hx : |dot x x - 1| ≤ 1 / 2 ^ 49) (ha : |dot a a - 1| ≤ 1 / 2 ^ 49) (hb : |dot b b - 1| ≤ 1 / 2 ^ 49) (hS : 1 / 2 ^ 40 ≤ S) (hAB : S ^ 2 + dot A B ^ 2 = 1)
    (hX : OnEdge A B X) : Real.sqrt (dist2 X (project fl Real.sqrt x a b)) ≤ 1 / 2 ^ 42 := by
  have XX : dot X X = 1 := hX.1
  have := (c121_project h hX.1 hA hB lx0 la0 lb0 ex ea eb hx ha hb hS hAB ⟨X, hX, by rw [XX]; norm_num⟩).1 X hX
  have e : dist2 X X = 0 := by unfold dist2 dot diff; ring
  rwa [e, Real.sqrt_zero, zero_add] at this

/-- The hypotheses can be met: a point off a quarter circle. -/
example : (∀ p, OnEdge (⟨1, 0, 0⟩ : Vec ℝ) ⟨0, 1, 0⟩ p →
      Real.sqrt (dist2 ⟨3 / 5, 0, 4 / 5⟩ (project rne Real.sqrt ⟨3 / 5, 0, 4 / 5⟩ ⟨1, 0, 0⟩ ⟨0, 1, 0⟩)) ≤ Real.sqrt (dist2 ⟨3 / 5, 0, 4 / 5⟩ p) + 1 / 2 ^ 42) := by
  refine (c121_project rounding_rne (X := ⟨3 / 5, 0, 4 / 5⟩) (A := ⟨1, 0, 0⟩) (B := ⟨0, 1, 0⟩) (lx := 1) (la := 1) (lb := 1) (S := 1) ?_ ?_ ?_ one_pos one_pos one_pos
    ?_ ?_ ?_ ?_ ?_ ?_ ?_ ?_ ⟨⟨1, 0, 0⟩, onEdge_left ?_, ?_⟩).1 <;> norm_num [UnitV, dot, smul]

/-- The middle of a quarter circle stays. -/
example : Real.sqrt (dist2 ⟨3 / 5, 4 / 5, 0⟩ (project rne Real.sqrt ⟨3 / 5, 4 / 5, 0⟩ ⟨1, 0, 0⟩ ⟨0, 1, 0⟩)) ≤ 1 / 2 ^ 42 := by
  refine c121_onEdge rounding_rne (X := ⟨3 / 5, 4 / 5, 0⟩) (A := ⟨1, 0, 0⟩) (B := ⟨0, 1, 0⟩) (lx := 1) (la := 1) (lb := 1) (S := 1) ?_ ?_ one_pos one_pos one_pos
    ?_ ?_ ?_ ?_ ?_ ?_ ?_ ?_ ⟨?_, 3 / 5, 4 / 5, ?_, ?_, ?_⟩ <;> norm_num [UnitV, dot, smul, lin]

end Verif
