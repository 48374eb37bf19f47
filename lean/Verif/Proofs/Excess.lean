import Mathlib.Analysis.SpecialFunctions.Trigonometric.Arctan
import Mathlib.Analysis.SpecialFunctions.Trigonometric.Inverse
import Mathlib.Tactic.LinearCombination

/-!
# The spherical excess

The angles of a spherical triangle from the cosines of its sides, their excess over π, and l'Huilier's formula for it.
-/

namespace Verif

/-- Four times the product of the sines of a half sum and the half sum less each summand. -/
theorem heron_sin (A B C : ℝ) :
    4 * (Real.sin ((A + B + C) / 2) * Real.sin ((A + B + C) / 2 - A) * Real.sin ((A + B + C) / 2 - B) * Real.sin ((A + B + C) / 2 - C)) =
      1 - Real.cos A ^ 2 - Real.cos B ^ 2 - Real.cos C ^ 2 + 2 * (Real.cos A * Real.cos B * Real.cos C) := by
  obtain ⟨σ, hσ⟩ : ∃ σ, σ = (A + B + C) / 2 := ⟨_, rfl⟩
  rw [← hσ]
  have h1 : 2 * (Real.sin σ * Real.sin (σ - A)) = Real.cos A - Real.cos (B + C) := by
    have e1 := Real.cos_sub σ (σ - A)
    have e2 := Real.cos_add σ (σ - A)
    rw [show σ - (σ - A) = A by ring] at e1
    rw [show σ + (σ - A) = B + C by rw [hσ]; ring] at e2
    rw [e1, e2]; ring
  have h2 : 2 * (Real.sin (σ - B) * Real.sin (σ - C)) = Real.cos (B - C) - Real.cos A := by
    have e1 := Real.cos_sub (σ - C) (σ - B)
    have e2 := Real.cos_add (σ - C) (σ - B)
    rw [show σ - C - (σ - B) = B - C by ring] at e1
    rw [show σ - C + (σ - B) = A by rw [hσ]; ring] at e2
    rw [e1, e2]; ring
  have e : 4 * (Real.sin σ * Real.sin (σ - A) * Real.sin (σ - B) * Real.sin (σ - C)) =
      (2 * (Real.sin σ * Real.sin (σ - A))) * (2 * (Real.sin (σ - B) * Real.sin (σ - C))) := by ring
  rw [e, h1, h2, Real.cos_add, Real.cos_sub]
  have sB := Real.sin_sq_add_cos_sq B
  have sC := Real.sin_sq_add_cos_sq C
  have sB' : Real.sin B ^ 2 = 1 - Real.cos B ^ 2 := by linarith
  have sC' : Real.sin C ^ 2 = 1 - Real.cos C ^ 2 := by linarith
  ring_nf
  rw [sB', sC']
  ring

/-- The same with cosines. -/
theorem heron_cos (A B C : ℝ) :
    4 * (Real.cos ((A + B + C) / 2) * Real.cos ((A + B + C) / 2 - A) * Real.cos ((A + B + C) / 2 - B) * Real.cos ((A + B + C) / 2 - C)) =
      Real.cos A ^ 2 + Real.cos B ^ 2 + Real.cos C ^ 2 - 1 + 2 * (Real.cos A * Real.cos B * Real.cos C) := by
  obtain ⟨σ, hσ⟩ : ∃ σ, σ = (A + B + C) / 2 := ⟨_, rfl⟩
  rw [← hσ]
  have h1 : 2 * (Real.cos σ * Real.cos (σ - A)) = Real.cos A + Real.cos (B + C) := by
    have e1 := Real.cos_sub σ (σ - A)
    have e2 := Real.cos_add σ (σ - A)
    rw [show σ - (σ - A) = A by ring] at e1
    rw [show σ + (σ - A) = B + C by rw [hσ]; ring] at e2
    rw [e1, e2]; ring
  have h2 : 2 * (Real.cos (σ - B) * Real.cos (σ - C)) = Real.cos (B - C) + Real.cos A := by
    have e1 := Real.cos_sub (σ - C) (σ - B)
    have e2 := Real.cos_add (σ - C) (σ - B)
    rw [show σ - C - (σ - B) = B - C by ring] at e1
    rw [show σ - C + (σ - B) = A by rw [hσ]; ring] at e2
    rw [e1, e2]; ring
  have e : 4 * (Real.cos σ * Real.cos (σ - A) * Real.cos (σ - B) * Real.cos (σ - C)) =
      (2 * (Real.cos σ * Real.cos (σ - A))) * (2 * (Real.cos (σ - B) * Real.cos (σ - C))) := by ring
  rw [e, h1, h2, Real.cos_add, Real.cos_sub]
  have sB := Real.sin_sq_add_cos_sq B
  have sC := Real.sin_sq_add_cos_sq C
  have sB' : Real.sin B ^ 2 = 1 - Real.cos B ^ 2 := by linarith
  have sC' : Real.sin C ^ 2 = 1 - Real.cos C ^ 2 := by linarith
  ring_nf
  rw [sB', sC']
  ring

/-- The angle of a spherical triangle, between the sides with cosines `p` and `r`, opposite the side with cosine `q`. -/
noncomputable def cornerAngle (p r q : ℝ) : ℝ := Real.arccos ((q - p * r) / (Real.sqrt (1 - p ^ 2) * Real.sqrt (1 - r ^ 2)))

theorem corner_spec {p q r d : ℝ} (hp : 0 < 1 - p ^ 2) (hr : 0 < 1 - r ^ 2) (hd : 0 < d)
    (hG : d ^ 2 = 1 + 2 * p * q * r - p ^ 2 - q ^ 2 - r ^ 2) :
    Real.cos (cornerAngle p r q) = (q - p * r) / (Real.sqrt (1 - p ^ 2) * Real.sqrt (1 - r ^ 2)) ∧
    Real.sin (cornerAngle p r q) = d / (Real.sqrt (1 - p ^ 2) * Real.sqrt (1 - r ^ 2)) ∧
    -1 < (q - p * r) / (Real.sqrt (1 - p ^ 2) * Real.sqrt (1 - r ^ 2)) := by
  have s1 := Real.sq_sqrt hp.le
  have s2 := Real.sq_sqrt hr.le
  have p1 := Real.sqrt_pos.2 hp
  have p2 := Real.sqrt_pos.2 hr
  obtain ⟨R, hR⟩ : ∃ R, R = Real.sqrt (1 - p ^ 2) * Real.sqrt (1 - r ^ 2) := ⟨_, rfl⟩
  have R0 : 0 < R := by rw [hR]; exact mul_pos p1 p2
  have R2 : R ^ 2 = (1 - p ^ 2) * (1 - r ^ 2) := by rw [hR, mul_pow, s1, s2]
  have k : ((q - p * r) / R) ^ 2 + (d / R) ^ 2 = 1 := by
    rw [div_pow, div_pow, ← add_div, R2, hG]
    rw [div_eq_one_iff_eq (by positivity)]
    ring
  have dR : 0 < d / R := div_pos hd R0
  have b1 : -1 < (q - p * r) / R := by nlinarith
  have b2 : (q - p * r) / R ≤ 1 := by nlinarith
  unfold cornerAngle
  rw [← hR]
  refine ⟨Real.cos_arccos b1.le b2, ?_, b1⟩
  rw [Real.sin_arccos, show 1 - ((q - p * r) / R) ^ 2 = (d / R) ^ 2 by linarith, Real.sqrt_sq dR.le]

/-- The sine and cosine of the excess. -/
theorem excess_trig {p q r d E : ℝ} (hp : 0 < 1 - p ^ 2) (hq : 0 < 1 - q ^ 2) (hr : 0 < 1 - r ^ 2) (hd : 0 < d)
    (hG : d ^ 2 = 1 + 2 * p * q * r - p ^ 2 - q ^ 2 - r ^ 2)
    (hE : E = cornerAngle p r q + cornerAngle p q r + cornerAngle q r p - Real.pi) :
    Real.cos E * (2 * (1 + p) * (1 + q) * (1 + r)) = (1 + p + q + r) ^ 2 - d ^ 2 ∧
    Real.sin E * (2 * (1 + p) * (1 + q) * (1 + r)) = 2 * (1 + p + q + r) * d := by
  obtain ⟨ca, sa, -⟩ := corner_spec hp hr hd hG
  obtain ⟨cb, sb, -⟩ := corner_spec (q := r) hp hq hd (by rw [hG]; ring)
  obtain ⟨cc, sc, -⟩ := corner_spec (q := p) hq hr hd (by rw [hG]; ring)
  have s1 := Real.sq_sqrt hp.le
  have s2 := Real.sq_sqrt hq.le
  have s3 := Real.sq_sqrt hr.le
  have p1 := Real.sqrt_pos.2 hp
  have p2 := Real.sqrt_pos.2 hq
  have p3 := Real.sqrt_pos.2 hr
  have f1 : 1 - p ≠ 0 := by intro h; nlinarith
  have f2 : 1 - q ≠ 0 := by intro h; nlinarith
  have f3 : 1 - r ≠ 0 := by intro h; nlinarith
  have hprod : (1 - p) * (1 - q) * (1 - r) ≠ 0 := mul_ne_zero (mul_ne_zero f1 f2) f3
  obtain ⟨P, hP⟩ : ∃ P, P = Real.sqrt (1 - p ^ 2) := ⟨_, rfl⟩
  obtain ⟨Q, hQ⟩ : ∃ P, P = Real.sqrt (1 - q ^ 2) := ⟨_, rfl⟩
  obtain ⟨R, hR⟩ : ∃ P, P = Real.sqrt (1 - r ^ 2) := ⟨_, rfl⟩
  rw [← hP] at p1 s1 ca sa cb sb
  rw [← hQ] at p2 s2 cb sb cc sc
  rw [← hR] at p3 s3 ca sa cc sc
  have hM : P ^ 2 * Q ^ 2 * R ^ 2 = (1 - p ^ 2) * (1 - q ^ 2) * (1 - r ^ 2) := by rw [s1, s2, s3]
  have M0 : P ^ 2 * Q ^ 2 * R ^ 2 ≠ 0 := by positivity
  have cE : Real.cos E * (P ^ 2 * Q ^ 2 * R ^ 2) = d ^ 2 * ((q - p * r) + (r - p * q) + (p - q * r)) - (q - p * r) * (r - p * q) * (p - q * r) := by
    rw [hE, Real.cos_sub_pi, Real.cos_add, Real.cos_add, Real.sin_add, ca, sa, cb, sb, cc, sc]
    field_simp
    ring
  have sE : Real.sin E * (P ^ 2 * Q ^ 2 * R ^ 2) =
      d ^ 3 - d * ((q - p * r) * (r - p * q) + (q - p * r) * (p - q * r) + (r - p * q) * (p - q * r)) := by
    rw [hE, Real.sin_sub_pi, Real.sin_add, Real.sin_add, Real.cos_add, ca, sa, cb, sb, cc, sc]
    field_simp
    ring
  rw [hM] at cE sE
  constructor
  · apply mul_left_cancel₀ hprod
    have : (1 - p) * (1 - q) * (1 - r) * (Real.cos E * (2 * (1 + p) * (1 + q) * (1 + r))) = 2 * (Real.cos E * ((1 - p ^ 2) * (1 - q ^ 2) * (1 - r ^ 2))) := by ring
    rw [this, cE, hG]
    ring
  · apply mul_left_cancel₀ hprod
    have : (1 - p) * (1 - q) * (1 - r) * (Real.sin E * (2 * (1 + p) * (1 + q) * (1 + r))) = 2 * (Real.sin E * ((1 - p ^ 2) * (1 - q ^ 2) * (1 - r ^ 2))) := by ring
    rw [this, sE]
    have : d ^ 3 = d * d ^ 2 := by ring
    rw [this, hG]
    ring

theorem quarter_excess {Z N d E : ℝ} (Z0 : 0 < Z) (hd : 0 < d) (pos1 : 0 < Z + N) (ZN : Z ^ 2 = N ^ 2 + d ^ 2)
    (cE : Real.cos E * Z ^ 2 = N ^ 2 - d ^ 2) (sE : Real.sin E * Z ^ 2 = 2 * N * d) (h0 : 0 ≤ E) (h1 : E < 2 * Real.pi) :
    (Z - N) / (Z + N) = Real.tan (E / 4) ^ 2 := by
  -- the half excess
  have cc := Real.cos_two_mul (E / 2)
  have ss := Real.sin_two_mul (E / 2)
  have sc := Real.sin_sq_add_cos_sq (E / 2)
  rw [show 2 * (E / 2) = E by ring] at cc ss
  have sn0 : 0 ≤ Real.sin (E / 2) := Real.sin_nonneg_of_nonneg_of_le_pi (by linarith) (by linarith)
  have cZ : (Real.cos (E / 2) * Z) ^ 2 = N ^ 2 := by
    have : Real.cos (E / 2) ^ 2 * Z ^ 2 * 2 = 2 * N ^ 2 := by
      have : (2 * Real.cos (E / 2) ^ 2 - 1) * Z ^ 2 = N ^ 2 - d ^ 2 := by rw [← cc]; exact cE
      linarith
    rw [mul_pow]
    linarith
  have sZ : (Real.sin (E / 2) * Z) ^ 2 = d ^ 2 := by
    have : Real.sin (E / 2) ^ 2 * Z ^ 2 = Z ^ 2 - Real.cos (E / 2) ^ 2 * Z ^ 2 := by
      rw [show Real.sin (E / 2) ^ 2 = 1 - Real.cos (E / 2) ^ 2 by linarith]; ring
    rw [mul_pow, this, ← mul_pow, cZ, ZN]; ring
  have sZ' : Real.sin (E / 2) * Z = d := by
    have := (sq_eq_sq₀ (mul_nonneg sn0 Z0.le) hd.le).1 sZ
    exact this
  have cZ' : Real.cos (E / 2) * Z = N := by
    have : 2 * (Real.sin (E / 2) * Z) * (Real.cos (E / 2) * Z) = 2 * N * d := by
      rw [← sE, ss]; ring
    rw [sZ'] at this
    have : d * (Real.cos (E / 2) * Z - N) = 0 := by linarith
    rcases mul_eq_zero.1 this with h | h
    · linarith
    · linarith
  -- the quarter excess
  have c4 := Real.cos_two_mul (E / 4)
  have s4 := Real.cos_sq_add_sin_sq (E / 4)
  rw [show 2 * (E / 4) = E / 2 by ring] at c4
  have ct0 : 0 < Real.cos (E / 4) := Real.cos_pos_of_mem_Ioo ⟨by linarith [Real.pi_pos], by linarith⟩
  have st0 : 0 ≤ Real.sin (E / 4) := Real.sin_nonneg_of_nonneg_of_le_pi (by linarith) (by linarith [Real.pi_pos])
  rw [Real.tan_eq_sin_div_cos, div_pow, div_eq_div_iff pos1.ne' (by positivity)]
  have a1 : Real.cos (E / 4) ^ 2 = (1 + Real.cos (E / 2)) / 2 := by linarith
  have a2 : Real.sin (E / 4) ^ 2 = (1 - Real.cos (E / 2)) / 2 := by linarith
  rw [a1, a2, ← cZ']
  ring

/-- l'Huilier's formula. -/
theorem lhuilier {p q r d E : ℝ} (hp : 0 < 1 - p ^ 2) (hq : 0 < 1 - q ^ 2) (hr : 0 < 1 - r ^ 2) (hd : 0 < d)
    (hG : d ^ 2 = 1 + 2 * p * q * r - p ^ 2 - q ^ 2 - r ^ 2)
    (hE : E = cornerAngle p r q + cornerAngle p q r + cornerAngle q r p - Real.pi) (h0 : 0 ≤ E) (h1 : E < 2 * Real.pi)
    {x y z s : ℝ} (hx : x = Real.arccos q) (hy : y = Real.arccos r) (hz : z = Real.arccos p) (hs : s = 1 / 2 * (x + y + z)) :
    4 * Real.arctan (Real.sqrt (max (Real.tan (1 / 2 * s) * Real.tan (1 / 2 * (s - x)) * Real.tan (1 / 2 * (s - y)) * Real.tan (1 / 2 * (s - z))) 0)) = E := by
  obtain ⟨cE, sE⟩ := excess_trig hp hq hr hd hG hE
  have g1 : 0 < 1 + p := by nlinarith
  have g2 : 0 < 1 + q := by nlinarith
  have g3 : 0 < 1 + r := by nlinarith
  have l1 : p ≤ 1 := by nlinarith
  have l2 : q ≤ 1 := by nlinarith
  have l3 : r ≤ 1 := by nlinarith
  have half : ∀ t : ℝ, 0 < 1 + t → t ≤ 1 → 2 * Real.cos (Real.arccos t / 2) ^ 2 = 1 + t ∧ 0 < Real.cos (Real.arccos t / 2) := by
    intro t h h'
    have e := Real.cos_two_mul (Real.arccos t / 2)
    rw [show 2 * (Real.arccos t / 2) = Real.arccos t by ring, Real.cos_arccos (by linarith) h'] at e
    refine ⟨by linarith, Real.cos_pos_of_mem_Ioo ⟨by linarith [Real.arccos_nonneg t, Real.pi_pos], ?_⟩⟩
    have : Real.arccos t < Real.pi := by
      rw [← Real.arccos_neg_one]
      exact Real.strictAntiOn_arccos ⟨le_refl _, by norm_num⟩ ⟨by linarith, h'⟩ (by linarith)
    linarith
  obtain ⟨cx, cx0⟩ := half q g2 l2
  obtain ⟨cy, cy0⟩ := half r g3 l3
  obtain ⟨cz, cz0⟩ := half p g1 l1
  rw [← hx] at cx cx0
  rw [← hy] at cy cy0
  rw [← hz] at cz cz0
  have hS := heron_sin (x / 2) (y / 2) (z / 2)
  have hC := heron_cos (x / 2) (y / 2) (z / 2)
  obtain ⟨Z, hZ⟩ : ∃ Z, Z = 4 * (Real.cos (x / 2) * Real.cos (y / 2) * Real.cos (z / 2)) := ⟨_, rfl⟩
  have Z0 : 0 < Z := by rw [hZ]; positivity
  have Z2 : Z ^ 2 = 2 * (1 + p) * (1 + q) * (1 + r) := by
    rw [← cx, ← cy, ← cz, hZ]; ring
  obtain ⟨N, hN⟩ : ∃ N, N = 1 + p + q + r := ⟨_, rfl⟩
  rw [← Z2, ← hN] at cE sE
  have ZN : Z ^ 2 = N ^ 2 + d ^ 2 := by rw [Z2, hN, hG]; ring
  have e0 : (x / 2 + y / 2 + z / 2) / 2 = 1 / 2 * s := by rw [hs]; ring
  have e1 : 1 / 2 * s - x / 2 = 1 / 2 * (s - x) := by ring
  have e2 : 1 / 2 * s - y / 2 = 1 / 2 * (s - y) := by ring
  have e3 : 1 / 2 * s - z / 2 = 1 / 2 * (s - z) := by ring
  rw [e0, e1, e2, e3] at hS hC
  have hS' : 8 * (Real.sin (1 / 2 * s) * Real.sin (1 / 2 * (s - x)) * Real.sin (1 / 2 * (s - y)) * Real.sin (1 / 2 * (s - z))) = Z - N := by
    rw [hZ, hN]; linarith
  have hC' : 8 * (Real.cos (1 / 2 * s) * Real.cos (1 / 2 * (s - x)) * Real.cos (1 / 2 * (s - y)) * Real.cos (1 / 2 * (s - z))) = Z + N := by
    rw [hZ, hN]; linarith
  have hab := abs_lt.1 (abs_lt_of_sq_lt_sq (a := N) (b := Z) (by rw [ZN]; linarith [pow_pos hd 2]) Z0.le)
  have pos1 : 0 < Z + N := by linarith [hab.1]
  have pos2 : 0 < Z - N := by linarith [hab.2]
  have hT : Real.tan (1 / 2 * s) * Real.tan (1 / 2 * (s - x)) * Real.tan (1 / 2 * (s - y)) * Real.tan (1 / 2 * (s - z)) = (Z - N) / (Z + N) := by
    rw [← hS', ← hC', Real.tan_eq_sin_div_cos, Real.tan_eq_sin_div_cos, Real.tan_eq_sin_div_cos, Real.tan_eq_sin_div_cos,
      div_mul_div_comm, div_mul_div_comm, div_mul_div_comm, mul_div_mul_left _ _ (by norm_num)]
  have key := quarter_excess Z0 hd pos1 ZN cE sE h0 h1
  have t0 : 0 ≤ Real.tan (E / 4) := by
    rw [Real.tan_eq_sin_div_cos]
    exact div_nonneg (Real.sin_nonneg_of_nonneg_of_le_pi (by linarith) (by linarith [Real.pi_pos]))
      (Real.cos_nonneg_of_mem_Icc ⟨by linarith [Real.pi_pos], by linarith⟩)
  rw [hT, max_eq_left (by positivity), key, Real.sqrt_sq t0, Real.arctan_tan (by linarith [Real.pi_pos]) (by linarith)]
  ring

end Verif
