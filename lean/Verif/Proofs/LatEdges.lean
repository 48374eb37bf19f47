import Verif.Properties.RectExact

/-!
# Two pieces of meridians

`gd k φ ψ` is the cosine of the distance between the point of latitude `φ` on one meridian and the point of latitude `ψ` on another, where
`k` is the cosine of the angle between the meridians. Which points of a piece of the first meridian are farthest from a piece of the second.
-/

namespace Verif
open Spec

/-- The cosine of the distance between two points by their latitudes and the cosine of the difference of their longitudes. -/
noncomputable def gd (k φ ψ : ℝ) : ℝ := k * Real.cos φ * Real.cos ψ + Real.sin φ * Real.sin ψ

theorem gd_neg (k φ ψ : ℝ) : gd k (-φ) (-ψ) = gd k φ ψ := by
  unfold gd; rw [Real.cos_neg, Real.cos_neg, Real.sin_neg, Real.sin_neg]; ring

/-- The value at another latitude from the value and the slope. -/
theorem gd_shift (k φ ψ t : ℝ) :
    gd k t ψ = gd k φ ψ * Real.cos (t - φ) + (Real.cos φ * Real.sin ψ - k * Real.sin φ * Real.cos ψ) * Real.sin (t - φ) := by
  unfold gd
  rw [Real.cos_sub, Real.sin_sub]
  linear_combination (-(k * Real.cos ψ * Real.cos t) - Real.sin ψ * Real.sin t) * Real.sin_sq_add_cos_sq φ

theorem gd_nonneg {k φ ψ : ℝ} (hk : 0 ≤ k) (h1 : 0 ≤ φ) (h2 : φ ≤ Real.pi / 2) (h3 : 0 ≤ ψ) (h4 : ψ ≤ Real.pi / 2) : 0 ≤ gd k φ ψ := by
  have hp := Real.pi_pos
  have a := Real.cos_nonneg_of_mem_Icc (x := φ) ⟨by linarith, h2⟩
  have b := Real.cos_nonneg_of_mem_Icc (x := ψ) ⟨by linarith, h4⟩
  have c := Real.sin_nonneg_of_nonneg_of_le_pi h1 (by linarith)
  have d := Real.sin_nonneg_of_nonneg_of_le_pi h3 (by linarith)
  unfold gd
  positivity

/-- Between two latitudes, in one hemisphere, the distance to a piece of the other meridian is at most the greater of the two distances. -/
theorem gd_between {k φ₁ φ φ₂ ψ₁ ψ₂ : ℝ} (hk : 0 ≤ k) (hk1 : k ≤ 1) (h1 : 0 ≤ φ₁) (h2 : φ₁ ≤ φ) (h3 : φ ≤ φ₂) (h4 : φ₂ ≤ Real.pi / 2)
    (p1 : 0 ≤ ψ₁) (p2 : ψ₁ ≤ Real.pi / 2) (q1 : 0 ≤ ψ₂) (q2 : ψ₂ ≤ Real.pi / 2) :
    ∃ ψ, min ψ₁ ψ₂ ≤ ψ ∧ ψ ≤ max ψ₁ ψ₂ ∧ min (gd k φ₁ ψ₁) (gd k φ₂ ψ₂) ≤ gd k φ ψ := by
  have hp := Real.pi_pos
  by_cases e2 : Real.cos φ * Real.sin ψ₂ - k * Real.sin φ * Real.cos ψ₂ ≤ 0
  · refine ⟨ψ₂, min_le_right _ _, le_max_right _ _, (min_le_right _ _).trans ?_⟩
    rw [gd_shift k φ ψ₂ φ₂]
    have n := gd_nonneg hk (h1.trans h2) (h3.trans h4) q1 q2
    have c := Real.cos_le_one (φ₂ - φ)
    have s := Real.sin_nonneg_of_nonneg_of_le_pi (x := φ₂ - φ) (by linarith) (by linarith)
    nlinarith [mul_le_mul_of_nonneg_left c n, mul_nonneg (neg_nonneg.2 e2) s]
  by_cases e1 : 0 ≤ Real.cos φ * Real.sin ψ₁ - k * Real.sin φ * Real.cos ψ₁
  · refine ⟨ψ₁, min_le_left _ _, le_max_left _ _, (min_le_left _ _).trans ?_⟩
    rw [gd_shift k φ ψ₁ φ₁]
    have n := gd_nonneg hk (h1.trans h2) (h3.trans h4) p1 p2
    have c := Real.cos_le_one (φ₁ - φ)
    have s := Real.sin_nonneg_of_nonneg_of_le_pi (x := φ - φ₁) (by linarith) (by linarith)
    rw [← neg_sub, Real.sin_neg] at s
    nlinarith [mul_le_mul_of_nonneg_left c n, mul_nonneg e1 s]
  push Not at e1 e2
  -- the foot of the perpendicular lies between the two
  obtain ⟨ψ, ⟨m1, m2⟩, hz⟩ := intermediate_value_uIcc (f := fun x => Real.cos φ * Real.sin x - k * Real.sin φ * Real.cos x) (a := ψ₁) (b := ψ₂)
    (by fun_prop) (show (0 : ℝ) ∈ _ by rw [Set.mem_uIcc]; left; exact ⟨e1.le, e2.le⟩)
  dsimp only at hz
  have r1 : 0 ≤ ψ := (le_min p1 q1).trans m1
  have r2 : ψ ≤ Real.pi / 2 := m2.trans (max_le p2 q2)
  refine ⟨ψ, m1, m2, (min_le_left _ _).trans ?_⟩
  have n := gd_nonneg hk (h1.trans h2) (h3.trans h4) r1 r2
  have cφ := Real.cos_nonneg_of_mem_Icc (x := φ) ⟨by linarith, by linarith⟩
  have sφ := Real.sin_nonneg_of_nonneg_of_le_pi (x := φ) (by linarith) (by linarith)
  have cψ := Real.cos_nonneg_of_mem_Icc (x := ψ) ⟨by linarith, r2⟩
  have cψ₁ := Real.cos_nonneg_of_mem_Icc (x := ψ₁) ⟨by linarith, p2⟩
  have sψ := Real.sin_nonneg_of_nonneg_of_le_pi (x := ψ) r1 (by linarith)
  have sψ₁ := Real.sin_nonneg_of_nonneg_of_le_pi (x := ψ₁) p1 (by linarith)
  have hs : Real.sin ψ₁ ≤ Real.sin ψ := by
    rcases cφ.eq_or_lt with h0 | h0
    · exfalso
      rw [← h0] at e2
      have cψ₂ := Real.cos_nonneg_of_mem_Icc (x := ψ₂) ⟨by linarith, q2⟩
      have : 0 ≤ k * Real.sin φ * Real.cos ψ₂ := by positivity
      linarith
    · by_contra hcon
      push Not at hcon
      have hc : Real.cos ψ₁ ≤ Real.cos ψ := by
        have t1 := Real.sin_sq_add_cos_sq ψ
        have t2 := Real.sin_sq_add_cos_sq ψ₁
        by_contra h'
        push Not at h'
        nlinarith
      have a1 := mul_lt_mul_of_pos_left hcon h0
      have a2 := mul_le_mul_of_nonneg_left hc (mul_nonneg hk sφ)
      linarith
  have sq1 : gd k φ ψ ^ 2 = k ^ 2 + (1 - k ^ 2) * Real.sin ψ ^ 2 := by
    have t := Real.sin_sq_add_cos_sq φ
    have t2 := Real.sin_sq_add_cos_sq ψ
    have : gd k φ ψ ^ 2 + (Real.cos φ * Real.sin ψ - k * Real.sin φ * Real.cos ψ) ^ 2 = k ^ 2 * Real.cos ψ ^ 2 + Real.sin ψ ^ 2 := by
      unfold gd
      linear_combination (k ^ 2 * Real.cos ψ ^ 2 + Real.sin ψ ^ 2) * t
    rw [hz] at this
    linear_combination this + k ^ 2 * t2
  have sq2 : gd k φ₁ ψ₁ ^ 2 ≤ k ^ 2 + (1 - k ^ 2) * Real.sin ψ₁ ^ 2 := by
    have t := Real.sin_sq_add_cos_sq φ₁
    have t2 := Real.sin_sq_add_cos_sq ψ₁
    have : gd k φ₁ ψ₁ ^ 2 + (Real.cos φ₁ * Real.sin ψ₁ - k * Real.sin φ₁ * Real.cos ψ₁) ^ 2 = k ^ 2 * Real.cos ψ₁ ^ 2 + Real.sin ψ₁ ^ 2 := by
      unfold gd
      linear_combination (k ^ 2 * Real.cos ψ₁ ^ 2 + Real.sin ψ₁ ^ 2) * t
    have p := sq_nonneg (Real.cos φ₁ * Real.sin ψ₁ - k * Real.sin φ₁ * Real.cos ψ₁)
    have e : k ^ 2 * Real.cos ψ₁ ^ 2 + Real.sin ψ₁ ^ 2 = k ^ 2 + (1 - k ^ 2) * Real.sin ψ₁ ^ 2 := by linear_combination k ^ 2 * t2
    linarith
  have hk2 : 0 ≤ 1 - k ^ 2 := by nlinarith
  have hss : Real.sin ψ₁ ^ 2 ≤ Real.sin ψ ^ 2 := pow_le_pow_left₀ sψ₁ hs 2
  have := mul_le_mul_of_nonneg_left hss hk2
  exact le_of_sq_le_sq (by linarith) n
where
  le_of_sq_le_sq {a b : ℝ} (h : a ^ 2 ≤ b ^ 2) (hb : 0 ≤ b) : a ≤ b := (le_abs_self a).trans (abs_le_of_sq_le_sq h hb)

/-- Meridians at most a right angle apart: a bound of the distance at the ends of a piece, and at the equator if both pieces meet it, is a
bound of the distance at every point. Northern half. -/
theorem gd_near_north {k c alo ahi blo bhi φ : ℝ} (hk : 0 ≤ k) (hk1 : k ≤ 1) (a1 : -(Real.pi / 2) ≤ alo) (a2 : ahi ≤ Real.pi / 2)
    (b1 : -(Real.pi / 2) ≤ blo) (b2 : bhi ≤ Real.pi / 2) (h1 : alo ≤ φ) (h2 : φ ≤ ahi)
    (hlo : ∃ ψ, blo ≤ ψ ∧ ψ ≤ bhi ∧ c ≤ gd k alo ψ) (hhi : ∃ ψ, blo ≤ ψ ∧ ψ ≤ bhi ∧ c ≤ gd k ahi ψ)
    (h0 : alo ≤ 0 → 0 ≤ ahi → blo ≤ 0 → 0 ≤ bhi → c ≤ k) (hφ : 0 ≤ φ) : ∃ ψ, blo ≤ ψ ∧ ψ ≤ bhi ∧ c ≤ gd k φ ψ := by
  have hp := Real.pi_pos
  obtain ⟨ψ₁, l1, l2, l3⟩ := hlo
  obtain ⟨ψ₂, u1, u2, u3⟩ := hhi
  have cosn : ∀ {x}, -(Real.pi / 2) ≤ x → x ≤ Real.pi / 2 → 0 ≤ Real.cos x := fun h h' => Real.cos_nonneg_of_mem_Icc ⟨h, h'⟩
  -- the upper end
  by_cases n2 : ψ₂ < 0
  · refine ⟨ψ₂, u1, u2, u3.trans ?_⟩
    have s := Real.sin_nonneg_of_nonneg_of_le_pi (x := -ψ₂) (by linarith) (by linarith)
    rw [Real.sin_neg] at s
    have cψ := cosn (x := ψ₂) (by linarith) (by linarith)
    have k1 : Real.cos ahi ≤ Real.cos φ := Real.cos_le_cos_of_nonneg_of_le_pi hφ (by linarith) h2
    have k2 : Real.sin φ ≤ Real.sin ahi := Real.sin_le_sin_of_le_of_le_pi_div_two (by linarith) a2 h2
    unfold gd
    nlinarith [mul_le_mul_of_nonneg_left k1 (mul_nonneg hk cψ), mul_le_mul_of_nonneg_left k2 s]
  push Not at n2
  -- the lower end
  have key : ∃ φ₁ ψ, 0 ≤ φ₁ ∧ φ₁ ≤ φ ∧ 0 ≤ ψ ∧ blo ≤ ψ ∧ ψ ≤ bhi ∧ c ≤ gd k φ₁ ψ := by
    by_cases na : 0 ≤ alo
    · by_cases n1 : 0 ≤ ψ₁
      · exact ⟨alo, ψ₁, na, h1, n1, l1, l2, l3⟩
      · push Not at n1
        refine ⟨alo, 0, na, h1, le_rfl, by linarith, by linarith, l3.trans ?_⟩
        have s := Real.sin_nonneg_of_nonneg_of_le_pi (x := -ψ₁) (by linarith) (by linarith)
        have s2 := Real.sin_nonneg_of_nonneg_of_le_pi (x := alo) (by linarith) (by linarith)
        have ca := cosn (x := alo) (by linarith) (by linarith)
        rw [Real.sin_neg] at s
        unfold gd
        rw [Real.cos_zero, Real.sin_zero]
        nlinarith [mul_le_mul_of_nonneg_left (Real.cos_le_one ψ₁) (mul_nonneg hk ca), mul_nonneg s s2]
    · push Not at na
      by_cases nb : blo ≤ 0
      · refine ⟨0, 0, le_rfl, hφ, le_rfl, nb, by linarith, ?_⟩
        have := h0 na.le (by linarith) nb (by linarith)
        unfold gd
        simpa using this
      · push Not at nb
        refine ⟨0, ψ₁, le_rfl, hφ, by linarith, l1, l2, l3.trans ?_⟩
        have s := Real.sin_nonneg_of_nonneg_of_le_pi (x := ψ₁) (by linarith) (by linarith)
        have s2 := Real.sin_nonneg_of_nonneg_of_le_pi (x := -alo) (by linarith) (by linarith)
        have cψ := cosn (x := ψ₁) (by linarith) (by linarith)
        rw [Real.sin_neg] at s2
        unfold gd
        rw [Real.cos_zero, Real.sin_zero]
        nlinarith [mul_le_mul_of_nonneg_left (Real.cos_le_one alo) (mul_nonneg hk cψ), mul_nonneg s s2]
  obtain ⟨φ₁, ψ₁', f1, f2, f3, f4, f5, f6⟩ := key
  obtain ⟨ψ, g1, g2, g3⟩ := gd_between hk hk1 f1 f2 h2 a2 f3 (f5.trans b2) n2 (u2.trans b2)
  exact ⟨ψ, (le_min f4 u1).trans g1, g2.trans (max_le f5 u2), (le_min f6 u3).trans g3⟩

theorem gd_near {k c alo ahi blo bhi φ : ℝ} (hk : 0 ≤ k) (hk1 : k ≤ 1) (a1 : -(Real.pi / 2) ≤ alo) (a2 : ahi ≤ Real.pi / 2)
    (b1 : -(Real.pi / 2) ≤ blo) (b2 : bhi ≤ Real.pi / 2) (h1 : alo ≤ φ) (h2 : φ ≤ ahi)
    (hlo : ∃ ψ, blo ≤ ψ ∧ ψ ≤ bhi ∧ c ≤ gd k alo ψ) (hhi : ∃ ψ, blo ≤ ψ ∧ ψ ≤ bhi ∧ c ≤ gd k ahi ψ)
    (h0 : alo ≤ 0 → 0 ≤ ahi → blo ≤ 0 → 0 ≤ bhi → c ≤ k) : ∃ ψ, blo ≤ ψ ∧ ψ ≤ bhi ∧ c ≤ gd k φ ψ := by
  rcases le_total 0 φ with hφ | hφ
  · exact gd_near_north hk hk1 a1 a2 b1 b2 h1 h2 hlo hhi h0 hφ
  · have tr : ∀ {x}, (∃ ψ, blo ≤ ψ ∧ ψ ≤ bhi ∧ c ≤ gd k x ψ) → ∃ ψ, -bhi ≤ ψ ∧ ψ ≤ -blo ∧ c ≤ gd k (-x) ψ := by
      rintro x ⟨ψ, p1, p2, p3⟩
      exact ⟨-ψ, by linarith, by linarith, by rw [gd_neg]; exact p3⟩
    obtain ⟨ψ, p1, p2, p3⟩ := gd_near_north (alo := -ahi) (ahi := -alo) (blo := -bhi) (bhi := -blo) (φ := -φ) hk hk1 (by linarith) (by linarith)
      (by linarith) (by linarith) (by linarith) (by linarith) (tr hhi) (tr hlo)
      (fun i1 i2 i3 i4 => h0 (by linarith) (by linarith) (by linarith) (by linarith)) (by linarith)
    refine ⟨-ψ, by linarith, by linarith, ?_⟩
    rw [← gd_neg, neg_neg]
    exact p3

/-- Meridians more than a right angle apart: the nearest point of a piece is one of its ends. -/
theorem gd_far_ends {k blo bhi φ ψ : ℝ} (hk : k ≤ 0) (f1 : -(Real.pi / 2) ≤ φ) (f2 : φ ≤ Real.pi / 2) (b1 : -(Real.pi / 2) ≤ blo) (b2 : bhi ≤ Real.pi / 2)
    (h1 : blo ≤ ψ) (h2 : ψ ≤ bhi) : gd k φ ψ ≤ max (gd k φ blo) (gd k φ bhi) := by
  have ca := Real.cos_nonneg_of_mem_Icc (x := φ) ⟨f1, f2⟩
  have := unimodal (A := -k * Real.cos φ) (B := -Real.sin φ) (mul_nonneg (by linarith) ca) b1 h1 h2 b2
  unfold gd
  rcases this with h | h
  · exact le_max_of_le_left (by linarith)
  · exact le_max_of_le_right (by linarith)

/-- Which end is nearer. -/
theorem gd_far_side {k blo bhi φ : ℝ} (h : blo ≤ bhi) (hb : bhi - blo ≤ 2 * Real.pi) :
    (Real.sin φ * Real.cos ((blo + bhi) / 2) ≤ k * Real.cos φ * Real.sin ((blo + bhi) / 2) → gd k φ bhi ≤ gd k φ blo) ∧
    (k * Real.cos φ * Real.sin ((blo + bhi) / 2) ≤ Real.sin φ * Real.cos ((blo + bhi) / 2) → gd k φ blo ≤ gd k φ bhi) := by
  have hs := Real.sin_nonneg_of_nonneg_of_le_pi (x := (bhi - blo) / 2) (by linarith) (by linarith)
  have e : gd k φ blo - gd k φ bhi = 2 * Real.sin ((bhi - blo) / 2) *
      (k * Real.cos φ * Real.sin ((blo + bhi) / 2) - Real.sin φ * Real.cos ((blo + bhi) / 2)) := by
    have e1 : blo = (blo + bhi) / 2 - (bhi - blo) / 2 := by ring
    have e2 : bhi = (blo + bhi) / 2 + (bhi - blo) / 2 := by ring
    unfold gd
    generalize (blo + bhi) / 2 = m at *
    generalize (bhi - blo) / 2 = d at *
    rw [e1, e2, Real.cos_sub, Real.cos_add, Real.sin_sub, Real.sin_add]
    ring
  constructor <;> intro h' <;> nlinarith

/-- The cosine of the distance to one point of a meridian more than a right angle away: the least value on a piece is at an end, or at the
antipode of the projection. -/
theorem gd_far_piece {k ψ lo hi φ R φ₀ : ℝ} (p1 : -(Real.pi / 2) ≤ φ₀) (p2 : φ₀ ≤ Real.pi / 2) (hR : 0 ≤ R)
    (e1 : -(k * Real.cos ψ) = R * Real.cos φ₀) (e2 : -Real.sin ψ = R * Real.sin φ₀)
    (h1 : -(Real.pi / 2) ≤ lo) (h2 : lo ≤ φ) (h3 : φ ≤ hi) (h4 : hi ≤ Real.pi / 2) :
    gd k φ₀ ψ = -R ∧ gd k φ₀ ψ ≤ gd k φ ψ ∧ (φ₀ ≤ lo → gd k lo ψ ≤ gd k φ ψ) ∧ (hi ≤ φ₀ → gd k hi ψ ≤ gd k φ ψ) := by
  have f : ∀ x, gd k x ψ = -(R * Real.cos (x - φ₀)) := by
    intro x
    unfold gd
    rw [Real.cos_sub]
    linear_combination (-Real.cos x) * e1 - Real.sin x * e2
  have hp := Real.pi_pos
  simp only [f]
  refine ⟨by rw [sub_self, Real.cos_zero, mul_one], ?_, fun h => ?_, fun h => ?_⟩
  · rw [sub_self, Real.cos_zero]
    have := mul_le_mul_of_nonneg_left (Real.cos_le_one (φ - φ₀)) hR
    linarith
  · have := mul_le_mul_of_nonneg_left (Real.cos_le_cos_of_nonneg_of_le_pi (x := lo - φ₀) (y := φ - φ₀) (by linarith) (by linarith) (by linarith)) hR
    linarith
  · have := mul_le_mul_of_nonneg_left (Real.cos_le_cos_of_nonneg_of_le_pi (x := φ₀ - hi) (y := φ₀ - φ) (by linarith) (by linarith) (by linarith)) hR
    rw [← Real.cos_neg (φ₀ - hi), ← Real.cos_neg (φ₀ - φ), neg_sub, neg_sub] at this
    linarith

end Verif
