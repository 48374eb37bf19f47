import Verif.Proofs.CapUnion2
import Mathlib.Analysis.Calculus.MeanValue
import Mathlib.Analysis.SpecialFunctions.Trigonometric.InverseDeriv
import Mathlib.Analysis.SpecialFunctions.Sqrt

/-!
# Lengths of paths on the sphere

The angle between the ends of a path is at most the length of the path; the speed of paths that are straight in the coordinates of a face.
-/

namespace Verif
open Spec Filter Topology

/-- A chord bounds the angle. -/
theorem ang_le_arcsin {p q : Vec ℝ} (hp : UnitV p) (hq : UnitV q) {c : ℝ} (hc : 0 ≤ c) (h : dot (diff p q) (diff p q) ≤ c ^ 2) :
    ang p q ≤ 2 * Real.arcsin (c / 2) := by
  rw [dist2_ang hp hq] at h
  unfold chordOf at h
  have h0 := ang_nonneg p q
  have h1 := ang_le_pi p q
  have hs : 0 ≤ Real.sin (ang p q / 2) := Real.sin_nonneg_of_nonneg_of_le_pi (by linarith) (by linarith)
  have : Real.sin (ang p q / 2) ≤ c / 2 := by nlinarith
  have k := Real.monotone_arcsin this
  rw [Real.arcsin_sin (by linarith) (by linarith)] at k
  linarith

/-- The angle between the ends of a path of bounded speed. -/
theorem ang_le_length {γ : ℝ → Vec ℝ} (hu : ∀ t, UnitV (γ t)) {L : ℝ} (hL : 0 ≤ L)
    (h : ∀ s t, 0 ≤ s → s ≤ t → t ≤ 1 → dot (diff (γ s) (γ t)) (diff (γ s) (γ t)) ≤ (L * (t - s)) ^ 2) : ang (γ 0) (γ 1) ≤ L := by
  have step : ∀ n : ℕ, ang (γ 0) (γ 1) ≤ ((n : ℝ) + 1) * (2 * Real.arcsin (L / ((n : ℝ) + 1) / 2)) := by
    intro n
    obtain ⟨N, hN⟩ : ∃ N : ℝ, N = (n : ℝ) + 1 := ⟨_, rfl⟩
    have hN0 : 0 < N := by rw [hN]; positivity
    rw [← hN]
    have ind : ∀ k : ℕ, (k : ℝ) ≤ N → ang (γ 0) (γ (k / N)) ≤ k * (2 * Real.arcsin (L / N / 2)) := by
      intro k
      induction k with
      | zero =>
        intro _
        simp only [Nat.cast_zero, zero_div, zero_mul]
        unfold ang
        rw [show dot (γ 0) (γ 0) = 1 from hu 0, Real.arccos_one]
      | succ k ih =>
        intro hk
        push_cast at hk ⊢
        have k0 : (0 : ℝ) ≤ k := Nat.cast_nonneg k
        have h1 := ih (by linarith)
        have h2 := h (k / N) ((k + 1) / N) (by positivity) (by rw [div_le_div_iff_of_pos_right hN0]; linarith) (by rw [div_le_one hN0]; exact hk)
        have e : (k + 1) / N - k / N = 1 / N := by rw [← sub_div]; congr 1; ring
        rw [e, mul_one_div] at h2
        have h3 := ang_le_arcsin (hu _) (hu _) (by positivity) h2
        have h4 := ang_triangle (hu 0) (hu (k / N)) (hu ((k + 1) / N))
        linarith
    have := ind (n + 1) (by push_cast; rw [hN])
    push_cast at this
    rw [← hN, div_self hN0.ne'] at this
    exact this
  have lim : Tendsto (fun n : ℕ => ((n : ℝ) + 1) * (2 * Real.arcsin (L / ((n : ℝ) + 1) / 2))) atTop (𝓝 L) := by
    have hd : HasDerivAt (fun x : ℝ => 2 * Real.arcsin (L * x / 2)) L 0 := by
      have h1 : HasDerivAt Real.arcsin (1 / Real.sqrt (1 - (0 : ℝ) ^ 2)) (L * 0 / 2) := by
        have := Real.hasDerivAt_arcsin (x := 0) (by norm_num) (by norm_num)
        simpa using this
      have h2 : HasDerivAt (fun x : ℝ => L * x / 2) (L / 2) 0 := by
        simpa using ((hasDerivAt_id (0 : ℝ)).const_mul L).div_const 2
      have h3 := (h1.comp (0 : ℝ) h2).const_mul (2 : ℝ)
      have e : 2 * (1 / √(1 - (0 : ℝ) ^ 2) * (L / 2)) = L := by norm_num; ring
      rw [e] at h3
      exact h3
    have hs := hd.tendsto_slope_zero
    have hx : Tendsto (fun n : ℕ => ((n : ℝ) + 1)⁻¹) atTop (𝓝[≠] 0) := by
      rw [tendsto_nhdsWithin_iff]
      refine ⟨by simpa using tendsto_one_div_add_atTop_nhds_zero_nat (𝕜 := ℝ), Eventually.of_forall fun n => ?_⟩
      have : (0 : ℝ) < (n : ℝ) + 1 := by positivity
      simpa using this.ne'
    have := hs.comp hx
    refine this.congr fun n => ?_
    have : (0 : ℝ) < (n : ℝ) + 1 := by positivity
    simp only [Function.comp, zero_add, mul_zero, zero_div, Real.arcsin_zero, sub_zero, inv_inv, smul_eq_mul]
    rw [div_eq_mul_inv L]
  exact ge_of_tendsto' lim step

/-! ## Paths on a face -/

/-- The unit vector of a point of a face, in the frame of the face. -/
noncomputable def facePt (u v : ℝ) : Vec ℝ := ⟨1 / √(1 + u ^ 2 + v ^ 2), u / √(1 + u ^ 2 + v ^ 2), v / √(1 + u ^ 2 + v ^ 2)⟩

theorem face_r (u v : ℝ) : 0 < √(1 + u ^ 2 + v ^ 2) ∧ √(1 + u ^ 2 + v ^ 2) ^ 2 = 1 + u ^ 2 + v ^ 2 :=
  ⟨Real.sqrt_pos.2 (by positivity), Real.sq_sqrt (by positivity)⟩

theorem facePt_unit (u v : ℝ) : UnitV (facePt u v) := by
  obtain ⟨h1, h2⟩ := face_r u v
  unfold UnitV facePt dot
  field_simp
  linarith

/-- The derivative of a component of a path on a face. -/
theorem facePt_deriv {u v : ℝ → ℝ} {u' v' t : ℝ} (hu : HasDerivAt u u' t) (hv : HasDerivAt v v' t) (w : Vec ℝ) :
    ∃ d, HasDerivAt (fun t => dot w (facePt (u t) (v t))) d t ∧
      d ^ 2 * (1 + u t ^ 2 + v t ^ 2) ^ 2 ≤ dot w w * ((1 + v t ^ 2) * u' ^ 2 - 2 * (u t * v t * (u' * v')) + (1 + u t ^ 2) * v' ^ 2) := by
  obtain ⟨h1, h2⟩ := face_r (u t) (v t)
  have hr : HasDerivAt (fun t => √(1 + u t ^ 2 + v t ^ 2)) ((2 * u t * u' + 2 * v t * v') / (2 * √(1 + u t ^ 2 + v t ^ 2))) t := by
    have hq : HasDerivAt (fun t => 1 + u t ^ 2 + v t ^ 2) (2 * u t * u' + 2 * v t * v') t := by
      exact (((hasDerivAt_const t (1 : ℝ)).add (hu.pow 2)).add (hv.pow 2)).congr_deriv (by norm_num)
    exact hq.sqrt (by positivity)
  have hn : HasDerivAt (fun t => w.x + w.y * u t + w.z * v t) (w.y * u' + w.z * v') t := by
    exact (((hasDerivAt_const t w.x).add (hu.const_mul w.y)).add (hv.const_mul w.z)).congr_deriv (by ring)
  have hd := hn.div hr h1.ne'
  refine ⟨_, hd.congr_of_eventuallyEq (Eventually.of_forall fun t => ?_), ?_⟩
  · obtain ⟨h1, -⟩ := face_r (u t) (v t)
    simp only [dot, facePt, Pi.div_apply]
    field_simp
  · obtain ⟨U, hU⟩ : ∃ U, U = u t := ⟨_, rfl⟩
    obtain ⟨V, hV⟩ : ∃ V, V = v t := ⟨_, rfl⟩
    simp only [← hU, ← hV] at h1 h2 ⊢
    obtain ⟨r, hr⟩ : ∃ r, r = √(1 + U ^ 2 + V ^ 2) := ⟨_, rfl⟩
    rw [← hr] at h1 h2 ⊢
    rw [← h2]
    have e : ((w.y * u' + w.z * v') * r - (w.x + w.y * U + w.z * V) * ((2 * U * u' + 2 * V * v') / (2 * r))) / r ^ 2 =
        (w.x * (-(U * u' + V * v')) + w.y * (u' * r ^ 2 - U * (U * u' + V * v')) + w.z * (v' * r ^ 2 - V * (U * u' + V * v'))) / r ^ 3 := by
      field_simp
      ring
    rw [e, div_pow, div_mul_eq_mul_div, div_le_iff₀ (by positivity)]
    have c : ∀ a b c a' b' c' : ℝ, (a * a' + b * b' + c * c') ^ 2 ≤ (a * a + b * b + c * c) * (a' ^ 2 + b' ^ 2 + c' ^ 2) := by
      intro a b c a' b' c'
      nlinarith [sq_nonneg (a * b' - b * a'), sq_nonneg (a * c' - c * a'), sq_nonneg (b * c' - c * b')]
    have k := c w.x w.y w.z (-(U * u' + V * v')) (u' * r ^ 2 - U * (U * u' + V * v')) (v' * r ^ 2 - V * (U * u' + V * v'))
    have e2 : (-(U * u' + V * v')) ^ 2 + (u' * r ^ 2 - U * (U * u' + V * v')) ^ 2 + (v' * r ^ 2 - V * (U * u' + V * v')) ^ 2 =
        ((1 + V ^ 2) * u' ^ 2 - 2 * (U * V * (u' * v')) + (1 + U ^ 2) * v' ^ 2) * r ^ 2 := by
      rw [h2]; ring
    rw [e2] at k
    have := mul_le_mul_of_nonneg_right k (show 0 ≤ (r ^ 2) ^ 2 by positivity)
    unfold dot
    linarith [this]

/-- The angle between the ends of a path on a face. -/
theorem face_path {u v u' v' : ℝ → ℝ} (hu : ∀ t, HasDerivAt u (u' t) t) (hv : ∀ t, HasDerivAt v (v' t) t) {L : ℝ} (hL : 0 ≤ L)
    (h : ∀ t, 0 ≤ t → t ≤ 1 → (1 + v t ^ 2) * u' t ^ 2 - 2 * (u t * v t * (u' t * v' t)) + (1 + u t ^ 2) * v' t ^ 2 ≤ L ^ 2 * (1 + u t ^ 2 + v t ^ 2) ^ 2) :
    ang (facePt (u 0) (v 0)) (facePt (u 1) (v 1)) ≤ L := by
  refine ang_le_length (γ := fun t => facePt (u t) (v t)) (fun t => facePt_unit _ _) hL fun s t hs hst ht => ?_
  obtain ⟨w, hw⟩ : ∃ w, w = diff (facePt (u s) (v s)) (facePt (u t) (v t)) := ⟨_, rfl⟩
  show dot (diff (facePt (u s) (v s)) (facePt (u t) (v t))) (diff (facePt (u s) (v s)) (facePt (u t) (v t))) ≤ _
  rw [← hw]
  have w0 : 0 ≤ dot w w := by unfold dot; nlinarith [sq_nonneg w.x, sq_nonneg w.y, sq_nonneg w.z]
  have key : |dot w (facePt (u t) (v t)) - dot w (facePt (u s) (v s))| ≤ √(dot w w) * L * |t - s| := by
    choose d hd hb using fun x => facePt_deriv (hu x) (hv x) w
    have := Convex.norm_image_sub_le_of_norm_hasDerivWithin_le (f := fun x => dot w (facePt (u x) (v x))) (f' := d) (C := √(dot w w) * L) (s := Set.Icc 0 1) (x := s) (y := t)
      (fun x _ => (hd x).hasDerivWithinAt) (fun x hx => ?_) (convex_Icc 0 1) ⟨hs, by linarith⟩ ⟨by linarith, ht⟩
    · simpa only [Real.norm_eq_abs] using this
    · rw [Real.norm_eq_abs]
      apply abs_le_of_sq_le_sq _ (by positivity)
      rw [mul_pow, Real.sq_sqrt w0]
      have k1 := hb x
      have k2 := mul_le_mul_of_nonneg_left (h x hx.1 hx.2) w0
      have hp : 0 < (1 + u x ^ 2 + v x ^ 2) ^ 2 := by positivity
      have k3 : d x ^ 2 * (1 + u x ^ 2 + v x ^ 2) ^ 2 ≤ (dot w w * L ^ 2) * (1 + u x ^ 2 + v x ^ 2) ^ 2 := by linarith
      exact le_of_mul_le_mul_right k3 hp
  have e : dot w (facePt (u t) (v t)) - dot w (facePt (u s) (v s)) = -dot w w := by
    have : ∀ a b : Vec ℝ, dot (diff a b) b - dot (diff a b) a = -dot (diff a b) (diff a b) := by intro a b; simp only [dot, diff]; ring
    have := this (facePt (u s) (v s)) (facePt (u t) (v t))
    rwa [← hw] at this
  rw [e, abs_neg, abs_of_nonneg w0, abs_of_nonneg (show 0 ≤ t - s by linarith)] at key
  have sq := Real.sq_sqrt w0
  have s0 := Real.sqrt_nonneg (dot w w)
  obtain ⟨R, hR⟩ : ∃ R, R = √(dot w w) := ⟨_, rfl⟩
  rw [← hR] at key sq s0
  rw [← sq] at key ⊢
  have b0 : 0 ≤ L * (t - s) := mul_nonneg hL (by linarith)
  rcases s0.eq_or_lt with z | z
  · rw [← z]; nlinarith
  · have : R ≤ L * (t - s) := by
      have : R * R ≤ R * (L * (t - s)) := by linarith
      exact le_of_mul_le_mul_left this z
    exact pow_le_pow_left₀ s0 this 2

end Verif
