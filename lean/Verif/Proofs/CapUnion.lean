import Verif.Proofs.CapCell

/-!
# How far a point is from the cells that do not touch a grid point

Cube coordinates: a face is the square `[-1, 1] × [-1, 1]`; `gUV` takes a grid coordinate to the `u` or `v` coordinate.
-/

namespace Verif
open Spec

/-- The quadratic projection with its argument in `[-1, 1]`. -/
noncomputable def gUV (s : ℝ) : ℝ := s * (|s| + 2) / 3

theorem gUV_neg (s : ℝ) : gUV (-s) = -gUV s := by unfold gUV; rw [abs_neg]; ring

theorem gUV_mono : StrictMono gUV := by
  intro a b h
  unfold gUV
  rcases abs_cases a with ⟨e1, h1⟩ | ⟨e1, h1⟩ <;> rcases abs_cases b with ⟨e2, h2⟩ | ⟨e2, h2⟩ <;> rw [e1, e2]
  · nlinarith
  · linarith
  · nlinarith
  · nlinarith

theorem gUV_one : gUV 1 = 1 := by unfold gUV; norm_num
theorem gUV_negOne : gUV (-1) = -1 := by rw [gUV_neg, gUV_one]
theorem gUV_gt_one {s : ℝ} (h : 1 < s) : 1 < gUV s := by
  have := gUV_mono h
  rwa [gUV_one] at this

theorem gUV_lt_one {s : ℝ} (h : s < 1) : gUV s < 1 := by
  have := gUV_mono h
  rwa [gUV_one] at this

theorem gUV_zero : gUV 0 = 0 := by unfold gUV; norm_num

theorem gUV_stToUV (s : ℝ) : stToUV _root_.id s = gUV (2 * s - 1) := by
  unfold stToUV gUV
  simp only [_root_.id]
  split_ifs with h
  · rw [abs_of_nonneg (by linarith)]; ring
  · rw [abs_of_neg (by linarith)]; ring

/-- The width of a strip of a face. -/
theorem strip_width {t d : ℝ} (h0 : -1 ≤ t) (hd : 0 < d) (hd1 : d ≤ 1) (h1 : t + d ≤ 1) :
    2 * d ^ 2 * ((1 + gUV (t + d) ^ 2) * (2 + gUV t ^ 2)) ≤ 9 * (gUV (t + d) - gUV t) ^ 2 := by
  have key : ∀ a b : ℝ, 0 ≤ a → a ≤ 1 → 0 ≤ b → b ≤ 1 → 2 * ((1 + b ^ 2) * (2 + a ^ 2)) ≤ (a + b + 2) ^ 2 := by
    intro a b a0 a1 b0 b1
    have p : 0 ≤ a * b := mul_nonneg a0 b0
    have p1 : a * b ≤ 1 := by nlinarith
    nlinarith
  have sq : ∀ a : ℝ, 0 ≤ a → a ≤ 1 → 0 ≤ (a * (a + 2) / 3) ^ 2 ∧ (a * (a + 2) / 3) ^ 2 ≤ a ^ 2 := by
    intro a a0 a1
    refine ⟨sq_nonneg _, ?_⟩
    have : a * (a + 2) / 3 ≤ a := by nlinarith
    have : 0 ≤ a * (a + 2) / 3 := by positivity
    nlinarith
  have grow : ∀ a b A B : ℝ, 0 ≤ A → A ≤ a → 0 ≤ B → B ≤ b → (1 + B) * (2 + A) ≤ (1 + b) * (2 + a) := by
    intro a b A B h1 h2 h3 h4
    exact mul_le_mul (by linarith) (by linarith) (by linarith) (by linarith)
  obtain ⟨t', ht'⟩ : ∃ t', t' = t + d := ⟨_, rfl⟩
  rw [← ht'] at h1 ⊢
  have d0 : 0 ≤ d ^ 2 := sq_nonneg d
  rcases le_or_gt 0 t with p | p
  · have p' : 0 ≤ t' := by linarith
    have e1 : gUV t = t * (t + 2) / 3 := by unfold gUV; rw [abs_of_nonneg p]
    have e2 : gUV t' = t' * (t' + 2) / 3 := by unfold gUV; rw [abs_of_nonneg p']
    have e3 : 9 * (gUV t' - gUV t) ^ 2 = d ^ 2 * (t + t' + 2) ^ 2 := by rw [e1, e2, ht']; ring
    rw [e3, mul_comm 2 (d ^ 2), mul_assoc]
    apply mul_le_mul_of_nonneg_left _ d0
    refine le_trans ?_ (key t t' p (by linarith) p' h1)
    rw [e1, e2]
    have s1 := sq t p (by linarith)
    have s2 := sq t' p' h1
    linarith [grow _ _ _ _ s1.1 s1.2 s2.1 s2.2]
  · rcases le_or_gt t' 0 with p' | p'
    · have e1 : gUV t = -((-t) * (-t + 2) / 3) := by unfold gUV; rw [abs_of_neg p]; ring
      have e2 : gUV t' = -((-t') * (-t' + 2) / 3) := by unfold gUV; rw [abs_of_nonpos p']; ring
      have e3 : 9 * (gUV t' - gUV t) ^ 2 = d ^ 2 * (-t + -t' + 2) ^ 2 := by rw [e1, e2, ht']; ring
      rw [e3, mul_comm 2 (d ^ 2), mul_assoc]
      apply mul_le_mul_of_nonneg_left _ d0
      refine le_trans ?_ (key (-t) (-t') (by linarith) (by linarith) (by linarith) (by linarith))
      rw [e1, e2, neg_sq, neg_sq]
      have s1 := sq (-t) (by linarith) (by linarith)
      have s2 := sq (-t') (by linarith) (by linarith)
      linarith [grow _ _ _ _ s1.1 s1.2 s2.1 s2.2]
    · have e1 : gUV t = -((-t) * (-t + 2) / 3) := by unfold gUV; rw [abs_of_neg p]; ring
      have e2 : gUV t' = t' * (t' + 2) / 3 := by unfold gUV; rw [abs_of_pos p']
      obtain ⟨a, ha⟩ : ∃ a, a = -t := ⟨_, rfl⟩
      have s1 := sq (-t) (by linarith) (by linarith)
      have s2 := sq t' p'.le h1
      have g := grow _ _ _ _ s1.1 s1.2 s2.1 s2.2
      have hd' : d = a + t' := by linarith
      have e3 : 9 * (gUV t' - gUV t) ^ 2 = (a ^ 2 + t' ^ 2 + 2 * d) ^ 2 := by rw [e1, e2, hd', ha]; ring
      rw [e3, e1, e2, neg_sq]
      have a0 : 0 < a := by linarith
      rw [← ha] at *
      refine le_trans (mul_le_mul_of_nonneg_left g (by positivity)) ?_
      have m1 : 0 ≤ d * (1 - d) := mul_nonneg hd.le (by linarith)
      have m2 : 0 ≤ d * (1 - d) * (2 * a ^ 2 + 4 * t' ^ 2) := mul_nonneg m1 (by positivity)
      have m3 : d ^ 2 ≤ 1 := by nlinarith
      have m4 : 0 ≤ (1 - d ^ 2) * (a ^ 2 * t' ^ 2) := mul_nonneg (by linarith) (by positivity)
      have m5 : 0 ≤ d * a ^ 2 := by positivity
      nlinarith [sq_nonneg (a ^ 2 - t' ^ 2), sq_nonneg (a * t')]

/-- The distance of a point before a strip from the far side of the strip. -/
theorem strip_dist {x y z b t d : ℝ} (hb : b = gUV (t + d)) (h0 : -1 ≤ t) (hd : 0 < d) (hd1 : d ≤ 1) (h1 : t + d ≤ 1)
    (hu : x ^ 2 + y ^ 2 + z ^ 2 = 1) (hx : 0 < x) (hy : |y| ≤ x) (hz : |z| ≤ x) (hyt : y ≤ gUV t * x) :
    0 < b * x - y ∧ 2 * d ^ 2 * (1 + b ^ 2) ≤ 9 * (b * x - y) ^ 2 := by
  have w := strip_width h0 hd hd1 h1
  rw [← hb] at w
  obtain ⟨a, ha⟩ : ∃ a, a = gUV t := ⟨_, rfl⟩
  have hab : a < b := by rw [ha, hb]; exact gUV_mono (by linarith)
  have hb1 : b ≤ 1 := by rw [hb, ← gUV_one]; exact gUV_mono.monotone h1
  have ha1 : -1 ≤ a := by rw [ha, ← gUV_negOne]; exact gUV_mono.monotone h0
  rw [← ha] at w hyt
  rw [abs_le] at hy hz
  have p1 : a * x < b * x := mul_lt_mul_of_pos_right hab hx
  refine ⟨by linarith, ?_⟩
  -- monotonicity
  obtain ⟨A, hA⟩ : ∃ A, A = b * x - y := ⟨_, rfl⟩
  obtain ⟨B, hB⟩ : ∃ B, B = (b - a) * x := ⟨_, rfl⟩
  have hAB : B ≤ A := by rw [hA, hB]; linarith
  have hB0 : 0 < B := by rw [hB]; exact mul_pos (by linarith) hx
  have m : B ^ 2 * (2 * x ^ 2 + y ^ 2) ≤ A ^ 2 * (2 * x ^ 2 + (a * x) ^ 2) := by
    have id1 : A ^ 2 * (2 * x ^ 2 + (a * x) ^ 2) - B ^ 2 * (2 * x ^ 2 + y ^ 2) = (A - B) * x * (2 * x * (A + B) + b * (A * (a * x) + B * y)) := by
      rw [hA, hB]; ring
    have q1 : -(A * x + B * x) ≤ b * (A * (a * x) + B * y) := by
      have r1 : -(A * x) ≤ b * (A * (a * x)) := by
        have : -1 ≤ b * a := by nlinarith
        have := mul_le_mul_of_nonneg_left this (mul_nonneg (hB0.le.trans hAB) hx.le)
        linarith
      have r2 : -(B * x) ≤ b * (B * y) := by
        have hbm : -1 ≤ b := by linarith
        have : -x ≤ b * y := by nlinarith
        have := mul_le_mul_of_nonneg_left this hB0.le
        linarith
      linarith
    have : 0 ≤ (A - B) * x * (2 * x * (A + B) + b * (A * (a * x) + B * y)) := by
      apply mul_nonneg (mul_nonneg (by linarith) hx.le)
      nlinarith
    linarith
  rw [← hA]
  have n1 : 1 ≤ 2 * x ^ 2 + y ^ 2 := by nlinarith
  have n2 : B ^ 2 ≤ A ^ 2 * (x ^ 2 * (2 + a ^ 2)) := by
    have : B ^ 2 * 1 ≤ B ^ 2 * (2 * x ^ 2 + y ^ 2) := mul_le_mul_of_nonneg_left n1 (sq_nonneg _)
    have e : A ^ 2 * (2 * x ^ 2 + (a * x) ^ 2) = A ^ 2 * (x ^ 2 * (2 + a ^ 2)) := by ring
    linarith
  have n3 : (b - a) ^ 2 ≤ A ^ 2 * (2 + a ^ 2) := by
    have : x ^ 2 * (b - a) ^ 2 ≤ x ^ 2 * (A ^ 2 * (2 + a ^ 2)) := by rw [hB] at n2; linarith
    exact le_of_mul_le_mul_left this (by positivity)
  have n4 : 2 * d ^ 2 * (1 + b ^ 2) * (2 + a ^ 2) ≤ 9 * A ^ 2 * (2 + a ^ 2) := by linarith
  exact le_of_mul_le_mul_right n4 (by positivity)

/-- A point beyond a plane is farther than the plane. -/
theorem plane_far {x y z a b c n1 n2 n3 w : ℝ} (hc : x ^ 2 + y ^ 2 + z ^ 2 = 1) (hq : a ^ 2 + b ^ 2 + c ^ 2 = 1)
    (h1 : n1 * a + n2 * b + n3 * c ≤ 0) (h2 : 0 < n1 * x + n2 * y + n3 * z) (hw0 : 0 < w) (hw1 : w ≤ 1)
    (h3 : w ^ 2 * (n1 ^ 2 + n2 ^ 2 + n3 ^ 2) ≤ (n1 * x + n2 * y + n3 * z) ^ 2) : x * a + y * b + z * c < Real.cos w := by
  by_contra h
  rw [not_lt] at h
  obtain ⟨N, hN⟩ : ∃ N, N = n1 ^ 2 + n2 ^ 2 + n3 ^ 2 := ⟨_, rfl⟩
  have hN0 : 0 < N := by
    by_contra hn
    have : n1 = 0 ∧ n2 = 0 ∧ n3 = 0 := by
      refine ⟨?_, ?_, ?_⟩ <;> nlinarith [sq_nonneg n1, sq_nonneg n2, sq_nonneg n3]
    obtain ⟨rfl, rfl, rfl⟩ := this
    simp at h2
  obtain ⟨s, hs⟩ : ∃ s, s = Real.sqrt N := ⟨_, rfl⟩
  have s0 : 0 < s := by rw [hs]; exact Real.sqrt_pos.2 hN0
  have s2 : s * s = N := by rw [hs]; exact Real.mul_self_sqrt hN0.le
  have cpos : 0 < Real.cos w := Real.cos_pos_of_mem_Ioo ⟨by linarith [Real.pi_pos], by linarith [Real.pi_gt_three]⟩
  have un : UnitV (⟨-n1 / s, -n2 / s, -n3 / s⟩ : Vec ℝ) := by
    show -n1 / s * (-n1 / s) + -n2 / s * (-n2 / s) + -n3 / s * (-n3 / s) = 1
    field_simp
    nlinarith
  have key := plane_reach (p := ⟨a, b, c⟩) (c := ⟨x, y, z⟩) (n := ⟨-n1 / s, -n2 / s, -n3 / s⟩) (k := Real.cos w)
    (by show a * a + b * b + c * c = 1; linarith) (by show x * x + y * y + z * z = 1; linarith) un cpos.le
    (by show Real.cos w ≤ a * x + b * y + c * z; linarith)
    (by
      show 0 ≤ -n1 / s * a + -n2 / s * b + -n3 / s * c
      have : -n1 / s * a + -n2 / s * b + -n3 / s * c = -(n1 * a + n2 * b + n3 * c) / s := by ring
      rw [this]
      exact div_nonneg (by linarith) s0.le)
    (by
      show x * (-n1 / s) + y * (-n2 / s) + z * (-n3 / s) ≤ 0
      have : x * (-n1 / s) + y * (-n2 / s) + z * (-n3 / s) = -((n1 * x + n2 * y + n3 * z) / s) := by ring
      rw [this]
      have := div_pos h2 s0
      linarith)
  have e : dot (⟨x, y, z⟩ : Vec ℝ) ⟨-n1 / s, -n2 / s, -n3 / s⟩ = -((n1 * x + n2 * y + n3 * z) / s) := by
    simp only [dot]; ring
  rw [e] at key
  have hsin : Real.sin w < w := Real.sin_lt hw0
  have hsin0 : 0 < Real.sin w := Real.sin_pos_of_pos_of_lt_pi hw0 (by linarith [Real.pi_gt_three])
  have k2 : ((n1 * x + n2 * y + n3 * z) / s) ^ 2 ≤ Real.sin w ^ 2 := by
    have := Real.sin_sq_add_cos_sq w
    nlinarith
  have k3 : w ^ 2 ≤ ((n1 * x + n2 * y + n3 * z) / s) ^ 2 := by
    rw [div_pow, le_div_iff₀ (by positivity), pow_two s, s2, hN]
    exact h3
  nlinarith

/-- `q` is between the grid lines at distance `H` from `P`; `m` is the greatest coordinate. -/
def Nr (P H m q : ℝ) : Prop := gUV (P - H) * m < q ∧ q < gUV (P + H) * m

theorem Nr.neg {P H m q : ℝ} (h : Nr P H m q) : Nr (-P) H m (-q) := by
  obtain ⟨h1, h2⟩ := h
  constructor
  · rw [show -P - H = -(P + H) by ring, gUV_neg]; linarith
  · rw [show -P + H = -(P - H) by ring, gUV_neg]; linarith

/-- A grid coordinate with mesh `H`: at the end of the face or at least `H` from it. -/
def Grid (H P : ℝ) : Prop := -1 ≤ P ∧ P ≤ 1 ∧ (P = 1 ∨ P + H ≤ 1) ∧ (P = -1 ∨ -1 ≤ P - H)

theorem Grid.neg {H P : ℝ} (h : Grid H P) : Grid H (-P) := by
  obtain ⟨h1, h2, h3, h4⟩ := h
  refine ⟨by linarith, by linarith, ?_, ?_⟩
  · rcases h4 with h | h
    · left; linarith
    · right; linarith
  · rcases h3 with h | h
    · left; linarith
    · right; linarith

/-- The width that belongs to the mesh `H`. -/
noncomputable def widthOf (H : ℝ) : ℝ := Real.sqrt 2 / 6 * H

theorem widthOf_sq (H : ℝ) : widthOf H ^ 2 = H ^ 2 / 18 := by
  unfold widthOf
  rw [mul_pow, div_pow, Real.sq_sqrt (by norm_num)]; ring

theorem widthOf_pos {H : ℝ} (h : 0 < H) : 0 < widthOf H := by unfold widthOf; positivity

theorem widthOf_le {H : ℝ} (h : 0 < H) (h2 : H ≤ 2) : widthOf H ≤ 1 := by
  have := widthOf_sq H
  have := widthOf_pos h
  nlinarith

section core
variable {cx cy cz qx qy qz H P m : ℝ} (hH : 0 < H) (hH2 : H ≤ 2) (hc : cx ^ 2 + cy ^ 2 + cz ^ 2 = 1) (hq : qx ^ 2 + qy ^ 2 + qz ^ 2 = 1)
  (hx : 0 < cx) (hy : |cy| ≤ cx) (hz : |cz| ≤ cx) (hd : Real.cos (widthOf H) ≤ cx * qx + cy * qy + cz * qz)
include hH hH2 hc hq hx hy hz hd

/-- A plane at the width. -/
theorem no_plane {n1 n2 n3 : ℝ} (h1 : n1 * qx + n2 * qy + n3 * qz ≤ 0) (h2 : 0 < n1 * cx + n2 * cy + n3 * cz)
    (h3 : H ^ 2 * (n1 ^ 2 + n2 ^ 2 + n3 ^ 2) ≤ 18 * (n1 * cx + n2 * cy + n3 * cz) ^ 2) : False := by
  have := plane_far hc hq h1 h2 (widthOf_pos hH) (widthOf_le hH hH2) (by rw [widthOf_sq]; linarith)
  linarith

/-- The strip of the grid point. -/
theorem core_strip (hP : -1 ≤ P) (hP1 : P + H ≤ 1) (hcy : cy ≤ gUV (P + H / 2) * cx) :
    0 < gUV (P + H) * cx - cy ∧ H ^ 2 * (1 + gUV (P + H) ^ 2) ≤ 18 * (gUV (P + H) * cx - cy) ^ 2 ∧ -1 < gUV (P + H) ∧ gUV (P + H) ≤ 1 := by
  obtain ⟨a, b⟩ := strip_dist (b := gUV (P + H)) (t := P + H / 2) (d := H / 2) (by congr 1; ring) (by linarith) (by linarith) (by linarith) (by linarith) hc hx hy hz hcy
  refine ⟨a, by linarith, ?_, ?_⟩
  · rw [← gUV_negOne]; exact gUV_mono (by linarith)
  · rw [← gUV_one]; exact gUV_mono.monotone hP1

theorem core_face (hP : Grid H P) (hcy : cy ≤ gUV (P + H / 2) * cx) (h : qy = m) (hm : |qx| ≤ m) : P = 1 := by
  rcases hP.2.2.1 with h1 | h1
  · exact h1
  exfalso
  obtain ⟨a1, a2, a3, a4⟩ := core_strip hH hH2 hc hq hx hy hz hd hP.1 h1 hcy
  generalize gUV (P + H) = b at *
  refine no_plane hH hH2 hc hq hx hy hz hd (n1 := b) (n2 := -1) (n3 := 0) ?_ (by linarith) (by nlinarith)
  rw [abs_le] at hm
  rw [h]
  have : b * qx ≤ m := by nlinarith
  linarith

/-- The upper bound of a coordinate other than that of the face of `c`. -/
theorem core_upper (hP : Grid H P) (hcy : cy ≤ gUV (P + H / 2) * cx) (hmy : |qy| ≤ m) (hmx : |qx| ≤ m) (hm0 : 0 < m)
    (h : qx = m ∨ qy = m ∨ qy = -m ∨ qz = m ∨ qz = -m) : qy < gUV (P + H) * m := by
  rw [abs_le] at hmy
  rcases hP.2.2.1 with h1 | h1
  · rw [h1]
    have : 1 < gUV (1 + H) := gUV_gt_one (by linarith)
    nlinarith
  by_contra hn
  rw [not_lt] at hn
  obtain ⟨a1, a2, a3, a4⟩ := core_strip hH hH2 hc hq hx hy hz hd hP.1 h1 hcy
  have face := fun h' => core_face (m := m) hH hH2 hc hq hx hy hz hd hP hcy h' hmx
  generalize gUV (P + H) = b at *
  rw [abs_le] at hmx hz
  have std : b * qx - qy ≤ 0 → False := fun k =>
    no_plane hH hH2 hc hq hx hy (abs_le.2 hz) hd (n1 := b) (n2 := -1) (n3 := 0) (by linarith) (by linarith) (by nlinarith)
  have side : ∀ s : ℝ, s = 1 ∨ s = -1 → s * qz = m → False := by
    intro s hs hsz
    rcases le_or_gt 0 b with b0 | b0
    · exact std (by nlinarith)
    · have hcz : s * cz ≤ cx := by rcases hs with rfl | rfl <;> linarith
      have hge : b * cx - cy ≤ b * (s * cz) - cy := by nlinarith
      have s2 : s ^ 2 = 1 := by rcases hs with rfl | rfl <;> norm_num
      refine no_plane hH hH2 hc hq hx hy (abs_le.2 hz) hd (n1 := 0) (n2 := -1) (n3 := b * s) ?_ (by linarith) ?_
      · have : b * s * qz = b * m := by rw [mul_assoc, hsz]
        linarith
      · have e : 0 * cx + -1 * cy + b * s * cz = b * (s * cz) - cy := by ring
        rw [e]
        have e2 : (0 : ℝ) ^ 2 + (-1) ^ 2 + (b * s) ^ 2 = 1 + b ^ 2 := by rw [mul_pow, s2]; ring
        rw [e2]
        have : (b * cx - cy) ^ 2 ≤ (b * (s * cz) - cy) ^ 2 := by nlinarith
        linarith
  rcases h with h | h | h | h | h
  · exact std (by rw [h]; linarith)
  · have := face h
    linarith
  · rw [h] at hn
    nlinarith
  · exact side 1 (Or.inl rfl) (by linarith)
  · exact side (-1) (Or.inr rfl) (by linarith)

/-- The far side of the cell on the next face. -/
theorem core_far (hH' : H ≤ 1 ∨ H = 2) (hcy : gUV (1 - H / 2) * cx ≤ cy) (hqy : qy = m) : gUV (1 - H) * m < qx := by
  by_contra hn
  rw [not_lt] at hn
  have hy0 : 0 ≤ cy := by
    have : 0 ≤ gUV (1 - H / 2) := by rw [← gUV_zero]; exact gUV_mono.monotone (by linarith)
    nlinarith
  have hy1 := (abs_le.1 hy).2
  rw [abs_le] at hz
  have hz2 : cz ^ 2 ≤ cx ^ 2 := by nlinarith
  rcases hH' with h | h
  · have e : gUV (1 - H) = (1 - H) * (3 - H) / 3 := by unfold gUV; rw [abs_of_nonneg (by linarith)]; ring
    have a0 : 0 ≤ gUV (1 - H) := by rw [e]; exact div_nonneg (mul_nonneg (by linarith) (by linarith)) (by norm_num)
    have a1 : gUV (1 - H) ≤ 1 - H := by rw [e]; nlinarith
    generalize gUV (1 - H) = a at *
    have k : H * cx ≤ cx - a * cy := by nlinarith
    have kp : 0 < H * cx := mul_pos hH hx
    refine no_plane hH hH2 hc hq hx hy (abs_le.2 hz) hd (n1 := 1) (n2 := -a) (n3 := 0) (by rw [hqy]; linarith) (by linarith) ?_
    have e2 : 1 * cx + -a * cy + 0 * cz = cx - a * cy := by ring
    rw [e2]
    have k2 : (H * cx) ^ 2 ≤ (cx - a * cy) ^ 2 := by nlinarith
    have k3 : 1 ≤ 3 * cx ^ 2 := by nlinarith
    have k4 : a ^ 2 ≤ 1 := by nlinarith
    have k5 : H ^ 2 * (1 + a ^ 2) ≤ H ^ 2 * 2 := mul_le_mul_of_nonneg_left (by linarith) (sq_nonneg _)
    have k6 : H ^ 2 * 1 ≤ H ^ 2 * (3 * cx ^ 2) := mul_le_mul_of_nonneg_left k3 (sq_nonneg _)
    nlinarith
  · subst h
    have e : gUV (1 - 2) = -1 := by rw [show (1 : ℝ) - 2 = -1 by norm_num, gUV_negOne]
    rw [e] at hn
    refine no_plane hH hH2 hc hq hx hy (abs_le.2 hz) hd (n1 := 1) (n2 := 1) (n3 := 0) (by rw [hqy]; linarith) (by linarith) ?_
    nlinarith

/-- The opposite face is out of reach. -/
theorem core_opposite (h : qx = -m) (hm : 0 < m) : False := by
  refine no_plane hH hH2 hc hq hx hy hz hd (n1 := 1) (n2 := 0) (n3 := 0) (by linarith) (by linarith) ?_
  rw [abs_le] at hy hz
  have : cz ^ 2 ≤ cx ^ 2 := by nlinarith
  have : cy ^ 2 ≤ cx ^ 2 := by nlinarith
  nlinarith

end core

/-- What is known about a point near the grid point `P`: its coordinates are close to those of `P`, and its face is a face of `P`. -/
def Reach (H : ℝ) (P q : Vec ℝ) : Prop :=
  ∀ m, |q.x| ≤ m → |q.y| ≤ m → |q.z| ≤ m → (q.x = m ∨ q.x = -m ∨ q.y = m ∨ q.y = -m ∨ q.z = m ∨ q.z = -m) →
    Nr P.x H m q.x ∧ Nr P.y H m q.y ∧ Nr P.z H m q.z ∧ ((q.x = m → P.x = 1) ∧ (q.x = -m → P.x = -1)) ∧
    ((q.y = m → P.y = 1) ∧ (q.y = -m → P.y = -1)) ∧ (q.z = m → P.z = 1) ∧ (q.z = -m → P.z = -1)

/-- A coordinate between the grid lines at distance `H / 2`. -/
def InStrip (P H m q : ℝ) : Prop := gUV (P - H / 2) * m ≤ q ∧ q ≤ gUV (P + H / 2) * m

theorem InStrip.neg {P H m q : ℝ} (h : InStrip P H m q) : InStrip (-P) H m (-q) := by
  obtain ⟨h1, h2⟩ := h
  constructor
  · rw [show -P - H / 2 = -(P + H / 2) by ring, gUV_neg]; linarith
  · rw [show -P + H / 2 = -(P - H / 2) by ring, gUV_neg]; linarith

/-- Everything in the frame of the face of `c`. -/
theorem core_reach {c q P : Vec ℝ} {H : ℝ} (hH : 0 < H) (hH' : H ≤ 1 ∨ H = 2) (uc : UnitV c) (uq : UnitV q) (hx : 0 < c.x) (hy : |c.y| ≤ c.x) (hz : |c.z| ≤ c.x)
    (hd : Real.cos (widthOf H) ≤ dot c q) (hPx : P.x = 1) (gy : Grid H P.y) (gz : Grid H P.z) (wy : InStrip P.y H c.x c.y) (wz : InStrip P.z H c.x c.z) : Reach H P q := by
  obtain ⟨cx, cy, cz⟩ := c
  obtain ⟨qx, qy, qz⟩ := q
  obtain ⟨Px, Py, Pz⟩ := P
  dsimp only at *
  have hH2 : H ≤ 2 := by rcases hH' with h | h <;> linarith
  have hc : cx ^ 2 + cy ^ 2 + cz ^ 2 = 1 := by have : cx * cx + cy * cy + cz * cz = 1 := uc; linarith
  have hq : qx ^ 2 + qy ^ 2 + qz ^ 2 = 1 := by have : qx * qx + qy * qy + qz * qz = 1 := uq; linarith
  replace hd : Real.cos (widthOf H) ≤ cx * qx + cy * qy + cz * qz := hd
  have hy' : |-cy| ≤ cx := by rwa [abs_neg]
  have hz' : |-cz| ≤ cx := by rwa [abs_neg]
  have wy' := wy.neg
  have wz' := wz.neg
  unfold Reach
  dsimp only
  intro m mx my mz h
  have hm : 0 < m := by
    have : 0 ≤ m := (abs_nonneg _).trans mx
    rcases lt_or_eq_of_le this with h | h
    · exact h
    · exfalso
      rw [← h] at mx my mz
      have e1 := abs_nonpos_iff.1 mx
      have e2 := abs_nonpos_iff.1 my
      have e3 := abs_nonpos_iff.1 mz
      rw [e1, e2, e3] at hq
      norm_num at hq
  have my' : |-qy| ≤ m := by rwa [abs_neg]
  have mz' : |-qz| ≤ m := by rwa [abs_neg]
  have opp : qx = -m → False := fun h => core_opposite hH hH2 hc hq hx hy hz hd h hm
  have f1 : qy = m → Py = 1 := fun h => core_face (m := m) hH hH2 hc hq hx hy hz hd gy wy.2 h mx
  have f2 : qy = -m → Py = -1 := fun h => by
    have := core_face (m := m) (cy := -cy) (cz := cz) (qx := qx) (qy := -qy) (qz := qz) hH hH2 (by linarith) (by linarith) hx hy' hz (by linarith) gy.neg wy'.2 (by linarith) mx
    linarith
  have f3 : qz = m → Pz = 1 := fun h => core_face (m := m) (cy := cz) (cz := cy) (qx := qx) (qy := qz) (qz := qy) hH hH2 (by linarith) (by linarith) hx hz hy (by linarith) gz wz.2 h mx
  have f4 : qz = -m → Pz = -1 := fun h => by
    have := core_face (m := m) (cy := -cz) (cz := cy) (qx := qx) (qy := -qz) (qz := qy) hH hH2 (by linarith) (by linarith) hx hz' hy (by linarith) gz.neg wz'.2 (by linarith) mx
    linarith
  have h' : qx = m ∨ qy = m ∨ qy = -m ∨ qz = m ∨ qz = -m := by
    rcases h with h | h | h | h | h | h
    · exact Or.inl h
    · exact (opp h).elim
    · exact Or.inr (Or.inl h)
    · exact Or.inr (Or.inr (Or.inl h))
    · exact Or.inr (Or.inr (Or.inr (Or.inl h)))
    · exact Or.inr (Or.inr (Or.inr (Or.inr h)))
  have hyn : qx = m ∨ -qy = m ∨ -qy = -m ∨ qz = m ∨ qz = -m := by
    rcases h' with h | h | h | h | h
    · exact Or.inl h
    · exact Or.inr (Or.inr (Or.inl (by linarith)))
    · exact Or.inr (Or.inl (by linarith))
    · exact Or.inr (Or.inr (Or.inr (Or.inl h)))
    · exact Or.inr (Or.inr (Or.inr (Or.inr h)))
  have hzp : qx = m ∨ qz = m ∨ qz = -m ∨ qy = m ∨ qy = -m := by
    rcases h' with h | h | h | h | h <;> simp [h]
  have hzn : qx = m ∨ -qz = m ∨ -qz = -m ∨ qy = m ∨ qy = -m := by
    rcases h' with h | h | h | h | h <;> simp [h]
  have nx : Nr Px H m qx := by
    rw [hPx]
    constructor
    · rcases h' with h | h | h | h | h
      · rw [h]
        have : gUV (1 - H) < 1 := gUV_lt_one (by linarith)
        nlinarith
      · have e := f1 h
        rw [e] at wy
        exact core_far (m := m) hH hH2 hc hq hx hy hz hd hH' wy.1 h
      · have e := f2 h
        rw [e, neg_neg] at wy'
        exact core_far (m := m) (cy := -cy) (cz := cz) (qx := qx) (qy := -qy) (qz := qz) hH hH2 (by linarith) (by linarith) hx hy' hz (by linarith) hH' wy'.1 (by linarith)
      · have e := f3 h
        rw [e] at wz
        exact core_far (m := m) (cy := cz) (cz := cy) (qx := qx) (qy := qz) (qz := qy) hH hH2 (by linarith) (by linarith) hx hz hy (by linarith) hH' wz.1 (by linarith)
      · have e := f4 h
        rw [e, neg_neg] at wz'
        exact core_far (m := m) (cy := -cz) (cz := cy) (qx := qx) (qy := -qz) (qz := qy) hH hH2 (by linarith) (by linarith) hx hz' hy (by linarith) hH' wz'.1 (by linarith)
    · have : 1 < gUV (1 + H) := gUV_gt_one (by linarith)
      have := (abs_le.1 mx).2
      nlinarith
  have uy := core_upper (m := m) hH hH2 hc hq hx hy hz hd gy wy.2 my mx hm h'
  have ly := core_upper (m := m) (cy := -cy) (cz := cz) (qx := qx) (qy := -qy) (qz := qz) hH hH2 (by linarith) (by linarith) hx hy' hz (by linarith) gy.neg wy'.2 my' mx hm hyn
  have uz := core_upper (m := m) (cy := cz) (cz := cy) (qx := qx) (qy := qz) (qz := qy) hH hH2 (by linarith) (by linarith) hx hz hy (by linarith) gz wz.2 mz mx hm hzp
  have lz := core_upper (m := m) (cy := -cz) (cz := cy) (qx := qx) (qy := -qz) (qz := qy) hH hH2 (by linarith) (by linarith) hx hz' hy (by linarith) gz.neg wz'.2 mz' mx hm hzn
  rw [show -Py + H = -(Py - H) by ring, gUV_neg] at ly
  rw [show -Pz + H = -(Pz - H) by ring, gUV_neg] at lz
  exact ⟨nx, ⟨by linarith, uy⟩, ⟨by linarith, uz⟩, ⟨fun _ => hPx, fun h => (opp h).elim⟩, ⟨f1, f2⟩, f3, f4⟩

end Verif
