import Verif.Properties.InterpolateRound
import Verif.Properties.EdgeDist

/-!
# The distance to an edge when the case distinction is not exact

In the plane of the edge: `α`, `β` are the scalar products of the point with the ends, `P` and `q` the components of the point along the edge
away from `a` and away from `b`, `k` and `S` cosine and sine of the edge, `s` the length of the projection of the point.
-/

namespace Verif
open Spec EdgeUtil

/-- An end that is almost the foot of the perpendicular is almost the nearest point. -/
theorem near_end {p q s δ : ℝ} (p0 : 0 ≤ p) (hs : s ^ 2 = p ^ 2 + q ^ 2) (s0 : 0 ≤ s) (s1 : s ≤ 1) (hq : |q| ≤ δ) :
    Real.sqrt (2 - 2 * p) ≤ Real.sqrt (2 - 2 * s) + 2 * δ := by
  have q0 := abs_nonneg q
  have hq2 := sq_abs q
  set Q := |q| with hQ
  have R0 := Real.sqrt_nonneg (2 - 2 * s)
  have R2 := Real.sq_sqrt (by linarith : 0 ≤ 2 - 2 * s)
  set R := Real.sqrt (2 - 2 * s) with hR
  refine Real.sqrt_le_iff.2 ⟨by linarith, ?_⟩
  have m1 : 0 ≤ R * Q := mul_nonneg R0 q0
  have m2 : R * Q ≤ R * δ := mul_le_mul_of_nonneg_left hq R0
  have m3 : Q ^ 2 ≤ δ ^ 2 := pow_le_pow_left₀ q0 hq 2
  have e : (R + 2 * δ) ^ 2 = R ^ 2 + 4 * (R * δ) + 4 * δ ^ 2 := by ring
  rw [e, R2]
  rw [← hq2] at hs
  have ps : p ≤ s := le_of_sq_le_sq (by have := sq_nonneg Q; linarith) s0
  rcases le_or_gt (1 / 2) s with h | h
  · have : s - p ≤ 2 * Q ^ 2 := by
      have a : (s - p) * (s + p) = Q ^ 2 := by linarith [show (s - p) * (s + p) = s ^ 2 - p ^ 2 by ring]
      have b : (s - p) * (1 / 2) ≤ (s - p) * (s + p) := mul_le_mul_of_nonneg_left (by linarith) (by linarith)
      linarith
    linarith
  · have : s - p ≤ Q := by
      have : s ≤ p + Q := le_of_sq_le_sq (by have := mul_nonneg p0 q0; linarith [show (p + Q) ^ 2 = p ^ 2 + Q ^ 2 + 2 * (p * Q) by ring]) (by linarith)
      linarith
    have R1 : 1 ≤ R := by rw [hR]; exact Real.le_sqrt_of_sq_le (by linarith)
    have : Q ≤ R * Q := by have := mul_le_mul_of_nonneg_right R1 q0; linarith
    have := sq_nonneg δ
    linarith

/-- If the foot is at most `δ` from `a`, one of the ends is close to the foot. -/
theorem which_end {k S α β P q δ : ℝ} (S0 : 0 ≤ S) (hk : S ^ 2 + k ^ 2 = 1) (hβ : β = k * α + S * P) (hq : q = S * α - k * P) (P0 : 0 < P) (q0 : 0 < q)
    (hP : P ≤ δ) : (0 ≤ α ∧ |P| ≤ δ) ∨ (0 ≤ β ∧ |q| ≤ δ) := by
  rcases le_or_gt 0 α with h | h
  · exact Or.inl ⟨h, by rwa [abs_of_pos P0]⟩
  · right
    have Sα : S * α ≤ 0 := mul_nonpos_of_nonneg_of_nonpos S0 h.le
    have kP : k * P < 0 := by linarith
    have k0 : k < 0 := by
      by_contra hc
      have := mul_nonneg (not_lt.1 hc) P0.le
      linarith
    have k1 : -1 ≤ k := by
      by_contra hc
      have := sq_nonneg S
      nlinarith
    refine ⟨?_, ?_⟩
    · have := mul_nonneg_of_nonpos_of_nonpos k0.le h.le
      have := mul_nonneg S0 P0.le
      linarith
    · rw [abs_of_pos q0]
      have : (1 + k) * P ≥ 0 := mul_nonneg (by linarith) P0.le
      linarith

/-- The geometry of a point and an edge. -/
structure EdgeGeo (X A B : Vec ℝ) (S α β P q h s : ℝ) : Prop where
  hX : UnitV X
  hA : UnitV A
  hB : UnitV B
  S0 : 0 < S
  hS : S ^ 2 + dot A B ^ 2 = 1
  eα : α = dot X A
  eβ : β = dot X B
  hβ : β = dot A B * α + S * P
  hq : q = S * α - dot A B * P
  hP : α = dot A B * β + S * q
  hPq : P = S * β - dot A B * q
  eh : S * h = dot X (cross A B)
  s0 : 0 ≤ s
  s1 : s ≤ 1
  sh : s ^ 2 + h ^ 2 = 1
  sα : s ^ 2 = α ^ 2 + P ^ 2
  sβ : s ^ 2 = β ^ 2 + q ^ 2

theorem edgeGeo_exists {X A B : Vec ℝ} {S : ℝ} (hX : UnitV X) (hA : UnitV A) (hB : UnitV B) (S0 : 0 < S) (hS : S ^ 2 + dot A B ^ 2 = 1) :
    ∃ α β P q h s, EdgeGeo X A B S α β P q h s := by
  have S2 : S ^ 2 = 1 - dot A B ^ 2 := by linarith
  have Sn := S0.ne'
  have gram : dot X (cross A B) ^ 2 = dot A A * dot B B * dot X X + 2 * dot A B * dot X A * dot X B - dot A A * dot X B ^ 2 - dot B B * dot X A ^ 2
      - dot X X * dot A B ^ 2 := by simp only [dot, cross]; ring
  rw [show dot A A = 1 from hA, show dot B B = 1 from hB, show dot X X = 1 from hX] at gram
  set α := dot X A
  set β := dot X B
  set k := dot A B
  obtain ⟨P, hP⟩ : ∃ P, S * P = β - k * α := ⟨(β - k * α) / S, by field_simp⟩
  obtain ⟨h, hh⟩ : ∃ h, S * h = dot X (cross A B) := ⟨dot X (cross A B) / S, by field_simp⟩
  rw [← hh] at gram
  have sα' : α ^ 2 + P ^ 2 = 1 - h ^ 2 := by
    have : S ^ 2 * (α ^ 2 + P ^ 2) = S ^ 2 * (1 - h ^ 2) := by
      have e1 : S ^ 2 * (α ^ 2 + P ^ 2) = S ^ 2 * α ^ 2 + (S * P) ^ 2 := by ring
      have e2 : S ^ 2 * (1 - h ^ 2) = S ^ 2 - (S * h) ^ 2 := by ring
      rw [e1, e2, gram, hP, S2]
      ring
    exact mul_left_cancel₀ (by positivity) this
  have pos : 0 ≤ 1 - h ^ 2 := by rw [← sα']; positivity
  have hs := Real.sq_sqrt pos
  have Sq : S * (S * α - k * P) = α - k * β := by
    have : S * (S * α - k * P) = S ^ 2 * α - k * (S * P) := by ring
    rw [this, hP, S2]; ring
  refine ⟨α, β, P, S * α - k * P, h, Real.sqrt (1 - h ^ 2), hX, hA, hB, S0, hS, rfl, rfl, by linarith, rfl, by linarith, ?_, hh, Real.sqrt_nonneg _, ?_,
    by linarith, by linarith, ?_⟩
  · have : S * P = S * (S * β - k * (S * α - k * P)) := by
      have : S * (S * β - k * (S * α - k * P)) = S ^ 2 * β - k * (S * (S * α - k * P)) := by ring
      rw [this, Sq, S2, hP]; ring
    exact mul_left_cancel₀ Sn this
  · exact Real.sqrt_le_one.2 (by have := sq_nonneg h; linarith)
  · rw [hs, ← sα']
    have : β = k * α + S * P := by linarith
    have e : β ^ 2 + (S * α - k * P) ^ 2 = (S ^ 2 + k ^ 2) * (α ^ 2 + P ^ 2) := by rw [this]; ring
    rw [e, hS, one_mul]

variable {X A B : Vec ℝ} {S α β P q h s : ℝ}

theorem EdgeGeo.swap (E : EdgeGeo X A B S α β P q h s) : EdgeGeo X B A S β α q P (-h) s := by
  have c := dot_comm A B
  refine ⟨E.hX, E.hB, E.hA, E.S0, by rw [← c]; exact E.hS, E.eβ, E.eα, by rw [← c]; exact E.hP, by rw [← c]; exact E.hPq, by rw [← c]; exact E.hβ,
    by rw [← c]; exact E.hq, ?_, E.s0, E.s1, by have := E.sh; linarith [neg_sq h], E.sβ, E.sα⟩
  have : dot X (cross B A) = -dot X (cross A B) := by unfold dot cross; ring
  rw [this, ← E.eh]; ring

theorem EdgeGeo.interior (E : EdgeGeo X A B S α β P q h s) : (0 < P ∧ 0 < q) ↔ (dot A B * dot X A < dot X B ∧ dot A B * dot X B < dot X A) := by
  rw [← E.eα, ← E.eβ]
  have h1 : β - dot A B * α = S * P := by linarith [E.hβ]
  have h2 : α - dot A B * β = S * q := by linarith [E.hP]
  constructor
  · rintro ⟨a, b⟩
    have := mul_pos E.S0 a
    have := mul_pos E.S0 b
    exact ⟨by linarith, by linarith⟩
  · rintro ⟨a, b⟩
    exact ⟨pos_of_mul_pos_right (by linarith : 0 < S * P) E.S0.le, pos_of_mul_pos_right (by linarith : 0 < S * q) E.S0.le⟩

theorem EdgeGeo.not_anti (E : EdgeGeo X A B S α β P q h s) : -1 < dot A B ∧ dot A B < 1 := by
  have := pow_pos E.S0 2
  have := E.hS
  constructor
  · by_contra hc; nlinarith [not_lt.1 hc]
  · by_contra hc; nlinarith [not_lt.1 hc]

/-- No point of the great circle is nearer than the foot. -/
theorem EdgeGeo.circle (E : EdgeGeo X A B S α β P q h s) {p : Vec ℝ} (hp : OnEdge A B p) : dot X p ≤ s := by
  obtain ⟨hu, σ, τ, -, -, e⟩ := hp
  -- the projection of `X` to the plane
  have hw : dot (lin 1 X (-(h / S)) (cross A B)) (lin 1 X (-(h / S)) (cross A B)) = s ^ 2 := by
    have : dot (lin 1 X (-(h / S)) (cross A B)) (lin 1 X (-(h / S)) (cross A B)) =
        dot X X - 2 * (h / S) * dot X (cross A B) + (h / S) ^ 2 * dot (cross A B) (cross A B) := by unfold dot lin; ring
    rw [this, cross_sq, show dot X X = 1 from E.hX, show dot A A = 1 from E.hA, show dot B B = 1 from E.hB, ← E.eh]
    have hS := E.hS
    have Sn := E.S0.ne'
    have : (h / S) ^ 2 * (1 * 1 - dot A B ^ 2) = h ^ 2 := by
      rw [show 1 * 1 - dot A B ^ 2 = S ^ 2 by linarith]; field_simp
    rw [this]
    have : 2 * (h / S) * (S * h) = 2 * h ^ 2 := by field_simp
    rw [this]
    linarith [E.sh]
  have hd : dot (lin 1 X (-(h / S)) (cross A B)) p = dot X p := by
    rw [e]; unfold dot lin cross; ring
  have := cauchy (lin 1 X (-(h / S)) (cross A B)) p
  rw [hw, hd, show dot p p = 1 from hu, mul_one] at this
  exact le_of_sq_le_sq this E.s0

theorem EdgeGeo.dist_circle (E : EdgeGeo X A B S α β P q h s) {p : Vec ℝ} (hp : OnEdge A B p) : Real.sqrt (2 - 2 * s) ≤ Real.sqrt (dist2 X p) := by
  rw [dist2_unit E.hX hp.1]
  exact Real.sqrt_le_sqrt (by linarith [E.circle hp])

theorem EdgeGeo.foot_dist (E : EdgeGeo X A B S α β P q h s) (hi : 0 < P ∧ 0 < q) : ∃ r, OnEdge A B r ∧ Real.sqrt (dist2 X r) = Real.sqrt (2 - 2 * s) := by
  obtain ⟨i1, i2⟩ := E.interior.1 hi
  obtain ⟨-, -, -, r, hr, er, -⟩ := interior_near E.hA E.hB E.hX E.not_anti.1 i1 i2
  refine ⟨r, hr, ?_⟩
  rw [dist2_unit E.hX hr.1, er, ← E.eh]
  have S2 : 1 - dot A B ^ 2 = S ^ 2 := by linarith [E.hS]
  have Sn := E.S0.ne'
  have : 1 - (S * h) ^ 2 / (1 - dot A B ^ 2) = s ^ 2 := by
    rw [S2, mul_pow, mul_div_cancel_left₀ _ (by positivity)]; linarith [E.sh]
  rw [this, Real.sqrt_sq E.s0]

/-- If the foot is at most `δ` inside the edge, an end is almost nearest. -/
theorem EdgeGeo.vertex (E : EdgeGeo X A B S α β P q h s) {δ : ℝ} (d0 : 0 ≤ δ) (hd : P ≤ δ ∨ q ≤ δ) {p : Vec ℝ} (hp : OnEdge A B p) :
    min (Real.sqrt (dist2 X A)) (Real.sqrt (dist2 X B)) ≤ Real.sqrt (dist2 X p) + 2 * δ := by
  by_cases hi : 0 < P ∧ 0 < q
  · have c := E.dist_circle hp
    have main : ∀ {X A B : Vec ℝ} {S α β P q h s : ℝ}, EdgeGeo X A B S α β P q h s → 0 < P → 0 < q → P ≤ δ →
        min (Real.sqrt (dist2 X A)) (Real.sqrt (dist2 X B)) ≤ Real.sqrt (2 - 2 * s) + 2 * δ := by
      intro X A B S α β P q h s E P0 q0 hP
      rw [dist2_unit E.hX E.hA, dist2_unit E.hX E.hB, ← E.eα, ← E.eβ]
      rcases which_end E.S0.le E.hS E.hβ E.hq P0 q0 hP with ⟨h1, h2⟩ | ⟨h1, h2⟩
      · exact (min_le_left _ _).trans (near_end h1 E.sα E.s0 E.s1 h2)
      · exact (min_le_right _ _).trans (near_end h1 E.sβ E.s0 E.s1 h2)
    rcases hd with hd | hd
    · linarith [main E hi.1 hi.2 hd]
    · have := main E.swap hi.2 hi.1 hd
      rw [min_comm] at this
      linarith
  · have := (least_vertex E.hA E.hB E.hX (fun hc => hi (E.interior.2 hc))).2 ⟨p, hp, rfl⟩
    have m : min (Real.sqrt (dist2 X A)) (Real.sqrt (dist2 X B)) ≤ Real.sqrt (min (dist2 X A) (dist2 X B)) := by
      rcases min_choice (dist2 X A) (dist2 X B) with e | e <;> rw [e]
      · exact min_le_left _ _
      · exact min_le_right _ _
    have := Real.sqrt_le_sqrt this
    linarith

/-- If the foot is at most `δ` outside the edge, a point of the edge is almost as near as the foot. -/
theorem EdgeGeo.inside (E : EdgeGeo X A B S α β P q h s) {δ : ℝ} (d0 : 0 ≤ δ) (hP : -δ ≤ P) (hq : -δ ≤ q) (hS : 10 * δ ≤ S) :
    ∃ p, OnEdge A B p ∧ Real.sqrt (dist2 X p) ≤ Real.sqrt (2 - 2 * s) + 5 * (δ / S) ∧
      (12 * δ ≤ s * S → s ≠ 0 → Real.sqrt (dist2 X p) ≤ Real.sqrt (2 - 2 * s) + 2 * δ) := by
  have main : ∀ {X A B : Vec ℝ} {S α β P q h s : ℝ}, EdgeGeo X A B S α β P q h s → -δ ≤ P → P ≤ 0 → -δ ≤ q → 10 * δ ≤ S →
      Real.sqrt (dist2 X A) ≤ Real.sqrt (2 - 2 * s) + 5 * (δ / S) ∧ (12 * δ ≤ s * S → s ≠ 0 → Real.sqrt (dist2 X A) ≤ Real.sqrt (2 - 2 * s) + 2 * δ) := by
    intro X A B S α β P q h s E P1 P0 q1 hS
    have Sp := E.S0
    have S1 : S ≤ 1 := le_of_sq_le_sq (by have := sq_nonneg (dot A B); linarith [E.hS]) zero_le_one
    have dS : δ ≤ δ / S := by rw [le_div_iff₀ Sp]; have := mul_le_mul_of_nonneg_left S1 d0; linarith
    have aP : |P| ≤ δ := by rw [abs_of_nonpos P0]; linarith
    rw [dist2_unit E.hX E.hA, ← E.eα]
    rcases le_or_gt 0 α with hα | hα
    · have := near_end hα E.sα E.s0 E.s1 aP
      exact ⟨by linarith, fun _ _ => this⟩
    · -- the point is almost orthogonal to the plane
      have k1 : |dot A B| ≤ 1 := by rw [abs_le]; have := E.not_anti; constructor <;> linarith
      have kP : |dot A B * P| ≤ δ := by
        rw [abs_mul]
        calc |dot A B| * |P| ≤ 1 * δ := mul_le_mul k1 aP (abs_nonneg _) zero_le_one
          _ = δ := one_mul _
      have kP' := (abs_le.1 kP).1
      obtain ⟨D, hD⟩ : ∃ D, D = δ / S := ⟨_, rfl⟩
      have DS : D * S = δ := by rw [hD]; field_simp
      rw [← hD] at dS ⊢
      have D1 : D ≤ 1 / 10 := by rw [hD, div_le_iff₀ Sp]; linarith
      have D0 : 0 ≤ D := by rw [hD]; positivity
      have hα2 : -(2 * D) ≤ α := by
        have : S * (-(2 * D)) ≤ S * α := by have := E.hq; linarith [show S * (-(2 * D)) = -2 * (D * S) by ring]
        exact le_of_mul_le_mul_left this Sp
      have hs : s ≤ 3 * D := by
        have : s ≤ -α + |P| := by
          refine le_of_sq_le_sq ?_ (by have := abs_nonneg P; linarith)
          have := mul_nonneg (neg_nonneg.2 hα.le) (abs_nonneg P)
          linarith [E.sα, sq_abs P, show (-α + |P|) ^ 2 = α ^ 2 + |P| ^ 2 + 2 * (-α * |P|) by ring]
        linarith
      refine ⟨?_, ?_⟩
      · have R1 : 1 ≤ Real.sqrt (2 - 2 * s) := Real.le_sqrt_of_sq_le (by linarith)
        have R2 := Real.sq_sqrt (by linarith : 0 ≤ 2 - 2 * s)
        generalize Real.sqrt (2 - 2 * s) = R at *
        refine Real.sqrt_le_iff.2 ⟨by linarith, ?_⟩
        have := mul_le_mul_of_nonneg_right R1 D0
        have := sq_nonneg D
        linarith [show (R + 5 * D) ^ 2 = R ^ 2 + 10 * (R * D) + 25 * D ^ 2 by ring]
      · intro hc hs0
        exfalso
        have : s * S ≤ 3 * D * S := mul_le_mul_of_nonneg_right hs Sp.le
        have hδ : δ = 0 := by linarith
        have : D = 0 := by rw [hD, hδ, zero_div]
        rw [this, mul_zero] at hs
        exact hs0 (le_antisymm hs E.s0)
  by_cases hi : 0 < P ∧ 0 < q
  · obtain ⟨r, hr, er⟩ := E.foot_dist hi
    have : 0 ≤ δ / S := div_nonneg d0 E.S0.le
    exact ⟨r, hr, by linarith, fun _ _ => by linarith⟩
  · by_cases h1 : P ≤ 0
    · exact ⟨A, onEdge_left E.hA, main E hP h1 hq hS⟩
    · have h2 : q ≤ 0 := not_lt.1 fun h => hi ⟨not_le.1 h1, h⟩
      exact ⟨B, onEdge_right E.hB, main E.swap hq h2 hP hS⟩

/-- The planar test: if `x` is further from `a` than from `b` by almost the length of the edge (all squared), `b` is almost nearest. -/
theorem EdgeGeo.planar (E : EdgeGeo X A B S α β P q h s) {K : ℝ} (K0 : 0 ≤ K) (hK : 8 * K < S ^ 2)
    (ht : (1 - dot A B) - K * ((1 - α) + (1 - β) + (1 - dot A B)) ≤ β - α) {p : Vec ℝ} (hp : OnEdge A B p) :
    min (Real.sqrt (dist2 X A)) (Real.sqrt (dist2 X B)) ≤ Real.sqrt (dist2 X p) + 8 * K * ((1 - dot A B) / S) := by
  obtain ⟨k0, k1⟩ := E.not_anti
  have Sp := E.S0
  have v0 : 0 < 1 - dot A B := by linarith
  have r0 : 0 ≤ 8 * K * ((1 - dot A B) / S) := by positivity
  by_cases hi : 0 < P ∧ 0 < q
  · have β1 : β ≤ 1 := le_of_sq_le_sq (by have := sq_nonneg q; have := sq_nonneg h; linarith [E.sβ, E.sh]) zero_le_one
    have Sq := mul_pos Sp hi.2
    have hP := E.hP
    have hS := E.hS
    have α1 : 1 - α ≤ (1 - β) + (1 - dot A B) := by
      have := mul_nonneg v0.le (by linarith : 0 ≤ 1 - β)
      linarith [show (1 - dot A B) * (1 - β) = 1 - β - dot A B + dot A B * β by ring]
    have Kα := mul_le_mul_of_nonneg_left α1 K0
    have Kβ := mul_nonneg K0 (by linarith : 0 ≤ 1 - β)
    have Kv := mul_nonneg K0 v0.le
    have main : (1 - dot A B) * (1 - β) + S * q ≤ 2 * (K * (1 - β)) + 2 * (K * (1 - dot A B)) := by
      linarith [show (1 - dot A B) * (1 - β) = 1 - β - dot A B + dot A B * β by ring]
    have vS : S ^ 2 ≤ 2 * (1 - dot A B) := by
      have : S ^ 2 = (1 - dot A B) * (1 + dot A B) := by linarith [show (1 - dot A B) * (1 + dot A B) = 1 - dot A B ^ 2 by ring]
      have := mul_le_mul_of_nonneg_left (by linarith : 1 + dot A B ≤ 2) v0.le
      linarith
    have uv : 1 - β ≤ 1 - dot A B := by
      by_contra hc
      have hc := not_le.1 hc
      have m1 := mul_le_mul_of_nonneg_left hc.le K0
      have m2 := mul_pos (by linarith : 0 < (1 - dot A B) - 4 * K) (by linarith : 0 < 1 - β)
      linarith [show ((1 - dot A B) - 4 * K) * (1 - β) = (1 - dot A B) * (1 - β) - 4 * (K * (1 - β)) by ring]
    have Ku := mul_le_mul_of_nonneg_left uv K0
    have b0 : 0 ≤ β := by
      by_contra hc
      have m := mul_le_mul_of_nonneg_left (by linarith : 1 ≤ 1 - β) v0.le
      have := sq_nonneg (dot A B)
      have := mul_lt_mul_of_pos_right (by linarith : 4 * K < 1) v0
      linarith
    have hq : |q| ≤ 4 * K * ((1 - dot A B) / S) := by
      rw [abs_of_pos hi.2, ← mul_div_assoc, le_div_iff₀ Sp]
      have := mul_nonneg v0.le (by linarith : 0 ≤ 1 - β)
      linarith [mul_comm q S]
    have n := near_end b0 E.sβ E.s0 E.s1 hq
    have c := E.dist_circle hp
    refine (min_le_right _ _).trans ?_
    rw [dist2_unit E.hX E.hB, ← E.eβ]
    linarith
  · have := E.vertex (δ := 0) le_rfl (by by_contra hc; push Not at hc; exact hi hc) hp
    linarith

end Verif
