import Verif.Properties.ProjectRound
import Verif.Properties.Cap

/-!
# The greatest distance from an edge with rounding (C122)
-/

namespace Verif
open Spec EdgeUtil

theorem updateMin_nonneg {fl : ℝ → ℝ} (hm : Monotone fl) (h0 : fl 0 = 0) (x a b : Vec ℝ) (m : ℝ) : 0 ≤ (updateMinDistance fl Real.sqrt x a b m true).1 := by
  have f : ∀ {t : ℝ}, 0 ≤ t → 0 ≤ fl t := fun {t} ht => by have := hm ht; rwa [h0] at this
  rw [update_true]
  split_ifs
  · exact le_min (norm2_nonneg hm h0 _) (norm2_nonneg hm h0 _)
  · exact f (add_nonneg (f (div_nonneg (f (mul_self_nonneg _)) (norm2_nonneg hm h0 _))) (f (mul_self_nonneg _)))

/-- The computed supplement of a chord angle. -/
theorem supplement_near {fl : ℝ → ℝ} (h : Rounding fl) (h0 : fl 0 = 0) (h1 : fl 1 = 1) {N : ℝ} (N0 : 0 ≤ N) (N1 : N ≤ 401 / 100) :
    4 - N - 30 * eps53 ≤ ChordAngle.sub fl Real.sqrt ChordAngle.straight N ∧ ChordAngle.sub fl Real.sqrt ChordAngle.straight N ≤ max 0 (4 - N) + 30 * eps53 := by
  have e0 := eps53_pos
  have e1 := eps53_le
  have t1 := tau600_le
  have M0 := le_max_left 0 (4 - N)
  have M1 := le_max_right 0 (4 - N)
  unfold ChordAngle.sub ChordAngle.straight
  split_ifs with hz hl
  · constructor <;> linarith
  · constructor <;> linarith
  · have hl := not_le.1 hl
    have y : ChordAngle.chord fl N 4 = 0 := by
      unfold ChordAngle.chord
      rw [show (1 : ℝ) / 4 * 4 = 1 by norm_num, h1, sub_self, h0, mul_zero, h0]
    simp only [y, mul_zero, add_zero, h0, Real.sqrt_zero, sub_zero]
    have f1 := fl_err6 h (x := 1 / 4 * N) (by rw [abs_of_nonneg (by linarith)]; linarith)
    rw [abs_of_nonneg (by linarith : 0 ≤ 1 / 4 * N)] at f1
    have n1 := mul_le_mul_of_nonneg_right (by linarith : 1 / 4 * N ≤ 1) e0.le
    have f1' := abs_le.1 f1
    have b2 : |1 - fl (1 / 4 * N)| ≤ 101 / 100 := by rw [abs_le]; constructor <;> linarith
    have f2 := fl_err6 h (x := 1 - fl (1 / 4 * N)) (by linarith)
    have n2 := mul_le_mul_of_nonneg_right b2 e0.le
    have f2' := abs_le.1 f2
    unfold ChordAngle.chord
    generalize fl (1 - fl (1 / 4 * N)) = u at *
    generalize fl (1 / 4 * N) = v at *
    have b3 : |4 * u| ≤ 405 / 100 := by rw [abs_le]; constructor <;> linarith
    have f3 := fl_err6 h (x := 4 * u) (by linarith)
    have n3 := mul_le_mul_of_nonneg_right b3 e0.le
    have f3' := abs_le.1 f3
    generalize fl (4 * u) = w at *
    have b4 : |w| ≤ 41 / 10 := by rw [abs_le]; rw [abs_le] at b3; constructor <;> linarith
    have f4 := fl_err6 h (x := w) (by linarith)
    have n4 := mul_le_mul_of_nonneg_right b4 e0.le
    have f4' := abs_le.1 f4
    generalize fl w = z at *
    have b5 : |z| ≤ 42 / 10 := by rw [abs_le]; rw [abs_le] at b4; constructor <;> linarith
    have f5 := fl_err6 h (x := z) (by linarith)
    have n5 := mul_le_mul_of_nonneg_right b5 e0.le
    have f5' := abs_le.1 f5
    generalize fl z = y at *
    have : max 0 y = y ∨ (max 0 y = 0 ∧ y ≤ 0) := by
      rcases le_total 0 y with hy | hy
      · exact Or.inl (max_eq_right hy)
      · exact Or.inr ⟨max_eq_left hy, hy⟩
    rcases this with e | ⟨e, hy⟩ <;> rw [e] <;> constructor <;> linarith

/-- The coefficients of a point of an edge. -/
theorem onEdge_coeff {A B p : Vec ℝ} {S : ℝ} (hA : UnitV A) (hB : UnitV B) (S0 : 0 < S) (hAB : S ^ 2 + dot A B ^ 2 = 1) (hp : OnEdge A B p) :
    ∃ σ τ, 0 ≤ σ ∧ 0 ≤ τ ∧ p = lin σ A τ B ∧ 1 ≤ σ + τ ∧ σ * S ≤ 1 ∧ τ * S ≤ 1 := by
  obtain ⟨hu, σ, τ, hσ, hτ, e⟩ := hp
  have k := dot_le_one hA hB
  have n : σ ^ 2 + 2 * (σ * τ) * dot A B + τ ^ 2 = 1 := by
    have : dot p p = σ ^ 2 * dot A A + 2 * (σ * τ) * dot A B + τ ^ 2 * dot B B := by rw [e]; simp only [dot, lin]; ring
    rw [show dot p p = 1 from hu, show dot A A = 1 from hA, show dot B B = 1 from hB] at this
    linarith
  have στ := mul_nonneg hσ hτ
  refine ⟨σ, τ, hσ, hτ, e, ?_, ?_, ?_⟩
  · refine le_of_sq_le_sq ?_ (by linarith)
    have := mul_le_mul_of_nonneg_left k.2 στ
    linarith [show (σ + τ) ^ 2 = σ ^ 2 + 2 * (σ * τ) + τ ^ 2 by ring]
  · refine le_of_sq_le_sq ?_ zero_le_one
    have : (σ * S) ^ 2 = σ ^ 2 - (σ * dot A B) ^ 2 := by rw [mul_pow, show S ^ 2 = 1 - dot A B ^ 2 by linarith]; ring
    have := sq_nonneg (τ + σ * dot A B)
    linarith [show (τ + σ * dot A B) ^ 2 = τ ^ 2 + 2 * (σ * τ) * dot A B + (σ * dot A B) ^ 2 by ring]
  · refine le_of_sq_le_sq ?_ zero_le_one
    have : (τ * S) ^ 2 = τ ^ 2 - (τ * dot A B) ^ 2 := by rw [mul_pow, show S ^ 2 = 1 - dot A B ^ 2 by linarith]; ring
    have := sq_nonneg (σ + τ * dot A B)
    linarith [show (σ + τ * dot A B) ^ 2 = σ ^ 2 + 2 * (σ * τ) * dot A B + (τ * dot A B) ^ 2 by ring]

/-- When both ends are at most about a right angle away, one of them is almost farthest. -/
theorem far_end {X A B p : Vec ℝ} {S k μ : ℝ} (hX : UnitV X) (hA : UnitV A) (hB : UnitV B) (S0 : 0 < S) (hAB : S ^ 2 + dot A B ^ 2 = 1) (hp : OnEdge A B p) (k0 : 0 ≤ k)
    (hμ : -k ≤ μ) (h1 : μ ≤ dot X A) (h2 : μ ≤ dot X B) : dist2 X p ≤ 2 - 2 * μ + 4 * (k / S) := by
  rw [dist2_unit hX hp.1]
  obtain ⟨σ, τ, hσ, hτ, e, o, sσ, sτ⟩ := onEdge_coeff hA hB S0 hAB hp
  have d : dot X p = σ * dot X A + τ * dot X B := by rw [e]; simp only [dot, lin]; ring
  have m1 := mul_le_mul_of_nonneg_left h1 hσ
  have m2 := mul_le_mul_of_nonneg_left h2 hτ
  have kS : 0 ≤ k / S := by positivity
  rcases le_or_gt 0 μ with h | h
  · have := mul_le_mul_of_nonneg_right o h
    linarith [show (σ + τ) * μ = σ * μ + τ * μ by ring]
  · have a1 : σ ≤ 1 / S := by rw [le_div_iff₀ S0]; exact sσ
    have a2 : τ ≤ 1 / S := by rw [le_div_iff₀ S0]; exact sτ
    have b1 := mul_le_mul_of_nonneg_left hμ hσ
    have b2 := mul_le_mul_of_nonneg_left hμ hτ
    have c1 := mul_le_mul_of_nonneg_right a1 k0
    have c2 := mul_le_mul_of_nonneg_right a2 k0
    have : 1 / S * k = k / S := by ring
    linarith

/-- **C122.** `update_max_distance` with rounding: points of unit length up to `2^-49` in the directions `X`, `A`, `B`, an edge whose sine `S` is at least `2^-20`, the negation of
`x` exact. There is a squared chord length `R`, within `2^-40 / S` of the greatest squared chord from `X` to a point of the edge, with which the given maximum is compared. -/
theorem c122_updateMax {fl : ℝ → ℝ} (h : Rounding fl) (hm : Monotone fl) (h0 : fl 0 = 0) (h1 : fl 1 = 1) {x a b X A B : Vec ℝ} {lx la lb S : ℝ}
    (hX : UnitV X) (hA : UnitV A) (hB : UnitV B) (lx0 : 0 < lx) (la0 : 0 < la) (lb0 : 0 < lb) (ex : x = smul lx X) (ea : a = smul la A) (eb : b = smul lb B)
    (hx : |dot x x - 1| ≤ 1 / 2 ^ 49) (ha : |dot a a - 1| ≤ 1 / 2 ^ 49) (hb : |dot b b - 1| ≤ 1 / 2 ^ 49) (hS : 1 / 2 ^ 20 ≤ S) (hAB : S ^ 2 + dot A B ^ 2 = 1)
    (neg : ∀ i, fl (-comp x i) = -comp x i) :
    ∃ R, (∀ m, updateMaxDistance fl Real.sqrt x a b m = if m < R then (R, true) else (m, false)) ∧
      (∀ p, OnEdge A B p → dist2 X p ≤ R + 1 / 2 ^ 40 / S) ∧ ∃ p, OnEdge A B p ∧ R ≤ dist2 X p + 1 / 2 ^ 40 / S := by
  have k49 : (1 : ℝ) / 2 ^ 49 = 16 * eps53 := by unfold eps53; norm_num
  have k40 : (1 : ℝ) / 2 ^ 40 = 8192 * eps53 := by unfold eps53; norm_num
  have k43 : (1 : ℝ) / 2 ^ 43 = 1024 * eps53 := by unfold eps53; norm_num
  have e0 := eps53_pos
  have e1 := eps53_le
  have es := eps53_sq_le
  have S0 : 0 < S := lt_of_lt_of_le (by positivity) hS
  have S1 : S ≤ 1 := le_of_sq_le_sq (by have := sq_nonneg (dot A B); linarith) zero_le_one
  obtain ⟨J, hJ⟩ : ∃ J, J = eps53 / S := ⟨_, rfl⟩
  have eJ : eps53 ≤ J := by rw [hJ, le_div_iff₀ S0]; have := mul_le_mul_of_nonneg_left S1 e0.le; linarith
  have J1 : 1 / 2 ^ 40 / S = 8192 * J := by rw [k40, hJ]; ring
  have Ju : J ≤ 1 / 10 ^ 9 := by
    rw [hJ, div_le_iff₀ S0]
    have := mul_le_mul_of_nonneg_left hS (by norm_num : (0 : ℝ) ≤ 1 / 10 ^ 9)
    exact le_trans (by unfold eps53; norm_num) this
  have exn : Vec.scale fl x (-1) = smul lx (smul (-1) X) := by
    have n1 := neg .X
    have n2 := neg .Y
    have n3 := neg .Z
    simp only [comp] at n1 n2 n3
    simp only [Vec.scale, mul_neg, mul_one, n1, n2, n3]
    rw [ex]; simp only [smul, Vec.mk.injEq]; refine ⟨?_, ?_, ?_⟩ <;> ring
  have hXn : UnitV (smul (-1) X) := by
    have : dot (smul (-1) X) (smul (-1) X) = dot X X := by simp only [dot, smul]; ring
    unfold UnitV; rw [this]; exact hX
  have opp : ∀ {p}, UnitV p → dist2 (smul (-1) X) p = 4 - dist2 X p := by
    intro p hp
    rw [dist2_unit hX hp, dist2_unit hXn hp]
    have : dot (smul (-1) X) p = -dot X p := by simp only [dot, smul]; ring
    rw [this]; ring
  have hxn : |dot (Vec.scale fl x (-1)) (Vec.scale fl x (-1)) - 1| ≤ 1 / 2 ^ 49 := by
    have : dot (smul lx (smul (-1) X)) (smul lx (smul (-1) X)) = dot (smul lx X) (smul lx X) := by simp only [dot, smul]; ring
    rw [exn, this, ← ex]; exact hx
  -- the ends
  have ends : ∀ {c C : Vec ℝ} {l : ℝ}, UnitV C → 0 < l → c = smul l C → |dot c c - 1| ≤ 1 / 2 ^ 49 → |Vec.chordAngle fl x c - dist2 X C| ≤ 100 * eps53 := by
    intro c C l hC l0 ec hc
    rw [k49] at hc
    have hx := hx
    rw [k49] at hx
    have n := sqdist_near h hX hC ex ec (mult_near lx0 hX ex hx) (mult_near l0 hC ec hc)
    have d4 : dist2 X C ≤ 4 := by rw [dist2_unit hX hC]; linarith [(dot_le_one hX hC).1]
    have ed := mul_le_mul_of_nonneg_left d4 e0.le
    have n' := abs_le.1 n
    unfold Vec.chordAngle
    rcases min_cases 4 (Vec.norm2 fl (Vec.sub fl x c)) with ⟨q, w⟩ | ⟨q, w⟩ <;> rw [q, abs_le] <;> constructor <;> linarith
  have da := abs_le.1 (ends hA la0 ea ha)
  have db := abs_le.1 (ends hB lb0 eb hb)
  obtain ⟨M, hM⟩ : ∃ M, M = max (Vec.chordAngle fl x a) (Vec.chordAngle fl x b) := ⟨_, rfl⟩
  rw [J1]
  by_cases hr : M > ChordAngle.right
  · refine ⟨ChordAngle.sub fl Real.sqrt ChordAngle.straight (updateMinDistance fl Real.sqrt (Vec.scale fl x (-1)) a b M true).1, fun m => ?_, ?_⟩
    · unfold updateMaxDistance; dsimp only; rw [← hM, if_pos hr]
    · obtain ⟨-, u1, p, hp, u2⟩ := c120_updateMin h hm h0 M hXn hA hB lx0 la0 lb0 exn ea eb hxn ha hb hS hAB
      have N0 := updateMin_nonneg hm h0 (Vec.scale fl x (-1)) a b M
      generalize (updateMinDistance fl Real.sqrt (Vec.scale fl x (-1)) a b M true).1 = N at *
      have kE : 1 / 2 ^ 43 / S = 1024 * J := by rw [k43, hJ]; ring
      rw [kE] at u1 u2
      have sN := Real.sq_sqrt N0
      have sN0 := Real.sqrt_nonneg N
      have up : ∀ p, OnEdge A B p → N ≤ 4 - dist2 X p + 5 * (1024 * J) := by
        intro p hp
        have v := u1 p hp
        rw [opp hp.1] at v
        have d0 : 0 ≤ 4 - dist2 X p := by rw [dist2_unit hX hp.1]; linarith [(dot_le_one hX hp.1).1]
        have d4 : 4 - dist2 X p ≤ 4 := by have : 0 ≤ dist2 X p := dot_self_ge _; linarith
        have sd := Real.sq_sqrt d0
        have sd0 := Real.sqrt_nonneg (4 - dist2 X p)
        have sd2 : Real.sqrt (4 - dist2 X p) ≤ 2 := Real.sqrt_le_iff.2 ⟨by norm_num, by linarith⟩
        have q := pow_le_pow_left₀ sN0 v 2
        generalize Real.sqrt (4 - dist2 X p) = t at *
        have j0 : 0 ≤ 1024 * J := by linarith
        have q1 := mul_le_mul_of_nonneg_right sd2 j0
        have q2 := mul_le_mul_of_nonneg_right (by linarith : 1024 * J ≤ 1) j0
        linarith [show (t + 1024 * J) ^ 2 = t ^ 2 + 2 * (t * (1024 * J)) + 1024 * J * (1024 * J) by ring]
      have N4 : N ≤ 4 + 5 * (1024 * J) := by
        have := up p hp
        have : 0 ≤ dist2 X p := dot_self_ge _
        linarith
      have sup := supplement_near h h0 h1 N0 (by linarith)
      refine ⟨fun p hp => by have := up p hp; linarith [sup.1], p, hp, ?_⟩
      have D0 : 0 ≤ dist2 X p := dot_self_ge _
      have lo : 4 - dist2 X p ≤ N + 5 * (1024 * J) := by
        rw [opp hp.1] at u2
        have d0 : 0 ≤ 4 - dist2 X p := by rw [dist2_unit hX hp.1]; linarith [(dot_le_one hX hp.1).1]
        have sd := Real.sq_sqrt d0
        have sd0 := Real.sqrt_nonneg (4 - dist2 X p)
        have q := pow_le_pow_left₀ sd0 u2 2
        have sN2 : Real.sqrt N ≤ 21 / 10 := Real.sqrt_le_iff.2 ⟨by norm_num, by linarith⟩
        generalize Real.sqrt N = t at *
        have j0 : 0 ≤ 1024 * J := by linarith
        have q1 := mul_le_mul_of_nonneg_right sN2 j0
        have q2 := mul_le_mul_of_nonneg_right (by linarith : 1024 * J ≤ 1 / 10) j0
        linarith [show (t + 1024 * J) ^ 2 = t ^ 2 + 2 * (t * (1024 * J)) + 1024 * J * (1024 * J) by ring]
      have : max 0 (4 - N) ≤ dist2 X p + 5 * (1024 * J) := max_le (by linarith) (by linarith)
      linarith [sup.2]
  · refine ⟨M, fun m => by unfold updateMaxDistance; dsimp only; rw [← hM, if_neg hr], fun p hp => ?_, ?_⟩
    · have r2 : M ≤ 2 := not_lt.1 hr
      have Ma : Vec.chordAngle fl x a ≤ M := by rw [hM]; exact le_max_left _ _
      have Mb : Vec.chordAngle fl x b ≤ M := by rw [hM]; exact le_max_right _ _
      have eA := dist2_unit hX hA
      have eB := dist2_unit hX hB
      have := far_end (k := 50 * eps53) (μ := 1 - M / 2 - 50 * eps53) hX hA hB S0 hAB hp (by linarith) (by linarith) (by linarith) (by linarith)
      have e : 4 * (50 * eps53 / S) = 200 * J := by rw [hJ]; ring
      linarith
    · rcases max_choice (Vec.chordAngle fl x a) (Vec.chordAngle fl x b) with e | e
      · exact ⟨A, onEdge_left hA, by rw [hM, e]; linarith⟩
      · exact ⟨B, onEdge_right hB, by rw [hM, e]; linarith⟩

/-- The hypotheses can be met: the greatest distance from `(-1, 0, 0)` to a quarter circle that starts at the opposite point. -/
example : ∃ R, (∀ m, updateMaxDistance rne Real.sqrt ⟨-1, 0, 0⟩ ⟨1, 0, 0⟩ ⟨0, 1, 0⟩ m = if m < R then (R, true) else (m, false)) ∧ 4 ≤ R + 1 / 2 ^ 40 / (1 : ℝ) := by
  have one : ∀ v : Vec ℝ, v = smul 1 v := fun v => by simp [smul]
  have uA : UnitV (⟨1, 0, 0⟩ : Vec ℝ) := by norm_num [UnitV, dot]
  obtain ⟨R, h1, h2, -⟩ := c122_updateMax rounding_rne rne_mono rne_zero rne_one (X := ⟨-1, 0, 0⟩) (A := ⟨1, 0, 0⟩) (B := ⟨0, 1, 0⟩) (S := 1) (by norm_num [UnitV, dot]) uA
    (by norm_num [UnitV, dot]) one_pos one_pos one_pos (one _) (one _) (one _) (by norm_num [dot]) (by norm_num [dot]) (by norm_num [dot]) (by norm_num) (by norm_num [dot])
    (fun i => by cases i <;> simp [comp, rne_one, rne_zero])
  refine ⟨R, h1, ?_⟩
  have := h2 _ (onEdge_left uA)
  have e : dist2 (⟨-1, 0, 0⟩ : Vec ℝ) ⟨1, 0, 0⟩ = 4 := by norm_num [dist2, dot, diff]
  rwa [e] at this

end Verif
