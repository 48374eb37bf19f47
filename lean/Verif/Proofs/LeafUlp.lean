import Verif.Proofs.RNE
import Verif.Properties.PointRound

/-!
# The last places in the conversions between `(u, v)` and `(s, t)`

With rounding to nearest even, how far the `u` coordinate of a point may be from the grid lines of the leaf cell that is computed for it.
-/

namespace Verif
open Spec

variable {K : Type} [Field K] [LinearOrder K] [IsStrictOrderedRing K] [FloorRing K]

/-- The error of a rounding is at most half a last place. -/
theorem rne_half_ulp {x : K} {e : ℤ} (he : -1074 ≤ e) (hx : |x| ≤ 2 ^ (e + 53)) : |rne x - x| ≤ 1 / 2 * 2 ^ e := by
  have hp := two_zpow_pos (K := K) e
  rcases eq_or_ne x 0 with rfl | h0
  · rw [rne_zero, sub_self, abs_zero]; positivity
  have hx0 : 0 < |x| := abs_pos.2 h0
  rcases hx.lt_or_eq with hlt | heq
  · have hl : Int.log 2 |x| < e + 53 := by
      rw [← Int.lt_zpow_iff_log_lt (by norm_num) hx0]
      push_cast
      exact hlt
    have hu : ulpExp x ≤ e := by unfold ulpExp; omega
    refine (rne_near_ulp x).trans ?_
    have := two_zpow_le (K := K) hu
    linarith
  · have z53 : (2 : K) ^ (e + 53) = ((2 ^ 53 : ℤ) : K) * 2 ^ e := by
      rw [add_comm, two_zpow_add]; norm_num
    have : rne x = x := by
      rcases abs_cases x with ⟨a, _⟩ | ⟨a, _⟩
      · exact rne_exact (m := 2 ^ 53) (k := e) (by rw [← z53, ← heq, a]) (by norm_num) he
      · refine rne_exact (m := -2 ^ 53) (k := e) ?_ (by norm_num) he
        have : x = -|x| := by rw [a, neg_neg]
        rw [this, heq, z53]; push_cast; ring
    rw [this, sub_self, abs_zero]; positivity

/-- A rounded number is a multiple of its last place. -/
theorem rne_mult {x : K} {e : ℤ} (hx : 2 ^ (e + 52) ≤ |x|) : ∃ n : ℤ, rne x = n * 2 ^ e := by
  have hx0 : 0 < |x| := (two_zpow_pos _).trans_le hx
  have hl : e + 52 ≤ Int.log 2 |x| := by
    rw [← Int.zpow_le_iff_le_log (by norm_num) hx0]
    push_cast
    exact hx
  have hu : e ≤ ulpExp x := by unfold ulpExp; omega
  obtain ⟨n, hn⟩ := Int.eq_ofNat_of_zero_le (sub_nonneg.2 hu)
  refine ⟨roundEven (x / 2 ^ ulpExp x) * 2 ^ n, ?_⟩
  have e2 : (2 : K) ^ ulpExp x = 2 ^ n * 2 ^ e := by
    rw [show ulpExp x = (n : ℤ) + e by omega, two_zpow_add, two_zpow_nat]
  rw [rne]
  conv_lhs => rw [e2]
  push_cast
  rw [mul_assoc, ← e2]

/-- A rounding with an error of half a last place gives an even multiple of it. -/
theorem rne_even {x : K} {e : ℤ} (he : -1074 ≤ e) (h1 : 2 ^ (e + 52) ≤ |x|) (h2 : |x| ≤ 2 ^ (e + 53)) (h : |rne x - x| = 1 / 2 * 2 ^ e) :
    ∃ n : ℤ, rne x = 2 * n * 2 ^ e := by
  have hp := two_zpow_pos (K := K) e
  have hb := rne_binade he h1 h2
  have ht : |(roundEven (x / 2 ^ e) : K) - x / 2 ^ e| = 1 / 2 := by
    have e1 : (roundEven (x / 2 ^ e) : K) - x / 2 ^ e = (rne x - x) / 2 ^ e := by
      rw [hb]; field_simp
    rw [e1, abs_div, h, abs_of_pos hp]; field_simp
  have hev := roundEven_tie ht
  refine ⟨roundEven (x / 2 ^ e) / 2, ?_⟩
  rw [hb]
  have : (2 * (roundEven (x / 2 ^ e) / 2) : ℤ) = roundEven (x / 2 ^ e) := by omega
  congr 1
  exact_mod_cast this.symm

/-- The last place of the numbers in `[1/4, 1/2)`: a quarter of `DBL_EPSILON`. -/
def eta (K : Type) [Field K] : K := 1 / 2 ^ 54

theorem eta_pos : 0 < eta K := by unfold eta; positivity
theorem eta_one : 2 ^ 54 * eta K = 1 := by unfold eta; field_simp
theorem eta_small : eta K ≤ 1 / 1000000 := by unfold eta; norm_num

theorem zpow_eta (n : ℕ) (e : ℤ) (h : e = n - 54) : (2 : K) ^ e = 2 ^ n * eta K := by
  rw [h, sub_eq_add_neg, two_zpow_add, two_zpow_nat]
  unfold eta
  norm_num

theorem near_1 {x : K} (h : |x| ≤ 1 / 2) : |rne x - x| ≤ eta K / 2 := by
  have := rne_half_ulp (x := x) (e := -54) (by norm_num) (by refine h.trans ?_; norm_num)
  rw [zpow_eta 0 (-54) (by norm_num)] at this
  linarith

theorem near_2 {x : K} (h : |x| ≤ 1) : |rne x - x| ≤ eta K := by
  have := rne_half_ulp (x := x) (e := -53) (by norm_num) (by refine h.trans ?_; norm_num)
  rw [zpow_eta 1 (-53) (by norm_num)] at this
  linarith

theorem near_3 {x : K} (h : |x| ≤ 2) : |rne x - x| ≤ 2 * eta K := by
  have := rne_half_ulp (x := x) (e := -52) (by norm_num) (by refine h.trans ?_; norm_num)
  rw [zpow_eta 2 (-52) (by norm_num)] at this
  linarith

theorem near_4 {x : K} (h : |x| ≤ 4) : |rne x - x| ≤ 4 * eta K := by
  have := rne_half_ulp (x := x) (e := -51) (by norm_num) (by refine h.trans ?_; norm_num)
  rw [zpow_eta 3 (-51) (by norm_num)] at this
  linarith

theorem mult_1 {x : K} (h : 1 / 4 ≤ x) : ∃ n : ℤ, rne x = n * eta K := by
  obtain ⟨n, hn⟩ := rne_mult (x := x) (e := -54) (by rw [abs_of_pos (by linarith)]; refine le_trans ?_ h; norm_num)
  rw [zpow_eta 0 (-54) (by norm_num)] at hn
  exact ⟨n, by rw [hn]; ring⟩

theorem mult_2 {x : K} (h : 1 / 2 ≤ x) : ∃ n : ℤ, rne x = n * (2 * eta K) := by
  obtain ⟨n, hn⟩ := rne_mult (x := x) (e := -53) (by rw [abs_of_pos (by linarith)]; refine le_trans ?_ h; norm_num)
  rw [zpow_eta 1 (-53) (by norm_num)] at hn
  exact ⟨n, by rw [hn]; ring⟩

theorem mult_3 {x : K} (h : 1 ≤ x) : ∃ n : ℤ, rne x = n * (4 * eta K) := by
  obtain ⟨n, hn⟩ := rne_mult (x := x) (e := -52) (by rw [abs_of_pos (by linarith)]; refine le_trans ?_ h; norm_num)
  rw [zpow_eta 2 (-52) (by norm_num)] at hn
  exact ⟨n, by rw [hn]; ring⟩

theorem mult_4 {x : K} (h : 2 ≤ x) : ∃ n : ℤ, rne x = n * (8 * eta K) := by
  obtain ⟨n, hn⟩ := rne_mult (x := x) (e := -51) (by rw [abs_of_pos (by linarith)]; refine le_trans ?_ h; norm_num)
  rw [zpow_eta 3 (-51) (by norm_num)] at hn
  exact ⟨n, by rw [hn]; ring⟩

theorem even_3 {x : K} (h1 : 1 ≤ x) (h2 : x ≤ 2) (h : |rne x - x| = 2 * eta K) : ∃ n : ℤ, rne x = n * (8 * eta K) := by
  obtain ⟨n, hn⟩ := rne_even (x := x) (e := -52) (by norm_num) (by rw [abs_of_pos (by linarith)]; refine le_trans ?_ h1; norm_num)
    (by rw [abs_of_pos (by linarith)]; refine h2.trans ?_; norm_num) (by rw [h, zpow_eta 2 (-52) (by norm_num)]; ring)
  rw [zpow_eta 2 (-52) (by norm_num)] at hn
  exact ⟨n, by rw [hn]; ring⟩

theorem even_4 {x : K} (h1 : 2 ≤ x) (h2 : x ≤ 4) (h : |rne x - x| = 4 * eta K) : ∃ n : ℤ, rne x = n * (16 * eta K) := by
  obtain ⟨n, hn⟩ := rne_even (x := x) (e := -51) (by norm_num) (by rw [abs_of_pos (by linarith)]; refine le_trans ?_ h1; norm_num)
    (by rw [abs_of_pos (by linarith)]; refine h2.trans ?_; norm_num) (by rw [h, zpow_eta 3 (-51) (by norm_num)]; ring)
  rw [zpow_eta 3 (-51) (by norm_num)] at hn
  exact ⟨n, by rw [hn]; ring⟩

/-- The constant `1. / 3.`. -/
theorem rne_third : rne (1 / 3 : K) = (1 - eta K) / 3 := by
  have hb := rne_binade (x := (1 / 3 : K)) (e := -54) (by norm_num) (by rw [abs_of_pos (by norm_num)]; norm_num) (by rw [abs_of_pos (by norm_num)]; norm_num)
  have hr : roundEven ((1 / 3 : K) / 2 ^ (-54 : ℤ)) = 6004799503160661 := by
    apply roundEven_eq
    rw [abs_lt]
    norm_num
  rw [hb, hr, zpow_eta 0 (-54) (by norm_num)]
  unfold eta
  norm_num

theorem rne_two_eq : rne (2 : K) = 2 := rne_exact (m := 1) (k := 1) (by norm_num) (by norm_num) (by norm_num)
theorem rne_four : rne (4 : K) = 4 := rne_exact (m := 1) (k := 2) (by norm_num) (by norm_num) (by norm_num)
theorem rne_halfv : rne (1 / 2 : K) = 1 / 2 := rne_exact (m := 1) (k := -1) (by norm_num) (by norm_num) (by norm_num)

/-- Multiples of a positive number. -/
theorem mult_le {e x y : K} {m n k : ℤ} (he : 0 < e) (hx : x = m * e) (hy : y = n * e) (h : x - y < (k + 1) * e) : x - y ≤ k * e := by
  rw [hx, hy] at h ⊢
  rw [← sub_mul] at h ⊢
  have h1 := lt_of_mul_lt_mul_right h he.le
  have h2 : m - n < k + 1 := by exact_mod_cast h1
  have h3 : m - n ≤ k := by omega
  refine mul_le_mul_of_nonneg_right ?_ he.le
  exact_mod_cast h3

theorem mult_down {e x : K} {m : ℤ} (k : ℕ) (hx : x = m * (k * e)) : ∃ n : ℤ, x = n * e := ⟨m * k, by rw [hx]; push_cast; ring⟩

/-- The intermediate results of `uv_to_st` for `u = w ≥ 0` (or `u = -w`). -/
structure UvSteps (sqrt : K → K) (w T A r : K) : Prop where
  w0 : 0 ≤ w
  w1 : w ≤ 1
  w64 : rne w = w
  eT : T = rne (3 * w)
  eA : A = rne (1 + T)
  er : r = rne (sqrt A)

/-- The intermediate results of `st_to_uv` at a grid line `q / 2`, `q ≥ 1` (or `1 - q / 2`). -/
structure StSteps (m : ℤ) (q X U : K) : Prop where
  m0 : 2 ^ 29 ≤ m
  m1 : m ≤ 2 ^ 30
  eq : q = m / 2 ^ 29
  eX : X = rne (q * q)
  eU : U = rne (rne (1 / 3) * rne (X - 1))

namespace UvSteps
variable {sqrt : K → K} {w T A r : K}

theorem t_le (h : UvSteps sqrt w T A r) : (3 * w ≤ 1 → T ≤ 1 ∧ |T - 3 * w| ≤ eta K) ∧ (3 * w ≤ 2 → T ≤ 2 ∧ |T - 3 * w| ≤ 2 * eta K) ∧ T ≤ 3 ∧ |T - 3 * w| ≤ 4 * eta K := by
  have h0 := h.w0
  have h1 := h.w1
  have a : |3 * w| = 3 * w := abs_of_nonneg (by linarith)
  rw [h.eT]
  refine ⟨fun k => ⟨?_, near_2 (by rw [a]; exact k)⟩, fun k => ⟨?_, near_3 (by rw [a]; exact k)⟩, ?_, near_4 (by rw [a]; linarith)⟩
  · have := rne_mono k; rwa [rne_one] at this
  · have := rne_mono k; rwa [rne_two_eq] at this
  · have := rne_mono (show 3 * w ≤ 3 by linarith)
    rwa [rne_exact (x := (3 : K)) (m := 3) (k := 0) (by norm_num) (by norm_num) (by norm_num)] at this

theorem t_ge (h : UvSteps sqrt w T A r) : 0 ≤ T ∧ (1 ≤ 3 * w → 1 ≤ T) ∧ (2 ≤ 3 * w → 2 ≤ T) := by
  rw [h.eT]
  refine ⟨rne_nonneg (by have := h.w0; linarith), fun k => ?_, fun k => ?_⟩
  · have := rne_mono k; rwa [rne_one] at this
  · have := rne_mono k; rwa [rne_two_eq] at this

theorem a_range (h : UvSteps sqrt w T A r) : 1 ≤ A ∧ A ≤ 4 ∧ (T ≤ 1 → A ≤ 2) ∧ (1 ≤ T → 2 ≤ A) := by
  obtain ⟨t0, _, _⟩ := h.t_ge
  obtain ⟨_, _, t3, _⟩ := h.t_le
  rw [h.eA]
  refine ⟨?_, ?_, fun k => ?_, fun k => ?_⟩
  · have := rne_mono (show (1 : K) ≤ 1 + T by linarith); rwa [rne_one] at this
  · have := rne_mono (show 1 + T ≤ 4 by linarith); rwa [rne_four] at this
  · have := rne_mono (show 1 + T ≤ 2 by linarith); rwa [rne_two_eq] at this
  · have := rne_mono (show 2 ≤ 1 + T by linarith); rwa [rne_two_eq] at this

theorem a_near (h : UvSteps sqrt w T A r) : (T ≤ 1 → |A - (1 + T)| ≤ 2 * eta K) ∧ |A - (1 + T)| ≤ 4 * eta K := by
  obtain ⟨t0, _, _⟩ := h.t_ge
  obtain ⟨_, _, t3, _⟩ := h.t_le
  have a : |1 + T| = 1 + T := abs_of_nonneg (by linarith)
  rw [h.eA]
  exact ⟨fun k => near_3 (by rw [a]; linarith), near_4 (by rw [a]; linarith)⟩

theorem a_mult (h : UvSteps sqrt w T A r) : (∃ n : ℤ, A = n * (4 * eta K)) ∧ (2 ≤ A → ∃ n : ℤ, A = n * (8 * eta K)) := by
  have k : rne A = A := by rw [h.eA, rne_rne]
  obtain ⟨h1, _⟩ := h.a_range
  constructor
  · obtain ⟨n, hn⟩ := mult_3 h1; exact ⟨n, by rw [← hn, k]⟩
  · intro h2
    obtain ⟨n, hn⟩ := mult_4 h2; exact ⟨n, by rw [← hn, k]⟩

theorem r_near (h : UvSteps sqrt w T A r) (hs : IsSqrt sqrt) : 1 ≤ sqrt A ∧ sqrt A ≤ 2 ∧ sqrt A * sqrt A = A ∧ |r - sqrt A| ≤ 2 * eta K ∧ 1 ≤ r ∧ r ≤ 2 ∧ ∃ n : ℤ, r = n * (4 * eta K) := by
  obtain ⟨a1, a4, _⟩ := h.a_range
  obtain ⟨s0, s1⟩ := hs A (by linarith)
  have k1 : 1 ≤ sqrt A := by nlinarith
  have k2 : sqrt A ≤ 2 := by nlinarith
  refine ⟨k1, k2, s1, ?_, ?_, ?_, ?_⟩ <;> rw [h.er]
  · exact near_3 (by rw [abs_of_nonneg s0]; exact k2)
  · have := rne_mono k1; rwa [rne_one] at this
  · have := rne_mono k2; rwa [rne_two_eq] at this
  · exact mult_3 k1

/-- For `T` between 1 and 2: if `1 + T` is rounded with an error, `T` is an odd multiple of its last place, and `3 w` was not half way to it. -/
theorem tie (h : UvSteps sqrt w T A r) (k1 : 1 ≤ 3 * w) (k2 : 3 * w ≤ 2) :
    A = 1 + T ∨ ((A = 1 + T + 4 * eta K ∨ A = 1 + T - 4 * eta K) ∧ (w < 1 / 2 → |T - 3 * w| ≤ eta K) ∧ (1 / 2 ≤ w → T = 3 * w)) := by
  have e0 := eta_pos (K := K)
  have e1 := eta_one (K := K)
  have t1 := h.t_ge.2.1 k1
  obtain ⟨t2, tn⟩ := h.t_le.2.1 k2
  obtain ⟨n, hn⟩ := mult_3 k1
  rw [← h.eT] at hn
  have an := h.a_near.2
  have a2 := h.a_range.2.2.2 t1
  obtain ⟨p, hp⟩ := h.a_mult.2 a2
  -- the error of the sum
  have hd : A - (1 + T) = ((2 * p - 2 ^ 52 - n : ℤ) : K) * (4 * eta K) := by
    rw [hp, hn]; push_cast; linear_combination e1
  have hd' : |((2 * p - 2 ^ 52 - n : ℤ) : K)| ≤ 1 := by
    rw [hd, abs_mul, abs_of_pos (by linarith : 0 < 4 * eta K)] at an
    by_contra c
    rw [not_le] at c
    nlinarith
  have hz : |2 * p - 2 ^ 52 - n| ≤ 1 := by exact_mod_cast hd'
  rw [abs_le] at hz
  by_cases hc : 2 * p - 2 ^ 52 - n = 0
  · left
    rw [hc] at hd
    push_cast at hd
    linarith
  right
  have herr : |A - (1 + T)| = 4 * eta K := by
    rw [hd, abs_mul, abs_of_pos (by linarith : 0 < 4 * eta K)]
    have : |2 * p - 2 ^ 52 - n| = 1 := by
      rcases abs_cases (2 * p - 2 ^ 52 - n) with ⟨a, _⟩ | ⟨a, _⟩ <;> omega
    have : |((2 * p - 2 ^ 52 - n : ℤ) : K)| = 1 := by exact_mod_cast this
    rw [this, one_mul]
  have hA := h.eA
  obtain ⟨p', hp'⟩ := even_4 (x := 1 + T) (by linarith) (by linarith) (by rw [← hA]; exact herr)
  rw [← hA] at hp'
  have hpp : p = 2 * p' := by
    have : (p : K) * (8 * eta K) = ((2 * p' : ℤ) : K) * (8 * eta K) := by rw [← hp, hp']; push_cast; ring
    have := mul_right_cancel₀ (by linarith : (8 * eta K) ≠ 0) this
    exact_mod_cast this
  have hodd : n % 2 = 1 := by omega
  refine ⟨?_, ?_, ?_⟩
  · rcases abs_eq (by linarith : 0 ≤ 4 * eta K) |>.1 herr with c | c
    · left; linarith
    · right; linarith
  · -- not half way
    intro hw
    have hw4 : 1 / 4 ≤ w := by linarith
    obtain ⟨M, hM⟩ := mult_1 hw4
    rw [h.w64] at hM
    have hT : T - 3 * w = ((4 * n - 3 * M : ℤ) : K) * eta K := by rw [hn, hM]; push_cast; ring
    have h2 : |4 * n - 3 * M| ≤ 2 := by
      rw [hT, abs_mul, abs_of_pos e0] at tn
      have := le_of_mul_le_mul_right tn e0
      exact_mod_cast this
    have h3 : |4 * n - 3 * M| ≠ 2 := by
      intro c
      have hk : |T - 3 * w| = 2 * eta K := by
        rw [hT, abs_mul, abs_of_pos e0]
        have : |((4 * n - 3 * M : ℤ) : K)| = 2 := by exact_mod_cast c
        rw [this]
      obtain ⟨n', hn'⟩ := even_3 k1 k2 (by rw [← h.eT]; exact hk)
      rw [← h.eT] at hn'
      have : (n : K) * (4 * eta K) = ((2 * n' : ℤ) : K) * (4 * eta K) := by rw [← hn, hn']; push_cast; ring
      have := mul_right_cancel₀ (by linarith : (4 * eta K) ≠ 0) this
      have : n = 2 * n' := by exact_mod_cast this
      omega
    have h4 : |4 * n - 3 * M| ≤ 1 := by omega
    rw [hT, abs_mul, abs_of_pos e0]
    have : |((4 * n - 3 * M : ℤ) : K)| ≤ 1 := by exact_mod_cast h4
    nlinarith
  · intro hw
    obtain ⟨M, hM⟩ := mult_2 hw
    rw [h.w64] at hM
    have hT : T - 3 * w = ((2 * n - 3 * M : ℤ) : K) * (2 * eta K) := by rw [hn, hM]; push_cast; ring
    have h2 : |2 * n - 3 * M| ≤ 1 := by
      rw [hT, abs_mul, abs_of_pos (by linarith : 0 < 2 * eta K)] at tn
      have : |((2 * n - 3 * M : ℤ) : K)| ≤ 1 := by
        by_contra c
        rw [not_le] at c
        nlinarith
      exact_mod_cast this
    have h3 : |2 * n - 3 * M| ≠ 1 := by
      intro c
      have hk : |T - 3 * w| = 2 * eta K := by
        rw [hT, abs_mul, abs_of_pos (by linarith : 0 < 2 * eta K)]
        have : |((2 * n - 3 * M : ℤ) : K)| = 1 := by exact_mod_cast c
        rw [this, one_mul]
      obtain ⟨n', hn'⟩ := even_3 k1 k2 (by rw [← h.eT]; exact hk)
      rw [← h.eT] at hn'
      have : (n : K) * (4 * eta K) = ((2 * n' : ℤ) : K) * (4 * eta K) := by rw [← hn, hn']; push_cast; ring
      have := mul_right_cancel₀ (by linarith : (4 * eta K) ≠ 0) this
      have : n = 2 * n' := by exact_mod_cast this
      omega
    have h4 : 2 * n - 3 * M = 0 := by
      have := abs_nonneg (2 * n - 3 * M)
      exact abs_eq_zero.1 (by omega)
    rw [h4] at hT
    push_cast at hT
    linarith

/-- For `T ≥ 2` the sum is exact. -/
theorem a_exact (h : UvSteps sqrt w T A r) (k : 2 ≤ 3 * w) : A = 1 + T := by
  have e0 := eta_pos (K := K)
  have e1 := eta_one (K := K)
  obtain ⟨n, hn⟩ := mult_4 k
  rw [← h.eT] at hn
  have t3 := h.t_le.2.2.1
  have t2 := h.t_ge.2.2 k
  rw [h.eA]
  refine rne_exact (m := 2 ^ 51 + n) (k := -51) ?_ ?_ (by norm_num)
  · rw [zpow_eta 3 (-51) (by norm_num), hn]; push_cast; linear_combination -e1
  · have h1 : (n : K) * (8 * eta K) ≤ 3 * 2 ^ 51 * (8 * eta K) := by rw [← hn]; linarith
    have h2 := le_of_mul_le_mul_right h1 (by linarith : 0 < 8 * eta K)
    have h3 : n ≤ 3 * 2 ^ 51 := by exact_mod_cast h2
    have h4 : 0 ≤ (n : K) * (8 * eta K) := by rw [← hn]; linarith
    have h5 : (0 : K) ≤ n := nonneg_of_mul_nonneg_left h4 (by linarith)
    have h6 : 0 ≤ n := by exact_mod_cast h5
    rw [abs_of_nonneg (by omega)]
    omega

end UvSteps

namespace StSteps
variable {m : ℤ} {q X U : K}

theorem q_range (h : StSteps m q X U) : 1 ≤ q ∧ q ≤ 2 ∧ ∃ n : ℤ, q = n * (4 * eta K) := by
  have m0 : ((2 ^ 29 : ℤ) : K) ≤ m := by exact_mod_cast h.m0
  have m1 : (m : K) ≤ ((2 ^ 30 : ℤ) : K) := by exact_mod_cast h.m1
  push_cast at m0 m1
  rw [h.eq]
  refine ⟨by rw [le_div_iff₀ (by positivity)]; linarith, by rw [div_le_iff₀ (by positivity)]; linarith, m * 2 ^ 23, ?_⟩
  unfold eta
  push_cast
  ring

theorem x_range (h : StSteps m q X U) : 1 ≤ X ∧ X ≤ 4 ∧ (q * q ≤ 2 → X ≤ 2) ∧ (2 ≤ q * q → 2 ≤ X) := by
  obtain ⟨q1, q2, _⟩ := h.q_range
  rw [h.eX]
  refine ⟨?_, ?_, fun k => ?_, fun k => ?_⟩
  · have := rne_mono (show (1 : K) ≤ q * q by nlinarith); rwa [rne_one] at this
  · have := rne_mono (show q * q ≤ 4 by nlinarith); rwa [rne_four] at this
  · have := rne_mono k; rwa [rne_two_eq] at this
  · have := rne_mono k; rwa [rne_two_eq] at this

theorem x_near (h : StSteps m q X U) : (q * q ≤ 2 → |X - q * q| ≤ 2 * eta K) ∧ |X - q * q| ≤ 4 * eta K := by
  obtain ⟨q1, q2, _⟩ := h.q_range
  have a : |q * q| = q * q := abs_of_nonneg (by nlinarith)
  rw [h.eX]
  exact ⟨fun k => near_3 (by rw [a]; exact k), near_4 (by rw [a]; nlinarith)⟩

theorem x_mult (h : StSteps m q X U) : (∃ n : ℤ, X = n * (4 * eta K)) ∧ (2 ≤ X → ∃ n : ℤ, X = n * (8 * eta K)) := by
  have k : rne X = X := by rw [h.eX, rne_rne]
  obtain ⟨h1, _⟩ := h.x_range
  constructor
  · obtain ⟨n, hn⟩ := mult_3 h1; exact ⟨n, by rw [← hn, k]⟩
  · intro h2
    obtain ⟨n, hn⟩ := mult_4 h2; exact ⟨n, by rw [← hn, k]⟩

/-- The result, from `y = (1 - eta) / 3 * (X - 1)`. -/
theorem u_eq (h : StSteps m q X U) : U = rne ((1 - eta K) / 3 * (X - 1)) := by
  have e0 := eta_pos (K := K)
  have e1 := eta_one (K := K)
  obtain ⟨x1, x4, _⟩ := h.x_range
  have hx : rne (X - 1) = X - 1 := by
    rcases le_or_gt 2 X with c | c
    · obtain ⟨n, hn⟩ := h.x_mult.2 c
      refine rne_exact (m := n - 2 ^ 51) (k := -51) ?_ ?_ (by norm_num)
      · rw [zpow_eta 3 (-51) (by norm_num), hn]; push_cast; linear_combination e1
      · have h1 : (n : K) * (8 * eta K) ≤ 2 ^ 53 * (8 * eta K) := by rw [← hn]; linarith
        have h2 := le_of_mul_le_mul_right h1 (by linarith : 0 < 8 * eta K)
        have h3 : n ≤ 2 ^ 53 := by exact_mod_cast h2
        have h4 : 0 ≤ (n : K) * (8 * eta K) := by rw [← hn]; linarith
        have h5 : (0 : K) ≤ n := nonneg_of_mul_nonneg_left h4 (by linarith)
        have h6 : 0 ≤ n := by exact_mod_cast h5
        rw [abs_le]
        constructor <;> omega
    · obtain ⟨n, hn⟩ := h.x_mult.1
      refine rne_exact (m := n - 2 ^ 52) (k := -52) ?_ ?_ (by norm_num)
      · rw [zpow_eta 2 (-52) (by norm_num), hn]; push_cast; linear_combination e1
      · have h1 : (n : K) * (4 * eta K) ≤ 2 ^ 53 * (4 * eta K) := by rw [← hn]; linarith
        have h2 := le_of_mul_le_mul_right h1 (by linarith : 0 < 4 * eta K)
        have h3 : n ≤ 2 ^ 53 := by exact_mod_cast h2
        have h4 : 0 ≤ (n : K) * (4 * eta K) := by rw [← hn]; linarith
        have h5 : (0 : K) ≤ n := nonneg_of_mul_nonneg_left h4 (by linarith)
        have h6 : 0 ≤ n := by exact_mod_cast h5
        rw [abs_le]
        constructor <;> omega
  rw [h.eU, rne_third, hx]

theorem u_near (h : StSteps m q X U) {y : K} (hy : y = (1 - eta K) / 3 * (X - 1)) :
    0 ≤ y ∧ y ≤ 1 ∧ (y ≤ 1 / 2 → |U - y| ≤ eta K / 2 ∧ U ≤ 1 / 2) ∧ |U - y| ≤ eta K ∧ (1 / 2 ≤ y → 1 / 2 ≤ U) ∧ (1 / 4 ≤ y → ∃ n : ℤ, U = n * eta K) ∧
      (1 / 2 ≤ y → ∃ n : ℤ, U = n * (2 * eta K)) := by
  have e0 := eta_pos (K := K)
  have e2 := eta_small (K := K)
  obtain ⟨x1, x4, _⟩ := h.x_range
  have y0 : 0 ≤ y := by rw [hy]; refine mul_nonneg ?_ ?_ <;> linarith
  have y1 : y ≤ 1 := by rw [hy]; nlinarith
  rw [h.u_eq, ← hy]
  refine ⟨y0, y1, fun k => ⟨near_1 (by rw [abs_of_nonneg y0]; exact k), ?_⟩, near_2 (by rw [abs_of_nonneg y0]; exact y1), fun k => ?_, mult_1, mult_2⟩
  · have := rne_mono k; rwa [rne_halfv] at this
  · have := rne_mono k; rwa [rne_halfv] at this

/-- No grid line is within a few last places of `u = 1/2`. -/
theorem not_half (h : StSteps m q X U) (k1 : 5 / 2 - 32 * eta K ≤ X) (k2 : X ≤ 5 / 2 + 32 * eta K) : False := by
  have e1 := eta_one (K := K)
  have xn := h.x_near.2
  rw [abs_le] at xn
  have hq : q * q = m * m / 2 ^ 58 := by rw [h.eq]; ring
  have l1 : (5 * 2 ^ 57 - 2 ^ 10 : K) ≤ m * m := by
    have : 5 / 2 - 36 * eta K ≤ m * m / 2 ^ 58 := by rw [← hq]; linarith
    rw [le_div_iff₀ (by positivity)] at this
    unfold eta at this
    linarith
  have l2 : (m * m : K) ≤ 5 * 2 ^ 57 + 2 ^ 10 := by
    have : m * m / 2 ^ 58 ≤ 5 / 2 + 36 * eta K := by rw [← hq]; linarith
    rw [div_le_iff₀ (by positivity)] at this
    unfold eta at this
    linarith
  have l1' : 5 * 2 ^ 57 - 2 ^ 10 ≤ m * m := by exact_mod_cast l1
  have l2' : m * m ≤ 5 * 2 ^ 57 + 2 ^ 10 := by exact_mod_cast l2
  have := h.m0
  rcases le_or_gt m 848867445 with c | c
  · have : m * m ≤ 848867445 * 848867445 := mul_le_mul c c (by omega) (by norm_num)
    omega
  · have : 848867446 * 848867446 ≤ m * m := mul_le_mul c c (by norm_num) (by omega)
    omega

end StSteps

section helpers
omit [FloorRing K]

theorem sq_gt {q e s : K} (e0 : 0 < e) (h1 : 1 ≤ q) (he : e ≤ 1 / 1000000) (h : q - 2 * e ≤ s) : q * q - 4 * e * q < s * s := by
  have h2 : 0 ≤ q - 2 * e := by linarith
  have := mul_le_mul h h h2 (h2.trans h)
  nlinarith

theorem sq_lt {q e s : K} (h0 : 0 ≤ s) (h : s ≤ q + 2 * e) : s * s ≤ q * q + 4 * e * q + 4 * e * e := by
  have := mul_le_mul h h h0 (h0.trans h)
  nlinarith

theorem root_two {q : K} (h : q * q ≤ 2) : q ≤ 283 / 200 := by
  by_contra c
  rw [not_le] at c
  nlinarith

theorem third_bounds {e X : K} (e0 : 0 < e) (x1 : 1 ≤ X) (x4 : X ≤ 4) : (1 - e) / 3 * (X - 1) ≤ (X - 1) / 3 ∧ (X - 1) / 3 - e ≤ (1 - e) / 3 * (X - 1) := by
  constructor <;> nlinarith

end helpers

section
variable {sqrt : K → K} {w T A r : K} {m : ℤ} {q X U : K}

set_option maxHeartbeats 1000000 in
/-- A grid line not beyond the computed coordinate is at most `DBL_EPSILON` beyond the point. -/
theorem line_le (h : UvSteps sqrt w T A r) (hs : IsSqrt sqrt) (g : StSteps m q X U) (hq : q ≤ r) : U ≤ w + 4 * eta K := by
  have e0 := eta_pos (K := K)
  have e2 := eta_small (K := K)
  obtain ⟨t1, t2, t3, t4⟩ := h.t_le
  obtain ⟨s0, s1, s2⟩ := h.t_ge
  obtain ⟨a1, a4, a2, a2'⟩ := h.a_range
  obtain ⟨an, an'⟩ := h.a_near
  obtain ⟨r1, r2, r3, r4, _⟩ := h.r_near hs
  obtain ⟨q1, q2, _⟩ := g.q_range
  obtain ⟨x1, x4, x2, x2'⟩ := g.x_range
  obtain ⟨xn, xn'⟩ := g.x_near
  obtain ⟨⟨na, ha⟩, _⟩ := h.a_mult
  obtain ⟨⟨nx, hx⟩, _⟩ := g.x_mult
  obtain ⟨y, hy⟩ : ∃ y, y = (1 - eta K) / 3 * (X - 1) := ⟨_, rfl⟩
  obtain ⟨y0, y1, yh, yn, yU, ym1, ym2⟩ := g.u_near hy
  have w0 := h.w0
  have w1 := h.w1
  obtain ⟨hyx, hyx'⟩ := third_bounds e0 x1 x4
  rw [← hy] at hyx hyx'
  rw [abs_le] at r4 yn an' t4 xn'
  have hA : q * q - 4 * eta K * q < A := by
    rw [← r3]
    exact sq_gt e0 q1 e2 (by linarith)
  rcases le_or_gt (q * q) 2 with c | c
  · have xn := xn c
    have x2 := x2 c
    rw [abs_le] at xn
    have hq2 : eta K * q ≤ eta K * (283 / 200) := mul_le_mul_of_nonneg_left (root_two c) e0.le
    have hXA : X - A ≤ (1 : ℤ) * (4 * eta K) := mult_le (by linarith) hx ha (by push_cast; linarith)
    push_cast at hXA
    have yh := (yh (by linarith)).1
    rw [abs_le] at yh
    rcases le_or_gt 1 (3 * w) with d | d
    · linarith
    · obtain ⟨b1, b2⟩ := t1 d.le
      have an := an b1
      rw [abs_le] at an b2
      linarith
  · have hq2 : eta K * q ≤ eta K * 2 := mul_le_mul_of_nonneg_left q2 e0.le
    have x2 := x2' c.le
    have hXA : X - A ≤ (2 : ℤ) * (4 * eta K) := mult_le (by linarith) hx ha (by push_cast; linarith)
    push_cast at hXA
    rcases le_or_gt 1 (3 * w) with d | d
    · rcases le_or_gt (3 * w) 2 with f | f
      · have b3 := t2 f
        rw [abs_le] at b3
        obtain ⟨b3, b4⟩ := b3
        obtain ⟨M, hM⟩ := mult_1 (show 1 / 4 ≤ w by linarith)
        rw [h.w64] at hM
        obtain ⟨N, hN⟩ := ym1 (by linarith)
        have gran : U - w < 5 * eta K → U ≤ w + 4 * eta K := by
          intro k
          have := mult_le (k := 4) e0 hN hM (by push_cast; linarith)
          push_cast at this
          linarith
        rcases h.tie d f with k | ⟨k | k, k1, k2⟩
        · exact gran (by linarith)
        · rcases le_or_gt (1 / 2) w with l | l
          · rcases le_or_gt (1 / 2) y with o | o
            · obtain ⟨M, hM⟩ := mult_2 l
              rw [h.w64] at hM
              obtain ⟨N, hN⟩ := ym2 o
              have := mult_le (k := 2) (by linarith) hN hM (by push_cast; linarith)
              push_cast at this
              linarith
            · have := (yh o.le).2
              linarith
          · have k1 := k1 l
            rw [abs_le] at k1
            rcases le_or_gt y (1 / 2) with o | o
            · have := (yh o).1
              rw [abs_le] at this
              exact gran (by linarith)
            · exact (g.not_half (by linarith) (by linarith)).elim
        · exact gran (by linarith)
      · have ex := h.a_exact f.le
        obtain ⟨M, hM⟩ := mult_2 (show 1 / 2 ≤ w by linarith)
        rw [h.w64] at hM
        rcases le_or_gt (1 / 2) y with o | o
        · obtain ⟨N, hN⟩ := ym2 o
          have := mult_le (k := 2) (by linarith) hN hM (by push_cast; linarith)
          push_cast at this
          linarith
        · have := (yh o.le).2
          linarith
    · obtain ⟨b1, b2⟩ := t1 d.le
      have an := an b1
      rw [abs_le] at an b2
      obtain ⟨M, hM⟩ := mult_1 (show 1 / 4 ≤ w by linarith)
      rw [h.w64] at hM
      obtain ⟨N, hN⟩ := ym1 (by linarith)
      have yh := (yh (by linarith)).1
      rw [abs_le] at yh
      have := mult_le (k := 4) e0 hN hM (by push_cast; linarith)
      push_cast at this
      linarith

set_option maxHeartbeats 1000000 in
/-- A grid line beyond the computed coordinate is at most `DBL_EPSILON` before the point. -/
theorem line_gt (h : UvSteps sqrt w T A r) (hs : IsSqrt sqrt) (g : StSteps m q X U) (hq : r < q) : w ≤ U + 4 * eta K := by
  have e0 := eta_pos (K := K)
  have e2 := eta_small (K := K)
  obtain ⟨t1, t2, t3, t4⟩ := h.t_le
  obtain ⟨an, an'⟩ := h.a_near
  obtain ⟨r1, r2, r3, r4, _, _, nr, hr⟩ := h.r_near hs
  obtain ⟨q1, q2, nq, hqm⟩ := g.q_range
  obtain ⟨x1, x4, x2, x2'⟩ := g.x_range
  obtain ⟨y, hy⟩ : ∃ y, y = (1 - eta K) / 3 * (X - 1) := ⟨_, rfl⟩
  obtain ⟨y0, y1, yh, yn, yU, ym1, ym2⟩ := g.u_near hy
  have w0 := h.w0
  have w1 := h.w1
  have hyx' := (third_bounds e0 x1 x4).2
  rw [← hy] at hyx'
  rw [abs_le] at r4 yn an' t4
  have hrq : r - q ≤ (-1 : ℤ) * (4 * eta K) := mult_le (by linarith) hr hqm (by push_cast; linarith)
  push_cast at hrq
  have hA : A ≤ q * q := by
    rw [← r3]
    exact mul_self_le_mul_self (by linarith) (by linarith)
  have hAX : A ≤ X := by
    have k : rne A = A := by rw [h.eA, rne_rne]
    rw [g.eX, ← k]
    exact rne_mono hA
  rcases le_or_gt 1 (3 * w) with d | d
  · rcases le_or_gt (3 * w) 2 with f | f
    · have b3 := t2 f
      rw [abs_le] at b3
      linarith
    · have ex := h.a_exact f.le
      linarith
  · obtain ⟨b1, b2⟩ := t1 d.le
    have an := an b1
    rw [abs_le] at an b2
    linarith

set_option maxHeartbeats 1000000 in
/-- A grid line not before the computed coordinate is at most `DBL_EPSILON` before the point, or a quarter more for coordinates between 1/3 and 1/2. -/
theorem line_ge (h : UvSteps sqrt w T A r) (hs : IsSqrt sqrt) (g : StSteps m q X U) (hq : r ≤ q) :
    w ≤ U + 5 * eta K ∧ (w ≤ 1 / 3 ∨ 1 / 2 ≤ w → w ≤ U + 4 * eta K) := by
  have e0 := eta_pos (K := K)
  have e2 := eta_small (K := K)
  obtain ⟨t1, t2, t3, t4⟩ := h.t_le
  obtain ⟨s0, s1, s2⟩ := h.t_ge
  obtain ⟨a1, a4, a2, a2'⟩ := h.a_range
  obtain ⟨an, an'⟩ := h.a_near
  obtain ⟨r1, r2, r3, r4, _⟩ := h.r_near hs
  obtain ⟨q1, q2, _⟩ := g.q_range
  obtain ⟨x1, x4, x2, x2'⟩ := g.x_range
  obtain ⟨xn, xn'⟩ := g.x_near
  obtain ⟨⟨na, ha⟩, ha8⟩ := h.a_mult
  obtain ⟨⟨nx, hx⟩, hx8⟩ := g.x_mult
  obtain ⟨y, hy⟩ : ∃ y, y = (1 - eta K) / 3 * (X - 1) := ⟨_, rfl⟩
  obtain ⟨y0, y1, yh, yn, yU, ym1, ym2⟩ := g.u_near hy
  have w0 := h.w0
  have w1 := h.w1
  have hyx : y = (X - 1) / 3 - (X - 1) / 3 * eta K := by rw [hy]; ring
  have esq : eta K * eta K ≤ 1 / 1000000 * eta K := mul_le_mul_of_nonneg_right e2 e0.le
  have hmul : ∀ b : K, (X - 1) / 3 ≤ b → (X - 1) / 3 * eta K ≤ b * eta K := fun b hb => mul_le_mul_of_nonneg_right hb e0.le
  have hyx' := hmul 1 (by linarith)
  rw [abs_le] at r4 yn an' t4 xn'
  have suff : w ≤ U + 4 * eta K → w ≤ U + 5 * eta K ∧ (w ≤ 1 / 3 ∨ 1 / 2 ≤ w → w ≤ U + 4 * eta K) := fun k => ⟨by linarith, fun _ => k⟩
  have hA : A ≤ q * q + 4 * eta K * q + 4 * eta K * eta K := by
    rw [← r3]
    exact sq_lt (by linarith) (by linarith)
  rcases le_or_gt (q * q) 2 with c | c
  · refine suff ?_
    have xn := xn c
    have x2 := x2 c
    rw [abs_le] at xn
    have hq2 : eta K * q ≤ eta K * (283 / 200) := mul_le_mul_of_nonneg_left (root_two c) e0.le
    have hAX : A - X ≤ (1 : ℤ) * (4 * eta K) := mult_le (by linarith) ha hx (by push_cast; linarith)
    push_cast at hAX
    have hyx'' := hmul (1 / 3) (by linarith)
    have hyx0 : 0 ≤ (X - 1) / 3 * eta K := mul_nonneg (by linarith) e0.le
    have yh := (yh (by linarith)).1
    rw [abs_le] at yh
    rcases le_or_gt 1 (3 * w) with d | d
    · have s1 := s1 d
      have a2 := a2' s1
      obtain ⟨n8, hn8⟩ := ha8 a2
      have h2 : (2 : K) = (2 ^ 52 : ℤ) * (8 * eta K) := by
        have := eta_one (K := K)
        push_cast; linarith
      have hA2 : A - 2 ≤ (0 : ℤ) * (8 * eta K) := mult_le (by linarith) hn8 h2 (by push_cast; linarith)
      push_cast at hA2
      have f : 3 * w ≤ 2 := by
        by_contra f
        have := s2 (not_le.1 f).le
        linarith
      have b3 := (t2 f).2
      rw [abs_le] at b3
      obtain ⟨M, hM⟩ := mult_1 (show 1 / 4 ≤ w by linarith)
      rw [h.w64] at hM
      obtain ⟨N, hN⟩ := ym1 (by linarith)
      have := mult_le (k := 4) e0 hM hN (by push_cast; linarith)
      push_cast at this
      linarith
    · obtain ⟨b1, b2⟩ := t1 d.le
      have an := an b1
      rw [abs_le] at an b2
      linarith
  · have hq2 : eta K * q ≤ eta K * 2 := mul_le_mul_of_nonneg_left q2 e0.le
    have x2 := x2' c.le
    obtain ⟨nx8, hx8⟩ := hx8 x2
    have hAX : A - X ≤ (1 : ℤ) * (8 * eta K) := by
      rcases le_or_gt 2 A with k | k
      · obtain ⟨na8, ha8⟩ := ha8 k
        exact mult_le (by linarith) ha8 hx8 (by push_cast; linarith)
      · push_cast; linarith
    push_cast at hAX
    rcases x4.eq_or_lt with hX4 | hX4
    · refine suff ?_
      rw [hX4] at hyx
      linarith
    have y3 : (X - 1) / 3 * eta K < 1 * eta K := mul_lt_mul_of_pos_right (by linarith) e0
    rcases le_or_gt 1 (3 * w) with d | d
    · rcases le_or_gt (3 * w) 2 with f | f
      · have b3 := t2 f
        rw [abs_le] at b3
        obtain ⟨b3, b4⟩ := b3
        obtain ⟨M, hM⟩ := mult_1 (show 1 / 4 ≤ w by linarith)
        rw [h.w64] at hM
        obtain ⟨N, hN⟩ := ym1 (by linarith)
        have gran : ∀ k : ℤ, w - U < (k + 1) * eta K → w ≤ U + k * eta K := by
          intro k hk
          have := mult_le (k := k) e0 hM hN hk
          linarith
        have half : 1 / 2 ≤ y → w - U < 6 * eta K → w ≤ U + 4 * eta K := by
          intro o k
          rcases le_or_gt (1 / 2) w with l | l
          · obtain ⟨M, hM⟩ := mult_2 l
            rw [h.w64] at hM
            obtain ⟨N, hN⟩ := ym2 o
            have := mult_le (k := 2) (by linarith) hM hN (by push_cast; linarith)
            push_cast at this
            linarith
          · have := yU o
            linarith
        have case_a : A ≥ 1 + T → w ≤ U + 4 * eta K := by
          intro k
          rcases le_or_gt (1 / 2) y with o | o
          · exact half o (by linarith)
          · have b5 := (yh o.le).1
            rw [abs_le] at b5
            have := hmul (51 / 100) (by linarith)
            have := gran 4 (by push_cast; linarith)
            push_cast at this
            linarith
        rcases h.tie d f with k | ⟨k | k, k1, k2⟩
        · exact suff (case_a k.ge)
        · exact suff (case_a (by linarith))
        · rcases le_or_gt (1 / 2) y with o | o
          · refine suff ?_
            rcases le_or_gt (1 / 2) w with l | l
            · have k2 := k2 l
              exact half o (by linarith)
            · have := yU o
              linarith
          · have b5 := (yh o.le).1
            rw [abs_le] at b5
            have := hmul (51 / 100) (by linarith)
            rcases le_or_gt (1 / 2) w with l | l
            · have k2 := k2 l
              exact (g.not_half (by linarith) (by linarith)).elim
            · have k1 := k1 l
              rw [abs_le] at k1
              have := gran 5 (by push_cast; linarith)
              push_cast at this
              refine ⟨by linarith, ?_⟩
              rintro (c1 | c1)
              · -- `3 w = 1` is impossible
                exfalso
                have h3 : ((3 * M : ℤ) : K) * eta K = ((2 ^ 54 : ℤ) : K) * eta K := by
                  have := eta_one (K := K)
                  push_cast
                  linarith
                have := mul_right_cancel₀ e0.ne' h3
                have : 3 * M = 2 ^ 54 := by exact_mod_cast this
                omega
              · linarith
      · have ex := h.a_exact f.le
        refine suff ?_
        have b := s2 f.le
        obtain ⟨M, hM⟩ := mult_2 (show 1 / 2 ≤ w by linarith)
        rw [h.w64] at hM
        obtain ⟨N, hN⟩ := ym2 (by linarith)
        have := mult_le (k := 2) (by linarith) hM hN (by push_cast; linarith)
        push_cast at this
        linarith
    · refine suff ?_
      obtain ⟨b1, b2⟩ := t1 d.le
      have an := an b1
      have a2 := a2 b1
      rw [abs_le] at an b2
      linarith

end

end Verif
