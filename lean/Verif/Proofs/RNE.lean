import Verif.Proofs.Float
import Verif.Properties.Vector

/-!
# Rounding to the nearest `f64`, ties to even

`rne` is the rounding of IEEE 754 binary64 in the default mode, without the overflow to infinity. It is proved to be a `Rounding`, odd,
monotone, and the identity on the numbers that an `f64` can represent.
-/

namespace Verif
open Spec

variable {K : Type} [Field K] [LinearOrder K] [IsStrictOrderedRing K] [FloorRing K]

/-- The nearest integer, ties to even. -/
def roundEven (x : K) : ℤ :=
  if x - ⌊x⌋ < 1 / 2 then ⌊x⌋ else if 1 / 2 < x - ⌊x⌋ then ⌊x⌋ + 1 else if ⌊x⌋ % 2 = 0 then ⌊x⌋ else ⌊x⌋ + 1

theorem roundEven_near (x : K) : |(roundEven x : K) - x| ≤ 1 / 2 := by
  have h1 := Int.floor_le x
  have h2 := Int.lt_floor_add_one x
  unfold roundEven
  split_ifs with a b c <;> rw [abs_le] <;> push_cast <;> constructor <;> linarith

/-- A tie is rounded to the even neighbour. -/
theorem roundEven_tie {x : K} (h : |(roundEven x : K) - x| = 1 / 2) : roundEven x % 2 = 0 := by
  have h1 := Int.floor_le x
  have h2 := Int.lt_floor_add_one x
  unfold roundEven at *
  split_ifs at * with a b c
  · exfalso
    rw [abs_sub_comm, abs_of_nonneg (by linarith)] at h
    linarith
  · exfalso
    push_cast at h
    rw [abs_of_nonneg (by linarith)] at h
    linarith
  · exact c
  · omega

/-- An integer as near as possible is the rounded value, except in a tie. -/
theorem roundEven_eq {x : K} {n : ℤ} (h : |(n : K) - x| < 1 / 2) : roundEven x = n := by
  have h1 := roundEven_near x
  rw [abs_le] at h1
  rw [abs_lt] at h
  have h2 : (roundEven x : K) - n < 1 := by linarith
  have h3 : (n : K) - roundEven x < 1 := by linarith
  have h4 : roundEven x - n < 1 := by exact_mod_cast h2
  have h5 : n - roundEven x < 1 := by exact_mod_cast h3
  omega

theorem roundEven_tie_eq {x : K} {n : ℤ} (h : |(n : K) - x| = 1 / 2) (hn : n % 2 = 0) : roundEven x = n := by
  have h1 := roundEven_near x
  by_cases h2 : |(roundEven x : K) - x| = 1 / 2
  · have h3 := roundEven_tie h2
    rcases abs_cases ((n : K) - x) with ⟨e1, _⟩ | ⟨e1, _⟩ <;> rcases abs_cases ((roundEven x : K) - x) with ⟨e2, _⟩ | ⟨e2, _⟩
    · have : (roundEven x : K) = n := by linarith
      exact_mod_cast this
    · exfalso
      have : (n : K) = roundEven x + 1 := by linarith
      have : n = roundEven x + 1 := by exact_mod_cast this
      omega
    · exfalso
      have : (roundEven x : K) = n + 1 := by linarith
      have : roundEven x = n + 1 := by exact_mod_cast this
      omega
    · have : (roundEven x : K) = n := by linarith
      exact_mod_cast this
  · exfalso
    have h3 := lt_of_le_of_ne h1 h2
    rw [abs_lt] at h3
    rcases abs_cases ((n : K) - x) with ⟨e1, _⟩ | ⟨e1, _⟩
    · have a1 : (roundEven x : K) < n := by linarith
      have a2 : (n : K) < roundEven x + 1 := by linarith
      have a1 : roundEven x < n := by exact_mod_cast a1
      have a2 : n < roundEven x + 1 := by exact_mod_cast a2
      omega
    · have a1 : (n : K) < roundEven x := by linarith
      have a2 : (roundEven x : K) < n + 1 := by linarith
      have a1 : n < roundEven x := by exact_mod_cast a1
      have a2 : roundEven x < n + 1 := by exact_mod_cast a2
      omega

theorem roundEven_int (n : ℤ) : roundEven (n : K) = n := roundEven_eq (by simp)

theorem roundEven_neg (x : K) : roundEven (-x) = -roundEven x := by
  have h1 := roundEven_near x
  by_cases h2 : |(roundEven x : K) - x| = 1 / 2
  · refine roundEven_tie_eq ?_ ?_
    · push_cast
      rw [neg_sub_neg, abs_sub_comm]
      exact h2
    · have := roundEven_tie h2
      omega
  · refine roundEven_eq ?_
    push_cast
    rw [neg_sub_neg, abs_sub_comm]
    exact lt_of_le_of_ne h1 h2

theorem roundEven_mono : Monotone (roundEven : K → ℤ) := by
  intro x y hxy
  by_contra hn
  rw [not_le] at hn
  have h1 := roundEven_near x
  have h2 := roundEven_near y
  have h3 : roundEven y + 1 ≤ roundEven x := hn
  have h4 : (roundEven y : K) + 1 ≤ roundEven x := by exact_mod_cast h3
  have h1' := h1
  have h2' := h2
  rw [abs_le] at h1 h2
  have e1 : x = y := by linarith
  rw [e1] at hn
  exact lt_irrefl _ hn

theorem roundEven_le {x : K} {n : ℤ} (h : x ≤ n) : roundEven x ≤ n := by
  have := roundEven_mono h
  rwa [roundEven_int] at this

theorem le_roundEven {x : K} {n : ℤ} (h : (n : K) ≤ x) : n ≤ roundEven x := by
  have := roundEven_mono h
  rwa [roundEven_int] at this

/-- The exponent of the last place of the `f64` numbers near `x`. -/
def ulpExp (x : K) : ℤ := max (Int.log 2 |x|) (-1022) - 52

/-- Rounding to the nearest `f64`, ties to even, without the overflow to infinity. -/
def rne (x : K) : K := (roundEven (x / 2 ^ ulpExp x) : K) * 2 ^ ulpExp x

theorem ulpExp_neg (x : K) : ulpExp (-x) = ulpExp x := by unfold ulpExp; rw [abs_neg]

theorem rne_odd : OddFl (rne : K → K) := by
  intro x
  unfold rne
  rw [ulpExp_neg, neg_div, roundEven_neg]
  push_cast
  ring

theorem rne_zero : rne (0 : K) = 0 := by
  unfold rne
  have : roundEven ((0 : K) / 2 ^ ulpExp (0 : K)) = 0 := by
    rw [zero_div]; exact_mod_cast roundEven_int (K := K) 0
  rw [this, Int.cast_zero, zero_mul]

theorem two_zpow_pos (e : ℤ) : (0 : K) < 2 ^ e := zpow_pos (by norm_num) e

theorem rne_near_ulp (x : K) : |rne x - x| ≤ 1 / 2 * 2 ^ ulpExp x := by
  have hp := two_zpow_pos (K := K) (ulpExp x)
  have h := roundEven_near (x / 2 ^ ulpExp x)
  unfold rne
  have e1 : (roundEven (x / 2 ^ ulpExp x) : K) * 2 ^ ulpExp x - x = (roundEven (x / 2 ^ ulpExp x) - x / 2 ^ ulpExp x) * 2 ^ ulpExp x := by
    field_simp
  rw [e1, abs_mul, abs_of_pos hp]
  exact mul_le_mul_of_nonneg_right h hp.le

theorem rounding_rne : Rounding (rne : K → K) := by
  intro x _
  by_cases hx : x = 0
  · rw [hx, rne_zero, sub_self, abs_zero]
    positivity
  refine (rne_near_ulp x).trans ?_
  unfold ulpExp
  set e := max (Int.log 2 |x|) (-1022) with he
  have e53 : (1:K) / 2 * 2 ^ (e - 52) = 2 ^ e / 2 ^ 53 := by
    rw [zpow_sub₀ (by norm_num)]
    norm_num
    ring
  rw [e53]
  rcases max_choice (Int.log 2 |x|) (-1022) with h | h
  · have hlog := Int.zpow_log_le_self (b := 2) (r := |x|) (by norm_num) (abs_pos.2 hx)
    rw [he, h]
    have : ((2:ℕ):K) ^ Int.log 2 |x| / 2 ^ 53 ≤ |x| / 2 ^ 53 := by gcongr
    push_cast at this
    exact this.trans (le_add_of_nonneg_right (by positivity))
  · rw [he, h]
    have h2 : (2:K) ^ (-1022 : ℤ) / 2 ^ 53 = 1 / 2 ^ 1075 := by
      rw [zpow_neg, div_eq_div_iff (by positivity) (by positivity), show (1022:ℤ) = ((1022:ℕ):ℤ) by norm_num, zpow_natCast, inv_mul_eq_div,
        div_eq_iff (by positivity), one_mul, ← pow_add]
    rw [h2]
    have h3 : (0:K) ≤ |x| / 2 ^ 53 := by positivity
    linarith

theorem two_zpow_le {a b : ℤ} (h : a ≤ b) : (2 : K) ^ a ≤ 2 ^ b := zpow_le_zpow_right₀ (by norm_num) h

theorem two_zpow_add (a b : ℤ) : (2 : K) ^ (a + b) = 2 ^ a * 2 ^ b := zpow_add₀ (by norm_num) a b

theorem two_zpow_nat (n : ℕ) : (2 : K) ^ (n : ℤ) = 2 ^ n := zpow_natCast 2 n

/-- The exponent of the last place does not decrease. -/
theorem ulpExp_mono {x y : K} (hx : 0 < x) (h : x ≤ y) : ulpExp x ≤ ulpExp y := by
  unfold ulpExp
  rw [abs_of_pos hx, abs_of_pos (hx.trans_le h)]
  have := Int.log_mono_right (b := 2) hx h
  omega

theorem lt_ulp {x : K} (hx : 0 < x) : x < 2 ^ (ulpExp x + 53) := by
  have h := Int.lt_zpow_succ_log_self (b := 2) (by norm_num) x
  push_cast at h
  refine h.trans_le (two_zpow_le ?_)
  unfold ulpExp
  rw [abs_of_pos hx]
  omega

/-- On a positive number, the exponent of the last place tells the binade, except below the normal range. -/
theorem ulp_le {x : K} (hx : 0 < x) (h : -1074 < ulpExp x) : 2 ^ (ulpExp x + 52) ≤ x := by
  have h1 := Int.zpow_log_le_self (b := 2) (by norm_num) hx
  push_cast at h1
  refine le_trans (two_zpow_le ?_) h1
  unfold ulpExp at *
  rw [abs_of_pos hx] at *
  omega

/-- A number with few enough bits is not changed. -/
theorem rne_exact {x : K} {m k : ℤ} (hx : x = m * 2 ^ k) (hm : |m| ≤ 2 ^ 53) (hk : -1074 ≤ k) : rne x = x := by
  have hmK : |(m : K)| ≤ 2 ^ 53 := by exact_mod_cast hm
  suffices h : ∃ n : ℤ, x = n * 2 ^ ulpExp x by
    obtain ⟨n, hn⟩ := h
    have hp := two_zpow_pos (K := K) (ulpExp x)
    have e : x / 2 ^ ulpExp x = n := by rw [div_eq_iff hp.ne']; exact hn
    unfold rne
    rw [e, roundEven_int]
    exact hn.symm
  by_cases hx0 : x = 0
  · exact ⟨0, by rw [Int.cast_zero, zero_mul]; exact hx0⟩
  have hax : 0 < |x| := abs_pos.2 hx0
  have hle : |x| ≤ 2 ^ (k + 53) := by
    rw [hx, abs_mul, abs_of_pos (two_zpow_pos (K := K) k), two_zpow_add, mul_comm]
    refine mul_le_mul_of_nonneg_left ?_ (two_zpow_pos k).le
    have : (2 : K) ^ (53 : ℤ) = 2 ^ 53 := two_zpow_nat 53
    rw [this]; exact hmK
  rcases hle.lt_or_eq with hlt | heq
  · have hlog : Int.log 2 |x| < k + 53 := by
      rw [← Int.lt_zpow_iff_log_lt (by norm_num) hax]
      push_cast
      exact hlt
    have hu : ulpExp x ≤ k := by unfold ulpExp; omega
    obtain ⟨d, hd⟩ := Int.eq_ofNat_of_zero_le (sub_nonneg.2 hu)
    refine ⟨m * 2 ^ d, ?_⟩
    have : k = d + ulpExp x := by omega
    have e : (2 : K) ^ k = 2 ^ d * 2 ^ ulpExp x := by rw [this, two_zpow_add, two_zpow_nat]
    generalize ulpExp x = w at *
    rw [hx, e]
    push_cast
    ring
  · have hlog : Int.log 2 |x| = k + 53 := by
      rw [heq]
      have := Int.log_zpow (R := K) (b := 2) (by norm_num) (k + 53)
      push_cast at this
      exact this
    have hu : ulpExp x = k + 1 := by unfold ulpExp; omega
    rw [hu]
    rcases abs_cases x with ⟨e, _⟩ | ⟨e, _⟩
    · refine ⟨2 ^ 52, ?_⟩
      rw [← e, heq, two_zpow_add, two_zpow_add]
      norm_num
      ring
    · refine ⟨-2 ^ 52, ?_⟩
      have : x = -2 ^ (k + 53) := by rw [← heq, e, neg_neg]
      rw [this, two_zpow_add, two_zpow_add]
      norm_num
      ring

theorem rne_mono_pos {x y : K} (hx : 0 < x) (h : x ≤ y) : rne x ≤ rne y := by
  have hy := hx.trans_le h
  rcases (ulpExp_mono hx h).eq_or_lt with e | e
  · unfold rne
    rw [e]
    have hp := two_zpow_pos (K := K) (ulpExp y)
    refine mul_le_mul_of_nonneg_right ?_ hp.le
    have := roundEven_mono (div_le_div_of_nonneg_right h hp.le)
    exact_mod_cast this
  · have b : rne x ≤ 2 ^ (ulpExp x + 53) := by
      unfold rne
      have hp := two_zpow_pos (K := K) (ulpExp x)
      have h1 : x / 2 ^ ulpExp x ≤ ((2 ^ 53 : ℤ) : K) := by
        rw [div_le_iff₀ hp]
        refine (lt_ulp hx).le.trans (le_of_eq ?_)
        rw [add_comm, two_zpow_add]
        congr 1
        norm_num
      have h2 := roundEven_le h1
      have h3 : (roundEven (x / 2 ^ ulpExp x) : K) ≤ 2 ^ 53 := by exact_mod_cast h2
      refine (mul_le_mul_of_nonneg_right h3 hp.le).trans (le_of_eq ?_)
      rw [add_comm, two_zpow_add]
      congr 1
      norm_num
    have hlow : -1074 ≤ ulpExp x := by unfold ulpExp; omega
    have c : (2 : K) ^ (ulpExp y + 52) ≤ rne y := by
      unfold rne
      have hp := two_zpow_pos (K := K) (ulpExp y)
      have h1 : ((2 ^ 52 : ℤ) : K) ≤ y / 2 ^ ulpExp y := by
        rw [le_div_iff₀ hp]
        refine le_trans (le_of_eq ?_) (ulp_le hy (by omega))
        rw [add_comm (ulpExp y), two_zpow_add]
        congr 1
        norm_num
      have h2 := le_roundEven h1
      have h3 : (2 : K) ^ 52 ≤ roundEven (y / 2 ^ ulpExp y) := by exact_mod_cast h2
      refine le_trans (le_of_eq ?_) (mul_le_mul_of_nonneg_right h3 hp.le)
      rw [add_comm (ulpExp y), two_zpow_add]
      congr 1
      norm_num
    exact b.trans ((two_zpow_le (by omega)).trans c)

theorem rne_nonneg {x : K} (hx : 0 ≤ x) : 0 ≤ rne x := by
  unfold rne
  have hp := two_zpow_pos (K := K) (ulpExp x)
  have : ((0 : ℤ) : K) ≤ x / 2 ^ ulpExp x := by rw [Int.cast_zero]; positivity
  have := le_roundEven this
  have : (0 : K) ≤ roundEven (x / 2 ^ ulpExp x) := by exact_mod_cast this
  positivity

theorem rne_mono : Monotone (rne : K → K) := by
  intro x y h
  rcases lt_trichotomy x 0 with hx | hx | hx
  · rcases le_or_gt 0 y with hy | hy
    · have h1 := rne_nonneg (K := K) (x := -x) (by linarith)
      rw [rne_odd.eq] at h1
      have h2 := rne_nonneg hy
      linarith
    · have := rne_mono_pos (x := -y) (y := -x) (by linarith) (by linarith)
      rw [rne_odd.eq, rne_odd.eq] at this
      linarith
  · rw [hx, rne_zero]
    exact rne_nonneg (by linarith)
  · exact rne_mono_pos hx h

theorem rne_one : rne (1 : K) = 1 := rne_exact (m := 1) (k := 0) (by norm_num) (by norm_num) (by norm_num)

/-- A rounded number is not changed by a second rounding, if it is not too small. -/
theorem rne_rne (x : K) : rne (rne x) = rne x := by
  rcases lt_trichotomy x 0 with hx | hx | hx
  · have := rne_exact (x := rne x) (m := roundEven (x / 2 ^ ulpExp x)) (k := ulpExp x) rfl ?_ (by unfold ulpExp; omega)
    · exact this
    · rw [← abs_neg, ← roundEven_neg, ← neg_div]
      have hp := two_zpow_pos (K := K) (ulpExp x)
      have h0 : 0 < -x := by linarith
      have h1 : -x / 2 ^ ulpExp x ≤ ((2 ^ 53 : ℤ) : K) := by
        rw [div_le_iff₀ hp, ← ulpExp_neg]
        refine (lt_ulp h0).le.trans (le_of_eq ?_)
        rw [add_comm, two_zpow_add]
        congr 1
        norm_num
      have h2 := roundEven_le h1
      have h3 : ((0 : ℤ) : K) ≤ -x / 2 ^ ulpExp x := by rw [Int.cast_zero]; positivity
      have h4 := le_roundEven h3
      rw [abs_of_nonneg h4]
      exact h2
  · rw [hx, rne_zero, rne_zero]
  · have := rne_exact (x := rne x) (m := roundEven (x / 2 ^ ulpExp x)) (k := ulpExp x) rfl ?_ (by unfold ulpExp; omega)
    · exact this
    · have hp := two_zpow_pos (K := K) (ulpExp x)
      have h1 : x / 2 ^ ulpExp x ≤ ((2 ^ 53 : ℤ) : K) := by
        rw [div_le_iff₀ hp]
        refine (lt_ulp hx).le.trans (le_of_eq ?_)
        rw [add_comm, two_zpow_add]
        congr 1
        norm_num
      have h2 := roundEven_le h1
      have h3 : ((0 : ℤ) : K) ≤ x / 2 ^ ulpExp x := by rw [Int.cast_zero]; positivity
      have h4 := le_roundEven h3
      rw [abs_of_nonneg h4]
      exact h2

/-- The rounding of a number whose binade is known. -/
theorem rne_binade {x : K} {e : ℤ} (he : -1074 ≤ e) (h1 : 2 ^ (e + 52) ≤ |x|) (h2 : |x| ≤ 2 ^ (e + 53)) :
    rne x = (roundEven (x / 2 ^ e) : K) * 2 ^ e := by
  have hp := two_zpow_pos (K := K) e
  have hx0 : 0 < |x| := (two_zpow_pos _).trans_le h1
  rcases h2.lt_or_eq with hlt | heq
  · have hl : Int.log 2 |x| = e + 52 := by
      apply le_antisymm
      · have : Int.log 2 |x| < e + 53 := by
          rw [← Int.lt_zpow_iff_log_lt (by norm_num) hx0]
          push_cast
          exact hlt
        omega
      · rw [← Int.zpow_le_iff_le_log (by norm_num) hx0]
        push_cast
        exact h1
    have hu : ulpExp x = e := by unfold ulpExp; omega
    unfold rne
    rw [hu]
  · have z53 : (2 : K) ^ (e + 53) = ((2 ^ 53 : ℤ) : K) * 2 ^ e := by
      rw [add_comm, two_zpow_add]; norm_num
    rcases abs_cases x with ⟨a, _⟩ | ⟨a, _⟩
    · have hx : x = ((2 ^ 53 : ℤ) : K) * 2 ^ e := by rw [← z53, ← heq, a]
      rw [rne_exact hx (by norm_num) he]
      have : x / 2 ^ e = ((2 ^ 53 : ℤ) : K) := by rw [div_eq_iff hp.ne']; exact hx
      rw [this, roundEven_int]
      exact hx
    · have hx : x = ((-2 ^ 53 : ℤ) : K) * 2 ^ e := by
        have : x = -|x| := by rw [a, neg_neg]
        rw [this, heq, z53]; push_cast; ring
      rw [rne_exact hx (by norm_num) he]
      have : x / 2 ^ e = ((-2 ^ 53 : ℤ) : K) := by rw [div_eq_iff hp.ne']; exact hx
      rw [this, roundEven_int]
      exact hx

end Verif
