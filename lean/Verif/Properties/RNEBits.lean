import Verif.Properties.F64
import Verif.Proofs.RNE

/-!
# The rounding `rne` and the bits of doubles

`rne` is defined with integers and powers of two. Here it is compared with the doubles as IEEE 754 encodes them.
-/

namespace Verif
open F64

variable {K : Type} [Field K] [LinearOrder K] [IsStrictOrderedRing K] [FloorRing K]

omit [FloorRing K] in
/-- A finite double has few bits. -/
theorem f64_bits {b : U64} {q : ℚ} (h : Spec.f64Value b = some q) : ∃ m k : ℤ, (q : K) = m * 2 ^ k ∧ |m| < 2 ^ 53 ∧ -1074 ≤ k := by
  obtain ⟨-, rfl⟩ := f64_finite h
  have pos : ∀ n : Nat, ∃ m k : ℤ, (magValue n : K) = m * 2 ^ k ∧ |m| < 2 ^ 53 ∧ -1074 ≤ k := by
    intro n
    unfold magValue
    split_ifs with h0
    · refine ⟨n, -1074, by push_cast; rfl, ?_, le_rfl⟩
      rw [abs_of_nonneg (by omega)]; omega
    · refine ⟨((2 ^ 52 + n % 2 ^ 52 : Nat) : ℤ), ((n / 2 ^ 52 : Nat) : ℤ) - 1075, ?_, ?_, by omega⟩
      · rw [Rat.cast_mul, Rat.cast_add, Rat.cast_zpow, Rat.cast_pow, Rat.cast_natCast, Rat.cast_ofNat, Int.cast_natCast, Nat.cast_add, Nat.cast_pow, Nat.cast_ofNat]
      rw [abs_of_nonneg (by omega)]; omega
  obtain ⟨m, k, e, h1, h2⟩ := pos (key b).natAbs
  unfold keyValue
  split_ifs
  · exact ⟨-m, k, by push_cast; rw [e]; ring, by rwa [abs_neg], h2⟩
  · exact ⟨m, k, e, h1, h2⟩

/-- A finite double is not changed by the rounding. -/
theorem rne_f64_exact {b : U64} {q : ℚ} (h : Spec.f64Value b = some q) : rne (q : K) = q := by
  obtain ⟨m, k, e, h1, h2⟩ := f64_bits (K := K) h
  exact rne_exact e h1.le h2

/-- No multiple of the last place is nearer than the rounded number. -/
theorem rne_multiple (x : K) (j : ℤ) : |rne x - x| ≤ |(j : K) * 2 ^ ulpExp x - x| := by
  have p := two_zpow_pos (K := K) (ulpExp x)
  unfold rne
  generalize (2 : K) ^ ulpExp x = t at *
  have s : ∀ n : ℤ, |(n : K) * t - x| = |(n : K) - x / t| * t := by
    intro n
    rw [← abs_of_pos p, ← abs_mul, abs_of_pos p, sub_mul, div_mul_cancel₀ _ p.ne']
  rw [s, s]
  refine mul_le_mul_of_nonneg_right ?_ p.le
  by_cases h : |(j : K) - x / t| < 1 / 2
  · rw [roundEven_eq h]
  · exact (roundEven_near _).trans (not_lt.1 h)

/-- No finite double is nearer to a number than the rounded number. -/
theorem rne_f64_nearest (x : K) {b : U64} {q : ℚ} (h : Spec.f64Value b = some q) : |rne x - x| ≤ |(q : K) - x| := by
  obtain ⟨m, k, e, h1, h2⟩ := f64_bits (K := K) h
  rw [e]
  rcases eq_or_ne x 0 with rfl | hx
  · rw [rne_zero, sub_zero, abs_zero]
    exact abs_nonneg _
  rcases le_or_gt (ulpExp x) k with hk | hk
  · have := rne_multiple x (m * 2 ^ (k - ulpExp x).toNat)
    have e2 : ((m * 2 ^ (k - ulpExp x).toNat : ℤ) : K) * 2 ^ ulpExp x = m * 2 ^ k := by
      push_cast
      rw [mul_assoc, ← two_zpow_nat, Int.toNat_of_nonneg (by omega), ← two_zpow_add, sub_add_cancel]
    rwa [e2] at this
  · have big : (2 : K) ^ (ulpExp x + 52) ≤ |x| := by
      have := ulp_le (x := |x|) (abs_pos.2 hx)
      have e3 : ulpExp |x| = ulpExp x := by unfold ulpExp; rw [abs_abs]
      rw [e3] at this
      exact this (by omega)
    have small : |(m : K) * 2 ^ k| ≤ 2 ^ (ulpExp x + 52) := by
      rw [abs_mul, abs_of_pos (two_zpow_pos (K := K) k)]
      have m1 : |(m : K)| ≤ 2 ^ 53 := by exact_mod_cast h1.le
      refine (mul_le_mul_of_nonneg_right m1 (two_zpow_pos k).le).trans ?_
      rw [← two_zpow_nat, ← two_zpow_add]
      exact two_zpow_le (by push_cast; omega)
    have e4 : (2 : K) ^ (ulpExp x + 52) = ((2 ^ 52 : ℤ) : K) * 2 ^ ulpExp x := by
      rw [add_comm, two_zpow_add]
      push_cast
      norm_num
    have s := abs_le.1 small
    rcases lt_or_gt_of_ne hx with h0 | h0
    · rw [abs_of_neg h0] at big
      refine (rne_multiple x (-2 ^ 52)).trans ?_
      have e5 : ((-2 ^ 52 : ℤ) : K) * 2 ^ ulpExp x = -2 ^ (ulpExp x + 52) := by rw [e4]; push_cast; ring
      rw [e5, abs_of_nonneg (by linarith), abs_of_nonneg (by linarith)]
      linarith
    · rw [abs_of_pos h0] at big
      refine (rne_multiple x (2 ^ 52)).trans ?_
      rw [← e4, abs_of_nonpos (by linarith), abs_of_nonpos (by linarith)]
      linarith

/-- If another double is as near as the rounded number, the rounded one is even. -/
theorem rne_even_tie {x : K} (hx : x ≠ 0) {b : U64} {q : ℚ} (h : Spec.f64Value b = some q) (ne : (q : K) ≠ rne x) (eq : |(q : K) - x| = |rne x - x|) :
    roundEven (x / 2 ^ ulpExp x) % 2 = 0 := by
  obtain ⟨m, k, e, h1, h2⟩ := f64_bits (K := K) h
  have p := two_zpow_pos (K := K) (ulpExp x)
  rcases le_or_gt (ulpExp x) k with hk | hk
  · have e2 : ((m * 2 ^ (k - ulpExp x).toNat : ℤ) : K) * 2 ^ ulpExp x = q := by
      rw [e]
      push_cast
      rw [mul_assoc, ← two_zpow_nat, Int.toNat_of_nonneg (by omega), ← two_zpow_add, sub_add_cancel]
    generalize m * 2 ^ (k - ulpExp x).toNat = j at e2
    rw [← e2] at ne eq
    unfold rne at ne eq
    set y := x / 2 ^ ulpExp x with hy
    set n := roundEven y with hn
    generalize (2 : K) ^ ulpExp x = t at *
    have s : ∀ i : ℤ, |(i : K) * t - x| = |(i : K) - y| * t := by
      intro i
      rw [hy, ← abs_of_pos p, ← abs_mul, abs_of_pos p, sub_mul, div_mul_cancel₀ _ p.ne']
    rw [s, s] at eq
    have eq := mul_right_cancel₀ p.ne' eq
    have ne : j ≠ n := fun hh => ne (by rw [hh])
    have d1 : (1 : K) ≤ |(j : K) - n| := by
      have : 1 ≤ |j - n| := Int.one_le_abs (sub_ne_zero.2 ne)
      exact_mod_cast this
    have d2 : |(j : K) - n| ≤ |(j : K) - y| + |(n : K) - y| := by
      have := abs_sub_le (j : K) y n
      rwa [abs_sub_comm y] at this
    have d3 := roundEven_near y
    exact roundEven_tie (le_antisymm d3 (by linarith))
  · exfalso
    have big : (2 : K) ^ (ulpExp x + 52) ≤ |x| := by
      have := ulp_le (x := |x|) (abs_pos.2 hx)
      have e3 : ulpExp |x| = ulpExp x := by unfold ulpExp; rw [abs_abs]
      rw [e3] at this
      exact this (by omega)
    have small : |(q : K)| < 2 ^ (ulpExp x + 52) := by
      rw [e, abs_mul, abs_of_pos (two_zpow_pos (K := K) k)]
      have m1 : |(m : K)| < 2 ^ 53 := by exact_mod_cast h1
      refine (mul_lt_mul_of_pos_right m1 (two_zpow_pos k)).trans_le ?_
      rw [← two_zpow_nat, ← two_zpow_add]
      exact two_zpow_le (by push_cast; omega)
    have e4 : (2 : K) ^ (ulpExp x + 52) = ((2 ^ 52 : ℤ) : K) * 2 ^ ulpExp x := by
      rw [add_comm, two_zpow_add]
      push_cast
      norm_num
    have s := abs_lt.1 small
    rcases lt_or_gt_of_ne hx with h0 | h0
    · rw [abs_of_neg h0] at big
      have l := rne_multiple x (-2 ^ 52)
      have e5 : ((-2 ^ 52 : ℤ) : K) * 2 ^ ulpExp x = -2 ^ (ulpExp x + 52) := by rw [e4]; push_cast; ring
      rw [e5, abs_of_nonneg (by linarith : (0 : K) ≤ -2 ^ (ulpExp x + 52) - x), ← eq, abs_of_nonneg (by linarith)] at l
      linarith
    · rw [abs_of_pos h0] at big
      have l := rne_multiple x (2 ^ 52)
      rw [← e4, abs_of_nonpos (by linarith : (2 : K) ^ (ulpExp x + 52) - x ≤ 0), ← eq, abs_of_nonpos (by linarith)] at l
      linarith

/-- The bits of a number with a known last place. -/
theorem magValue_place {a N : Nat} (h : a = 0 ∨ 2 ^ 52 ≤ N) (hN : N ≤ 2 ^ 53) : magValue (a * 2 ^ 52 + N) = N * 2 ^ ((a : ℤ) - 1074) := by
  unfold magValue
  rcases Nat.lt_or_ge N (2 ^ 52) with h1 | h1
  · obtain rfl : a = 0 := by omega
    rw [if_pos (by omega)]
    norm_num
  rcases Nat.lt_or_ge N (2 ^ 53) with h2 | h2
  · have e1 : (a * 2 ^ 52 + N) / 2 ^ 52 = a + 1 := by omega
    have e2 : (a * 2 ^ 52 + N) % 2 ^ 52 = N - 2 ^ 52 := by omega
    rw [e1, e2, if_neg (by omega), Nat.cast_sub h1]
    push_cast
    rw [show (a : ℤ) + 1 - 1075 = a - 1074 by ring]
    ring
  · obtain rfl : N = 2 ^ 53 := by omega
    have e1 : (a * 2 ^ 52 + 2 ^ 53) / 2 ^ 52 = a + 2 := by omega
    have e2 : (a * 2 ^ 52 + 2 ^ 53) % 2 ^ 52 = 0 := by omega
    rw [e1, e2, if_neg (by omega)]
    push_cast
    rw [show (a : ℤ) + 2 - 1075 = 1 + (a - 1074) by ring, zpow_add₀ (by norm_num), zpow_one]
    ring

/-- Bits with a given sign. -/
theorem exists_bits (s : Bool) {n : Nat} (h : n < 0x7FF0000000000000) : ∃ b : U64, Spec.f64Value b = some (if s then -magValue n else magValue n) ∧ b.toNat % 2 = n % 2 := by
  cases s
  · have t : (BitVec.ofNat 64 n).toNat = n := by rw [BitVec.toNat_ofNat]; omega
    refine ⟨BitVec.ofNat 64 n, ?_, by rw [t]⟩
    have m : mag (BitVec.ofNat 64 n) = n := by unfold mag; rw [t]; omega
    have k : key (BitVec.ofNat 64 n) = n := by unfold key neg; rw [m, t, if_neg (by simp only [decide_eq_true_eq]; omega)]
    rw [f64Value_key, m, k, if_pos h]
    unfold keyValue
    rw [if_neg (by omega)]
    rfl
  · have t : (BitVec.ofNat 64 (n + 2 ^ 63)).toNat = n + 2 ^ 63 := by rw [BitVec.toNat_ofNat]; omega
    refine ⟨BitVec.ofNat 64 (n + 2 ^ 63), ?_, by rw [t]; omega⟩
    have m : mag (BitVec.ofNat 64 (n + 2 ^ 63)) = n := by unfold mag; rw [t]; omega
    have k : key (BitVec.ofNat 64 (n + 2 ^ 63)) = -n := by unfold key neg; rw [m, t, if_pos (by simp only [decide_eq_true_eq]; omega)]
    rw [f64Value_key, m, k, if_pos h]
    unfold keyValue
    rcases Nat.eq_zero_or_pos n with rfl | h0
    · simp [magValue_zero]
    · rw [if_pos (by omega), Int.natAbs_neg, Int.natAbs_natCast]
      rfl

/-- A rounded number is a finite double, if it is less than `2^1024`; if another double is as near, its last bit is 0. -/
theorem rne_f64_double {x : K} (h : |rne x| < 2 ^ 1024) : ∃ b q, Spec.f64Value b = some q ∧ rne x = (q : K) ∧
    ∀ d w, Spec.f64Value d = some w → (w : K) ≠ rne x → |(w : K) - x| = |rne x - x| → b.getLsbD 0 = false := by
  rcases eq_or_ne x 0 with rfl | h0
  · exact ⟨0#64, 0, f64_zero, by rw [rne_zero, Rat.cast_zero], fun _ _ _ _ _ => rfl⟩
  have p := two_zpow_pos (K := K) (ulpExp x)
  have u0 : -1074 ≤ ulpExp x := by unfold ulpExp; omega
  set n := roundEven (x / 2 ^ ulpExp x) with hn
  have ex : rne x = n * 2 ^ ulpExp x := rfl
  obtain ⟨a, ha⟩ : ∃ a : Nat, ulpExp x = (a : ℤ) - 1074 := ⟨(ulpExp x + 1074).toNat, by omega⟩
  have up : n.natAbs ≤ 2 ^ 53 := by
    have l := lt_ulp (x := |x|) (abs_pos.2 h0)
    have e3 : ulpExp |x| = ulpExp x := by unfold ulpExp; rw [abs_abs]
    rw [e3, add_comm, two_zpow_add] at l
    have l' : |x / 2 ^ ulpExp x| ≤ 2 ^ 53 := by
      rw [abs_div, abs_of_pos p, div_le_iff₀ p]
      have : (2 : K) ^ (53 : ℤ) = 2 ^ 53 := by norm_num
      rw [this] at l
      exact l.le
    have l'' := abs_le.1 l'
    have a1 : n ≤ 2 ^ 53 := roundEven_le (by rw [Int.cast_pow, Int.cast_ofNat]; exact l''.2)
    have a2 : -2 ^ 53 ≤ n := le_roundEven (by rw [Int.cast_neg, Int.cast_pow, Int.cast_ofNat]; exact l''.1)
    omega
  have lo : a = 0 ∨ 2 ^ 52 ≤ n.natAbs := by
    by_cases h1 : a = 0
    · exact Or.inl h1
    refine Or.inr ?_
    have l := ulp_le (x := |x|) (abs_pos.2 h0)
    have e3 : ulpExp |x| = ulpExp x := by unfold ulpExp; rw [abs_abs]
    rw [e3] at l
    have l := l (by omega)
    rw [add_comm, two_zpow_add] at l
    have l' : (2 : K) ^ 52 ≤ |x / 2 ^ ulpExp x| := by
      rw [abs_div, abs_of_pos p, le_div_iff₀ p]
      have : (2 : K) ^ (52 : ℤ) = 2 ^ 52 := by norm_num
      rwa [this] at l
    rcases le_abs.1 l' with h2 | h2
    · have : 2 ^ 52 ≤ n := le_roundEven (by rw [Int.cast_pow, Int.cast_ofNat]; exact h2)
      omega
    · have : n ≤ -2 ^ 52 := roundEven_le (by rw [Int.cast_neg, Int.cast_pow, Int.cast_ofNat]; linarith)
      omega
  have place := magValue_place lo up
  have absn : ((n.natAbs : ℚ) : K) = |(n : K)| := by
    rw [Rat.cast_natCast, Nat.cast_natAbs, Int.cast_abs]
  have val : |rne x| = (magValue (a * 2 ^ 52 + n.natAbs) : K) := by
    rw [place, ex, abs_mul, abs_of_pos p, ha]
    push_cast
    rw [← absn, Rat.cast_natCast]
  have fin : a * 2 ^ 52 + n.natAbs < 0x7FF0000000000000 := by
    by_contra hc
    have := magValue_mono.monotone (not_lt.1 hc)
    have e : magValue 0x7FF0000000000000 = 2 ^ 1024 := by
      have := magValue_place (a := 2046) (N := 2 ^ 52) (by norm_num) (by norm_num)
      rw [show 2046 * 2 ^ 52 + 2 ^ 52 = 0x7FF0000000000000 by norm_num] at this
      rw [this, show (((2046 : Nat) : ℤ) - 1074) = ((972 : Nat) : ℤ) by norm_num, zpow_natCast]
      rw [Nat.cast_pow, Nat.cast_ofNat, ← pow_add]
    rw [e] at this
    have : ((2 ^ 1024 : ℚ) : K) ≤ (magValue (a * 2 ^ 52 + n.natAbs) : K) := by exact_mod_cast this
    rw [← val, Rat.cast_pow, Rat.cast_ofNat] at this
    exact absurd h (not_lt.2 this)
  obtain ⟨b, hb, b2⟩ := exists_bits (decide (rne x < 0)) fin
  refine ⟨b, _, hb, ?_, fun d w hd nw ew => ?_⟩
  swap
  · have := rne_even_tie h0 hd nw ew
    rw [BitVec.getLsbD, Nat.testBit_zero]
    exact decide_eq_false (by omega)
  by_cases hs : rne x < 0
  · rw [if_pos (decide_eq_true hs), Rat.cast_neg, ← val, abs_of_neg hs, neg_neg]
  · rw [if_neg (by simpa using hs), ← val, abs_of_nonneg (not_lt.1 hs)]

-- a third is rounded to a double, which is at least as near as 2, and 2 is not changed
example : (∃ b q, Spec.f64Value b = some q ∧ rne (1 / 3 : ℚ) = q) ∧ |rne (1 / 3 : ℚ) - 1 / 3| ≤ |2 - 1 / 3| ∧ rne (2 : ℚ) = 2 := by
  have two : Spec.f64Value 0x4000000000000000#64 = some 2 := by decide +kernel
  have m1 : rne (1 / 3 : ℚ) ≤ 1 := (rne_mono (by norm_num)).trans rne_one.le
  have m0 : 0 ≤ rne (1 / 3 : ℚ) := rne_nonneg (by norm_num)
  refine ⟨?_, rne_f64_nearest (K := ℚ) _ two, rne_f64_exact (K := ℚ) two⟩
  obtain ⟨b, q, h1, h2, -⟩ := rne_f64_double (K := ℚ) (x := 1 / 3) (by
    rw [abs_of_nonneg m0]
    exact lt_of_le_of_lt m1 (one_lt_pow₀ (by norm_num) (by norm_num)))
  exact ⟨b, q, h1, by simpa using h2⟩

end Verif
