import Verif.Rust

/-! Bit-vector lemmas: helper lemmas only. -/

namespace Verif.Bits

theorem ofNat_toNat_of_lt {n : Nat} (h : n < 2 ^ 64) : (BitVec.ofNat 64 n).toNat = n := by
  simp [BitVec.toNat_ofNat, Nat.mod_eq_of_lt h]

/-- Bits of an odd multiple of `2^t`. -/
theorem testBit_odd_mul (p t i : Nat) :
    ((2 * p + 1) * 2 ^ t).testBit i = (decide (t ≤ i) && (decide (i = t) || p.testBit (i - t - 1))) := by
  rw [Nat.mul_comm, Nat.testBit_two_pow_mul]
  by_cases h : t ≤ i
  · simp only [h, decide_true, Bool.true_and]
    by_cases e : i = t
    · subst e; simp [Nat.testBit_zero]
    · have : i - t = (i - t - 1) + 1 := by omega
      rw [this, Nat.testBit_succ]
      simp [e]
      congr 1; omega
  · simp [h]

/-- `x & -x` for an odd multiple of `2^t`. -/
theorem and_neg_self {p t : Nat} (h : (2 * p + 1) * 2 ^ t < 2 ^ 64) :
    (BitVec.ofNat 64 ((2 * p + 1) * 2 ^ t)) &&& (-(BitVec.ofNat 64 ((2 * p + 1) * 2 ^ t)))
      = BitVec.ofNat 64 (2 ^ t) := by
  apply BitVec.eq_of_getLsbD_eq
  intro i hi
  have e2 : (BitVec.ofNat 64 (2 ^ t)).getLsbD i = decide (i = t) := by
    simp only [BitVec.getLsbD_ofNat, Nat.testBit_two_pow]
    simp [hi, eq_comm]
  rw [BitVec.getLsbD_and, BitVec.getLsbD_neg, e2]
  have e1 : ∀ j, (BitVec.ofNat 64 ((2 * p + 1) * 2 ^ t)).getLsbD j
      = (decide (j < 64) && (decide (t ≤ j) && (decide (j = t) || p.testBit (j - t - 1)))) := by
    intro j; rw [BitVec.getLsbD_ofNat, testBit_odd_mul]
  by_cases e : i = t
  · subst e
    have : ¬ ∃ j, j < i ∧ (BitVec.ofNat 64 ((2 * p + 1) * 2 ^ i)).getLsbD j = true := by
      rintro ⟨j, hj, hb⟩
      rw [e1] at hb
      simp at hb; omega
    rw [e1 i]
    simp [hi, this]
  · by_cases lt : t < i
    · have : ∃ j, j < i ∧ (BitVec.ofNat 64 ((2 * p + 1) * 2 ^ t)).getLsbD j = true := by
        refine ⟨t, lt, ?_⟩
        rw [e1]; simp; omega
      simp [this, hi, e]
    · rw [e1 i]
      have : ¬ t ≤ i := by omega
      simp [this, e]

theorem ctz_odd_mul {p t : Nat} (h : (2 * p + 1) * 2 ^ t < 2 ^ 64) :
    (BitVec.ofNat 64 ((2 * p + 1) * 2 ^ t)).ctz.toNat = t := by
  have ht : t < 64 := by
    apply (Nat.pow_lt_pow_iff_right (a := 2) (by decide)).1
    refine Nat.lt_of_le_of_lt ?_ h
    exact Nat.le_mul_of_pos_left _ (by omega)
  have e1 : ∀ j, (BitVec.ofNat 64 ((2 * p + 1) * 2 ^ t)).getLsbD j
      = (decide (j < 64) && (decide (t ≤ j) && (decide (j = t) || p.testBit (j - t - 1)))) := by
    intro j; rw [BitVec.getLsbD_ofNat, testBit_odd_mul]
  have ne : BitVec.ofNat 64 ((2 * p + 1) * 2 ^ t) ≠ 0#64 := by
    intro h0
    have := e1 t
    rw [h0] at this
    simp [ht] at this
  have h1 := BitVec.getLsbD_true_ctz_of_ne_zero ne
  rw [e1] at h1
  have h2 : ¬ t < (BitVec.ofNat 64 ((2 * p + 1) * 2 ^ t)).ctz.toNat := by
    intro hl
    have := BitVec.getLsbD_false_of_lt_ctz hl
    rw [e1] at this
    simp [ht] at this
  simp at h1
  omega

/-- Rounding down to a multiple of `2^s` and setting bit `s`. -/
theorem and_neg_or {x s : Nat} (hs : s < 64) :
    (BitVec.ofNat 64 x &&& -(BitVec.ofNat 64 (2 ^ s))) ||| BitVec.ofNat 64 (2 ^ s)
      = BitVec.ofNat 64 ((2 * (x / 2 ^ (s + 1)) + 1) * 2 ^ s) := by
  apply BitVec.eq_of_getLsbD_eq
  intro i hi
  have e2 : ∀ j, (BitVec.ofNat 64 (2 ^ s)).getLsbD j = (decide (j < 64) && decide (j = s)) := by
    intro j
    simp only [BitVec.getLsbD_ofNat, Nat.testBit_two_pow]
    simp [eq_comm]
  have ex : (∃ j, j < i ∧ (BitVec.ofNat 64 (2 ^ s)).getLsbD j = true) ↔ s < i := by
    constructor
    · rintro ⟨j, hj, hb⟩
      rw [e2] at hb; simp at hb; omega
    · intro h; exact ⟨s, h, by rw [e2]; simp [hs]⟩
  rw [BitVec.getLsbD_or, BitVec.getLsbD_and, BitVec.getLsbD_neg, e2, BitVec.getLsbD_ofNat,
    BitVec.getLsbD_ofNat, testBit_odd_mul]
  simp only [ex, Nat.testBit_div_two_pow]
  by_cases e : i = s
  · subst e; simp [hi]
  · by_cases lt : s < i
    · have h1 : s ≤ i := by omega
      have h3 : i - s - 1 + (s + 1) = i := by omega
      simp [hi, e, lt, h1, h3]
    · have h1 : ¬ s ≤ i := by omega
      simp [e, lt, h1]

theorem toNat_clz_of_msb {n m : Nat} (hm : m < 64) (h1 : 2 ^ m ≤ n) (h2 : n < 2 ^ (m + 1)) :
    (BitVec.ofNat 64 n).clz.toNat = 63 - m := by
  have hn : n < 2 ^ 64 :=
    Nat.lt_of_lt_of_le h2 (Nat.pow_le_pow_right (by decide) (by omega))
  have tn := ofNat_toNat_of_lt hn
  have ne : BitVec.ofNat 64 n ≠ 0#64 := by
    intro h0
    have := congrArg BitVec.toNat h0
    rw [tn] at this
    simp at this
    have := Nat.two_pow_pos m
    omega
  have a := BitVec.two_pow_sub_clz_le_toNat_of_ne_zero (w := 64) (by decide) ne
  have b := BitVec.toNat_lt_two_pow_sub_clz (x := BitVec.ofNat 64 n)
  rw [tn] at a b
  have c := (Nat.pow_lt_pow_iff_right (a := 2) (by decide)).1 (Nat.lt_of_le_of_lt a h2)
  have d := (Nat.pow_lt_pow_iff_right (a := 2) (by decide)).1 (Nat.lt_of_le_of_lt h1 b)
  omega

theorem and_mask_eq_mod (x : U64) (n : Nat) (h : n ≤ 64) :
    (x &&& BitVec.ofNat 64 (2 ^ n - 1)).toNat = x.toNat % 2 ^ n := by
  have : 2 ^ n - 1 < 2 ^ 64 := by
    have := Nat.pow_le_pow_right (n := 2) (by decide) h
    have := Nat.two_pow_pos n
    omega
  rw [BitVec.toNat_and, ofNat_toNat_of_lt this, Nat.and_two_pow_sub_one_eq_mod]

end Verif.Bits
