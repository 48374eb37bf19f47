import Verif.Model.F64
import Verif.Properties.Precise

/-!
# C124: neighbouring doubles, and the successor of a chord angle
-/

namespace Verif
open F64

/-! ## The doubles in their order -/

/-- The value of the bits without a sign. -/
def magValue (n : Nat) : ℚ :=
  if n / 2 ^ 52 = 0 then n * 2 ^ (-1074 : ℤ) else (2 ^ 52 + (n % 2 ^ 52 : Nat)) * 2 ^ (((n / 2 ^ 52 : Nat) : ℤ) - 1075)

theorem magValue_step (n : Nat) : magValue n < magValue (n + 1) := by
  have t0 : (0 : ℚ) < 2 ^ (-1074 : ℤ) := zpow_pos (by norm_num) _
  unfold magValue
  by_cases h : n % 2 ^ 52 + 1 < 2 ^ 52
  · have e1 : (n + 1) / 2 ^ 52 = n / 2 ^ 52 := by omega
    have e2 : (n + 1) % 2 ^ 52 = n % 2 ^ 52 + 1 := by omega
    rw [e1, e2]
    split_ifs with h0
    · refine mul_lt_mul_of_pos_right ?_ t0
      push_cast
      linarith
    · refine mul_lt_mul_of_pos_right ?_ (zpow_pos (by norm_num) _)
      push_cast
      linarith
  · have e1 : (n + 1) / 2 ^ 52 = n / 2 ^ 52 + 1 := by omega
    have e2 : (n + 1) % 2 ^ 52 = 0 := by omega
    rw [e1, e2, if_neg (by omega : n / 2 ^ 52 + 1 ≠ 0)]
    split_ifs with h0
    · rw [h0, show ((0 + 1 : Nat) : ℤ) - 1075 = -1074 by norm_num]
      refine mul_lt_mul_of_pos_right ?_ t0
      have : (n : ℚ) < 2 ^ 52 := by
        have : n < 2 ^ 52 := by omega
        exact_mod_cast this
      push_cast
      linarith
    · have e3 : (2 : ℚ) ^ (((n / 2 ^ 52 + 1 : Nat) : ℤ) - 1075) = 2 * 2 ^ (((n / 2 ^ 52 : Nat) : ℤ) - 1075) := by
        rw [show (((n / 2 ^ 52 + 1 : Nat) : ℤ) - 1075) = 1 + (((n / 2 ^ 52 : Nat) : ℤ) - 1075) by push_cast; ring, zpow_add₀ (by norm_num), zpow_one]
      rw [e3, ← mul_assoc]
      refine mul_lt_mul_of_pos_right ?_ (zpow_pos (by norm_num) _)
      have : ((n % 2 ^ 52 : Nat) : ℚ) < 2 ^ 52 := by
        have : n % 2 ^ 52 < 2 ^ 52 := by omega
        exact_mod_cast this
      push_cast at this ⊢
      linarith

theorem magValue_mono : StrictMono magValue := strictMono_nat_of_lt_succ magValue_step

theorem magValue_zero : magValue 0 = 0 := by unfold magValue; norm_num

/-- The value at a place. -/
def keyValue (k : Int) : ℚ := if k < 0 then -magValue k.natAbs else magValue k.natAbs

theorem keyValue_mono : StrictMono keyValue := by
  intro a b h
  have z := magValue_zero
  unfold keyValue
  split_ifs with h1 h2 h2
  · exact neg_lt_neg (magValue_mono (by omega))
  · have p1 := magValue_mono (show 0 < a.natAbs by omega)
    have p2 := magValue_mono.monotone (Nat.zero_le b.natAbs)
    linarith
  · omega
  · exact magValue_mono (by omega)

theorem f64Value_key (b : U64) : Spec.f64Value b = if mag b < 0x7FF0000000000000 then some (keyValue (key b)) else none := by
  have hE : (b.extractLsb' 52 11).toNat = b.toNat / 2 ^ 52 % 2 ^ 11 := by
    rw [BitVec.extractLsb'_toNat, Nat.shiftRight_eq_div_pow]
  have hF : (b.extractLsb' 0 52).toNat = b.toNat % 2 ^ 52 := by
    rw [BitVec.extractLsb'_toNat, Nat.shiftRight_zero]
  have hs : b.getLsbD 63 = decide (2 ^ 63 ≤ b.toNat) := by
    have h := BitVec.msb_eq_decide b
    rw [BitVec.msb_eq_getLsbD_last] at h
    exact h
  have hb := b.isLt
  unfold Spec.f64Value key mag neg
  simp only
  rw [hE, hF, hs]
  generalize b.toNat = n at *
  have e1 : n / 2 ^ 52 % 2 ^ 11 = n % 2 ^ 63 / 2 ^ 52 := by omega
  have e2 : n % 2 ^ 52 = n % 2 ^ 63 % 2 ^ 52 := by omega
  rw [e1, e2]
  have m1 : n % 2 ^ 63 < 2 ^ 63 := by omega
  generalize n % 2 ^ 63 = m at *
  by_cases h1 : m / 2 ^ 52 = 2047
  · rw [if_pos h1, if_neg (by omega)]
  rw [if_neg h1, if_pos (by omega : m < 0x7FF0000000000000)]
  have sgn : keyValue (if decide (2 ^ 63 ≤ n) = true then -(m : Int) else m) = (if decide (2 ^ 63 ≤ n) = true then (-1 : ℚ) else 1) * magValue m := by
    unfold keyValue
    split_ifs with a b b
    · rw [Int.natAbs_neg, Int.natAbs_natCast]; ring
    · have : m = 0 := by omega
      rw [this]
      simp [magValue_zero]
    · omega
    · rw [Int.natAbs_natCast]; ring
  rw [sgn]
  generalize (if decide (2 ^ 63 ≤ n) = true then (-1 : ℚ) else 1) = s
  unfold magValue
  by_cases h2 : m / 2 ^ 52 = 0
  · rw [if_pos h2, if_pos h2, show m % 2 ^ 52 = m by omega, mul_assoc]
  · rw [if_neg h2, if_neg h2]
    refine congrArg some ?_
    have : (2 : ℚ) ^ (((m / 2 ^ 52 : Nat) : ℤ) - 1023) = 2 ^ 52 * (2 : ℚ) ^ (((m / 2 ^ 52 : Nat) : ℤ) - 1075) := by
      rw [show ((m / 2 ^ 52 : Nat) : ℤ) - 1023 = (52 : ℕ) + (((m / 2 ^ 52 : Nat) : ℤ) - 1075) by push_cast; ring, zpow_add₀ (by norm_num), zpow_natCast]
    rw [this]
    generalize (2 : ℚ) ^ (((m / 2 ^ 52 : Nat) : ℤ) - 1075) = t
    ring

theorem f64_finite {b : U64} {x : ℚ} (h : Spec.f64Value b = some x) : mag b < 0x7FF0000000000000 ∧ x = keyValue (key b) := by
  rw [f64Value_key] at h
  split_ifs at h with h1
  exact ⟨h1, (Option.some.inj h).symm⟩

theorem f64_notNaN {b : U64} {x : ℚ} (h : Spec.f64Value b = some x) : isNaN b = false := by
  have := (f64_finite h).1
  unfold isNaN
  exact decide_eq_false (by omega)

/-- **C124.** The comparisons of doubles compare their values; every finite double is less than infinity. -/
theorem c124_compare {a b : U64} {x y : ℚ} (ha : Spec.f64Value a = some x) (hb : Spec.f64Value b = some y) :
    (lt a b = true ↔ x < y) ∧ (le a b = true ↔ x ≤ y) ∧ lt a inf = true := by
  obtain ⟨a1, rfl⟩ := f64_finite ha
  obtain ⟨b1, rfl⟩ := f64_finite hb
  unfold F64.lt F64.le
  rw [f64_notNaN ha, f64_notNaN hb, keyValue_mono.lt_iff_lt, keyValue_mono.le_iff_le]
  refine ⟨by simp, by simp, ?_⟩
  have e1 : isNaN inf = false := by decide
  have e2 : key inf = 0x7FF0000000000000 := by decide
  rw [e1, e2]
  have : key a < 0x7FF0000000000000 := by unfold key; split_ifs <;> omega
  simp [this]

/-- `nextafter` moves one place. -/
theorem nextafter_key {x y : U64} (hx : isNaN x = false) (hy : isNaN y = false) :
    (key x < key y → key (nextafter x y) = key x + 1) ∧ (key y < key x → key (nextafter x y) = key x - 1) := by
  have bx := x.isLt
  have b2 := y.isLt
  have s1 : (x - 1#64).toNat = (2 ^ 64 - 1 + x.toNat) % 2 ^ 64 := by rw [BitVec.toNat_sub]; rfl
  have s2 : (x + 1#64).toNat = (x.toNat + 1) % 2 ^ 64 := by rw [BitVec.toNat_add]; rfl
  have nx : mag x ≤ 0x7FF0000000000000 := not_lt.1 (of_decide_eq_false hx)
  have ny : mag y ≤ 0x7FF0000000000000 := not_lt.1 (of_decide_eq_false hy)
  unfold nextafter
  rw [hx, hy]
  have k1 : key 0x8000000000000001#64 = -1 := by decide
  have k2 : key 1#64 = 1 := by decide
  constructor
  · intro h
    rw [if_neg (by simp), if_neg (by omega)]
    split_ifs with h1 h2 h3
    · exfalso
      unfold key at h
      rw [if_pos h2] at h
      split_ifs at h <;> omega
    · rw [k2]
      unfold key
      rw [h1]
      simp
    · unfold key neg mag at *
      rw [s1]
      simp only [decide_eq_true_eq, ne_eq, decide_eq_decide] at *
      split_ifs at * <;> omega
    · unfold key neg mag at *
      rw [s2]
      simp only [decide_eq_true_eq, ne_eq, decide_eq_decide] at *
      split_ifs at * <;> omega
  · intro h
    rw [if_neg (by simp), if_neg (by omega)]
    split_ifs with h1 h2 h3
    · rw [k1]
      unfold key
      rw [h1]
      simp
    · exfalso
      unfold key at h
      rw [if_neg h2] at h
      split_ifs at h <;> omega
    · unfold key neg mag at *
      rw [s1]
      simp only [decide_eq_true_eq, ne_eq, decide_eq_decide] at *
      split_ifs at * <;> omega
    · unfold key neg mag at *
      rw [s2]
      simp only [decide_eq_true_eq, ne_eq, decide_eq_decide] at *
      split_ifs at * <;> omega

/-- A number whose place is between those of two numbers is finite. -/
theorem finite_key {b : U64} (h1 : -0x7FF0000000000000 < key b) (h2 : key b < 0x7FF0000000000000) : Spec.f64Value b = some (keyValue (key b)) := by
  rw [f64Value_key, if_pos]
  unfold key at h1 h2
  split_ifs at h1 h2 <;> omega

/-- **C124.** `nextafter(x, y)` is the neighbour of `x` towards `y`: no double is strictly between, and it does not pass `y`. -/
theorem c124_nextafter {a b : U64} {x y : ℚ} (ha : Spec.f64Value a = some x) (hb : Spec.f64Value b = some y) :
    (x < y → ∃ z, Spec.f64Value (nextafter a b) = some z ∧ x < z ∧ z ≤ y ∧ ∀ d w, Spec.f64Value d = some w → (x < w ↔ z ≤ w)) ∧
    (y < x → ∃ z, Spec.f64Value (nextafter a b) = some z ∧ z < x ∧ y ≤ z ∧ ∀ d w, Spec.f64Value d = some w → (w < x ↔ w ≤ z)) ∧
    (x = y → Spec.f64Value (nextafter a b) = some y) := by
  have na := f64_notNaN ha
  have nb := f64_notNaN hb
  obtain ⟨a1, rfl⟩ := f64_finite ha
  obtain ⟨b1, rfl⟩ := f64_finite hb
  obtain ⟨up, down⟩ := nextafter_key na nb
  have ra : -0x7FF0000000000000 < key a ∧ key a < 0x7FF0000000000000 := by unfold key; split_ifs <;> omega
  have rb : -0x7FF0000000000000 < key b ∧ key b < 0x7FF0000000000000 := by unfold key; split_ifs <;> omega
  rw [keyValue_mono.lt_iff_lt, keyValue_mono.lt_iff_lt, keyValue_mono.injective.eq_iff]
  refine ⟨fun h => ?_, fun h => ?_, fun h => ?_⟩
  · have e := up h
    refine ⟨_, finite_key (by omega) (by omega), ?_, ?_, fun d w hd => ?_⟩
    · rw [keyValue_mono.lt_iff_lt]; omega
    · rw [keyValue_mono.le_iff_le]; omega
    · obtain ⟨-, rfl⟩ := f64_finite hd
      rw [keyValue_mono.lt_iff_lt, keyValue_mono.le_iff_le]; omega
  · have e := down h
    refine ⟨_, finite_key (by omega) (by omega), ?_, ?_, fun d w hd => ?_⟩
    · rw [keyValue_mono.lt_iff_lt]; omega
    · rw [keyValue_mono.le_iff_le]; omega
    · obtain ⟨-, rfl⟩ := f64_finite hd
      rw [keyValue_mono.lt_iff_lt, keyValue_mono.le_iff_le]; omega
  · unfold nextafter
    rw [na, nb, if_neg (by simp), if_pos h]
    exact hb

/-! ## The successor of a chord angle -/

namespace Spec

/-- The chord angles with a finite squared length: those between 0 and 4, and `NEGATIVE`. -/
def FiniteChord (x : ℚ) : Prop := x = -1 ∨ 0 ≤ x ∧ x ≤ 4

end Spec

theorem f64_zero : Spec.f64Value 0#64 = some 0 := by decide +kernel
theorem f64_four : Spec.f64Value 0x4010000000000000#64 = some 4 := by decide +kernel
theorem f64_ten : Spec.f64Value 0x4024000000000000#64 = some 10 := by decide +kernel

/-- **C124.** The successor of a chord angle is the next greater chord angle: for chord angles with finite squared lengths, to be less than
the successor is to be at most the angle itself. -/
theorem c124_successor {c d : U64} {x w : ℚ} (hc : Spec.f64Value c = some x) (cx : Spec.FiniteChord x) (hd : Spec.f64Value d = some w)
    (dw : Spec.FiniteChord w) : lt d (ChordAngle.successor c) = true ↔ w ≤ x := by
  unfold ChordAngle.successor
  unfold Spec.FiniteChord at *
  have k1 := (c124_compare f64_four hc).2.1
  have k2 := (c124_compare hc f64_zero).1
  by_cases h4 : 4 ≤ x
  · rw [if_pos (k1.2 h4)]
    refine ⟨fun _ => ?_, fun _ => (c124_compare hd hd).2.2⟩
    rcases dw with h | h <;> linarith
  rw [if_neg (by rw [k1]; exact h4)]
  by_cases h0 : x < 0
  · rw [if_pos (k2.2 h0), (c124_compare hd f64_zero).1]
    constructor
    · intro h
      rcases cx with e | e <;> rcases dw with e' | e' <;> linarith
    · intro h
      linarith
  rw [if_neg (by rw [k2]; exact h0)]
  obtain ⟨z, e, l, -, m⟩ := (c124_nextafter hc f64_ten).1 (by linarith)
  rw [(c124_compare hd e).1, ← not_le, ← m d w hd, not_lt]

/-- **C124.** The successor is itself a chord angle: 0 for a negative one, between the angle and 4 for one less than 4, infinite from 4 on. -/
theorem c124_successor_value {c : U64} {x : ℚ} (hc : Spec.f64Value c = some x) :
    (x < 0 → Spec.f64Value (ChordAngle.successor c) = some 0) ∧
    (0 ≤ x → x < 4 → ∃ z, Spec.f64Value (ChordAngle.successor c) = some z ∧ x < z ∧ z ≤ 4) ∧
    (4 ≤ x → ChordAngle.successor c = inf) ∧ ChordAngle.successor inf = inf := by
  unfold ChordAngle.successor
  have k1 := (c124_compare f64_four hc).2.1
  have k2 := (c124_compare hc f64_zero).1
  refine ⟨fun h => ?_, fun h0 h4 => ?_, fun h => if_pos (k1.2 h), by decide⟩
  · rw [if_neg (by rw [k1]; linarith), if_pos (k2.2 h)]
    exact f64_zero
  · rw [if_neg (by rw [k1]; linarith), if_neg (by rw [k2]; linarith)]
    obtain ⟨z, e, l, -, m⟩ := (c124_nextafter hc f64_ten).1 (by linarith)
    exact ⟨z, e, l, (m _ _ f64_four).1 h4⟩

-- a right angle and its successor; the successor of negative zero is the least subnormal; one of a straight angle is infinite
example : Spec.f64Value 0x4000000000000000#64 = some 2 ∧ Spec.FiniteChord 2 ∧ ChordAngle.successor 0x4000000000000000#64 = 0x4000000000000001#64 ∧
    ChordAngle.successor 0x8000000000000000#64 = 1#64 ∧ ChordAngle.successor 0xBFF0000000000000#64 = 0#64 ∧
    ChordAngle.successor 0x4010000000000000#64 = inf ∧ lt 0x4000000000000000#64 (ChordAngle.successor 0x4000000000000000#64) = true := by
  refine ⟨by decide +kernel, Or.inr (by norm_num), by decide +kernel, by decide +kernel, by decide +kernel, by decide +kernel, by decide +kernel⟩

end Verif
