import Verif.Model.Precise
import Mathlib.Tactic.LinearCombination
import Mathlib.Tactic.FieldSimp
import Mathlib.Tactic.Ring
import Mathlib.Tactic.Positivity
import Mathlib.Tactic.Linarith
import Mathlib.Algebra.Order.Field.Power

/-!
# C111: vectors of arbitrary precision are exact

Every operation of a `PreciseVector` is the operation of the vectors of the rational numbers that the components stand for; the
conversion from a finite `f64` is exact, so that signs of determinants and comparisons are decided without error.
-/

namespace Verif

/-! ## Specification -/

namespace Spec

/-- The number that 64 bits stand for by IEEE 754 (binary64): nothing for infinities and NaNs. -/
def f64Value (b : U64) : Option ℚ :=
  let s : ℚ := if b.getLsbD 63 then -1 else 1
  let E := (b.extractLsb' 52 11).toNat
  let F := (b.extractLsb' 0 52).toNat
  if E = 2047 then none
  else if E = 0 then some (s * F * 2 ^ (-1074 : ℤ))
  else some (s * (1 + F / 2 ^ 52) * 2 ^ ((E : ℤ) - 1023))

/-- The determinant of three vectors. -/
def det3 (a b c : Vec ℚ) : ℚ :=
  a.x * (b.y * c.z - b.z * c.y) - a.y * (b.x * c.z - b.z * c.x) + a.z * (b.x * c.y - b.y * c.x)

/-- The component of a vector along an axis. -/
def axisComp (v : Vec ℚ) : Vec.Axis → ℚ
  | .X => v.x
  | .Y => v.y
  | .Z => v.z

end Spec

namespace Dec

/-- The number that a decimal stands for. -/
def val (d : Dec) : ℚ := d.digits * (10 : ℚ) ^ (-d.scale)

theorem at_val (d : Dec) {s : Int} (h : d.scale ≤ s) : ((d.at_ s : Int) : ℚ) * (10 : ℚ) ^ (-s) = d.val := by
  unfold at_ val
  have h1 : (((10 : Int) ^ (s - d.scale).toNat : Int) : ℚ) = (10 : ℚ) ^ (s - d.scale) := by
    push_cast
    rw [← zpow_natCast, Int.toNat_of_nonneg (by omega)]
  rw [Int.cast_mul, h1, mul_assoc, ← zpow_add₀ (by norm_num)]
  refine congrArg (fun e : ℤ => (d.digits : ℚ) * (10 : ℚ) ^ e) (by omega)

theorem val_add (a b : Dec) : (a.add b).val = a.val + b.val := by
  rw [← at_val a (le_max_left a.scale b.scale), ← at_val b (le_max_right a.scale b.scale)]
  unfold add val
  push_cast
  ring

theorem val_sub (a b : Dec) : (a.sub b).val = a.val - b.val := by
  rw [← at_val a (le_max_left a.scale b.scale), ← at_val b (le_max_right a.scale b.scale)]
  unfold sub val
  push_cast
  ring

theorem val_mul (a b : Dec) : (a.mul b).val = a.val * b.val := by
  unfold mul val
  simp only
  rw [neg_add, zpow_add₀ (by norm_num)]
  push_cast
  ring

theorem val_abs (a : Dec) : a.abs.val = |a.val| := by
  unfold abs val
  simp only
  rw [abs_mul, abs_of_pos (zpow_pos (by norm_num : (0 : ℚ) < 10) (-a.scale))]
  push_cast
  rfl

theorem val_ofInt (i : Int) : (ofInt i).val = i := by
  unfold ofInt val
  simp

theorem beq_iff (a b : Dec) : a.beq b = true ↔ a.val = b.val := by
  rw [← at_val a (le_max_left a.scale b.scale), ← at_val b (le_max_right a.scale b.scale)]
  unfold beq
  have hp : (10 : ℚ) ^ (-(max a.scale b.scale)) ≠ 0 := by positivity
  rw [decide_eq_true_iff, mul_left_inj' hp]
  exact_mod_cast Iff.rfl

theorem blt_iff (a b : Dec) : a.blt b = true ↔ a.val < b.val := by
  rw [← at_val a (le_max_left a.scale b.scale), ← at_val b (le_max_right a.scale b.scale)]
  unfold blt
  have hp : (0 : ℚ) < (10 : ℚ) ^ (-(max a.scale b.scale)) := by positivity
  rw [decide_eq_true_iff, mul_lt_mul_iff_left₀ hp]
  exact_mod_cast Iff.rfl

theorem val_ofParts (neg : Bool) (f : Nat) (e : Int) :
    (ofParts neg f e).val = (if neg then -1 else 1) * f * (2 : ℚ) ^ e := by
  have hm : (((if neg then -(f : Int) else f : Int)) : ℚ) = (if neg then -1 else 1) * f := by
    cases neg <;> simp
  unfold ofParts
  simp only
  by_cases h0 : f = 0
  · subst h0
    simp [val]
  rw [if_neg h0]
  by_cases he : e < 0
  · rw [if_pos he]
    unfold val
    simp only
    rw [neg_neg, Int.cast_mul, hm]
    have h5 : (((5 : Int) ^ (-e).toNat : Int) : ℚ) = (5 : ℚ) ^ (-e) := by
      push_cast
      rw [← zpow_natCast, Int.toNat_of_nonneg (by omega)]
    rw [h5, show (10 : ℚ) = 5 * 2 by norm_num, mul_zpow, mul_assoc, ← mul_assoc ((5 : ℚ) ^ (-e)), ← zpow_add₀ (by norm_num)]
    simp
  · rw [if_neg he]
    unfold val
    simp only
    rw [Int.cast_mul, hm]
    have h5 : (((2 : Int) ^ e.toNat : Int) : ℚ) = (2 : ℚ) ^ e := by
      push_cast
      rw [← zpow_natCast, Int.toNat_of_nonneg (by omega)]
    rw [h5]
    simp

end Dec

open Dec

/-- **C111** (conversion). `prec_float` is exact: the decimal of a finite `f64` has exactly its value, for normal and subnormal
numbers and zeros; for infinities and NaNs it panics, and for nothing else. -/
theorem c111_ofF64 (b : U64) : (Dec.ofF64 b).map Dec.val = Spec.f64Value b := by
  have hE : (b.extractLsb' 52 11).toNat = b.toNat / 2 ^ 52 % 2 ^ 11 := by
    rw [BitVec.extractLsb'_toNat, Nat.shiftRight_eq_div_pow]
  have hF : (b.extractLsb' 0 52).toNat = b.toNat % 2 ^ 52 := by
    rw [BitVec.extractLsb'_toNat, Nat.shiftRight_zero]
  have hs : b.getLsbD 63 = decide (2 ^ 63 ≤ b.toNat) := by
    have h := BitVec.msb_eq_decide b
    rw [BitVec.msb_eq_getLsbD_last] at h
    exact h
  unfold Dec.ofF64 Spec.f64Value
  simp only
  rw [hE, hF, hs]
  generalize b.toNat / 2 ^ 52 % 2 ^ 11 = E
  generalize b.toNat % 2 ^ 52 = F
  generalize decide (2 ^ 63 ≤ b.toNat) = neg
  by_cases h1 : E = 2047
  · rw [if_pos h1, if_pos h1]
    rfl
  rw [if_neg h1, if_neg h1]
  by_cases h2 : E = 0
  · rw [if_pos h2, if_pos h2, Option.map_some, val_ofParts]
    refine congrArg some ?_
    have : (2 : ℚ) ^ (-1074 : ℤ) = 2 * (2 : ℚ) ^ (-1075 : ℤ) := by
      rw [show (-1074 : ℤ) = 1 + -1075 by norm_num, zpow_add₀ (by norm_num), zpow_one]
    rw [this]
    generalize (2 : ℚ) ^ (-1075 : ℤ) = t
    push_cast
    ring
  · rw [if_neg h2, if_neg h2, Option.map_some, val_ofParts]
    refine congrArg some ?_
    have : (2 : ℚ) ^ ((E : ℤ) - 1023) = 2 ^ 52 * (2 : ℚ) ^ ((E : ℤ) - 1075) := by
      rw [show (E : ℤ) - 1023 = (52 : ℕ) + ((E : ℤ) - 1075) by push_cast; ring, zpow_add₀ (by norm_num), zpow_natCast]
    rw [this]
    generalize (2 : ℚ) ^ ((E : ℤ) - 1075) = t
    push_cast
    ring

/-- Non-vacuity: the decimals of 0.5 and of -3, of the least subnormal, of infinity and of a NaN. -/
example : Dec.ofF64 0x3FE0000000000000#64 ≠ none ∧ Spec.f64Value 0xC008000000000000#64 = some (-3) ∧
    Dec.ofF64 0x1#64 ≠ none ∧ Dec.ofF64 0x7FF0000000000000#64 = none ∧ Dec.ofF64 0x7FF8000000000000#64 = none := by
  refine ⟨by decide +kernel, by decide +kernel, by decide +kernel, by decide +kernel, by decide +kernel⟩

namespace PVec

/-- The vector of rational numbers that a vector of decimals stands for. -/
def val (v : PVec) : Vec ℚ := ⟨v.x.val, v.y.val, v.z.val⟩

end PVec

open PVec

/-- **C111** (conversion of vectors). The vector of decimals of a vector of finite floats is exactly that vector, and a
component that is not finite panics. -/
theorem c111_new (x y z : U64) :
    (PVec.ofF64 x y z).map PVec.val = (do return ⟨← Spec.f64Value x, ← Spec.f64Value y, ← Spec.f64Value z⟩) := by
  rw [← c111_ofF64 x, ← c111_ofF64 y, ← c111_ofF64 z]
  unfold PVec.ofF64
  cases Dec.ofF64 x <;> cases Dec.ofF64 y <;> cases Dec.ofF64 z <;> rfl

/-- **C111** (algebra). Sums, differences, multiples, absolute values, scalar products, cross products and squared norms of
vectors of decimals are exactly those of the rational vectors. -/
theorem c111_algebra (a b : PVec) (f : Dec) :
    (a.add b).val = ⟨a.val.x + b.val.x, a.val.y + b.val.y, a.val.z + b.val.z⟩ ∧
    (a.sub b).val = ⟨a.val.x - b.val.x, a.val.y - b.val.y, a.val.z - b.val.z⟩ ∧
    (a.mul f).val = ⟨a.val.x * f.val, a.val.y * f.val, a.val.z * f.val⟩ ∧
    a.abs.val = ⟨|a.val.x|, |a.val.y|, |a.val.z|⟩ ∧
    (a.dot b).val = a.val.x * b.val.x + a.val.y * b.val.y + a.val.z * b.val.z ∧
    a.norm2.val = a.val.x ^ 2 + a.val.y ^ 2 + a.val.z ^ 2 ∧
    (a.cross b).val = ⟨a.val.y * b.val.z - a.val.z * b.val.y, a.val.z * b.val.x - a.val.x * b.val.z,
      a.val.x * b.val.y - a.val.y * b.val.x⟩ := by
  refine ⟨?_, ?_, ?_, ?_, ?_, ?_, ?_⟩
  · simp [PVec.add, PVec.val, val_add]
  · simp [PVec.sub, PVec.val, val_sub]
  · simp [PVec.mul, PVec.val, val_mul]
  · simp [PVec.abs, PVec.val, val_abs]
  · simp [PVec.dot, PVec.val, val_add, val_mul]
  · simp only [PVec.norm2, PVec.dot, PVec.val, val_add, val_mul]
    ring
  · simp [PVec.cross, PVec.val, val_sub, val_mul]

/-- **C111** (multiplication by a float). `v * f` for a finite float is exactly the multiple, and panics for other floats. -/
theorem c111_mulF64 (a : PVec) (f : U64) :
    (a.mulF64 f).map PVec.val = (Spec.f64Value f).map fun t => ⟨a.val.x * t, a.val.y * t, a.val.z * t⟩ := by
  rw [← c111_ofF64 f]
  unfold PVec.mulF64
  cases h : Dec.ofF64 f with
  | none => rfl
  | some d => exact congrArg some (c111_algebra a a d).2.2.1

/-- **C111** (equality). `==` is equality of the vectors, whatever the representations. -/
theorem c111_eq (a b : PVec) : a.beq b = true ↔ a.val = b.val := by
  unfold PVec.beq
  rw [Bool.and_eq_true, Bool.and_eq_true, beq_iff, beq_iff, beq_iff]
  unfold PVec.val
  constructor
  · rintro ⟨⟨h1, h2⟩, h3⟩
    rw [h1, h2, h3]
  · intro h
    injection h with h1 h2 h3
    exact ⟨⟨h1, h2⟩, h3⟩

/-- **C111** (`is_unit`). A vector is reported as unit exactly if the sum of its squares is one, without a tolerance. -/
theorem c111_isUnit (a : PVec) : a.isUnit = true ↔ a.val.x ^ 2 + a.val.y ^ 2 + a.val.z ^ 2 = 1 := by
  unfold PVec.isUnit
  rw [beq_iff, (c111_algebra a a (ofInt 0)).2.2.2.2.2.1, val_ofInt]
  norm_num

/-- **C111** (orientation). The scalar product of `a.cross(b)` and `c` compares with zero exactly as the determinant of the three
vectors: it equals zero iff they are linearly dependent, and otherwise has the sign of their orientation. -/
theorem c111_orientation (a b c : PVec) :
    ((ofInt 0).blt ((a.cross b).dot c) = true ↔ 0 < Spec.det3 a.val b.val c.val) ∧
    (((a.cross b).dot c).beq (ofInt 0) = true ↔ Spec.det3 a.val b.val c.val = 0) ∧
    (((a.cross b).dot c).blt (ofInt 0) = true ↔ Spec.det3 a.val b.val c.val < 0) := by
  have h : ((a.cross b).dot c).val = Spec.det3 a.val b.val c.val := by
    rw [(c111_algebra (a.cross b) c (ofInt 0)).2.2.2.2.1, (c111_algebra a b (ofInt 0)).2.2.2.2.2.2]
    unfold Spec.det3
    ring
  rw [blt_iff, beq_iff, blt_iff, h, val_ofInt, Int.cast_zero]
  exact ⟨Iff.rfl, Iff.rfl, Iff.rfl⟩

/-- **C111** (cross product). The cross product is exactly orthogonal to both factors, changes sign when they are exchanged and
vanishes exactly if they are parallel. -/
theorem c111_cross (a b : PVec) :
    ((a.cross b).dot a).beq (ofInt 0) = true ∧ ((a.cross b).dot b).beq (ofInt 0) = true ∧
    (b.cross a).beq ((a.cross b).mul (ofInt (-1))) = true ∧
    ((a.cross b).beq ⟨ofInt 0, ofInt 0, ofInt 0⟩ = true ↔
      ∃ s t : ℚ, (s ≠ 0 ∨ t ≠ 0) ∧ s * a.val.x = t * b.val.x ∧ s * a.val.y = t * b.val.y ∧ s * a.val.z = t * b.val.z) := by
  have hc := (c111_algebra a b (ofInt 0)).2.2.2.2.2.2
  have hc' := (c111_algebra b a (ofInt 0)).2.2.2.2.2.2
  refine ⟨?_, ?_, ?_, ?_⟩
  · rw [beq_iff, (c111_algebra (a.cross b) a (ofInt 0)).2.2.2.2.1, hc, val_ofInt]
    push_cast
    ring
  · rw [beq_iff, (c111_algebra (a.cross b) b (ofInt 0)).2.2.2.2.1, hc, val_ofInt]
    push_cast
    ring
  · rw [c111_eq, (c111_algebra (a.cross b) b (ofInt (-1))).2.2.1, hc, hc', val_ofInt]
    simp only [Vec.mk.injEq]
    push_cast
    refine ⟨?_, ?_, ?_⟩ <;> ring
  · rw [c111_eq, hc]
    have h0 : (⟨ofInt 0, ofInt 0, ofInt 0⟩ : PVec).val = ⟨0, 0, 0⟩ := by
      simp [PVec.val, val_ofInt]
    rw [h0, Vec.mk.injEq]
    generalize a.val = A
    generalize b.val = B
    obtain ⟨ax, ay, az⟩ := A
    obtain ⟨bx, b_y, bz⟩ := B
    simp only
    constructor
    · rintro ⟨h1, h2, h3⟩
      by_cases hx : ax = 0
      · by_cases hy : ay = 0
        · by_cases hz : az = 0
          · exact ⟨1, 0, Or.inl one_ne_zero, by rw [hx]; ring, by rw [hy]; ring, by rw [hz]; ring⟩
          · exact ⟨bz, az, Or.inr hz, by linarith, by linarith, by ring⟩
        · exact ⟨b_y, ay, Or.inr hy, by linarith, by ring, by linarith⟩
      · exact ⟨bx, ax, Or.inr hx, by ring, by linarith, by linarith⟩
    · rintro ⟨s, t, hst, h1, h2, h3⟩
      have k1 : s * (ay * bz - az * b_y) = 0 := by linear_combination bz * h2 - b_y * h3
      have k2 : s * (az * bx - ax * bz) = 0 := by linear_combination bx * h3 - bz * h1
      have k3 : s * (ax * b_y - ay * bx) = 0 := by linear_combination b_y * h1 - bx * h2
      have l1 : t * (ay * bz - az * b_y) = 0 := by linear_combination az * h2 - ay * h3
      have l2 : t * (az * bx - ax * bz) = 0 := by linear_combination ax * h3 - az * h1
      have l3 : t * (ax * b_y - ay * bx) = 0 := by linear_combination ay * h1 - ax * h2
      rcases hst with hs | ht
      · exact ⟨(mul_eq_zero.mp k1).resolve_left hs, (mul_eq_zero.mp k2).resolve_left hs, (mul_eq_zero.mp k3).resolve_left hs⟩
      · exact ⟨(mul_eq_zero.mp l1).resolve_left ht, (mul_eq_zero.mp l2).resolve_left ht, (mul_eq_zero.mp l3).resolve_left ht⟩

/-- **C111** (components). `largest_component` is an axis along which the component is of greatest absolute value, and
`smallest_component` one of least absolute value. -/
theorem c111_components (a : PVec) (i : Vec.Axis) :
    |Spec.axisComp a.val i| ≤ |Spec.axisComp a.val a.largestComponent| ∧
    |Spec.axisComp a.val a.smallestComponent| ≤ |Spec.axisComp a.val i| := by
  have hb : ∀ p q : Dec, p.abs.blt q.abs = true ↔ |p.val| < |q.val| := by
    intro p q
    rw [blt_iff, val_abs, val_abs]
  constructor
  · unfold PVec.largestComponent PVec.abs
    simp only [hb]
    split_ifs with h1 h2 h3 <;> cases i <;> simp only [Spec.axisComp, PVec.val] <;> (first | exact le_refl _ | linarith)
  · unfold PVec.smallestComponent PVec.abs
    simp only [hb]
    split_ifs with h1 h2 h3 <;> cases i <;> simp only [Spec.axisComp, PVec.val] <;> (first | exact le_refl _ | linarith)

/-- **C111** (agreement with the floating-point vector). On the same numbers, `largest_component` and `smallest_component` of the
two vector types agree, also where components are equal. -/
theorem c111_components_agree (a : PVec) :
    a.largestComponent = a.val.largestComponent ∧ a.smallestComponent = a.val.smallestComponent := by
  have hb : ∀ p q : Dec, p.abs.blt q.abs = true ↔ |p.val| < |q.val| := by
    intro p q
    rw [blt_iff, val_abs, val_abs]
  constructor
  · unfold PVec.largestComponent PVec.abs Vec.largestComponent
    simp only [hb, PVec.val, gt_iff_lt]
  · unfold PVec.smallestComponent PVec.abs Vec.smallestComponent
    simp only [hb, PVec.val]
    by_cases h1 : |a.x.val| < |a.y.val| <;> by_cases h2 : |a.x.val| < |a.z.val| <;> by_cases h3 : |a.y.val| < |a.z.val| <;>
      simp [h1, h2, h3]

/-- Non-vacuity: two vectors whose determinant with a third is too small for floating-point arithmetic, but not for the
decimals; the components of the vector; and the representations of one number that are equal. -/
example :
    (∃ d, Dec.ofF64 0x0010000000000000#64 = some d ∧
      (ofInt 0).blt ((PVec.cross ⟨d, ofInt 0, ofInt 0⟩ ⟨ofInt 0, d, ofInt 0⟩).dot ⟨ofInt 0, ofInt 0, d⟩) = true) ∧
    (⟨⟨-25, 1⟩, ofInt 1, ofInt 2⟩ : PVec).largestComponent = .X ∧
    (⟨⟨-25, 1⟩, ofInt 1, ofInt 2⟩ : PVec).smallestComponent = .Y ∧
    (⟨⟨6, 1⟩, ofInt 0, ⟨80, 2⟩⟩ : PVec).isUnit = true ∧
    (⟨150, 2⟩ : Dec).beq ⟨15, 1⟩ = true := by
  refine ⟨⟨_, rfl, by decide +kernel⟩, by decide +kernel, by decide +kernel, by decide +kernel, by decide +kernel⟩

end Verif
