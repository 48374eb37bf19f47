import Verif.Model.Random
import Verif.Properties.CellID
import Verif.Properties.EdgeInterpolate

/-!
# Random objects: C85

Whatever numbers the generator yields.
-/

namespace Verif
open Spec Random

/-- **C85.** `skewed_int` is in the documented range for every draw, as long as the range can be shifted. -/
theorem c85_skewedInt {maxLog base r : Nat} (hb : base < maxLog + 1) (hm : maxLog < 64) (hr : r < 2 ^ 31) :
    ∃ v, skewedInt base r = some v ∧ v < 2 ^ maxLog ∧ v < 2 ^ 31 := by
  have hb64 : base < 64 := by omega
  have hp : 2 ^ base < 2 ^ 64 := Nat.pow_lt_pow_right (by norm_num) hb64
  have e1 : (1#64 <<< base).toNat = 2 ^ base := by
    rw [BitVec.toNat_shiftLeft, BitVec.toNat_ofNat, Nat.shiftLeft_eq]
    rw [show 1 % 2 ^ 64 = 1 by norm_num, one_mul]
    exact Nat.mod_eq_of_lt hp
  have h1 : 1 ≤ 2 ^ base := Nat.one_le_two_pow
  have e2 : (1#64 <<< base - 1#64).toNat = 2 ^ base - 1 := by
    rw [BitVec.toNat_sub_of_le (by rw [BitVec.le_def, e1]; exact h1), e1]
    rfl
  refine ⟨(BitVec.ofNat 64 r &&& (1#64 <<< base - 1#64)).toNat, ?_, ?_, ?_⟩
  · unfold skewedInt Rust.shl Rust.sub
    rw [if_pos hb64]
    simp only [Option.bind_eq_bind, Option.bind_some]
    rw [if_pos (by rw [e1]; exact h1)]
    rfl
  · rw [BitVec.toNat_and, e2]
    calc _ ≤ 2 ^ base - 1 := Nat.and_le_right
      _ < 2 ^ base := by omega
      _ ≤ 2 ^ maxLog := Nat.pow_le_pow_right (by norm_num) (by omega)
  · rw [BitVec.toNat_and, BitVec.toNat_ofNat, Nat.mod_eq_of_lt (by omega)]
    exact lt_of_le_of_lt Nat.and_le_left hr

example : skewedInt 5 1000 = some 8 := by decide +kernel

/-- **C85.** `cellid_for_level` never fails its assertions: it is a valid cell of the given face and level. -/
theorem c85_cellid {f r : U64} {l : Nat} (hf : f.toNat < 6) (hl : l ≤ 30) :
    ∃ c, cellidForLevel f r l = some c ∧ Valid c ∧ c.face = f.toNat ∧ c.level = some l := by
  have em : 1#64 <<< posBits - 1#64 = BitVec.ofNat 64 (2 ^ 61 - 1) := by decide
  have hpos : (r &&& (1#64 <<< posBits - 1#64)).toNat < 2 * 1152921504606846976 := by
    rw [em, Bits.and_mask_eq_mod _ _ (by norm_num)]
    exact Nat.mod_lt _ (by norm_num)
  obtain ⟨h1, h2⟩ := fromFacePosLevel_eq hf hpos hl
  rw [show BitVec.ofNat 64 f.toNat = f by simp] at h1
  have hface : (mk l (f.toNat * 4 ^ l + (r &&& (1#64 <<< posBits - 1#64)).toNat / (2 * E l))).face = f.toNat := by
    rw [face_mk h2]
    have h4 : 0 < 4 ^ l := Nat.pow_pos (by decide)
    have hq : (r &&& (1#64 <<< posBits - 1#64)).toNat / (2 * E l) < 4 ^ l := by
      rw [Nat.div_lt_iff_lt_mul (by have := E_pos l; omega)]
      calc _ < 2 * 1152921504606846976 := hpos
        _ = 4 ^ l * (2 * E l) := by rw [← pow_mul_E hl]; ring
    rw [Nat.add_comm, Nat.add_mul_div_right _ _ h4, Nat.div_eq_of_lt hq, Nat.zero_add]
  have hlev := level_mk h2
  refine ⟨_, ?_, valid_mk h2, hface, hlev⟩
  unfold cellidForLevel
  have s1 : Rust.shl 1#64 posBits = some (1#64 <<< posBits) := rfl
  have s2 : Rust.sub (1#64 <<< posBits) 1#64 = some (1#64 <<< posBits - 1#64) := by decide
  simp only [Option.bind_eq_bind]
  rw [s1, Option.bind_some, s2, Option.bind_some, h1, Option.bind_some, hface, hlev]
  simp [Rust.assert]

example : cellidForLevel 5#64 0xffffffffffffffff#64 30 ≠ none := by decide +kernel

/-- **C85.** In exact arithmetic `frame_at_point` is a right-handed orthonormal frame with the given third axis. -/
theorem c85_frame {z p : Vec ℝ} (hz : UnitV z) (hp : UnitV p) :
    let m := frameAtPoint _root_.id Real.sqrt z p
    UnitV m.c0 ∧ UnitV m.c1 ∧ m.c2 = z ∧ dot m.c0 m.c1 = 0 ∧ dot m.c0 z = 0 ∧ dot m.c1 z = 0 ∧ cross m.c0 m.c1 = z := by
  intro m
  obtain ⟨cz, ca, _, _, _⟩ := c74_pointCross isSqrt_real (unit_ne hz) (p := z) (q := p) (by rw [show dot z z = 1 from hz, show dot p p = 1 from hp])
  obtain ⟨s, s0, s1, s2⟩ := c74_normalize isSqrt_real cz
  have hx : UnitV m.c0 := s2
  have hxz : dot m.c0 z = 0 := by
    have e : m.c0 = smul s (Vec.pointCross _root_.id Real.sqrt z p) := s1
    have : dot (smul s (Vec.pointCross _root_.id Real.sqrt z p)) z = s * dot (Vec.pointCross _root_.id Real.sqrt z p) z := by simp only [dot, smul]; ring
    rw [e, this, ca, mul_zero]
  have hnz : ¬ IsZero (cross z m.c0) := by
    rintro ⟨z1, z2, z3⟩
    have : dot (cross z m.c0) (cross z m.c0) = dot z z * dot m.c0 m.c0 - dot m.c0 z ^ 2 := by simp only [dot, cross]; ring
    rw [hz, hx, hxz] at this
    unfold dot at this
    rw [z1, z2, z3] at this
    norm_num at this
  have e1 : m.c1 = cross z m.c0 := by
    obtain ⟨_, _, _, c1, _⟩ := c74_pointCross isSqrt_real (unit_ne hz) (p := z) (q := m.c0) (by rw [show dot z z = 1 from hz, show dot m.c0 m.c0 = 1 from hx])
    have ec := c1 hnz
    have hu : UnitV (cross z m.c0) := by
      have : dot (cross z m.c0) (cross z m.c0) = dot z z * dot m.c0 m.c0 - dot m.c0 z ^ 2 := by simp only [dot, cross]; ring
      unfold UnitV
      rw [this, hz, hx, hxz]; norm_num
    have e0 : m.c1 = Vec.normalize _root_.id Real.sqrt (Vec.pointCross _root_.id Real.sqrt z m.c0) := rfl
    rw [e0, ec]
    have h2 : ¬ IsZero (smul 2 (cross z m.c0)) := by
      rintro ⟨z1, z2, z3⟩
      simp only [smul, mul_eq_zero, OfNat.ofNat_ne_zero, false_or] at z1 z2 z3
      exact hnz ⟨z1, z2, z3⟩
    obtain ⟨t, t0, t1, t2⟩ := c74_normalize isSqrt_real h2
    rw [t1] at t2 ⊢
    have l1 : dot (smul t (smul 2 (cross z m.c0))) (smul t (smul 2 (cross z m.c0))) = (2 * t) ^ 2 * dot (cross z m.c0) (cross z m.c0) := by simp only [dot, smul]; ring
    rw [l1, hu, mul_one] at t2
    have : 2 * t = 1 := by nlinarith
    have e5 : smul t (smul 2 (cross z m.c0)) = smul (2 * t) (cross z m.c0) := by simp only [smul, Vec.mk.injEq]; refine ⟨?_, ?_, ?_⟩ <;> ring
    rw [e5, this]
    simp [smul]
  have hu1 : UnitV m.c1 := by
    unfold UnitV
    rw [e1]
    have : dot (cross z m.c0) (cross z m.c0) = dot z z * dot m.c0 m.c0 - dot m.c0 z ^ 2 := by simp only [dot, cross]; ring
    rw [this, hz, hx, hxz]; norm_num
  refine ⟨hx, hu1, rfl, ?_, hxz, ?_, ?_⟩
  · rw [e1]; simp only [dot, cross]; ring
  · rw [e1]; simp only [dot, cross]; ring
  · rw [e1]
    have : cross m.c0 (cross z m.c0) = lin (dot m.c0 m.c0) z (-dot m.c0 z) m.c0 := by
      simp only [cross, lin, dot, Vec.mk.injEq]
      refine ⟨?_, ?_, ?_⟩ <;> ring
    rw [this, hx, hxz]
    simp [lin]

/-- **C85.** In exact arithmetic the random point is in the cap, and it has the random height. -/
theorem c85_sample {c : Cap ℝ} (hc : UnitV c.center) (h0 : 0 ≤ c.radius) (h4 : c.radius ≤ 4) {u : ℝ} (hu0 : 0 ≤ u) (hu1 : u < 1) (v : ℝ) :
    let p := samplePointFromCap _root_.id Real.sqrt Real.sin Real.cos Real.pi c u v
    UnitV p ∧ InCap c p ∧ dot p c.center = 1 - u * c.radius / 2 := by
  intro p
  have hh0 : 0 ≤ u * (1 / 2 * c.radius) := by positivity
  have hh2 : u * (1 / 2 * c.radius) ≤ 2 := by nlinarith
  have hdef : p = Vec.fromFrame _root_.id (Vec.frame _root_.id Real.sqrt c.center) (Vec.normalize _root_.id Real.sqrt (Vec.fromCoords _root_.id Real.sqrt
      (Real.cos (2 * Real.pi * v) * Real.sqrt (u * (1 / 2 * c.radius) * (2 - u * (1 / 2 * c.radius))))
      (Real.sin (2 * Real.pi * v) * Real.sqrt (u * (1 / 2 * c.radius) * (2 - u * (1 / 2 * c.radius)))) (1 - u * (1 / 2 * c.radius)))) := rfl
  generalize hh : u * (1 / 2 * c.radius) = h at *
  have hr0 : 0 ≤ h * (2 - h) := mul_nonneg hh0 (by linarith)
  have hr := Real.mul_self_sqrt hr0
  generalize Real.sqrt (h * (2 - h)) = r at *
  have hq : UnitV (⟨Real.cos (2 * Real.pi * v) * r, Real.sin (2 * Real.pi * v) * r, 1 - h⟩ : Vec ℝ) := by
    unfold UnitV dot
    linear_combination (r * r) * Real.sin_sq_add_cos_sq (2 * Real.pi * v) + hr
  have e2 : Vec.fromCoords _root_.id Real.sqrt (Real.cos (2 * Real.pi * v) * r) (Real.sin (2 * Real.pi * v) * r) (1 - h) =
      ⟨Real.cos (2 * Real.pi * v) * r, Real.sin (2 * Real.pi * v) * r, 1 - h⟩ := by
    unfold Vec.fromCoords
    rw [if_neg (show ¬ (Real.cos (2 * Real.pi * v) * r = 0 ∧ Real.sin (2 * Real.pi * v) * r = 0 ∧ 1 - h = 0) from unit_ne hq), normalize_unit hq]
  rw [e2, normalize_unit hq] at hdef
  obtain ⟨f1, _, _, _, f5⟩ := c74_frame isSqrt_real (p := c.center) hc ⟨Real.cos (2 * Real.pi * v) * r, Real.sin (2 * Real.pi * v) * r, 1 - h⟩
    ⟨Real.cos (2 * Real.pi * v) * r, Real.sin (2 * Real.pi * v) * r, 1 - h⟩
  obtain ⟨_, _, _, _, g5⟩ := c74_frame isSqrt_real (p := c.center) hc ⟨Real.cos (2 * Real.pi * v) * r, Real.sin (2 * Real.pi * v) * r, 1 - h⟩ ⟨0, 0, 1⟩
  have e3 : Vec.fromFrame _root_.id (Vec.frame _root_.id Real.sqrt c.center) ⟨0, 0, 1⟩ = c.center := by
    simp only [Vec.fromFrame, Vec.dot, _root_.id, mul_zero, mul_one, zero_add]
    rw [f1]
  rw [← hdef] at f5 g5
  rw [e3] at g5
  have hu : UnitV p := f5.trans hq
  have hd : dot p c.center = 1 - h := by rw [g5]; simp [dot]
  refine ⟨hu, ?_, by rw [hd, ← hh]; ring⟩
  unfold InCap
  have : dot (diff p c.center) (diff p c.center) = 2 - 2 * dot p c.center := dist2_unit hu hc
  rw [this, hd, ← hh]
  nlinarith

/-- The hemisphere around the north pole. -/
example : UnitV (⟨0, 0, 1⟩ : Vec ℝ) ∧ (0 : ℝ) ≤ 2 ∧ (2 : ℝ) ≤ 4 := by norm_num [UnitV, dot]

end Verif
