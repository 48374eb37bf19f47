import Verif.Properties.CapExact
import Verif.Properties.S1Expand
import Mathlib.Analysis.Real.Pi.Bounds

/-!
# Areas of caps, and the inputs on which caps do not do what they document: C64
-/

namespace Verif
open Spec

theorem cos_half_sq (ρ : ℝ) : Real.cos (ρ / 2) ^ 2 = 1 / 2 + Real.cos ρ / 2 := by
  rw [Real.cos_sq, show 2 * (ρ / 2) = ρ by ring]

/-- **C64.** Height and area of a cap of angular radius `ρ`; the constructors invert them. -/
theorem c64_area {c : Vec ℝ} {ρ : ℝ} :
    (Cap.mk c (chordOf ρ)).height _root_.id = 1 - Real.cos ρ ∧
    (Cap.mk c (chordOf ρ)).area _root_.id Real.pi = 2 * Real.pi * (1 - Real.cos ρ) ∧
    Cap.ofHeight _root_.id c ((Cap.mk c (chordOf ρ)).height _root_.id) = Cap.mk c (chordOf ρ) ∧
    Cap.ofArea _root_.id Real.pi c ((Cap.mk c (chordOf ρ)).area _root_.id Real.pi) = Cap.mk c (chordOf ρ) := by
  have e : chordOf ρ = 2 * (1 - Real.cos ρ) := by
    unfold chordOf
    have := cos_half_sq ρ
    have := Real.sin_sq_add_cos_sq (ρ / 2)
    nlinarith
  have h1 := Real.cos_le_one ρ
  have h2 := Real.neg_one_le_cos ρ
  have hh : (Cap.mk c (chordOf ρ)).height _root_.id = 1 - Real.cos ρ := by
    simp only [Cap.height, _root_.id]; linarith
  have ha : (Cap.mk c (chordOf ρ)).area _root_.id Real.pi = 2 * Real.pi * (1 - Real.cos ρ) := by
    simp only [Cap.area, hh, _root_.id]
    rw [max_eq_left (by linarith)]
  refine ⟨hh, ha, ?_, ?_⟩
  · rw [hh]
    simp only [Cap.ofHeight, ChordAngle.fromSquaredLength, _root_.id]
    rw [if_neg (by linarith), e]
  · rw [ha]
    have hp := Real.pi_pos
    have : 2 * Real.pi * (1 - Real.cos ρ) / Real.pi = 2 * (1 - Real.cos ρ) := by field_simp
    simp only [Cap.ofArea, ChordAngle.fromSquaredLength, _root_.id]
    rw [this, if_neg (by linarith), e]

/-- **C64.** The full cap intersects nothing, the empty cap intersects the full cap. -/
theorem c64_intersects_defect {K : Type} [Field K] [LinearOrder K] [IsStrictOrderedRing K] (fl sqrt : K → K) (d : Cap K) :
    Cap.full.intersects fl sqrt d = false ∧ Cap.empty.intersects _root_.id Real.sqrt Cap.full = true := by
  constructor
  · simp [Cap.intersects, Cap.full, Cap.isFull]
  · norm_num [Cap.intersects, Cap.full, Cap.empty, Cap.isFull, Cap.isEmpty, ChordAngle.straight, ChordAngle.negative, ChordAngle.add, ChordAngle.chord,
      Vec.chordAngle, Vec.norm2, Vec.sub, Vec.dot]

/-- **C64.** Two caps with antipodal centres: the interiors share a point, `interior_intersects` says no. -/
theorem c64_interior_defect :
    let c : Cap ℝ := ⟨⟨1, 0, 0⟩, 3⟩
    let d : Cap ℝ := ⟨⟨-1, 0, 0⟩, 3⟩
    c.interiorIntersects _root_.id Real.sqrt d = false ∧ UnitV (⟨0, 1, 0⟩ : Vec ℝ) ∧ InsideCap c ⟨0, 1, 0⟩ ∧ InsideCap d ⟨0, 1, 0⟩ := by
  refine ⟨?_, ?_, Or.inr ?_, Or.inr ?_⟩
  · norm_num [Cap.interiorIntersects, Cap.isEmpty, ChordAngle.straight, ChordAngle.add, Vec.chordAngle, Vec.norm2, Vec.sub, Vec.dot]
  · norm_num [UnitV, dot]
  · norm_num [dot, diff]
  · norm_num [dot, diff]

/-- **C64.** A cap that covers the south pole and not the north pole: the bounding rectangle has no latitudes. -/
theorem c64_southPole_defect {sin cos asin : ℝ → ℝ} {rem : ℝ → ℝ → ℝ} {c : Cap ℝ} {angle lat lng : ℝ} (he : c.isEmpty = false)
    (h1 : lat - angle < -(Real.pi / 2)) (h2 : lat + angle < Real.pi / 2) :
    let r := c.rectBound _root_.id sin cos asin rem Real.pi angle lat lng
    r.lat.hi < r.lat.lo := by
  have e1 : lat - angle < Real.pi / -2 := by rw [div_neg]; exact h1
  unfold Cap.rectBound
  rw [he]
  simp only [Bool.false_eq_true, if_false, _root_.id, decide_eq_true e1, if_true]
  rw [if_neg (by rw [decide_eq_true_eq]; linarith)]
  exact h2

/-- **C64.** A cap on the equator of angular radius `ρ < 1`: the bounding rectangle ends before the point of the cap at longitude `ρ`. -/
theorem c64_longitude_defect {rem : ℝ → ℝ → ℝ} (hr : S1.IsRem Real.pi (fun x => rem x (Real.pi * 2))) {ρ : ℝ} (h0 : 0 < ρ) (h1 : ρ < 1) :
    let c : Cap ℝ := ⟨⟨1, 0, 0⟩, chordOf ρ⟩
    let p : Vec ℝ := ⟨Real.cos ρ, Real.sin ρ, 0⟩
    let r := c.rectBound _root_.id Real.sin Real.cos Real.arcsin rem Real.pi ρ 0 0
    UnitV p ∧ InCap c p ∧ r.lng.lo = -chordOf ρ ∧ r.lng.hi = chordOf ρ ∧ chordOf ρ < ρ := by
  have hp := Real.pi_gt_three
  have hs := Real.sin_sq_add_cos_sq ρ
  have hs2 := Real.sin_sq_add_cos_sq (ρ / 2)
  have hc2 := cos_half_sq ρ
  have s0 : 0 < Real.sin (ρ / 2) := Real.sin_pos_of_pos_of_lt_pi (by linarith) (by linarith)
  have s1 : Real.sin (ρ / 2) < ρ / 2 := Real.sin_lt (by linarith)
  have hlt : chordOf ρ < ρ := by unfold chordOf; nlinarith
  have hpos : 0 < chordOf ρ := by unfold chordOf; positivity
  have remx : ∀ x, |x| ≤ 1 → rem x (Real.pi * 2) = x := by
    intro x hx
    obtain ⟨a, k, hk⟩ := hr x
    simp only at a hk
    rw [abs_le] at a hx
    have k0 : k = 0 := by
      have u1 : (k : ℝ) < 1 := by nlinarith
      have u2 : (-1 : ℝ) < k := by nlinarith
      have v1 : k < 1 := by exact_mod_cast u1
      have v2 : -1 < k := by exact_mod_cast u2
      omega
    rw [k0] at hk
    simpa using hk
  refine ⟨?_, ?_, ?_, ?_, hlt⟩
  · simp only [UnitV, dot]; nlinarith
  · simp only [InCap, dot, diff, chordOf]; nlinarith
  all_goals
    unfold Cap.rectBound
    have he : (Cap.mk (⟨1, 0, 0⟩ : Vec ℝ) (chordOf ρ)).isEmpty = false := by
      rw [← Bool.not_eq_true, empty_iff]; exact not_lt.2 hpos.le
    have n1 : ¬ (0 - ρ < Real.pi / -2) := by rw [div_neg]; intro h; linarith
    have n2 : ¬ (0 + ρ > Real.pi / 2) := by intro h; linarith
    have h3 : Real.sin (chordOf ρ) ≤ Real.cos 0 := by rw [Real.cos_zero]; exact Real.sin_le_one _
    rw [he]
    simp only [Bool.false_eq_true, if_false, _root_.id, decide_eq_false n1, decide_eq_false n2, Bool.or_false, Bool.not_false, if_true, if_pos h3]
    rw [Real.cos_zero, div_one, Real.arcsin_sin (by linarith) (by linarith)]
    rw [remx _ (by rw [abs_le]; constructor <;> linarith)]
    ring

/-- **C64.** The union of two opposite hemispheres is not the full cap: the radius is an angle and is stored as a squared length. -/
theorem c64_union_defect {dist : Vec ℝ → Vec ℝ → ℝ} (hd : dist ⟨-1, 0, 0⟩ ⟨1, 0, 0⟩ = Real.pi) {interp : ℝ → Vec ℝ → Vec ℝ → Vec ℝ}
    (hi : ∀ t a b, UnitV (interp t a b)) :
    let c : Cap ℝ := ⟨⟨1, 0, 0⟩, 2⟩
    let d : Cap ℝ := ⟨⟨-1, 0, 0⟩, 2⟩
    let u := c.union _root_.id Real.sqrt Real.arcsin dist interp d
    (∀ p, UnitV p → InCap c p ∨ InCap d p) ∧ ∃ p, UnitV p ∧ ¬ InCap u p := by
  intro c d u
  have hp := Real.pi_pos
  have hr : ChordAngle.toRad _root_.id Real.sqrt Real.arcsin 2 = Real.pi / 2 := by
    simp only [ChordAngle.toRad, _root_.id]
    have : (1 / 2 * Real.sqrt 2 : ℝ) = Real.sin (Real.pi / 4) := by rw [Real.sin_pi_div_four]; ring
    rw [this, Real.arcsin_sin (by linarith) (by linarith)]
    ring
  have hu : u.radius = Real.pi ∧ UnitV u.center := by
    have h1 : ¬ ((2 : ℝ) > 2) := lt_irrefl _
    have h2 : (d.isFull || c.isEmpty) = false := by norm_num [d, c, Cap.isFull, Cap.isEmpty, ChordAngle.straight]
    have h3 : ¬ (Real.pi / 2 ≥ Real.pi + Real.pi / 2) := by intro h; linarith
    simp only [u, Cap.union, c, d, if_neg h1]
    rw [if_neg (by rw [Bool.not_eq_true]; exact h2), hd]
    simp only [hr, _root_.id, if_neg h3]
    exact ⟨by ring, hi _ _ _⟩
  refine ⟨fun p hp => ?_, u.center.scale _root_.id (-1), unit_neg hu.2, ?_⟩
  · simp only [UnitV, dot] at hp
    simp only [InCap, dot, diff, c, d]
    rcases le_total 0 p.x with h | h
    · left; nlinarith
    · right; nlinarith
  · unfold InCap
    rw [hu.1, not_le]
    have := hu.2
    have e : dot (diff (u.center.scale _root_.id (-1)) u.center) (diff (u.center.scale _root_.id (-1)) u.center) = 4 * dot u.center u.center := by
      simp only [dot, diff, Vec.scale, _root_.id]; ring
    rw [e, this]
    linarith [Real.pi_lt_d2]

/-- **C64.** `approx_eq` takes every cap of at least a hemisphere for the full cap. -/
theorem c64_approxEq_defect {eps : ℝ} (h : 0 ≤ eps) (close : Vec ℝ → Vec ℝ → Bool) (p : Vec ℝ) {r : ℝ} (hr : 2 ≤ r) :
    Cap.full.approxEq _root_.id eps close ⟨p, r⟩ = true := by
  have : r ≥ 2 - eps := by linarith
  simp [Cap.approxEq, Cap.full, Cap.isFull, this]

/-- The hypotheses of `c64_southPole_defect`: a cap of 20 degrees around latitude -80 degrees. -/
example : (Cap.mk (⟨0, 0, -1⟩ : Vec ℝ) (1 / 10)).isEmpty = false ∧ -(4 * Real.pi / 9) - Real.pi / 9 < -(Real.pi / 2) ∧
    -(4 * Real.pi / 9) + Real.pi / 9 < Real.pi / 2 := by
  have := Real.pi_pos
  refine ⟨by norm_num [Cap.isEmpty], by linarith, by linarith⟩

end Verif
