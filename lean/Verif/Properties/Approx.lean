import Verif.Model.Approx
import Verif.Properties.S1Ops
import Mathlib.Tactic.LinearCombination
import Mathlib.Algebra.Order.Round
import Mathlib.Data.Rat.Floor

/-!
# C112: approximate equality of intervals and rectangles

`approx_eq_by` of two intervals is to mean that one can be moved onto the other by moving each end by at most the given error. For
intervals of the line and rectangles of the plane this is so. For intervals of the circle it is so unless an end moves across
the direction `π`: `%` keeps the sign of the dividend, so that angles just below `π` and just above `-π` are compared as if
they were a full turn apart.
-/

namespace Verif

/-! ## Specification -/

namespace Spec
variable {K : Type} [Field K] [LinearOrder K]

/-- The arc from `lo` to `hi` becomes the arc from `lo'` to `hi'` by moving its ends by at most `e`, without crossing. -/
def Movable (π e lo hi lo' hi' : K) : Prop :=
  ∃ dl dh, |dl| ≤ e ∧ |dh| ≤ e ∧ SameDir π (lo + dl) lo' ∧ SameDir π (hi + dh) hi' ∧
    arcLen π lo' hi' = arcLen π lo hi + dh - dl

/-- The remainder of a truncating division by `2π`, `%` of Rust. -/
def IsTurnRem (π : K) (fmod : K → K) : Prop :=
  ∀ x, (∃ k : ℤ, fmod x = x - 2 * π * k) ∧ |fmod x| < 2 * π ∧ (0 ≤ x → 0 ≤ fmod x) ∧ (x ≤ 0 → fmod x ≤ 0)

end Spec

namespace S1
open Spec Interval
variable {K : Type} [Field K] [LinearOrder K] [IsStrictOrderedRing K] {π : K}

theorem fmod_small (hπ : 0 < π) {fmod : K → K} (hf : IsTurnRem π fmod) {x : K} (hx : |x| < 2 * π) : fmod x = x := by
  obtain ⟨⟨k, hk⟩, h1, h2, h3⟩ := hf x
  have hx1 := abs_lt.mp hx
  have h4 := abs_lt.mp h1
  have hd : SameDir π x (fmod x) := ⟨-k, by rw [hk]; push_cast; ring⟩
  rcases turn_cases hπ hd (by linarith) (by linarith) with h | h | h
  · rcases le_total 0 x with h0 | h0
    · linarith [h2 h0]
    · linarith
  · exact h
  · rcases le_total 0 x with h0 | h0
    · linarith
    · linarith [h3 h0]

/-- What a valid interval other than the empty and the full one satisfies. -/
theorem proper (hπ : 0 < π) {i : Interval K} (hi : i.isValid π = true) (he : i.isEmpty π = false) (hf : i.isFull π = false) :
    -π < i.lo ∧ i.lo ≤ π ∧ -π < i.hi ∧ i.hi ≤ π ∧ i.len π _root_.id = arcLen π i.lo i.hi ∧
    (arcLen π i.lo i.hi = i.hi - i.lo ∨ arcLen π i.lo i.hi = i.hi - i.lo + 2 * π) := by
  have hl := (c51_len hπ hi).2 he
  rw [isValid_iff] at hi
  have he' : ¬ (i.lo = π ∧ i.hi = -π) := by
    rw [← isEmpty_iff, he]
    simp
  have hf' : ¬ (i.lo = -π ∧ i.hi = π) := by
    intro h
    simp [isFull, h.1, h.2] at hf
  refine ⟨lt_of_le_of_ne hi.lo1 fun h => hf' ⟨h.symm, hi.nlo h.symm⟩, hi.lo2,
    lt_of_le_of_ne hi.hi1 fun h => he' ⟨hi.nhi h.symm, h.symm⟩, hi.hi2, hl, ?_⟩
  unfold arcLen arcEnd
  rw [if_neg he']
  split_ifs
  · exact Or.inl rfl
  · right
    ring

/-- **C112** (intervals of the circle). For valid intervals other than the empty and the full one, `approx_eq_by` with an error
below a quarter turn is true exactly if one interval can be moved onto the other by moving each end by at most the error,
provided that no end is moved across the direction `π`. -/
theorem c112_circle (hπ : 0 < π) {fmod : K → K} (hf : IsTurnRem π fmod) {i y : Interval K} (hi : i.isValid π = true)
    (hy : y.isValid π = true) (hie : i.isEmpty π = false) (hif : i.isFull π = false) (hye : y.isEmpty π = false)
    (hyf : y.isFull π = false) {e : K} (he2 : e < π / 2) :
    i.approxEqBy π _root_.id fmod y e = true ↔
      Movable π e i.lo i.hi y.lo y.hi ∧ |y.lo - i.lo| ≤ π ∧ |y.hi - i.hi| ≤ π := by
  obtain ⟨a1, a2, a3, a4, a5, a6⟩ := proper hπ hi hie hif
  obtain ⟨b1, b2, b3, b4, b5, b6⟩ := proper hπ hy hye hyf
  have f1 := fmod_small hπ hf (x := y.lo - i.lo) (abs_lt.mpr ⟨by linarith, by linarith⟩)
  have f2 := fmod_small hπ hf (x := y.hi - i.hi) (abs_lt.mpr ⟨by linarith, by linarith⟩)
  have hx : i.approxEqBy π _root_.id fmod y e = true ↔
      |y.lo - i.lo| ≤ e ∧ |y.hi - i.hi| ≤ e ∧ |arcLen π i.lo i.hi - arcLen π y.lo y.hi| ≤ 2 * e := by
    unfold approxEqBy
    rw [hie, hif, hye, hyf, a5, b5]
    simp only [_root_.id, f1, f2]
    simp [and_assoc]
  rw [hx]
  constructor
  · rintro ⟨h1, h2, h3⟩
    refine ⟨⟨y.lo - i.lo, y.hi - i.hi, h1, h2, ⟨0, by push_cast; ring⟩, ⟨0, by push_cast; ring⟩, ?_⟩, by linarith, by linarith⟩
    rw [abs_le] at h1 h2 h3
    rcases a6 with a6 | a6 <;> rcases b6 with b6 | b6 <;> linarith
  · rintro ⟨⟨dl, dh, h1, h2, h3, h4, h5⟩, h6, h7⟩
    rw [abs_le] at h1 h2 h6 h7
    have k1 : y.lo - i.lo = dl := by
      rcases turn_cases hπ h3 (by linarith) (by linarith) with h | h | h <;> linarith
    have k2 : y.hi - i.hi = dh := by
      rcases turn_cases hπ h4 (by linarith) (by linarith) with h | h | h <;> linarith
    rw [k1, k2, h5]
    refine ⟨abs_le.mpr h1, abs_le.mpr h2, abs_le.mpr ⟨by linarith, by linarith⟩⟩

/-- **C112** (empty and full). The empty interval matches exactly itself and the intervals shorter than twice the error (not of
that length exactly, unlike documented); the full interval matches exactly the intervals whose complement is at most that long.
In either order. -/
theorem c112_empty_full (hπ : 0 < π) (fmod : K → K) {y : Interval K} (hy : y.isValid π = true) {e : K} (he : 0 ≤ e) (he2 : e < π) :
    ((empty π).approxEqBy π _root_.id fmod y e = true ↔ y.isEmpty π = true ∨ arcLen π y.lo y.hi < 2 * e) ∧
    (y.approxEqBy π _root_.id fmod (empty π) e = true ↔ y.isEmpty π = true ∨ arcLen π y.lo y.hi < 2 * e) ∧
    ((full π).approxEqBy π _root_.id fmod y e = true ↔ y.isEmpty π = false ∧ 2 * π - 2 * e ≤ arcLen π y.lo y.hi) ∧
    (y.approxEqBy π _root_.id fmod (full π) e = true ↔ y.isEmpty π = false ∧ 2 * π - 2 * e ≤ arcLen π y.lo y.hi) := by
  have hl := c51_len hπ hy
  have e1 : (empty π).isEmpty π = true := by simp [Interval.isEmpty, Interval.empty]
  have e2 : (full π).isEmpty π = false := by
    rw [← Bool.not_eq_true, isEmpty_iff]
    rintro ⟨h, -⟩
    change -π = π at h
    linarith
  have e3 : (full π).isFull π = true := by simp [Interval.isFull, Interval.full]
  have hE : (empty π).len π (_root_.id : K → K) = -1 :=
    (c51_len hπ (isValid_iff.mpr ⟨by change -π ≤ π; linarith, le_refl _, le_refl _, by change -π ≤ π; linarith,
      fun h => by change π = -π at h; linarith, fun _ => rfl⟩)).1 e1
  have hF : (full π).len π (_root_.id : K → K) = 2 * π := by
    have := (c51_len hπ (i := full π) (isValid_iff.mpr ⟨le_refl _, by change -π ≤ π; linarith, by change -π ≤ π; linarith, le_refl _,
      fun _ => rfl, fun h => by change π = -π at h; linarith⟩)).2 e2
    rw [this]
    unfold arcLen arcEnd full
    rw [if_neg (fun h => by linarith [h.1]), if_pos (by linarith)]
    ring
  unfold approxEqBy
  rw [e1, e2, e3, hE, hF]
  cases h : y.isEmpty π with
  | true =>
    rw [hl.1 h]
    have p1 : (-1 : K) < 2 * e := by linarith
    have p2 : ¬ (2 * π < 2 * e) := by linarith
    simp [p1, p2]
  | false =>
    rw [hl.2 h]
    have p : ∀ x : K, 2 * (π - e) ≤ x ↔ 2 * π - 2 * e ≤ x := fun x => by rw [mul_sub]
    by_cases hf : y.isFull π = true
    · have hyl : arcLen π y.lo y.hi = 2 * π := by
        have hlo : y.lo = -π := by simp [Interval.isFull] at hf; exact hf.1
        have hhi : y.hi = π := by simp [Interval.isFull] at hf; exact hf.2
        unfold arcLen arcEnd
        rw [if_neg (fun h => by linarith [h.1]), if_pos (by linarith)]
        linarith
      rw [hf, hyl]
      simp [p]
      try linarith
    · rw [Bool.not_eq_true] at hf
      simp [hf, p]

/-- **C112** (symmetry). For valid intervals the result does not depend on the order, and an interval is approximately equal to
itself. -/
theorem c112_symm (hπ : 0 < π) {fmod : K → K} (hf : IsTurnRem π fmod) {i y : Interval K} (hi : i.isValid π = true)
    (hy : y.isValid π = true) {e : K} (he : 0 ≤ e) (he2 : e < π) :
    i.approxEqBy π _root_.id fmod y e = y.approxEqBy π _root_.id fmod i e ∧ i.approxEqBy π _root_.id fmod i e = true := by
  have hE : ∀ {j : Interval K}, j.isEmpty π = true → j = empty π := by
    intro j h
    rw [isEmpty_iff] at h
    cases j
    exact congrArg₂ Interval.mk h.1 h.2
  have hF : ∀ {j : Interval K}, j.isFull π = true → j = full π := by
    intro j h
    simp only [Interval.isFull, Bool.and_eq_true, decide_eq_true_eq] at h
    cases j
    exact congrArg₂ Interval.mk h.1 h.2
  have key : ∀ {i y : Interval K}, i.isEmpty π = false → i.isFull π = false → y.isEmpty π = false → y.isFull π = false →
      i.isValid π = true → y.isValid π = true → (i.approxEqBy π _root_.id fmod y e = true ↔
      |y.lo - i.lo| ≤ e ∧ |y.hi - i.hi| ≤ e ∧ |i.len π _root_.id - y.len π _root_.id| ≤ 2 * e) := by
    intro i y hie hif hye hyf hi hy
    obtain ⟨a1, a2, a3, a4, a5, a6⟩ := proper hπ hi hie hif
    obtain ⟨b1, b2, b3, b4, b5, b6⟩ := proper hπ hy hye hyf
    have f1 := fmod_small hπ hf (x := y.lo - i.lo) (abs_lt.mpr ⟨by linarith, by linarith⟩)
    have f2 := fmod_small hπ hf (x := y.hi - i.hi) (abs_lt.mpr ⟨by linarith, by linarith⟩)
    unfold approxEqBy
    rw [hie, hif, hye, hyf]
    simp only [_root_.id, f1, f2]
    simp [and_assoc]
  constructor
  · by_cases hie : i.isEmpty π = true
    · rw [hE hie, Bool.eq_iff_iff, (c112_empty_full hπ fmod hy he he2).1, (c112_empty_full hπ fmod hy he he2).2.1]
    by_cases hye : y.isEmpty π = true
    · rw [hE hye, Bool.eq_iff_iff, (c112_empty_full hπ fmod hi he he2).1, (c112_empty_full hπ fmod hi he he2).2.1]
    by_cases hif : i.isFull π = true
    · rw [hF hif, Bool.eq_iff_iff, (c112_empty_full hπ fmod hy he he2).2.2.1, (c112_empty_full hπ fmod hy he he2).2.2.2]
    by_cases hyf : y.isFull π = true
    · rw [hF hyf, Bool.eq_iff_iff, (c112_empty_full hπ fmod hi he he2).2.2.1, (c112_empty_full hπ fmod hi he he2).2.2.2]
    rw [Bool.not_eq_true] at hie hye hif hyf
    rw [Bool.eq_iff_iff, key hie hif hye hyf hi hy, key hye hyf hie hif hy hi, abs_sub_comm y.lo, abs_sub_comm y.hi,
      abs_sub_comm (y.len π _root_.id)]
  · by_cases hie : i.isEmpty π = true
    · rw [hE hie] at hi ⊢
      exact (c112_empty_full hπ fmod hi he he2).1.mpr (Or.inl (by simp [Interval.isEmpty, Interval.empty]))
    by_cases hif : i.isFull π = true
    · have hl : arcLen π (-π) π = 2 * π := by
        unfold arcLen arcEnd
        rw [if_neg (fun h => by linarith [h.1]), if_pos (by linarith)]
        ring
      rw [Bool.not_eq_true] at hie
      rw [hF hif] at hi hie ⊢
      exact (c112_empty_full hπ fmod hi he he2).2.2.1.mpr ⟨hie, by change _ ≤ arcLen π (-π) π; rw [hl]; linarith⟩
    rw [Bool.not_eq_true] at hie hif
    rw [key hie hif hie hif hi hi]
    simp [he]

/-- **C112** (defect). Across the direction `π`, `approx_eq_by` fails: of the intervals from `π - t` and from `-π + t` to the same
end, one becomes the other by moving an end by `2t`, and yet they are not approximately equal for any error from `2t` to a
half turn. (With the remainder of IEEE 754, as in the original library, they are.) -/
theorem c112_circle_defect (hπ : 0 < π) {fmod : K → K} (hf : IsTurnRem π fmod) {t h e : K} (ht : 0 < t) (hte : 2 * t ≤ e) (he : e < π)
    (h1 : -π + t ≤ h) (h2 : h < π - t) :
    (⟨π - t, h⟩ : Interval K).isValid π = true ∧ (⟨-π + t, h⟩ : Interval K).isValid π = true ∧
    Movable π e (π - t) h (-π + t) h ∧ (⟨π - t, h⟩ : Interval K).approxEqBy π _root_.id fmod ⟨-π + t, h⟩ e = false := by
  refine ⟨?_, ?_, ?_, ?_⟩
  · exact isValid_iff.mpr ⟨by change -π ≤ π - t; linarith, by change π - t ≤ π; linarith, by change -π ≤ h; linarith,
      by change h ≤ π; linarith, fun h' => by change π - t = -π at h'; linarith, fun h' => by change h = -π at h'; linarith⟩
  · exact isValid_iff.mpr ⟨by change -π ≤ -π + t; linarith, by change -π + t ≤ π; linarith, by change -π ≤ h; linarith,
      by change h ≤ π; linarith, fun h' => by change -π + t = -π at h'; linarith, fun h' => by change h = -π at h'; linarith⟩
  · refine ⟨2 * t, 0, by rw [abs_of_pos (by linarith)]; exact hte, by rw [abs_zero]; linarith, ⟨-1, by push_cast; ring⟩,
      ⟨0, by push_cast; ring⟩, ?_⟩
    unfold arcLen arcEnd
    have c1 : ¬ (-π + t = π ∧ h = -π) := by
      rintro ⟨h3, -⟩
      linarith
    have c2 : ¬ (π - t = π ∧ h = -π) := by
      rintro ⟨h3, -⟩
      linarith
    have c3 : ¬ (π - t ≤ h) := by linarith
    rw [if_neg c1, if_neg c2, if_pos h1, if_neg c3]
    ring
  · have f1 := fmod_small hπ hf (x := -π + t - (π - t)) (abs_lt.mpr ⟨by linarith, by linarith⟩)
    have hd : ¬ |(-π + t - (π - t))| ≤ e := by
      rw [abs_le]
      rintro ⟨h3, -⟩
      linarith
    have g1 : (⟨π - t, h⟩ : Interval K).isEmpty π = false := by
      rw [← Bool.not_eq_true, isEmpty_iff]
      rintro ⟨h3, -⟩
      change π - t = π at h3
      linarith
    have g2 : (⟨-π + t, h⟩ : Interval K).isEmpty π = false := by
      rw [← Bool.not_eq_true, isEmpty_iff]
      rintro ⟨h3, -⟩
      change -π + t = π at h3
      linarith
    have g3 : (⟨π - t, h⟩ : Interval K).isFull π = false := by
      rw [Interval.isFull, Bool.and_eq_false_iff, decide_eq_false_iff_not]
      left
      intro h3
      linarith
    have g4 : (⟨-π + t, h⟩ : Interval K).isFull π = false := by
      rw [Interval.isFull, Bool.and_eq_false_iff, decide_eq_false_iff_not]
      left
      intro h3
      linarith
    unfold approxEqBy
    rw [g1, g2, g3, g4]
    simp only [_root_.id, f1]
    simp [hd]

/-- A truncating remainder by 360 of the rationals. -/
theorem exists_fmod : ∃ fmod : ℚ → ℚ, IsTurnRem 180 fmod := by
  refine ⟨fun x => if 0 ≤ x then x - 360 * (⌊x / 360⌋ : ℤ) else x + 360 * (⌊-x / 360⌋ : ℤ), fun x => ?_⟩
  by_cases h : 0 ≤ x
  · simp only [if_pos h]
    have h1 := Int.floor_le (x / 360)
    have h2 := Int.lt_floor_add_one (x / 360)
    have h3 : 0 ≤ x - 360 * (⌊x / 360⌋ : ℤ) := by linarith
    refine ⟨⟨⌊x / 360⌋, by ring⟩, ?_, fun _ => h3, fun hx => ?_⟩
    · rw [abs_of_nonneg h3]
      linarith
    · have : x = 0 := le_antisymm hx h
      subst this
      simp
  · simp only [if_neg h]
    have h1 := Int.floor_le (-x / 360)
    have h2 := Int.lt_floor_add_one (-x / 360)
    have h3 : x + 360 * (⌊-x / 360⌋ : ℤ) ≤ 0 := by linarith
    refine ⟨⟨-⌊-x / 360⌋, by push_cast; ring⟩, ?_, fun hx => absurd hx h, fun _ => h3⟩
    rw [abs_of_nonpos h3]
    linarith

/-- Non-vacuity: intervals in degrees that are approximately equal, and two that are not because of the defect. -/
example : ∃ fmod : ℚ → ℚ, IsTurnRem 180 fmod ∧
    (⟨100, -100⟩ : Interval ℚ).approxEqBy 180 _root_.id fmod ⟨101, -102⟩ 2 = true ∧
    (⟨179, 10⟩ : Interval ℚ).approxEqBy 180 _root_.id fmod ⟨-179, 10⟩ 3 = false := by
  obtain ⟨fmod, hf⟩ := exists_fmod
  refine ⟨fmod, hf, ?_, ?_⟩
  · refine (c112_circle (by norm_num) hf (by decide +kernel) (by decide +kernel) (by decide +kernel) (by decide +kernel)
      (by decide +kernel) (by decide +kernel) (by norm_num)).mpr ⟨⟨1, -2, ?_⟩, by norm_num, by norm_num⟩
    refine ⟨by norm_num, by norm_num, ⟨0, by norm_num⟩, ⟨0, by norm_num⟩, ?_⟩
    unfold arcLen arcEnd
    norm_num
  · have := (c112_circle_defect (π := (180 : ℚ)) (t := 1) (h := 10) (e := 3) (by norm_num) hf (by norm_num) (by norm_num)
      (by norm_num) (by norm_num) (by norm_num)).2.2.2
    norm_num at this
    exact this

end S1

namespace R1
variable {K : Type} [Field K] [LinearOrder K] [IsStrictOrderedRing K]

/-- **C112** (intervals of the line). Two non-empty intervals are approximately equal exactly if every point of either is at most
the error away from a point of the other. -/
theorem c112_line {i y : Interval K} (hi : i.lo ≤ i.hi) (hy : y.lo ≤ y.hi) {e : K} :
    i.approxEqBy _root_.id y e = true ↔
      (∀ p, i.lo ≤ p → p ≤ i.hi → ∃ q, y.lo ≤ q ∧ q ≤ y.hi ∧ |p - q| ≤ e) ∧
      (∀ q, y.lo ≤ q → q ≤ y.hi → ∃ p, i.lo ≤ p ∧ p ≤ i.hi ∧ |p - q| ≤ e) := by
  have h : i.approxEqBy _root_.id y e = true ↔ |i.lo - y.lo| ≤ e ∧ |i.hi - y.hi| ≤ e := by
    unfold Interval.approxEqBy Interval.isEmpty
    simp [not_lt.mpr hi, not_lt.mpr hy]
  rw [h]
  constructor
  · rintro ⟨h1, h2⟩
    rw [abs_le] at h1 h2
    constructor
    · intro p p1 p2
      refine ⟨max y.lo (min y.hi p), le_max_left _ _, max_le hy (min_le_left _ _), ?_⟩
      rw [abs_le]
      rcases le_total y.hi p with a | a
      · rw [min_eq_left a, max_eq_right hy]
        constructor <;> linarith
      · rw [min_eq_right a]
        rcases le_total y.lo p with b | b
        · rw [max_eq_right b]
          constructor <;> linarith
        · rw [max_eq_left b]
          constructor <;> linarith
    · intro p p1 p2
      refine ⟨max i.lo (min i.hi p), le_max_left _ _, max_le hi (min_le_left _ _), ?_⟩
      rw [abs_le]
      rcases le_total i.hi p with a | a
      · rw [min_eq_left a, max_eq_right hi]
        constructor <;> linarith
      · rw [min_eq_right a]
        rcases le_total i.lo p with b | b
        · rw [max_eq_right b]
          constructor <;> linarith
        · rw [max_eq_left b]
          constructor <;> linarith
  · rintro ⟨h1, h2⟩
    obtain ⟨q1, a1, a2, a3⟩ := h1 i.lo (le_refl _) hi
    obtain ⟨q2, b1, b2, b3⟩ := h1 i.hi hi (le_refl _)
    obtain ⟨p1, c1, c2, c3⟩ := h2 y.lo (le_refl _) hy
    obtain ⟨p2, d1, d2, d3⟩ := h2 y.hi hy (le_refl _)
    rw [abs_le] at a3 b3 c3 d3
    rw [abs_le, abs_le]
    refine ⟨⟨?_, ?_⟩, ?_, ?_⟩ <;> linarith

/-- Non-vacuity. -/
example : (⟨1, 3⟩ : Interval ℚ).approxEqBy _root_.id ⟨2, 3⟩ 1 = true ∧ (⟨1, 3⟩ : Interval ℚ).approxEqBy _root_.id ⟨2, 5⟩ 1 = false := by
  refine ⟨by decide +kernel, by decide +kernel⟩

end R1

namespace R2
variable {K : Type} [Field K] [LinearOrder K] [IsStrictOrderedRing K]

/-- **C112** (rectangles of the plane). Two non-empty rectangles are approximately equal exactly if every point of either is at
most the error away, in each coordinate, from a point of the other. -/
theorem c112_plane {r s : Rect K} (h1 : r.x.lo ≤ r.x.hi) (h2 : r.y.lo ≤ r.y.hi) (h3 : s.x.lo ≤ s.x.hi) (h4 : s.y.lo ≤ s.y.hi) {e : K} :
    r.approxEqBy _root_.id s e = true ↔
      (∀ p, r.containsPoint p = true → ∃ q, s.containsPoint q = true ∧ |p.x - q.x| ≤ e ∧ |p.y - q.y| ≤ e) ∧
      (∀ q, s.containsPoint q = true → ∃ p, r.containsPoint p = true ∧ |p.x - q.x| ≤ e ∧ |p.y - q.y| ≤ e) := by
  have hc : ∀ (t : Rect K) (p : Point K), t.containsPoint p = true ↔ (t.x.lo ≤ p.x ∧ p.x ≤ t.x.hi) ∧ t.y.lo ≤ p.y ∧ p.y ≤ t.y.hi := by
    intro t p
    simp [Rect.containsPoint, R1.Interval.contains]
  unfold Rect.approxEqBy
  rw [Bool.and_eq_true, R1.c112_line h1 h3, R1.c112_line h2 h4]
  simp only [hc]
  constructor
  · rintro ⟨⟨a1, a2⟩, b1, b2⟩
    constructor
    · rintro p ⟨⟨p1, p2⟩, p3, p4⟩
      obtain ⟨u, u1, u2, u3⟩ := a1 p.x p1 p2
      obtain ⟨v, v1, v2, v3⟩ := b1 p.y p3 p4
      exact ⟨⟨u, v⟩, ⟨⟨u1, u2⟩, v1, v2⟩, u3, v3⟩
    · rintro p ⟨⟨p1, p2⟩, p3, p4⟩
      obtain ⟨u, u1, u2, u3⟩ := a2 p.x p1 p2
      obtain ⟨v, v1, v2, v3⟩ := b2 p.y p3 p4
      exact ⟨⟨u, v⟩, ⟨⟨u1, u2⟩, v1, v2⟩, u3, v3⟩
  · rintro ⟨a, b⟩
    refine ⟨⟨fun p p1 p2 => ?_, fun p p1 p2 => ?_⟩, fun p p1 p2 => ?_, fun p p1 p2 => ?_⟩
    · obtain ⟨q, ⟨⟨q1, q2⟩, -⟩, q3, -⟩ := a ⟨p, r.y.lo⟩ ⟨⟨p1, p2⟩, le_refl _, h2⟩
      exact ⟨q.x, q1, q2, q3⟩
    · obtain ⟨q, ⟨⟨q1, q2⟩, -⟩, q3, -⟩ := b ⟨p, s.y.lo⟩ ⟨⟨p1, p2⟩, le_refl _, h4⟩
      exact ⟨q.x, q1, q2, q3⟩
    · obtain ⟨q, ⟨-, q1, q2⟩, -, q3⟩ := a ⟨r.x.lo, p⟩ ⟨⟨le_refl _, h1⟩, p1, p2⟩
      exact ⟨q.y, q1, q2, q3⟩
    · obtain ⟨q, ⟨-, q1, q2⟩, -, q3⟩ := b ⟨s.x.lo, p⟩ ⟨⟨le_refl _, h3⟩, p1, p2⟩
      exact ⟨q.y, q1, q2, q3⟩

/-- Non-vacuity. -/
example : (⟨⟨1, 3⟩, ⟨0, 1⟩⟩ : Rect ℚ).approxEqBy _root_.id ⟨⟨2, 3⟩, ⟨0, 2⟩⟩ 1 = true := by decide +kernel

end R2

namespace S2
open Spec
variable {K : Type} [Field K] [LinearOrder K] [IsStrictOrderedRing K] {π : K}

/-- **C112** (rectangles of the sphere). Two valid non-empty rectangles, neither of all longitudes, are approximately equal
exactly if the ends of the latitudes differ by at most the first error, and the ends of the longitudes can be moved by at most
the second error without crossing one another or the antimeridian. -/
theorem c112_rect (hπ : 0 < π) {fmod : K → K} (hf : IsTurnRem π fmod) {r s : Rect K} (hr : r.isValid π = true) (hs : s.isValid π = true)
    (hre : r.isEmpty = false) (hse : s.isEmpty = false) (hrf : r.lng.isFull π = false) (hsf : s.lng.isFull π = false) {e : LatLng K}
    (he : e.lng < π / 2) :
    r.approxEqBy π _root_.id fmod s e = true ↔
      (|r.lat.lo - s.lat.lo| ≤ e.lat ∧ |r.lat.hi - s.lat.hi| ≤ e.lat) ∧
      Movable π e.lng r.lng.lo r.lng.hi s.lng.lo s.lng.hi ∧ |s.lng.lo - r.lng.lo| ≤ π ∧ |s.lng.hi - r.lng.hi| ≤ π := by
  have aux : ∀ {t : Rect K}, t.isValid π = true → t.isEmpty = false →
      t.lat.isEmpty = false ∧ t.lng.isValid π = true ∧ t.lng.isEmpty π = false := by
    intro t h1 h2
    unfold Rect.isEmpty at h2
    unfold Rect.isValid at h1
    rw [h2, Bool.and_eq_true, Bool.and_eq_true] at h1
    refine ⟨h2, h1.1.2, ?_⟩
    have := h1.2
    cases h : t.lng.isEmpty π with
    | false => rfl
    | true =>
      rw [h] at this
      cases this
  obtain ⟨r1, r2, r3⟩ := aux hr hre
  obtain ⟨s1, s2, s3⟩ := aux hs hse
  unfold Rect.approxEqBy
  rw [Bool.and_eq_true, S1.c112_circle hπ hf r2 s2 r3 hrf s3 hsf he]
  refine and_congr_left fun _ => ?_
  unfold R1.Interval.approxEqBy
  rw [r1, s1]
  simp

/-- **C112** (defect). Two rectangles on both sides of the antimeridian whose western sides are a distance `2t` apart and that
agree otherwise are not approximately equal, whatever the tolerance below a half turn. -/
theorem c112_rect_defect (hπ : 0 < π) {fmod : K → K} (hf : IsTurnRem π fmod) {t h e : K} (ht : 0 < t) (hte : 2 * t ≤ e) (he : e < π)
    (h1 : -π + t ≤ h) (h2 : h < π - t) (lat : R1.Interval K) :
    (⟨lat, ⟨π - t, h⟩⟩ : Rect K).approxEqBy π _root_.id fmod ⟨lat, ⟨-π + t, h⟩⟩ ⟨e, e⟩ = false := by
  unfold Rect.approxEqBy
  rw [(S1.c112_circle_defect hπ hf ht hte he h1 h2).2.2.2, Bool.and_false]

end S2

end Verif
