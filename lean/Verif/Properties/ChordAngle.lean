import Verif.Model.ChordAngle
import Verif.Properties.Stuv
import Verif.Proofs.Near
import Mathlib.Analysis.SpecialFunctions.Trigonometric.Inverse

/-!
# Chord angles: C63
-/

namespace Verif
open Spec

variable {K : Type} [Field K] [LinearOrder K] [IsStrictOrderedRing K]

/-! ## Laws that hold exactly with rounding -/

theorem sqrt_zero' {sqrt : K → K} (hs : IsSqrt sqrt) : sqrt 0 = 0 := by
  have := (hs 0 le_rfl).2
  exact mul_self_eq_zero.1 this

theorem sqrt_mono {sqrt : K → K} (hs : IsSqrt sqrt) {x y : K} (hx : 0 ≤ x) (h : x ≤ y) : sqrt x ≤ sqrt y := by
  obtain ⟨a1, a2⟩ := hs x hx
  obtain ⟨b1, b2⟩ := hs y (hx.trans h)
  by_contra hc
  rw [not_le] at hc
  nlinarith

theorem chord_nonneg {fl : K → K} (hm : Monotone fl) (h0 : fl 0 = 0) (h1 : fl 1 = 1) {a b : K} (ha : 0 ≤ a) (hb : b ≤ 4) :
    0 ≤ ChordAngle.chord fl a b := by
  have q : fl (1 / 4 * b) ≤ 1 := by
    have := hm (show 1 / 4 * b ≤ 1 by linarith)
    rwa [h1] at this
  have c : 0 ≤ fl (1 - fl (1 / 4 * b)) := by
    have := hm (show 0 ≤ 1 - fl (1 / 4 * b) by linarith)
    rwa [h0] at this
  have := hm (mul_nonneg ha c)
  rwa [h0] at this

/-- **C63.** The sum of two chord angles is a chord angle. -/
theorem c63_add_range {fl sqrt : K → K} (hm : Monotone fl) (h0 : fl 0 = 0) (h1 : fl 1 = 1) (hs : IsSqrt sqrt) {a b : K}
    (ha : 0 ≤ a) (ha4 : a ≤ 4) (hb : 0 ≤ b) (hb4 : b ≤ 4) :
    0 ≤ ChordAngle.add fl sqrt a b ∧ ChordAngle.add fl sqrt a b ≤ 4 := by
  have pos : ∀ x, 0 ≤ x → 0 ≤ fl x := fun x hx => by have := hm hx; rwa [h0] at this
  unfold ChordAngle.add
  split_ifs
  · exact ⟨ha, ha4⟩
  · exact ⟨by unfold ChordAngle.straight; norm_num, le_rfl⟩
  · dsimp only
    have x := chord_nonneg hm h0 h1 ha hb4
    have y := chord_nonneg hm h0 h1 hb ha4
    have s := (hs _ (pos _ (mul_nonneg x y))).1
    exact ⟨le_min (by norm_num) (pos _ (add_nonneg (pos _ (add_nonneg x y)) (pos _ (mul_nonneg (by norm_num) (pos _ s))))), min_le_left _ _⟩

/-- **C63.** The sum does not depend on the order of the operands. -/
theorem c63_add_comm {fl sqrt : K → K} (h0 : fl 0 = 0) (h1 : fl 1 = 1) (hs : IsSqrt sqrt) {a b : K}
    (ha4 : a ≤ 4) (hfa : fl a = a) (hb4 : b ≤ 4) (hfb : fl b = b) :
    ChordAngle.add fl sqrt a b = ChordAngle.add fl sqrt b a := by
  have key : ∀ c, c ≤ 4 → fl c = c → ChordAngle.add fl sqrt 0 c = c := by
    intro c hc hf
    unfold ChordAngle.add ChordAngle.chord
    split_ifs with e1 e2
    · exact e1.symm
    · rw [zero_add, hf] at e2
      exact le_antisymm (show (4 : K) ≤ c from e2) hc
    · simp only [zero_mul, mul_zero, h0, sub_zero, h1, mul_one, hf, zero_add, sqrt_zero' hs, add_zero]
      exact min_eq_right hc
  by_cases ea : a = 0
  · subst ea
    rw [key b hb4 hfb]
    unfold ChordAngle.add
    rw [if_pos rfl]
  by_cases eb : b = 0
  · subst eb
    rw [key a ha4 hfa]
    unfold ChordAngle.add
    rw [if_pos rfl]
  unfold ChordAngle.add
  rw [if_neg ea, if_neg eb]
  dsimp only
  rw [add_comm b a, add_comm (ChordAngle.chord fl b a), mul_comm (ChordAngle.chord fl b a)]

/-- **C63.** Zero is neutral, and nothing is added to a straight angle. -/
theorem c63_add_units {fl sqrt : K → K} (h0 : fl 0 = 0) (h1 : fl 1 = 1) (hs : IsSqrt sqrt) {a : K} (ha4 : a ≤ 4) (hfa : fl a = a) :
    ChordAngle.add fl sqrt a 0 = a ∧ ChordAngle.add fl sqrt 0 a = a ∧
    (Monotone fl → fl 4 = 4 → 0 ≤ a → ChordAngle.add fl sqrt a 4 = 4 ∧ ChordAngle.add fl sqrt 4 a = 4) := by
  have e : ChordAngle.add fl sqrt a 0 = a := if_pos rfl
  refine ⟨e, ?_, fun hm h4 ha => ?_⟩
  · rw [c63_add_comm h0 h1 hs (by norm_num) h0 ha4 hfa, e]
  · have s1 : ChordAngle.add fl sqrt a 4 = 4 := by
      unfold ChordAngle.add
      have : fl (a + 4) ≥ 4 := by
        have := hm (show 4 ≤ a + 4 by linarith)
        rwa [h4] at this
      rw [if_neg (by norm_num), if_pos this]
      rfl
    exact ⟨s1, by rw [c63_add_comm h0 h1 hs le_rfl h4 ha4 hfa, s1]⟩

/-- **C63.** The difference is non-negative; it is zero exactly when the documented test says so; and taking away zero changes nothing. -/
theorem c63_sub_laws {fl sqrt : K → K} {a b : K} (ha : 0 ≤ a) :
    0 ≤ ChordAngle.sub fl sqrt a b ∧ (a ≤ b → ChordAngle.sub fl sqrt a b = 0) ∧ ChordAngle.sub fl sqrt a 0 = a := by
  unfold ChordAngle.sub
  refine ⟨?_, fun h => ?_, if_pos rfl⟩
  · split_ifs
    · exact ha
    · exact le_rfl
    · exact le_max_left _ _
  · by_cases hb : b = 0
    · rw [if_pos hb]
      linarith
    · rw [if_neg hb, if_pos h]

/-- **C63.** `from_squared_length` clamps, and nothing else. -/
theorem c63_fromSquaredLength (l : K) : ChordAngle.fromSquaredLength l = min l 4 := by
  unfold ChordAngle.fromSquaredLength ChordAngle.straight
  split_ifs with h
  · rw [min_eq_right (le_of_lt h)]
  · rw [min_eq_left (not_lt.1 h)]

/-- **C63.** The special values are the negative ones and the infinity; a chord angle is valid if it is special or at most 4. -/
theorem c63_special (c : WithTop K) :
    (ChordAngle.isSpecial c = true ↔ c < 0 ∨ c = ⊤) ∧ (ChordAngle.isValid c = true ↔ c = ⊤ ∨ c ≤ ((4 : K) : WithTop K)) := by
  unfold ChordAngle.isValid ChordAngle.isSpecial
  refine ⟨by simp, ?_⟩
  simp only [Bool.or_eq_true, decide_eq_true_eq]
  constructor
  · rintro (⟨_, h⟩ | h | h)
    · exact Or.inr h
    · exact Or.inr (h.le.trans (WithTop.coe_le_coe.2 (by norm_num : (0 : K) ≤ 4)))
    · exact Or.inl h
  · rintro (h | h)
    · exact Or.inr (Or.inr h)
    · rcases lt_or_ge c 0 with h0 | h0
      · exact Or.inr (Or.inl h0)
      · exact Or.inl ⟨h0, h⟩

/-- **C63.** `expanded` keeps the special values, and otherwise clamps the rounded sum to the valid range. -/
theorem c63_expanded (fl : K → K) (c : WithTop K) (e : K) :
    (ChordAngle.isSpecial c = true → ChordAngle.expanded fl c e = c) ∧
    (∀ x : K, 0 ≤ x → ChordAngle.expanded fl (x : WithTop K) e = ((max 0 (min 4 (fl (x + e))) : K) : WithTop K)) ∧
    (∀ x : K, 0 ≤ x → ∃ y : K, ChordAngle.expanded fl (x : WithTop K) e = (y : WithTop K) ∧ 0 ≤ y ∧ y ≤ 4) := by
  have h2 : ∀ x : K, 0 ≤ x → ChordAngle.expanded fl (x : WithTop K) e = ((max 0 (min 4 (fl (x + e))) : K) : WithTop K) := by
    intro x hx
    unfold ChordAngle.expanded
    have : ChordAngle.isSpecial (x : WithTop K) = false := by
      unfold ChordAngle.isSpecial
      rw [decide_eq_false_iff_not, not_or, not_lt]
      exact ⟨WithTop.coe_le_coe.2 hx, WithTop.coe_ne_top⟩
    rw [this]
    rfl
  refine ⟨fun h => by unfold ChordAngle.expanded; rw [if_pos h], h2, fun x hx => ⟨_, h2 x hx, le_max_left _ _, max_le (by norm_num) (min_le_left _ _)⟩⟩

/-! ## Conversions -/

/-- **C63.** The conversion from an angle keeps the order, the infinity and the sign, and maps negative angles to `NEGATIVE`. -/
theorem c63_fromAngle {fl sin : K → K} (hm : Monotone fl) (h0 : fl 0 = 0) {pi : K} (hpi : 0 ≤ pi)
    (hsin : MonotoneOn sin (Set.Icc 0 (fl (1 / 2 * pi)))) (hsin0 : 0 ≤ sin 0) :
    Monotone (ChordAngle.fromAngle fl sin pi) ∧ ChordAngle.fromAngle fl sin pi ⊤ = ⊤ ∧
    (∀ a, a < 0 → ChordAngle.fromAngle fl sin pi a = ((-1 : K) : WithTop K)) ∧
    (∀ a : WithTop K, 0 ≤ a → 0 ≤ ChordAngle.fromAngle fl sin pi a) := by
  have pos : ∀ x, 0 ≤ x → 0 ≤ fl x := fun x hx => by have := hm hx; rwa [h0] at this
  have arg : ∀ a, 0 ≤ a → fl (1 / 2 * min a pi) ∈ Set.Icc 0 (fl (1 / 2 * pi)) := by
    intro a ha
    refine ⟨pos _ (mul_nonneg (by norm_num) (le_min ha hpi)), hm ?_⟩
    have := min_le_right a pi
    linarith
  have l0 : ∀ a, 0 ≤ a → 0 ≤ fl (2 * fl (sin (fl (1 / 2 * min a pi)))) := by
    intro a ha
    have h1 : sin 0 ≤ sin (fl (1 / 2 * min a pi)) := hsin ⟨le_rfl, (arg a ha).1.trans (arg a ha).2⟩ (arg a ha) (arg a ha).1
    exact pos _ (mul_nonneg (by norm_num) (pos _ (hsin0.trans h1)))
  have r0 : ∀ a, 0 ≤ a → 0 ≤ ChordAngle.ofRad fl sin pi a := fun a ha => pos _ (mul_nonneg (l0 a ha) (l0 a ha))
  have mono : ∀ a b, 0 ≤ a → a ≤ b → ChordAngle.ofRad fl sin pi a ≤ ChordAngle.ofRad fl sin pi b := by
    intro a b ha hab
    have hb := ha.trans hab
    have h1 : fl (1 / 2 * min a pi) ≤ fl (1 / 2 * min b pi) := by
      apply hm
      have := min_le_min_right pi hab
      linarith
    have h2 := hsin (arg a ha) (arg b hb) h1
    have h3 : fl (2 * fl (sin (fl (1 / 2 * min a pi)))) ≤ fl (2 * fl (sin (fl (1 / 2 * min b pi)))) := by
      apply hm
      have := hm h2
      linarith
    exact hm (mul_le_mul h3 h3 (l0 a ha) (l0 b hb))
  have neg : ∀ a, a < 0 → ChordAngle.fromAngle fl sin pi a = ((-1 : K) : WithTop K) := fun a ha => if_pos ha
  have top : ChordAngle.fromAngle fl sin pi ⊤ = ⊤ := by
    unfold ChordAngle.fromAngle
    rw [if_neg (by simp)]
  have fin : ∀ a : K, 0 ≤ a → ChordAngle.fromAngle fl sin pi (a : WithTop K) = ((ChordAngle.ofRad fl sin pi a : K) : WithTop K) := by
    intro a ha
    unfold ChordAngle.fromAngle
    have : ¬ ((a : WithTop K) < 0) := not_lt.2 (WithTop.coe_le_coe.2 ha)
    rw [if_neg this]
  have nn : ∀ a : WithTop K, 0 ≤ a → 0 ≤ ChordAngle.fromAngle fl sin pi a := by
    intro a ha
    cases a with
    | top => rw [top]; exact le_top
    | coe a =>
      have ha' : 0 ≤ a := WithTop.coe_le_coe.1 ha
      rw [fin a ha']
      exact WithTop.coe_le_coe.2 (r0 a ha')
  refine ⟨fun a b hab => ?_, top, neg, nn⟩
  rcases lt_or_ge a 0 with ha | ha
  · rw [neg a ha]
    rcases lt_or_ge b 0 with hb | hb
    · rw [neg b hb]
    · exact le_trans (WithTop.coe_le_coe.2 (by norm_num)) (nn b hb)
  · cases b with
    | top => rw [top]; exact le_top
    | coe b =>
      cases a with
      | top => exact absurd hab (by simp)
      | coe a =>
        have ha' : 0 ≤ a := WithTop.coe_le_coe.1 ha
        have hab' : a ≤ b := WithTop.coe_le_coe.1 hab
        rw [fin a ha', fin b (ha'.trans hab')]
        exact WithTop.coe_le_coe.2 (mono a b ha' hab')

/-- **C63.** The conversion to an angle keeps the order of the chord angles up to 4, the infinity and the sign. -/
theorem c63_toAngle {fl sqrt asin : K → K} (hm : Monotone fl) (h0 : fl 0 = 0) (hs : IsSqrt sqrt)
    (hasin : MonotoneOn asin (Set.Icc 0 (fl (1 / 2 * fl (sqrt 4))))) (hasin0 : 0 ≤ asin 0) :
    (∀ a b : WithTop K, a ≤ b → (b ≤ ((4 : K) : WithTop K) ∨ b = ⊤) → ChordAngle.toAngle fl sqrt asin a ≤ ChordAngle.toAngle fl sqrt asin b) ∧
    ChordAngle.toAngle fl sqrt asin ⊤ = ⊤ ∧
    (∀ a, a < 0 → ChordAngle.toAngle fl sqrt asin a = ((-1 : K) : WithTop K)) ∧
    (∀ a : WithTop K, 0 ≤ a → (a ≤ ((4 : K) : WithTop K) ∨ a = ⊤) → 0 ≤ ChordAngle.toAngle fl sqrt asin a) := by
  have pos : ∀ x, 0 ≤ x → 0 ≤ fl x := fun x hx => by have := hm hx; rwa [h0] at this
  have argm : ∀ a b, 0 ≤ a → a ≤ b → fl (1 / 2 * fl (sqrt a)) ≤ fl (1 / 2 * fl (sqrt b)) := by
    intro a b ha hab
    apply hm
    have := hm (sqrt_mono hs ha hab)
    linarith
  have arg : ∀ a, 0 ≤ a → a ≤ 4 → fl (1 / 2 * fl (sqrt a)) ∈ Set.Icc 0 (fl (1 / 2 * fl (sqrt 4))) :=
    fun a ha h4 => ⟨pos _ (mul_nonneg (by norm_num) (pos _ (hs a ha).1)), argm a 4 ha h4⟩
  have s0 : ∀ a, 0 ≤ a → a ≤ 4 → 0 ≤ asin (fl (1 / 2 * fl (sqrt a))) := fun a ha h4 =>
    hasin0.trans (hasin ⟨le_rfl, (arg a ha h4).1.trans (arg a ha h4).2⟩ (arg a ha h4) (arg a ha h4).1)
  have r0 : ∀ a, 0 ≤ a → a ≤ 4 → 0 ≤ ChordAngle.toRad fl sqrt asin a := fun a ha h4 =>
    pos _ (mul_nonneg (by norm_num) (pos _ (s0 a ha h4)))
  have mono : ∀ a b, 0 ≤ a → a ≤ b → b ≤ 4 → ChordAngle.toRad fl sqrt asin a ≤ ChordAngle.toRad fl sqrt asin b := by
    intro a b ha hab h4
    apply hm
    have := hm (hasin (arg a ha (hab.trans h4)) (arg b (ha.trans hab) h4) (argm a b ha hab))
    linarith
  have neg : ∀ a, a < 0 → ChordAngle.toAngle fl sqrt asin a = ((-1 : K) : WithTop K) := fun a ha => if_pos ha
  have top : ChordAngle.toAngle fl sqrt asin ⊤ = ⊤ := by
    unfold ChordAngle.toAngle
    rw [if_neg (by simp)]
  have fin : ∀ a : K, 0 ≤ a → ChordAngle.toAngle fl sqrt asin (a : WithTop K) = ((ChordAngle.toRad fl sqrt asin a : K) : WithTop K) := by
    intro a ha
    unfold ChordAngle.toAngle
    have : ¬ ((a : WithTop K) < 0) := not_lt.2 (WithTop.coe_le_coe.2 ha)
    rw [if_neg this]
  have nn : ∀ a : WithTop K, 0 ≤ a → (a ≤ ((4 : K) : WithTop K) ∨ a = ⊤) → 0 ≤ ChordAngle.toAngle fl sqrt asin a := by
    intro a ha h4
    cases a with
    | top => rw [top]; exact le_top
    | coe a =>
      have ha' : 0 ≤ a := WithTop.coe_le_coe.1 ha
      have h4' : a ≤ 4 := WithTop.coe_le_coe.1 (h4.resolve_right WithTop.coe_ne_top)
      rw [fin a ha']
      exact WithTop.coe_le_coe.2 (r0 a ha' h4')
  refine ⟨fun a b hab h4 => ?_, top, neg, nn⟩
  rcases lt_or_ge a 0 with ha | ha
  · rw [neg a ha]
    rcases lt_or_ge b 0 with hb | hb
    · rw [neg b hb]
    · exact le_trans (WithTop.coe_le_coe.2 (by norm_num)) (nn b hb h4)
  · cases b with
    | top => rw [top]; exact le_top
    | coe b =>
      cases a with
      | top => exact absurd hab (by simp)
      | coe a =>
        have ha' : 0 ≤ a := WithTop.coe_le_coe.1 ha
        have hab' : a ≤ b := WithTop.coe_le_coe.1 hab
        have h4' : b ≤ 4 := WithTop.coe_le_coe.1 (h4.resolve_right WithTop.coe_ne_top)
        rw [fin a ha', fin b (ha'.trans hab')]
        exact WithTop.coe_le_coe.2 (mono a b ha' hab' h4')

/-! ## Meaning, in exact arithmetic -/

namespace Spec

/-- The squared length of the chord of an angle of the unit circle. -/
noncomputable def chordOf (α : ℝ) : ℝ := (2 * Real.sin (α / 2)) ^ 2

end Spec

theorem half_mem {α : ℝ} (h0 : 0 ≤ α) (h1 : α ≤ Real.pi) : 0 ≤ Real.sin (α / 2) ∧ 0 ≤ Real.cos (α / 2) :=
  ⟨Real.sin_nonneg_of_nonneg_of_le_pi (by linarith) (by linarith), Real.cos_nonneg_of_mem_Icc ⟨by linarith, by linarith⟩⟩

theorem sin_half_lt {α β : ℝ} (h0 : 0 ≤ α) (h1 : β ≤ Real.pi) (h : α < β) : Real.sin (α / 2) < Real.sin (β / 2) :=
  Real.strictMonoOn_sin ⟨by linarith [Real.pi_pos], by linarith⟩ ⟨by linarith [Real.pi_pos], by linarith⟩ (by linarith)

/-- The chord is strictly increasing from 0 to π, so chord angles order angles. -/
theorem chordOf_lt {α β : ℝ} (h0 : 0 ≤ α) (h1 : β ≤ Real.pi) (h : α < β) : chordOf α < chordOf β := by
  have h2 := sin_half_lt h0 h1 h
  have h3 := (half_mem h0 (by linarith)).1
  unfold chordOf
  nlinarith

theorem chordOf_zero : chordOf 0 = 0 := by simp [chordOf]

theorem chordOf_pi : chordOf Real.pi = 4 := by simp [chordOf]; norm_num

theorem chordOf_range {α : ℝ} : 0 ≤ chordOf α ∧ chordOf α ≤ 4 := by
  unfold chordOf
  have := Real.sin_sq_add_cos_sq (α / 2)
  constructor
  · positivity
  · nlinarith [sq_nonneg (Real.cos (α / 2))]

theorem chordOf_mono {α β : ℝ} (h0 : 0 ≤ α) (h1 : β ≤ Real.pi) (h : α ≤ β) : chordOf α ≤ chordOf β := by
  rcases h.lt_or_eq with h | h
  · exact (chordOf_lt h0 h1 h).le
  · rw [h]

theorem chordOf_le {α β : ℝ} (h0 : 0 ≤ α) (ha : α ≤ Real.pi) (hb : 0 ≤ β) (h1 : β ≤ Real.pi) : chordOf α ≤ chordOf β ↔ α ≤ β :=
  ⟨fun h => by by_contra hc; rw [not_le] at hc; exact absurd h (not_le.2 (chordOf_lt hb ha hc)), chordOf_mono h0 h1⟩

theorem chord_exact (α β : ℝ) :
    ChordAngle.chord _root_.id (chordOf α) (chordOf β) = (2 * Real.sin (α / 2) * Real.cos (β / 2)) ^ 2 := by
  unfold ChordAngle.chord chordOf
  simp only [_root_.id]
  have := Real.sin_sq_add_cos_sq (β / 2)
  have e : 1 - 1 / 4 * (2 * Real.sin (β / 2)) ^ 2 = Real.cos (β / 2) ^ 2 := by linarith
  rw [e]; ring

theorem chord_sqrt {α β : ℝ} (ha : 0 ≤ α) (ha1 : α ≤ Real.pi) (hb : 0 ≤ β) (hb1 : β ≤ Real.pi) :
    Real.sqrt (ChordAngle.chord _root_.id (chordOf α) (chordOf β) * ChordAngle.chord _root_.id (chordOf β) (chordOf α)) =
      4 * (Real.sin (α / 2) * Real.cos (β / 2)) * (Real.sin (β / 2) * Real.cos (α / 2)) := by
  rw [chord_exact, chord_exact]
  obtain ⟨a1, a2⟩ := half_mem ha ha1
  obtain ⟨b1, b2⟩ := half_mem hb hb1
  rw [Real.sqrt_eq_iff_mul_self_eq (by positivity) (by positivity)]
  ring

/-- **C63.** In exact arithmetic the sum of chord angles is the chord angle of the sum of the angles, clamped to a straight angle. -/
theorem c63_add_exact {α β : ℝ} (ha : 0 ≤ α) (ha1 : α ≤ Real.pi) (hb : 0 ≤ β) (hb1 : β ≤ Real.pi) :
    ChordAngle.add _root_.id Real.sqrt (chordOf α) (chordOf β) = chordOf (min (α + β) Real.pi) := by
  obtain ⟨a1, a2⟩ := half_mem ha ha1
  obtain ⟨b1, b2⟩ := half_mem hb hb1
  have s1 := Real.sin_sq_add_cos_sq (α / 2)
  have s2 := Real.sin_sq_add_cos_sq (β / 2)
  unfold ChordAngle.add
  split_ifs with e1 e2
  · have : β = 0 := by
      by_contra hc
      have := chordOf_lt le_rfl hb1 (lt_of_le_of_ne hb (Ne.symm hc))
      rw [chordOf_zero, e1] at this
      exact lt_irrefl _ this
    rw [this, add_zero, min_eq_left ha1]
  · rw [min_eq_right, chordOf_pi]
    · rfl
    · by_contra hc
      rw [not_le] at hc
      have h1 : Real.sin (α / 2) < Real.sin (Real.pi / 2 - β / 2) :=
        Real.strictMonoOn_sin ⟨by linarith [Real.pi_pos], by linarith⟩ ⟨by linarith [Real.pi_pos], by linarith⟩ (by linarith)
      rw [Real.sin_pi_div_two_sub] at h1
      simp only [_root_.id, chordOf] at e2
      nlinarith
  · have hlt : α + β < Real.pi := by
      by_contra hc
      rw [not_lt] at hc
      have h1 : Real.sin (Real.pi / 2 - β / 2) ≤ Real.sin (α / 2) :=
        Real.strictMonoOn_sin.monotoneOn ⟨by linarith [Real.pi_pos], by linarith⟩ ⟨by linarith [Real.pi_pos], by linarith⟩ (by linarith)
      rw [Real.sin_pi_div_two_sub] at h1
      simp only [_root_.id, chordOf] at e2
      nlinarith
    rw [min_eq_left hlt.le]
    have e : chordOf (α + β) = 4 * (Real.sin (α / 2) * Real.cos (β / 2) + Real.cos (α / 2) * Real.sin (β / 2)) ^ 2 := by
      unfold chordOf
      rw [add_div, Real.sin_add]; ring
    have hs := chord_sqrt ha ha1 hb hb1
    dsimp only
    simp only [_root_.id]
    rw [hs, chord_exact, chord_exact, ← (show chordOf (α + β) = _ from by rw [e]; ring :
      chordOf (α + β) = (2 * Real.sin (α / 2) * Real.cos (β / 2)) ^ 2 + (2 * Real.sin (β / 2) * Real.cos (α / 2)) ^ 2 +
        2 * (4 * (Real.sin (α / 2) * Real.cos (β / 2)) * (Real.sin (β / 2) * Real.cos (α / 2))))]
    exact min_eq_right chordOf_range.2

/-- **C63.** In exact arithmetic the difference is the chord angle of the difference of the angles, or zero. -/
theorem c63_sub_exact {α β : ℝ} (ha : 0 ≤ α) (ha1 : α ≤ Real.pi) (hb : 0 ≤ β) (hb1 : β ≤ Real.pi) :
    ChordAngle.sub _root_.id Real.sqrt (chordOf α) (chordOf β) = chordOf (max (α - β) 0) := by
  unfold ChordAngle.sub
  split_ifs with e1 e2
  · have : β = 0 := by
      by_contra hc
      have := chordOf_lt le_rfl hb1 (lt_of_le_of_ne hb (Ne.symm hc))
      rw [chordOf_zero, e1] at this
      exact lt_irrefl _ this
    rw [this, sub_zero, max_eq_left ha]
  · rw [chordOf_le ha ha1 hb hb1] at e2
    rw [max_eq_right (by linarith), chordOf_zero]
  · rw [chordOf_le ha ha1 hb hb1, not_le] at e2
    rw [max_eq_left (show 0 ≤ α - β by linarith)]
    have e : chordOf (α - β) = 4 * (Real.sin (α / 2) * Real.cos (β / 2) - Real.cos (α / 2) * Real.sin (β / 2)) ^ 2 := by
      unfold chordOf
      rw [sub_div, Real.sin_sub]; ring
    have hs := chord_sqrt ha ha1 hb hb1
    dsimp only
    simp only [_root_.id]
    rw [hs, chord_exact, chord_exact, ← (show chordOf (α - β) = _ from by rw [e]; ring :
      chordOf (α - β) = (2 * Real.sin (α / 2) * Real.cos (β / 2)) ^ 2 + (2 * Real.sin (β / 2) * Real.cos (α / 2)) ^ 2 -
        2 * (4 * (Real.sin (α / 2) * Real.cos (β / 2)) * (Real.sin (β / 2) * Real.cos (α / 2))))]
    exact max_eq_right chordOf_range.1

/-- Every number from 0 to 4 is the chord angle of an angle. -/
theorem chordOf_surj {c : ℝ} (h0 : 0 ≤ c) (h4 : c ≤ 4) :
    0 ≤ 2 * Real.arcsin (1 / 2 * Real.sqrt c) ∧ 2 * Real.arcsin (1 / 2 * Real.sqrt c) ≤ Real.pi ∧ chordOf (2 * Real.arcsin (1 / 2 * Real.sqrt c)) = c := by
  have s0 := Real.sqrt_nonneg c
  have s1 := Real.mul_self_sqrt h0
  have s2 : Real.sqrt c ≤ 2 := by nlinarith
  refine ⟨?_, ?_, ?_⟩
  · have := Real.arcsin_nonneg.2 (show 0 ≤ 1 / 2 * Real.sqrt c by positivity)
    linarith
  · have := Real.arcsin_le_pi_div_two (1 / 2 * Real.sqrt c)
    linarith
  · unfold chordOf
    rw [mul_div_cancel_left₀ _ (by norm_num : (2 : ℝ) ≠ 0), Real.sin_arcsin (by linarith) (by linarith)]
    nlinarith

/-- **C63.** In exact arithmetic addition is monotone in each operand. -/
theorem c63_add_mono {a a' b b' : ℝ} (ha : 0 ≤ a) (h1 : a ≤ a') (ha' : a' ≤ 4) (hb : 0 ≤ b) (h2 : b ≤ b') (hb' : b' ≤ 4) :
    ChordAngle.add _root_.id Real.sqrt a b ≤ ChordAngle.add _root_.id Real.sqrt a' b' := by
  obtain ⟨p1, p2, p3⟩ := chordOf_surj ha (h1.trans ha')
  obtain ⟨q1, q2, q3⟩ := chordOf_surj (ha.trans h1) ha'
  obtain ⟨r1, r2, r3⟩ := chordOf_surj hb (h2.trans hb')
  obtain ⟨t1, t2, t3⟩ := chordOf_surj (hb.trans h2) hb'
  rw [← p3, ← q3] at h1
  rw [← r3, ← t3] at h2
  rw [← p3, ← q3, ← r3, ← t3]
  rw [chordOf_le p1 p2 q1 q2] at h1
  rw [chordOf_le r1 r2 t1 t2] at h2
  rw [c63_add_exact p1 p2 r1 r2, c63_add_exact q1 q2 t1 t2]
  exact chordOf_mono (le_min (add_nonneg p1 r1) Real.pi_pos.le) (min_le_right _ _) (min_le_min_right _ (add_le_add h1 h2))

/-- **C63.** In exact arithmetic the conversion of an angle is the squared chord; angles beyond π count as π; converting back gives the
angle again, and converting a chord angle to an angle and back gives the chord angle again. -/
theorem c63_convert {α : ℝ} (h0 : 0 ≤ α) :
    ChordAngle.fromAngle _root_.id Real.sin Real.pi (α : WithTop ℝ) = ((chordOf (min α Real.pi) : ℝ) : WithTop ℝ) ∧
    ChordAngle.toAngle _root_.id Real.sqrt Real.arcsin ((chordOf (min α Real.pi) : ℝ) : WithTop ℝ) = ((min α Real.pi : ℝ) : WithTop ℝ) := by
  have hm0 : 0 ≤ min α Real.pi := le_min h0 Real.pi_pos.le
  constructor
  · unfold ChordAngle.fromAngle
    have : ¬ ((α : WithTop ℝ) < 0) := not_lt.2 (WithTop.coe_le_coe.2 h0)
    rw [if_neg this]
    simp only [ChordAngle.ofRad, _root_.id, chordOf]
    rw [WithTop.coe_inj]
    ring_nf
  · unfold ChordAngle.toAngle
    have : ¬ (((chordOf (min α Real.pi) : ℝ) : WithTop ℝ) < 0) := not_lt.2 (WithTop.coe_le_coe.2 chordOf_range.1)
    rw [if_neg this]
    simp only [ChordAngle.toRad, _root_.id]
    rw [WithTop.coe_inj]
    obtain ⟨p, q⟩ := half_mem hm0 (min_le_right _ _)
    have hle := min_le_right α Real.pi
    unfold chordOf
    rw [Real.sqrt_sq (by positivity), show 1 / 2 * (2 * Real.sin (min α Real.pi / 2)) = Real.sin (min α Real.pi / 2) by ring,
      Real.arcsin_sin (by linarith [Real.pi_pos]) (by linarith)]
    ring

/-- **C63.** Sine, cosine and tangent of a chord angle are those of the angle (exact arithmetic). -/
theorem c63_trig {α : ℝ} (h0 : 0 ≤ α) (h1 : α ≤ Real.pi) :
    ChordAngle.sin _root_.id Real.sqrt (chordOf α) = Real.sin α ∧ ChordAngle.cos _root_.id (chordOf α) = Real.cos α ∧
    ChordAngle.tan _root_.id Real.sqrt (chordOf α) = Real.tan α ∧ ChordAngle.sin2 _root_.id (chordOf α) = Real.sin α ^ 2 := by
  have e1 : Real.sin α = 2 * Real.sin (α / 2) * Real.cos (α / 2) := by rw [← Real.sin_two_mul]; ring_nf
  have e2 : Real.cos α = 1 - 2 * Real.sin (α / 2) ^ 2 := by
    have : α = 2 * (α / 2) := by ring
    conv_lhs => rw [this, Real.cos_two_mul]
    linarith [Real.sin_sq_add_cos_sq (α / 2)]
  have s1 := Real.sin_sq_add_cos_sq (α / 2)
  have hs2 : ChordAngle.sin2 _root_.id (chordOf α) = Real.sin α ^ 2 := by
    simp only [ChordAngle.sin2, _root_.id, chordOf]
    rw [e1, show 1 - 1 / 4 * (2 * Real.sin (α / 2)) ^ 2 = Real.cos (α / 2) ^ 2 by linarith]
    ring
  have hsin : ChordAngle.sin _root_.id Real.sqrt (chordOf α) = Real.sin α := by
    unfold ChordAngle.sin
    rw [hs2]
    exact Real.sqrt_sq (Real.sin_nonneg_of_nonneg_of_le_pi h0 h1)
  have hcos : ChordAngle.cos _root_.id (chordOf α) = Real.cos α := by
    simp only [ChordAngle.cos, _root_.id, chordOf]
    rw [e2]; ring
  refine ⟨hsin, hcos, ?_, hs2⟩
  unfold ChordAngle.tan
  rw [hsin, hcos, Real.tan_eq_sin_div_cos]
  rfl

end Verif
