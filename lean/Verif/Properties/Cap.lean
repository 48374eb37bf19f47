import Verif.Model.Cap
import Verif.Proofs.Sphere

/-!
# Caps: C64
-/

namespace Verif
open Spec

variable {K : Type} [Field K] [LinearOrder K] [IsStrictOrderedRing K]

/-! ## With rounding -/

theorem norm2_nonneg {fl : K → K} (hm : Monotone fl) (h0 : fl 0 = 0) (p : Vec K) : 0 ≤ p.norm2 fl := by
  have pos : ∀ x, 0 ≤ x → 0 ≤ fl x := fun x hx => by have := hm hx; rwa [h0] at this
  exact pos _ (add_nonneg (pos _ (add_nonneg (pos _ (mul_self_nonneg _)) (pos _ (mul_self_nonneg _)))) (pos _ (mul_self_nonneg _)))

theorem chordAngle_nonneg {fl : K → K} (hm : Monotone fl) (h0 : fl 0 = 0) (p q : Vec K) : 0 ≤ p.chordAngle fl q :=
  le_min (by norm_num) (norm2_nonneg hm h0 _)

omit [IsStrictOrderedRing K] in
theorem chordAngle_le (fl : K → K) (p q : Vec K) : p.chordAngle fl q ≤ 4 := min_le_left _ _

theorem chordAngle_self {fl : K → K} (h0 : fl 0 = 0) (p : Vec K) : p.chordAngle fl p = 0 := by
  unfold Vec.chordAngle Vec.norm2 Vec.sub Vec.dot
  dsimp only
  simp only [sub_self, h0, mul_zero, add_zero]
  exact min_eq_right (by norm_num)

/-- **C64.** An empty cap contains no point and a full cap contains every point, also in its interior. -/
theorem c64_empty_full {fl : K → K} (hm : Monotone fl) (h0 : fl 0 = 0) (c : Cap K) (p : Vec K) :
    (c.isEmpty = true → c.containsPoint fl p = false ∧ c.interiorContainsPoint fl p = false) ∧
    (c.isFull = true → c.containsPoint fl p = true ∧ c.interiorContainsPoint fl p = true) ∧
    (Cap.empty : Cap K).isEmpty = true ∧ (Cap.full : Cap K).isFull = true ∧ ¬ (c.isEmpty = true ∧ c.isFull = true) := by
  unfold Cap.isEmpty Cap.isFull Cap.containsPoint Cap.interiorContainsPoint ChordAngle.straight Cap.empty Cap.full ChordAngle.negative Cap.isFull ChordAngle.straight
  simp only [decide_eq_true_eq, decide_eq_false_iff_not, Bool.or_eq_true, Bool.or_eq_false_iff]
  have := chordAngle_nonneg hm h0 c.center p
  refine ⟨fun h => ⟨not_le.2 (by linarith), fun e => by rw [e] at h; norm_num at h, not_lt.2 (by linarith)⟩,
    fun h => ⟨by rw [h]; exact chordAngle_le _ _ _, Or.inl h⟩, by norm_num, trivial, fun ⟨a, b⟩ => by rw [b] at a; norm_num at a⟩

/-- **C64.** Adding a point to a cap gives a cap that contains the point, keeps every point it contained, keeps the centre of a non-empty
cap, and is no larger than needed. -/
theorem c64_addPoint {fl : K → K} (hm : Monotone fl) (h0 : fl 0 = 0) (c : Cap K) (p : Vec K) :
    (c.addPoint fl p).containsPoint fl p = true ∧ (∀ q, c.containsPoint fl q = true → (c.addPoint fl p).containsPoint fl q = true) ∧
    (c.isEmpty = false → (c.addPoint fl p).center = c.center ∧
      ∀ r, c.radius ≤ r → (⟨c.center, r⟩ : Cap K).containsPoint fl p = true → (c.addPoint fl p).radius ≤ r) := by
  unfold Cap.addPoint
  split_ifs with h
  · refine ⟨?_, fun q hq => ?_, fun h' => by rw [h] at h'; cases h'⟩
    · unfold Cap.ofPoint Cap.containsPoint
      rw [chordAngle_self h0, decide_eq_true_eq]
    · rw [((c64_empty_full hm h0 c q).1 h).1] at hq
      cases hq
  · unfold Cap.containsPoint
    simp only [decide_eq_true_eq]
    exact ⟨le_max_left _ _, fun q hq => hq.trans (le_max_right _ _), fun _ => ⟨trivial, fun r h1 h2 => max_le h2 h1⟩⟩

/-- **C64.** Adding a cap to a cap gives a cap that contains both according to `contains`, and keeps every point of the first. -/
theorem c64_addCap {fl sqrt : K → K} (hm : Monotone fl) (h0 : fl 0 = 0) (h1 : fl 1 = 1) (hs : IsSqrt sqrt) (hff : ∀ x, fl (fl x) = fl x)
    (h4 : fl 4 = 4) {c d : Cap K} (hc4 : c.radius ≤ 4) (hd4 : d.radius ≤ 4) (hcf : fl c.radius = c.radius) (hdf : fl d.radius = d.radius) :
    (c.addCap fl sqrt d).contains fl sqrt c = true ∧ (c.addCap fl sqrt d).contains fl sqrt d = true ∧
    (∀ p, c.containsPoint fl p = true → (c.addCap fl sqrt d).containsPoint fl p = true) := by
  have self : ∀ (x : Vec K) (r s : K), s ≤ 4 → fl s = s → s ≤ r → (⟨x, r⟩ : Cap K).contains fl sqrt ⟨x, s⟩ = true := by
    intro x r s hs4 hsf hsr
    unfold Cap.contains
    split_ifs
    · rfl
    · rw [decide_eq_true_eq, chordAngle_self h0, (c63_add_units h0 h1 hs hs4 hsf).2.1]
      exact hsr
  unfold Cap.addCap
  by_cases hc : c.isEmpty = true
  · rw [if_pos hc]
    refine ⟨?_, self _ _ _ hd4 hdf le_rfl, fun p hp => ?_⟩
    · unfold Cap.contains
      rw [hc, Bool.or_true]; rfl
    · rw [((c64_empty_full hm h0 c p).1 hc).1] at hp
      cases hp
  rw [if_neg hc]
  by_cases hd : d.isEmpty = true
  · rw [if_pos hd]
    refine ⟨self _ _ _ hc4 hcf le_rfl, ?_, fun p hp => hp⟩
    unfold Cap.contains
    rw [hd, Bool.or_true]; rfl
  rw [if_neg hd]
  have hd0 : 0 ≤ d.radius := by
    unfold Cap.isEmpty at hd
    rw [decide_eq_true_eq, not_lt] at hd
    exact hd
  refine ⟨self _ _ _ hc4 hcf (le_max_right _ _), ?_, fun p hp => ?_⟩
  · unfold Cap.contains
    split_ifs
    · rfl
    rw [decide_eq_true_eq]
    dsimp only
    obtain ⟨a0, a4⟩ := c63_add_range hm h0 h1 hs (chordAngle_nonneg hm h0 c.center d.center) (chordAngle_le fl c.center d.center) hd0 hd4
    have af : fl (ChordAngle.add fl sqrt (c.center.chordAngle fl d.center) d.radius) = ChordAngle.add fl sqrt (c.center.chordAngle fl d.center) d.radius := by
      have fmin : ∀ x, fl x = x → fl (min 4 x) = min 4 x := fun x hx => by
        rcases min_choice 4 x with e | e <;> rw [e] <;> assumption
      unfold ChordAngle.add
      split_ifs
      · exact fmin _ (hff _)
      · exact h4
      · exact fmin _ (hff _)
    generalize ChordAngle.add fl sqrt (c.center.chordAngle fl d.center) d.radius = D at *
    refine le_trans (le_trans (le_min a4 ?_) (le_max_right 0 _)) (le_max_left _ _)
    have pos : ∀ x, 0 ≤ x → 0 ≤ fl x := fun x hx => by have := hm hx; rwa [h0] at this
    have e0 : 0 ≤ Predicates.dblEpsilon fl := pos _ (by norm_num)
    have := hm (show D ≤ D + fl (Predicates.dblEpsilon fl * D) by linarith [pos _ (mul_nonneg e0 a0)])
    rwa [af] at this
  · unfold Cap.containsPoint at hp ⊢
    rw [decide_eq_true_eq] at hp ⊢
    exact hp.trans (le_max_right _ _)

/-- **C64.** `==` is an equivalence relation, and equal caps contain the same points. -/
theorem c64_eq {fl : K → K} (hm : Monotone fl) (h0 : fl 0 = 0) (a b c : Cap K) :
    a.eq a = true ∧ a.eq b = b.eq a ∧ (a.eq b = true → b.eq c = true → a.eq c = true) ∧
    (a.eq b = true → ∀ p, a.containsPoint fl p = b.containsPoint fl p) := by
  have key : ∀ a b : Cap K, a.eq b = true ↔ a = b ∨ (a.isEmpty = true ∧ b.isEmpty = true) ∨ (a.isFull = true ∧ b.isFull = true) := by
    intro a b
    unfold Cap.eq
    simp only [Bool.or_eq_true, Bool.and_eq_true, decide_eq_true_eq, or_assoc]
    refine or_congr ⟨fun ⟨h1, h2, h3, h4⟩ => ?_, fun h => by rw [h]; exact ⟨rfl, rfl, rfl, rfl⟩⟩ Iff.rfl
    rcases a with ⟨⟨_, _, _⟩, _⟩
    rcases b with ⟨⟨_, _, _⟩, _⟩
    simp only at h1 h2 h3 h4
    rw [h1, h2, h3, h4]
  refine ⟨(key a a).2 (Or.inl rfl), ?_, ?_, ?_⟩
  · rw [Bool.eq_iff_iff, key, key]
    constructor <;> rintro (h | h | h)
    · exact Or.inl h.symm
    · exact Or.inr (Or.inl h.symm)
    · exact Or.inr (Or.inr h.symm)
    · exact Or.inl h.symm
    · exact Or.inr (Or.inl h.symm)
    · exact Or.inr (Or.inr h.symm)
  · rw [key, key, key]
    have hne := (c64_empty_full hm h0 b ⟨0, 0, 0⟩).2.2.2.2
    rintro (h | h | h) (h' | h' | h')
    · exact Or.inl (h.trans h')
    · rw [h]; exact Or.inr (Or.inl h')
    · rw [h]; exact Or.inr (Or.inr h')
    · rw [← h']; exact Or.inr (Or.inl h)
    · exact Or.inr (Or.inl ⟨h.1, h'.2⟩)
    · exact absurd ⟨h.2, h'.1⟩ hne
    · rw [← h']; exact Or.inr (Or.inr h)
    · exact absurd ⟨h'.1, h.2⟩ hne
    · exact Or.inr (Or.inr ⟨h.1, h'.2⟩)
  · rw [key]
    rintro (h | h | h) p
    · rw [h]
    · rw [((c64_empty_full hm h0 a p).1 h.1).1, ((c64_empty_full hm h0 b p).1 h.2).1]
    · rw [((c64_empty_full hm h0 a p).2.1 h.1).1, ((c64_empty_full hm h0 b p).2.1 h.2).1]

/-- **C64.** With rounding, `contains_point` decides the distance up to a relative error of `5.1 / 2^53`. -/
theorem c64_containsPoint_near {fl : K → K} (h : Rounding fl) {c : Cap K} {p : Vec K} (hx : |c.center.x - p.x| ≤ 4) (hy : |c.center.y - p.y| ≤ 4)
    (hz : |c.center.z - p.z| ≤ 4) :
    let D := dot (diff c.center p) (diff c.center p)
    (c.containsPoint fl p = true → min 4 D ≤ c.radius + ((51 / 10) / 2 ^ 53 * D + 1 / 2 ^ 1060)) ∧
    (min 4 D + ((51 / 10) / 2 ^ 53 * D + 1 / 2 ^ 1060) ≤ c.radius → c.containsPoint fl p = true) := by
  have := c77_near h hx hy hz
  rw [abs_le] at this
  unfold Cap.containsPoint
  simp only [decide_eq_true_eq]
  constructor
  · intro h; linarith
  · intro h; linarith

end Verif
