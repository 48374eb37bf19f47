import Verif.Properties.EdgeExact
import Mathlib.Tactic.LinearCombination
import Mathlib.Tactic.FieldSimp

/-!
# Clipping plane segments: C79

The specification is the set of parameters of the segment: `seg a b t` for `t` from zero to one.
-/

namespace Verif
open Spec EdgeClip
variable {K : Type} [Field K] [LinearOrder K] [IsStrictOrderedRing K]

namespace Spec

/-- The point of the segment with parameter `t`. -/
def seg (a b : R2.Point K) (t : K) : R2.Point K := ⟨a.x + t * (b.x - a.x), a.y + t * (b.y - a.y)⟩

/-- A point of a closed rectangle. -/
def InRect (r : R2.Rect K) (p : R2.Point K) : Prop := r.x.lo ≤ p.x ∧ p.x ≤ r.x.hi ∧ r.y.lo ≤ p.y ∧ p.y ≤ r.y.hi

/-- One axis of the bounding rectangle of the part from `s` to `t`. -/
def Tight1 (a b s t : K) (i : R1.Interval K) : Prop :=
  i.lo = min (a + s * (b - a)) (a + t * (b - a)) ∧ i.hi = max (a + s * (b - a)) (a + t * (b - a))

/-- The bounding rectangle of the part from `s` to `t`. -/
def TightBox (a b : R2.Point K) (s t : K) (r : R2.Rect K) : Prop := Tight1 a.x b.x s t r.x ∧ Tight1 a.y b.y s t r.y

/-- Diagonal of the bounding rectangle: true for the falling one. Either value for segments parallel to an axis. -/
def Slope (d0 d1 : K) (neg : Bool) : Prop := (0 < d0 * d1 → neg = false) ∧ (d0 * d1 < 0 → neg = true)

end Spec

theorem tight1_nonneg {a b s t : K} {i : R1.Interval K} (h : Tight1 a b s t i) (hst : s ≤ t) (hd : 0 ≤ b - a) :
    i.lo = a + s * (b - a) ∧ i.hi = a + t * (b - a) := by
  have : a + s * (b - a) ≤ a + t * (b - a) := by nlinarith
  exact ⟨by rw [h.1, min_eq_left this], by rw [h.2, max_eq_right this]⟩

theorem tight1_nonpos {a b s t : K} {i : R1.Interval K} (h : Tight1 a b s t i) (hst : s ≤ t) (hd : b - a ≤ 0) :
    i.lo = a + t * (b - a) ∧ i.hi = a + s * (b - a) := by
  have : a + t * (b - a) ≤ a + s * (b - a) := by nlinarith
  exact ⟨by rw [h.1, min_eq_right this], by rw [h.2, max_eq_left this]⟩

theorem tight1_of_nonneg {a b s t : K} {i : R1.Interval K} (hst : s ≤ t) (hd : 0 ≤ b - a) (h1 : i.lo = a + s * (b - a)) (h2 : i.hi = a + t * (b - a)) :
    Tight1 a b s t i := by
  have : a + s * (b - a) ≤ a + t * (b - a) := by nlinarith
  exact ⟨by rw [h1, min_eq_left this], by rw [h2, max_eq_right this]⟩

theorem tight1_of_nonpos {a b s t : K} {i : R1.Interval K} (hst : s ≤ t) (hd : b - a ≤ 0) (h1 : i.lo = a + t * (b - a)) (h2 : i.hi = a + s * (b - a)) :
    Tight1 a b s t i := by
  have : a + t * (b - a) ≤ a + s * (b - a) := by nlinarith
  exact ⟨by rw [h1, min_eq_right this], by rw [h2, max_eq_left this]⟩

/-- Without rounding, `interpolate` is the linear interpolation. -/
theorem interpolate_exact {x a b : K} (a1 b1 : K) (h : a ≠ b) : interpolate _root_.id x a b a1 b1 = a1 + (x - a) / (b - a) * (b1 - a1) := by
  have h1 : b - a ≠ 0 := sub_ne_zero.2 h.symm
  have h2 : a - b ≠ 0 := sub_ne_zero.2 h
  unfold interpolate
  rw [if_neg h]
  simp only [id]
  split_ifs
  · field_simp
  · field_simp
    ring

/-- Keeping the part after `s`. -/
theorem update_right {a b t1 t2 s : K} {i : R1.Interval K} (h : Tight1 a b t1 t2 i) (h1 : t1 ≤ s) (h2 : s ≤ t2) (high : Bool)
    (hh : (0 < b - a → high = false) ∧ (b - a < 0 → high = true)) :
    (updateEndpoint i high (a + s * (b - a))).2 = true ∧ Tight1 a b s t2 (updateEndpoint i high (a + s * (b - a))).1 := by
  rcases lt_trichotomy (b - a) 0 with hd | hd | hd
  · rw [hh.2 hd]
    obtain ⟨e1, e2⟩ := tight1_nonpos h (h1.trans h2) hd.le
    have k1 : a + t2 * (b - a) ≤ a + s * (b - a) := by nlinarith
    have k2 : a + s * (b - a) ≤ a + t1 * (b - a) := by nlinarith
    unfold updateEndpoint
    rw [if_neg (by simp), if_neg (by rw [e1]; exact not_lt.2 k1)]
    refine ⟨rfl, tight1_of_nonpos h2 hd.le e1 ?_⟩
    change (if i.hi > _ then _ else _) = _
    split_ifs with hc
    · rfl
    · rw [e2] at hc ⊢
      exact le_antisymm (not_lt.1 hc) k2
  · have e1 : i.lo = a := by rw [h.1, hd]; simp
    have e2 : i.hi = a := by rw [h.2, hd]; simp
    unfold updateEndpoint
    rw [e1, e2, hd, mul_zero, add_zero]
    simp only [lt_irrefl, gt_iff_lt, if_false]
    have : Tight1 a b s t2 (⟨a, a⟩ : R1.Interval K) := ⟨by rw [hd]; simp, by rw [hd]; simp⟩
    split_ifs <;> exact ⟨rfl, this⟩
  · rw [hh.1 hd]
    obtain ⟨e1, e2⟩ := tight1_nonneg h (h1.trans h2) hd.le
    have k1 : a + s * (b - a) ≤ a + t2 * (b - a) := by nlinarith
    have k2 : a + t1 * (b - a) ≤ a + s * (b - a) := by nlinarith
    unfold updateEndpoint
    rw [if_pos (by simp), if_neg (by rw [e2]; exact not_lt.2 k1)]
    refine ⟨rfl, tight1_of_nonneg h2 hd.le ?_ e2⟩
    change (if i.lo < _ then _ else _) = _
    split_ifs with hc
    · rfl
    · rw [e1] at hc ⊢
      exact le_antisymm k2 (not_lt.1 hc)

/-- Keeping the part before `s`. -/
theorem update_left {a b t1 t2 s : K} {i : R1.Interval K} (h : Tight1 a b t1 t2 i) (h1 : t1 ≤ s) (h2 : s ≤ t2) (high : Bool)
    (hh : (0 < b - a → high = true) ∧ (b - a < 0 → high = false)) :
    (updateEndpoint i high (a + s * (b - a))).2 = true ∧ Tight1 a b t1 s (updateEndpoint i high (a + s * (b - a))).1 := by
  have flip : ∀ s t, Tight1 a b s t i → Tight1 b a (1 - t) (1 - s) i := by
    intro s t h
    have e1 : b + (1 - t) * (a - b) = a + t * (b - a) := by ring
    have e2 : b + (1 - s) * (a - b) = a + s * (b - a) := by ring
    unfold Tight1
    rw [e1, e2, min_comm, max_comm]
    exact h
  have e : b + (1 - s) * (a - b) = a + s * (b - a) := by ring
  have := update_right (flip t1 t2 h) (s := 1 - s) (by linarith) (by linarith) high ⟨fun h => hh.2 (by linarith), fun h => hh.1 (by linarith)⟩
  rw [e] at this
  refine ⟨this.1, ?_⟩
  obtain ⟨g1, g2⟩ := this.2
  have e1 : b + (1 - t1) * (a - b) = a + t1 * (b - a) := by ring
  rw [e, e1] at g1 g2
  exact ⟨by rw [g1, min_comm], by rw [g2, max_comm]⟩

/-- One axis of clipping, in terms of parameters: `S` is the condition of the clip, `r` the result. -/
def StepOK (a0 b0 a1 b1 t1 t2 : K) (S : K → Prop) (r : R1.Interval K × R1.Interval K × Bool) : Prop :=
  (r.2.2 = false → ∀ t, t1 ≤ t → t ≤ t2 → ¬ S (a0 + t * (b0 - a0))) ∧
  (r.2.2 = true → ∃ s1 s2, t1 ≤ s1 ∧ s1 ≤ s2 ∧ s2 ≤ t2 ∧ Tight1 a0 b0 s1 s2 r.1 ∧ Tight1 a1 b1 s1 s2 r.2.1 ∧
    ∀ t, t1 ≤ t → t ≤ t2 → (S (a0 + t * (b0 - a0)) ↔ s1 ≤ t ∧ t ≤ s2))

theorem clipLow_ok {a0 b0 a1 b1 t1 t2 : K} {i0 i1 : R1.Interval K} {neg : Bool} {clip : R1.Interval K} (h12 : t1 ≤ t2) (h0 : Tight1 a0 b0 t1 t2 i0)
    (h1 : Tight1 a1 b1 t1 t2 i1) (hs : Slope (b0 - a0) (b1 - a1) neg) :
    StepOK a0 b0 a1 b1 t1 t2 (fun x => clip.lo ≤ x) (clipLow _root_.id a0 b0 i0 a1 b1 i1 neg clip) := by
  have hmono : ∀ t, t1 ≤ t → t ≤ t2 → i0.lo ≤ a0 + t * (b0 - a0) ∧ a0 + t * (b0 - a0) ≤ i0.hi := by
    intro t ht1 ht2
    rcases le_total 0 (b0 - a0) with hd | hd
    · obtain ⟨e1, e2⟩ := tight1_nonneg h0 h12 hd
      rw [e1, e2]; constructor <;> nlinarith
    · obtain ⟨e1, e2⟩ := tight1_nonpos h0 h12 hd
      rw [e1, e2]; constructor <;> nlinarith
  unfold clipLow
  by_cases c1 : i0.lo < clip.lo
  · rw [if_pos c1]
    by_cases c2 : i0.hi < clip.lo
    · rw [if_pos c2]
      refine ⟨fun _ t ht1 ht2 => not_le.2 ((hmono t ht1 ht2).2.trans_lt c2), fun h => by cases h⟩
    · rw [if_neg c2]
      have hne : a0 ≠ b0 := by
        rintro rfl
        have := h0.1; have := h0.2
        simp only [sub_self, mul_zero, add_zero, min_self, max_self] at *
        linarith
      have hd : b0 - a0 ≠ 0 := sub_ne_zero.2 hne.symm
      set s := (clip.lo - a0) / (b0 - a0) with hsdef
      have es : s * (b0 - a0) = clip.lo - a0 := by rw [hsdef]; field_simp
      have hi : interpolate _root_.id clip.lo a0 b0 a1 b1 = a1 + s * (b1 - a1) := interpolate_exact a1 b1 hne
      rw [hi]
      simp only
      rcases lt_or_gt_of_ne hd with hd | hd
      · obtain ⟨e1, e2⟩ := tight1_nonpos h0 h12 hd.le
        have k1 : t1 ≤ s := by
          by_contra hc
          nlinarith [not_le.1 hc]
        have k2 : s ≤ t2 := by
          by_contra hc
          nlinarith [not_le.1 hc]
        have hu := update_left h1 k1 k2 neg ⟨fun h => hs.2 (mul_neg_of_neg_of_pos hd h), fun h => hs.1 (mul_pos_of_neg_of_neg hd h)⟩
        refine ⟨fun h => (by rw [hu.1] at h; cases h), fun _ => ⟨t1, s, le_rfl, k1, k2, tight1_of_nonpos k1 hd.le ?_ e2, hu.2, ?_⟩⟩
        · change clip.lo = _; linarith
        · intro t ht1 ht2
          refine ⟨fun h => ⟨ht1, ?_⟩, fun h => ?_⟩
          · by_contra hc
            nlinarith [not_le.1 hc]
          · nlinarith [h.2]
      · obtain ⟨e1, e2⟩ := tight1_nonneg h0 h12 hd.le
        have k1 : t1 ≤ s := by
          by_contra hc
          nlinarith [not_le.1 hc]
        have k2 : s ≤ t2 := by
          by_contra hc
          nlinarith [not_le.1 hc]
        have hu := update_right h1 k1 k2 neg ⟨fun h => hs.1 (mul_pos hd h), fun h => hs.2 (mul_neg_of_pos_of_neg hd h)⟩
        refine ⟨fun h => (by rw [hu.1] at h; cases h), fun _ => ⟨s, t2, k1, k2, le_rfl, tight1_of_nonneg k2 hd.le ?_ e2, hu.2, ?_⟩⟩
        · change clip.lo = _; linarith
        · intro t ht1 ht2
          refine ⟨fun h => ⟨?_, ht2⟩, fun h => ?_⟩
          · by_contra hc
            nlinarith [not_le.1 hc]
          · nlinarith [h.1]
  · rw [if_neg c1]
    refine ⟨fun h => (by cases h), fun _ => ⟨t1, t2, le_rfl, h12, le_rfl, h0, h1, fun t ht1 ht2 => ⟨fun _ => ⟨ht1, ht2⟩, fun _ => ?_⟩⟩⟩
    exact (not_lt.1 c1).trans (hmono t ht1 ht2).1

theorem clipHigh_ok {a0 b0 a1 b1 t1 t2 : K} {i0 i1 : R1.Interval K} {neg : Bool} {clip : R1.Interval K} (h12 : t1 ≤ t2) (h0 : Tight1 a0 b0 t1 t2 i0)
    (h1 : Tight1 a1 b1 t1 t2 i1) (hs : Slope (b0 - a0) (b1 - a1) neg) :
    StepOK a0 b0 a1 b1 t1 t2 (fun x => x ≤ clip.hi) (clipHigh _root_.id a0 b0 i0 a1 b1 i1 neg clip) := by
  have hmono : ∀ t, t1 ≤ t → t ≤ t2 → i0.lo ≤ a0 + t * (b0 - a0) ∧ a0 + t * (b0 - a0) ≤ i0.hi := by
    intro t ht1 ht2
    rcases le_total 0 (b0 - a0) with hd | hd
    · obtain ⟨e1, e2⟩ := tight1_nonneg h0 h12 hd
      rw [e1, e2]; constructor <;> nlinarith
    · obtain ⟨e1, e2⟩ := tight1_nonpos h0 h12 hd
      rw [e1, e2]; constructor <;> nlinarith
  unfold clipHigh
  by_cases c1 : i0.hi > clip.hi
  · rw [if_pos c1]
    by_cases c2 : i0.lo > clip.hi
    · rw [if_pos c2]
      refine ⟨fun _ t ht1 ht2 => not_le.2 (lt_of_lt_of_le c2 (hmono t ht1 ht2).1), fun h => by cases h⟩
    · rw [if_neg c2]
      have hne : a0 ≠ b0 := by
        rintro rfl
        have := h0.1; have := h0.2
        simp only [sub_self, mul_zero, add_zero, min_self, max_self] at *
        linarith
      have hd : b0 - a0 ≠ 0 := sub_ne_zero.2 hne.symm
      set s := (clip.hi - a0) / (b0 - a0) with hsdef
      have es : s * (b0 - a0) = clip.hi - a0 := by rw [hsdef]; field_simp
      have hi : interpolate _root_.id clip.hi a0 b0 a1 b1 = a1 + s * (b1 - a1) := interpolate_exact a1 b1 hne
      rw [hi]
      simp only
      rcases lt_or_gt_of_ne hd with hd | hd
      · obtain ⟨e1, e2⟩ := tight1_nonpos h0 h12 hd.le
        have k1 : t1 ≤ s := by
          by_contra hc
          nlinarith [not_le.1 hc]
        have k2 : s ≤ t2 := by
          by_contra hc
          nlinarith [not_le.1 hc]
        have hu := update_right h1 k1 k2 (!neg) ⟨fun h => by rw [hs.2 (mul_neg_of_neg_of_pos hd h)]; rfl, fun h => by rw [hs.1 (mul_pos_of_neg_of_neg hd h)]; rfl⟩
        refine ⟨fun h => (by rw [hu.1] at h; cases h), fun _ => ⟨s, t2, k1, k2, le_rfl, tight1_of_nonpos k2 hd.le e1 ?_, hu.2, ?_⟩⟩
        · change clip.hi = _; linarith
        · intro t ht1 ht2
          refine ⟨fun h => ⟨?_, ht2⟩, fun h => ?_⟩
          · by_contra hc
            nlinarith [not_le.1 hc]
          · nlinarith [h.1]
      · obtain ⟨e1, e2⟩ := tight1_nonneg h0 h12 hd.le
        have k1 : t1 ≤ s := by
          by_contra hc
          nlinarith [not_le.1 hc]
        have k2 : s ≤ t2 := by
          by_contra hc
          nlinarith [not_le.1 hc]
        have hu := update_left h1 k1 k2 (!neg) ⟨fun h => by rw [hs.1 (mul_pos hd h)]; rfl, fun h => by rw [hs.2 (mul_neg_of_pos_of_neg hd h)]; rfl⟩
        refine ⟨fun h => (by rw [hu.1] at h; cases h), fun _ => ⟨t1, s, le_rfl, k1, k2, tight1_of_nonneg k1 hd.le e1 ?_, hu.2, ?_⟩⟩
        · change clip.hi = _; linarith
        · intro t ht1 ht2
          refine ⟨fun h => ⟨ht1, ?_⟩, fun h => ?_⟩
          · by_contra hc
            nlinarith [not_le.1 hc]
          · nlinarith [h.2]
  · rw [if_neg c1]
    refine ⟨fun h => (by cases h), fun _ => ⟨t1, t2, le_rfl, h12, le_rfl, h0, h1, fun t ht1 ht2 => ⟨fun _ => ⟨ht1, ht2⟩, fun _ => ?_⟩⟩⟩
    exact (hmono t ht1 ht2).2.trans (not_lt.1 c1)

theorem clipBoundAxis_ok {a0 b0 a1 b1 t1 t2 : K} {i0 i1 : R1.Interval K} {neg : Bool} {clip : R1.Interval K} (h12 : t1 ≤ t2) (h0 : Tight1 a0 b0 t1 t2 i0)
    (h1 : Tight1 a1 b1 t1 t2 i1) (hs : Slope (b0 - a0) (b1 - a1) neg) :
    StepOK a0 b0 a1 b1 t1 t2 (fun x => clip.lo ≤ x ∧ x ≤ clip.hi) (clipBoundAxis _root_.id a0 b0 i0 a1 b1 i1 neg clip) := by
  unfold clipBoundAxis
  simp only
  have hL := clipLow_ok (clip := clip) h12 h0 h1 hs
  generalize clipLow _root_.id a0 b0 i0 a1 b1 i1 neg clip = r at *
  by_cases c : r.2.2 = true
  · rw [if_pos c]
    obtain ⟨s1, s2, g1, g2, g3, g4, g5, g6⟩ := hL.2 c
    have hH := clipHigh_ok (clip := clip) g2 g4 g5 hs
    generalize clipHigh _root_.id a0 b0 r.1 a1 b1 r.2.1 neg clip = q at *
    constructor
    · intro h t ht1 ht2 hc
      obtain ⟨k1, k2⟩ := (g6 t ht1 ht2).1 hc.1
      exact hH.1 h t k1 k2 hc.2
    · intro h
      obtain ⟨p1, p2, f1, f2, f3, f4, f5, f6⟩ := hH.2 h
      refine ⟨p1, p2, g1.trans f1, f2, f3.trans g3, f4, f5, fun t ht1 ht2 => ⟨fun hc => ?_, fun hc => ?_⟩⟩
      · obtain ⟨k1, k2⟩ := (g6 t ht1 ht2).1 hc.1
        exact (f6 t k1 k2).1 hc.2
      · have k1 := f1.trans hc.1
        have k2 := hc.2.trans f3
        exact ⟨(g6 t ht1 ht2).2 ⟨k1, k2⟩, (f6 t k1 k2).2 hc⟩
  · rw [if_neg c]
    exact ⟨fun h t ht1 ht2 hc => hL.1 h t ht1 ht2 hc.1, fun h => absurd h c⟩

theorem slope_of (a b : R2.Point K) : Slope (b.x - a.x) (b.y - a.y) (xor (decide (a.x > b.x)) (decide (a.y > b.y))) := by
  constructor
  · intro h
    rcases pos_and_pos_or_neg_and_neg_of_mul_pos h with ⟨h1, h2⟩ | ⟨h1, h2⟩
    · rw [decide_eq_false (by linarith : ¬ a.x > b.x), decide_eq_false (by linarith : ¬ a.y > b.y)]; rfl
    · rw [decide_eq_true (by linarith : a.x > b.x), decide_eq_true (by linarith : a.y > b.y)]; rfl
  · intro h
    rcases mul_neg_iff.1 h with ⟨h1, h2⟩ | ⟨h1, h2⟩
    · rw [decide_eq_false (by linarith : ¬ a.x > b.x), decide_eq_true (by linarith : a.y > b.y)]; rfl
    · rw [decide_eq_true (by linarith : a.x > b.x), decide_eq_false (by linarith : ¬ a.y > b.y)]; rfl

/-- **C79.** `clip_edge_bound` in exact arithmetic: given the bounding rectangle of the part from `t1` to `t2` of a segment, it finds whether that
part meets the clip rectangle and if so returns the bounding rectangle of exactly the part inside. -/
theorem c79_clipEdgeBound (a b : R2.Point K) (clip bound : R2.Rect K) {t1 t2 : K} (h12 : t1 ≤ t2) (hb : TightBox a b t1 t2 bound) :
    ((clipEdgeBound _root_.id a b clip bound).2 = true ↔ ∃ t, t1 ≤ t ∧ t ≤ t2 ∧ InRect clip (seg a b t)) ∧
    ((clipEdgeBound _root_.id a b clip bound).2 = true → ∃ s1 s2, t1 ≤ s1 ∧ s1 ≤ s2 ∧ s2 ≤ t2 ∧
      TightBox a b s1 s2 (clipEdgeBound _root_.id a b clip bound).1 ∧ ∀ t, t1 ≤ t → t ≤ t2 → (InRect clip (seg a b t) ↔ s1 ≤ t ∧ t ≤ s2)) := by
  have hs := slope_of a b
  have hs' : Slope (b.y - a.y) (b.x - a.x) (xor (decide (a.x > b.x)) (decide (a.y > b.y))) := by
    unfold Slope; rw [mul_comm (b.y - a.y)]; exact hs
  suffices h : ((clipEdgeBound _root_.id a b clip bound).2 = false → ∀ t, t1 ≤ t → t ≤ t2 → ¬ InRect clip (seg a b t)) ∧
      ((clipEdgeBound _root_.id a b clip bound).2 = true → ∃ s1 s2, t1 ≤ s1 ∧ s1 ≤ s2 ∧ s2 ≤ t2 ∧
      TightBox a b s1 s2 (clipEdgeBound _root_.id a b clip bound).1 ∧ ∀ t, t1 ≤ t → t ≤ t2 → (InRect clip (seg a b t) ↔ s1 ≤ t ∧ t ≤ s2)) by
    refine ⟨⟨fun hc => ?_, fun ⟨t, g1, g2, g3⟩ => ?_⟩, h.2⟩
    · obtain ⟨s1, s2, g1, g2, g3, -, g5⟩ := h.2 hc
      exact ⟨s1, g1, g2.trans g3, (g5 s1 g1 (g2.trans g3)).2 ⟨le_rfl, g2⟩⟩
    · by_contra hc
      exact h.1 (by simpa using hc) t g1 g2 g3
  unfold clipEdgeBound
  simp only
  have hX := clipBoundAxis_ok (clip := clip.x) h12 hb.1 hb.2 hs
  generalize clipBoundAxis _root_.id a.x b.x bound.x a.y b.y bound.y _ clip.x = r at *
  by_cases c : r.2.2 = true
  · rw [if_neg (by simp [c])]
    obtain ⟨s1, s2, g1, g2, g3, g4, g5, g6⟩ := hX.2 c
    have hY := clipBoundAxis_ok (clip := clip.y) g2 g5 g4 hs'
    generalize clipBoundAxis _root_.id a.y b.y r.2.1 a.x b.x r.1 _ clip.y = q at *
    constructor
    · intro h t ht1 ht2 hc
      obtain ⟨k1, k2⟩ := (g6 t ht1 ht2).1 ⟨hc.1, hc.2.1⟩
      refine hY.1 ?_ t k1 k2 hc.2.2
      by_contra hq
      rw [if_neg (by simp at hq; simp [hq])] at h
      cases h
    · intro h
      have hq : q.2.2 = true := by
        by_contra hq
        rw [if_pos (by simpa using hq)] at h
        cases h
      rw [if_neg (by simp [hq])]
      obtain ⟨p1, p2, f1, f2, f3, f4, f5, f6⟩ := hY.2 hq
      refine ⟨p1, p2, g1.trans f1, f2, f3.trans g3, ⟨f5, f4⟩, fun t ht1 ht2 => ⟨fun hc => ?_, fun hc => ?_⟩⟩
      · obtain ⟨k1, k2⟩ := (g6 t ht1 ht2).1 ⟨hc.1, hc.2.1⟩
        exact (f6 t k1 k2).1 hc.2.2
      · have k1 := f1.trans hc.1
        have k2 := hc.2.trans f3
        have m1 := (g6 t ht1 ht2).2 ⟨k1, k2⟩
        have m2 := (f6 t k1 k2).2 hc
        exact ⟨m1.1, m1.2, m2.1, m2.2⟩
  · rw [if_pos (by simpa using c)]
    exact ⟨fun _ t ht1 ht2 hc => hX.1 (by simpa using c) t ht1 ht2 ⟨hc.1, hc.2.1⟩, fun h => by cases h⟩

omit [IsStrictOrderedRing K] in
theorem pairBox (a b : R2.Point K) : TightBox a b 0 1 (R2.Rect.fromPointList [a, b]) := by
  have key : ∀ p q : K, Tight1 p q 0 1 ((R1.Interval.fromPoint p).addPoint q) := by
    intro p q
    unfold Tight1 R1.Interval.addPoint R1.Interval.fromPoint R1.Interval.isEmpty
    rw [zero_mul, add_zero, one_mul, add_sub_cancel]
    simp only [gt_iff_lt, lt_irrefl, decide_false, Bool.false_eq_true, if_false]
    split_ifs with h1 h2
    · exact ⟨(min_eq_right h1.le).symm, (max_eq_left h1.le).symm⟩
    · exact ⟨(min_eq_left h2.le).symm, (max_eq_right h2.le).symm⟩
    · have : p = q := le_antisymm (not_lt.1 h1) (not_lt.1 h2)
      rw [this]; simp
  exact ⟨key a.x b.x, key a.y b.y⟩

theorem corner_eq {a b : R2.Point K} {s t : K} {r : R2.Rect K} (h : TightBox a b s t r) (hst : s ≤ t) :
    r.vertexIJ (if a.x > b.x then 1 else 0) (if a.y > b.y then 1 else 0) = seg a b s ∧
    r.vertexIJ (1 - (if a.x > b.x then 1 else 0)) (1 - (if a.y > b.y then 1 else 0)) = seg a b t := by
  unfold R2.Rect.vertexIJ seg
  have key : ∀ (p q : K) (i : R1.Interval K), Tight1 p q s t i →
      (if (if p > q then 1 else 0 : Int) = 0 then i.lo else i.hi) = p + s * (q - p) ∧
      (if (1 - (if p > q then 1 else 0 : Int)) = 0 then i.lo else i.hi) = p + t * (q - p) := by
    intro p q i hi
    by_cases c : p > q
    · rw [if_pos c]
      obtain ⟨e1, e2⟩ := tight1_nonpos hi hst (by linarith)
      exact ⟨by simp [e2], by simp [e1]⟩
    · rw [if_neg c]
      obtain ⟨e1, e2⟩ := tight1_nonneg hi hst (by linarith)
      exact ⟨by simp [e1], by simp [e2]⟩
  obtain ⟨x1, x2⟩ := key _ _ _ h.1
  obtain ⟨y1, y2⟩ := key _ _ _ h.2
  rw [x1, x2, y1, y2]
  exact ⟨rfl, rfl⟩

/-- **C79.** `clip_edge` in exact arithmetic: true if and only if the segment meets the rectangle, and then the two results are the ends,
in the order of the segment, of exactly the part inside the rectangle. -/
theorem c79_clipEdge (a b : R2.Point K) (clip : R2.Rect K) :
    ((clipEdge _root_.id a b clip).2.2 = true ↔ ∃ t, 0 ≤ t ∧ t ≤ 1 ∧ InRect clip (seg a b t)) ∧
    ((clipEdge _root_.id a b clip).2.2 = true → ∃ s1 s2, 0 ≤ s1 ∧ s1 ≤ s2 ∧ s2 ≤ 1 ∧
      (clipEdge _root_.id a b clip).1 = seg a b s1 ∧ (clipEdge _root_.id a b clip).2.1 = seg a b s2 ∧
      ∀ t, 0 ≤ t → t ≤ 1 → (InRect clip (seg a b t) ↔ s1 ≤ t ∧ t ≤ s2)) := by
  obtain ⟨h1, h2⟩ := c79_clipEdgeBound a b clip _ zero_le_one (pairBox a b)
  unfold clipEdge
  simp only
  by_cases c : (clipEdgeBound _root_.id a b clip (R2.Rect.fromPointList [a, b])).2 = true
  · rw [if_neg (by simp [c])]
    refine ⟨⟨fun _ => h1.1 c, fun _ => rfl⟩, fun _ => ?_⟩
    obtain ⟨s1, s2, g1, g2, g3, g4, g5⟩ := h2 c
    obtain ⟨e1, e2⟩ := corner_eq g4 g2
    exact ⟨s1, s2, g1, g2, g3, e1, e2, g5⟩
  · rw [if_pos (by simpa using c)]
    exact ⟨⟨fun h => (by cases h), fun h => absurd (h1.2 h) c⟩, fun h => by cases h⟩

/-- **C79.** `clipped_edge_bound` in exact arithmetic: the points of the result are those of the bounding rectangle of the part inside. -/
theorem c79_clippedEdgeBound (a b : R2.Point K) (clip : R2.Rect K) :
    ((clippedEdgeBound _root_.id a b clip).isEmpty = false ↔ ∃ t, 0 ≤ t ∧ t ≤ 1 ∧ InRect clip (seg a b t)) ∧
    ∀ t, 0 ≤ t → t ≤ 1 → InRect clip (seg a b t) → InRect (clippedEdgeBound _root_.id a b clip) (seg a b t) := by
  obtain ⟨h1, h2⟩ := c79_clipEdgeBound a b clip _ zero_le_one (pairBox a b)
  unfold clippedEdgeBound
  simp only
  by_cases c : (clipEdgeBound _root_.id a b clip (R2.Rect.fromPointList [a, b])).2 = true
  · rw [if_pos c]
    obtain ⟨s1, s2, g1, g2, g3, g4, g5⟩ := h2 c
    constructor
    · refine ⟨fun _ => h1.1 c, fun _ => ?_⟩
      unfold R2.Rect.isEmpty R1.Interval.isEmpty
      rw [g4.1.1, g4.1.2, decide_eq_false (not_lt.2 min_le_max)]
    · intro t ht0 ht1 ht
      obtain ⟨k1, k2⟩ := (g5 t ht0 ht1).1 ht
      have key : ∀ (p q : K) (i : R1.Interval K), Tight1 p q s1 s2 i → i.lo ≤ p + t * (q - p) ∧ p + t * (q - p) ≤ i.hi := by
        intro p q i hi
        rcases le_total 0 (q - p) with hd | hd
        · obtain ⟨e1, e2⟩ := tight1_nonneg hi g2 hd
          rw [e1, e2]; constructor <;> nlinarith
        · obtain ⟨e1, e2⟩ := tight1_nonpos hi g2 hd
          rw [e1, e2]; constructor <;> nlinarith
      obtain ⟨x1, x2⟩ := key _ _ _ g4.1
      obtain ⟨y1, y2⟩ := key _ _ _ g4.2
      exact ⟨x1, x2, y1, y2⟩
  · rw [if_neg c]
    have hn : ¬ ∃ t, 0 ≤ t ∧ t ≤ 1 ∧ InRect clip (seg a b t) := fun h => c (h1.2 h)
    refine ⟨⟨fun h => ?_, fun h => absurd h hn⟩, fun t h0 h1 h2 => absurd ⟨t, h0, h1, h2⟩ hn⟩
    exfalso
    unfold R2.Rect.isEmpty R2.Rect.empty R1.Interval.isEmpty R1.Interval.empty at h
    simp at h

/-- The hypotheses and the result of `c79_clipEdge` on a segment that crosses a corner of the rectangle. -/
example : clipEdge (_root_.id : ℚ → ℚ) ⟨0, 3⟩ ⟨4, 1⟩ ⟨⟨1, 10⟩, ⟨0, 2⟩⟩ = (⟨2, 2⟩, ⟨4, 1⟩, true) := by decide +kernel

example : (clipEdge (_root_.id : ℚ → ℚ) ⟨0, 3⟩ ⟨2, 1⟩ ⟨⟨2, 10⟩, ⟨2, 5⟩⟩).2.2 = false := by decide +kernel

theorem updateEndpoint_sub (i : R1.Interval K) (high : Bool) (v : K) (h : i.lo ≤ i.hi) :
    i.lo ≤ (updateEndpoint i high v).1.lo ∧ (updateEndpoint i high v).1.lo ≤ (updateEndpoint i high v).1.hi ∧ (updateEndpoint i high v).1.hi ≤ i.hi := by
  unfold updateEndpoint
  split_ifs <;> grind

/-- **C79.** For any rounding and any numbers: the result of `clip_bound_axis` lies inside the given intervals, the first also inside the clip
interval, and neither is empty. -/
theorem axis_sub (fl : K → K) {a0 b0 a1 b1 : K} {i0 i1 : R1.Interval K} {neg : Bool} {clip : R1.Interval K} (h0 : i0.lo ≤ i0.hi) (h1 : i1.lo ≤ i1.hi) :
    let r := clipBoundAxis fl a0 b0 i0 a1 b1 i1 neg clip
    r.2.2 = true → (i0.lo ≤ r.1.lo ∧ clip.lo ≤ r.1.lo ∧ r.1.lo ≤ r.1.hi ∧ r.1.hi ≤ clip.hi ∧ r.1.hi ≤ i0.hi) ∧
      (i1.lo ≤ r.2.1.lo ∧ r.2.1.lo ≤ r.2.1.hi ∧ r.2.1.hi ≤ i1.hi) := by
  intro r
  have hr : r = clipBoundAxis fl a0 b0 i0 a1 b1 i1 neg clip := rfl
  clear_value r
  unfold clipBoundAxis at hr
  simp only at hr
  have hL : (clipLow fl a0 b0 i0 a1 b1 i1 neg clip).2.2 = true →
      (i0.lo ≤ (clipLow fl a0 b0 i0 a1 b1 i1 neg clip).1.lo ∧ clip.lo ≤ (clipLow fl a0 b0 i0 a1 b1 i1 neg clip).1.lo ∧
        (clipLow fl a0 b0 i0 a1 b1 i1 neg clip).1.lo ≤ (clipLow fl a0 b0 i0 a1 b1 i1 neg clip).1.hi ∧ (clipLow fl a0 b0 i0 a1 b1 i1 neg clip).1.hi = i0.hi) ∧
      (i1.lo ≤ (clipLow fl a0 b0 i0 a1 b1 i1 neg clip).2.1.lo ∧ (clipLow fl a0 b0 i0 a1 b1 i1 neg clip).2.1.lo ≤ (clipLow fl a0 b0 i0 a1 b1 i1 neg clip).2.1.hi ∧
        (clipLow fl a0 b0 i0 a1 b1 i1 neg clip).2.1.hi ≤ i1.hi) := by
    unfold clipLow
    by_cases c1 : i0.lo < clip.lo
    · rw [if_pos c1]
      by_cases c2 : i0.hi < clip.lo
      · rw [if_pos c2]; intro h; cases h
      · rw [if_neg c2]
        intro _
        exact ⟨⟨c1.le, le_rfl, not_lt.1 c2, rfl⟩, updateEndpoint_sub _ _ _ h1⟩
    · rw [if_neg c1]
      intro _
      exact ⟨⟨le_rfl, not_lt.1 c1, h0, rfl⟩, le_rfl, h1, le_rfl⟩
  generalize clipLow fl a0 b0 i0 a1 b1 i1 neg clip = q at *
  by_cases c : q.2.2 = true
  · rw [if_pos c] at hr
    obtain ⟨⟨g1, g2, g3, g4⟩, g5, g6, g7⟩ := hL c
    rw [hr]
    unfold clipHigh
    by_cases c1 : q.1.hi > clip.hi
    · rw [if_pos c1]
      by_cases c2 : q.1.lo > clip.hi
      · rw [if_pos c2]; intro h; cases h
      · rw [if_neg c2]
        intro _
        obtain ⟨u1, u2, u3⟩ := updateEndpoint_sub q.2.1 (!neg) (interpolate fl clip.hi a0 b0 a1 b1) g6
        exact ⟨⟨g1, g2, not_lt.1 c2, le_rfl, by rw [← g4]; exact le_of_lt c1⟩, g5.trans u1, u2, u3.trans g7⟩
    · rw [if_neg c1]
      intro _
      exact ⟨⟨g1, g2, g3, not_lt.1 c1, g4.le⟩, g5, g6, g7⟩
  · rw [if_neg c] at hr
    rw [hr]
    intro h
    exact absurd h c

/-- **C79.** With any rounding, a positive result of `clip_edge_bound` is a rectangle that is not empty and lies in the clip rectangle and in
the given bound. -/
theorem c79_inside (fl : K → K) (a b : R2.Point K) (clip bound : R2.Rect K) (hx : bound.x.lo ≤ bound.x.hi) (hy : bound.y.lo ≤ bound.y.hi)
    (h : (clipEdgeBound fl a b clip bound).2 = true) :
    let r := (clipEdgeBound fl a b clip bound).1
    r.x.lo ≤ r.x.hi ∧ r.y.lo ≤ r.y.hi ∧ (∀ p, InRect r p → InRect clip p ∧ InRect bound p) := by
  intro r
  have hr : r = (clipEdgeBound fl a b clip bound).1 := rfl
  clear_value r
  unfold clipEdgeBound at hr h
  simp only at hr h
  have hX := axis_sub fl (a0 := a.x) (b0 := b.x) (a1 := a.y) (b1 := b.y) (neg := xor (decide (a.x > b.x)) (decide (a.y > b.y))) (clip := clip.x) hx hy
  simp only at hX
  generalize clipBoundAxis fl a.x b.x bound.x a.y b.y bound.y _ clip.x = q at *
  by_cases c : q.2.2 = true
  · obtain ⟨⟨g1, g2, g3, g4, g5⟩, g6, g7, g8⟩ := hX c
    have hY := axis_sub fl (a0 := a.y) (b0 := b.y) (a1 := a.x) (b1 := b.x) (neg := xor (decide (a.x > b.x)) (decide (a.y > b.y))) (clip := clip.y) g7 g3
    simp only at hY
    rw [if_neg (by simp [c])] at hr h
    generalize clipBoundAxis fl a.y b.y q.2.1 a.x b.x q.1 _ clip.y = p at *
    by_cases c2 : p.2.2 = true
    · obtain ⟨⟨f1, f2, f3, f4, f5⟩, f6, f7, f8⟩ := hY c2
      rw [if_neg (by simp [c2])] at hr
      rw [hr]
      refine ⟨f7, f3, fun z hz => ?_⟩
      obtain ⟨z1, z2, z3, z4⟩ := hz
      simp only at z1 z2 z3 z4
      unfold InRect
      refine ⟨⟨?_, ?_, ?_, ?_⟩, ?_, ?_, ?_, ?_⟩ <;> linarith
    · rw [if_pos (by simpa using c2)] at h
      cases h
  · rw [if_pos (by simpa using c)] at h
    cases h

/-- The values of `edge_intersects_rect` for one axis: the parameters at which the line is within the interval. -/
theorem axis_range {a d lo hi : K} (hd : d ≠ 0) (h : lo ≤ hi) :
    ∃ L U, L ≤ U ∧ (∀ t, (lo ≤ a + t * d ∧ a + t * d ≤ hi) ↔ L ≤ t ∧ t ≤ U) ∧
      (0 < d → L * d = lo - a ∧ U * d = hi - a) ∧ (d < 0 → L * d = hi - a ∧ U * d = lo - a) := by
  rcases lt_or_gt_of_ne hd with hn | hn
  · refine ⟨(hi - a) / d, (lo - a) / d, ?_, fun t => ?_, fun h => absurd h (not_lt.2 hn.le), fun _ => ⟨by field_simp, by field_simp⟩⟩
    · rw [div_le_div_right_of_neg hn]; linarith
    · rw [div_le_iff_of_neg hn, le_div_iff_of_neg hn]
      constructor <;> rintro ⟨h1, h2⟩ <;> constructor <;> linarith
  · refine ⟨(lo - a) / d, (hi - a) / d, ?_, fun t => ?_, fun _ => ⟨by field_simp, by field_simp⟩, fun h => absurd h (not_lt.2 hn.le)⟩
    · rw [div_le_div_iff_of_pos_right hn]; linarith
    · rw [div_le_iff₀ hn, le_div_iff₀ hn]
      constructor <;> rintro ⟨h1, h2⟩ <;> constructor <;> linarith

theorem interval_meets {a b : K} {r i : R1.Interval K} (hr : r.lo ≤ r.hi) (hi : Tight1 a b 0 1 i) :
    r.intersects i = true ↔ r.lo ≤ max a b ∧ min a b ≤ r.hi := by
  obtain ⟨e1, e2⟩ := hi
  rw [zero_mul, add_zero, one_mul, add_sub_cancel] at e1 e2
  unfold R1.Interval.intersects
  have := min_le_max (a := a) (b := b)
  rw [e1, e2]
  split_ifs with c
  · rw [Bool.and_eq_true, decide_eq_true_eq, decide_eq_true_eq]
    exact ⟨fun h => ⟨c.trans this, h.1⟩, fun h => ⟨h.2, this⟩⟩
  · rw [Bool.and_eq_true, decide_eq_true_eq, decide_eq_true_eq]
    exact ⟨fun h => ⟨h.1, (not_le.1 c).le.trans hr⟩, fun h => ⟨h.1, hr⟩⟩

theorem corner_bound {x lo hi : K} (c p : K) (h1 : lo ≤ x) (h2 : x ≤ hi) :
    c * (x - p) ≤ c * ((if 0 ≤ c then hi else lo) - p) ∧ c * ((if 0 ≤ c then lo else hi) - p) ≤ c * (x - p) := by
  split_ifs with h
  · exact ⟨mul_le_mul_of_nonneg_left (by linarith) h, mul_le_mul_of_nonneg_left (by linarith) h⟩
  · exact ⟨mul_le_mul_of_nonpos_left (by linarith) (not_le.1 h).le, mul_le_mul_of_nonpos_left (by linarith) (not_le.1 h).le⟩

theorem ends_bound {t p d lo hi : K} (t0 : 0 ≤ t) (t1 : t ≤ 1) (h1 : lo ≤ p + t * d) (h2 : p + t * d ≤ hi) :
    (lo ≤ p ∨ lo ≤ p + d) ∧ (p ≤ hi ∨ p + d ≤ hi) := by
  rcases le_total 0 d with hd | hd
  · exact ⟨Or.inr (by nlinarith), Or.inl (by nlinarith)⟩
  · exact ⟨Or.inl (by nlinarith), Or.inr (by nlinarith)⟩

set_option maxHeartbeats 1000000 in
/-- **C79.** `edge_intersects_rect` in exact arithmetic: true if and only if the closed segment meets the closed rectangle. -/
theorem c79_edgeIntersectsRect (a b : R2.Point K) (r : R2.Rect K) (hx : r.x.lo ≤ r.x.hi) (hy : r.y.lo ≤ r.y.hi) :
    edgeIntersectsRect _root_.id a b r = true ↔ ∃ t, 0 ≤ t ∧ t ≤ 1 ∧ InRect r (seg a b t) := by
  have hbox := pairBox a b
  have mx := interval_meets hx hbox.1
  have my := interval_meets hy hbox.2
  set n : R2.Point K := ⟨-(b.y - a.y), b.x - a.x⟩ with hn
  have main : edgeIntersectsRect _root_.id a b r = true ↔
      ((r.x.lo ≤ max a.x b.x ∧ min a.x b.x ≤ r.x.hi) ∧ (r.y.lo ≤ max a.y b.y ∧ min a.y b.y ≤ r.y.hi)) ∧
      0 ≤ n.x * ((if 0 ≤ n.x then r.x.hi else r.x.lo) - a.x) + n.y * ((if 0 ≤ n.y then r.y.hi else r.y.lo) - a.y) ∧
      n.x * ((if 0 ≤ n.x then r.x.lo else r.x.hi) - a.x) + n.y * ((if 0 ≤ n.y then r.y.lo else r.y.hi) - a.y) ≤ 0 := by
    unfold edgeIntersectsRect R2.Rect.intersects
    rw [← mx, ← my]
    by_cases c : (r.x.intersects (R2.Rect.fromPointList [a, b]).x && r.y.intersects (R2.Rect.fromPointList [a, b]).y) = true
    · rw [if_neg (by rw [c]; simp)]
      rw [Bool.and_eq_true] at c
      simp only [c, R2.Point.sub, R2.Point.ortho, R2.Point.dot, R2.Rect.vertexIJ, id, ← hn, Bool.and_eq_true, decide_eq_true_eq, ge_iff_le, true_and]
      by_cases h1 : 0 ≤ n.x <;> by_cases h2 : 0 ≤ n.y <;> simp [h1, h2]
    · rw [if_pos (by rw [Bool.not_eq_true] at c; rw [c]; rfl)]
      rw [Bool.and_eq_true] at c
      constructor
      · intro h; cases h
      · rintro ⟨h, -⟩; exact absurd h c
  rw [main]
  have en1 : n.x = -(b.y - a.y) := rfl
  have en2 : n.y = b.x - a.x := rfl
  rw [en1, en2]
  unfold InRect seg
  simp only
  set d0 := b.x - a.x with hd0
  set d1 := b.y - a.y with hd1
  have eb0 : b.x = a.x + d0 := by rw [hd0]; ring
  have eb1 : b.y = a.y + d1 := by rw [hd1]; ring
  rw [eb0, eb1]
  clear_value d0 d1
  clear hd0 hd1 eb0 eb1 en1 en2 main mx my hbox hn n
  generalize a.x = p at *
  generalize a.y = q at *
  generalize r.x.lo = xl at *
  generalize r.x.hi = xh at *
  generalize r.y.lo = yl at *
  generalize r.y.hi = yh at *
  have ov : ∀ p d lo hi : K, (lo ≤ max p (p + d) ∧ min p (p + d) ≤ hi) ↔ (lo ≤ p ∨ lo ≤ p + d) ∧ (p ≤ hi ∨ p + d ≤ hi) := by
    intro p d lo hi; rw [le_max_iff, min_le_iff]
  rw [ov, ov]
  constructor
  · rintro ⟨⟨⟨x1, x2⟩, y1, y2⟩, m1, m2⟩
    rcases eq_or_ne d0 0 with z0 | z0 <;> rcases eq_or_ne d1 0 with z1 | z1
    · subst z0; subst z1
      simp only [add_zero, or_self, mul_zero] at *
      exact ⟨0, le_rfl, zero_le_one, x1, x2, y1, y2⟩
    · subst z0
      obtain ⟨L, U, hLU, h1, h2, h3⟩ := axis_range (a := q) z1 hy
      simp only [add_zero, or_self, mul_zero] at *
      have hLU1 : L ≤ 1 ∧ 0 ≤ U := by
        rcases lt_or_gt_of_ne z1 with s | s
        · obtain ⟨k1, k2⟩ := h3 s
          constructor
          · by_contra hc
            have := not_le.1 hc
            rcases y2 with y2 | y2 <;> nlinarith
          · by_contra hc
            have := not_le.1 hc
            rcases y1 with y1 | y1 <;> nlinarith
        · obtain ⟨k1, k2⟩ := h2 s
          constructor
          · by_contra hc
            have := not_le.1 hc
            rcases y1 with y1 | y1 <;> nlinarith
          · by_contra hc
            have := not_le.1 hc
            rcases y2 with y2 | y2 <;> nlinarith
      obtain ⟨k1, k2⟩ := (h1 (max 0 L)).2 ⟨le_max_right _ _, max_le hLU1.2 hLU⟩
      exact ⟨max 0 L, le_max_left _ _, max_le zero_le_one hLU1.1, x1, x2, k1, k2⟩
    · subst z1
      obtain ⟨L, U, hLU, h1, h2, h3⟩ := axis_range (a := p) z0 hx
      simp only [add_zero, or_self, mul_zero] at *
      have hLU1 : L ≤ 1 ∧ 0 ≤ U := by
        rcases lt_or_gt_of_ne z0 with s | s
        · obtain ⟨k1, k2⟩ := h3 s
          constructor
          · by_contra hc
            have := not_le.1 hc
            rcases x2 with x2 | x2 <;> nlinarith
          · by_contra hc
            have := not_le.1 hc
            rcases x1 with x1 | x1 <;> nlinarith
        · obtain ⟨k1, k2⟩ := h2 s
          constructor
          · by_contra hc
            have := not_le.1 hc
            rcases x1 with x1 | x1 <;> nlinarith
          · by_contra hc
            have := not_le.1 hc
            rcases x2 with x2 | x2 <;> nlinarith
      obtain ⟨k1, k2⟩ := (h1 (max 0 L)).2 ⟨le_max_right _ _, max_le hLU1.2 hLU⟩
      exact ⟨max 0 L, le_max_left _ _, max_le zero_le_one hLU1.1, k1, k2, y1, y2⟩
    · obtain ⟨L, U, hLU, h1, h2, h3⟩ := axis_range (a := p) z0 hx
      obtain ⟨M, V, hMV, g1, g2, g3⟩ := axis_range (a := q) z1 hy
      have hL : L ≤ 1 ∧ 0 ≤ U := by
        rcases lt_or_gt_of_ne z0 with s | s
        · obtain ⟨k1, k2⟩ := h3 s
          constructor
          · by_contra hc
            have := not_le.1 hc
            rcases x2 with x2 | x2 <;> nlinarith
          · by_contra hc
            have := not_le.1 hc
            rcases x1 with x1 | x1 <;> nlinarith
        · obtain ⟨k1, k2⟩ := h2 s
          constructor
          · by_contra hc
            have := not_le.1 hc
            rcases x1 with x1 | x1 <;> nlinarith
          · by_contra hc
            have := not_le.1 hc
            rcases x2 with x2 | x2 <;> nlinarith
      have hM : M ≤ 1 ∧ 0 ≤ V := by
        rcases lt_or_gt_of_ne z1 with s | s
        · obtain ⟨k1, k2⟩ := g3 s
          constructor
          · by_contra hc
            have := not_le.1 hc
            rcases y2 with y2 | y2 <;> nlinarith
          · by_contra hc
            have := not_le.1 hc
            rcases y1 with y1 | y1 <;> nlinarith
        · obtain ⟨k1, k2⟩ := g2 s
          constructor
          · by_contra hc
            have := not_le.1 hc
            rcases y1 with y1 | y1 <;> nlinarith
          · by_contra hc
            have := not_le.1 hc
            rcases y2 with y2 | y2 <;> nlinarith
      have hLM : L ≤ V ∧ M ≤ U := by
        have fin : ∀ A B C : K, 0 < C → (A - B) * C ≤ 0 → A ≤ B := by
          intro A B C hC h
          by_contra hc
          have := mul_pos (sub_pos.2 (not_le.1 hc)) hC
          linarith
        rcases lt_or_gt_of_ne z0 with s | s <;> rcases lt_or_gt_of_ne z1 with s' | s'
        · obtain ⟨k1, k2⟩ := h3 s
          obtain ⟨l1, l2⟩ := g3 s'
          rw [if_pos (by linarith), if_neg (by linarith)] at m1 m2
          have hC := mul_pos_of_neg_of_neg s s'
          exact ⟨fin _ _ _ hC (by linear_combination m1 + d1 * k1 - d0 * l2), fin _ _ _ hC (by linear_combination m2 + d0 * l1 - d1 * k2)⟩
        · obtain ⟨k1, k2⟩ := h3 s
          obtain ⟨l1, l2⟩ := g2 s'
          rw [if_neg (by linarith), if_neg (by linarith)] at m1 m2
          have hC := mul_pos_of_neg_of_neg s (neg_neg_of_pos s')
          exact ⟨fin _ _ _ hC (by linear_combination m2 - d1 * k1 + d0 * l2), fin _ _ _ hC (by linear_combination m1 - d0 * l1 + d1 * k2)⟩
        · obtain ⟨k1, k2⟩ := h2 s
          obtain ⟨l1, l2⟩ := g3 s'
          rw [if_pos (by linarith), if_pos s.le] at m1 m2
          have hC := mul_pos s (neg_pos.2 s')
          exact ⟨fin _ _ _ hC (by linear_combination m2 - d1 * k1 + d0 * l2), fin _ _ _ hC (by linear_combination m1 - d0 * l1 + d1 * k2)⟩
        · obtain ⟨k1, k2⟩ := h2 s
          obtain ⟨l1, l2⟩ := g2 s'
          rw [if_neg (by linarith), if_pos s.le] at m1 m2
          have hC := mul_pos s s'
          exact ⟨fin _ _ _ hC (by linear_combination m1 + d1 * k1 - d0 * l2), fin _ _ _ hC (by linear_combination m2 + d0 * l1 - d1 * k2)⟩
      obtain ⟨k1, k2⟩ := (h1 (max 0 (max L M))).2 ⟨(le_max_left _ _).trans (le_max_right _ _), max_le hL.2 (max_le hLU hLM.2)⟩
      obtain ⟨l1, l2⟩ := (g1 (max 0 (max L M))).2 ⟨(le_max_right _ _).trans (le_max_right _ _), max_le hM.2 (max_le hLM.1 hMV)⟩
      exact ⟨max 0 (max L M), le_max_left _ _, max_le zero_le_one (max_le hL.1 hM.1), k1, k2, l1, l2⟩
  · rintro ⟨t, t0, t1, k1, k2, l1, l2⟩
    have e : -d1 * (p + t * d0 - p) + d0 * (q + t * d1 - q) = 0 := by ring
    obtain ⟨a1, a2⟩ := corner_bound (-d1) p k1 k2
    obtain ⟨b1, b2⟩ := corner_bound d0 q l1 l2
    exact ⟨⟨ends_bound t0 t1 k1 k2, ends_bound t0 t1 l1 l2⟩, by linarith, by linarith⟩

/-- A rectangle that the bounding rectangle of the segment meets but the segment does not, and one that it touches in a corner. -/
example : edgeIntersectsRect (_root_.id : ℚ → ℚ) ⟨0, 3⟩ ⟨2, 1⟩ ⟨⟨2, 10⟩, ⟨2, 5⟩⟩ = false ∧
    edgeIntersectsRect (_root_.id : ℚ → ℚ) ⟨0, 4⟩ ⟨4, 0⟩ ⟨⟨2, 10⟩, ⟨2, 5⟩⟩ = true := by decide +kernel

/-- **C79, defect.** `clip_edge_bound` is documented to return the original bound together with false. It does not when the edge misses the
clip rectangle only in the second coordinate. -/
theorem c79_clipEdgeBound_defect : ∃ (a b : R2.Point ℚ) (clip : R2.Rect ℚ),
    TightBox a b 0 1 (R2.Rect.fromPointList [a, b]) ∧
    (clipEdgeBound _root_.id a b clip (R2.Rect.fromPointList [a, b])).2 = false ∧
    (clipEdgeBound _root_.id a b clip (R2.Rect.fromPointList [a, b])).1 ≠ R2.Rect.fromPointList [a, b] := by
  refine ⟨⟨0, 0⟩, ⟨2, 2⟩, ⟨⟨1, 2⟩, ⟨3, 4⟩⟩, pairBox _ _, by decide +kernel, ?_⟩
  intro h
  have h2 := congrArg (fun r => r.x.lo) h
  revert h2
  decide +kernel

/-- **C79, defect.** `interpolate` is documented to return `b1` at `b`; if `a = b` it returns `a1`. -/
theorem c79_interpolate_defect (fl : K → K) (a a1 b1 : K) : interpolate fl a a a a1 b1 = a1 := by
  unfold interpolate
  exact if_pos rfl

end Verif
