import Verif.Model.R1
import Mathlib.Tactic.Linarith
import Mathlib.Tactic.Ring
import Mathlib.Tactic.NormNum
import Mathlib.Algebra.Order.Ring.Rat
import Mathlib.Algebra.Order.Field.Rat

/-! # Intervals of the line: C48 and C49 -/

namespace Verif

namespace Spec

/-- `x` is a point of the closed interval from `lo` to `hi`. -/
def InIv {K : Type} [LE K] (lo hi x : K) : Prop := lo ≤ x ∧ x ≤ hi

/-- `x` is a point of the interior. -/
def InOpen {K : Type} [LT K] (lo hi x : K) : Prop := lo < x ∧ x < hi

end Spec

namespace R1
open Spec Interval

section order
variable {K : Type} [LinearOrder K]

/-- The points of an interval. -/
abbrev Pts (i : Interval K) (x : K) : Prop := InIv i.lo i.hi x

/-- The points of its interior. -/
abbrev Ints (i : Interval K) (x : K) : Prop := InOpen i.lo i.hi x

theorem isEmpty_iff {i : Interval K} : i.isEmpty = true ↔ i.hi < i.lo := by
  simp [Interval.isEmpty]

theorem isEmpty_eq_false {i : Interval K} : i.isEmpty = false ↔ i.lo ≤ i.hi := by
  simp [Interval.isEmpty]

/-- **C48.** -/
theorem c48_isEmpty {i : Interval K} : i.isEmpty = true ↔ ∀ x, ¬ Pts i x := by
  rw [isEmpty_iff]
  constructor
  · intro h x hx
    exact absurd (hx.1.trans hx.2) (not_le.2 h)
  · intro h
    by_contra hc
    exact h i.lo ⟨le_refl _, not_lt.1 hc⟩

/-- **C48.** -/
theorem c48_contains {i : Interval K} {p : K} :
    (i.contains p = true ↔ Pts i p) ∧ (i.interiorContains p = true ↔ Ints i p) := by
  simp [Interval.contains, Interval.interiorContains, InIv, InOpen]

/-- **C48.** -/
theorem c48_containsInterval {i j : Interval K} : i.containsInterval j = true ↔ ∀ x, Pts j x → Pts i x := by
  unfold Interval.containsInterval
  cases h : j.isEmpty
  · rw [isEmpty_eq_false] at h
    simp only [Bool.false_eq_true, if_false, Bool.and_eq_true, decide_eq_true_eq]
    exact ⟨fun ⟨a, b⟩ x hx => ⟨a.trans hx.1, hx.2.trans b⟩,
      fun g => ⟨(g j.lo ⟨le_refl _, h⟩).1, (g j.hi ⟨h, le_refl _⟩).2⟩⟩
  · rw [c48_isEmpty] at h
    simp only [if_true, true_iff]
    exact fun x hx => absurd hx (h x)

/-- **C48.** -/
theorem c48_interiorContainsInterval {i j : Interval K} :
    i.interiorContainsInterval j = true ↔ ∀ x, Pts j x → Ints i x := by
  unfold Interval.interiorContainsInterval
  cases h : j.isEmpty
  · rw [isEmpty_eq_false] at h
    simp only [Bool.false_eq_true, if_false, Bool.and_eq_true, decide_eq_true_eq]
    exact ⟨fun ⟨a, b⟩ x hx => ⟨a.trans_le hx.1, hx.2.trans_lt b⟩,
      fun g => ⟨(g j.lo ⟨le_refl _, h⟩).1, (g j.hi ⟨h, le_refl _⟩).2⟩⟩
  · rw [c48_isEmpty] at h
    simp only [if_true, true_iff]
    exact fun x hx => absurd hx (h x)

/-- **C48.** -/
theorem c48_intersects {i j : Interval K} : i.intersects j = true ↔ ∃ x, Pts i x ∧ Pts j x := by
  unfold Interval.intersects
  split
  · simp only [Bool.and_eq_true, decide_eq_true_eq]
    exact ⟨fun ⟨a, b⟩ => ⟨j.lo, ⟨‹_›, a⟩, ⟨le_refl _, b⟩⟩, fun ⟨x, a, b⟩ => ⟨b.1.trans a.2, b.1.trans b.2⟩⟩
  · have hl := le_of_not_ge ‹_›
    simp only [Bool.and_eq_true, decide_eq_true_eq]
    exact ⟨fun ⟨a, b⟩ => ⟨i.lo, ⟨le_refl _, b⟩, ⟨hl, a⟩⟩, fun ⟨x, a, b⟩ => ⟨a.1.trans b.2, a.1.trans a.2⟩⟩

/-- **C48.** Here the points are those of a dense order, as on the real line. -/
theorem c48_interiorIntersects [DenselyOrdered K] {i j : Interval K} :
    i.interiorIntersects j = true ↔ ∃ x, Ints i x ∧ Pts j x := by
  unfold Interval.interiorIntersects
  simp only [Bool.and_eq_true, decide_eq_true_eq]
  constructor
  · rintro ⟨⟨⟨a, b⟩, c⟩, d⟩
    rcases lt_or_ge i.lo j.lo with h | h
    · exact ⟨j.lo, ⟨h, a⟩, ⟨le_refl _, d⟩⟩
    · obtain ⟨x, h1, h2⟩ := exists_between (show i.lo < min i.hi j.hi from lt_min c b)
      exact ⟨x, ⟨h1, h2.trans_le (min_le_left _ _)⟩, ⟨h.trans h1.le, (h2.trans_le (min_le_right _ _)).le⟩⟩
  · rintro ⟨x, a, b⟩
    exact ⟨⟨⟨b.1.trans_lt a.2, a.1.trans_le b.2⟩, a.1.trans a.2⟩, b.1.trans b.2⟩

/-- **C48.** -/
theorem c48_intersection {i j : Interval K} (x : K) : Pts (i.intersection j) x ↔ Pts i x ∧ Pts j x := by
  unfold Interval.intersection
  simp only [Pts, InIv, max_le_iff, le_min_iff]
  tauto

/-- **C48.** The union is the least interval that contains both. -/
theorem c48_union {i j : Interval K} :
    (∀ x, Pts i x ∨ Pts j x → Pts (i.union j) x) ∧
    ∀ k : Interval K, (∀ x, Pts i x ∨ Pts j x → Pts k x) → ∀ x, Pts (i.union j) x → Pts k x := by
  unfold Interval.union
  cases h : i.isEmpty
  · cases h' : j.isEmpty
    · rw [isEmpty_eq_false] at h h'
      simp only [Bool.false_eq_true, if_false]
      refine ⟨?_, ?_⟩
      · rintro x (⟨a, b⟩ | ⟨a, b⟩)
        · exact ⟨(min_le_left _ _).trans a, b.trans (le_max_left _ _)⟩
        · exact ⟨(min_le_right _ _).trans a, b.trans (le_max_right _ _)⟩
      · intro k hk x ⟨a, b⟩
        have h1 := hk i.lo (Or.inl ⟨le_refl _, h⟩)
        have h2 := hk i.hi (Or.inl ⟨h, le_refl _⟩)
        have h3 := hk j.lo (Or.inr ⟨le_refl _, h'⟩)
        have h4 := hk j.hi (Or.inr ⟨h', le_refl _⟩)
        exact ⟨(le_min h1.1 h3.1).trans a, b.trans (max_le h2.2 h4.2)⟩
    · rw [c48_isEmpty] at h'
      simp only [Bool.false_eq_true, if_false, if_true]
      exact ⟨fun x hx => hx.resolve_right (h' x), fun k hk x hx => hk x (Or.inl hx)⟩
  · rw [c48_isEmpty] at h
    simp only [if_true]
    exact ⟨fun x hx => hx.resolve_left (h x), fun k hk x hx => hk x (Or.inr hx)⟩

/-- **C48.** Adding a point gives the least interval that contains the interval and the point. -/
theorem c48_addPoint {i : Interval K} {p : K} :
    (∀ x, Pts i x ∨ x = p → Pts (i.addPoint p) x) ∧
    ∀ k : Interval K, (∀ x, Pts i x ∨ x = p → Pts k x) → ∀ x, Pts (i.addPoint p) x → Pts k x := by
  unfold Interval.addPoint
  cases h : i.isEmpty
  · rw [isEmpty_eq_false] at h
    simp only [Bool.false_eq_true, if_false]
    split
    · refine ⟨?_, ?_⟩
      · rintro x (⟨a, b⟩ | rfl)
        · exact ⟨(le_of_lt ‹_›).trans a, b⟩
        · exact ⟨le_refl _, (le_of_lt ‹_›).trans h⟩
      · intro k hk x ⟨a, b⟩
        exact ⟨(hk p (Or.inr rfl)).1.trans a, b.trans (hk i.hi (Or.inl ⟨h, le_refl _⟩)).2⟩
    · split
      · refine ⟨?_, ?_⟩
        · rintro x (⟨a, b⟩ | rfl)
          · exact ⟨a, b.trans (le_of_lt ‹_›)⟩
          · exact ⟨not_lt.1 ‹_›, le_refl _⟩
        · intro k hk x ⟨a, b⟩
          exact ⟨(hk i.lo (Or.inl ⟨le_refl _, h⟩)).1.trans a, b.trans (hk p (Or.inr rfl)).2⟩
      · refine ⟨?_, fun k hk x hx => hk x (Or.inl hx)⟩
        rintro x (hx | rfl)
        · exact hx
        · exact ⟨not_lt.1 ‹_›, not_lt.1 ‹_›⟩
  · rw [c48_isEmpty] at h
    simp only [if_true]
    refine ⟨?_, ?_⟩
    · rintro x (hx | rfl)
      · exact absurd hx (h x)
      · exact ⟨le_refl _, le_refl _⟩
    · intro k hk x ⟨a, b⟩
      obtain rfl := le_antisymm b a
      exact hk x (Or.inr rfl)

/-- **C48.** The two constructors from points give the least interval that contains them. -/
theorem c48_fromPoints {p q : K} :
    (∀ x, Pts (Interval.fromPoint p) x ↔ x = p) ∧
    Pts (Interval.fromPointPair p q) p ∧ Pts (Interval.fromPointPair p q) q ∧
    ∀ k : Interval K, Pts k p → Pts k q → ∀ x, Pts (Interval.fromPointPair p q) x → Pts k x := by
  refine ⟨fun x => ⟨fun ⟨a, b⟩ => le_antisymm b a, fun h => h ▸ ⟨le_refl _, le_refl _⟩⟩, ?_⟩
  unfold Interval.fromPointPair
  split
  · exact ⟨⟨le_refl _, ‹_›⟩, ⟨‹_›, le_refl _⟩, fun k a b x c => ⟨a.1.trans c.1, c.2.trans b.2⟩⟩
  · have hl := le_of_not_ge ‹_›
    exact ⟨⟨hl, le_refl _⟩, ⟨le_refl _, hl⟩, fun k a b x c => ⟨b.1.trans c.1, c.2.trans a.2⟩⟩

/-- **C48.** Two intervals are equal iff they have the same points. -/
theorem c48_eq {i j : Interval K} : i.eq j = true ↔ ∀ x, Pts i x ↔ Pts j x := by
  unfold Interval.eq
  simp only [Bool.or_eq_true, Bool.and_eq_true, decide_eq_true_eq]
  constructor
  · rintro (⟨a, b⟩ | ⟨a, b⟩) x
    · simp only [Pts, a, b]
    · rw [c48_isEmpty] at a b
      exact iff_of_false (a x) (b x)
  · intro h
    cases h' : i.isEmpty
    · rw [isEmpty_eq_false] at h'
      have h1 := (h i.lo).1 ⟨le_refl _, h'⟩
      have h2 := (h i.hi).1 ⟨h', le_refl _⟩
      have hj := h1.1.trans h1.2
      have h3 := (h j.lo).2 ⟨le_refl _, hj⟩
      have h4 := (h j.hi).2 ⟨hj, le_refl _⟩
      exact Or.inl ⟨le_antisymm h3.1 h1.1, le_antisymm h2.2 h4.2⟩
    · refine Or.inr ⟨rfl, ?_⟩
      rw [c48_isEmpty] at h' ⊢
      exact fun x hx => h' x ((h x).2 hx)

/-- **C48.** `clamp_point` gives a point of the interval, and one passes it going from `p` to any other point
of the interval. -/
theorem c48_clampPoint {i : Interval K} {p : K} (h : i.isEmpty = false) :
    Pts i (i.clampPoint p) ∧ ∀ x, Pts i x →
      (p ≤ i.clampPoint p ∧ i.clampPoint p ≤ x) ∨ (x ≤ i.clampPoint p ∧ i.clampPoint p ≤ p) := by
  rw [isEmpty_eq_false] at h
  unfold Interval.clampPoint
  refine ⟨⟨le_max_left _ _, max_le h (min_le_left _ _)⟩, ?_⟩
  intro x ⟨a, b⟩
  rcases le_total p i.lo with h1 | h1
  · have e : max i.lo (min i.hi p) = i.lo := max_eq_left ((min_le_right _ _).trans h1)
    rw [e]; exact Or.inl ⟨h1, a⟩
  · rcases le_total p i.hi with h2 | h2
    · have e : max i.lo (min i.hi p) = p := by rw [min_eq_right h2, max_eq_right h1]
      rw [e]
      exact (le_total p x).elim (fun g => Or.inl ⟨le_refl _, g⟩) (fun g => Or.inr ⟨g, le_refl _⟩)
    · have e : max i.lo (min i.hi p) = i.hi := by rw [min_eq_left h2, max_eq_right h]
      rw [e]; exact Or.inr ⟨b, h2⟩

end order

section field
variable {K : Type} [Field K] [LinearOrder K] [IsStrictOrderedRing K]

/-- **C48.** The constant `EMPTY` is empty. -/
theorem c48_empty : (Interval.empty (K := K)).isEmpty = true := by
  rw [isEmpty_iff]; exact zero_lt_one

/-- **C48.** The centre of a non-empty interval is a point of it, if rounding is monotone and the endpoints and their
doubles are representable. -/
theorem c48_center {fl : K → K} (mono : Monotone fl) {i : Interval K} (h : i.isEmpty = false)
    (h1 : fl i.lo = i.lo) (h2 : fl i.hi = i.hi) (h3 : fl (2 * i.lo) = 2 * i.lo) (h4 : fl (2 * i.hi) = 2 * i.hi) :
    Pts i (i.center fl) := by
  rw [isEmpty_eq_false] at h
  unfold Interval.center
  have a : 2 * i.lo ≤ fl (i.lo + i.hi) := h3 ▸ mono (by linarith)
  have b : fl (i.lo + i.hi) ≤ 2 * i.hi := h4 ▸ mono (by linarith)
  constructor
  · calc i.lo = fl i.lo := h1.symm
      _ ≤ _ := mono (by linarith)
  · calc _ ≤ fl i.hi := mono (by linarith)
      _ = i.hi := h2

/-- **C49.** With exact arithmetic, `expanded(m)`, `m ≥ 0`, is the set of points within `m` of the interval. -/
theorem c49_expanded {i : Interval K} {m : K} (hm : 0 ≤ m) (x : K) :
    Pts (i.expanded id m) x ↔ ∃ y, Pts i y ∧ |x - y| ≤ m := by
  unfold Interval.expanded
  cases h : i.isEmpty
  · rw [isEmpty_eq_false] at h
    simp only [Bool.false_eq_true, if_false, id]
    constructor
    · rintro ⟨a, b⟩
      simp only at a b
      rcases le_total x i.lo with h1 | h1
      · exact ⟨i.lo, ⟨le_refl _, h⟩, abs_le.2 ⟨by linarith, by linarith⟩⟩
      · rcases le_total x i.hi with h2 | h2
        · exact ⟨x, ⟨h1, h2⟩, by rw [sub_self, abs_zero]; exact hm⟩
        · exact ⟨i.hi, ⟨h, le_refl _⟩, abs_le.2 ⟨by linarith, by linarith⟩⟩
    · rintro ⟨y, ⟨a, b⟩, c⟩
      rw [abs_le] at c
      exact ⟨by simp only; linarith [c.1], by simp only; linarith [c.2]⟩
  · rw [c48_isEmpty] at h
    simp only [if_true]
    exact ⟨fun hx => absurd hx (h x), fun ⟨y, hy, _⟩ => absurd hy (h y)⟩

/-- **C49.** With a negative margin, `expanded` is the set of points whose whole neighbourhood is in the interval. -/
theorem c49_shrunk {i : Interval K} {m : K} (hm : m ≤ 0) (x : K) :
    Pts (i.expanded id m) x ↔ ∀ y, |x - y| ≤ -m → Pts i y := by
  unfold Interval.expanded
  cases h : i.isEmpty
  · simp only [Bool.false_eq_true, if_false, id]
    constructor
    · rintro ⟨a, b⟩ y c
      simp only at a b
      rw [abs_le] at c
      exact ⟨by linarith [c.2], by linarith [c.1]⟩
    · intro g
      have g1 := g (x + m) (by rw [show x - (x + m) = -m by ring, abs_of_nonneg (by linarith)])
      have g2 := g (x - m) (by rw [show x - (x - m) = m by ring, abs_of_nonpos hm])
      exact ⟨by simp only; linarith [g1.1], by simp only; linarith [g2.2]⟩
  · rw [c48_isEmpty] at h
    simp only [if_true]
    exact ⟨fun hx => absurd hx (h x), fun g => absurd (g x (by rw [sub_self, abs_zero]; linarith)) (h x)⟩

/-- **C49.** With any monotone rounding that fixes the endpoints, a positive margin loses no point, a negative one
adds none, and an empty interval is not changed. -/
theorem c49_rounded {fl : K → K} (mono : Monotone fl) {i : Interval K} (h1 : fl i.lo = i.lo) (h2 : fl i.hi = i.hi) (m : K) :
    (i.isEmpty = true → i.expanded fl m = i) ∧
    (0 ≤ m → ∀ x, Pts i x → Pts (i.expanded fl m) x) ∧ (m ≤ 0 → ∀ x, Pts (i.expanded fl m) x → Pts i x) := by
  unfold Interval.expanded
  refine ⟨fun h => if_pos h, ?_, ?_⟩
  · intro hm x hx
    split
    · exact hx
    · have a : fl (i.lo - m) ≤ i.lo := by calc _ ≤ fl i.lo := mono (by linarith)
          _ = i.lo := h1
      have b : i.hi ≤ fl (i.hi + m) := by calc i.hi = fl i.hi := h2.symm
          _ ≤ _ := mono (by linarith)
      exact ⟨a.trans hx.1, hx.2.trans b⟩
  · intro hm x hx
    split at hx
    · exact hx
    · have a : i.lo ≤ fl (i.lo - m) := by calc i.lo = fl i.lo := h1.symm
          _ ≤ _ := mono (by linarith)
      have b : fl (i.hi + m) ≤ i.hi := by calc _ ≤ fl i.hi := mono (by linarith)
          _ = i.hi := h2
      exact ⟨a.trans hx.1, hx.2.trans b⟩

/-- **C49.** The directed Hausdorff distance of two non-empty intervals (exact arithmetic): every point of the first has a
point of the second within that distance, and some point of the first has none nearer. -/
theorem c49_hausdorff {i j : Interval K} (hi : i.isEmpty = false) (hj : j.isEmpty = false) :
    ∃ d : K, i.directedHausdorffDistance id j = d ∧
      (∀ p, Pts i p → ∃ q, Pts j q ∧ |p - q| ≤ d) ∧ ∃ p, Pts i p ∧ ∀ q, Pts j q → d ≤ |p - q| := by
  unfold Interval.directedHausdorffDistance
  rw [hi, hj]
  rw [isEmpty_eq_false] at hi hj
  simp only [Bool.false_eq_true, if_false, id]
  refine ⟨_, rfl, ?_, ?_⟩
  · intro p ⟨a, b⟩
    have m0 : 0 ≤ max 0 (max (i.hi - j.hi) (j.lo - i.lo)) := le_max_left _ _
    have m1 : i.hi - j.hi ≤ max 0 (max (i.hi - j.hi) (j.lo - i.lo)) := (le_max_left _ _).trans (le_max_right _ _)
    have m2 : j.lo - i.lo ≤ max 0 (max (i.hi - j.hi) (j.lo - i.lo)) := (le_max_right _ _).trans (le_max_right _ _)
    rcases le_total p j.lo with h1 | h1
    · exact ⟨j.lo, ⟨le_refl _, hj⟩, abs_le.2 ⟨by linarith, by linarith⟩⟩
    · rcases le_total p j.hi with h2 | h2
      · exact ⟨p, ⟨h1, h2⟩, by rw [sub_self, abs_zero]; exact m0⟩
      · exact ⟨j.hi, ⟨hj, le_refl _⟩, abs_le.2 ⟨by linarith, by linarith⟩⟩
  · rcases le_total (max (i.hi - j.hi) (j.lo - i.lo)) 0 with h | h
    · rw [max_eq_left h]
      exact ⟨i.lo, ⟨le_refl _, hi⟩, fun q _ => abs_nonneg _⟩
    · rw [max_eq_right h]
      rcases le_total (i.hi - j.hi) (j.lo - i.lo) with g | g
      · rw [max_eq_right g]
        refine ⟨i.lo, ⟨le_refl _, hi⟩, fun q hq => ?_⟩
        rw [abs_sub_comm]
        exact le_trans (by linarith [hq.1]) (le_abs_self _)
      · rw [max_eq_left g]
        exact ⟨i.hi, ⟨hi, le_refl _⟩, fun q hq => le_trans (by linarith [hq.2]) (le_abs_self _)⟩

/-- **C49.** The distance from an empty interval is 0; the distance to an empty interval from a non-empty one is infinite. -/
theorem c49_hausdorff_empty {i j : Interval K} {fl : K → K} :
    (i.isEmpty = true → i.directedHausdorffDistance fl j = ((0 : K) : WithTop K)) ∧
    (i.isEmpty = false → j.isEmpty = true → i.directedHausdorffDistance fl j = ⊤) := by
  unfold Interval.directedHausdorffDistance
  exact ⟨fun h => by rw [if_pos h], fun h h' => by rw [if_neg (by simp [h]), if_pos h']⟩

/-- **C49.** `approx_eq_by` with a positive error is reflexive, symmetric and monotone in the error, if rounding commutes with
negation. -/
theorem c49_approxEq {fl : K → K} (mono : Monotone fl) (h0 : fl 0 = 0) (hn : ∀ x, fl (-x) = -fl x) {i j : Interval K} {e f : K}
    (he : 0 < e) :
    i.approxEqBy fl i e = true ∧ i.approxEqBy fl j e = j.approxEqBy fl i e ∧
    (e ≤ f → i.approxEqBy fl j e = true → i.approxEqBy fl j f = true) := by
  have neglen : ∀ {i : Interval K}, i.isEmpty = true → i.len fl < 2 * e := by
    intro i hi
    rw [isEmpty_iff] at hi
    have : i.len fl ≤ 0 := by calc i.len fl ≤ fl 0 := mono (by linarith)
        _ = 0 := h0
    linarith
  unfold Interval.approxEqBy
  refine ⟨?_, ?_, ?_⟩
  · cases h : i.isEmpty
    · simp [h0, he.le]
    · simp [neglen h]
  · cases h : i.isEmpty <;> cases h' : j.isEmpty
    · have a : fl (i.lo - j.lo) = -fl (j.lo - i.lo) := by rw [← hn]; congr 1; ring
      have b : fl (i.hi - j.hi) = -fl (j.hi - i.hi) := by rw [← hn]; congr 1; ring
      simp only [Bool.false_eq_true, if_false, a, b, abs_neg]
    · simp
    · simp
    · simp [neglen h, neglen h']
  · intro hef
    cases h : i.isEmpty <;> cases h' : j.isEmpty <;>
      simp only [Bool.false_eq_true, if_false, if_true, Bool.and_eq_true, decide_eq_true_eq]
    · exact fun ⟨a, b⟩ => ⟨a.trans hef, b.trans hef⟩
    · intro a; linarith
    · intro a; linarith
    · intro a; linarith

end field

/-! ## Examples -/

example : (⟨1, 3⟩ : Interval ℚ).intersects ⟨2, 5⟩ = true ∧ (⟨1, 3⟩ : Interval ℚ).interiorIntersects ⟨3, 5⟩ = false ∧
    (⟨1, 3⟩ : Interval ℚ).intersects ⟨3, 5⟩ = true := by decide +kernel
example : Pts ((⟨1, 3⟩ : Interval ℚ).union ⟨7, 9⟩) 5 ∧ ¬ Pts ((⟨1, 3⟩ : Interval ℚ).intersection ⟨7, 9⟩) 5 := by
  unfold Pts Spec.InIv; decide +kernel
example : (⟨0, 1⟩ : Interval ℚ).clampPoint 7 = 1 := by decide +kernel
example : ∃ d : ℚ, (⟨0, 9⟩ : Interval ℚ).directedHausdorffDistance id ⟨1, 2⟩ = d ∧
    (∀ p, Pts (⟨0, 9⟩ : Interval ℚ) p → ∃ q, Pts (⟨1, 2⟩ : Interval ℚ) q ∧ |p - q| ≤ d) ∧
    ∃ p, Pts (⟨0, 9⟩ : Interval ℚ) p ∧ ∀ q, Pts (⟨1, 2⟩ : Interval ℚ) q → d ≤ |p - q| :=
  c49_hausdorff (by decide +kernel) (by decide +kernel)

end R1
end Verif
