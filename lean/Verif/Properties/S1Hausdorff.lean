import Verif.Properties.S1Expand

/-! # The directed Hausdorff distance of arcs: C70 -/

namespace Verif.S1
open Spec Interval
variable {K : Type} [Field K] [LinearOrder K] [IsStrictOrderedRing K] {π : K}

theorem pd_dir (a b : K) : SameDir π (a + positiveDistance π _root_.id a b) b := by
  rcases pd_cases (π := π) a b with ⟨_, h⟩ | ⟨_, h⟩
  · rw [h]; exact ⟨0, by push_cast; ring⟩
  · rw [h]; exact ⟨-1, by push_cast; ring⟩

theorem pd_min (hπ : 0 < π) {a b x : K} (ha : -π < a) (ha' : a ≤ π) (hb : -π < b) (hb' : b ≤ π) (hx : 0 ≤ x)
    (h : SameDir π (a + x) b) : positiveDistance π _root_.id a b ≤ x := by
  obtain ⟨k, hk⟩ := h
  by_contra hc
  have hp : positiveDistance π _root_.id a b < 2 * π := by
    rcases pd_cases (π := π) a b with ⟨_, h⟩ | ⟨_, h⟩ <;> rw [h] <;> linarith
  obtain ⟨l, hl⟩ := pd_dir (π := π) a b
  have := turn_eq hπ (a := x) (b := positiveDistance π _root_.id a b) (k := k - l) (by push_cast; linear_combination hk - hl) hx (by linarith)
    (by linarith) hp
  linarith

/-- Distance to an arc, by the way to its two ends. -/
theorem near_mem (hπ : 0 < π) {y : Interval K} (hy : Ok π y) (he : ¬ (y.lo = π ∧ y.hi = -π)) (hf : ¬ (y.lo = -π ∧ y.hi = π)) {D : K} (hD : 0 ≤ D)
    {p : K} (h1 : -π < p) (h2 : p ≤ π) :
    Near π D y p ↔ Mem π y p ∨ positiveDistance π _root_.id y.hi p ≤ D ∨ positiveDistance π _root_.id p y.lo ≤ D := by
  have hle := arcLen_le hπ hy
  have q1 : -π < y.lo := by
    obtain ⟨a, b, c, d, e, f⟩ := hy
    grind
  have q2 : -π < y.hi := by
    obtain ⟨a, b, c, d, e, f⟩ := hy
    grind
  have h0 : 0 ≤ arcLen π y.lo y.hi := by
    obtain ⟨a, b, c, d, e, f⟩ := hy
    have := arcLen_cases (π := π) y.lo y.hi
    grind
  have hend : SameDir π (y.lo + arcLen π y.lo y.hi) y.hi := by
    rcases arcLen_cases (π := π) y.lo y.hi with ⟨_, h, _⟩ | ⟨_, h2, h3⟩ | ⟨_, h2, h3⟩
    · linarith
    · rw [h3]; exact ⟨0, by push_cast; ring⟩
    · rw [h3]; exact ⟨-1, by push_cast; ring⟩
  rw [near_iff hπ hy he hD, ← pts_of hπ hy h1 h2, pts_len h1.le h2]
  constructor
  · rintro ⟨t, t1, t2, t3⟩
    by_cases c1 : t < D
    · right; right
      refine (pd_min hπ h1 h2 q1 hy.lo2 (x := D - t) (by linarith) ?_).trans (by linarith)
      have := sameDir_add_right (D - t) (sameDir_symm t3)
      have e : y.lo - D + t + (D - t) = y.lo := by ring
      rwa [e] at this
    · by_cases c2 : t - D ≤ arcLen π y.lo y.hi
      · left
        refine ⟨he, t - D, by linarith, c2, ?_⟩
        have e : y.lo + (t - D) = y.lo - D + t := by ring
        rwa [e]
      · right; left
        refine (pd_min hπ q2 hy.hi2 h1 h2 (x := t - D - arcLen π y.lo y.hi) (by linarith) ?_).trans (by linarith)
        have := sameDir_add_right (t - D - arcLen π y.lo y.hi) (sameDir_symm hend)
        have e : y.lo + arcLen π y.lo y.hi + (t - D - arcLen π y.lo y.hi) = y.lo - D + t := by ring
        rw [e] at this
        exact sameDir_trans this t3
  · rintro (⟨_, t, t1, t2, t3⟩ | h | h)
    · refine ⟨t + D, by linarith, by linarith, ?_⟩
      have e : y.lo - D + (t + D) = y.lo + t := by ring
      rwa [e]
    · have hp : 0 ≤ positiveDistance π _root_.id y.hi p := by
        rcases pd_cases (π := π) y.hi p with ⟨_, h⟩ | ⟨_, h⟩ <;> rw [h] <;> linarith [hy.hi2]
      refine ⟨D + arcLen π y.lo y.hi + positiveDistance π _root_.id y.hi p, by linarith, by linarith, ?_⟩
      have e : y.lo - D + (D + arcLen π y.lo y.hi + positiveDistance π _root_.id y.hi p) =
        y.lo + arcLen π y.lo y.hi + positiveDistance π _root_.id y.hi p := by ring
      rw [e]
      exact sameDir_trans (sameDir_add_right _ hend) (pd_dir _ _)
    · have hp : 0 ≤ positiveDistance π _root_.id p y.lo := by
        rcases pd_cases (π := π) p y.lo with ⟨_, h⟩ | ⟨_, h⟩ <;> rw [h] <;> linarith [hy.lo2]
      refine ⟨D - positiveDistance π _root_.id p y.lo, by linarith, by linarith, ?_⟩
      have e : y.lo - D + (D - positiveDistance π _root_.id p y.lo) = y.lo + (- positiveDistance π _root_.id p y.lo) := by ring
      rw [e]
      have := sameDir_add_right (- positiveDistance π _root_.id p y.lo) (sameDir_symm (pd_dir (π := π) p y.lo))
      have e : p + positiveDistance π _root_.id p y.lo + -positiveDistance π _root_.id p y.lo = p := by ring
      rwa [e] at this

/-- Where the middle of the complement is. -/
theorem complementCenter_cases (hπ : 0 < π) {y : Interval K} (hy : Ok π y) (he : ¬ (y.lo = π ∧ y.hi = -π)) (hf : ¬ (y.lo = -π ∧ y.hi = π)) :
    -π < y.complementCenter π _root_.id ∧ y.complementCenter π _root_.id ≤ π ∧
    (y.hi < y.lo ∧ 2 * y.complementCenter π _root_.id = y.lo + y.hi ∨
     y.lo ≤ y.hi ∧ y.lo + y.hi ≤ 0 ∧ 2 * y.complementCenter π _root_.id = y.lo + y.hi + 2 * π ∨
     y.lo ≤ y.hi ∧ 0 < y.lo + y.hi ∧ 2 * y.complementCenter π _root_.id = y.lo + y.hi - 2 * π) := by
  obtain ⟨m, hm⟩ := mid y.lo y.hi
  have hm' : 1 / 2 * (y.hi + y.lo) = m := by rw [add_comm, ← hm]; ring
  have hm'' : 1 / 2 * (y.lo + y.hi) = m := by rw [← hm]; ring
  obtain ⟨a, b, c, d, e, f⟩ := hy
  have hc : y.complementCenter π _root_.id = if y.lo > y.hi then m else if m ≤ 0 then m + π else m - π := by
    simp only [complementCenter, complement, center, isInverted, id_eq]
    by_cases h : y.lo = y.hi
    · simp only [h, ne_eq, not_true_eq_false, ite_false, lt_irrefl, gt_iff_lt]
      have : m = y.hi := by linarith
      rw [this]
    · simp only [h, ne_eq, not_false_eq_true, ite_true, ite_false, hm']
      grind
  rw [hc]
  grind

theorem pd_mem (hπ : 0 < π) {a b : K} (ha : -π < a) (ha' : a ≤ π) (hb : -π < b) (hb' : b ≤ π) {p : K} (hp : -π ≤ p) (hp' : p ≤ π) :
    (Interval.new π a b).contains π p = true ↔ (a ≤ b ∧ a ≤ toPi π p ∧ toPi π p ≤ b ∨ b < a ∧ (a ≤ toPi π p ∨ toPi π p ≤ b)) := by
  have e : Interval.new π a b = ⟨a, b⟩ := by
    unfold Interval.new
    rw [if_neg fun h => ha.ne' h.1, if_neg fun h => hb.ne' h.1]
  unfold Interval.contains
  rw [e]
  show fastContains π _ (toPi π p) = true ↔ _
  rw [fastContains_iff]
  grind

/-- The value: zero, the middle of the complement, or one of the two ends. -/
theorem hausdorff_val (hπ : 0 < π) {i y : Interval K} (hi : Ok π i) (hy : Ok π y) (he : ¬ (y.lo = π ∧ y.hi = -π)) :
    (y.containsInterval π i = true ∧ i.directedHausdorffDistance π _root_.id y = 0) ∨
    (y.containsInterval π i = false ∧ ¬ (y.lo = -π ∧ y.hi = π) ∧ ∃ c, c = y.complementCenter π _root_.id ∧
      (Mem π i c ∧ i.directedHausdorffDistance π _root_.id y = positiveDistance π _root_.id y.hi c ∨
       ¬ Mem π i c ∧ -π < i.lo ∧ -π < i.hi ∧ ∃ a b, i.directedHausdorffDistance π _root_.id y = max a b ∧
        ((y.hi ≤ c ∧ y.hi ≤ i.hi ∧ i.hi ≤ c ∨ c < y.hi ∧ (y.hi ≤ i.hi ∨ i.hi ≤ c)) ∧ a = positiveDistance π _root_.id y.hi i.hi ∨
         ¬ (y.hi ≤ c ∧ y.hi ≤ i.hi ∧ i.hi ≤ c ∨ c < y.hi ∧ (y.hi ≤ i.hi ∨ i.hi ≤ c)) ∧ a = 0) ∧
        ((c ≤ y.lo ∧ c ≤ i.lo ∧ i.lo ≤ y.lo ∨ y.lo < c ∧ (c ≤ i.lo ∨ i.lo ≤ y.lo)) ∧ b = positiveDistance π _root_.id i.lo y.lo ∨
         ¬ (c ≤ y.lo ∧ c ≤ i.lo ∧ i.lo ≤ y.lo ∨ y.lo < c ∧ (c ≤ i.lo ∨ i.lo ≤ y.lo)) ∧ b = 0))) := by
  cases hc : y.containsInterval π i
  swap
  · left; simp [directedHausdorffDistance, hc]
  right
  have hci : ¬ (y.containsInterval π i = true) := by rw [hc]; simp
  rw [containsInterval_iff] at hci
  have ye : y.isEmpty π = false := by rw [← Bool.not_eq_true, isEmpty_iff]; exact he
  have hf : ¬ (y.lo = -π ∧ y.hi = π) := by
    obtain ⟨a, b, c, d, e, f⟩ := hi
    grind
  obtain ⟨c1, c2, _⟩ := complementCenter_cases hπ hy he hf
  have y1 : -π < y.lo := by
    obtain ⟨a, b, c, d, e, f⟩ := hy
    grind
  have y2 : -π < y.hi := by
    obtain ⟨a, b, c, d, e, f⟩ := hy
    grind
  have hm := contains_iff (π := π) (i := i) (p := y.complementCenter π _root_.id)
  refine ⟨rfl, hf, y.complementCenter π _root_.id, rfl, ?_⟩
  have hcon : i.contains π (y.complementCenter π _root_.id) = i.fastContains π (y.complementCenter π _root_.id) := by
    unfold Interval.contains; rw [toPi_eq c1]
  cases h : i.fastContains π (y.complementCenter π _root_.id)
  · right
    have hnm : ¬ Mem π i (y.complementCenter π _root_.id) := by rw [← hm, h]; simp
    have i1 : -π < i.lo := by
      rw [mem_iff] at hnm
      obtain ⟨a, b, c, d, e, f⟩ := hi
      grind
    have i2 : -π < i.hi := by
      rw [mem_iff] at hnm
      obtain ⟨a, b, c, d, e, f⟩ := hi
      have := hy.lo2
      have := hy.hi1
      grind
    have m1 := pd_mem hπ y2 hy.hi2 c1 c2 i2.le hi.hi2
    have m2 := pd_mem hπ c1 c2 y1 hy.lo2 i1.le hi.lo2
    rw [toPi_eq i2] at m1
    rw [toPi_eq i1] at m2
    refine ⟨hnm, i1, i2,
      if (Interval.new π y.hi (y.complementCenter π _root_.id)).contains π i.hi then positiveDistance π _root_.id y.hi i.hi else 0,
      if (Interval.new π (y.complementCenter π _root_.id) y.lo).contains π i.lo then positiveDistance π _root_.id i.lo y.lo else 0, ?_, ?_, ?_⟩
    · unfold directedHausdorffDistance
      simp only [hc, ye, hcon, h, Bool.false_eq_true, ite_false]
    · rw [← m1]
      split
      · left; exact ⟨by assumption, rfl⟩
      · right; exact ⟨by assumption, rfl⟩
    · rw [← m2]
      split
      · left; exact ⟨by assumption, rfl⟩
      · right; exact ⟨by assumption, rfl⟩
  · left
    refine ⟨hm.1 h, ?_⟩
    unfold directedHausdorffDistance
    simp only [hc, ye, hcon, h, Bool.false_eq_true, ite_false, ite_true]

set_option maxHeartbeats 1000000 in
theorem hausdorff_upper (hπ : 0 < π) {i y : Interval K} (hi : Ok π i) (hy : Ok π y) (he : ¬ (y.lo = π ∧ y.hi = -π))
    (p : K) (h1 : -π < p) (h2 : p ≤ π) (hp : Mem π i p) :
    0 ≤ i.directedHausdorffDistance π _root_.id y ∧ (Mem π y p ∨ positiveDistance π _root_.id y.hi p ≤ i.directedHausdorffDistance π _root_.id y ∨
    positiveDistance π _root_.id p y.lo ≤ i.directedHausdorffDistance π _root_.id y) := by
  have hv := hausdorff_val hπ hi hy he
  generalize i.directedHausdorffDistance π _root_.id y = D at *
  rcases hv with ⟨hc, rfl⟩ | ⟨_, hf, c, rfl, hv⟩
  · refine ⟨le_refl _, Or.inl ?_⟩
    rw [containsInterval_iff] at hc
    rw [mem_iff] at *
    obtain ⟨a, b, c, d, e, f⟩ := hi
    obtain ⟨a', b', c', d', e', f'⟩ := hy
    grind
  have hc := complementCenter_cases hπ hy he hf
  generalize y.complementCenter π _root_.id = c at *
  have d1 := pd_cases (π := π) y.hi p
  have d2 := pd_cases (π := π) p y.lo
  generalize positiveDistance π _root_.id y.hi p = P1 at *
  generalize positiveDistance π _root_.id p y.lo = P2 at *
  rw [mem_iff] at *
  rcases hv with ⟨hm, rfl⟩ | ⟨hm, i1, i2, A, B, rfl, hA, hB⟩
  · have d3 := pd_cases (π := π) y.hi c
    generalize positiveDistance π _root_.id y.hi c = P3 at *
    obtain ⟨a', b', c', d', e', f'⟩ := hy
    clear hi hp hm
    constructor
    · grind
    · grind (splits := 20)
  · have d3 := pd_cases (π := π) y.hi i.hi
    have d4 := pd_cases (π := π) i.lo y.lo
    generalize positiveDistance π _root_.id y.hi i.hi = P3 at *
    generalize positiveDistance π _root_.id i.lo y.lo = P4 at *
    obtain ⟨a, b, c, d, e, f⟩ := hi
    obtain ⟨a', b', c', d', e', f'⟩ := hy
    have hA0 : 0 ≤ A := by grind
    refine ⟨le_max_of_le_left hA0, ?_⟩
    by_contra hcon
    push Not at hcon
    obtain ⟨n1, n2, n3⟩ := hcon
    have n2' := max_lt_iff.1 n2
    have n3' := max_lt_iff.1 n3
    clear n2 n3
    grind (splits := 30)

set_option maxHeartbeats 1000000 in
theorem hausdorff_lower (hπ : 0 < π) {i y : Interval K} (hi : Ok π i) (hy : Ok π y) (he : ¬ (y.lo = π ∧ y.hi = -π)) {D' : K} (hD : 0 ≤ D')
    (h : ∀ p, -π < p → p ≤ π → Mem π i p → Mem π y p ∨ positiveDistance π _root_.id y.hi p ≤ D' ∨ positiveDistance π _root_.id p y.lo ≤ D') :
    i.directedHausdorffDistance π _root_.id y ≤ D' := by
  have hv := hausdorff_val hπ hi hy he
  generalize i.directedHausdorffDistance π _root_.id y = D at *
  rcases hv with ⟨hc, rfl⟩ | ⟨_, hf, c, rfl, hv⟩
  · exact hD
  have hc := complementCenter_cases hπ hy he hf
  generalize y.complementCenter π _root_.id = c at *
  rcases hv with ⟨hm, rfl⟩ | ⟨hm, i1, i2, A, B, rfl, hA, hB⟩
  · have h1 := h c hc.1 hc.2.1 hm
    clear h hi
    have d1 := pd_cases (π := π) y.hi c
    have d2 := pd_cases (π := π) c y.lo
    generalize positiveDistance π _root_.id y.hi c = P1 at *
    generalize positiveDistance π _root_.id c y.lo = P2 at *
    rw [mem_iff] at *
    obtain ⟨a', b', c', d', e', f'⟩ := hy
    grind
  · have h1 := h i.lo i1 hi.lo2 (by rw [mem_iff]; grind)
    have h2 := h i.hi i2 hi.hi2 (by rw [mem_iff]; grind)
    clear h
    refine max_le ?_ ?_
    · clear h1 hB
      have d1 := pd_cases (π := π) y.hi i.hi
      have d2 := pd_cases (π := π) i.hi y.lo
      generalize positiveDistance π _root_.id y.hi i.hi = P1 at *
      generalize positiveDistance π _root_.id i.hi y.lo = P2 at *
      rw [mem_iff] at *
      obtain ⟨a, b, c, d, e, f⟩ := hi
      obtain ⟨a', b', c', d', e', f'⟩ := hy
      grind (splits := 20)
    · clear h2 hA
      have d1 := pd_cases (π := π) y.hi i.lo
      have d2 := pd_cases (π := π) i.lo y.lo
      generalize positiveDistance π _root_.id y.hi i.lo = P1 at *
      generalize positiveDistance π _root_.id i.lo y.lo = P2 at *
      rw [mem_iff] at *
      obtain ⟨a, b, c, d, e, f⟩ := hi
      obtain ⟨a', b', c', d', e', f'⟩ := hy
      grind (splits := 20)

/-- **C70.** With exact arithmetic the directed Hausdorff distance is the least angle within which every point of the
first arc has a point of the second. -/
theorem c70_hausdorff (hπ : 0 < π) {i y : Interval K} (hi : i.isValid π = true) (hy : y.isValid π = true) (he : y.isEmpty π = false) :
    0 ≤ i.directedHausdorffDistance π _root_.id y ∧
    (∀ p, Pts π i p → Near π (i.directedHausdorffDistance π _root_.id y) y p) ∧
    ∀ D, 0 ≤ D → (∀ p, Pts π i p → Near π D y p) → i.directedHausdorffDistance π _root_.id y ≤ D := by
  rw [← Bool.not_eq_true, isEmpty_iff] at he
  have hci := c50_containsInterval hπ hy hi
  rw [isValid_iff] at hi hy
  have h0 : 0 ≤ i.directedHausdorffDistance π _root_.id y := by
    by_cases hE : i.lo = π ∧ i.hi = -π
    · have hc : y.containsInterval π i = true := hci.2 fun p hp => absurd hE hp.2.2.1
      unfold directedHausdorffDistance
      rw [if_pos hc]
    · have : ∃ p, -π < p ∧ p ≤ π ∧ Mem π i p := by
        obtain ⟨a, b, c, d, e, f⟩ := hi
        refine ⟨i.hi, by grind, d, ?_⟩
        rw [mem_iff]
        grind
      obtain ⟨p, p1, p2, p3⟩ := this
      exact (hausdorff_upper hπ hi hy he p p1 p2 p3).1
  by_cases hf : y.lo = -π ∧ y.hi = π
  · have all : ∀ p, -π ≤ p → p ≤ π → Pts π y p := by
      intro q q1 q2
      rw [pts_toPi hπ hy q1 q2, mem_iff]
      have := toPi_range hπ q1 q2
      grind
    refine ⟨h0, fun p hp => ⟨p, 0, all p hp.1 hp.2.1, by simpa using h0, by simpa using sameDir_self p⟩, fun D hD _ => ?_⟩
    have hc : y.containsInterval π i = true := hci.2 fun p hp => all p hp.1 hp.2.1
    unfold directedHausdorffDistance
    rw [if_pos hc]
    exact hD
  · -- reduce to angles in `(-π, π]`
    have nr : ∀ {D p}, -π ≤ p → p ≤ π → (Near π D y p ↔ Near π D y (toPi π p)) := by
      intro D p p1 p2
      have hs : SameDir π p (toPi π p) := by
        unfold toPi
        split
        · exact ⟨1, by push_cast; linarith⟩
        · exact sameDir_self p
      constructor
      · rintro ⟨q, d, a, b, c⟩; exact ⟨q, d, a, b, sameDir_trans c hs⟩
      · rintro ⟨q, d, a, b, c⟩; exact ⟨q, d, a, b, sameDir_trans c (sameDir_symm hs)⟩
    refine ⟨h0, fun p hp => ?_, fun D hD h => ?_⟩
    · have r := toPi_range hπ hp.1 hp.2.1
      rw [nr hp.1 hp.2.1, near_mem hπ hy he hf h0 r.1 r.2]
      exact (hausdorff_upper hπ hi hy he _ r.1 r.2 ((pts_toPi hπ hi hp.1 hp.2.1).1 hp)).2
    · refine hausdorff_lower hπ hi hy he hD fun p p1 p2 hm => ?_
      exact (near_mem hπ hy he hf hD p1 p2).1 (h p ((pts_of hπ hi p1 p2).2 hm))

/-- **C70.** The distance to the empty arc is `π`, and from the empty arc zero. -/
theorem c70_hausdorff_empty (hπ : 0 < π) {i : Interval K} (hi : i.isValid π = true) (fl : K → K) :
    (i.isEmpty π = false → i.directedHausdorffDistance π fl (empty π) = π) ∧
    ∀ y : Interval K, y.isValid π = true → (empty π).directedHausdorffDistance π fl y = 0 := by
  have oe : Ok π (empty π) := by constructor <;> simp only [empty] <;> grind
  constructor
  · intro he
    have hc : (empty π).containsInterval π i = false := by
      rw [← Bool.not_eq_true, c50_containsInterval hπ (isValid_iff.2 oe) hi]
      intro h
      have h1 := (c50_isEmpty_isFull hπ hi).1.2 fun p hp => (h p hp).2.2.1 ⟨rfl, rfl⟩
      rw [h1] at he
      cases he
    have e1 : (empty π).isEmpty π = true := by simp [isEmpty, empty]
    simp [directedHausdorffDistance, hc, e1]
  · intro y hy
    have hc : y.containsInterval π (empty π) = true :=
      (c50_containsInterval hπ hy (isValid_iff.2 oe)).2 fun p hp => absurd ⟨rfl, rfl⟩ hp.2.2.1
    simp [directedHausdorffDistance, hc]

/-! ## Examples: degrees instead of radians -/

example : (⟨170, -170⟩ : Interval ℚ).isValid 180 = true ∧ (⟨0, 90⟩ : Interval ℚ).isValid 180 = true ∧
    (⟨0, 90⟩ : Interval ℚ).isEmpty 180 = false ∧ (⟨170, -170⟩ : Interval ℚ).directedHausdorffDistance 180 _root_.id ⟨0, 90⟩ = 100 := by
  decide +kernel

end Verif.S1
