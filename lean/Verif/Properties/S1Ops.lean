import Verif.Proofs.S1Union
import Verif.Properties.S1

/-! # Operations on arcs: C51 to C54

`fl` is the rounding of the float operations. Theorems that hold "for any rounding" take an arbitrary function `fl`, so they
hold for the compiled code; theorems about exact lengths take `fl = id`. -/

namespace Verif.S1
open Spec Interval
variable {K : Type} [Field K] [LinearOrder K] [IsStrictOrderedRing K] {π : K}

theorem pts_or {π : K} (hπ : 0 < π) {i j k : Interval K} (hi : Ok π i) (hj : Ok π j) (hk : Ok π k) :
    (∀ p, Pts π i p ∨ Pts π j p → Pts π k p) ↔ ∀ p, -π < p → p ≤ π → Mem π i p ∨ Mem π j p → Mem π k p := by
  constructor
  · intro h p h1 h2 hm
    exact (pts_of hπ hk h1 h2).1 (h p (hm.imp (pts_of hπ hi h1 h2).2 (pts_of hπ hj h1 h2).2))
  · intro h p hp
    have r : -π ≤ p ∧ p ≤ π := hp.elim (fun h => ⟨h.1, h.2.1⟩) (fun h => ⟨h.1, h.2.1⟩)
    have r' := toPi_range hπ r.1 r.2
    exact (pts_toPi hπ hk r.1 r.2).2 (h _ r'.1 r'.2 (hp.imp (pts_toPi hπ hi r.1 r.2).1 (pts_toPi hπ hj r.1 r.2).1))

theorem pts_and {π : K} (hπ : 0 < π) {i j k : Interval K} (hi : Ok π i) (hj : Ok π j) (hk : Ok π k) :
    (∀ p, Pts π i p ∧ Pts π j p → Pts π k p) ↔ ∀ p, -π < p → p ≤ π → Mem π i p ∧ Mem π j p → Mem π k p := by
  constructor
  · intro h p h1 h2 hm
    exact (pts_of hπ hk h1 h2).1 (h p (hm.imp (pts_of hπ hi h1 h2).2 (pts_of hπ hj h1 h2).2))
  · intro h p hp
    have r : -π ≤ p ∧ p ≤ π := ⟨hp.1.1, hp.1.2.1⟩
    have r' := toPi_range hπ r.1 r.2
    exact (pts_toPi hπ hk r.1 r.2).2 (h _ r'.1 r'.2 (hp.imp (pts_toPi hπ hi r.1 r.2).1 (pts_toPi hπ hj r.1 r.2).1))

/-- **C51.** For any rounding, the union is a valid arc that contains both arguments. -/
theorem c51_union (hπ : 0 < π) {i j : Interval K} (hi : i.isValid π = true) (hj : j.isValid π = true) (fl : K → K) :
    (i.union π fl j).isValid π = true ∧ ∀ p, Pts π i p ∨ Pts π j p → Pts π (i.union π fl j) p := by
  rw [isValid_iff] at *
  have h := union_ok hπ hi hj fl
  exact ⟨h.1, (pts_or hπ hi hj h.1).2 h.2⟩

/-- **C51.** With exact arithmetic, no valid arc that contains both arguments is shorter than the union. -/
theorem c51_union_min (hπ : 0 < π) {i j k : Interval K} (hi : i.isValid π = true) (hj : j.isValid π = true) (hk : k.isValid π = true)
    (h : ∀ p, Pts π i p ∨ Pts π j p → Pts π k p) :
    arcLen π (i.union π _root_.id j).lo (i.union π _root_.id j).hi ≤ arcLen π k.lo k.hi := by
  have h1 := (c50_containsInterval hπ hk hi).2 fun p hp => h p (Or.inl hp)
  have h2 := (c50_containsInterval hπ hk hj).2 fun p hp => h p (Or.inr hp)
  rw [isValid_iff] at *
  exact union_min hπ hi hj hk h1 h2

/-- **C51.** The length of the union does not depend on the order of the arguments. -/
theorem c51_union_comm (hπ : 0 < π) {i j : Interval K} (hi : i.isValid π = true) (hj : j.isValid π = true) :
    arcLen π (i.union π _root_.id j).lo (i.union π _root_.id j).hi = arcLen π (j.union π _root_.id i).lo (j.union π _root_.id i).hi := by
  have h1 := c51_union hπ hi hj _root_.id
  have h2 := c51_union hπ hj hi _root_.id
  exact le_antisymm (c51_union_min hπ hi hj h2.1 fun p hp => h2.2 p hp.symm) (c51_union_min hπ hj hi h1.1 fun p hp => h1.2 p hp.symm)

/-- **C51.** For any rounding, the intersection is a valid arc that contains the common points and lies in one of the
arguments. -/
theorem c51_intersection (hπ : 0 < π) {i j : Interval K} (hi : i.isValid π = true) (hj : j.isValid π = true) (fl : K → K) :
    (i.intersection π fl j).isValid π = true ∧ (∀ p, Pts π i p ∧ Pts π j p → Pts π (i.intersection π fl j) p) ∧
    ((∀ p, Pts π (i.intersection π fl j) p → Pts π i p) ∨ ∀ p, Pts π (i.intersection π fl j) p → Pts π j p) := by
  rw [isValid_iff] at *
  obtain ⟨h1, h2, h3⟩ := intersection_ok hπ hi hj fl
  refine ⟨h1, (pts_and hπ hi hj h1).2 fun p a b hm => h2 p a b hm.1 hm.2, ?_⟩
  rw [all_pts hπ h1 hi, all_pts hπ h1 hj]
  exact h3

/-- **C51.** With exact lengths, the intersection is the set of common points, unless the two arcs together are the whole
circle. -/
theorem c51_intersection_exact (hπ : 0 < π) {i j : Interval K} (hi : i.isValid π = true) (hj : j.isValid π = true) :
    (∀ p, Pts π (i.intersection π _root_.id j) p ↔ Pts π i p ∧ Pts π j p) ∨ ∀ p, -π ≤ p → p ≤ π → Pts π i p ∨ Pts π j p := by
  have hc := (c51_intersection hπ hi hj _root_.id).2.1
  rw [isValid_iff] at *
  have ok := (intersection_ok hπ hi hj _root_.id).1
  rcases intersection_two hπ hi hj with h | h
  · left
    intro p
    refine ⟨fun hp => ?_, hc p⟩
    have r' := toPi_range hπ hp.1 hp.2.1
    exact (h _ r'.1 r'.2 ((pts_toPi hπ ok hp.1 hp.2.1).1 hp)).imp (pts_toPi hπ hi hp.1 hp.2.1).2 (pts_toPi hπ hj hp.1 hp.2.1).2
  · right
    intro p h1 h2
    have r' := toPi_range hπ h1 h2
    exact (h.1 _ r'.1 r'.2).imp (pts_toPi hπ hi h1 h2).2 (pts_toPi hπ hj h1 h2).2

/-- **C51.** With exact lengths, no valid arc that contains the common points is shorter than the intersection. -/
theorem c51_intersection_min (hπ : 0 < π) {i j k : Interval K} (hi : i.isValid π = true) (hj : j.isValid π = true)
    (hk : k.isValid π = true) (h : ∀ p, Pts π i p ∧ Pts π j p → Pts π k p) :
    arcLen π (i.intersection π _root_.id j).lo (i.intersection π _root_.id j).hi ≤ arcLen π k.lo k.hi := by
  rw [isValid_iff] at *
  exact intersection_min hπ hi hj hk ((pts_and hπ hi hj hk).1 h)

/-- An arc with a longest sub-arc. -/
theorem sub_of_arcLen (hπ : 0 < π) {r i : Interval K} (hr : Ok π r) (hi : Ok π i) (h : r.containsInterval π i = true)
    (he : ¬ (i.lo = π ∧ i.hi = -π)) (hl : arcLen π r.lo r.hi ≤ arcLen π i.lo i.hi) : i = r := by
  rw [containsInterval_iff] at h
  have l1 := arcLen_cases (π := π) r.lo r.hi
  have l2 := arcLen_cases (π := π) i.lo i.hi
  generalize arcLen π r.lo r.hi = L at *
  generalize arcLen π i.lo i.hi = L' at *
  obtain ⟨a, b, c, d, e, f⟩ := hr
  obtain ⟨a', b', c', d', e', f'⟩ := hi
  obtain ⟨x, y⟩ := i
  obtain ⟨x', y'⟩ := r
  simp only [Interval.mk.injEq] at *
  grind

/-- **C51.** With exact lengths, when the common points form an arc the intersection is that set. -/
theorem c51_intersection_arc (hπ : 0 < π) {i j k : Interval K} (hi : i.isValid π = true) (hj : j.isValid π = true)
    (hk : k.isValid π = true) (h : ∀ p, Pts π k p ↔ Pts π i p ∧ Pts π j p) (p : K) :
    Pts π (i.intersection π _root_.id j) p ↔ Pts π i p ∧ Pts π j p := by
  have hc := (c51_intersection hπ hi hj _root_.id).2.1
  rw [isValid_iff] at *
  have ok := (intersection_ok hπ hi hj _root_.id).1
  have hk1 := (all_pts hπ hk hi).1 fun p hp => ((h p).1 hp).1
  have hk2 := (all_pts hπ hk hj).1 fun p hp => ((h p).1 hp).2
  have hk3 := (pts_and hπ hi hj hk).1 fun p => (h p).2
  have hr := (pts_and hπ hi hj ok).1 hc
  rcases intersection_two hπ hi hj with hs | ⟨_, a1, a2, a3, a4, a5, a6, b1, b2, b3, b4, b5, b6, c1, c2⟩
  · refine ⟨fun hp => ?_, hc p⟩
    have r' := toPi_range hπ hp.1 hp.2.1
    exact (hs _ r'.1 r'.2 ((pts_toPi hπ ok hp.1 hp.2.1).1 hp)).imp (pts_toPi hπ hi hp.1 hp.2.1).2 (pts_toPi hπ hj hp.1 hp.2.1).2
  have n1 : ¬ (i.lo = π ∧ i.hi = -π) := fun hx => absurd hx.2 b4.ne'
  have n2 : ¬ (j.lo = π ∧ j.hi = -π) := fun hx => absurd hx.2 a4.ne'
  rcases exists_not_mem hπ hk with hf | ⟨m, m1, m2, hm⟩
  · exfalso
    have hci : i.containsInterval π k = true := containsInterval_of hπ hi hk hk1
    rw [containsInterval_iff] at hci
    obtain ⟨a, b, c, d, e, f⟩ := hi
    grind
  by_cases hn : Mem π i m
  · have hn : ¬ Mem π j m := fun hx => hm (hk3 m m1 m2 ⟨hn, hx⟩)
    have h1 := containsInterval_of_gap hπ hk hj m1 m2 hm hn (hk3 _ a3 hj.lo2 ⟨a1, a5⟩) (hk3 _ a4 hj.hi2 ⟨a2, a6⟩)
    have h2 : ∀ p, Pts π j p → Pts π k p := (c50_containsInterval hπ (isValid_iff.2 hk) (isValid_iff.2 hj)).1 h1
    have h3 : (i.intersection π _root_.id j).containsInterval π j = true :=
      (c50_containsInterval hπ (isValid_iff.2 ok) (isValid_iff.2 hj)).2 fun p hp => hc p ((h p).1 (h2 p hp))
    rw [← sub_of_arcLen hπ ok hj h3 n2 c2]
    exact ⟨fun hp => (h p).1 (h2 p hp), fun hp => hp.2⟩
  · have h1 := containsInterval_of_gap hπ hk hi m1 m2 hm hn (hk3 _ b3 hi.lo2 ⟨b5, b1⟩) (hk3 _ b4 hi.hi2 ⟨b6, b2⟩)
    have h2 : ∀ p, Pts π i p → Pts π k p := (c50_containsInterval hπ (isValid_iff.2 hk) (isValid_iff.2 hi)).1 h1
    have h3 : (i.intersection π _root_.id j).containsInterval π i = true :=
      (c50_containsInterval hπ (isValid_iff.2 ok) (isValid_iff.2 hi)).2 fun p hp => hc p ((h p).1 (h2 p hp))
    rw [← sub_of_arcLen hπ ok hi h3 n1 c1]
    exact ⟨fun hp => (h p).1 (h2 p hp), fun hp => hp.1⟩

/-- **C51.** `len` is the length of the arc, and negative for the empty arc. -/
theorem c51_len (hπ : 0 < π) {i : Interval K} (hi : i.isValid π = true) :
    (i.isEmpty π = true → i.len π _root_.id = -1) ∧ (i.isEmpty π = false → i.len π _root_.id = arcLen π i.lo i.hi) := by
  rw [← Bool.not_eq_true, isEmpty_iff]
  rw [isValid_iff] at hi
  have l1 := len_cases hπ i hi
  have l2 := arcLen_cases (π := π) i.lo i.hi
  grind

/-- **C52.** The complement is valid, and its points are the points that are not in the interior, except that the complement
of a single point is the whole circle. -/
theorem c52_complement (hπ : 0 < π) {i : Interval K} (hi : i.isValid π = true) :
    (i.complement π).isValid π = true ∧
    ∀ p, -π ≤ p → p ≤ π → (Pts π (i.complement π) p ↔ ¬ Ints π i p) := by
  rw [isValid_iff] at *
  have hc : Ok π (i.complement π) := by
    obtain ⟨a, b, c, d, e, f⟩ := hi
    unfold Interval.complement
    split
    · constructor <;> simp only [full] <;> grind
    · constructor <;> grind
  refine ⟨hc, fun p h1 h2 => ?_⟩
  rw [pts_toPi hπ hc h1 h2, ints_toPi hπ hi h1 h2]
  have r' := toPi_range hπ h1 h2
  generalize toPi π p = q at *
  obtain ⟨a, b, c, d, e, f⟩ := hi
  unfold Interval.complement IMem
  rw [mem_iff]
  split
  · simp only [full]; grind
  · grind

/-- **C52.** The complement of the complement is the interval, unless that is a single point. -/
theorem c52_involution (hπ : 0 < π) {i : Interval K} :
    (i.lo ≠ i.hi → (i.complement π).complement π = i) ∧ (i.lo = i.hi → (i.complement π).complement π = empty π) := by
  constructor
  · intro h
    simp [Interval.complement, h, h.symm]
  · intro h
    simp only [Interval.complement, h, ite_true, full, empty]
    rw [if_neg]
    intro h; linarith

/-- **C52.** The centre of a non-empty interval lies in it, half its length from either end. -/
theorem c52_center (hπ : 0 < π) {i : Interval K} (hi : i.isValid π = true) (he : i.isEmpty π = false) :
    Pts π i (i.center π _root_.id) ∧ ∃ t, 2 * t = arcLen π i.lo i.hi ∧ SameDir π (i.lo + t) (i.center π _root_.id) ∧
      SameDir π (i.hi - t) (i.center π _root_.id) := by
  rw [← Bool.not_eq_true, isEmpty_iff] at he
  rw [isValid_iff] at hi
  have l2 := arcLen_cases (π := π) i.lo i.hi
  obtain ⟨a, b, c, d, e, f⟩ := hi
  have hi : Ok π i := ⟨a, b, c, d, e, f⟩
  obtain ⟨m, hm⟩ := mid i.lo i.hi
  have hm' : 1 / 2 * (i.lo + i.hi) = m := by rw [← hm]; ring
  have hc : i.center π _root_.id = if i.lo ≤ i.hi then m else if m ≤ 0 then m + π else m - π := by
    simp only [Interval.center, Interval.isInverted, id_eq, hm']
    split <;> split <;> grind
  rw [hc]
  constructor
  · rw [pts_toPi hπ hi, mem_iff]
    · unfold toPi; grind
    · grind
    · grind
  · split
    · exact ⟨m - i.lo, by grind, ⟨0, by grind⟩, ⟨0, by grind⟩⟩
    · split
      · exact ⟨m + π - i.lo, by grind, ⟨0, by grind⟩, ⟨1, by grind⟩⟩
      · exact ⟨m + π - i.lo, by grind, ⟨-1, by grind⟩, ⟨0, by grind⟩⟩

theorem ok_of_pos (hπ : 0 < π) {a b : K} (h1 : -π < a) (h2 : a ≤ π) (h3 : -π < b) (h4 : b ≤ π) : Ok π ⟨a, b⟩ :=
  ⟨h1.le, h2, h3.le, h4, fun h => absurd h h1.ne', fun h => absurd h h3.ne'⟩

theorem inArc_len (lo hi p : K) : InArc π lo hi p ↔ ¬ (lo = π ∧ hi = -π) ∧ ∃ t, 0 ≤ t ∧ t ≤ arcLen π lo hi ∧ SameDir π (lo + t) p := by
  unfold InArc arcLen
  constructor
  · rintro ⟨h, t, h1, h2, h3⟩
    rw [if_neg h]
    exact ⟨h, t, h1, by linarith, h3⟩
  · rintro ⟨h, t, h1, h2, h3⟩
    rw [if_neg h] at h2
    exact ⟨h, t, h1, by linarith, h3⟩

theorem sameDir_trans {a b c : K} (h1 : SameDir π a b) (h2 : SameDir π b c) : SameDir π a c := by
  obtain ⟨k, rfl⟩ := h1
  obtain ⟨l, rfl⟩ := h2
  exact ⟨k + l, by push_cast; ring⟩

theorem sameDir_symm {a b : K} (h1 : SameDir π a b) : SameDir π b a := by
  obtain ⟨k, rfl⟩ := h1
  exact ⟨-k, by push_cast; ring⟩

theorem sameDir_add_right {a b : K} (t : K) (h1 : SameDir π a b) : SameDir π (a + t) (b + t) := by
  obtain ⟨k, rfl⟩ := h1
  exact ⟨k, by ring⟩

/-- The points of an arc depend on the direction of its start and its length. -/
theorem inArc_congr {lo hi lo' hi' : K} (h : SameDir π lo lo') (hl : arcLen π lo hi = arcLen π lo' hi')
    (he : (lo = π ∧ hi = -π) ↔ (lo' = π ∧ hi' = -π)) (p : K) : InArc π lo hi p ↔ InArc π lo' hi' p := by
  rw [inArc_len, inArc_len, hl, he]
  refine and_congr_right fun _ => exists_congr fun t => and_congr_right fun _ => and_congr_right fun _ => ?_
  exact ⟨sameDir_trans (sameDir_add_right t (sameDir_symm h)), sameDir_trans (sameDir_add_right t h)⟩

/-- **C53.** `Interval::new` gives the valid interval of the same arc. -/
theorem c53_new (hπ : 0 < π) {lo hi : K} (h1 : -π ≤ lo) (h2 : lo ≤ π) (h3 : -π ≤ hi) (h4 : hi ≤ π) :
    (Interval.new π lo hi).isValid π = true ∧
    ∀ p, InArc π (Interval.new π lo hi).lo (Interval.new π lo hi).hi p ↔ InArc π lo hi p := by
  constructor
  · rw [isValid_iff]
    unfold Interval.new
    constructor <;> grind
  · refine inArc_congr ?_ ?_ ?_
    · unfold Interval.new
      dsimp only
      split
      · exact ⟨-1, by grind⟩
      · exact ⟨0, by grind⟩
    · have l1 := arcLen_cases (π := π) lo hi
      have l2 := arcLen_cases (π := π) (Interval.new π lo hi).lo (Interval.new π lo hi).hi
      generalize arcLen π lo hi = A at *
      generalize arcLen π (Interval.new π lo hi).lo (Interval.new π lo hi).hi = B at *
      simp only [Interval.new] at l2
      grind
    · unfold Interval.new
      grind

/-- **C53.** For any rounding, `from_point_pair` gives a valid interval that contains both points, and these are its ends. -/
theorem c53_fromPointPair (hπ : 0 < π) {a b : K} (h1 : -π ≤ a) (h2 : a ≤ π) (h3 : -π ≤ b) (h4 : b ≤ π) (fl : K → K) :
    (fromPointPair π fl a b).isValid π = true ∧ Pts π (fromPointPair π fl a b) a ∧ Pts π (fromPointPair π fl a b) b := by
  have r1 := toPi_range hπ h1 h2
  have r2 := toPi_range hπ h3 h4
  have ok : Ok π (fromPointPair π fl a b) := by
    unfold fromPointPair
    dsimp only
    split
    · exact ok_of_pos hπ r1.1 r1.2 r2.1 r2.2
    · exact ok_of_pos hπ r2.1 r2.2 r1.1 r1.2
  refine ⟨isValid_iff.2 ok, ?_⟩
  rw [pts_toPi hπ ok h1 h2, pts_toPi hπ ok h3 h4]
  simp only [mem_iff]
  unfold fromPointPair
  grind

/-- **C53.** With exact arithmetic it is at most half the circle, so it is the short way from one point to the other. -/
theorem c53_fromPointPair_len (hπ : 0 < π) {a b : K} (h1 : -π ≤ a) (h2 : a ≤ π) (h3 : -π ≤ b) (h4 : b ≤ π) :
    arcLen π (fromPointPair π _root_.id a b).lo (fromPointPair π _root_.id a b).hi ≤ π := by
  have r1 := toPi_range hπ h1 h2
  have r2 := toPi_range hπ h3 h4
  have p1 := pd_cases (π := π) (toPi π a) (toPi π b)
  unfold fromPointPair
  dsimp only
  generalize toPi π a = x at *
  generalize toPi π b = y at *
  have l1 := arcLen_cases (π := π) x y
  have l2 := arcLen_cases (π := π) y x
  split
  · dsimp only; grind
  · dsimp only; grind

/-- **C53.** For any rounding, adding a point gives a valid interval that contains the old one and the point. -/
theorem c53_addPoint (hπ : 0 < π) {i : Interval K} (hi : i.isValid π = true) {p : K} (h1 : -π ≤ p) (h2 : p ≤ π) (fl : K → K) :
    (i.addPoint π fl p).isValid π = true ∧ Pts π (i.addPoint π fl p) p ∧ ∀ q, Pts π i q → Pts π (i.addPoint π fl p) q := by
  rw [isValid_iff] at hi
  have r1 := toPi_range hπ h1 h2
  have hn : ¬ |p| > π := not_lt.2 (abs_le.2 ⟨h1, h2⟩)
  have key : i.addPoint π fl p = i ∧ Mem π i (toPi π p) ∨ ¬ Mem π i (toPi π p) ∧ (i.lo = π ∧ i.hi = -π ∧ i.addPoint π fl p = ⟨toPi π p, toPi π p⟩ ∨
      ¬ (i.lo = π ∧ i.hi = -π) ∧ (i.addPoint π fl p = ⟨toPi π p, i.hi⟩ ∨ i.addPoint π fl p = ⟨i.lo, toPi π p⟩)) := by
    unfold addPoint
    rw [if_neg hn]
    dsimp only
    have e := isEmpty_iff (π := π) (i := i)
    have c := contains_iff (π := π) (i := i) (p := toPi π p)
    grind
  generalize i.addPoint π fl p = u at *
  have hi' := hi
  have ok : Ok π u := by
    obtain ⟨a, b, c, d, e, f⟩ := hi
    rcases key with ⟨rfl, h⟩ | ⟨h0, ⟨h1, h2, rfl⟩ | ⟨h, rfl | rfl⟩⟩
    · exact hi'
    all_goals rw [mem_iff] at h0
    all_goals exact ⟨by grind, by grind, by grind, by grind, by grind, by grind⟩
  refine ⟨isValid_iff.2 ok, ?_, ?_⟩
  · rw [pts_toPi hπ ok h1 h2]
    rw [mem_iff] at *
    generalize toPi π p = x at *
    obtain ⟨a, b, c, d, e, f⟩ := hi
    rcases key with ⟨rfl, h⟩ | ⟨h0, ⟨h1, h2, rfl⟩ | ⟨h, rfl | rfl⟩⟩ <;> grind
  · rw [all_pts hπ hi ok]
    intro q g1 g2
    rw [mem_iff] at *
    rw [mem_iff] at *
    generalize toPi π p = x at *
    obtain ⟨a, b, c, d, e, f⟩ := hi
    rcases key with ⟨rfl, h⟩ | ⟨h0, ⟨h1, h2, rfl⟩ | ⟨h, rfl | rfl⟩⟩
    · exact _root_.id
    · grind
    · grind
    · grind

/-- **C53.** With exact arithmetic no valid interval with the old one and the point is shorter. -/
theorem c53_addPoint_min (hπ : 0 < π) {i k : Interval K} (hi : i.isValid π = true) (hk : k.isValid π = true) {p : K}
    (h1 : -π ≤ p) (h2 : p ≤ π) (hp : Pts π k p) (hs : ∀ q, Pts π i q → Pts π k q) :
    arcLen π (i.addPoint π _root_.id p).lo (i.addPoint π _root_.id p).hi ≤ arcLen π k.lo k.hi := by
  have hc := (c50_containsInterval hπ hk hi).2 hs
  rw [isValid_iff] at hi hk
  have r1 := toPi_range hπ h1 h2
  have hn : ¬ |p| > π := not_lt.2 (abs_le.2 ⟨h1, h2⟩)
  rw [pts_toPi hπ hk h1 h2, mem_iff] at hp
  unfold addPoint
  rw [if_neg hn]
  dsimp only
  generalize toPi π p = x at *
  split
  · exact arcLen_mono hπ hk hi hc
  rename_i g
  rw [fastContains_iff] at g
  rw [containsInterval_iff] at hc
  have l2 := arcLen_cases (π := π) k.lo k.hi
  generalize arcLen π k.lo k.hi = A at *
  obtain ⟨a, b, c, d, e, f⟩ := hi
  obtain ⟨a', b', c', d', e', f'⟩ := hk
  split
  · have l1 := arcLen_cases (π := π) x x
    grind
  · rename_i ge
    rw [isEmpty_iff] at ge
    have q1 := pd_cases (π := π) x i.lo
    have q2 := pd_cases (π := π) i.hi x
    generalize positiveDistance π _root_.id x i.lo = D1 at *
    generalize positiveDistance π _root_.id i.hi x = D2 at *
    have l1 := arcLen_cases (π := π) x i.hi
    have l3 := arcLen_cases (π := π) i.lo x
    split
    · dsimp only
      generalize arcLen π x i.hi = B at *
      clear l3
      grind (splits := 20)
    · dsimp only
      generalize arcLen π i.lo x = B at *
      clear l1
      grind (splits := 20)

/-- **C53.** An angle outside `[-π, π]` is ignored. -/
theorem c53_addPoint_ignored (fl : K → K) (i : Interval K) {p : K} (h : π < |p|) : i.addPoint π fl p = i := if_pos h

/-! ## Examples: degrees instead of radians -/

/-- Two arcs that overlap at both ends: the union is the circle, the intersection is the shorter of the two. -/
example : (⟨100, -100⟩ : Interval ℚ).isValid 180 = true ∧ (⟨-120, 120⟩ : Interval ℚ).isValid 180 = true ∧
    (⟨100, -100⟩ : Interval ℚ).union 180 _root_.id ⟨-120, 120⟩ = full 180 ∧
    (⟨100, -100⟩ : Interval ℚ).intersection 180 _root_.id ⟨-120, 120⟩ = ⟨100, -100⟩ := by
  refine ⟨by decide +kernel, by decide +kernel, ?_, ?_⟩ <;> norm_num [union, intersection, fastContains, isEmpty, isInverted, containsInterval, isFull, full, len]

/-- Two arcs with one common piece, and a point outside an arc. -/
example : (⟨170, -170⟩ : Interval ℚ).intersection 180 _root_.id ⟨160, 175⟩ = ⟨170, 175⟩ ∧
    (⟨170, -170⟩ : Interval ℚ).union 180 _root_.id ⟨-100, -90⟩ = ⟨170, -90⟩ ∧
    (⟨170, -170⟩ : Interval ℚ).complement 180 = ⟨-170, 170⟩ ∧ (⟨170, -160⟩ : Interval ℚ).center 180 _root_.id = -175 ∧
    fromPointPair 180 _root_.id (170 : ℚ) (-170) = ⟨170, -170⟩ ∧ Interval.new 180 (-180 : ℚ) 3 = ⟨180, 3⟩ ∧
    (⟨170, -170⟩ : Interval ℚ).addPoint 180 _root_.id 100 = ⟨100, -170⟩ := by
  refine ⟨?_, ?_, ?_, ?_, ?_, ?_, ?_⟩ <;> norm_num [union, intersection, complement, center, fromPointPair, Interval.new, addPoint, toPi,
    positiveDistance, fastContains, isEmpty, isInverted, containsInterval, isFull, full, len, abs]

end Verif.S1
