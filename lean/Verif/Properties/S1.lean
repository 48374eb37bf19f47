import Verif.Proofs.S1

/-! # Arcs of the circle: C50 to C53 -/

namespace Verif.S1
open Spec Interval
variable {K : Type} [Field K] [LinearOrder K] [IsStrictOrderedRing K] {π : K}

/-- The points of an interval: the angles in `[-π, π]` on the arc. -/
def Pts (π : K) (i : Interval K) (p : K) : Prop := -π ≤ p ∧ p ≤ π ∧ InArc π i.lo i.hi p

/-- The points of its interior. -/
def Ints (π : K) (i : Interval K) (p : K) : Prop := -π ≤ p ∧ p ≤ π ∧ InOpenArc π i.lo i.hi p

theorem pts_of (hπ : 0 < π) {i : Interval K} (h : Ok π i) {p : K} (h1 : -π < p) (h2 : p ≤ π) : Pts π i p ↔ Mem π i p := by
  unfold Pts
  rw [inArc_iff hπ h h1.le h2, toPi_eq h1]
  exact ⟨fun h => h.2.2, fun h => ⟨h1.le, h2, h⟩⟩

theorem ints_of (hπ : 0 < π) {i : Interval K} (h : Ok π i) {p : K} (h1 : -π < p) (h2 : p ≤ π) : Ints π i p ↔ IMem π i p := by
  unfold Ints
  rw [inOpenArc_iff hπ h h1.le h2, toPi_eq h1]
  exact ⟨fun h => h.2.2, fun h => ⟨h1.le, h2, h⟩⟩

theorem pts_toPi (hπ : 0 < π) {i : Interval K} (h : Ok π i) {p : K} (h1 : -π ≤ p) (h2 : p ≤ π) :
    Pts π i p ↔ Mem π i (toPi π p) := by
  unfold Pts
  rw [inArc_iff hπ h h1 h2]
  exact ⟨fun h => h.2.2, fun h => ⟨h1, h2, h⟩⟩

theorem ints_toPi (hπ : 0 < π) {i : Interval K} (h : Ok π i) {p : K} (h1 : -π ≤ p) (h2 : p ≤ π) :
    Ints π i p ↔ IMem π i (toPi π p) := by
  unfold Ints
  rw [inOpenArc_iff hπ h h1 h2]
  exact ⟨fun h => h.2.2, fun h => ⟨h1, h2, h⟩⟩

/-- A statement about all points of intervals, reduced to `(-π, π]`. -/
theorem all_pts (hπ : 0 < π) {i j : Interval K} (hi : Ok π i) (hj : Ok π j) :
    (∀ p, Pts π i p → Pts π j p) ↔ ∀ p, -π < p → p ≤ π → Mem π i p → Mem π j p := by
  constructor
  · intro h p h1 h2 hm
    exact (pts_of hπ hj h1 h2).1 (h p ((pts_of hπ hi h1 h2).2 hm))
  · intro h p hp
    have r := toPi_range hπ hp.1 hp.2.1
    exact (pts_toPi hπ hj hp.1 hp.2.1).2 (h _ r.1 r.2 ((pts_toPi hπ hi hp.1 hp.2.1).1 hp))

theorem all_ints (hπ : 0 < π) {i j : Interval K} (hi : Ok π i) (hj : Ok π j) :
    (∀ p, Pts π i p → Ints π j p) ↔ ∀ p, -π < p → p ≤ π → Mem π i p → IMem π j p := by
  constructor
  · intro h p h1 h2 hm
    exact (ints_of hπ hj h1 h2).1 (h p ((pts_of hπ hi h1 h2).2 hm))
  · intro h p hp
    have r := toPi_range hπ hp.1 hp.2.1
    exact (ints_toPi hπ hj hp.1 hp.2.1).2 (h _ r.1 r.2 ((pts_toPi hπ hi hp.1 hp.2.1).1 hp))

/-- **C50.** `contains` and `interior_contains` are membership in the arc and its interior. -/
theorem c50_contains (hπ : 0 < π) {i : Interval K} (h : i.isValid π = true) {p : K} (h1 : -π ≤ p) (h2 : p ≤ π) :
    (i.contains π p = true ↔ InArc π i.lo i.hi p) ∧ (i.interiorContains π p = true ↔ InOpenArc π i.lo i.hi p) := by
  rw [isValid_iff] at h
  rw [inArc_iff hπ h h1 h2, inOpenArc_iff hπ h h1 h2, interiorContains_iff]
  exact ⟨contains_iff, Iff.rfl⟩

/-- **C50.** `fast_contains` is right for the angles in `(-π, π]`. -/
theorem c50_fastContains (hπ : 0 < π) {i : Interval K} (h : i.isValid π = true) {p : K} (h1 : -π < p) (h2 : p ≤ π) :
    i.fastContains π p = true ↔ InArc π i.lo i.hi p := by
  rw [isValid_iff] at h
  rw [inArc_iff hπ h h1.le h2, toPi_eq h1]
  exact contains_iff

/-- **C50.** -/
theorem c50_isEmpty_isFull (hπ : 0 < π) {i : Interval K} (h : i.isValid π = true) :
    (i.isEmpty π = true ↔ ∀ p, ¬ Pts π i p) ∧ (i.isFull π = true ↔ ∀ p, -π ≤ p → p ≤ π → Pts π i p) := by
  rw [isValid_iff] at h
  have h' := h
  obtain ⟨a, b, c, d, e, f⟩ := h'
  have hp : (∀ p, ¬ Pts π i p) ↔ ∀ p, -π < p → p ≤ π → ¬ Mem π i p := by
    constructor
    · intro g p h1 h2 hm
      exact g p ((pts_of hπ h h1 h2).2 hm)
    · intro g p hp
      have r := toPi_range hπ hp.1 hp.2.1
      exact g _ r.1 r.2 ((pts_toPi hπ h hp.1 hp.2.1).1 hp)
  have hq : (∀ p, -π ≤ p → p ≤ π → Pts π i p) ↔ ∀ p, -π < p → p ≤ π → Mem π i p := by
    constructor
    · intro g p h1 h2
      exact (pts_of hπ h h1 h2).1 (g p h1.le h2)
    · intro g p h1 h2
      have r := toPi_range hπ h1 h2
      exact (pts_toPi hπ h h1 h2).2 (g _ r.1 r.2)
  rw [hp, hq]
  unfold Interval.isEmpty Interval.isFull Mem
  constructor
  · constructor
    · grind
    · intro g
      have g1 := g i.hi
      have g2 := g π
      grind
  · constructor
    · grind
    · intro g
      have g1 := g ((i.lo + i.hi) / 2)
      have g2 := g π
      have g3 := g ((i.lo - π) / 2)
      grind

/-- **C50.** -/
theorem c50_containsInterval (hπ : 0 < π) {i j : Interval K} (hi : i.isValid π = true) (hj : j.isValid π = true) :
    i.containsInterval π j = true ↔ ∀ p, Pts π j p → Pts π i p := by
  rw [isValid_iff] at hi hj
  rw [all_pts hπ hj hi]
  obtain ⟨a, b, c, d, e, f⟩ := hi
  obtain ⟨a', b', c', d', e', f'⟩ := hj
  unfold Interval.containsInterval Interval.isInverted Interval.isEmpty Interval.isFull Mem
  constructor
  · grind
  · intro g
    obtain ⟨m, hm⟩ := mid i.lo i.hi
    obtain ⟨n, hn⟩ := mid i.lo (-π)
    have g1 := inst g j.lo
    have g2 := inst g j.hi
    have g3 := inst g π
    have g4 := inst g m
    have g5 := inst g n
    clear g
    grind (splits := 20)

/-- **C50.** -/
theorem c50_interiorContainsInterval (hπ : 0 < π) {i j : Interval K} (hi : i.isValid π = true) (hj : j.isValid π = true) :
    i.interiorContainsInterval π j = true ↔ ∀ p, Pts π j p → Ints π i p := by
  rw [isValid_iff] at hi hj
  rw [all_ints hπ hj hi]
  obtain ⟨a, b, c, d, e, f⟩ := hi
  obtain ⟨a', b', c', d', e', f'⟩ := hj
  unfold Interval.interiorContainsInterval Interval.isInverted Interval.isEmpty Interval.isFull Mem IMem
  constructor
  · grind
  · intro g
    obtain ⟨m, hm⟩ := mid i.lo i.hi
    obtain ⟨n, hn⟩ := mid i.lo (-π)
    have g1 := inst g j.lo
    have g2 := inst g j.hi
    have g3 := inst g π
    have g4 := inst g m
    have g5 := inst g n
    clear g
    grind (splits := 20)

/-- A statement about a common point, reduced to `(-π, π]`. -/
theorem ex_pts (hπ : 0 < π) {i j : Interval K} (hi : Ok π i) (hj : Ok π j) :
    (∃ p, Pts π i p ∧ Pts π j p) ↔ ¬ ∀ p, -π < p → p ≤ π → Mem π i p → ¬ Mem π j p := by
  constructor
  · rintro ⟨p, h1, h2⟩ h
    have r := toPi_range hπ h1.1 h1.2.1
    exact h _ r.1 r.2 ((pts_toPi hπ hi h1.1 h1.2.1).1 h1) ((pts_toPi hπ hj h1.1 h1.2.1).1 h2)
  · intro h
    by_contra hc
    refine h fun p h1 h2 h3 h4 => hc ⟨p, (pts_of hπ hi h1 h2).2 h3, (pts_of hπ hj h1 h2).2 h4⟩

theorem ex_ints (hπ : 0 < π) {i j : Interval K} (hi : Ok π i) (hj : Ok π j) :
    (∃ p, Ints π i p ∧ Pts π j p) ↔ ¬ ∀ p, -π < p → p ≤ π → IMem π i p → ¬ Mem π j p := by
  constructor
  · rintro ⟨p, h1, h2⟩ h
    have r := toPi_range hπ h1.1 h1.2.1
    exact h _ r.1 r.2 ((ints_toPi hπ hi h1.1 h1.2.1).1 h1) ((pts_toPi hπ hj h1.1 h1.2.1).1 h2)
  · intro h
    by_contra hc
    refine h fun p h1 h2 h3 h4 => hc ⟨p, (ints_of hπ hi h1 h2).2 h3, (pts_of hπ hj h1 h2).2 h4⟩

/-- **C50.** -/
theorem c50_intersects (hπ : 0 < π) {i j : Interval K} (hi : i.isValid π = true) (hj : j.isValid π = true) :
    i.intersects π j = true ↔ ∃ p, Pts π i p ∧ Pts π j p := by
  rw [isValid_iff] at hi hj
  rw [ex_pts hπ hi hj]
  obtain ⟨a, b, c, d, e, f⟩ := hi
  obtain ⟨a', b', c', d', e', f'⟩ := hj
  unfold Interval.intersects Interval.isInverted Interval.isEmpty Mem
  constructor
  · intro h g
    have g1 := inst g i.lo
    have g2 := inst g j.lo
    have g3 := inst g i.hi
    have g4 := inst g j.hi
    have g5 := inst g π
    clear g
    grind (splits := 20)
  · intro h
    by_contra h'
    exact h (by grind)

/-- **C50.** -/
theorem c50_interiorIntersects (hπ : 0 < π) {i j : Interval K} (hi : i.isValid π = true) (hj : j.isValid π = true) :
    i.interiorIntersects π j = true ↔ ∃ p, Ints π i p ∧ Pts π j p := by
  rw [isValid_iff] at hi hj
  rw [ex_ints hπ hi hj]
  obtain ⟨a, b, c, d, e, f⟩ := hi
  obtain ⟨a', b', c', d', e', f'⟩ := hj
  unfold Interval.interiorIntersects Interval.isInverted Interval.isEmpty Interval.isFull Mem IMem
  constructor
  · intro h g
    obtain ⟨m1, h1⟩ := mid i.lo i.hi
    obtain ⟨m4, h4⟩ := mid (-π) i.hi
    have g1 := inst g m1
    have g4 := inst g m4
    have g7 := inst g j.lo
    have g8 := inst g j.hi
    have g9 := inst g π
    clear g
    by_cases k1 : i.lo ≤ i.hi <;> by_cases k2 : j.lo ≤ j.hi
    · clear g4 g9 h4; grind (splits := 20)
    · clear g4 g9 h4; grind (splits := 20)
    · clear g1 g9 h1; grind (splits := 20)
    · clear g1 h1 g7; grind (splits := 20)
  · intro h
    by_contra h'
    exact h (by grind)

/-! ## Examples: degrees instead of radians -/

example : (⟨170, -170⟩ : Interval ℚ).isValid 180 = true ∧ (⟨160, 175⟩ : Interval ℚ).isValid 180 = true ∧
    (⟨170, -170⟩ : Interval ℚ).intersects 180 ⟨160, 175⟩ = true ∧ (⟨170, -170⟩ : Interval ℚ).interiorIntersects 180 ⟨160, 170⟩ = false ∧
    (⟨170, -170⟩ : Interval ℚ).containsInterval 180 ⟨175, 180⟩ = true ∧ (⟨170, -170⟩ : Interval ℚ).contains 180 (-180) = true := by
  decide +kernel

end Verif.S1
