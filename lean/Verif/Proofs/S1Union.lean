import Verif.Proofs.S1

/-! # Union and intersection of arcs -/

namespace Verif.S1
open Spec Interval
variable {K : Type} [Field K] [LinearOrder K] [IsStrictOrderedRing K] {π : K}

theorem fastContains_iff {i : Interval K} {p : K} : i.fastContains π p = true ↔
    (i.lo ≤ i.hi ∧ i.lo ≤ p ∧ p ≤ i.hi) ∨ (i.hi < i.lo ∧ ¬ (i.lo = π ∧ i.hi = -π) ∧ (i.lo ≤ p ∨ p ≤ i.hi)) := by
  rw [contains_iff]; unfold Mem; grind

theorem mem_iff {i : Interval K} {p : K} : Mem π i p ↔
    (i.lo ≤ i.hi ∧ i.lo ≤ p ∧ p ≤ i.hi) ∨ (i.hi < i.lo ∧ ¬ (i.lo = π ∧ i.hi = -π) ∧ (i.lo ≤ p ∨ p ≤ i.hi)) := by
  unfold Mem; grind

/-- The cases of `union`. -/
theorem union_cases (fl : K → K) (i j : Interval K) :
    (j.isEmpty π = true ∧ i.union π fl j = i) ∨
    (j.isEmpty π = false ∧ i.fastContains π j.lo = true ∧ i.fastContains π j.hi = true ∧ i.containsInterval π j = true ∧ i.union π fl j = i) ∨
    (j.isEmpty π = false ∧ i.fastContains π j.lo = true ∧ i.fastContains π j.hi = true ∧ i.containsInterval π j = false ∧ i.union π fl j = full π) ∨
    (j.isEmpty π = false ∧ i.fastContains π j.lo = true ∧ i.fastContains π j.hi = false ∧ i.union π fl j = ⟨i.lo, j.hi⟩) ∨
    (j.isEmpty π = false ∧ i.fastContains π j.lo = false ∧ i.fastContains π j.hi = true ∧ i.union π fl j = ⟨j.lo, i.hi⟩) ∨
    (j.isEmpty π = false ∧ i.fastContains π j.lo = false ∧ i.fastContains π j.hi = false ∧ (i.isEmpty π = true ∨ j.fastContains π i.lo = true) ∧ i.union π fl j = j) ∨
    (j.isEmpty π = false ∧ i.fastContains π j.lo = false ∧ i.fastContains π j.hi = false ∧ i.isEmpty π = false ∧ j.fastContains π i.lo = false ∧
      positiveDistance π fl j.hi i.lo < positiveDistance π fl i.hi j.lo ∧ i.union π fl j = ⟨j.lo, i.hi⟩) ∨
    (j.isEmpty π = false ∧ i.fastContains π j.lo = false ∧ i.fastContains π j.hi = false ∧ i.isEmpty π = false ∧ j.fastContains π i.lo = false ∧
      ¬ positiveDistance π fl j.hi i.lo < positiveDistance π fl i.hi j.lo ∧ i.union π fl j = ⟨i.lo, j.hi⟩) := by
  unfold Interval.union
  cases h0 : j.isEmpty π
  · cases h1 : i.fastContains π j.lo <;> cases h2 : i.fastContains π j.hi
    · cases h4 : i.isEmpty π <;> cases h5 : j.fastContains π i.lo
      · by_cases h6 : positiveDistance π fl j.hi i.lo < positiveDistance π fl i.hi j.lo <;> simp [h6]
      · simp
      · simp
      · simp
    · simp
    · simp
    · cases h3 : i.containsInterval π j <;> simp
  · simp

theorem union_ok (hπ : 0 < π) {i j : Interval K} (hi : Ok π i) (hj : Ok π j) (fl : K → K) :
    Ok π (i.union π fl j) ∧ ∀ p, -π < p → p ≤ π → (Mem π i p ∨ Mem π j p) → Mem π (i.union π fl j) p := by
  have h := union_cases (π := π) fl i j
  generalize i.union π fl j = u at *
  simp only [mem_iff]
  unfold Interval.containsInterval Interval.isInverted Interval.isEmpty Interval.isFull at h
  obtain ⟨a, b, c, d, e, f⟩ := hi
  obtain ⟨a', b', c', d', e', f'⟩ := hj
  rcases h with h | h | h | h | h | h | h | h
  · obtain ⟨h1, rfl⟩ := h
    exact ⟨⟨a, b, c, d, e, f⟩, by grind⟩
  · obtain ⟨_, h1, h2, h3, rfl⟩ := h
    exact ⟨⟨a, b, c, d, e, f⟩, by grind (splits := 20)⟩
  · obtain ⟨_, h1, h2, h3, rfl⟩ := h
    exact ⟨⟨by simp [full], by simp [full]; linarith, by simp [full]; linarith, by simp [full], by simp [full], by simp [full]; grind⟩, by simp [full]; grind⟩
  · obtain ⟨h0, h1, h2, rfl⟩ := h
    simp only [← Bool.not_eq_true, fastContains_iff] at h1 h2
    exact ⟨⟨by grind, by grind, by grind, by grind, by grind, by grind⟩, by grind (splits := 20)⟩
  · obtain ⟨h0, h1, h2, rfl⟩ := h
    simp only [← Bool.not_eq_true, fastContains_iff] at h1 h2
    exact ⟨⟨by grind, by grind, by grind, by grind, by grind, by grind⟩, by grind (splits := 20)⟩
  · obtain ⟨h0, h1, h2, h3, rfl⟩ := h
    simp only [← Bool.not_eq_true, fastContains_iff] at h1 h2 h3
    exact ⟨⟨by grind, by grind, by grind, by grind, by grind, by grind⟩, by grind (splits := 20)⟩
  · obtain ⟨h0, h1, h2, h3, h4, _, rfl⟩ := h
    simp only [← Bool.not_eq_true, fastContains_iff] at h1 h2 h3 h4
    exact ⟨⟨by grind, by grind, by grind, by grind, by grind, by grind⟩, by grind (splits := 20)⟩
  · obtain ⟨h0, h1, h2, h3, h4, _, rfl⟩ := h
    simp only [← Bool.not_eq_true, fastContains_iff] at h1 h2 h3 h4
    exact ⟨⟨by grind, by grind, by grind, by grind, by grind, by grind⟩, by grind (splits := 20)⟩

theorem arcLen_cases (lo hi : K) : (lo = π ∧ hi = -π ∧ arcLen π lo hi = 0) ∨
    (¬ (lo = π ∧ hi = -π) ∧ lo ≤ hi ∧ arcLen π lo hi = hi - lo) ∨ (¬ (lo = π ∧ hi = -π) ∧ hi < lo ∧ arcLen π lo hi = hi + 2 * π - lo) := by
  unfold arcLen arcEnd; grind

theorem pd_cases (a b : K) : (a ≤ b ∧ positiveDistance π _root_.id a b = b - a) ∨ (b < a ∧ positiveDistance π _root_.id a b = b - a + 2 * π) := by
  unfold positiveDistance; grind

theorem containsInterval_iff {i j : Interval K} : i.containsInterval π j = true ↔
    (i.hi < i.lo ∧ j.hi < j.lo ∧ i.lo ≤ j.lo ∧ j.hi ≤ i.hi) ∨
    (i.hi < i.lo ∧ j.lo ≤ j.hi ∧ (i.lo ≤ j.lo ∨ j.hi ≤ i.hi) ∧ ¬ (i.lo = π ∧ i.hi = -π)) ∨
    (i.lo ≤ i.hi ∧ j.hi < j.lo ∧ ((i.lo = -π ∧ i.hi = π) ∨ (j.lo = π ∧ j.hi = -π))) ∨
    (i.lo ≤ i.hi ∧ j.lo ≤ j.hi ∧ i.lo ≤ j.lo ∧ j.hi ≤ i.hi) := by
  unfold Interval.containsInterval Interval.isInverted Interval.isEmpty Interval.isFull
  grind

theorem isEmpty_iff {i : Interval K} : i.isEmpty π = true ↔ i.lo = π ∧ i.hi = -π := by
  simp [Interval.isEmpty]

theorem union_min (hπ : 0 < π) {i j k : Interval K} (hi : Ok π i) (hj : Ok π j) (hk : Ok π k)
    (h1 : k.containsInterval π i = true) (h2 : k.containsInterval π j = true) :
    arcLen π (i.union π _root_.id j).lo (i.union π _root_.id j).hi ≤ arcLen π k.lo k.hi := by
  have h := union_cases (π := π) _root_.id i j
  generalize i.union π _root_.id j = u at *
  have p1 := pd_cases (π := π) j.hi i.lo
  have p2 := pd_cases (π := π) i.hi j.lo
  have l1 := arcLen_cases (π := π) u.lo u.hi
  have l2 := arcLen_cases (π := π) k.lo k.hi
  generalize arcLen π u.lo u.hi = L1 at *
  generalize arcLen π k.lo k.hi = L2 at *
  generalize positiveDistance π _root_.id j.hi i.lo = P1 at *
  generalize positiveDistance π _root_.id i.hi j.lo = P2 at *
  simp only [← Bool.not_eq_true, fastContains_iff, containsInterval_iff, isEmpty_iff] at h h1 h2
  obtain ⟨a, b, c, d, e, f⟩ := hi
  obtain ⟨a', b', c', d', e', f'⟩ := hj
  obtain ⟨a'', b'', c'', d'', e'', f''⟩ := hk
  rcases h with h | h | h | h | h | h | h | h
  · obtain ⟨h3, rfl⟩ := h
    clear p1 p2 h2
    grind (splits := 20)
  · obtain ⟨_, h3, h4, h5, rfl⟩ := h
    clear p1 p2 h2
    grind (splits := 20)
  · obtain ⟨_, h3, h4, h5, rfl⟩ := h
    simp only [full] at l1
    clear p1 p2
    grind (splits := 20)
  · obtain ⟨h0, h3, h4, rfl⟩ := h
    clear p1 p2
    grind (splits := 20)
  · obtain ⟨h0, h3, h4, rfl⟩ := h
    clear p1 p2
    grind (splits := 20)
  · obtain ⟨h0, h3, h4, h5, rfl⟩ := h
    clear p1 p2
    grind (splits := 20)
  · obtain ⟨h0, h3, h4, h5, h6, h7, rfl⟩ := h
    grind (splits := 20)
  · obtain ⟨h0, h3, h4, h5, h6, h7, rfl⟩ := h
    grind (splits := 20)

/-- The cases of `intersection`. -/
theorem intersection_cases (fl : K → K) (i j : Interval K) :
    (j.isEmpty π = true ∧ i.intersection π fl j = empty π) ∨
    (j.isEmpty π = false ∧ i.fastContains π j.lo = true ∧ i.fastContains π j.hi = true ∧ j.len π fl < i.len π fl ∧ i.intersection π fl j = j) ∨
    (j.isEmpty π = false ∧ i.fastContains π j.lo = true ∧ i.fastContains π j.hi = true ∧ i.len π fl ≤ j.len π fl ∧ i.intersection π fl j = i) ∨
    (j.isEmpty π = false ∧ i.fastContains π j.lo = true ∧ i.fastContains π j.hi = false ∧ i.intersection π fl j = ⟨j.lo, i.hi⟩) ∨
    (j.isEmpty π = false ∧ i.fastContains π j.lo = false ∧ i.fastContains π j.hi = true ∧ i.intersection π fl j = ⟨i.lo, j.hi⟩) ∨
    (j.isEmpty π = false ∧ i.fastContains π j.lo = false ∧ i.fastContains π j.hi = false ∧ j.fastContains π i.lo = true ∧ i.intersection π fl j = i) ∨
    (j.isEmpty π = false ∧ i.fastContains π j.lo = false ∧ i.fastContains π j.hi = false ∧ j.fastContains π i.lo = false ∧ i.intersection π fl j = empty π) := by
  unfold Interval.intersection
  cases h0 : j.isEmpty π
  · cases h1 : i.fastContains π j.lo <;> cases h2 : i.fastContains π j.hi
    · cases h5 : j.fastContains π i.lo <;> simp
    · simp
    · simp
    · by_cases h6 : j.len π fl < i.len π fl
      · simp [h6]
      · simp [h6, not_lt.1 h6]
  · simp

/-- Validity, and the relation to the two arguments, for any rounding. -/
theorem intersection_ok (hπ : 0 < π) {i j : Interval K} (hi : Ok π i) (hj : Ok π j) (fl : K → K) :
    Ok π (i.intersection π fl j) ∧ (∀ p, -π < p → p ≤ π → Mem π i p → Mem π j p → Mem π (i.intersection π fl j) p) ∧
    ((∀ p, -π < p → p ≤ π → Mem π (i.intersection π fl j) p → Mem π i p) ∨
     ∀ p, -π < p → p ≤ π → Mem π (i.intersection π fl j) p → Mem π j p) := by
  have h := intersection_cases (π := π) fl i j
  generalize i.intersection π fl j = u at *
  simp only [← Bool.not_eq_true, fastContains_iff, isEmpty_iff] at h
  have hi' := hi
  have hj' := hj
  simp only [mem_iff]
  obtain ⟨a, b, c, d, e, f⟩ := hi
  obtain ⟨a', b', c', d', e', f'⟩ := hj
  have oe : Ok π (empty π) := by constructor <;> simp only [empty] <;> grind
  rcases h with h | h | h | h | h | h | h
  · obtain ⟨h1, rfl⟩ := h
    exact ⟨oe, by simp only [empty]; grind, Or.inl (by simp only [empty]; grind)⟩
  · obtain ⟨_, h1, h2, _, rfl⟩ := h
    exact ⟨hj', by grind, Or.inr (by grind)⟩
  · obtain ⟨_, h1, h2, _, rfl⟩ := h
    exact ⟨hi', by grind, Or.inl (by grind)⟩
  · obtain ⟨h0, h1, h2, rfl⟩ := h
    exact ⟨⟨by grind, by grind, by grind, by grind, by grind, by grind⟩, by grind (splits := 20), Or.inl (by grind (splits := 20))⟩
  · obtain ⟨h0, h1, h2, rfl⟩ := h
    exact ⟨⟨by grind, by grind, by grind, by grind, by grind, by grind⟩, by grind (splits := 20), Or.inl (by grind (splits := 20))⟩
  · obtain ⟨h0, h1, h2, h3, rfl⟩ := h
    exact ⟨hi', by grind, Or.inl (by grind)⟩
  · obtain ⟨h0, h1, h2, h3, rfl⟩ := h
    exact ⟨oe, by simp only [empty]; grind (splits := 20), Or.inl (by simp only [empty]; grind)⟩

theorem len_cases (hπ : 0 < π) (i : Interval K) (hi : Ok π i) : (i.lo = π ∧ i.hi = -π ∧ i.len π _root_.id = -1) ∨
    (¬ (i.lo = π ∧ i.hi = -π) ∧ i.lo ≤ i.hi ∧ i.len π _root_.id = i.hi - i.lo) ∨
    (¬ (i.lo = π ∧ i.hi = -π) ∧ i.hi < i.lo ∧ i.len π _root_.id = i.hi + 2 * π - i.lo) := by
  obtain ⟨a, b, c, d, e, f⟩ := hi
  simp only [Interval.len, id_eq]; grind

/-- With exact lengths, the intersection is exact unless the two arcs overlap at both ends. -/
theorem intersection_two (hπ : 0 < π) {i j : Interval K} (hi : Ok π i) (hj : Ok π j) :
    (∀ p, -π < p → p ≤ π → Mem π (i.intersection π _root_.id j) p → Mem π i p ∧ Mem π j p) ∨
    ((∀ p, -π < p → p ≤ π → Mem π i p ∨ Mem π j p) ∧
       Mem π i j.lo ∧ Mem π i j.hi ∧ -π < j.lo ∧ -π < j.hi ∧ Mem π j j.lo ∧ Mem π j j.hi ∧
       Mem π j i.lo ∧ Mem π j i.hi ∧ -π < i.lo ∧ -π < i.hi ∧ Mem π i i.lo ∧ Mem π i i.hi ∧
       arcLen π (i.intersection π _root_.id j).lo (i.intersection π _root_.id j).hi ≤ arcLen π i.lo i.hi ∧
       arcLen π (i.intersection π _root_.id j).lo (i.intersection π _root_.id j).hi ≤ arcLen π j.lo j.hi) := by
  have h := intersection_cases (π := π) _root_.id i j
  have l1 := len_cases hπ i hi
  have l2 := len_cases hπ j hj
  generalize i.intersection π _root_.id j = u at *
  generalize i.len π _root_.id = L1 at *
  generalize j.len π _root_.id = L2 at *
  have l3 := arcLen_cases (π := π) i.lo i.hi
  have l4 := arcLen_cases (π := π) j.lo j.hi
  simp only [← Bool.not_eq_true, fastContains_iff, isEmpty_iff] at h
  simp only [mem_iff]
  obtain ⟨a, b, c, d, e, f⟩ := hi
  obtain ⟨a', b', c', d', e', f'⟩ := hj
  rcases h with h | h | h | h | h | h | h
  · obtain ⟨h1, rfl⟩ := h
    exact Or.inl (by simp only [empty]; grind)
  · obtain ⟨_, h1, h2, h3, rfl⟩ := h
    generalize arcLen π i.lo i.hi = A1 at *
    generalize arcLen π u.lo u.hi = A2 at *
    by_cases hc : i.containsInterval π u = true
    · left; rw [containsInterval_iff] at hc; clear l3 l4; grind (splits := 20)
    · right; rw [containsInterval_iff] at hc
      refine ⟨?_, ?_, ?_, ?_, ?_, ?_, ?_, ?_, ?_, ?_, ?_, ?_, ?_, ?_, ?_⟩ <;> grind (splits := 20)
  · obtain ⟨_, h1, h2, h3, rfl⟩ := h
    generalize arcLen π j.lo j.hi = A1 at *
    generalize arcLen π u.lo u.hi = A2 at *
    by_cases hc : u.containsInterval π j = true ∨ j.lo = -π
    · left; rw [containsInterval_iff] at hc; clear l3 l4; grind (splits := 20)
    · right; rw [containsInterval_iff] at hc
      refine ⟨?_, ?_, ?_, ?_, ?_, ?_, ?_, ?_, ?_, ?_, ?_, ?_, ?_, ?_, ?_⟩ <;> grind (splits := 20)
  all_goals clear l1 l2 l3 l4
  · obtain ⟨h0, h1, h2, rfl⟩ := h
    exact Or.inl (by grind (splits := 20))
  · obtain ⟨h0, h1, h2, rfl⟩ := h
    exact Or.inl (by grind (splits := 20))
  · obtain ⟨h0, h1, h2, h3, rfl⟩ := h
    exact Or.inl (by grind (splits := 20))
  · obtain ⟨h0, h1, h2, h3, rfl⟩ := h
    exact Or.inl (by simp only [empty]; grind (splits := 20))

/-- An arc inside another one is no longer. -/
theorem arcLen_mono (hπ : 0 < π) {k u : Interval K} (hk : Ok π k) (hu : Ok π u) (h : k.containsInterval π u = true) :
    arcLen π u.lo u.hi ≤ arcLen π k.lo k.hi := by
  rw [containsInterval_iff] at h
  have l1 := arcLen_cases (π := π) u.lo u.hi
  have l2 := arcLen_cases (π := π) k.lo k.hi
  generalize arcLen π u.lo u.hi = L at *
  generalize arcLen π k.lo k.hi = L' at *
  obtain ⟨a, b, c, d, e, f⟩ := hk
  obtain ⟨a', b', c', d', e', f'⟩ := hu
  grind

/-- `contains_interval` from the points. -/
theorem containsInterval_of (hπ : 0 < π) {i j : Interval K} (hi : Ok π i) (hj : Ok π j)
    (g : ∀ p, -π < p → p ≤ π → Mem π j p → Mem π i p) : i.containsInterval π j = true := by
  obtain ⟨a, b, c, d, e, f⟩ := hi
  obtain ⟨a', b', c', d', e', f'⟩ := hj
  rw [containsInterval_iff]
  simp only [mem_iff] at g
  obtain ⟨m, hm⟩ := mid i.lo i.hi
  obtain ⟨n, hn⟩ := mid i.lo (-π)
  have g1 := inst g j.lo
  have g2 := inst g j.hi
  have g3 := inst g π
  have g4 := inst g m
  have g5 := inst g n
  clear g
  grind (splits := 20)

/-- A valid interval is full or misses a point. -/
theorem exists_not_mem (hπ : 0 < π) {k : Interval K} (hk : Ok π k) :
    (k.lo = -π ∧ k.hi = π) ∨ ∃ m, -π < m ∧ m ≤ π ∧ ¬ Mem π k m := by
  obtain ⟨a, b, c, d, e, f⟩ := hk
  obtain ⟨m, hm⟩ := mid k.lo k.hi
  obtain ⟨n, hn⟩ := mid k.lo (-π)
  by_cases h : k.lo = -π ∧ k.hi = π
  · exact Or.inl h
  · right
    simp only [mem_iff]
    by_cases h1 : k.hi < k.lo
    · by_cases h2 : k.lo = π ∧ k.hi = -π
      · exact ⟨π, by grind, le_refl _, by grind⟩
      · exact ⟨m, by grind, by grind, by grind⟩
    · by_cases h2 : k.hi < π
      · exact ⟨π, by grind, le_refl _, by grind⟩
      · exact ⟨n, by grind, by grind, by grind⟩

/-- Two arcs that miss a common point are intervals of a line. -/
theorem containsInterval_of_gap (hπ : 0 < π) {k i : Interval K} (hk : Ok π k) (hi : Ok π i) {m : K} (h1 : -π < m) (h2 : m ≤ π)
    (hm : ¬ Mem π k m) (hm' : ¬ Mem π i m) (hl : Mem π k i.lo) (hh : Mem π k i.hi) : k.containsInterval π i = true := by
  rw [containsInterval_iff]
  simp only [mem_iff] at *
  obtain ⟨a, b, c, d, e, f⟩ := hk
  obtain ⟨a', b', c', d', e', f'⟩ := hi
  grind (splits := 20)

theorem arcLen_le (hπ : 0 < π) {k : Interval K} (hk : Ok π k) : arcLen π k.lo k.hi ≤ 2 * π := by
  have l1 := arcLen_cases (π := π) k.lo k.hi
  obtain ⟨a, b, c, d, e, f⟩ := hk
  grind

/-- No arc that contains all common points is shorter. -/
theorem intersection_min (hπ : 0 < π) {i j k : Interval K} (hi : Ok π i) (hj : Ok π j) (hk : Ok π k)
    (g : ∀ p, -π < p → p ≤ π → Mem π i p ∧ Mem π j p → Mem π k p) :
    arcLen π (i.intersection π _root_.id j).lo (i.intersection π _root_.id j).hi ≤ arcLen π k.lo k.hi := by
  have ok := intersection_ok hπ hi hj _root_.id
  rcases intersection_two hπ hi hj with hs | ⟨_, a1, a2, a3, a4, a5, a6, b1, b2, b3, b4, b5, b6, c1, c2⟩
  · exact arcLen_mono hπ hk ok.1 (containsInterval_of hπ hk ok.1 fun p a b hm => g p a b (hs p a b hm))
  rcases exists_not_mem hπ hk with hf | ⟨m, m1, m2, hm⟩
  · have l1 := arcLen_cases (π := π) k.lo k.hi
    have l2 := arcLen_le hπ ok.1
    grind
  have hn : ¬ Mem π i m ∨ ¬ Mem π j m := by
    by_contra hc
    push Not at hc
    exact hm (g m m1 m2 hc)
  rcases hn with hn | hn
  · exact c1.trans (arcLen_mono hπ hk hi (containsInterval_of_gap hπ hk hi m1 m2 hm hn (g _ b3 hi.lo2 ⟨b5, b1⟩) (g _ b4 hi.hi2 ⟨b6, b2⟩)))
  · exact c2.trans (arcLen_mono hπ hk hj (containsInterval_of_gap hπ hk hj m1 m2 hm hn (g _ a3 hj.lo2 ⟨a1, a5⟩) (g _ a4 hj.hi2 ⟨a2, a6⟩)))

end Verif.S1
