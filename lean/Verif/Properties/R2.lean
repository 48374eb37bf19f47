import Verif.Model.R2
import Verif.Properties.R1

/-! # Points and rectangles of the plane: C55 and C66 -/

namespace Verif.R2
open R1 Spec

section order
variable {K : Type} [LinearOrder K]

/-- The points of a rectangle. -/
def InRect (r : Rect K) (p : Point K) : Prop := InIv r.x.lo r.x.hi p.x ∧ InIv r.y.lo r.y.hi p.y

/-- The points of its interior. -/
def InOpenRect (r : Rect K) (p : Point K) : Prop := InOpen r.x.lo r.x.hi p.x ∧ InOpen r.y.lo r.y.hi p.y

theorem rect_cases {r : Rect K} (h : r.isValid = true) :
    (r.x.isEmpty = true ∧ r.y.isEmpty = true) ∨ (r.x.lo ≤ r.x.hi ∧ r.y.lo ≤ r.y.hi) := by
  unfold Rect.isValid at h
  cases h1 : r.x.isEmpty <;> cases h2 : r.y.isEmpty <;> rw [h1, h2] at h <;> simp at h ⊢
  exact ⟨isEmpty_eq_false.1 h1, isEmpty_eq_false.1 h2⟩

theorem valid_of {r : Rect K} (h1 : r.x.lo ≤ r.x.hi) (h2 : r.y.lo ≤ r.y.hi) : r.isValid = true := by
  unfold Rect.isValid
  rw [isEmpty_eq_false.2 h1, isEmpty_eq_false.2 h2]; rfl

/-- **C55.** -/
theorem c55_containsPoint {r : Rect K} {p : Point K} :
    (r.containsPoint p = true ↔ InRect r p) ∧ (r.interiorContainsPoint p = true ↔ InOpenRect r p) := by
  unfold Rect.containsPoint Rect.interiorContainsPoint InRect InOpenRect
  rw [Bool.and_eq_true, Bool.and_eq_true, c48_contains.1, c48_contains.1, c48_contains.2, c48_contains.2]
  exact ⟨Iff.rfl, Iff.rfl⟩

/-- **C55.** -/
theorem c55_isEmpty {r : Rect K} (h : r.isValid = true) : r.isEmpty = true ↔ ∀ p, ¬ InRect r p := by
  unfold Rect.isEmpty
  rcases rect_cases h with ⟨a, b⟩ | ⟨a, b⟩
  · rw [a]
    rw [c48_isEmpty] at a
    exact ⟨fun _ p hp => a _ hp.1, fun _ => rfl⟩
  · rw [isEmpty_eq_false.2 a]
    exact ⟨fun h => by simp at h, fun h => absurd ⟨⟨le_refl _, a⟩, ⟨le_refl _, b⟩⟩ (h ⟨r.x.lo, r.y.lo⟩)⟩

/-- **C55.** -/
theorem c55_contains {r s : Rect K} (hs : s.isValid = true) :
    (r.contains s = true ↔ ∀ p, InRect s p → InRect r p) ∧
    (r.interiorContains s = true ↔ ∀ p, InRect s p → InOpenRect r p) := by
  unfold Rect.contains Rect.interiorContains
  rw [Bool.and_eq_true, Bool.and_eq_true, c48_containsInterval, c48_containsInterval, c48_interiorContainsInterval,
    c48_interiorContainsInterval]
  rcases rect_cases hs with ⟨a, b⟩ | ⟨a, b⟩
  · rw [c48_isEmpty] at a b
    exact ⟨⟨fun _ p hp => absurd hp.1 (a _), fun _ => ⟨fun x hx => absurd hx (a x), fun x hx => absurd hx (b x)⟩⟩,
      ⟨fun _ p hp => absurd hp.1 (a _), fun _ => ⟨fun x hx => absurd hx (a x), fun x hx => absurd hx (b x)⟩⟩⟩
  · exact ⟨⟨fun h p hp => ⟨h.1 _ hp.1, h.2 _ hp.2⟩,
      fun h => ⟨fun x hx => (h ⟨x, s.y.lo⟩ ⟨hx, le_refl _, b⟩).1, fun y hy => (h ⟨s.x.lo, y⟩ ⟨⟨le_refl _, a⟩, hy⟩).2⟩⟩,
      ⟨fun h p hp => ⟨h.1 _ hp.1, h.2 _ hp.2⟩,
      fun h => ⟨fun x hx => (h ⟨x, s.y.lo⟩ ⟨hx, le_refl _, b⟩).1, fun y hy => (h ⟨s.x.lo, y⟩ ⟨⟨le_refl _, a⟩, hy⟩).2⟩⟩⟩

/-- **C55.** -/
theorem c55_intersects {r s : Rect K} : r.intersects s = true ↔ ∃ p, InRect r p ∧ InRect s p := by
  unfold Rect.intersects
  rw [Bool.and_eq_true, c48_intersects, c48_intersects]
  exact ⟨fun ⟨⟨x, a, b⟩, ⟨y, c, d⟩⟩ => ⟨⟨x, y⟩, ⟨a, c⟩, ⟨b, d⟩⟩,
    fun ⟨p, a, b⟩ => ⟨⟨p.x, a.1, b.1⟩, ⟨p.y, a.2, b.2⟩⟩⟩

/-- **C55.** -/
theorem c55_interiorIntersects [DenselyOrdered K] {r s : Rect K} :
    r.interiorIntersects s = true ↔ ∃ p, InOpenRect r p ∧ InRect s p := by
  unfold Rect.interiorIntersects
  rw [Bool.and_eq_true, c48_interiorIntersects, c48_interiorIntersects]
  exact ⟨fun ⟨⟨x, a, b⟩, ⟨y, c, d⟩⟩ => ⟨⟨x, y⟩, ⟨a, c⟩, ⟨b, d⟩⟩,
    fun ⟨p, a, b⟩ => ⟨⟨p.x, a.1, b.1⟩, ⟨p.y, a.2, b.2⟩⟩⟩

/-- `u` is the least valid rectangle with the points `S`. -/
def IsHull (u : Rect K) (S : Point K → Prop) : Prop :=
  u.isValid = true ∧ (∀ p, S p → InRect u p) ∧
    ∀ k : Rect K, (∀ p, S p → InRect k p) → ∀ p, InRect u p → InRect k p

theorem union_empty {i j : Interval K} (h : i.isEmpty = true) : i.union j = j := if_pos h

theorem union_empty' {i j : Interval K} (h : i.isEmpty = false) (h' : j.isEmpty = true) : i.union j = i := by
  unfold Interval.union; rw [if_neg (by simp [h]), if_pos h']

theorem nonempty_of {i : Interval K} {x : K} (h : Pts i x) : i.isEmpty = false := isEmpty_eq_false.2 (h.1.trans h.2)

/-- **C55.** The union is the least rectangle that contains both. -/
theorem c55_union {r s : Rect K} (hr : r.isValid = true) (hs : s.isValid = true) :
    IsHull (r.union s) fun p => InRect r p ∨ InRect s p := by
  rcases rect_cases hr with ⟨a, b⟩ | ⟨a, b⟩
  · have e : r.union s = s := by unfold Rect.union; rw [union_empty a, union_empty b]
    rw [e]
    rw [c48_isEmpty] at a
    exact ⟨hs, fun p hp => hp.resolve_left (fun h => a _ h.1), fun k hk p hp => hk p (Or.inr hp)⟩
  rcases rect_cases hs with ⟨c, d⟩ | ⟨c, d⟩
  · have e : r.union s = r := by
      unfold Rect.union; rw [union_empty' (isEmpty_eq_false.2 a) c, union_empty' (isEmpty_eq_false.2 b) d]
    rw [e]
    rw [c48_isEmpty] at c
    exact ⟨hr, fun p hp => hp.resolve_right (fun h => c _ h.1), fun k hk p hp => hk p (Or.inl hp)⟩
  · obtain ⟨u1, u2⟩ := c48_union (i := r.x) (j := s.x)
    obtain ⟨v1, v2⟩ := c48_union (i := r.y) (j := s.y)
    refine ⟨?_, ?_, ?_⟩
    · have h1 := u1 r.x.lo (Or.inl ⟨le_refl _, a⟩)
      have h2 := v1 r.y.lo (Or.inl ⟨le_refl _, b⟩)
      exact valid_of (h1.1.trans h1.2) (h2.1.trans h2.2)
    · rintro p (hp | hp)
      · exact ⟨u1 _ (Or.inl hp.1), v1 _ (Or.inl hp.2)⟩
      · exact ⟨u1 _ (Or.inr hp.1), v1 _ (Or.inr hp.2)⟩
    · intro k hk p hp
      refine ⟨u2 k.x ?_ _ hp.1, v2 k.y ?_ _ hp.2⟩
      · rintro x (hx | hx)
        · exact (hk ⟨x, r.y.lo⟩ (Or.inl ⟨hx, le_refl _, b⟩)).1
        · exact (hk ⟨x, s.y.lo⟩ (Or.inr ⟨hx, le_refl _, d⟩)).1
      · rintro y (hy | hy)
        · exact (hk ⟨r.x.lo, y⟩ (Or.inl ⟨⟨le_refl _, a⟩, hy⟩)).2
        · exact (hk ⟨s.x.lo, y⟩ (Or.inr ⟨⟨le_refl _, c⟩, hy⟩)).2

/-- **C55.** Adding a point gives the least rectangle that contains the rectangle and the point. -/
theorem c55_addPoint {r : Rect K} (hr : r.isValid = true) (q : Point K) :
    IsHull (r.addPoint q) fun p => InRect r p ∨ p = q := by
  obtain ⟨u1, u2⟩ := c48_addPoint (i := r.x) (p := q.x)
  obtain ⟨v1, v2⟩ := c48_addPoint (i := r.y) (p := q.y)
  refine ⟨?_, ?_, ?_⟩
  · have h1 := u1 q.x (Or.inr rfl)
    have h2 := v1 q.y (Or.inr rfl)
    exact valid_of (h1.1.trans h1.2) (h2.1.trans h2.2)
  · rintro p (hp | rfl)
    · exact ⟨u1 _ (Or.inl hp.1), v1 _ (Or.inl hp.2)⟩
    · exact ⟨u1 _ (Or.inr rfl), v1 _ (Or.inr rfl)⟩
  · intro k hk p hp
    have hq := hk q (Or.inr rfl)
    refine ⟨u2 k.x ?_ _ hp.1, v2 k.y ?_ _ hp.2⟩
    · rintro x (hx | rfl)
      · rcases rect_cases hr with ⟨a, b⟩ | ⟨a, b⟩
        · exact absurd hx (c48_isEmpty.1 a x)
        · exact (hk ⟨x, r.y.lo⟩ (Or.inl ⟨hx, le_refl _, b⟩)).1
      · exact hq.1
    · rintro y (hy | rfl)
      · rcases rect_cases hr with ⟨a, b⟩ | ⟨a, b⟩
        · exact absurd hy (c48_isEmpty.1 b y)
        · exact (hk ⟨r.x.lo, y⟩ (Or.inl ⟨⟨le_refl _, a⟩, hy⟩)).2
      · exact hq.2

theorem foldl_hull (ps : List (Point K)) : ∀ (r : Rect K) (S : Point K → Prop), IsHull r S →
    IsHull (ps.foldl Rect.addPoint r) fun p => S p ∨ p ∈ ps := by
  induction ps with
  | nil => intro r S h; simpa using h
  | cons q ps ih =>
    intro r S h
    have h' := c55_addPoint h.1 q
    have h2 : IsHull (r.addPoint q) fun p => S p ∨ p = q := by
      refine ⟨h'.1, ?_, ?_⟩
      · rintro p (hp | hp)
        · exact h'.2.1 p (Or.inl (h.2.1 p hp))
        · exact h'.2.1 p (Or.inr hp)
      · intro k hk p hp
        refine h'.2.2 k ?_ p hp
        rintro p' (hp' | hp')
        · exact h.2.2 k (fun x hx => hk x (Or.inl hx)) p' hp'
        · exact hk p' (Or.inr hp')
    have := ih _ _ h2
    have e : (fun p => (S p ∨ p = q) ∨ p ∈ ps) = fun p => S p ∨ p ∈ q :: ps := by
      funext p
      rw [List.mem_cons, or_assoc]
    rw [e] at this
    exact this

/-- **C55.** `from_points` of a non-empty list is the least rectangle that contains the points. -/
theorem c55_fromPoints (p : Point K) (ps : List (Point K)) : IsHull (Rect.fromPoints p ps) fun q => q ∈ p :: ps := by
  have h : IsHull (⟨Interval.fromPoint p.x, Interval.fromPoint p.y⟩ : Rect K) fun q => q = p := by
    refine ⟨valid_of (le_refl _) (le_refl _), ?_, ?_⟩
    · rintro q rfl; exact ⟨⟨le_refl _, le_refl _⟩, ⟨le_refl _, le_refl _⟩⟩
    · rintro k hk q ⟨⟨a, b⟩, ⟨c, d⟩⟩
      have e : q = p := by
        cases q; cases p
        have h1 := le_antisymm b a
        have h2 := le_antisymm d c
        simp only [Interval.fromPoint] at h1 h2
        rw [h1, h2]
      exact hk q e
  have := foldl_hull ps _ _ h
  have e : (fun q => q = p ∨ q ∈ ps) = fun q => q ∈ p :: ps := by
    funext q; rw [List.mem_cons]
  rw [e] at this
  exact this

/-- **C55.** Two valid rectangles are equal iff they have the same points. -/
theorem c55_eq {r s : Rect K} (hr : r.isValid = true) (hs : s.isValid = true) :
    r.eq s = true ↔ ∀ p, InRect r p ↔ InRect s p := by
  unfold Rect.eq
  rw [Bool.and_eq_true, c48_eq, c48_eq]
  constructor
  · intro ⟨a, b⟩ p
    exact and_congr (a _) (b _)
  · intro h
    rcases rect_cases hr with ⟨a, b⟩ | ⟨a, b⟩
    · have hs' : ∀ p, ¬ InRect s p := fun p hp => c48_isEmpty.1 a _ ((h p).2 hp).1
      rw [← c55_isEmpty hs] at hs'
      rcases rect_cases hs with ⟨c, d⟩ | ⟨c, d⟩
      · rw [c48_isEmpty] at a b c d
        exact ⟨fun x => iff_of_false (a x) (c x), fun x => iff_of_false (b x) (d x)⟩
      · rw [Rect.isEmpty, isEmpty_eq_false.2 c] at hs'
        simp at hs'
    · obtain ⟨⟨c1, c2⟩, ⟨d1, d2⟩⟩ := (h ⟨r.x.lo, r.y.lo⟩).1 ⟨⟨le_refl _, a⟩, ⟨le_refl _, b⟩⟩
      have c := c1.trans c2
      have d := d1.trans d2
      constructor
      · intro x
        exact ⟨fun hx => ((h ⟨x, r.y.lo⟩).1 ⟨hx, le_refl _, b⟩).1, fun hx => ((h ⟨x, s.y.lo⟩).2 ⟨hx, le_refl _, d⟩).1⟩
      · intro y
        exact ⟨fun hy => ((h ⟨r.x.lo, y⟩).1 ⟨⟨le_refl _, a⟩, hy⟩).2, fun hy => ((h ⟨s.x.lo, y⟩).2 ⟨⟨le_refl _, c⟩, hy⟩).2⟩

/-- **C55.** `clamp_point` gives a point of the rectangle; in each coordinate one passes it going from `p` to any
other point of the rectangle. -/
theorem c55_clampPoint {r : Rect K} (h : r.isValid = true) (hne : r.isEmpty = false) (p : Point K) :
    InRect r (r.clampPoint p) ∧ ∀ q, InRect r q →
      ((p.x ≤ (r.clampPoint p).x ∧ (r.clampPoint p).x ≤ q.x) ∨ (q.x ≤ (r.clampPoint p).x ∧ (r.clampPoint p).x ≤ p.x)) ∧
      ((p.y ≤ (r.clampPoint p).y ∧ (r.clampPoint p).y ≤ q.y) ∨ (q.y ≤ (r.clampPoint p).y ∧ (r.clampPoint p).y ≤ p.y)) := by
  have hx : r.x.isEmpty = false := hne
  have hy : r.y.isEmpty = false := by
    unfold Rect.isValid at h; rw [hx] at h
    cases e : r.y.isEmpty
    · rfl
    · rw [e] at h; simp at h
  obtain ⟨a, b⟩ := c48_clampPoint (p := p.x) hx
  obtain ⟨c, d⟩ := c48_clampPoint (p := p.y) hy
  exact ⟨⟨a, c⟩, fun q hq => ⟨b _ hq.1, d _ hq.2⟩⟩

/-- **C55.** The rectangle is the hull of its vertices, and `vertex_ij` runs over them. -/
theorem c55_vertices {r : Rect K} (h : r.isValid = true) (hne : r.isEmpty = false) :
    IsHull r (fun p => p ∈ r.vertices) ∧ ∀ p, p ∈ r.vertices ↔ ∃ i j, (i = 0 ∨ i = 1) ∧ (j = 0 ∨ j = 1) ∧ p = r.vertexIJ i j := by
  refine ⟨?_, ?_⟩
  · rcases rect_cases h with ⟨a, b⟩ | ⟨a, b⟩
    · rw [Rect.isEmpty, a] at hne; simp at hne
    refine ⟨h, ?_, ?_⟩
    · intro p hp
      simp only [Rect.vertices, List.mem_cons, List.not_mem_nil, or_false] at hp
      rcases hp with rfl | rfl | rfl | rfl
      · exact ⟨⟨le_refl _, a⟩, ⟨le_refl _, b⟩⟩
      · exact ⟨⟨a, le_refl _⟩, ⟨le_refl _, b⟩⟩
      · exact ⟨⟨a, le_refl _⟩, ⟨b, le_refl _⟩⟩
      · exact ⟨⟨le_refl _, a⟩, ⟨b, le_refl _⟩⟩
    · intro k hk p hp
      have h1 := hk ⟨r.x.lo, r.y.lo⟩ (by simp [Rect.vertices])
      have h2 := hk ⟨r.x.hi, r.y.hi⟩ (by simp [Rect.vertices])
      exact ⟨⟨h1.1.1.trans hp.1.1, hp.1.2.trans h2.1.2⟩, ⟨h1.2.1.trans hp.2.1, hp.2.2.trans h2.2.2⟩⟩
  · intro p
    simp only [Rect.vertices, List.mem_cons, List.not_mem_nil, or_false, Rect.vertexIJ]
    constructor
    · rintro (rfl | rfl | rfl | rfl)
      · exact ⟨0, 0, Or.inl rfl, Or.inl rfl, rfl⟩
      · exact ⟨1, 0, Or.inr rfl, Or.inl rfl, rfl⟩
      · exact ⟨1, 1, Or.inr rfl, Or.inr rfl, rfl⟩
      · exact ⟨0, 1, Or.inl rfl, Or.inr rfl, rfl⟩
    · rintro ⟨i, j, rfl | rfl, rfl | rfl, rfl⟩ <;> simp

end order

section field
variable {K : Type} [Field K] [LinearOrder K] [IsStrictOrderedRing K]

theorem empty_spec : (Rect.empty (K := K)).isValid = true ∧ ∀ p, ¬ InRect (Rect.empty (K := K)) p := by
  have h := c48_empty (K := K)
  refine ⟨?_, fun p hp => c48_isEmpty.1 h _ hp.1⟩
  unfold Rect.isValid Rect.empty
  rw [h]; rfl

/-- **C55.** -/
theorem c55_intersection {r s : Rect K} :
    (r.intersection s).isValid = true ∧ ∀ p, InRect (r.intersection s) p ↔ InRect r p ∧ InRect s p := by
  have hx := fun x => c48_intersection (i := r.x) (j := s.x) x
  have hy := fun y => c48_intersection (i := r.y) (j := s.y) y
  unfold Rect.intersection
  cases h1 : (r.x.intersection s.x).isEmpty
  · cases h2 : (r.y.intersection s.y).isEmpty
    · simp only [h1, h2, Bool.or_self, Bool.false_eq_true, if_false]
      refine ⟨valid_of (isEmpty_eq_false.1 h1) (isEmpty_eq_false.1 h2), fun p => ?_⟩
      have a := hx p.x
      have b := hy p.y
      unfold InRect
      unfold Pts at a b
      rw [a, b]; tauto
    · simp only [h1, h2, Bool.or_true, if_true]
      refine ⟨empty_spec.1, fun p => iff_of_false (empty_spec.2 p) ?_⟩
      rintro ⟨a, b⟩
      exact c48_isEmpty.1 h2 p.y ((hy p.y).2 ⟨a.2, b.2⟩)
  · simp only [h1, Bool.true_or, if_true]
    refine ⟨empty_spec.1, fun p => iff_of_false (empty_spec.2 p) ?_⟩
    rintro ⟨a, b⟩
    exact c48_isEmpty.1 h1 p.x ((hx p.x).2 ⟨a.1, b.1⟩)

/-- **C55.** With exact arithmetic and margins `≥ 0`, `expanded` is the set of points within the margins of the rectangle. -/
theorem c55_expanded {r : Rect K} (hr : r.isValid = true) {m : Point K} (hx : 0 ≤ m.x) (hy : 0 ≤ m.y) :
    (r.expanded id m).isValid = true ∧
    ∀ p, InRect (r.expanded id m) p ↔ ∃ q, InRect r q ∧ |p.x - q.x| ≤ m.x ∧ |p.y - q.y| ≤ m.y := by
  have ex := fun x => c49_expanded (i := r.x) hx x
  have ey := fun y => c49_expanded (i := r.y) hy y
  unfold Rect.expanded
  cases h1 : (r.x.expanded id m.x).isEmpty
  · cases h2 : (r.y.expanded id m.y).isEmpty
    · simp only [h1, h2, Bool.or_self, Bool.false_eq_true, if_false]
      refine ⟨valid_of (isEmpty_eq_false.1 h1) (isEmpty_eq_false.1 h2), fun p => ?_⟩
      have a := ex p.x
      have b := ey p.y
      constructor
      · intro ⟨h1, h2⟩
        obtain ⟨x, hx1, hx2⟩ := a.1 h1
        obtain ⟨y, hy1, hy2⟩ := b.1 h2
        exact ⟨⟨x, y⟩, ⟨hx1, hy1⟩, hx2, hy2⟩
      · rintro ⟨q, ⟨q1, q2⟩, h1, h2⟩
        exact ⟨a.2 ⟨q.x, q1, h1⟩, b.2 ⟨q.y, q2, h2⟩⟩
    · simp only [h1, h2, Bool.or_true, if_true]
      refine ⟨empty_spec.1, fun p => iff_of_false (empty_spec.2 p) ?_⟩
      rintro ⟨q, hq, _, b⟩
      exact c48_isEmpty.1 h2 p.y ((ey p.y).2 ⟨q.y, hq.2, b⟩)
  · simp only [h1, Bool.true_or, if_true]
    refine ⟨empty_spec.1, fun p => iff_of_false (empty_spec.2 p) ?_⟩
    rintro ⟨q, hq, b, _⟩
    exact c48_isEmpty.1 h1 p.x ((ex p.x).2 ⟨q.x, hq.1, b⟩)

/-- **C55.** With exact arithmetic, `from_center_size` is the set of points within half the size of the centre. -/
theorem c55_fromCenterSize {c size : Point K} (hx : 0 ≤ size.x) (hy : 0 ≤ size.y) :
    (Rect.fromCenterSize id c size).isValid = true ∧
    ∀ p, InRect (Rect.fromCenterSize id c size) p ↔ |p.x - c.x| ≤ size.x / 2 ∧ |p.y - c.y| ≤ size.y / 2 := by
  have hx' : 0 ≤ size.x / 2 := by linarith
  have hy' : 0 ≤ size.y / 2 := by linarith
  have ex := fun x => c49_expanded (i := Interval.fromPoint c.x) hx' x
  have ey := fun y => c49_expanded (i := Interval.fromPoint c.y) hy' y
  have key : ∀ p, InRect (Rect.fromCenterSize id c size) p ↔ |p.x - c.x| ≤ size.x / 2 ∧ |p.y - c.y| ≤ size.y / 2 := by
    intro p
    refine and_congr ((ex p.x).trans ?_) ((ey p.y).trans ?_)
    · constructor
      · rintro ⟨y, h, g⟩; rw [c48_fromPoints (q := c.x) |>.1] at h; rw [← h]; exact g
      · intro g; exact ⟨c.x, ⟨le_refl _, le_refl _⟩, g⟩
    · constructor
      · rintro ⟨y, h, g⟩; rw [c48_fromPoints (q := c.y) |>.1] at h; rw [← h]; exact g
      · intro g; exact ⟨c.y, ⟨le_refl _, le_refl _⟩, g⟩
  refine ⟨?_, key⟩
  have h := (key c).2 ⟨by rw [sub_self, abs_zero]; exact hx', by rw [sub_self, abs_zero]; exact hy'⟩
  exact valid_of (h.1.1.trans h.1.2) (h.2.1.trans h.2.2)

/-- **C55.** `from_points` of no points is not empty: it contains the origin. -/
theorem c55_fromPoints_nil : (Rect.fromPointList (K := K) []).isEmpty = false ∧ InRect (Rect.fromPointList (K := K) []) ⟨0, 0⟩ :=
  ⟨isEmpty_eq_false.2 (le_refl _), ⟨⟨le_refl _, le_refl _⟩, ⟨le_refl _, le_refl _⟩⟩⟩

end field

/-! ## C66: points -/

section
variable {K : Type} [LinearOrder K]

/-- **C66.** The order of points is the lexicographic one; `==` is equality. -/
theorem c66_cmp (p q : Point K) :
    (p.cmp q = .lt ↔ p.x < q.x ∨ p.x = q.x ∧ p.y < q.y) ∧ (p.cmp q = .gt ↔ q.cmp p = .lt) ∧
    (p.cmp q = .eq ↔ p = q) ∧ (p.eq q = true ↔ p = q) := by
  have tr : p.cmp q = .eq ↔ p = q := by
    unfold Point.cmp
    constructor
    · split_ifs
      · simp
      · simp
      · simp
      · simp
      · intro _
        cases p; cases q
        have h1 := le_antisymm (not_lt.1 ‹_›) (not_lt.1 ‹_›)
        simp_all
        exact le_antisymm ‹_› ‹_›
    · rintro rfl; simp
  refine ⟨?_, ?_, tr, ?_⟩
  · unfold Point.cmp
    rcases lt_trichotomy p.x q.x with h | h | h <;> rcases lt_trichotomy p.y q.y with g | g | g <;>
      simp_all [not_lt_of_gt, ne_of_gt]
  · unfold Point.cmp
    rcases lt_trichotomy p.x q.x with h | h | h <;> rcases lt_trichotomy p.y q.y with g | g | g <;>
      simp_all [not_lt_of_gt]
  · unfold Point.eq
    rw [beq_iff_eq, tr]

end

section
variable {K : Type} [Field K] [LinearOrder K] [IsStrictOrderedRing K]

/-- **C66.** Laws of `dot`, `cross` and `ortho` with exact arithmetic: `ortho` turns by a right angle counterclockwise and keeps the
norm, `cross` is antisymmetric, and the identity of Lagrange. -/
theorem c66_laws (p q : Point K) :
    p.dot id p.ortho = 0 ∧ p.cross id p.ortho = p.dot id p ∧ 0 ≤ p.dot id p ∧ p.ortho.dot id p.ortho = p.dot id p ∧
    p.dot id q = q.dot id p ∧ p.cross id q = -q.cross id p ∧ p.ortho.dot id q = p.cross id q ∧
    p.dot id q ^ 2 + p.cross id q ^ 2 = p.dot id p * q.dot id q := by
  simp only [Point.dot, Point.cross, Point.ortho, id]
  refine ⟨by ring, by ring, add_nonneg (mul_self_nonneg _) (mul_self_nonneg _), by ring, by ring, by ring, by ring, by ring⟩

/-- **C66.** Exact sums and differences undo each other, and multiplication by a number is linear. -/
theorem c66_add_sub (p q : Point K) (a b : K) :
    (p.add id q).sub id q = p ∧ p.add id q = q.add id p ∧ (p.smul id a).add id (p.smul id b) = p.smul id (a + b) ∧
    (p.add id q).smul id a = (p.smul id a).add id (q.smul id a) := by
  cases p; cases q
  simp only [Point.add, Point.sub, Point.smul, id, Point.mk.injEq]
  refine ⟨⟨by ring, by ring⟩, ⟨by ring, by ring⟩, ⟨by ring, by ring⟩, ⟨by ring, by ring⟩⟩

/-- **C66.** The product of points is wrong: it is component-wise only in special cases. -/
theorem c66_mul_wrong (p q : Point K) :
    p.mul id q = ⟨p.x * q.x, p.y * q.y⟩ ↔ (p.x = 0 ∨ p.x = q.x) ∧ (q.y = 0 ∨ q.y = p.y) := by
  simp only [Point.mul, id, Point.mk.injEq]
  refine and_congr ?_ ?_
  · rw [mul_eq_mul_left_iff, or_comm]
  · rw [mul_eq_mul_right_iff, or_comm]

end

example : (⟨2, 3⟩ : Point ℚ).mul id ⟨5, 7⟩ = ⟨4, 49⟩ := by decide +kernel
example : InRect ((⟨⟨0, 1⟩, ⟨0, 1⟩⟩ : Rect ℚ).union ⟨⟨4, 5⟩, ⟨6, 7⟩⟩) ⟨3, 2⟩ := by
  unfold InRect Spec.InIv; decide +kernel
example : IsHull (Rect.fromPoints (⟨1, 5⟩ : Point ℚ) [⟨2, 2⟩, ⟨0, 9⟩]) fun q => q ∈ [(⟨1, 5⟩ : Point ℚ), ⟨2, 2⟩, ⟨0, 9⟩] :=
  c55_fromPoints _ _

end Verif.R2
