import Verif.Model.S2Rect
import Verif.Properties.R1
import Verif.Properties.S1Expand

/-! # Latitude-longitude rectangles: C56, C57 and C71 -/

namespace Verif.S2
open Spec
variable {K : Type} [Field K] [LinearOrder K] [IsStrictOrderedRing K] {π : K}

/-- The points of a rectangle: a latitude of the line interval and a longitude on the arc. -/
def RPts (π : K) (r : Rect K) (a b : K) : Prop := R1.Pts r.lat a ∧ S1.Pts π r.lng b

/-- The points of its interior. -/
def RInts (π : K) (r : Rect K) (a b : K) : Prop := R1.Ints r.lat a ∧ S1.Ints π r.lng b

/-- A latitude and a longitude: the points of the sphere in these coordinates. -/
def IsLL (π a b : K) : Prop := -(π / 2) ≤ a ∧ a ≤ π / 2 ∧ -π ≤ b ∧ b ≤ π

structure ROk (π : K) (r : Rect K) : Prop where
  lo1 : -(π / 2) ≤ r.lat.lo
  lo2 : r.lat.lo ≤ π / 2
  hi2 : r.lat.hi ≤ π / 2
  lng : r.lng.isValid π = true
  emp : r.lat.isEmpty = r.lng.isEmpty π

theorem isValid_iff {r : Rect K} : r.isValid π = true ↔ ROk π r := by
  unfold Rect.isValid
  simp only [Bool.and_eq_true, decide_eq_true_eq, beq_iff_eq, abs_le]
  exact ⟨fun ⟨⟨⟨⟨a, b⟩, c⟩, d⟩, e⟩ => ⟨a, b, c, d, e⟩, fun ⟨a, b, c, d, e⟩ => ⟨⟨⟨⟨a, b⟩, c⟩, d⟩, e⟩⟩

theorem latlng_iff {ll : LatLng K} : ll.isValid π = true ↔ IsLL π ll.lat ll.lng := by
  unfold LatLng.isValid IsLL
  simp only [Bool.and_eq_true, decide_eq_true_eq, abs_le]
  tauto

/-- A rectangle has no points, or both parts have. -/
theorem parts (hπ : 0 < π) {r : Rect K} (h : ROk π r) :
    (r.lat.isEmpty = true ∧ r.lng.isEmpty π = true ∧ (∀ a, ¬ R1.Pts r.lat a) ∧ ∀ b, ¬ S1.Pts π r.lng b) ∨
    (r.lat.isEmpty = false ∧ r.lng.isEmpty π = false ∧ (∃ a, R1.Pts r.lat a) ∧ ∃ b, S1.Pts π r.lng b) := by
  have he := h.emp
  cases h1 : r.lat.isEmpty
  · right
    rw [h1] at he
    refine ⟨rfl, he.symm, ?_, ?_⟩
    · by_contra hc
      push Not at hc
      have := R1.c48_isEmpty.2 hc
      rw [h1] at this; cases this
    · by_contra hc
      push Not at hc
      have := (S1.c50_isEmpty_isFull hπ h.lng).1.2 hc
      rw [← he] at this; cases this
  · left
    rw [h1] at he
    exact ⟨rfl, he.symm, R1.c48_isEmpty.1 h1, (S1.c50_isEmpty_isFull hπ h.lng).1.1 he.symm⟩

/-- **C56.** All points are latitudes and longitudes. -/
theorem c56_points {r : Rect K} (h : r.isValid π = true) {a b : K} (hp : RPts π r a b) : IsLL π a b := by
  rw [isValid_iff] at h
  exact ⟨h.lo1.trans hp.1.1, hp.1.2.trans h.hi2, hp.2.1, hp.2.2.1⟩

/-- **C56.** `contains_latlng` is membership. -/
theorem c56_containsLatLng (hπ : 0 < π) {r : Rect K} (h : r.isValid π = true) (ll : LatLng K) :
    r.containsLatLng π ll = true ↔ RPts π r ll.lat ll.lng := by
  have h' := h
  rw [isValid_iff] at h
  unfold Rect.containsLatLng
  simp only [Bool.and_eq_true, latlng_iff]
  constructor
  · rintro ⟨⟨a, b⟩, c⟩
    exact ⟨R1.c48_contains.1.1 b, a.2.2.1, a.2.2.2, (S1.c50_contains hπ h.lng a.2.2.1 a.2.2.2).1.1 c⟩
  · intro hp
    have a := c56_points h' hp
    exact ⟨⟨a, R1.c48_contains.1.2 hp.1⟩, (S1.c50_contains hπ h.lng a.2.2.1 a.2.2.2).1.2 hp.2.2.2⟩

/-- **C56.** `interior_contains_latlng`, for a normalized argument. -/
theorem c56_interiorContainsLatLng (hπ : 0 < π) {r : Rect K} (h : r.isValid π = true) {ll : LatLng K} (hl : ll.isValid π = true) :
    r.interiorContainsLatLng π ll = true ↔ RInts π r ll.lat ll.lng := by
  rw [isValid_iff] at h
  rw [latlng_iff] at hl
  unfold Rect.interiorContainsLatLng
  simp only [Bool.and_eq_true]
  rw [R1.c48_contains.2, (S1.c50_contains hπ h.lng hl.2.2.1 hl.2.2.2).2]
  exact ⟨fun h => ⟨h.1, hl.2.2.1, hl.2.2.2, h.2⟩, fun h => ⟨h.1, h.2.2.2⟩⟩

/-- **C56.** -/
theorem c56_isEmpty (hπ : 0 < π) {r : Rect K} (h : r.isValid π = true) : r.isEmpty = true ↔ ∀ a b, ¬ RPts π r a b := by
  rw [isValid_iff] at h
  unfold Rect.isEmpty
  rcases parts hπ h with ⟨h1, _, h2, _⟩ | ⟨h1, _, ⟨a, ha⟩, ⟨b, hb⟩⟩
  · exact ⟨fun _ a b hp => h2 a hp.1, fun _ => h1⟩
  · rw [h1]
    constructor
    · intro h; cases h
    · intro h; exact absurd ⟨ha, hb⟩ (h a b)

/-- **C56.** -/
theorem c56_isFull (hπ : 0 < π) {r : Rect K} (h : r.isValid π = true) : r.isFull π = true ↔ ∀ a b, IsLL π a b → RPts π r a b := by
  rw [isValid_iff] at h
  unfold Rect.isFull
  rw [Bool.and_eq_true, R1.c48_eq, (S1.c50_isEmpty_isFull hπ h.lng).2]
  have e : -π / 2 = -(π / 2) := neg_div _ _
  constructor
  · rintro ⟨h1, h2⟩ a b hl
    refine ⟨(h1 a).2 ⟨?_, hl.2.1⟩, h2 b hl.2.2.1 hl.2.2.2⟩
    show -π / 2 ≤ a
    rw [e]; exact hl.1
  · intro hf
    have hpi : -π ≤ π := by linarith
    refine ⟨fun a => ⟨fun hp => ⟨?_, hp.2.trans h.hi2⟩, fun hp => ?_⟩, fun b h1 h2 => (hf 0 b ⟨by linarith, by linarith, h1, h2⟩).2⟩
    · show -π / 2 ≤ a
      rw [e]; exact h.lo1.trans hp.1
    · have h1 : -π / 2 ≤ a := hp.1
      rw [e] at h1
      exact (hf a π ⟨h1, hp.2, hpi, le_refl _⟩).1

/-- **C56.** `contains` is inclusion. -/
theorem c56_contains (hπ : 0 < π) {r s : Rect K} (h : r.isValid π = true) (hs : s.isValid π = true) :
    r.contains π s = true ↔ ∀ a b, RPts π s a b → RPts π r a b := by
  rw [isValid_iff] at h hs
  unfold Rect.contains
  rw [Bool.and_eq_true, R1.c48_containsInterval, S1.c50_containsInterval hπ h.lng hs.lng]
  constructor
  · rintro ⟨h1, h2⟩ a b hp
    exact ⟨h1 a hp.1, h2 b hp.2⟩
  · intro hc
    rcases parts hπ hs with ⟨_, _, h1, h2⟩ | ⟨_, _, ⟨a, ha⟩, ⟨b, hb⟩⟩
    · exact ⟨fun a ha => absurd ha (h1 a), fun b hb => absurd hb (h2 b)⟩
    · exact ⟨fun a' ha' => (hc a' b ⟨ha', hb⟩).1, fun b' hb' => (hc a b' ⟨ha, hb'⟩).2⟩

/-- **C56.** `interior_contains` is inclusion in the interior. -/
theorem c56_interiorContains (hπ : 0 < π) {r s : Rect K} (h : r.isValid π = true) (hs : s.isValid π = true) :
    r.interiorContains π s = true ↔ ∀ a b, RPts π s a b → RInts π r a b := by
  rw [isValid_iff] at h hs
  unfold Rect.interiorContains
  rw [Bool.and_eq_true, R1.c48_interiorContainsInterval, S1.c50_interiorContainsInterval hπ h.lng hs.lng]
  constructor
  · rintro ⟨h1, h2⟩ a b hp
    exact ⟨h1 a hp.1, h2 b hp.2⟩
  · intro hc
    rcases parts hπ hs with ⟨_, _, h1, h2⟩ | ⟨_, _, ⟨a, ha⟩, ⟨b, hb⟩⟩
    · exact ⟨fun a ha => absurd ha (h1 a), fun b hb => absurd hb (h2 b)⟩
    · exact ⟨fun a' ha' => (hc a' b ⟨ha', hb⟩).1, fun b' hb' => (hc a b' ⟨ha, hb'⟩).2⟩

/-- **C56.** `intersects` and `interior_intersects`. -/
theorem c56_intersects (hπ : 0 < π) {r s : Rect K} (h : r.isValid π = true) (hs : s.isValid π = true) :
    (r.intersects π s = true ↔ ∃ a b, RPts π r a b ∧ RPts π s a b) ∧
    (r.interiorIntersects π s = true ↔ ∃ a b, RInts π r a b ∧ RPts π s a b) := by
  rw [isValid_iff] at h hs
  unfold Rect.intersects Rect.interiorIntersects
  rw [Bool.and_eq_true, Bool.and_eq_true, R1.c48_intersects, R1.c48_interiorIntersects, S1.c50_intersects hπ h.lng hs.lng,
    S1.c50_interiorIntersects hπ h.lng hs.lng]
  constructor
  · constructor
    · rintro ⟨⟨a, a1, a2⟩, ⟨b, b1, b2⟩⟩; exact ⟨a, b, ⟨a1, b1⟩, ⟨a2, b2⟩⟩
    · rintro ⟨a, b, h1, h2⟩; exact ⟨⟨a, h1.1, h2.1⟩, ⟨b, h1.2, h2.2⟩⟩
  · constructor
    · rintro ⟨⟨a, a1, a2⟩, ⟨b, b1, b2⟩⟩; exact ⟨a, b, ⟨a1, b1⟩, ⟨a2, b2⟩⟩
    · rintro ⟨a, b, h1, h2⟩; exact ⟨⟨a, h1.1, h2.1⟩, ⟨b, h1.2, h2.2⟩⟩

theorem bool_eq {b c : Bool} (h : b = true ↔ c = true) : b = c := by
  cases b <;> cases c <;> simp_all

/-- A pair of parts with both or no points is valid. -/
theorem rok_of (hπ : 0 < π) {r : Rect K} (h1 : -(π / 2) ≤ r.lat.lo) (h2 : r.lat.lo ≤ π / 2) (h3 : r.lat.hi ≤ π / 2)
    (hl : r.lng.isValid π = true) (he : (∃ a, R1.Pts r.lat a) ↔ ∃ b, S1.Pts π r.lng b) : ROk π r := by
  refine ⟨h1, h2, h3, hl, bool_eq ?_⟩
  rw [R1.c48_isEmpty, (S1.c50_isEmpty_isFull hπ hl).1]
  constructor
  · intro g b hb
    obtain ⟨a, ha⟩ := he.2 ⟨b, hb⟩
    exact g a ha
  · intro g a ha
    obtain ⟨b, hb⟩ := he.1 ⟨a, ha⟩
    exact g b hb

/-- **C56.** For any rounding the union is valid and contains both rectangles. Its latitudes are the least interval; with
exact arithmetic its longitudes are a shortest arc. -/
theorem c56_union (hπ : 0 < π) {r s : Rect K} (h : r.isValid π = true) (hs : s.isValid π = true) (fl : K → K) :
    (r.union π fl s).isValid π = true ∧ (∀ a b, RPts π r a b ∨ RPts π s a b → RPts π (r.union π fl s) a b) := by
  rw [isValid_iff] at h hs ⊢
  have hu := S1.c51_union hπ h.lng hs.lng fl
  have hl := R1.c48_union (i := r.lat) (j := s.lat)
  refine ⟨?_, ?_⟩
  · rcases parts hπ h with ⟨e1, e1', n1, n1'⟩ | ⟨e1, e1', ⟨a, ha⟩, ⟨b, hb⟩⟩
    · have hlat : (r.union π fl s).lat = s.lat := by simp [Rect.union, R1.Interval.union, e1]
      refine rok_of hπ (by rw [hlat]; exact hs.lo1) (by rw [hlat]; exact hs.lo2) (by rw [hlat]; exact hs.hi2) hu.1 ?_
      rcases parts hπ hs with ⟨e2, e2', n2, n2'⟩ | ⟨e2, e2', ⟨a, ha⟩, ⟨b, hb⟩⟩
      · constructor
        · rintro ⟨a, ha⟩; rw [hlat] at ha; exact absurd ha (n2 a)
        · rintro ⟨b, hb⟩
          have : (r.union π fl s).lng = r.lng := by simp [Rect.union, S1.Interval.union, e2']
          rw [this] at hb; exact absurd hb (n1' b)
      · exact ⟨fun _ => ⟨b, hu.2 b (Or.inr hb)⟩, fun _ => ⟨a, hl.1 a (Or.inr ha)⟩⟩
    · have hne := R1.isEmpty_eq_false.1 e1
      have hb3 : -(π / 2) ≤ (r.union π fl s).lat.lo ∧ (r.union π fl s).lat.lo ≤ π / 2 ∧ (r.union π fl s).lat.hi ≤ π / 2 := by
        have := h.lo1; have := h.lo2; have := h.hi2; have := hs.lo1; have := hs.lo2; have := hs.hi2
        simp only [Rect.union, R1.Interval.union, e1]
        cases s.lat.isEmpty
        · exact ⟨le_min h.lo1 hs.lo1, min_le_of_left_le h.lo2, max_le h.hi2 hs.hi2⟩
        · exact ⟨h.lo1, h.lo2, h.hi2⟩
      refine rok_of hπ hb3.1 hb3.2.1 hb3.2.2 hu.1 ?_
      exact ⟨fun _ => ⟨b, hu.2 b (Or.inl hb)⟩, fun _ => ⟨a, hl.1 a (Or.inl ha)⟩⟩
  · intro a b hp
    rcases hp with hp | hp
    · exact ⟨hl.1 a (Or.inl hp.1), hu.2 b (Or.inl hp.2)⟩
    · exact ⟨hl.1 a (Or.inr hp.1), hu.2 b (Or.inr hp.2)⟩

/-- **C56.** The union is the least: any rectangle with both has all its latitudes, and with exact arithmetic its
longitudes are no shorter. -/
theorem c56_union_min (hπ : 0 < π) {r s k : Rect K} (h : r.isValid π = true) (hs : s.isValid π = true) (hk : k.isValid π = true)
    (hc : ∀ a b, RPts π r a b ∨ RPts π s a b → RPts π k a b) :
    (∀ a, R1.Pts (r.union π _root_.id s).lat a → R1.Pts k.lat a) ∧
    arcLen π (r.union π _root_.id s).lng.lo (r.union π _root_.id s).lng.hi ≤ arcLen π k.lng.lo k.lng.hi := by
  have cr := (c56_contains hπ hk h).2 fun a b hp => hc a b (Or.inl hp)
  have cs := (c56_contains hπ hk hs).2 fun a b hp => hc a b (Or.inr hp)
  rw [isValid_iff] at h hs hk
  unfold Rect.contains at cr cs
  rw [Bool.and_eq_true, R1.c48_containsInterval, S1.c50_containsInterval hπ hk.lng] at cr cs
  · refine ⟨R1.c48_union.2 k.lat fun x hx => hx.elim (cr.1 x) (cs.1 x), ?_⟩
    exact S1.c51_union_min hπ h.lng hs.lng hk.lng fun p hp => hp.elim (cr.2 p) (cs.2 p)
  · exact hs.lng
  · exact h.lng

theorem empty_ok (hπ : 0 < π) (h1 : (1 : K) ≤ π / 2) : ROk π (Rect.empty π) := by
  refine rok_of hπ ?_ h1 ?_ ?_ ?_
  · show -(π / 2) ≤ 1
    linarith
  · show (0 : K) ≤ π / 2
    linarith
  · rw [S1.isValid_iff]
    constructor <;> simp only [Rect.empty, S1.Interval.empty] <;> grind
  · constructor
    · rintro ⟨a, ha⟩
      have h1 : (1 : K) ≤ a := ha.1
      have h2 : a ≤ (0 : K) := ha.2
      linarith
    · rintro ⟨b, hb⟩
      exact absurd ⟨rfl, rfl⟩ hb.2.2.1

/-- **C56.** The empty and the full rectangle. (`1 ≤ π / 2` is a fact about the constant: the empty latitude interval is
`[1, 0]`.) -/
theorem c56_empty_full (hπ : 0 < π) (h1 : (1 : K) ≤ π / 2) :
    (Rect.empty π).isValid π = true ∧ (Rect.empty π).isEmpty = true ∧ (Rect.full π).isValid π = true ∧ (Rect.full π).isFull π = true := by
  have e : -π / 2 = -(π / 2) := neg_div _ _
  refine ⟨isValid_iff.2 (empty_ok hπ h1), R1.c48_empty, ?_, ?_⟩
  · rw [isValid_iff]
    have hv : (Rect.full π).lng.isValid π = true := by
      rw [S1.isValid_iff]
      constructor <;> simp only [Rect.full, S1.Interval.full] <;> grind
    refine rok_of hπ (le_of_eq e.symm) ?_ (le_refl _) hv ?_
    · show -π / 2 ≤ π / 2
      linarith
    · constructor
      · intro _
        refine ⟨π, by linarith, le_refl _, ?_⟩
        rw [S1.inArc_iff hπ (S1.isValid_iff.1 hv) (by linarith) (le_refl _), S1.mem_iff]
        simp only [Rect.full, S1.Interval.full, S1.Interval.toPi]
        left
        split <;> refine ⟨by linarith, by linarith, le_refl _⟩
      · intro _
        refine ⟨0, ?_, ?_⟩
        · show -π / 2 ≤ 0
          linarith
        · show 0 ≤ π / 2
          linarith
  · unfold Rect.isFull
    rw [Bool.and_eq_true]
    refine ⟨R1.c48_eq.2 fun x => Iff.rfl, ?_⟩
    simp [Rect.full, S1.Interval.full, S1.Interval.isFull]

/-- **C56.** For any rounding the intersection is valid and contains every common point; and its points are points of one
of the rectangles. -/
theorem c56_intersection (hπ : 0 < π) (h1 : (1 : K) ≤ π / 2) {r s : Rect K} (h : r.isValid π = true) (hs : s.isValid π = true) (fl : K → K) :
    (r.intersection π fl s).isValid π = true ∧ (∀ a b, RPts π r a b ∧ RPts π s a b → RPts π (r.intersection π fl s) a b) ∧
    ((∀ a b, RPts π (r.intersection π fl s) a b → RPts π r a b) ∨ ∀ a b, RPts π (r.intersection π fl s) a b → RPts π s a b) := by
  rw [isValid_iff] at h hs ⊢
  obtain ⟨v, c, l⟩ := S1.c51_intersection hπ h.lng hs.lng fl
  have hl := R1.c48_intersection (i := r.lat) (j := s.lat)
  unfold Rect.intersection
  dsimp only
  cases e1 : (r.lat.intersection s.lat).isEmpty
  · cases e2 : (r.lng.intersection π fl s.lng).isEmpty π
    · simp only [Bool.or_self, Bool.false_eq_true, ite_false]
      have hne := R1.isEmpty_eq_false.1 e1
      refine ⟨⟨le_max_of_le_left h.lo1, max_le h.lo2 hs.lo2, min_le_of_left_le h.hi2, v, by rw [e1, e2]⟩, ?_, ?_⟩
      · intro a b hp
        exact ⟨(hl a).2 ⟨hp.1.1, hp.2.1⟩, c b ⟨hp.1.2, hp.2.2⟩⟩
      · rcases l with l | l
        · exact Or.inl fun a b hp => ⟨((hl a).1 hp.1).1, l b hp.2⟩
        · exact Or.inr fun a b hp => ⟨((hl a).1 hp.1).2, l b hp.2⟩
    · simp only [Bool.or_true, ite_true]
      have hno : ∀ a b, ¬ RPts π (Rect.empty π) a b := (c56_isEmpty hπ (isValid_iff.2 (empty_ok hπ h1))).1 R1.c48_empty
      refine ⟨empty_ok hπ h1, ?_, Or.inl fun a b hp => absurd hp (hno a b)⟩
      intro a b hp
      exact absurd (c b ⟨hp.1.2, hp.2.2⟩) ((S1.c50_isEmpty_isFull hπ v).1.1 e2 b)
  · simp only [Bool.true_or, ite_true]
    have hno : ∀ a b, ¬ RPts π (Rect.empty π) a b := (c56_isEmpty hπ (isValid_iff.2 (empty_ok hπ h1))).1 R1.c48_empty
    refine ⟨empty_ok hπ h1, ?_, Or.inl fun a b hp => absurd hp (hno a b)⟩
    intro a b hp
    exact absurd ((hl a).2 ⟨hp.1.1, hp.2.1⟩) (R1.c48_isEmpty.1 e1 a)

/-- **C56.** With exact lengths the intersection is the set of common points, unless the two longitude arcs together are the
whole circle. -/
theorem c56_intersection_exact (hπ : 0 < π) (h1 : (1 : K) ≤ π / 2) {r s : Rect K} (h : r.isValid π = true) (hs : s.isValid π = true) :
    (∀ a b, RPts π (r.intersection π _root_.id s) a b ↔ RPts π r a b ∧ RPts π s a b) ∨
    ∀ b, -π ≤ b → b ≤ π → S1.Pts π r.lng b ∨ S1.Pts π s.lng b := by
  have hc := (c56_intersection hπ h1 h hs _root_.id).2.1
  rw [isValid_iff] at h hs
  rcases S1.c51_intersection_exact hπ h.lng hs.lng with hx | hx
  · left
    intro a b
    refine ⟨?_, hc a b⟩
    have hl := R1.c48_intersection (i := r.lat) (j := s.lat)
    have hno : ∀ a b, ¬ RPts π (Rect.empty π) a b := (c56_isEmpty hπ (isValid_iff.2 (empty_ok hπ h1))).1 R1.c48_empty
    unfold Rect.intersection
    dsimp only
    split
    · intro hp; exact absurd hp (hno a b)
    · intro hp
      exact ⟨⟨((hl a).1 hp.1).1, ((hx b).1 hp.2).1⟩, ⟨((hl a).1 hp.1).2, ((hx b).1 hp.2).2⟩⟩
  · exact Or.inr hx

/-- **C56.** `polar_closure` keeps all points, and a rectangle that touches a pole gets all longitudes. -/
theorem c56_polarClosure (hπ : 0 < π) {r : Rect K} (h : r.isValid π = true) (hn : r.isEmpty = false) :
    (r.polarClosure π).isValid π = true ∧ (∀ a b, RPts π r a b → RPts π (r.polarClosure π) a b) ∧
    (∀ a b, RPts π (r.polarClosure π) a b → (∃ b', RPts π r a b')) ∧
    ((∃ b, RPts π r (π / 2) b ∨ RPts π r (-(π / 2)) b) → ∀ a b, -π ≤ b → b ≤ π → R1.Pts r.lat a → RPts π (r.polarClosure π) a b) := by
  have e : -π / 2 = -(π / 2) := neg_div _ _
  have h' := h
  rw [isValid_iff] at h ⊢
  have hv : (S1.Interval.full π).isValid π = true := by
    rw [S1.isValid_iff]
    constructor <;> simp only [S1.Interval.full] <;> grind
  have hf : (S1.Interval.full π).isFull π = true := by simp [S1.Interval.full, S1.Interval.isFull]
  have hall := (S1.c50_isEmpty_isFull hπ hv).2.1 hf
  rcases parts hπ h with ⟨e1, _⟩ | ⟨e1, e1', ⟨a0, ha0⟩, ⟨b0, hb0⟩⟩
  · unfold Rect.isEmpty at hn; rw [e1] at hn; cases hn
  unfold Rect.polarClosure
  split
  · refine ⟨rok_of hπ h.lo1 h.lo2 h.hi2 hv ⟨fun _ => ⟨π, hall π (by linarith) (le_refl _)⟩, fun _ => ⟨a0, ha0⟩⟩, ?_, ?_, ?_⟩
    · intro a b hp
      exact ⟨hp.1, hall b hp.2.1 hp.2.2.1⟩
    · intro a b hp
      exact ⟨b0, hp.1, hb0⟩
    · intro _ a b h1 h2 ha
      exact ⟨ha, hall b h1 h2⟩
  · rename_i hno
    refine ⟨h, fun a b hp => hp, fun a b hp => ⟨b, hp⟩, ?_⟩
    rintro ⟨b, hp | hp⟩
    · exact absurd (Or.inr (le_antisymm h.hi2 hp.1.2)) hno
    · exact absurd (Or.inl (by rw [e]; exact le_antisymm hp.1.1 h.lo1)) hno

/-- **C57.** `Rect::from` a valid `LatLng` other than at longitude `-π` is valid and has exactly this point. -/
theorem c57_from (hπ : 0 < π) {ll : LatLng K} (h : ll.isValid π = true) (hn : ll.lng ≠ -π) :
    (Rect.from_ ll).isValid π = true ∧ (Rect.from_ ll).containsLatLng π ll = true ∧
    ∀ a b, -π < b → (RPts π (Rect.from_ ll) a b ↔ a = ll.lat ∧ b = ll.lng) := by
  have hl := latlng_iff.1 h
  have hn' : -π < ll.lng := lt_of_le_of_ne hl.2.2.1 hn.symm
  have hok : S1.Ok π (⟨ll.lng, ll.lng⟩ : S1.Interval K) := S1.ok_of_pos hπ hn' hl.2.2.2 hn' hl.2.2.2
  have hp : ∀ a b, -π < b → (RPts π (Rect.from_ ll) a b ↔ a = ll.lat ∧ b = ll.lng) := by
    intro a b hb
    unfold RPts
    have h1 : R1.Pts (Rect.from_ ll).lat a ↔ a = ll.lat := R1.c48_fromPoints (q := ll.lat) |>.1 a
    rw [h1]
    refine and_congr_right fun _ => ?_
    by_cases hb2 : b ≤ π
    · have : S1.Pts π (Rect.from_ ll).lng b ↔ S1.Mem π ⟨ll.lng, ll.lng⟩ b := S1.pts_of hπ hok hb hb2
      rw [this, S1.mem_iff]
      constructor
      · rintro (⟨_, h1, h2⟩ | ⟨h, _⟩)
        · exact le_antisymm h2 h1
        · exact absurd h (lt_irrefl _)
      · rintro rfl; left; exact ⟨le_refl _, le_refl _, le_refl _⟩
    · constructor
      · intro hp; exact absurd hp.2.1 hb2
      · intro e; rw [e] at hb2; exact absurd hl.2.2.2 hb2
  have hv : (Rect.from_ ll).isValid π = true := by
    rw [isValid_iff]
    refine rok_of hπ hl.1 hl.2.1 hl.2.1 (S1.isValid_iff.2 hok) ?_
    have := (hp ll.lat ll.lng hn').2 ⟨rfl, rfl⟩
    exact ⟨fun _ => ⟨_, this.2⟩, fun _ => ⟨_, this.1⟩⟩
  exact ⟨hv, (c56_containsLatLng hπ hv ll).2 ((hp _ _ hn').2 ⟨rfl, rfl⟩), hp⟩

/-- **C57.** At longitude `-π`, which `LatLng::is_valid` accepts, the rectangle is not valid and does not contain the point
it was made from. -/
theorem c57_from_fails (hπ : 0 < π) {lat : K} (h1 : -(π / 2) ≤ lat) (h2 : lat ≤ π / 2) :
    (⟨lat, -π⟩ : LatLng K).isValid π = true ∧ (Rect.from_ ⟨lat, -π⟩).isValid π = false ∧
    (Rect.from_ ⟨lat, -π⟩).containsLatLng π ⟨lat, -π⟩ = false := by
  refine ⟨latlng_iff.2 ⟨h1, h2, le_refl _, by show -π ≤ π; linarith⟩, ?_, ?_⟩
  · rw [← Bool.not_eq_true, isValid_iff]
    intro h
    have := (S1.isValid_iff.1 h.lng).nlo rfl
    simp only [Rect.from_] at this
    linarith
  · rw [← Bool.not_eq_true]
    unfold Rect.containsLatLng
    simp only [Bool.and_eq_true, not_and]
    intro _
    have hn : ¬ π ≤ -π := by intro h; linarith
    simp only [Rect.from_, S1.Interval.contains, S1.Interval.toPi, S1.Interval.fastContains, S1.Interval.isInverted]
    simp [hn]

/-- **C57.** Adding a valid point to a valid rectangle gives a valid rectangle with the point and the old rectangle, for any
rounding; an invalid point changes nothing. -/
theorem c57_add (hπ : 0 < π) {r : Rect K} (h : r.isValid π = true) (ll : LatLng K) (fl : K → K) :
    (r.add π fl ll).isValid π = true ∧ (ll.isValid π = true → RPts π (r.add π fl ll) ll.lat ll.lng) ∧
    (∀ a b, RPts π r a b → RPts π (r.add π fl ll) a b) ∧ (ll.isValid π = false → r.add π fl ll = r) := by
  cases hv : ll.isValid π
  · have e : r.add π fl ll = r := by simp [Rect.add, hv]
    rw [e]
    exact ⟨h, fun h => by simp at h, fun a b hp => hp, fun _ => rfl⟩
  · have hl := latlng_iff.1 hv
    rw [isValid_iff] at h ⊢
    have e : r.add π fl ll = ⟨r.lat.addPoint ll.lat, r.lng.addPoint π fl ll.lng⟩ := by simp [Rect.add, hv]
    obtain ⟨g1, g2, g3⟩ := S1.c53_addPoint hπ h.lng hl.2.2.1 hl.2.2.2 fl
    have k := R1.c48_addPoint (i := r.lat) (p := ll.lat)
    rw [e]
    have hp : RPts π ⟨r.lat.addPoint ll.lat, r.lng.addPoint π fl ll.lng⟩ ll.lat ll.lng := ⟨k.1 _ (Or.inr rfl), g2⟩
    refine ⟨?_, fun _ => hp, fun a b hq => ⟨k.1 a (Or.inl hq.1), g3 b hq.2⟩, fun h => by cases h⟩
    have hb : -(π / 2) ≤ (r.lat.addPoint ll.lat).lo ∧ (r.lat.addPoint ll.lat).lo ≤ π / 2 ∧ (r.lat.addPoint ll.lat).hi ≤ π / 2 := by
      have a1 := h.lo1
      have a2 := h.lo2
      have a3 := h.hi2
      have b1 := hl.1
      have b2 := hl.2.1
      unfold R1.Interval.addPoint
      split
      · exact ⟨b1, b2, b2⟩
      · split
        · exact ⟨b1, b2, a3⟩
        · split
          · exact ⟨a1, a2, b2⟩
          · exact ⟨a1, a2, a3⟩
    exact rok_of hπ hb.1 hb.2.1 hb.2.2 g1 ⟨fun _ => ⟨_, hp.2⟩, fun _ => ⟨_, hp.1⟩⟩

/-- **C57.** `from_point_pair` of two valid points is valid and contains both, for any rounding; in exact arithmetic it spans
at most half the circle of longitudes. -/
theorem c57_fromPointPair (hπ : 0 < π) {p q : LatLng K} (hp : p.isValid π = true) (hq : q.isValid π = true) (fl : K → K) :
    (Rect.fromPointPair π fl p q).isValid π = true ∧ (Rect.fromPointPair π fl p q).containsLatLng π p = true ∧
    (Rect.fromPointPair π fl p q).containsLatLng π q = true ∧
    arcLen π (Rect.fromPointPair π _root_.id p q).lng.lo (Rect.fromPointPair π _root_.id p q).lng.hi ≤ π := by
  have hp' := latlng_iff.1 hp
  have hq' := latlng_iff.1 hq
  obtain ⟨g1, g2, g3⟩ := S1.c53_fromPointPair hπ hp'.2.2.1 hp'.2.2.2 hq'.2.2.1 hq'.2.2.2 fl
  have k := (R1.c48_fromPoints (p := p.lat) (q := q.lat)).2
  have rp : RPts π (Rect.fromPointPair π fl p q) p.lat p.lng := ⟨k.1, g2⟩
  have rq : RPts π (Rect.fromPointPair π fl p q) q.lat q.lng := ⟨k.2.1, g3⟩
  have hv : (Rect.fromPointPair π fl p q).isValid π = true := by
    rw [isValid_iff]
    have hb : -(π / 2) ≤ (Rect.fromPointPair π fl p q).lat.lo ∧ (Rect.fromPointPair π fl p q).lat.lo ≤ π / 2 ∧
        (Rect.fromPointPair π fl p q).lat.hi ≤ π / 2 := by
      simp only [Rect.fromPointPair, R1.Interval.fromPointPair]
      split
      · exact ⟨hp'.1, hp'.2.1, hq'.2.1⟩
      · exact ⟨hq'.1, hq'.2.1, hp'.2.1⟩
    exact rok_of hπ hb.1 hb.2.1 hb.2.2 g1 ⟨fun _ => ⟨_, rp.2⟩, fun _ => ⟨_, rp.1⟩⟩
  exact ⟨hv, (c56_containsLatLng hπ hv p).2 rp, (c56_containsLatLng hπ hv q).2 rq,
    S1.c53_fromPointPair_len hπ hp'.2.2.1 hp'.2.2.2 hq'.2.2.1 hq'.2.2.2⟩

/-- **C72.** With exact arithmetic and margins that are not negative, `expanded` is valid, contains every latitude-longitude
pair within the two margins of a point of the rectangle, and contains no others unless it has all longitudes. -/
theorem c72_expanded (hπ : 0 < π) (h1 : (1 : K) ≤ π / 2) {r : Rect K} (h : r.isValid π = true) {rem : K → K} (hr : S1.IsRem π rem)
    {eps : K} (he : 0 ≤ eps) {m : LatLng K} (m1 : 0 ≤ m.lat) (m2 : 0 ≤ m.lng) :
    (r.expanded π _root_.id rem eps m).isValid π = true ∧
    (∀ a b a', IsLL π a b → R1.Pts r.lat a' → |a - a'| ≤ m.lat → S1.Near π m.lng r.lng b → RPts π (r.expanded π _root_.id rem eps m) a b) ∧
    ((r.expanded π _root_.id rem eps m).lng.isFull π = false → ∀ a b, RPts π (r.expanded π _root_.id rem eps m) a b →
      S1.Near π m.lng r.lng b ∧ ∃ a', R1.Pts r.lat a' ∧ |a - a'| ≤ m.lat) := by
  have e : -π / 2 = -(π / 2) := neg_div _ _
  rw [isValid_iff] at h
  have hv := S1.c54_valid hπ h.lng _root_.id rem (fun x => (hr x).1) eps m.lng
  obtain ⟨g1, g2⟩ := S1.c54_grow hπ h.lng hr he m2
  have hlat := R1.c49_expanded (i := r.lat) m1
  have hi := R1.c48_intersection (i := r.lat.expanded _root_.id m.lat) (j := Rect.validLat π)
  have hno : ∀ a b, ¬ RPts π (Rect.empty π) a b := (c56_isEmpty hπ (isValid_iff.2 (empty_ok hπ h1))).1 R1.c48_empty
  unfold Rect.expanded
  dsimp only
  rcases parts hπ h with ⟨e1, e1', n1, n1'⟩ | ⟨e1, e1', ⟨a0, ha0⟩, ⟨b0, hb0⟩⟩
  · have hem : (r.lat.expanded _root_.id m.lat).isEmpty = true := by
      unfold R1.Interval.expanded; rw [if_pos e1]; exact e1
    simp only [hem, Bool.true_or, ite_true]
    exact ⟨isValid_iff.2 (empty_ok hπ h1), fun a b a' _ ha' => absurd ha' (n1 a'), fun _ a b hp => absurd hp (hno a b)⟩
  · have hne : ∀ a, R1.Pts r.lat a → R1.Pts (r.lat.expanded _root_.id m.lat) a := fun a ha => (hlat a).2 ⟨a, ha, by simpa using m1⟩
    have hem : (r.lat.expanded _root_.id m.lat).isEmpty = false := by
      rw [← Bool.not_eq_true, R1.c48_isEmpty]
      exact fun hh => hh a0 (hne a0 ha0)
    have hb0' := g1 b0 hb0.1 hb0.2.1 ⟨b0, 0, hb0, by simpa using m2, by simpa using S1.sameDir_self b0⟩
    have hem' : (r.lng.expanded π _root_.id rem eps m.lng).isEmpty π = false := by
      rw [← Bool.not_eq_true, (S1.c50_isEmpty_isFull hπ hv).1]
      exact fun hh => hh b0 hb0'
    simp only [hem, hem', Bool.or_self, Bool.false_eq_true, ite_false]
    have hva : ∀ a, R1.Pts (Rect.validLat π) a ↔ -(π / 2) ≤ a ∧ a ≤ π / 2 := by
      intro a
      show -π / 2 ≤ a ∧ a ≤ π / 2 ↔ _
      rw [e]
    have ha0' := (hi a0).2 ⟨hne a0 ha0, (hva a0).2 ⟨h.lo1.trans ha0.1, ha0.2.trans h.hi2⟩⟩
    refine ⟨?_, ?_, ?_⟩
    · rw [isValid_iff]
      refine rok_of hπ ?_ ?_ ?_ hv ⟨fun _ => ⟨b0, hb0'⟩, fun _ => ⟨a0, ha0'⟩⟩
      · show -(π / 2) ≤ max _ (-π / 2)
        rw [e]; exact le_max_right _ _
      · exact ha0'.1.trans (ha0.2.trans h.hi2)
      · exact min_le_right _ _
    · intro a b a' hl ha' hd hb
      exact ⟨(hi a).2 ⟨(hlat a).2 ⟨a', ha', hd⟩, (hva a).2 ⟨hl.1, hl.2.1⟩⟩, g1 b hl.2.2.1 hl.2.2.2 hb⟩
    · intro hf a b hp
      exact ⟨g2 hf b hp.2, (hlat a).1 ((hi a).1 hp.1).1⟩

/-- **C72.** The centre of a non-empty rectangle is a point of it (exact arithmetic). -/
theorem c72_center (hπ : 0 < π) {r : Rect K} (h : r.isValid π = true) (hn : r.isEmpty = false) :
    RPts π r (r.center π _root_.id).lat (r.center π _root_.id).lng := by
  rw [isValid_iff] at h
  refine ⟨R1.c48_center monotone_id hn rfl rfl rfl rfl, (S1.c52_center hπ h.lng ?_).1⟩
  rw [← h.emp]; exact hn

/-- **C72.** The four vertices of a non-empty rectangle are points of it. -/
theorem c72_vertex (hπ : 0 < π) {r : Rect K} (h : r.isValid π = true) (hn : r.isEmpty = false) (i : Nat) :
    RPts π r (r.vertex i).lat (r.vertex i).lng := by
  rw [isValid_iff] at h
  have hl := R1.isEmpty_eq_false.1 hn
  have he : ¬ (r.lng.lo = π ∧ r.lng.hi = -π) := by
    rw [← S1.isEmpty_iff, ← h.emp]; simpa [Rect.isEmpty] using hn
  have ok := S1.isValid_iff.1 h.lng
  have p1 : S1.Pts π r.lng r.lng.lo := by
    rw [S1.pts_toPi hπ ok ok.lo1 ok.lo2, S1.mem_iff]
    obtain ⟨a, b, c, d, e, f⟩ := ok
    unfold S1.Interval.toPi
    grind
  have p2 : S1.Pts π r.lng r.lng.hi := by
    rw [S1.pts_toPi hπ ok ok.hi1 ok.hi2, S1.mem_iff]
    obtain ⟨a, b, c, d, e, f⟩ := ok
    unfold S1.Interval.toPi
    grind
  have q1 : R1.Pts r.lat r.lat.lo := ⟨le_refl _, hl⟩
  have q2 : R1.Pts r.lat r.lat.hi := ⟨hl, le_refl _⟩
  unfold Rect.vertex
  split
  · exact ⟨q1, p1⟩
  · exact ⟨q1, p2⟩
  · exact ⟨q2, p2⟩
  · exact ⟨q2, p1⟩

/-- **C71.** `normalized` gives a valid `LatLng` with the same direction of the longitude, and it clamps the latitude. -/
theorem c71_normalized (hπ : 0 < π) {rem : K → K} (hr : S1.IsRem π rem) (ll : LatLng K) :
    (ll.normalized π rem).isValid π = true ∧ SameDir π ll.lng (ll.normalized π rem).lng ∧
    (-(π / 2) ≤ ll.lat → ll.lat ≤ π / 2 → (ll.normalized π rem).lat = ll.lat) ∧
    (π / 2 < ll.lat → (ll.normalized π rem).lat = π / 2) ∧ (ll.lat < -(π / 2) → (ll.normalized π rem).lat = -(π / 2)) := by
  have hh : 0 < π / 2 := by linarith
  obtain ⟨r1, r2⟩ := hr ll.lng
  rw [abs_le] at r1
  generalize hH : π / 2 = H at *
  refine ⟨?_, r2, ?_, ?_, ?_⟩
  · rw [latlng_iff]
    unfold IsLL LatLng.normalized
    dsimp only
    rw [hH]
    refine ⟨?_, ?_, r1.1, r1.2⟩ <;> grind
  all_goals unfold LatLng.normalized; dsimp only; rw [hH]; grind

/-- **C71.** A valid `LatLng` with longitude strictly inside the range is not changed. -/
theorem c71_normalized_id (hπ : 0 < π) {rem : K → K} (hr : S1.IsRem π rem) {ll : LatLng K} (h : ll.isValid π = true)
    (h1 : -π < ll.lng) (h2 : ll.lng < π) : ll.normalized π rem = ll := by
  have hl := latlng_iff.1 h
  obtain ⟨r1, r2⟩ := hr ll.lng
  rw [abs_le] at r1
  have e : rem ll.lng = ll.lng := by
    rcases S1.turn_cases hπ r2 (by linarith) (by linarith) with h | h | h
    · linarith
    · exact h
    · linarith
  unfold LatLng.normalized
  rw [e, if_neg (not_lt.2 hl.2.1), if_neg (not_lt.2 hl.1)]

/-! ## Examples: degrees instead of radians -/

/-- A rectangle across the date line and one that touches the pole. -/
example : (⟨⟨-10, 20⟩, ⟨170, -170⟩⟩ : Rect ℚ).isValid 180 = true ∧ (⟨⟨0, 90⟩, ⟨-180, 180⟩⟩ : Rect ℚ).isValid 180 = true ∧
    (⟨⟨-10, 20⟩, ⟨170, -170⟩⟩ : Rect ℚ).intersects 180 ⟨⟨0, 90⟩, ⟨-180, 180⟩⟩ = true ∧
    (⟨⟨-10, 20⟩, ⟨170, -170⟩⟩ : Rect ℚ).isEmpty = false ∧ (1 : ℚ) ≤ 180 / 2 ∧
    (⟨⟨-10, 20⟩, ⟨170, -170⟩⟩ : Rect ℚ).containsLatLng 180 ⟨3, -180⟩ = true ∧
    (⟨⟨0, 90⟩, ⟨-180, 180⟩⟩ : Rect ℚ).contains 180 ⟨⟨-10, 20⟩, ⟨170, -170⟩⟩ = false := by
  refine ⟨by decide +kernel, by decide +kernel, by decide +kernel, by decide +kernel, by norm_num, by decide +kernel, by decide +kernel⟩

example : (⟨45, 170⟩ : LatLng ℚ).isValid 180 = true ∧ (⟨-45, -170⟩ : LatLng ℚ).isValid 180 = true ∧ (170 : ℚ) ≠ -180 := by
  refine ⟨by decide +kernel, by decide +kernel, by norm_num⟩

end Verif.S2
