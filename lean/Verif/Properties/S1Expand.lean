import Verif.Properties.S1Ops
import Mathlib.Tactic.LinearCombination
import Mathlib.Algebra.Order.Round
import Mathlib.Data.Rat.Floor

/-! # `expanded` and the directed Hausdorff distance: C54 and C70 -/

namespace Verif.S1
open Spec Interval
variable {K : Type} [Field K] [LinearOrder K] [IsStrictOrderedRing K] {π : K}

/-- `p` is within the angle `m` of a point of the interval. -/
def Near (π m : K) (i : Interval K) (p : K) : Prop := ∃ q d, Pts π i q ∧ |d| ≤ m ∧ SameDir π (q + d) p

/-- What `rem` must satisfy: the remainder of a division by `2π`, in `[-π, π]`. This is IEEE `remainder(x, 2π)` of lines 337-338. -/
def IsRem (π : K) (rem : K → K) : Prop := ∀ x, |rem x| ≤ π ∧ SameDir π x (rem x)

theorem turn_eq (hπ : 0 < π) {a b : K} {k : ℤ} (h : b = a + 2 * π * k) (h1 : 0 ≤ a) (h2 : a < 2 * π) (h3 : 0 ≤ b) (h4 : b < 2 * π) :
    b = a := by
  rcases turn_cases hπ ⟨k, h⟩ (by linarith) (by linarith) with h | h | h <;> linarith

theorem no_turn (hπ : 0 < π) {a b : K} (h : SameDir π a b) (h1 : 0 < b - a) (h2 : b - a < 2 * π) : False := by
  rcases turn_cases hπ h (by linarith) (by linarith) with h | h | h <;> linarith

/-- The arc that `expanded` builds from the two remainders. -/
theorem arc_of_ends (hπ : 0 < π) {x y a b : K} (hx : SameDir π x a) (hy : SameDir π y b) (ha : |a| ≤ π) (hb : |b| ≤ π)
    (h0 : x ≤ y) (h1 : y - x < 2 * π) (he : x = y → a = b) (r : Interval K)
    (hr : r = if (Interval.new π a b).lo ≤ -π then ⟨π, (Interval.new π a b).hi⟩ else Interval.new π a b) :
    Ok π r ∧ ¬ (r.lo = π ∧ r.hi = -π) ∧ SameDir π x r.lo ∧ arcLen π r.lo r.hi = y - x := by
  rw [abs_le] at ha hb
  obtain ⟨k, hk⟩ := hx
  obtain ⟨l, hl⟩ := hy
  have e : x = y ∨ (a = π ∧ b = -π → False) ∧ (a = -π ∧ b = π → False) := by
    rcases eq_or_lt_of_le h0 with h | h
    · exact Or.inl h
    · right
      constructor
      · rintro ⟨e1, e2⟩
        have := turn_eq hπ (a := 0) (b := y - x) (k := k - l - 1) (by push_cast; linear_combination hk - hl - e1 + e2) (le_refl _) (by linarith) (by linarith) h1
        linarith
      · rintro ⟨e1, e2⟩
        have := turn_eq hπ (a := 0) (b := y - x) (k := k - l + 1) (by push_cast; linear_combination hk - hl - e1 + e2) (le_refl _) (by linarith) (by linarith) h1
        linarith
  have hr' : (r.lo = a ∨ a = -π ∧ r.lo = π) ∧ (r.hi = b ∨ b = -π ∧ r.hi = π) ∧ -π < r.lo ∧ -π < r.hi ∧ r.lo ≤ π ∧ r.hi ≤ π := by
    simp only [Interval.new] at hr
    subst hr
    grind (splits := 20)
  obtain ⟨ra, rb, r1, r2, r3, r4⟩ := hr'
  obtain ⟨k', hk'⟩ : SameDir π x r.lo := by
    rcases ra with h | ⟨h, h'⟩
    · exact ⟨k, by rw [h, hk]⟩
    · exact ⟨k + 1, by push_cast; linarith⟩
  obtain ⟨l', hl'⟩ : SameDir π y r.hi := by
    rcases rb with h | ⟨h, h'⟩
    · exact ⟨l, by rw [h, hl]⟩
    · exact ⟨l + 1, by push_cast; linarith⟩
  refine ⟨ok_of_pos hπ r1 r3 r2 r4, fun h => by linarith [h.2], ⟨k', hk'⟩, ?_⟩
  rcases arcLen_cases (π := π) r.lo r.hi with ⟨_, h, _⟩ | ⟨_, h2, h3⟩ | ⟨_, h2, h3⟩
  · linarith
  · rw [h3]
    exact turn_eq hπ (k := l' - k') (by push_cast; linear_combination hl' - hk') (by linarith) (by linarith) (by linarith) (by linarith)
  · rw [h3]
    exact turn_eq hπ (k := l' - k' + 1) (by push_cast; linear_combination hl' - hk') (by linarith) (by linarith) (by linarith) (by linarith)

/-- Every direction near the range has an angle in the range. -/
theorem exists_rep (x : K) (h1 : -π ≤ x) (h2 : x ≤ 3 * π) : ∃ q, -π ≤ q ∧ q ≤ π ∧ SameDir π x q := by
  by_cases h : x ≤ π
  · exact ⟨x, h1, h, sameDir_self x⟩
  · exact ⟨x - 2 * π, by linarith, by linarith, sameDir_sub x⟩

theorem pts_len {i : Interval K} {p : K} (h1 : -π ≤ p) (h2 : p ≤ π) :
    Pts π i p ↔ ¬ (i.lo = π ∧ i.hi = -π) ∧ ∃ t, 0 ≤ t ∧ t ≤ arcLen π i.lo i.hi ∧ SameDir π (i.lo + t) p := by
  rw [← inArc_len]
  exact ⟨fun h => h.2.2, fun h => ⟨h1, h2, h⟩⟩

/-- The points within `m` of an arc are a longer arc. -/
theorem near_iff (hπ : 0 < π) {i : Interval K} (hi : Ok π i) (he : ¬ (i.lo = π ∧ i.hi = -π)) {m : K} (hm : 0 ≤ m) (p : K) :
    Near π m i p ↔ ∃ t, 0 ≤ t ∧ t ≤ arcLen π i.lo i.hi + 2 * m ∧ SameDir π (i.lo - m + t) p := by
  have hle := arcLen_le hπ hi
  have h0 : 0 ≤ arcLen π i.lo i.hi := by
    obtain ⟨a, b, c, d, e, f⟩ := hi
    have := arcLen_cases (π := π) i.lo i.hi
    grind
  have hlo := hi.lo1
  have hlo2 := hi.lo2
  constructor
  · rintro ⟨q, d, hq, hd, hp⟩
    obtain ⟨_, s, s1, s2, s3⟩ := (pts_len hq.1 hq.2.1).1 hq
    rw [abs_le] at hd
    refine ⟨s + d + m, by linarith, by linarith, ?_⟩
    have e : i.lo - m + (s + d + m) = i.lo + s + d := by ring
    rw [e]
    exact sameDir_trans (sameDir_add_right d s3) hp
  · rintro ⟨t, t1, t2, hp⟩
    have key : ∃ s d, 0 ≤ s ∧ s ≤ arcLen π i.lo i.hi ∧ |d| ≤ m ∧ t - m = s + d := by
      by_cases c1 : t - m < 0
      · exact ⟨0, t - m, le_refl _, h0, abs_le.2 ⟨by linarith, by linarith⟩, by ring⟩
      · by_cases c2 : t - m ≤ arcLen π i.lo i.hi
        · exact ⟨t - m, 0, by linarith, c2, by simpa using hm, by ring⟩
        · exact ⟨arcLen π i.lo i.hi, t - m - arcLen π i.lo i.hi, h0, le_refl _, abs_le.2 ⟨by linarith, by linarith⟩, by ring⟩
    obtain ⟨s, d, s1, s2, hd, e⟩ := key
    have hb : i.lo + s ≤ 3 * π := by linarith
    obtain ⟨q, q1, q2, q3⟩ := exists_rep (π := π) (i.lo + s) (by linarith) hb
    refine ⟨q, d, (pts_len q1 q2).2 ⟨he, s, s1, s2, q3⟩, hd, ?_⟩
    have e : i.lo - m + t = i.lo + s + d := by linear_combination e
    rw [e] at hp
    exact sameDir_trans (sameDir_add_right d (sameDir_symm q3)) hp

/-- **C54.** For any rounding, `expanded` gives a valid interval. -/
theorem c54_valid (hπ : 0 < π) {i : Interval K} (hi : i.isValid π = true) (fl rem : K → K) (hr : ∀ x, |rem x| ≤ π) (eps m : K) :
    (expanded π fl rem eps i m).isValid π = true := by
  rw [isValid_iff] at *
  have h1 := abs_le.1 (hr (fl (i.lo - m)))
  have h2 := abs_le.1 (hr (fl (i.hi + m)))
  generalize ha : rem (fl (i.lo - m)) = a at *
  generalize hb : rem (fl (i.hi + m)) = b at *
  have ok : Ok π (if (Interval.new π a b).lo ≤ -π then ⟨π, (Interval.new π a b).hi⟩ else Interval.new π a b) := by
    simp only [Interval.new]
    exact ⟨by grind, by grind, by grind, by grind, by grind, by grind⟩
  have oe : Ok π (empty π) := by constructor <;> simp only [empty] <;> grind
  have of : Ok π (full π) := by constructor <;> simp only [full] <;> grind
  unfold expanded
  dsimp only
  rw [ha, hb]
  split
  · split
    · exact hi
    · split
      · exact of
      · exact ok
  · split
    · exact hi
    · split
      · exact oe
      · exact ok

/-- **C54.** Growing: with exact arithmetic the result contains every point within `m` of the interval, and it has no other
points unless it is the whole circle. -/
theorem c54_grow (hπ : 0 < π) {i : Interval K} (hi : i.isValid π = true) {rem : K → K} (hr : IsRem π rem) {eps m : K} (he : 0 ≤ eps)
    (hm : 0 ≤ m) :
    (∀ p, -π ≤ p → p ≤ π → Near π m i p → Pts π (expanded π _root_.id rem eps i m) p) ∧
    ((expanded π _root_.id rem eps i m).isFull π = false → ∀ p, Pts π (expanded π _root_.id rem eps i m) p → Near π m i p) := by
  have hv := c54_valid hπ hi _root_.id rem (fun x => (hr x).1) eps m
  have hl := c51_len hπ hi
  rw [isValid_iff] at hi hv
  have hx : expanded π _root_.id rem eps i m = (if i.isEmpty π then i
    else if i.len π _root_.id + 2 * m + 2 * eps ≥ 2 * π then full π
    else if (Interval.new π (rem (i.lo - m)) (rem (i.hi + m))).lo ≤ -π then ⟨π, (Interval.new π (rem (i.lo - m)) (rem (i.hi + m))).hi⟩
      else Interval.new π (rem (i.lo - m)) (rem (i.hi + m))) := by
    unfold expanded
    rw [if_pos hm]
    rfl
  cases hE : i.isEmpty π
  · have hl := hl.2 hE
    have hE' := hE
    rw [← Bool.not_eq_true, isEmpty_iff] at hE'
    simp only [hE, Bool.false_eq_true, ite_false] at hx
    rw [hl] at hx
    by_cases h2 : arcLen π i.lo i.hi + 2 * m + 2 * eps ≥ 2 * π
    · rw [if_pos h2] at hx
      rw [hx] at hv ⊢
      constructor
      · intro p h1 h2 _
        rw [pts_toPi hπ hv h1 h2, mem_iff]
        have := toPi_range hπ h1 h2
        simp only [full]
        grind
      · intro h
        simp [isFull, full] at h
    · rw [if_neg h2] at hx
      have h0 : 0 ≤ arcLen π i.lo i.hi := by
        obtain ⟨a, b, c, d, e, f⟩ := hi
        have := arcLen_cases (π := π) i.lo i.hi
        grind
      have hy : SameDir π (i.lo - m + (arcLen π i.lo i.hi + 2 * m)) (rem (i.hi + m)) := by
        refine sameDir_trans ?_ (hr _).2
        rcases arcLen_cases (π := π) i.lo i.hi with ⟨_, h, _⟩ | ⟨_, h2, h3⟩ | ⟨_, h2, h3⟩
        · exfalso; grind
        · rw [h3]; exact ⟨0, by push_cast; ring⟩
        · rw [h3]; exact ⟨-1, by push_cast; ring⟩
      obtain ⟨k1, k2, k3, k4⟩ := arc_of_ends hπ (hr (i.lo - m)).2 hy (hr _).1 (hr _).1 (by linarith) (by linarith) (by
        intro h
        have hm0 : m = 0 := by linarith
        have ha : arcLen π i.lo i.hi = 0 := by linarith
        have hh : i.lo = i.hi := by
          have := arcLen_cases (π := π) i.lo i.hi
          obtain ⟨a, b, c, d, e, f⟩ := hi
          grind
        rw [hm0, hh]; simp) _ hx
      have hn : ∀ p, -π ≤ p → p ≤ π → (Pts π (expanded π _root_.id rem eps i m) p ↔ Near π m i p) := by
        intro p h1 h2
        rw [pts_len h1 h2, near_iff hπ hi hE' hm, k4]
        constructor
        · rintro ⟨_, t, t1, t2, t3⟩
          exact ⟨t, t1, by linarith, sameDir_trans (sameDir_add_right t k3) t3⟩
        · rintro ⟨t, t1, t2, t3⟩
          exact ⟨k2, t, t1, by linarith, sameDir_trans (sameDir_add_right t (sameDir_symm k3)) t3⟩
      exact ⟨fun p h1 h2 => (hn p h1 h2).2, fun _ p hp => (hn p hp.1 hp.2.1).1 hp⟩
  · rw [if_pos hE] at hx
    have hE' := hE
    rw [isEmpty_iff] at hE'
    rw [hx]
    have hno : ∀ q, ¬ Pts π i q := fun q hq => hq.2.2.1 hE'
    exact ⟨fun p _ _ ⟨q, d, hq, _⟩ => absurd hq (hno q), fun _ p hp => absurd hp (hno p)⟩

/-- **C54.** Shrinking: with exact arithmetic every point of the result has all points within `-m` of it in the interval.
Conversely, if the interval is longer than twice the margin and twice `eps`, every such point is in the result. -/
theorem c54_shrink (hπ : 0 < π) {i : Interval K} (hi : i.isValid π = true) {rem : K → K} (hr : IsRem π rem) {eps m : K} (he : 0 ≤ eps)
    (hm : m < 0) :
    (∀ p, Pts π (expanded π _root_.id rem eps i m) p → ∀ q, -π ≤ q → q ≤ π → (∃ d, |d| ≤ -m ∧ SameDir π (p + d) q) → Pts π i q) ∧
    (arcLen π i.lo i.hi + 2 * m > 2 * eps → ∀ p, -π ≤ p → p ≤ π →
      (∀ q, -π ≤ q → q ≤ π → (∃ d, |d| ≤ -m ∧ SameDir π (p + d) q) → Pts π i q) → Pts π (expanded π _root_.id rem eps i m) p) := by
  have hv := c54_valid hπ hi _root_.id rem (fun x => (hr x).1) eps m
  have hl := c51_len hπ hi
  rw [isValid_iff] at hi hv
  have hx : expanded π _root_.id rem eps i m = (if i.isFull π then i
    else if i.len π _root_.id + 2 * m - 2 * eps ≤ 0 then empty π
    else if (Interval.new π (rem (i.lo - m)) (rem (i.hi + m))).lo ≤ -π then ⟨π, (Interval.new π (rem (i.lo - m)) (rem (i.hi + m))).hi⟩
      else Interval.new π (rem (i.lo - m)) (rem (i.hi + m))) := by
    unfold expanded
    rw [if_neg (not_le.2 hm)]
    rfl
  cases hF : i.isFull π
  · have hF' : ¬ (i.lo = -π ∧ i.hi = π) := by
      intro h; simp [isFull, h.1, h.2] at hF
    simp only [hF, Bool.false_eq_true, ite_false] at hx
    by_cases h2 : i.len π _root_.id + 2 * m - 2 * eps ≤ 0
    · rw [if_pos h2] at hx
      rw [hx]
      refine ⟨fun p hp => absurd ⟨rfl, rfl⟩ hp.2.2.1, fun h => ?_⟩
      exfalso
      cases hE : i.isEmpty π
      · rw [hl.2 hE] at h2; linarith
      · rw [isEmpty_iff] at hE
        simp only [arcLen, hE, and_self, ite_true] at h
        linarith
    · rw [if_neg h2] at hx
      have hE : i.isEmpty π = false := by
        cases hE : i.isEmpty π
        · rfl
        · rw [hl.1 hE] at h2; linarith
      have hE' := hE
      rw [← Bool.not_eq_true, isEmpty_iff] at hE'
      rw [hl.2 hE] at h2
      have h0 : arcLen π i.lo i.hi < 2 * π := by
        obtain ⟨a, b, c, d, e, f⟩ := hi
        have := arcLen_cases (π := π) i.lo i.hi
        grind
      have hy : SameDir π (i.lo - m + (arcLen π i.lo i.hi + 2 * m)) (rem (i.hi + m)) := by
        refine sameDir_trans ?_ (hr _).2
        rcases arcLen_cases (π := π) i.lo i.hi with ⟨_, h, _⟩ | ⟨_, h2, h3⟩ | ⟨_, h2, h3⟩
        · exfalso; grind
        · rw [h3]; exact ⟨0, by push_cast; ring⟩
        · rw [h3]; exact ⟨-1, by push_cast; ring⟩
      obtain ⟨k1, k2, k3, k4⟩ := arc_of_ends hπ (hr (i.lo - m)).2 hy (hr _).1 (hr _).1 (by linarith) (by linarith) (by
        intro h; exfalso; linarith) _ hx
      constructor
      · intro p hp q q1 q2 hq
        obtain ⟨d, hd, hq⟩ := hq
        rw [abs_le] at hd
        rw [pts_len hp.1 hp.2.1] at hp
        rw [pts_len q1 q2]
        obtain ⟨_, t, t1, t2, t3⟩ := hp
        refine ⟨hE', t + d - m, by linarith, by linarith, ?_⟩
        refine sameDir_trans ?_ hq
        have e : i.lo + (t + d - m) = i.lo - m + t + d := by ring
        rw [e]
        exact sameDir_add_right d (sameDir_trans (sameDir_add_right t k3) t3)
      · intro _ p p1 p2 hp
        have hpi := hp p p1 p2 ⟨0, by simpa using hm.le, by simpa using sameDir_self p⟩
        rw [pts_len p1 p2] at hpi
        obtain ⟨_, t, t1, t2, t3⟩ := hpi
        -- a point just outside either end is not in the interval
        have hin : ∀ d, |d| ≤ -m → ∃ s, 0 ≤ s ∧ s ≤ arcLen π i.lo i.hi ∧ SameDir π (i.lo + s) (i.lo + t + d) := by
          intro d hd
          have hq := hp (rem (p + d)) (abs_le.1 (hr _).1).1 (abs_le.1 (hr _).1).2 ⟨d, hd, (hr _).2⟩
          rw [pts_len (abs_le.1 (hr _).1).1 (abs_le.1 (hr _).1).2] at hq
          obtain ⟨_, s, s1, s2, s3⟩ := hq
          exact ⟨s, s1, s2, sameDir_trans s3 (sameDir_trans (sameDir_symm (hr _).2) (sameDir_add_right d (sameDir_symm t3)))⟩
        have hd : ∀ x, 0 < x → ∃ δ, 0 < δ ∧ δ ≤ x ∧ δ < 2 * π - arcLen π i.lo i.hi := by
          intro x hx
          obtain ⟨y, hy⟩ := mid 0 (2 * π - arcLen π i.lo i.hi)
          by_cases h : x ≤ y
          · exact ⟨x, hx, le_refl _, by linarith⟩
          · exact ⟨y, by linarith, by linarith, by linarith⟩
        have g1 : -m ≤ t := by
          by_contra hc
          obtain ⟨δ, d1, d2, d3⟩ := hd (-m - t) (by linarith)
          obtain ⟨s, s1, s2, s3⟩ := hin (-(t + δ)) (by rw [abs_le]; constructor <;> linarith)
          exact no_turn hπ (sameDir_symm s3) (by linarith) (by linarith)
        have g2 : t ≤ arcLen π i.lo i.hi + m := by
          by_contra hc
          obtain ⟨δ, d1, d2, d3⟩ := hd (-m - (arcLen π i.lo i.hi - t)) (by linarith)
          obtain ⟨s, s1, s2, s3⟩ := hin (arcLen π i.lo i.hi - t + δ) (by rw [abs_le]; constructor <;> linarith)
          exact no_turn hπ s3 (by linarith) (by linarith)
        rw [pts_len p1 p2, k4]
        refine ⟨k2, t + m, by linarith, by linarith, ?_⟩
        refine sameDir_trans (sameDir_add_right (t + m) (sameDir_symm k3)) ?_
        have e : i.lo - m + (t + m) = i.lo + t := by ring
        rwa [e]
  · rw [if_pos hF] at hx
    rw [hx]
    have hF' : i.lo = -π ∧ i.hi = π := by simpa [isFull] using hF
    have ha : ∀ q, -π ≤ q → q ≤ π → Pts π i q := by
      intro q q1 q2
      rw [pts_toPi hπ hi q1 q2, mem_iff]
      have := toPi_range hπ q1 q2
      grind
    exact ⟨fun p hp q q1 q2 hq => ha q q1 q2, fun _ p p1 p2 _ => ha p p1 p2⟩

/-- **C54.** The empty and the full interval stay as they are. -/
theorem c54_fixed (hπ : 0 < π) (rem : K → K) {eps : K} (he : 0 ≤ eps) (m : K) :
    expanded π _root_.id rem eps (empty π) m = empty π ∧ expanded π _root_.id rem eps (full π) m = full π := by
  have e1 : (empty π).isEmpty π = true := by simp [isEmpty, empty]
  have f0 : (empty π).isFull π = false := by
    have h : π ≠ -π := fun h => by linarith
    simp [isFull, empty, h]
  have f1 : (full π).isFull π = true := by simp [isFull, full]
  have f2 : (full π).isEmpty π = false := by
    have h : -π ≠ π := fun h => by linarith
    simp [isEmpty, full, h]
  have l1 : (empty π).len π _root_.id = -1 := by
    have h : ¬ (-π - π ≥ 0) := fun h => by linarith
    have h' : ¬ (-π - π + 2 * π > 0) := fun h => by linarith
    simp only [len, empty, id_eq, h, h', ite_false]
  have l2 : (full π).len π _root_.id = 2 * π := by
    have h : π - -π ≥ 0 := by linarith
    simp only [len, full, id_eq, h, ite_true]; ring
  constructor
  · unfold expanded
    by_cases hm : m ≥ 0
    · simp [hm, e1]
    · simp only [hm, ite_false, f0, l1, id_eq, Bool.false_eq_true]
      rw [if_pos (by linarith)]
  · unfold expanded
    by_cases hm : m ≥ 0
    · simp only [hm, ite_true, f2, l2, id_eq, Bool.false_eq_true, ite_false]
      rw [if_pos (by linarith)]
    · simp [hm, f1]

/-! ## Examples -/

/-- The hypotheses can be met: there is a remainder function. -/
theorem exists_rem : ∃ rem : ℚ → ℚ, IsRem 180 rem := by
  refine ⟨fun x => x - 360 * (round (x / 360) : ℤ), fun x => ⟨?_, -round (x / 360), by push_cast; ring⟩⟩
  have h := abs_sub_round (x / 360)
  rw [abs_le] at h ⊢
  constructor <;> linarith [h.1, h.2]

example : ∃ rem : ℚ → ℚ, IsRem 180 rem ∧ (⟨170, -170⟩ : Interval ℚ).isValid 180 = true ∧
    Near 180 20 (⟨170, -170⟩ : Interval ℚ) 155 ∧ (expanded 180 _root_.id rem (1 / 10 ^ 9) ⟨170, -170⟩ 20).isValid 180 = true := by
  obtain ⟨rem, h⟩ := exists_rem
  refine ⟨rem, h, by decide +kernel, ⟨170, -15, ⟨by norm_num, by norm_num, by norm_num, 0, by norm_num, by norm_num [arcEnd], ⟨0, by norm_num⟩⟩, ?_, ⟨0, by norm_num⟩⟩, ?_⟩
  · norm_num [abs]
  · exact c54_valid (by norm_num) (by decide +kernel) _ _ (fun x => (h x).1) _ _

end Verif.S1
