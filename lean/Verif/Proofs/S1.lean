import Verif.Model.S1
import Mathlib.Tactic.Linarith
import Mathlib.Tactic.Ring
import Mathlib.Tactic.NormNum
import Mathlib.Algebra.Order.Ring.Rat
import Mathlib.Algebra.Order.Field.Rat

/-! # Arcs of the circle: the specification and its translation into inequalities -/

namespace Verif

namespace Spec
variable {K : Type} [Field K] [LinearOrder K]

/-- The angles `a` and `b` are the same point of the circle. -/
def SameDir (π a b : K) : Prop := ∃ k : ℤ, b = a + 2 * π * k

/-- Where the arc from `lo` counterclockwise to `hi` ends, if it starts at the angle `lo`. -/
def arcEnd (π lo hi : K) : K := if lo ≤ hi then hi else hi + 2 * π

/-- `p` is a point of the closed arc from `lo` counterclockwise to `hi`. The pair `(π, -π)` means no points. -/
def InArc (π lo hi p : K) : Prop :=
  ¬ (lo = π ∧ hi = -π) ∧ ∃ t, 0 ≤ t ∧ lo + t ≤ arcEnd π lo hi ∧ SameDir π (lo + t) p

/-- `p` is an interior point of the arc. All points of the whole circle, the pair `(-π, π)`, are interior. -/
def InOpenArc (π lo hi p : K) : Prop :=
  (lo = -π ∧ hi = π) ∨ ∃ t, 0 < t ∧ lo + t < arcEnd π lo hi ∧ SameDir π (lo + t) p

/-- The length of an arc. -/
def arcLen (π lo hi : K) : K := if lo = π ∧ hi = -π then 0 else arcEnd π lo hi - lo

end Spec

namespace S1
open Spec Interval
variable {K : Type} [Field K] [LinearOrder K] [IsStrictOrderedRing K] {π : K}

/-- The propositional form of `is_valid`. -/
structure Ok (π : K) (i : Interval K) : Prop where
  lo1 : -π ≤ i.lo
  lo2 : i.lo ≤ π
  hi1 : -π ≤ i.hi
  hi2 : i.hi ≤ π
  nlo : i.lo = -π → i.hi = π
  nhi : i.hi = -π → i.lo = π

theorem isValid_iff {i : Interval K} : i.isValid π = true ↔ Ok π i := by
  unfold Interval.isValid
  simp only [Bool.and_eq_true, decide_eq_true_eq, Bool.not_eq_true', Bool.and_eq_false_iff, decide_eq_false_iff_not, not_not, abs_le, ne_eq]
  constructor
  · rintro ⟨⟨⟨⟨a, b⟩, c, d⟩, e⟩, f⟩
    exact ⟨a, b, c, d, fun h => e.resolve_left (not_not.2 h), fun h => f.resolve_left (not_not.2 h)⟩
  · intro h
    exact ⟨⟨⟨⟨h.1, h.2⟩, h.3, h.4⟩, by by_cases e : i.lo = -π <;> simp [e, h.5]⟩, by by_cases e : i.hi = -π <;> simp [e, h.6]⟩

/-- Membership of a point `p` in `(-π, π]`. -/
def Mem (π : K) (i : Interval K) (p : K) : Prop :=
  if i.lo ≤ i.hi then i.lo ≤ p ∧ p ≤ i.hi else ¬ (i.lo = π ∧ i.hi = -π) ∧ (i.lo ≤ p ∨ p ≤ i.hi)

/-- Membership in the interior. -/
def IMem (π : K) (i : Interval K) (p : K) : Prop :=
  if i.lo ≤ i.hi then (i.lo < p ∧ p < i.hi) ∨ (i.lo = -π ∧ i.hi = π) else i.lo < p ∨ p < i.hi

theorem toPi_range (hπ : 0 < π) {p : K} (h1 : -π ≤ p) (h2 : p ≤ π) : -π < toPi π p ∧ toPi π p ≤ π := by
  unfold toPi
  split
  · exact ⟨by linarith, le_refl _⟩
  · exact ⟨lt_of_le_of_ne h1 (Ne.symm ‹_›), h2⟩

theorem toPi_eq {p : K} (h1 : -π < p) : toPi π p = p := if_neg h1.ne'

/-- An integer multiple of a full turn that is small. -/
theorem turn_cases (hπ : 0 < π) {a b : K} (h : SameDir π a b) (h1 : a - b < 4 * π) (h2 : b - a < 4 * π) :
    b = a - 2 * π ∨ b = a ∨ b = a + 2 * π := by
  obtain ⟨k, rfl⟩ := h
  have l : k < 2 := by
    by_contra hk
    have : (2 : K) ≤ (k : K) := by exact_mod_cast not_lt.1 hk
    nlinarith
  have u : -2 < k := by
    by_contra hk
    have : (k : K) ≤ (-2 : K) := by exact_mod_cast not_lt.1 hk
    nlinarith
  have : k = -1 ∨ k = 0 ∨ k = 1 := by omega
  rcases this with rfl | rfl | rfl
  · left; push_cast; ring
  · right; left; push_cast; ring
  · right; right; push_cast; ring

theorem sameDir_self (a : K) : SameDir π a a := ⟨0, by simp⟩
theorem sameDir_sub (a : K) : SameDir π a (a - 2 * π) := ⟨-1, by push_cast; ring⟩
theorem sameDir_add (a : K) : SameDir π a (a + 2 * π) := ⟨1, by push_cast; ring⟩

theorem inArc_iff (hπ : 0 < π) {i : Interval K} (h : Ok π i) {p : K} (h1 : -π ≤ p) (h2 : p ≤ π) :
    InArc π i.lo i.hi p ↔ Mem π i (toPi π p) := by
  obtain ⟨a, b, c, d, e, f⟩ := h
  unfold InArc arcEnd Mem toPi
  constructor
  · rintro ⟨g, t, t1, t2, t3⟩
    have t4 : i.lo + t ≤ 3 * π := by split at t2 <;> linarith
    rcases eq_or_lt_of_le t4 with t5 | t5
    · grind
    have := turn_cases hπ t3 (by linarith) (by linarith)
    grind
  · intro g
    have ex : ∀ t, 0 ≤ t → i.lo + t ≤ (if i.lo ≤ i.hi then i.hi else i.hi + 2 * π) →
      (p = i.lo + t - 2 * π ∨ p = i.lo + t ∨ p = i.lo + t + 2 * π) → ∃ t, 0 ≤ t ∧ i.lo + t ≤ (if i.lo ≤ i.hi then i.hi else i.hi + 2 * π) ∧ SameDir π (i.lo + t) p := by
      intro t t1 t2 t3
      refine ⟨t, t1, t2, ?_⟩
      rcases t3 with rfl | rfl | rfl
      · exact sameDir_sub _
      · exact sameDir_self _
      · exact sameDir_add _
    refine ⟨by grind, ?_⟩
    by_cases hp : p = -π
    · by_cases hl : i.lo ≤ i.hi
      · exact ex (π - i.lo) (by linarith) (by grind) (by grind)
      · exact ex (π - i.lo) (by linarith) (by grind) (by grind)
    · by_cases hq : i.lo ≤ p
      · exact ex (p - i.lo) (by linarith) (by grind) (by grind)
      · exact ex (p + 2 * π - i.lo) (by linarith) (by grind) (by grind)

theorem inOpenArc_iff (hπ : 0 < π) {i : Interval K} (h : Ok π i) {p : K} (h1 : -π ≤ p) (h2 : p ≤ π) :
    InOpenArc π i.lo i.hi p ↔ IMem π i (toPi π p) := by
  obtain ⟨a, b, c, d, e, f⟩ := h
  unfold InOpenArc arcEnd IMem toPi
  constructor
  · rintro (g | ⟨t, t1, t2, t3⟩)
    · grind
    have t4 : i.lo + t < 3 * π := by split at t2 <;> linarith
    have := turn_cases hπ t3 (by linarith) (by linarith)
    grind
  · intro g
    have ex : ∀ t, 0 < t → i.lo + t < (if i.lo ≤ i.hi then i.hi else i.hi + 2 * π) →
      (p = i.lo + t - 2 * π ∨ p = i.lo + t ∨ p = i.lo + t + 2 * π) → ∃ t, 0 < t ∧ i.lo + t < (if i.lo ≤ i.hi then i.hi else i.hi + 2 * π) ∧ SameDir π (i.lo + t) p := by
      intro t t1 t2 t3
      refine ⟨t, t1, t2, ?_⟩
      rcases t3 with rfl | rfl | rfl
      · exact sameDir_sub _
      · exact sameDir_self _
      · exact sameDir_add _
    by_cases hf : i.lo = -π ∧ i.hi = π
    · exact Or.inl hf
    right
    by_cases hp : p = -π
    · exact ex (π - i.lo) (by grind) (by grind) (by grind)
    · by_cases hq : i.lo < p
      · exact ex (p - i.lo) (by linarith) (by grind) (by grind)
      · exact ex (p + 2 * π - i.lo) (by grind) (by grind) (by grind)

theorem contains_iff {i : Interval K} {p : K} : i.fastContains π p = true ↔ Mem π i p := by
  unfold Interval.fastContains Interval.isInverted Interval.isEmpty Mem
  grind

theorem interiorContains_iff {i : Interval K} {p : K} : i.interiorContains π p = true ↔ IMem π i (toPi π p) := by
  unfold Interval.interiorContains Interval.isInverted Interval.isFull IMem
  grind

theorem inst {A B : K → Prop} (h : ∀ p, -π < p → p ≤ π → A p → B p) (p : K) : p ≤ -π ∨ π < p ∨ ¬ A p ∨ B p := by
  by_cases h1 : -π < p
  · by_cases h2 : p ≤ π
    · by_cases h3 : A p
      · exact Or.inr (Or.inr (Or.inr (h p h1 h2 h3)))
      · exact Or.inr (Or.inr (Or.inl h3))
    · exact Or.inr (Or.inl (not_le.1 h2))
  · exact Or.inl (not_lt.1 h1)

theorem mid (a b : K) : ∃ m, 2 * m = a + b := ⟨(a + b) / 2, by ring⟩

end S1
end Verif
