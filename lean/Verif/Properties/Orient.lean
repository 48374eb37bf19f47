import Verif.Properties.Predicates

/-!
# Orientation predicates, continued: C62

`sign`, `robust_sign` and `ordered_ccw`.
-/

namespace Verif
open Spec Verif.Predicates

namespace Spec
variable {K : Type} [Field K] [LinearOrder K]

/-- Two points are equal or farther apart than `2^-200`. -/
def EqOrApart (p q : Vec K) : Prop := p = q ∨ Apart p q

/-- `b` is met strictly between `a` and `c` when sweeping counterclockwise around `o` from `a` to `c`. When the turn from `a` to `c`
is less than half a circle, `b` lies left of `a` and right of `c`; otherwise `b` does not lie in the (smaller) turn from `c` to `a`. -/
def Sweep (o a b c : Vec K) : Prop :=
  if 0 < det o a c then 0 < det o a b ∧ 0 < det o b c else ¬(0 < det o c b ∧ 0 < det o b a)

/-- The volume is clearly different from zero. -/
def Clear (a b c : Vec K) : Prop := 1 / 2 ^ 50 ≤ |det a b c|

end Spec

variable {K : Type} [Field K] [LinearOrder K] [IsStrictOrderedRing K]
set_option linter.unusedSectionVars false

omit [LinearOrder K] [IsStrictOrderedRing K] in
theorem det_rotate (a b c : Vec K) : det b c a = det a b c := by unfold det dot cross; ring

omit [LinearOrder K] [IsStrictOrderedRing K] in
theorem det_reverse (a b c : Vec K) : det c b a = -det a b c := by unfold det dot cross; ring

omit [LinearOrder K] [IsStrictOrderedRing K] in
theorem det_swap (a b c : Vec K) : det b a c = -det a b c := by unfold det dot cross; ring

omit [LinearOrder K] [IsStrictOrderedRing K] in
theorem det_same (a b : Vec K) : det a a b = 0 ∧ det a b a = 0 ∧ det b a a = 0 := by
  unfold det dot cross; refine ⟨?_, ?_, ?_⟩ <;> ring

/-! ## `sign` -/

theorem dot_neg_left {fl : K → K} (h : OddFl fl) (p q : Vec K) : Vec.dot fl (smul (-1) p) q = -Vec.dot fl p q := by
  rw [smul_neg_one]
  unfold Vec.dot
  dsimp only
  rw [neg_mul, neg_mul, neg_mul, h.eq, h.eq, h.eq, ← neg_add, h.eq, ← neg_add, h.eq]

/-- **C62.** `sign(a,b,c)` and `sign(c,b,a)` are never both true, whatever the (odd) rounding. -/
theorem c62_sign_anti {fl : K → K} (h : OddFl fl) (a b c : Vec K) (hs : sign fl a b c = true) : sign fl c b a = false := by
  unfold sign at *
  rw [decide_eq_true_eq] at hs
  rw [decide_eq_false_iff_not, cross_swap h, dot_neg_left h]
  linarith

/-- **C62.** In exact arithmetic `sign` is the strict counterclockwise test. -/
theorem c62_sign_exact (a b c : Vec K) : sign (_root_.id : K → K) a b c = decide (0 < det a b c) := by
  unfold sign
  congr 1
  rw [← det_rotate a b c, ← det_rotate b c a]
  rfl

example : sign (_root_.id : ℚ → ℚ) ⟨1, 0, 0⟩ ⟨0, 1, 0⟩ ⟨0, 0, 1⟩ = true := by decide +kernel

/-! ## `robust_sign` -/

/-- **C62.** Exchanging the first two arguments reverses `triage_sign`, whatever the (odd) rounding. -/
theorem c62_triage_swap {fl : K → K} (h : OddFl fl) (hE : 0 ≤ maxDeterminantError fl) (a b c : Vec K) :
    (triageSign fl b a c = .clockwise ↔ triageSign fl a b c = .counterClockwise) ∧
    (triageSign fl b a c = .counterClockwise ↔ triageSign fl a b c = .clockwise) := by
  unfold triageSign
  rw [cross_swap h, dot_neg_left h]
  generalize Vec.dot fl (Vec.cross fl a b) c = d
  unfold ofDet
  constructor <;> split <;> split <;> (try split) <;> (try split) <;> simp <;> linarith

/-- **C62.** `robust_sign` of a triple with two equal points is `Indeterminate`. -/
theorem c62_robust_equal {fl : K → K} (sqrt : K → K) (h : Rounding fl) {a b c : Vec K} (ha : UnitLe a) (hb : UnitLe b) (hc : UnitLe c)
    (e : a = b ∨ b = c ∨ c = a) : robustSign fl sqrt a b c = .indeterminate := by
  have hd : det a b c = 0 := by
    rcases e with e | e | e
    · rw [e]; exact (det_same _ _).1
    · rw [e]; exact (det_same _ _).2.2
    · rw [e]; exact (det_same _ _).2.1
  obtain ⟨h1, h2⟩ := c62_triage_sound h ha hb hc
  rw [hd] at h1 h2
  have ht : triageSign fl a b c = .indeterminate := by
    cases ht : triageSign fl a b c
    · exact absurd (h2 ht) (lt_irrefl _)
    · rfl
    · exact absurd (h1 ht) (lt_irrefl _)
  unfold robustSign expensiveSign
  rw [if_pos ht, if_pos e]

/-- **C62.** A decided `robust_sign` is right. -/
theorem c62_robust_sound {fl sqrt : K → K} (h : Rounding fl) (hs : IsSqrt sqrt) {a b c : Vec K} (ha : UnitLe a) (hb : UnitLe b)
    (hc : UnitLe c) (hab : EqOrApart a b) (hbc : EqOrApart b c) (hca : EqOrApart c a) :
    (robustSign fl sqrt a b c = .counterClockwise → 0 < det a b c) ∧ (robustSign fl sqrt a b c = .clockwise → det a b c < 0) := by
  unfold robustSign
  by_cases ht : triageSign fl a b c = .indeterminate
  · rw [if_pos ht]
    unfold expensiveSign
    by_cases e : a = b ∨ b = c ∨ c = a
    · rw [if_pos e]
      constructor <;> intro hh <;> cases hh
    · rw [if_neg e]
      rw [not_or, not_or] at e
      by_cases e2 : stableSign fl sqrt a b c = .indeterminate
      · rw [if_neg (not_not.2 e2)]
        unfold exactSign
        constructor <;> intro hh <;> cases hh
      · rw [if_pos e2]
        exact c62_stable_sound h hs ha hb hc (hab.resolve_left e.1) (hbc.resolve_left e.2.1) (hca.resolve_left e.2.2)
  · rw [if_neg ht]
    exact c62_triage_sound h ha hb hc

/-- **C62.** `robust_sign` decides every triple whose volume exceeds `2^-50`. -/
theorem c62_robust_complete {fl : K → K} (sqrt : K → K) (h : Rounding fl) {a b c : Vec K} (ha : UnitLe a) (hb : UnitLe b) (hc : UnitLe c) :
    (1 / 2 ^ 50 ≤ det a b c → robustSign fl sqrt a b c = .counterClockwise) ∧
    (det a b c ≤ -(1 / 2 ^ 50) → robustSign fl sqrt a b c = .clockwise) := by
  obtain ⟨h1, h2⟩ := c62_triage_complete h ha hb hc
  unfold robustSign
  constructor
  · intro hd; rw [h1 hd, if_neg (by decide)]
  · intro hd; rw [h2 hd, if_neg (by decide)]

theorem Spec.EqOrApart.symm {a b : Vec K} (h : EqOrApart a b) : EqOrApart b a := h.elim (fun e => .inl e.symm) (fun e => .inr e.symm)

/-- **C62.** Two calls of `robust_sign` on the same three points never contradict each other: a rotation never gives the opposite
direction and a reversal never gives the same direction. -/
theorem c62_robust_consistent {fl sqrt : K → K} (h : Rounding fl) (hs : IsSqrt sqrt) {a b c : Vec K} (ha : UnitLe a) (hb : UnitLe b)
    (hc : UnitLe c) (hab : EqOrApart a b) (hbc : EqOrApart b c) (hca : EqOrApart c a) :
    (robustSign fl sqrt a b c = .counterClockwise → robustSign fl sqrt b c a ≠ .clockwise ∧ robustSign fl sqrt c b a ≠ .counterClockwise) ∧
    (robustSign fl sqrt a b c = .clockwise → robustSign fl sqrt b c a ≠ .counterClockwise ∧ robustSign fl sqrt c b a ≠ .clockwise) := by
  obtain ⟨h1, h2⟩ := c62_robust_sound h hs ha hb hc hab hbc hca
  obtain ⟨h3, h4⟩ := c62_robust_sound h hs hb hc ha hbc hca hab
  obtain ⟨h5, h6⟩ := c62_robust_sound h hs hc hb ha hbc.symm hab.symm hca.symm
  rw [det_rotate] at h3 h4
  rw [det_reverse] at h5 h6
  constructor
  · intro hh
    have := h1 hh
    exact ⟨fun e => by linarith [h4 e], fun e => by linarith [h5 e]⟩
  · intro hh
    have := h2 hh
    exact ⟨fun e => by linarith [h3 e], fun e => by linarith [h6 e]⟩

/-- The rounding errors and the degenerate triples excluded, the laws (2) and (3) hold. -/
theorem robust_clear {fl : K → K} (sqrt : K → K) (h : Rounding fl) {a b c : Vec K} (ha : UnitLe a) (hb : UnitLe b) (hc : UnitLe c)
    (hcl : Clear a b c) : robustSign fl sqrt a b c = if 0 < det a b c then .counterClockwise else .clockwise := by
  obtain ⟨h1, h2⟩ := c62_robust_complete sqrt h ha hb hc
  unfold Clear at hcl
  have p : (0 : K) < 1 / 2 ^ 50 := by positivity
  rcases abs_cases (det a b c) with ⟨e, _⟩ | ⟨e, h0⟩
  · rw [e] at hcl
    rw [h1 hcl, if_pos (by linarith)]
  · rw [e] at hcl
    rw [h2 (by linarith), if_neg (by linarith)]

/-- **C62.** Laws (1), (2) and (3) of the documentation, for triples whose volume exceeds `2^-50`. -/
theorem c62_robust_laws {fl : K → K} (sqrt : K → K) (h : Rounding fl) {a b c : Vec K} (ha : UnitLe a) (hb : UnitLe b) (hc : UnitLe c)
    (hcl : Clear a b c) :
    robustSign fl sqrt a b c ≠ .indeterminate ∧ robustSign fl sqrt b c a = robustSign fl sqrt a b c ∧
    (robustSign fl sqrt c b a = .counterClockwise ↔ robustSign fl sqrt a b c = .clockwise) ∧
    (robustSign fl sqrt c b a = .clockwise ↔ robustSign fl sqrt a b c = .counterClockwise) := by
  have p : (0 : K) < 1 / 2 ^ 50 := by positivity
  have c1 : Clear b c a := by unfold Clear; rwa [det_rotate]
  have c2 : Clear c b a := by unfold Clear; rwa [det_reverse, abs_neg]
  have hne : det a b c ≠ 0 := by intro e; unfold Clear at hcl; rw [e, abs_zero] at hcl; linarith
  rw [robust_clear sqrt h ha hb hc hcl, robust_clear sqrt h hb hc ha c1, robust_clear sqrt h hc hb ha c2, det_rotate a b c, det_reverse a b c]
  rcases lt_or_gt_of_ne hne with e | e
  · rw [if_neg e.not_gt, if_pos (by linarith : 0 < -det a b c)]; simp
  · rw [if_pos e, if_neg (by linarith : ¬ 0 < -det a b c)]; simp

/-! ## `stable_sign` does not depend on the order of the arguments -/

/-- **C62.** `stable_sign` is not changed by a rotation of the arguments, unless two of the computed edge lengths are equal. -/
theorem c62_stable_rotate (fl sqrt : K → K) {a b c : Vec K} (h1 : Vec.norm2 fl (Vec.sub fl b a) ≠ Vec.norm2 fl (Vec.sub fl c b))
    (h2 : Vec.norm2 fl (Vec.sub fl c b) ≠ Vec.norm2 fl (Vec.sub fl a c)) (h3 : Vec.norm2 fl (Vec.sub fl a c) ≠ Vec.norm2 fl (Vec.sub fl b a)) :
    stableSign fl sqrt b c a = stableSign fl sqrt a b c := by
  have : stableEdges fl b c a = stableEdges fl a b c := by
    unfold stableEdges
    dsimp only
    generalize Vec.norm2 fl (Vec.sub fl b a) = x at *
    generalize Vec.norm2 fl (Vec.sub fl c b) = y at *
    generalize Vec.norm2 fl (Vec.sub fl a c) = z at *
    grind
  unfold stableSign
  rw [this]

/-! ## Exact arithmetic -/

/-- The product of the squared lengths of the two shorter edges. -/
def shortest (x y z : K) : K := if x ≥ y ∧ x ≥ z then z * y else if y ≥ z then x * z else y * x

omit [IsStrictOrderedRing K] in
theorem shortest_perm (x y z : K) : shortest y z x = shortest x y z ∧ shortest y x z = shortest x y z := by
  unfold shortest
  constructor
  · by_cases h1 : x ≥ y <;> by_cases h2 : y ≥ z <;> by_cases h3 : x ≥ z <;> grind
  · by_cases h1 : x ≥ y <;> by_cases h2 : y ≥ z <;> by_cases h3 : x ≥ z <;> grind

/-- The squared distance. -/
def dist2 (a b : Vec K) : K := dot (diff a b) (diff a b)

omit [LinearOrder K] [IsStrictOrderedRing K] in
theorem dist2_comm (a b : Vec K) : dist2 a b = dist2 b a := by unfold dist2 dot diff; ring

theorem stable_exact (sqrt : K → K) (a b c : Vec K) :
    stableSign (_root_.id : K → K) sqrt a b c =
      ofDet (det a b c) (detErrorMultiplier (_root_.id : K → K) * sqrt (shortest (dist2 b a) (dist2 c b) (dist2 a c))) := by
  unfold stableSign shortest
  by_cases h1 : dist2 b a ≥ dist2 c b ∧ dist2 b a ≥ dist2 a c
  · have e : stableEdges (_root_.id : K → K) a b c = (diff a c, diff c b, c) := if_pos h1
    rw [e, if_pos h1]
    change ofDet (-dot (cross (diff a c) (diff c b)) c) _ = ofDet _ _
    congr 1
    unfold det dot cross diff; ring
  · by_cases h2 : dist2 c b ≥ dist2 a c
    · have e : stableEdges (_root_.id : K → K) a b c = (diff b a, diff a c, a) := (if_neg h1).trans (if_pos h2)
      rw [e, if_neg h1, if_pos h2]
      change ofDet (-dot (cross (diff b a) (diff a c)) a) _ = ofDet _ _
      congr 1
      unfold det dot cross diff; ring
    · have e : stableEdges (_root_.id : K → K) a b c = (diff c b, diff b a, b) := (if_neg h1).trans (if_neg h2)
      rw [e, if_neg h1, if_neg h2]
      change ofDet (-dot (cross (diff c b) (diff b a)) b) _ = ofDet _ _
      congr 1
      unfold det dot cross diff; ring

/-- **C62.** In exact arithmetic, laws (2) and (3) of the documentation hold for all triples. -/
theorem c62_exact_laws {sqrt : K → K} (hs : IsSqrt sqrt) (a b c : Vec K) :
    robustSign (_root_.id : K → K) sqrt b c a = robustSign (_root_.id : K → K) sqrt a b c ∧
    (robustSign (_root_.id : K → K) sqrt c b a = .counterClockwise ↔ robustSign (_root_.id : K → K) sqrt a b c = .clockwise) ∧
    (robustSign (_root_.id : K → K) sqrt c b a = .clockwise ↔ robustSign (_root_.id : K → K) sqrt a b c = .counterClockwise) := by
  have hm : (0 : K) ≤ maxDeterminantError (_root_.id : K → K) := by
    unfold maxDeterminantError dblEpsilon; simp only [_root_.id]; positivity
  have hd : (0 : K) ≤ detErrorMultiplier (_root_.id : K → K) := by
    unfold detErrorMultiplier dblEpsilon; simp only [_root_.id]; positivity
  have ht : ∀ x y z : Vec K, triageSign (_root_.id : K → K) x y z = ofDet (det x y z) (maxDeterminantError (_root_.id : K → K)) := fun _ _ _ => rfl
  have hp := shortest_perm (dist2 b a) (dist2 c b) (dist2 a c)
  have hn : 0 ≤ shortest (dist2 b a) (dist2 c b) (dist2 a c) := by
    have d0 : ∀ x y : Vec K, 0 ≤ dist2 x y := fun x y => dot_self_nonneg _
    unfold shortest
    split_ifs <;> exact mul_nonneg (d0 _ _) (d0 _ _)
  have hs0 := (hs _ hn).1
  have e1 : shortest (dist2 c b) (dist2 a c) (dist2 b a) = shortest (dist2 b a) (dist2 c b) (dist2 a c) := hp.1
  have e2 : shortest (dist2 b c) (dist2 a b) (dist2 c a) = shortest (dist2 b a) (dist2 c b) (dist2 a c) := by
    rw [dist2_comm b c, dist2_comm a b, dist2_comm c a]; exact hp.2
  unfold robustSign expensiveSign exactSign
  simp only [ht, stable_exact, e1, e2]
  rw [det_rotate a b c, det_reverse a b c]
  have hE := mul_nonneg hd hs0
  generalize detErrorMultiplier (_root_.id : K → K) * sqrt (shortest (dist2 b a) (dist2 c b) (dist2 a c)) = E at *
  generalize maxDeterminantError (_root_.id : K → K) = E' at *
  generalize det a b c = D at *
  have q1 : (b = c ∨ c = a ∨ a = b) ↔ (a = b ∨ b = c ∨ c = a) := by tauto
  have q2 : (c = b ∨ b = a ∨ a = c) ↔ (a = b ∨ b = c ∨ c = a) := by rw [eq_comm (a := c), eq_comm (a := b), eq_comm (a := a) (b := c)]; tauto
  simp only [q1, q2, true_and]
  have odd : ∀ {e : K}, 0 ≤ e → (ofDet (-D) e = .counterClockwise ↔ ofDet D e = .clockwise) ∧ (ofDet (-D) e = .clockwise ↔ ofDet D e = .counterClockwise) ∧
      (ofDet (-D) e = .indeterminate ↔ ofDet D e = .indeterminate) := by
    intro e he
    unfold ofDet
    refine ⟨?_, ?_, ?_⟩ <;> split_ifs <;> first | (simp; done) | (exfalso; linarith)
  obtain ⟨o1, o2, o3⟩ := odd hm
  obtain ⟨p1, p2, p3⟩ := odd hE
  by_cases hX : a = b ∨ b = c ∨ c = a
  · simp only [if_pos hX]
    constructor <;> simp only [o3, p3, ne_eq] <;> split_ifs <;> simp [*]
  · simp only [if_neg hX]
    constructor <;> simp only [o3, p3, ne_eq] <;> split_ifs <;> simp [*]

/-- **C62** (defect). `exact_sign` is not implemented: in exact arithmetic, `robust_sign` is `Indeterminate` for every triple on one
great circle, so that law (1) fails for all distinct points of a great circle. -/
theorem c62_exact_degenerate {sqrt : K → K} (hs : IsSqrt sqrt) {a b c : Vec K} (hd : det a b c = 0) :
    robustSign (_root_.id : K → K) sqrt a b c = .indeterminate := by
  have hm : (0 : K) ≤ maxDeterminantError (_root_.id : K → K) := by
    unfold maxDeterminantError dblEpsilon; simp only [_root_.id]; positivity
  have hdm : (0 : K) ≤ detErrorMultiplier (_root_.id : K → K) := by
    unfold detErrorMultiplier dblEpsilon; simp only [_root_.id]; positivity
  have hn : 0 ≤ shortest (dist2 b a) (dist2 c b) (dist2 a c) := by
    have d0 : ∀ x y : Vec K, 0 ≤ dist2 x y := fun x y => dot_self_nonneg _
    unfold shortest
    split_ifs <;> exact mul_nonneg (d0 _ _) (d0 _ _)
  have hE := mul_nonneg hdm (hs _ hn).1
  have z : ∀ {e : K}, 0 ≤ e → ofDet 0 e = .indeterminate := by
    intro e he; unfold ofDet; rw [if_neg (by linarith), if_neg (by linarith)]
  have ht : triageSign (_root_.id : K → K) a b c = .indeterminate := by
    change ofDet (det a b c) _ = _
    rw [hd, z hm]
  unfold robustSign expensiveSign exactSign
  rw [if_pos ht, stable_exact, hd, z hE]
  simp

/-- Three distinct points for which `robust_sign` is `Indeterminate`. -/
example : robustSign (_root_.id : ℝ → ℝ) Real.sqrt ⟨1, 0, 0⟩ ⟨0, 1, 0⟩ ⟨-1, 0, 0⟩ = .indeterminate :=
  c62_exact_degenerate isSqrt_real (by unfold det dot cross; norm_num)

/-- **C62** (defect). The same with rounding, for all points of the equator. -/
theorem c62_equator {fl sqrt : K → K} (ho : OddFl fl) (hm : Monotone fl) (hs : IsSqrt sqrt) {a b c : Vec K} (ha : a.z = 0) (hb : b.z = 0)
    (hc : c.z = 0) : robustSign fl sqrt a b c = .indeterminate := by
  have fnn : ∀ {x : K}, 0 ≤ x → 0 ≤ fl x := by
    intro x hx; have := hm hx; rwa [ho.zero] at this
  have z : ∀ {e : K}, 0 ≤ e → ofDet 0 e = .indeterminate := by
    intro e he; unfold ofDet; rw [if_neg (by linarith), if_neg (by linarith)]
  have e0 : 0 ≤ dblEpsilon fl := fnn (by positivity)
  have d0 : ∀ {p q r : Vec K}, p.z = 0 → q.z = 0 → r.z = 0 → Vec.dot fl (Vec.cross fl p q) r = 0 := by
    intro p q r hp hq hr
    unfold Vec.dot Vec.cross
    dsimp only
    simp only [hp, hq, hr, mul_zero, zero_mul, ho.zero, sub_zero, add_zero]
  have ht : triageSign fl a b c = .indeterminate := by
    unfold triageSign
    rw [d0 ha hb hc]
    exact z (fnn (mul_nonneg (fnn (by positivity)) e0))
  have n0 : ∀ p : Vec K, 0 ≤ Vec.norm2 fl p := by
    intro p
    unfold Vec.norm2 Vec.dot
    exact fnn (add_nonneg (fnn (add_nonneg (fnn (mul_self_nonneg _)) (fnn (mul_self_nonneg _)))) (fnn (mul_self_nonneg _)))
  have zs : ∀ {p q : Vec K}, p.z = 0 → q.z = 0 → (Vec.sub fl p q).z = 0 := by
    intro p q hp hq
    unfold Vec.sub
    dsimp only
    rw [hp, hq, sub_zero, ho.zero]
  have hst : stableSign fl sqrt a b c = .indeterminate := by
    have fin : ∀ {e1 e2 op : Vec K}, e1.z = 0 → e2.z = 0 → op.z = 0 → ofDet (-Vec.dot fl (Vec.cross fl e1 e2) op)
        (fl (detErrorMultiplier fl * fl (sqrt (fl (Vec.norm2 fl e1 * Vec.norm2 fl e2))))) = .indeterminate := by
      intro e1 e2 op h1 h2 h3
      rw [d0 h1 h2 h3, neg_zero]
      exact z (fnn (mul_nonneg (fnn (mul_nonneg (fnn (by positivity)) e0)) (fnn (hs _ (fnn (mul_nonneg (n0 _) (n0 _)))).1)))
    unfold stableSign
    rcases stableEdges_cases fl a b c with e | e | e <;> rw [e]
    · exact fin (zs ha hc) (zs hc hb) hc
    · exact fin (zs hb ha) (zs ha hc) ha
    · exact fin (zs hc hb) (zs hb ha) hb
  unfold robustSign expensiveSign exactSign
  rw [if_pos ht, hst]
  simp

/-! ## `ordered_ccw` -/

omit [LinearOrder K] [IsStrictOrderedRing K] in
theorem det_mid (o x y : Vec K) : det x o y = det o y x := by unfold det dot cross; ring

theorem clear_ne {a b c : Vec K} (h : Clear a b c) : det a b c ≠ 0 := by
  intro e
  unfold Clear at h
  rw [e, abs_zero] at h
  have p : (0 : K) < 1 / 2 ^ 50 := by positivity
  linarith

theorem clear_reverse {a b c : Vec K} (h : Clear a b c) : Clear c b a := by unfold Clear; rwa [det_reverse, abs_neg]

theorem ordered_clear {fl : K → K} (sqrt : K → K) (h : Rounding fl) {a b c o : Vec K} (ha : UnitLe a) (hb : UnitLe b) (hc : UnitLe c)
    (ho : UnitLe o) (h1 : Clear b o a) (h2 : Clear c o b) (h3 : Clear a o c) :
    orderedCCW fl sqrt a b c o = true ↔
      (0 < det b o a ∧ 0 < det c o b) ∨ (0 < det b o a ∧ 0 < det a o c) ∨ (0 < det c o b ∧ 0 < det a o c) := by
  unfold orderedCCW
  rw [robust_clear sqrt h hb ho ha h1, robust_clear sqrt h hc ho hb h2, robust_clear sqrt h ha ho hc h3]
  by_cases e1 : 0 < det b o a <;> by_cases e2 : 0 < det c o b <;> by_cases e3 : 0 < det a o c <;> simp [e1, e2, e3]

/-- **C62.** `ordered_ccw(a,b,c,o)` says that `b` is met between `a` and `c` when sweeping counterclockwise around `o`. -/
theorem c62_ordered {fl : K → K} (sqrt : K → K) (h : Rounding fl) {a b c o : Vec K} (ha : UnitLe a) (hb : UnitLe b) (hc : UnitLe c)
    (ho : UnitLe o) (h1 : Clear b o a) (h2 : Clear c o b) (h3 : Clear a o c) :
    orderedCCW fl sqrt a b c o = true ↔ Sweep o a b c := by
  rw [ordered_clear sqrt h ha hb hc ho h1 h2 h3]
  have n1 := clear_ne h1
  have n2 := clear_ne h2
  have n3 := clear_ne h3
  unfold Sweep
  have e1 : det o a b = det b o a := by unfold det dot cross; ring
  have e2 : det o b c = det c o b := by unfold det dot cross; ring
  have e3 : det o a c = -det a o c := by unfold det dot cross; ring
  have e4 : det o c b = -det c o b := by unfold det dot cross; ring
  have e5 : det o b a = -det b o a := by unfold det dot cross; ring
  rw [e1, e2, e3, e4, e5]
  generalize det b o a = x at *
  generalize det c o b = y at *
  generalize det a o c = z at *
  split_ifs <;> grind

/-- **C62.** Properties (1), (2) and (3) of `ordered_ccw`, for points in general position. -/
theorem c62_ordered_anti {fl : K → K} (sqrt : K → K) (h : Rounding fl) {a b c o : Vec K} (ha : UnitLe a) (hb : UnitLe b) (hc : UnitLe c)
    (ho : UnitLe o) (h1 : Clear b o a) (h2 : Clear c o b) (h3 : Clear a o c) (hh : orderedCCW fl sqrt a b c o = true) :
    orderedCCW fl sqrt b a c o = false ∧ orderedCCW fl sqrt a c b o = false ∧ orderedCCW fl sqrt c b a o = false := by
  have k1 := clear_reverse h1
  have k2 := clear_reverse h2
  have k3 := clear_reverse h3
  rw [ordered_clear sqrt h ha hb hc ho h1 h2 h3] at hh
  rw [← Bool.not_eq_true, ← Bool.not_eq_true, ← Bool.not_eq_true, ordered_clear sqrt h hb ha hc ho k1 k3 k2,
    ordered_clear sqrt h ha hc hb ho k3 k2 k1, ordered_clear sqrt h hc hb ha ho k2 k1 k3, det_reverse b o a, det_reverse c o b, det_reverse a o c]
  generalize det b o a = x at *
  generalize det c o b = y at *
  generalize det a o c = z at *
  grind

/-- **C62.** Property (4) of `ordered_ccw`. -/
theorem c62_ordered_equal {fl : K → K} (sqrt : K → K) (h : Rounding fl) {a b c o : Vec K} (ha : UnitLe a) (hc : UnitLe c)
    (ho : UnitLe o) (e : a = b ∨ b = c) (h3 : Clear a o c) : orderedCCW fl sqrt a b c o = true := by
  have k3 := clear_reverse h3
  have n3 := clear_ne h3
  unfold orderedCCW
  rcases e with rfl | rfl
  · rw [c62_robust_equal sqrt h ha ho ha (.inr (.inr rfl)), robust_clear sqrt h hc ho ha k3, robust_clear sqrt h ha ho hc h3, det_reverse a o c]
    rcases lt_or_gt_of_ne n3 with e | e
    · simp [e, e.not_gt]
    · simp [e, e.not_gt]
  · rw [c62_robust_equal sqrt h hc ho hc (.inr (.inr rfl)), robust_clear sqrt h hc ho ha k3, robust_clear sqrt h ha ho hc h3, det_reverse a o b]
    rcases lt_or_gt_of_ne n3 with e | e
    · simp [e, e.not_gt]
    · simp [e, e.not_gt]

/-- **C62.** Property (5) of `ordered_ccw`, for `b` not on the great circle of `a` and `o`. -/
theorem c62_ordered_ends {fl : K → K} (sqrt : K → K) (h : Rounding fl) {a b o : Vec K} (ha : UnitLe a) (hb : UnitLe b)
    (ho : UnitLe o) (h3 : Clear a o b) : orderedCCW fl sqrt a b a o = false := by
  have k3 := clear_reverse h3
  have n3 := clear_ne h3
  unfold orderedCCW
  rw [c62_robust_equal sqrt h ha ho ha (.inr (.inr rfl)), robust_clear sqrt h hb ho ha k3, robust_clear sqrt h ha ho hb h3, det_reverse a o b]
  rcases lt_or_gt_of_ne n3 with e | e
  · simp [e, e.not_gt]
  · simp [e, e.not_gt]

/-- **C62** (defect). Property (5) of `ordered_ccw` fails when `b` is on the great circle of `a` and `o`. -/
theorem c62_ordered_defect {sqrt : K → K} (hs : IsSqrt sqrt) {a b o : Vec K} (hd : det a o b = 0) :
    orderedCCW (_root_.id : K → K) sqrt a b a o = true := by
  unfold orderedCCW
  rw [c62_exact_degenerate hs hd, c62_exact_degenerate hs (by rw [det_reverse, hd, neg_zero]),
    c62_exact_degenerate hs (det_same _ _).2.1]
  decide

/-- With `a = (1,0,0)`, `b = (-1,0,0)`, `o = (0,0,1)`: `a` differs from `b`, and yet `ordered_ccw(a,b,a,o)` is true. -/
example : orderedCCW (_root_.id : ℝ → ℝ) Real.sqrt ⟨1, 0, 0⟩ ⟨-1, 0, 0⟩ ⟨1, 0, 0⟩ ⟨0, 0, 1⟩ = true :=
  c62_ordered_defect isSqrt_real (by unfold det dot cross; norm_num)

/-! ## Examples: the hypotheses are met by the three unit vectors and by points in general position, with rounding -/

theorem exUnit : UnitLe (⟨1, 0, 0⟩ : Vec ℝ) ∧ UnitLe (⟨0, 1, 0⟩ : Vec ℝ) ∧ UnitLe (⟨0, 0, 1⟩ : Vec ℝ) := by
  unfold UnitLe dot; refine ⟨?_, ?_, ?_⟩ <;> norm_num

theorem exApart : Apart (⟨1, 0, 0⟩ : Vec ℝ) ⟨0, 1, 0⟩ ∧ Apart (⟨0, 1, 0⟩ : Vec ℝ) ⟨0, 0, 1⟩ ∧ Apart (⟨0, 0, 1⟩ : Vec ℝ) ⟨1, 0, 0⟩ := by
  have : (1 : ℝ) / 2 ^ 400 ≤ 1 / 2 ^ 0 := pow_small _ _ (by norm_num)
  unfold Apart dot diff
  refine ⟨?_, ?_, ?_⟩ <;> (refine this.trans ?_; norm_num)

example : robustSign roundF64 Real.sqrt ⟨1, 0, 0⟩ ⟨0, 1, 0⟩ ⟨0, 0, 1⟩ = Direction.counterClockwise :=
  (c62_robust_complete Real.sqrt rounding_f64 exUnit.1 exUnit.2.1 exUnit.2.2).1 (by unfold det dot cross; norm_num)

example : robustSign roundF64 Real.sqrt ⟨0, 1, 0⟩ ⟨0, 0, 1⟩ ⟨1, 0, 0⟩ ≠ Direction.clockwise :=
  ((c62_robust_consistent rounding_f64 isSqrt_real exUnit.1 exUnit.2.1 exUnit.2.2 (.inr exApart.1) (.inr exApart.2.1) (.inr exApart.2.2)).1
    ((c62_robust_complete Real.sqrt rounding_f64 exUnit.1 exUnit.2.1 exUnit.2.2).1 (by unfold det dot cross; norm_num))).1

/-- The direction with components `(-3/5, 4/5)` is met between the x axis and the direction `(-3/5, -4/5)` around the pole. -/
example : orderedCCW roundF64 Real.sqrt ⟨1, 0, 0⟩ ⟨-3 / 5, 4 / 5, 0⟩ ⟨-3 / 5, -4 / 5, 0⟩ ⟨0, 0, 1⟩ = true := by
  refine (c62_ordered Real.sqrt rounding_f64 exUnit.1 ?_ ?_ exUnit.2.2 ?_ ?_ ?_).2 ?_
  · unfold UnitLe dot; norm_num
  · unfold UnitLe dot; norm_num
  · unfold Clear det dot cross; norm_num
  · unfold Clear det dot cross; norm_num [abs_of_pos]
  · unfold Clear det dot cross; norm_num
  · unfold Sweep det dot cross; norm_num

end Verif
