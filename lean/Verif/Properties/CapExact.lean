import Verif.Properties.Cap

/-!
# The sets of points of caps, in exact arithmetic: C64

Points and centres are unit vectors; a cap is the set of points within its radius.
-/

namespace Verif
open Spec

namespace Spec

/-- A cap as a set of points of the sphere: the squared distance is at most the radius. -/
def InCap (c : Cap ℝ) (p : Vec ℝ) : Prop := dot (diff p c.center) (diff p c.center) ≤ c.radius

/-- The interior of a cap; the full cap has no boundary. -/
def InsideCap (c : Cap ℝ) (p : Vec ℝ) : Prop := c.radius = 4 ∨ dot (diff p c.center) (diff p c.center) < c.radius

end Spec

theorem dist_le_chord {p c : Vec ℝ} (hp : UnitV p) (hc : UnitV c) {ρ : ℝ} (h0 : 0 ≤ ρ) (h1 : ρ ≤ Real.pi) :
    (dot (diff p c) (diff p c) ≤ chordOf ρ ↔ ang c p ≤ ρ) ∧ (dot (diff p c) (diff p c) < chordOf ρ ↔ ang c p < ρ) := by
  rw [dist2_ang hp hc, ang_comm p c]
  refine ⟨chordOf_le (ang_nonneg _ _) (ang_le_pi _ _) h0 h1, ?_⟩
  rw [← not_le, ← not_le, chordOf_le h0 h1 (ang_nonneg _ _) (ang_le_pi _ _)]

/-- A radius as an angle. -/
theorem exists_rho {r : ℝ} (h0 : 0 ≤ r) (h4 : r ≤ 4) : ∃ ρ, 0 ≤ ρ ∧ ρ ≤ Real.pi ∧ chordOf ρ = r := by
  obtain ⟨a, b, c⟩ := chordOf_surj h0 h4
  exact ⟨_, a, b, c⟩

theorem empty_iff (c : Cap ℝ) : c.isEmpty = true ↔ c.radius < 0 := by unfold Cap.isEmpty; rw [decide_eq_true_eq]
theorem full_iff (c : Cap ℝ) : c.isFull = true ↔ c.radius = 4 := by unfold Cap.isFull ChordAngle.straight; rw [decide_eq_true_eq]

theorem not_inCap_empty {c : Cap ℝ} (h : c.radius < 0) (p : Vec ℝ) : ¬ InCap c p := by
  unfold InCap
  have := dot_self_nonneg (diff p c.center)
  linarith

theorem inCap_full {c : Cap ℝ} (hc : UnitV c.center) (h : c.radius = 4) {p : Vec ℝ} (hp : UnitV p) : InCap c p := by
  unfold InCap
  rw [dist2_ang hp hc, h]
  exact chordOf_range.2

/-- **C64.** `contains_point` and `interior_contains_point` decide membership. -/
theorem c64_containsPoint {c : Cap ℝ} {p : Vec ℝ} (hc : UnitV c.center) (hp : UnitV p) :
    (c.containsPoint _root_.id p = true ↔ InCap c p) ∧ (c.interiorContainsPoint _root_.id p = true ↔ InsideCap c p) := by
  have e : Vec.chordAngle _root_.id c.center p = dot (diff p c.center) (diff p c.center) := by
    rw [chordAngle_ang hc hp, dist2_ang hp hc, ang_comm]
  unfold Cap.containsPoint Cap.interiorContainsPoint InCap InsideCap
  rw [Bool.or_eq_true, full_iff, decide_eq_true_eq, decide_eq_true_eq, e]
  exact ⟨Iff.rfl, Iff.rfl⟩

/-- **C64.** `contains` is inclusion of sets of points. -/
theorem c64_contains {c d : Cap ℝ} (hc : UnitV c.center) (hd : UnitV d.center) (hc4 : c.radius ≤ 4) (hd4 : d.radius ≤ 4) :
    c.contains _root_.id Real.sqrt d = true ↔ ∀ p, UnitV p → InCap d p → InCap c p := by
  unfold Cap.contains
  by_cases hf : c.radius = 4
  · rw [(full_iff c).2 hf]
    exact ⟨fun _ p hp _ => inCap_full hc hf hp, fun _ => rfl⟩
  by_cases he : d.radius < 0
  · rw [(empty_iff d).2 he, Bool.or_true]
    exact ⟨fun _ p _ h => absurd h (not_inCap_empty he p), fun _ => rfl⟩
  have h1 : (c.isFull || d.isEmpty) = false := by
    rw [Bool.or_eq_false_iff, ← Bool.not_eq_true, ← Bool.not_eq_true, full_iff, empty_iff]
    exact ⟨hf, he⟩
  rw [h1]
  simp only [Bool.false_eq_true, if_false]
  rw [decide_eq_true_eq]
  obtain ⟨ρ, d0, d1, d2⟩ := exists_rho (not_lt.1 he) hd4
  have hδ0 := ang_nonneg c.center d.center
  have hδ1 := ang_le_pi c.center d.center
  rw [chordAngle_ang hc hd, ← d2, c63_add_exact hδ0 hδ1 d0 d1]
  have m0 : 0 ≤ min (ang c.center d.center + ρ) Real.pi := le_min (add_nonneg hδ0 d0) Real.pi_pos.le
  have memd : ∀ p, UnitV p → (InCap d p ↔ ang d.center p ≤ ρ) := fun p hp => by
    unfold InCap; rw [← d2]; exact (dist_le_chord hp hd d0 d1).1
  constructor
  · intro h p hp hin
    rw [memd p hp] at hin
    unfold InCap
    refine le_trans ?_ h
    rw [dist2_ang hp hc, ang_comm p]
    apply chordOf_mono (ang_nonneg _ _) (min_le_right _ _)
    exact le_min ((ang_triangle hc hd hp).trans (by linarith)) (ang_le_pi _ _)
  · intro h
    obtain ⟨p, hp, p1, p2⟩ := exists_point hc hd m0 (min_le_right _ _)
    have := h p hp ((memd p hp).2 (by
      rw [ang_comm, p2, abs_of_nonneg (sub_nonneg.2 (le_min (by linarith) hδ1))]
      linarith [min_le_left (ang c.center d.center + ρ) Real.pi]))
    unfold InCap at this
    rw [dist2_ang hp hc, ang_comm p, p1] at this
    exact this

/-- **C64.** `intersects` is overlap of sets of points, for a first cap that is neither empty nor full. -/
theorem c64_intersects {c d : Cap ℝ} (hc : UnitV c.center) (hd : UnitV d.center) (hc0 : 0 ≤ c.radius) (hc4 : c.radius < 4) (hd4 : d.radius ≤ 4) :
    c.intersects _root_.id Real.sqrt d = true ↔ ∃ p, UnitV p ∧ InCap c p ∧ InCap d p := by
  unfold Cap.intersects
  by_cases he : d.radius < 0
  · rw [(empty_iff d).2 he, Bool.or_true]
    simp only [if_true, Bool.false_eq_true, false_iff, not_exists, not_and]
    exact fun p _ _ h => not_inCap_empty he p h
  have h1 : (c.isFull || d.isEmpty) = false := by
    rw [Bool.or_eq_false_iff, ← Bool.not_eq_true, ← Bool.not_eq_true, full_iff, empty_iff]
    exact ⟨hc4.ne, he⟩
  rw [h1]
  simp only [Bool.false_eq_true, if_false]
  rw [decide_eq_true_eq]
  obtain ⟨ρ, d0, d1, d2⟩ := exists_rho (not_lt.1 he) hd4
  obtain ⟨σ, c0, c1, c2⟩ := exists_rho hc0 hc4.le
  have hδ0 := ang_nonneg c.center d.center
  have hδ1 := ang_le_pi c.center d.center
  rw [chordAngle_ang hc hd, ← d2, ← c2, c63_add_exact c0 c1 d0 d1]
  have m0 : 0 ≤ min (σ + ρ) Real.pi := le_min (add_nonneg c0 d0) Real.pi_pos.le
  rw [ge_iff_le, chordOf_le hδ0 hδ1 m0 (min_le_right _ _), le_min_iff, and_iff_left hδ1]
  have memd : ∀ p, UnitV p → (InCap d p ↔ ang d.center p ≤ ρ) := fun p hp => by
    unfold InCap; rw [← d2]; exact (dist_le_chord hp hd d0 d1).1
  have memc : ∀ p, UnitV p → (InCap c p ↔ ang c.center p ≤ σ) := fun p hp => by
    unfold InCap; rw [← c2]; exact (dist_le_chord hp hc c0 c1).1
  constructor
  · intro h
    obtain ⟨p, hp, p1, p2⟩ := exists_point hc hd (le_min c0 hδ0) ((min_le_left σ (ang c.center d.center)).trans c1)
    refine ⟨p, hp, (memc p hp).2 (by rw [p1]; exact min_le_left _ _), (memd p hp).2 ?_⟩
    rw [ang_comm, p2, abs_of_nonpos (sub_nonpos.2 (min_le_right _ _))]
    rcases min_choice σ (ang c.center d.center) with e | e <;> rw [e] <;> linarith
  · rintro ⟨p, hp, h1, h2⟩
    rw [memc p hp] at h1
    rw [memd p hp] at h2
    have := ang_triangle hc hp hd
    rw [ang_comm p d.center] at this
    linarith

/-- **C64.** `interior_intersects` is overlap of the interior of the first cap with the second, unless the centres are antipodal. -/
theorem c64_interiorIntersects {c d : Cap ℝ} (hc : UnitV c.center) (hd : UnitV d.center) (hc4 : c.radius ≤ 4) (hd4 : d.radius ≤ 4)
    (hanti : dot (diff c.center d.center) (diff c.center d.center) < 4) :
    c.interiorIntersects _root_.id Real.sqrt d = true ↔ ∃ p, UnitV p ∧ InsideCap c p ∧ InCap d p := by
  unfold Cap.interiorIntersects
  by_cases he : d.radius < 0
  · rw [(empty_iff d).2 he, Bool.or_true]
    simp only [if_true, Bool.false_eq_true, false_iff, not_exists, not_and]
    exact fun p _ _ h => not_inCap_empty he p h
  by_cases hc0 : c.radius ≤ 0
  · rw [decide_eq_true hc0, Bool.true_or]
    simp only [if_true, Bool.false_eq_true, false_iff, not_exists, not_and]
    intro p _ h
    rcases h with h | h
    · linarith
    · have := dot_self_nonneg (diff p c.center)
      linarith
  have h1 : (decide (c.radius ≤ 0) || d.isEmpty) = false := by
    rw [Bool.or_eq_false_iff, ← Bool.not_eq_true, ← Bool.not_eq_true, decide_eq_true_eq, empty_iff]
    exact ⟨hc0, he⟩
  rw [h1]
  simp only [Bool.false_eq_true, if_false]
  rw [decide_eq_true_eq]
  obtain ⟨ρ, d0, d1, d2⟩ := exists_rho (not_lt.1 he) hd4
  obtain ⟨σ, c0, c1, c2⟩ := exists_rho (not_le.1 hc0).le hc4
  have hδ0 := ang_nonneg c.center d.center
  have hδ1 := ang_le_pi c.center d.center
  rw [dist2_ang hc hd, ← chordOf_pi, ← not_le, chordOf_le Real.pi_pos.le le_rfl hδ0 hδ1, not_le] at hanti
  rw [chordAngle_ang hc hd, ← d2, ← c2, c63_add_exact c0 c1 d0 d1]
  have m0 : 0 ≤ min (σ + ρ) Real.pi := le_min (add_nonneg c0 d0) Real.pi_pos.le
  rw [gt_iff_lt, ← not_le, chordOf_le m0 (min_le_right _ _) hδ0 hδ1, not_le, lt_min_iff, and_iff_left hanti]
  have memd : ∀ p, UnitV p → (InCap d p ↔ ang d.center p ≤ ρ) := fun p hp => by
    unfold InCap; rw [← d2]; exact (dist_le_chord hp hd d0 d1).1
  have memc : ∀ p, UnitV p → (dot (diff p c.center) (diff p c.center) < c.radius ↔ ang c.center p < σ) := fun p hp => by
    rw [← c2]; exact (dist_le_chord hp hc c0 c1).2
  have cself : ang d.center d.center = 0 := ang_of_cos le_rfl Real.pi_pos.le (by rw [Real.cos_zero]; exact hd)
  have hσ : 0 < σ := by
    rcases c0.lt_or_eq with h | h
    · exact h
    · rw [← h, chordOf_zero] at c2
      exact absurd c2.symm.le hc0
  constructor
  · intro h
    by_cases hin : ang c.center d.center < σ
    · exact ⟨d.center, hd, Or.inr ((memc _ hd).2 hin), (memd _ hd).2 (by rw [cself]; exact d0)⟩
    · rw [not_lt] at hin
      have t1 : max 0 (ang c.center d.center - ρ) < σ := max_lt hσ (by linarith)
      have t2 : max 0 (ang c.center d.center - ρ) ≤ ang c.center d.center := max_le hδ0 (by linarith)
      obtain ⟨p, hp, p1, p2⟩ := exists_point hc hd (le_max_left 0 (ang c.center d.center - ρ)) (t2.trans hδ1)
      refine ⟨p, hp, Or.inr ((memc p hp).2 (by rw [p1]; exact t1)), (memd p hp).2 ?_⟩
      rw [ang_comm, p2, abs_of_nonpos (by linarith)]
      linarith [le_max_right 0 (ang c.center d.center - ρ)]
  · rintro ⟨p, hp, h1, h2⟩
    rw [memd p hp] at h2
    have := ang_triangle hc hp hd
    rw [ang_comm p d.center] at this
    rcases h1 with h1 | h1
    · rw [h1, ← chordOf_pi] at c2
      have : Real.pi ≤ σ := (chordOf_le Real.pi_pos.le le_rfl c0 c1).1 c2.ge
      linarith
    · rw [memc p hp] at h1
      linarith

theorem ang_neg {c p : Vec ℝ} : ang (c.scale _root_.id (-1)) p = Real.pi - ang c p := by
  unfold ang
  rw [← Real.arccos_neg]
  congr 1
  simp only [dot, Vec.scale, _root_.id]; ring

theorem unit_neg {c : Vec ℝ} (hc : UnitV c) : UnitV (c.scale _root_.id (-1)) := by
  refine Eq.trans ?_ hc
  simp only [dot, Vec.scale, _root_.id]; ring

/-- **C64.** `complement` is the complement of the interior. -/
theorem c64_complement {c : Cap ℝ} (hc : UnitV c.center) (hc4 : c.radius ≤ 4) :
    UnitV (c.complement _root_.id Real.sqrt).center ∧ (c.complement _root_.id Real.sqrt).radius ≤ 4 ∧
    ∀ p, UnitV p → (InCap (c.complement _root_.id Real.sqrt) p ↔ ¬ InsideCap c p) := by
  have ux : UnitV (⟨1, 0, 0⟩ : Vec ℝ) := by unfold UnitV dot; norm_num
  unfold Cap.complement
  by_cases hf : c.radius = 4
  · rw [(full_iff c).2 hf]
    refine ⟨ux, by simp [Cap.empty, ChordAngle.negative]; norm_num, fun p hp => ?_⟩
    simp only [if_true]
    exact ⟨fun h => absurd h (not_inCap_empty (by simp [Cap.empty, ChordAngle.negative]) p), fun h => absurd (Or.inl hf) h⟩
  have hf' : ¬ c.isFull = true := by rw [full_iff]; exact hf
  rw [if_neg hf']
  by_cases he : c.radius < 0
  · rw [(empty_iff c).2 he]
    refine ⟨ux, le_rfl, fun p hp => ?_⟩
    simp only [if_true]
    refine ⟨fun _ h => ?_, fun _ => inCap_full ux rfl hp⟩
    rcases h with h | h
    · exact hf h
    · have := dot_self_nonneg (diff p c.center)
      linarith
  have he' : ¬ c.isEmpty = true := by rw [empty_iff]; exact he
  rw [if_neg he']
  obtain ⟨σ, c0, c1, c2⟩ := exists_rho (not_lt.1 he) hc4
  have hr : ChordAngle.sub _root_.id Real.sqrt ChordAngle.straight c.radius = chordOf (Real.pi - σ) := by
    unfold ChordAngle.straight
    rw [← c2, ← chordOf_pi, c63_sub_exact Real.pi_pos.le le_rfl c0 c1, max_eq_left (by linarith)]
  refine ⟨unit_neg hc, by rw [hr]; exact chordOf_range.2, fun p hp => ?_⟩
  unfold InCap InsideCap
  rw [hr, (dist_le_chord hp (unit_neg hc) (by linarith) (by linarith)).1, ang_neg, ← c2, (dist_le_chord hp hc c0 c1).2, c2]
  constructor
  · rintro h (h' | h')
    · exact hf h'
    · linarith
  · intro h
    have := not_lt.1 (not_or.1 h).2
    linarith

/-- **C64.** The sum of two caps contains both (as sets of points). -/
theorem c64_addCap_exact {c d : Cap ℝ} (hc : UnitV c.center) (hd : UnitV d.center) (hc4 : c.radius ≤ 4) (hd4 : d.radius ≤ 4) {p : Vec ℝ} (hp : UnitV p) :
    (InCap c p → InCap (c.addCap _root_.id Real.sqrt d) p) ∧ (InCap d p → InCap (c.addCap _root_.id Real.sqrt d) p) := by
  obtain ⟨h1, h2, h3⟩ := c64_addCap (fl := _root_.id) (sqrt := Real.sqrt) monotone_id rfl rfl isSqrt_real (fun _ => rfl) rfl hc4 hd4 rfl rfl
  have hu : UnitV (c.addCap _root_.id Real.sqrt d).center ∧ (c.addCap _root_.id Real.sqrt d).radius ≤ 4 := by
    unfold Cap.addCap
    split_ifs
    · exact ⟨hd, hd4⟩
    · exact ⟨hc, hc4⟩
    · exact ⟨hc, max_le (max_le (by norm_num) (min_le_left _ _)) hc4⟩
  exact ⟨(c64_contains hu.1 hc hu.2 hc4).1 h1 p hp, (c64_contains hu.1 hd hu.2 hd4).1 h2 p hp⟩

/-- **C64.** `expanded` gives the points within the distance of the cap. -/
theorem c64_expanded {c : Cap ℝ} (hc : UnitV c.center) (hc4 : c.radius ≤ 4) {δ : ℝ} (hδ : 0 ≤ δ) {q : Vec ℝ} (hq : UnitV q) :
    InCap (c.expanded _root_.id Real.sqrt Real.sin Real.pi δ) q ↔ ∃ p, UnitV p ∧ InCap c p ∧ ang p q ≤ δ := by
  unfold Cap.expanded
  by_cases he : c.radius < 0
  · rw [(empty_iff c).2 he]
    simp only [if_true]
    exact ⟨fun h => absurd h (not_inCap_empty (by simp [Cap.empty, ChordAngle.negative]) q), fun ⟨p, _, h, _⟩ => absurd h (not_inCap_empty he p)⟩
  have he' : ¬ c.isEmpty = true := by rw [empty_iff]; exact he
  rw [if_neg he']
  obtain ⟨σ, c0, c1, c2⟩ := exists_rho (not_lt.1 he) hc4
  have e : ChordAngle.ofRad _root_.id Real.sin Real.pi δ = chordOf (min δ Real.pi) := by
    simp only [ChordAngle.ofRad, _root_.id, chordOf]; ring_nf
  have m0 : 0 ≤ min δ Real.pi := le_min hδ Real.pi_pos.le
  have memc : ∀ p, UnitV p → (InCap c p ↔ ang c.center p ≤ σ) := fun p hp => by
    unfold InCap; rw [← c2]; exact (dist_le_chord hp hc c0 c1).1
  have : InCap ⟨c.center, ChordAngle.add _root_.id Real.sqrt c.radius (ChordAngle.ofRad _root_.id Real.sin Real.pi δ)⟩ q ↔ ang c.center q ≤ σ + δ := by
    unfold InCap
    dsimp only
    rw [e, ← c2, c63_add_exact c0 c1 m0 (min_le_right _ _), (dist_le_chord hq hc (le_min (add_nonneg c0 m0) Real.pi_pos.le) (min_le_right _ _)).1, le_min_iff,
      and_iff_left (ang_le_pi _ _)]
    rcases le_total δ Real.pi with h | h
    · rw [min_eq_left h]
    · rw [min_eq_right h]
      have := ang_le_pi c.center q
      exact ⟨fun _ => by linarith, fun _ => by linarith⟩
  rw [this]
  have hθ0 := ang_nonneg c.center q
  constructor
  · intro h
    obtain ⟨p, hp, p1, p2⟩ := exists_point hc hq (le_min c0 hθ0) ((min_le_left σ (ang c.center q)).trans c1)
    refine ⟨p, hp, (memc p hp).2 (by rw [p1]; exact min_le_left _ _), ?_⟩
    rw [p2, abs_of_nonpos (sub_nonpos.2 (min_le_right _ _))]
    rcases min_choice σ (ang c.center q) with e | e <;> rw [e] <;> linarith
  · rintro ⟨p, hp, h1, h2⟩
    rw [memc p hp] at h1
    have := ang_triangle hc hp hq
    linarith

/-- The hypotheses hold of two overlapping caps of different size, neither full nor empty, whose centres are not antipodal. -/
example : UnitV (⟨1, 0, 0⟩ : Vec ℝ) ∧ UnitV (⟨3 / 5, 4 / 5, 0⟩ : Vec ℝ) ∧ (0 : ℝ) ≤ 1 ∧ (1 : ℝ) < 4 ∧
    dot (diff (⟨1, 0, 0⟩ : Vec ℝ) ⟨3 / 5, 4 / 5, 0⟩) (diff ⟨1, 0, 0⟩ ⟨3 / 5, 4 / 5, 0⟩) < 4 ∧
    InCap ⟨⟨1, 0, 0⟩, 1⟩ ⟨3 / 5, 4 / 5, 0⟩ ∧ ¬ InCap ⟨⟨1, 0, 0⟩, 1⟩ ⟨0, 1, 0⟩ := by
  norm_num [UnitV, dot, diff, InCap]

end Verif
