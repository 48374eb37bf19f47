import Verif.Proofs.RectBounder
import Verif.Properties.CellBound

/-!
# Bounding rectangle of a chain of edges

With exact arithmetic over the reals.
-/

namespace Verif
open Spec S2 CellID

theorem arg_smul {atan2 : ℝ → ℝ → ℝ} (h : IsArg atan2) {k : ℝ} (hk : 0 < k) (x y : ℝ) : atan2 (k * y) (k * x) = atan2 y x := by
  obtain ⟨r, t, r0, t0, t1, ex, ey, er⟩ := exists_polar x y
  rcases r0.eq_or_lt with e | e
  · rw [ex, ey, ← e]; simp
  · rw [ex, ey, ← mul_assoc, ← mul_assoc, h.1 _ _ (mul_pos hk e) t0 t1, h.1 _ _ e t0 t1]

theorem arg_mem {atan2 : ℝ → ℝ → ℝ} (h : IsArg atan2) (x y : ℝ) : -Real.pi < atan2 y x ∧ atan2 y x ≤ Real.pi := by
  obtain ⟨r, t, r0, t0, t1, ex, ey, er⟩ := exists_polar x y
  rcases r0.eq_or_lt with e | e
  · rw [ex, ey, ← e]; simp only [zero_mul]; rw [h.2]
    have := Real.pi_pos
    constructor <;> linarith
  · rw [ex, ey, h.1 _ _ e t0 t1]; exact ⟨t0, t1⟩

/-- Opposite directions. -/
theorem arg_opposite {atan2 : ℝ → ℝ → ℝ} (h : IsArg atan2) {k : ℝ} (hk : k < 0) {x y : ℝ} (hxy : ¬ (x = 0 ∧ y = 0)) :
    atan2 (k * y) (k * x) = atan2 y x - Real.pi ∨ atan2 (k * y) (k * x) = atan2 y x + Real.pi := by
  have hp := Real.pi_pos
  obtain ⟨r, t, r0, t0, t1, ex, ey, er⟩ := exists_polar x y
  rcases r0.eq_or_lt with e | e
  · exact absurd ⟨by rw [ex, ← e, zero_mul], by rw [ey, ← e, zero_mul]⟩ hxy
  · have e0 := h.1 _ _ e t0 t1
    rw [← ex, ← ey] at e0
    rw [e0]
    have hr : 0 < -k * r := mul_pos (by linarith) e
    rcases le_or_gt t 0 with ht | ht
    · right
      rw [← h.1 _ (t + Real.pi) hr (by linarith) (by linarith), Real.sin_add_pi, Real.cos_add_pi, ex, ey]
      congr 1 <;> ring
    · left
      rw [← h.1 _ (t - Real.pi) hr (by linarith) (by linarith), Real.sin_sub_pi, Real.cos_sub_pi, ex, ey]
      congr 1 <;> ring

theorem pair_len {α β : ℝ} (a0 : -Real.pi < α) (a1 : α ≤ Real.pi) (b0 : -Real.pi < β) (b1 : β ≤ Real.pi) (h : β = α - Real.pi ∨ β = α + Real.pi) :
    (S1.Interval.fromPointPair Real.pi _root_.id α β).len Real.pi _root_.id = Real.pi := by
  have hp := Real.pi_pos
  have ta : S1.Interval.toPi Real.pi α = α := if_neg a0.ne'
  have tb : S1.Interval.toPi Real.pi β = β := if_neg b0.ne'
  unfold S1.Interval.fromPointPair
  simp only [ta, tb]
  rw [if_pos]
  · unfold S1.Interval.len
    simp only [_root_.id]
    rcases h with h | h <;> rw [h]
    · rw [if_neg (by linarith), if_pos (by linarith)]; ring
    · rw [if_pos (by linarith)]; ring
  · unfold S1.positiveDistance
    simp only [_root_.id]
    rcases h with h | h <;> rw [h]
    · rw [if_neg (by linarith)]; linarith
    · rw [if_pos (by linarith)]; linarith

/-- The longitudes of the points of an edge. -/
theorem edge_lng {atan2 : ℝ → ℝ → ℝ} (h : IsArg atan2) {a b p : Vec ℝ} (hp : OnEdge a b p) :
    S1.Pts Real.pi (S1.Interval.fromPointPair Real.pi _root_.id (lngOf atan2 a) (lngOf atan2 b)) (lngOf atan2 p) ∨
    (p.x = 0 ∧ p.y = 0 ∧ (S1.Interval.fromPointPair Real.pi _root_.id (lngOf atan2 a) (lngOf atan2 b)).len Real.pi _root_.id = Real.pi) := by
  have hpi := Real.pi_pos
  obtain ⟨up, s, t, hs, ht, e⟩ := hp
  have ra : -Real.pi < lngOf atan2 a ∧ lngOf atan2 a ≤ Real.pi := arg_mem h a.x a.y
  have rb : -Real.pi < lngOf atan2 b ∧ lngOf atan2 b ≤ Real.pi := arg_mem h b.x b.y
  have rp : -Real.pi < lngOf atan2 p ∧ lngOf atan2 p ≤ Real.pi := arg_mem h p.x p.y
  obtain ⟨v, pa, pb⟩ := S1.c53_fromPointPair hpi ra.1.le ra.2 rb.1.le rb.2 _root_.id
  have ex : p.x = s * a.x + t * b.x := by rw [e]; rfl
  have ey : p.y = s * a.y + t * b.y := by rw [e]; rfl
  have like : ∀ (q : Vec ℝ) (k : ℝ), 0 < k → p.x = k * q.x → p.y = k * q.y → lngOf atan2 p = lngOf atan2 q := by
    intro q k hk e1 e2
    show atan2 p.y p.x = atan2 q.y q.x
    rw [e1, e2, arg_smul h hk]
  have st : 0 < s ∨ 0 < t := by
    by_contra hc
    push Not at hc
    have s0 : s = 0 := le_antisymm hc.1 hs
    have t0 : t = 0 := le_antisymm hc.2 ht
    rw [UnitV, e, s0, t0] at up
    simp [dot, lin] at up
  have mem : ∀ α β, -Real.pi < α → α ≤ Real.pi → -Real.pi < β → β ≤ Real.pi → S1.Mem Real.pi ⟨α, β⟩ (lngOf atan2 p) → S1.Pts Real.pi ⟨α, β⟩ (lngOf atan2 p) := by
    intro α β h1 h2 h3 h4 hm
    refine (S1.pts_of hpi ⟨h1.le, h2, h3.le, h4, ?_, ?_⟩ rp.1 rp.2).2 hm
    · intro hh; dsimp only at hh; linarith
    · intro hh; dsimp only at hh; linarith
  have hap : hdet a p = t * hdet a b := by unfold hdet; rw [ex, ey]; ring
  have hpb : hdet p b = s * hdet a b := by unfold hdet; rw [ex, ey]; ring
  have nz : hdet a b ≠ 0 → ¬ (p.x = 0 ∧ p.y = 0) := by
    rintro hd ⟨h1, h2⟩
    have q1 : t * hdet a b = 0 := by rw [← hap]; unfold hdet; rw [h1, h2]; ring
    have q2 : s * hdet a b = 0 := by rw [← hpb]; unfold hdet; rw [h1, h2]; ring
    rcases st with h' | h'
    · exact (mul_ne_zero h'.ne' hd) q2
    · exact (mul_ne_zero h'.ne' hd) q1
  rcases lt_trichotomy (hdet a b) 0 with hd | hd | hd
  · left
    have anti : ∀ u w : Vec ℝ, hdet u w = -hdet w u := by intro u w; unfold hdet; ring
    obtain ⟨k1, k2⟩ := lng_mem h (a := b) (b := a) (p := p) (by rw [anti]; linarith) (by rw [anti, hpb]; nlinarith) (by rw [anti, hap]; nlinarith) (nz hd.ne)
    rw [(addPoint_pair rb.1 rb.2 ra.1 ra.2 k2).2.2]
    exact mem _ _ rb.1 rb.2 ra.1 ra.2 k1
  · by_cases ha : a.x = 0 ∧ a.y = 0
    · left
      rw [ha.1, mul_zero, zero_add] at ex
      rw [ha.2, mul_zero, zero_add] at ey
      rcases ht.eq_or_lt with t0 | t0
      · have : lngOf atan2 p = lngOf atan2 a := by
          show atan2 p.y p.x = atan2 a.y a.x
          rw [ex, ey, ← t0, ha.1, ha.2, zero_mul, zero_mul]
        rw [this]; exact pa
      · rw [like b t t0 ex ey]; exact pb
    · -- the ends are in one plane with the axis
      have hk : ∃ k, b.x = k * a.x ∧ b.y = k * a.y := by
        unfold hdet at hd
        by_cases hx : a.x = 0
        · have hy : a.y ≠ 0 := fun hy => ha ⟨hx, hy⟩
          refine ⟨b.y / a.y, ?_, by field_simp⟩
          rw [hx] at hd ⊢
          have : a.y * b.x = 0 := by linarith
          rw [mul_zero]; exact (mul_eq_zero.1 this).resolve_left hy
        · refine ⟨b.x / a.x, by field_simp, ?_⟩
          field_simp
          linarith
      obtain ⟨k, kx, ky⟩ := hk
      have ex' : p.x = (s + t * k) * a.x := by rw [ex, kx]; ring
      have ey' : p.y = (s + t * k) * a.y := by rw [ey, ky]; ring
      rcases lt_trichotomy (s + t * k) 0 with c | c | c
      · left
        have k0 : k < 0 := by by_contra hk; push Not at hk; have := mul_nonneg ht hk; linarith
        rw [like b ((s + t * k) / k) (div_pos_of_neg_of_neg c k0) (by rw [kx, ex', ← mul_assoc, div_mul_cancel₀ _ k0.ne]) (by rw [ky, ey', ← mul_assoc, div_mul_cancel₀ _ k0.ne])]
        exact pb
      · rw [c, zero_mul] at ex' ey'
        rcases hs.eq_or_lt with s0 | s0
        · -- the edge is its second end, which is a pole
          have t0 : 0 < t := st.resolve_left (by rw [← s0]; exact lt_irrefl _)
          have k0 : k = 0 := by
            rw [← s0, zero_add] at c
            exact (mul_eq_zero.1 c).resolve_left t0.ne'
          left
          have : lngOf atan2 p = lngOf atan2 b := by
            show atan2 p.y p.x = atan2 b.y b.x
            rw [ex', ey', kx, ky, k0, zero_mul, zero_mul]
          rw [this]; exact pb
        · right
          have k0 : k < 0 := by by_contra hk; push Not at hk; have := mul_nonneg ht hk; linarith
          refine ⟨ex', ey', ?_⟩
          apply pair_len ra.1 ra.2 rb.1 rb.2
          have := arg_opposite h k0 (x := a.x) (y := a.y) ha
          rw [← kx, ← ky] at this
          exact this
      · left
        rw [like a (s + t * k) c ex' ey']; exact pa
  · left
    obtain ⟨k1, k2⟩ := lng_mem h (a := a) (b := b) (p := p) hd (by rw [hap]; positivity) (by rw [hpb]; positivity) (nz hd.ne')
    rw [(addPoint_pair ra.1 ra.2 rb.1 rb.2 k2).2.1]
    exact mem _ _ ra.1 ra.2 rb.1 rb.2 k1

theorem full_pts {l : ℝ} (h1 : -Real.pi ≤ l) (h2 : l ≤ Real.pi) : S1.Pts Real.pi (S1.Interval.full Real.pi) l ∧ (S1.Interval.full Real.pi).isValid Real.pi = true := by
  have hp := Real.pi_pos
  have hv : (S1.Interval.full Real.pi).isValid Real.pi = true := by
    rw [S1.isValid_iff]
    refine ⟨?_, ?_, ?_, ?_, ?_, ?_⟩ <;> simp only [S1.Interval.full] <;> first | linarith | (intro _; linarith) | (intro _; trivial)
  exact ⟨(S1.c50_isEmpty_isFull hp hv).2.1 (by simp [S1.Interval.full, S1.Interval.isFull]) l h1 h2, hv⟩

/-- `edgeLng` contains the longitudes of the points of the edge. -/
theorem edgeLng_bounds {atan2 : ℝ → ℝ → ℝ} (h : IsArg atan2) {a b : Vec ℝ} {eps : ℝ} (he : 0 ≤ eps) :
    (RectBounder.edgeLng Real.pi _root_.id eps (LatLng.ofPoint _root_.id Real.sqrt atan2 a) (LatLng.ofPoint _root_.id Real.sqrt atan2 b)).isValid Real.pi = true ∧
    ∀ p, OnEdge a b p → S1.Pts Real.pi (RectBounder.edgeLng Real.pi _root_.id eps (LatLng.ofPoint _root_.id Real.sqrt atan2 a)
      (LatLng.ofPoint _root_.id Real.sqrt atan2 b)) (lngOf atan2 p) := by
  have hpi := Real.pi_pos
  have ra : -Real.pi < lngOf atan2 a ∧ lngOf atan2 a ≤ Real.pi := arg_mem h a.x a.y
  have rb : -Real.pi < lngOf atan2 b ∧ lngOf atan2 b ≤ Real.pi := arg_mem h b.x b.y
  obtain ⟨v, pa, pb⟩ := S1.c53_fromPointPair hpi ra.1.le ra.2 rb.1.le rb.2 _root_.id
  have e : RectBounder.edgeLng Real.pi _root_.id eps (LatLng.ofPoint _root_.id Real.sqrt atan2 a) (LatLng.ofPoint _root_.id Real.sqrt atan2 b) =
      if (S1.Interval.fromPointPair Real.pi _root_.id (lngOf atan2 a) (lngOf atan2 b)).len Real.pi _root_.id ≥ Real.pi - 2 * eps then S1.Interval.full Real.pi
      else S1.Interval.fromPointPair Real.pi _root_.id (lngOf atan2 a) (lngOf atan2 b) := rfl
  rw [e]
  split_ifs with hc
  · exact ⟨(full_pts ra.1.le ra.2).2, fun p hp => (full_pts (arg_mem h p.x p.y).1.le (arg_mem h p.x p.y).2).1⟩
  · refine ⟨v, fun p hp => ?_⟩
    rcases edge_lng h hp with k | ⟨_, _, k⟩
    · exact k
    · rw [k] at hc; exact absurd (by linarith) hc

namespace Spec

/-- Consecutive elements of a list. -/
def Consec {T : Type} (l : List T) (a b : T) : Prop := ∃ s t, l = s ++ a :: b :: t

/-- A point of the chain of edges through the points of a list. -/
def OnChain (l : List (Vec ℝ)) (p : Vec ℝ) : Prop := p ∈ l ∨ ∃ a b, Consec l a b ∧ OnEdge a b p

end Spec

/-- The bounder after adding the points of a list, in exact arithmetic. -/
noncomputable def bounder (atan2 : ℝ → ℝ → ℝ) (eps : ℝ) (mg : Margins ℝ) (l : List (Vec ℝ)) : RectBounder ℝ :=
  l.foldl (RectBounder.addPoint Real.pi _root_.id Real.sqrt Real.sin Real.arcsin atan2 eps mg) (RectBounder.new Real.pi)

/-- What is known of an edge before the margin of `get_bound` is added. -/
def EdgeCov (atan2 : ℝ → ℝ → ℝ) (eps : ℝ) (B : S2.Rect ℝ) (a b : Vec ℝ) : Prop :=
  ∀ p, OnEdge a b p → ∃ φ, R1.Pts B.lat φ ∧ |latOf atan2 p - φ| ≤ 2 * eps ∧ (S1.Pts Real.pi B.lng (lngOf atan2 p) ∨ (p.x = 0 ∧ p.y = 0 ∧ ∃ l, S1.Pts Real.pi B.lng l))

theorem edgeCov_mono {atan2 : ℝ → ℝ → ℝ} {eps : ℝ} {B B' : S2.Rect ℝ} {a b : Vec ℝ} (h : ∀ φ l, RPts Real.pi B φ l → RPts Real.pi B' φ l)
    (hc : EdgeCov atan2 eps B a b) : EdgeCov atan2 eps B' a b := by
  intro p hp
  obtain ⟨φ, h1, h2, h3⟩ := hc p hp
  rcases h3 with h3 | ⟨hx, hy, l, hl⟩
  · exact ⟨φ, (h _ _ ⟨h1, h3⟩).1, h2, Or.inl (h _ _ ⟨h1, h3⟩).2⟩
  · exact ⟨φ, (h _ _ ⟨h1, hl⟩).1, h2, Or.inr ⟨hx, hy, l, (h _ _ ⟨h1, hl⟩).2⟩⟩

theorem ll_valid {atan2 : ℝ → ℝ → ℝ} (h : IsArg atan2) {v : Vec ℝ} (hv : UnitV v) : (LatLng.ofPoint _root_.id Real.sqrt atan2 v).isValid Real.pi = true := by
  have k := isLL_of h (unit_ne hv)
  unfold LatLng.isValid
  rw [Bool.and_eq_true, decide_eq_true_eq, decide_eq_true_eq]
  exact ⟨abs_le.2 ⟨k.1, k.2.1⟩, abs_le.2 ⟨k.2.2.1, k.2.2.2⟩⟩

theorem normal_eq (a b : Vec ℝ) : RectBounder.normal _root_.id a b = smul 2 (cross a b) := by
  unfold RectBounder.normal
  refine vec_ext' ?_ ?_ ?_ <;> simp only [Vec.cross, Vec.sub, Vec.add, _root_.id, cross, smul] <;> ring

/-- An edge that is not short. -/
theorem edge_long {atan2 : ℝ → ℝ → ℝ} (h : IsArg atan2) {a b : Vec ℝ} (ha : UnitV a) (hb : UnitV b) (hab : ¬ IsZero (cross a b)) {eps : ℝ} (he : 0 ≤ eps)
    {mg : Margins ℝ} (m1 : 0 ≤ mg.rel) (m2 : 0 ≤ mg.abs) {E : S2.Rect ℝ}
    (hE : E = ⟨RectBounder.edgeLat Real.pi _root_.id Real.sqrt Real.sin Real.arcsin atan2 eps mg (RectBounder.normal _root_.id a b) a b
      (LatLng.ofPoint _root_.id Real.sqrt atan2 a) (LatLng.ofPoint _root_.id Real.sqrt atan2 b),
      RectBounder.edgeLng Real.pi _root_.id eps (LatLng.ofPoint _root_.id Real.sqrt atan2 a) (LatLng.ofPoint _root_.id Real.sqrt atan2 b)⟩) :
    E.isValid Real.pi = true ∧ ∀ p, OnEdge a b p → RPts Real.pi E (latOf atan2 p) (lngOf atan2 p) := by
  obtain ⟨b1, b2, b3, _⟩ := edgeLat_bounds h ha hb hab he m1 m2 (I := E.lat) (by rw [hE])
  obtain ⟨v, pts⟩ := edgeLng_bounds h (a := a) (b := b) he
  have ev : E.lng = RectBounder.edgeLng Real.pi _root_.id eps (LatLng.ofPoint _root_.id Real.sqrt atan2 a) (LatLng.ofPoint _root_.id Real.sqrt atan2 b) := by rw [hE]
  rw [← ev] at v pts
  have k := b3 a (onEdge_left ha)
  have kl := isLL_of h (unit_ne ha)
  refine ⟨isValid_iff.2 (rok_of Real.pi_pos b1 (k.1.trans kl.2.1) b2 v ⟨fun _ => ⟨_, pts a (onEdge_left ha)⟩, fun _ => ⟨latOf atan2 a, k⟩⟩), fun p hp => ⟨b3 p hp, pts p hp⟩⟩

theorem edge_zero {a b : Vec ℝ} (ha : UnitV a) (hb : UnitV b) (h0 : IsZero (cross a b)) (hd : 0 ≤ dot a b) : b = a := by
  obtain ⟨h1, h2, h3⟩ := h0
  simp only [cross] at h1 h2 h3
  have hd1 : dot a b = 1 := by
    have : dot a b ^ 2 = 1 := by
      simp only [UnitV, dot] at ha hb ⊢
      linear_combination (b.x * b.x + b.y * b.y + b.z * b.z) * ha + hb - (a.y * b.z - a.z * b.y) * h1 - (a.z * b.x - a.x * b.z) * h2 - (a.x * b.y - a.y * b.x) * h3
    nlinarith
  have : (a.x - b.x) ^ 2 + (a.y - b.y) ^ 2 + (a.z - b.z) ^ 2 = 0 := by
    simp only [UnitV, dot] at ha hb hd1
    linear_combination ha + hb - 2 * hd1
  have q1 := sq_nonneg (a.x - b.x)
  have q2 := sq_nonneg (a.y - b.y)
  have q3 := sq_nonneg (a.z - b.z)
  have r1 : a.x - b.x = 0 := pow_eq_zero_iff two_ne_zero |>.1 (by linarith)
  have r2 : a.y - b.y = 0 := pow_eq_zero_iff two_ne_zero |>.1 (by linarith)
  have r3 : a.z - b.z = 0 := pow_eq_zero_iff two_ne_zero |>.1 (by linarith)
  exact vec_ext' (by linarith) (by linarith) (by linarith)

/-- An edge that is short. -/
theorem edge_short {atan2 : ℝ → ℝ → ℝ} (h : IsArg atan2) {a b : Vec ℝ} (ha : UnitV a) (hb : UnitV b) (hd : 0 ≤ dot a b) {eps : ℝ} (he : 0 ≤ eps)
    (hs : ¬ IsZero (cross a b) → ang a b ≤ 4 * eps) {E : S2.Rect ℝ}
    (hE : E = Rect.fromPointPair Real.pi _root_.id (LatLng.ofPoint _root_.id Real.sqrt atan2 a) (LatLng.ofPoint _root_.id Real.sqrt atan2 b)) :
    E.isValid Real.pi = true ∧ RPts Real.pi E (latOf atan2 a) (lngOf atan2 a) ∧ RPts Real.pi E (latOf atan2 b) (lngOf atan2 b) ∧ EdgeCov atan2 eps E a b := by
  have hp := Real.pi_pos
  have va := ll_valid h ha
  have vb := ll_valid h hb
  obtain ⟨v, c1, c2, _⟩ := c57_fromPointPair hp va vb _root_.id
  rw [← hE] at v c1 c2
  rw [c56_containsLatLng hp v] at c1 c2
  refine ⟨v, c1, c2, ?_⟩
  by_cases h0 : IsZero (cross a b)
  · have e := edge_zero ha hb h0 hd
    intro p hpe
    obtain ⟨up, s, t, hs', ht', e'⟩ := hpe
    have ep : p = smul (s + t) a := by
      rw [e', e]; refine vec_ext' ?_ ?_ ?_ <;> simp only [lin, smul] <;> ring
    have hst : s + t = 1 := by
      rw [UnitV, ep] at up
      simp only [UnitV, dot, smul] at up ha
      have : (s + t) ^ 2 = 1 := by linear_combination up - (s + t) ^ 2 * ha
      nlinarith
    have ep : p = a := by rw [ep, hst]; refine vec_ext' ?_ ?_ ?_ <;> simp [smul]
    rw [ep]
    exact ⟨latOf atan2 a, c1.1, by rw [sub_self, abs_zero]; linarith, Or.inl c1.2⟩
  · have hs := hs h0
    obtain ⟨x, y, α, β, ux, uy, xy, yz, x0, h2, h3, ea, eb, hpar⟩ := edge_param ha hb h0
    obtain ⟨x1, la, lb, _, _, _, _, _⟩ := edge_values h ux uy xy yz x0 h2 h3 ea eb
    have hang : ang a b = β - α := by
      refine ang_of_cos (by linarith) (by linarith) ?_
      rw [ea, eb, Real.cos_sub]
      simp only [UnitV, dot, lin] at ux uy xy ⊢
      linear_combination Real.cos α * Real.cos β * ux + Real.sin α * Real.sin β * uy + (Real.cos α * Real.sin β + Real.sin α * Real.cos β) * xy
    rw [hang] at hs
    intro p hpe
    obtain ⟨θ, k1, k2, et⟩ := (hpar p).1 hpe
    have lp : latOf atan2 p = Real.arcsin (x.z * Real.cos θ) := by
      rw [latOf_unit h hpe.1, et]
      simp only [lin, yz]
      congr 1; ring
    have lng : S1.Pts Real.pi E.lng (lngOf atan2 p) ∨ (p.x = 0 ∧ p.y = 0 ∧ ∃ l, S1.Pts Real.pi E.lng l) := by
      rcases edge_lng h hpe with k | ⟨k, k', _⟩
      · left; rw [hE]; exact k
      · exact Or.inr ⟨k, k', _, c1.2⟩
    -- the change of latitude
    have bud : Real.arcsin (x.z * Real.sin ((β - α) / 2)) ≤ (β - α) / 2 := by
      have s0 : 0 ≤ Real.sin ((β - α) / 2) := Real.sin_nonneg_of_nonneg_of_le_pi (by linarith) (by linarith)
      refine (Real.monotone_arcsin (show x.z * Real.sin ((β - α) / 2) ≤ Real.sin ((β - α) / 2) by nlinarith)).trans ?_
      rw [Real.arcsin_sin (by linarith) (by linarith)]
    have ca : R1.Pts E.lat (Real.arcsin (x.z * Real.cos α)) := by rw [← la]; exact c1.1
    have cb : R1.Pts E.lat (Real.arcsin (x.z * Real.cos β)) := by rw [← lb]; exact c2.1
    have up := peak_cases x0 x1 h3 k1 k2
    have dn := peak_cases x0 x1 (α := α + Real.pi) (β := β + Real.pi) (θ := θ + Real.pi) (by linarith) (by linarith) (by linarith)
    rw [arcsin_turn, arcsin_turn, arcsin_turn, max_neg_neg, Real.sin_add_pi, Real.sin_add_pi, show β + Real.pi - (α + Real.pi) = β - α by ring] at dn
    rw [lp]
    generalize Real.arcsin (x.z * Real.cos α) = u at *
    generalize Real.arcsin (x.z * Real.cos β) = w at *
    generalize Real.arcsin (x.z * Real.cos θ) = q at *
    have i1 := ca.1
    have i2 := ca.2
    have i3 := cb.1
    have i4 := cb.2
    have mx1 := le_max_left u w
    have mx2 := le_max_right u w
    have mn1 := min_le_left u w
    have mn2 := min_le_right u w
    have cmax : R1.Pts E.lat (max u w) := ⟨i1.trans mx1, max_le i2 i4⟩
    have cmin : R1.Pts E.lat (min u w) := ⟨le_min i1 i3, mn1.trans i2⟩
    rcases le_or_gt q (max u w) with q1 | q1
    · rcases le_or_gt (min u w) q with q2 | q2
      · exact ⟨q, ⟨cmin.1.trans q2, q1.trans cmax.2⟩, by rw [sub_self, abs_zero]; linarith, lng⟩
      · rcases dn with d | ⟨_, _, _, d⟩
        · linarith
        · refine ⟨min u w, cmin, ?_, lng⟩
          rw [abs_of_neg (by linarith)]
          linarith
    · rcases up with d | ⟨_, _, _, d⟩
      · linarith
      · refine ⟨max u w, cmax, ?_, lng⟩
        rw [abs_of_pos (by linarith)]
        linarith

theorem full_rpts {φ l : ℝ} (h1 : -(Real.pi / 2) ≤ φ) (h2 : φ ≤ Real.pi / 2) (h3 : -Real.pi ≤ l) (h4 : l ≤ Real.pi) : RPts Real.pi (Rect.full Real.pi) φ l := by
  refine ⟨⟨?_, h2⟩, (full_pts h3 h4).1⟩
  show -Real.pi / 2 ≤ φ
  linarith

theorem rpts_full {B : S2.Rect ℝ} (hB : B.isValid Real.pi = true) {φ l : ℝ} (h : RPts Real.pi B φ l) : RPts Real.pi (Rect.full Real.pi) φ l := by
  have k := isValid_iff.1 hB
  exact full_rpts (by have := k.lo1; have := h.1.1; linarith) (h.1.2.trans k.hi2) h.2.1 h.2.2.1

theorem one_le_half_pi : (1 : ℝ) ≤ Real.pi / 2 := by have := Real.pi_gt_three; linarith

/-- The norm of the computed normal. -/
theorem normal_norm {a b : Vec ℝ} (ha : UnitV a) (hb : UnitV b) : (RectBounder.normal _root_.id a b).norm _root_.id Real.sqrt = 2 * Real.sin (ang a b) := by
  have nn : (RectBounder.normal _root_.id a b).norm _root_.id Real.sqrt = 2 * Real.sqrt (dot (cross a b) (cross a b)) := by
    rw [normal_eq]
    have e : (smul 2 (cross a b)).norm _root_.id Real.sqrt = Real.sqrt (dot (smul 2 (cross a b)) (smul 2 (cross a b))) := rfl
    have e2 : dot (smul 2 (cross a b)) (smul 2 (cross a b)) = 2 ^ 2 * dot (cross a b) (cross a b) := by simp only [dot, smul]; ring
    rw [e, e2, Real.sqrt_mul (by norm_num), Real.sqrt_sq (by norm_num)]
  have ns : Real.sqrt (dot (cross a b) (cross a b)) = Real.sin (ang a b) := by
    have e2 : dot (cross a b) (cross a b) = Real.sin (ang a b) ^ 2 := by
      have k := cos_ang ha hb
      have q := Real.sin_sq_add_cos_sq (ang a b)
      rw [k] at q
      simp only [UnitV, dot, cross] at ha hb q ⊢
      linear_combination (b.x * b.x + b.y * b.y + b.z * b.z) * ha + hb - q
    rw [e2, Real.sqrt_sq (Real.sin_nonneg_of_nonneg_of_le_pi (ang_nonneg _ _) (ang_le_pi _ _))]
  rw [nn, ns]

/-- The step of `add_point` along an edge. -/
theorem step_edge {atan2 : ℝ → ℝ → ℝ} (h : IsArg atan2) {eps : ℝ} (he : 0 ≤ eps) {mg : Margins ℝ} (m0 : 0 < mg.short) (m1 : 0 ≤ mg.rel) (m2 : 0 ≤ mg.abs)
    {a b : Vec ℝ} (ha : UnitV a) (hb : UnitV b) (hs : 4 * eps < ang a b → 0 ≤ dot a b → mg.short ≤ 2 * Real.sin (ang a b)) {r r' : RectBounder ℝ}
    (hr : r.a = some (a, LatLng.ofPoint _root_.id Real.sqrt atan2 a)) (hv : r.bound.isValid Real.pi = true)
    (e : r' = RectBounder.addPoint Real.pi _root_.id Real.sqrt Real.sin Real.arcsin atan2 eps mg r b) :
    r'.a = some (b, LatLng.ofPoint _root_.id Real.sqrt atan2 b) ∧ r'.bound.isValid Real.pi = true ∧
    (∀ φ l, RPts Real.pi r.bound φ l → RPts Real.pi r'.bound φ l) ∧ RPts Real.pi r'.bound (latOf atan2 b) (lngOf atan2 b) ∧ EdgeCov atan2 eps r'.bound a b := by
  have hp := Real.pi_pos
  have nn : (RectBounder.normal _root_.id a b).norm _root_.id Real.sqrt = 2 * Real.sqrt (dot (cross a b) (cross a b)) := by
    rw [normal_eq]
    have e : (smul 2 (cross a b)).norm _root_.id Real.sqrt = Real.sqrt (dot (smul 2 (cross a b)) (smul 2 (cross a b))) := rfl
    have e2 : dot (smul 2 (cross a b)) (smul 2 (cross a b)) = 2 ^ 2 * dot (cross a b) (cross a b) := by simp only [dot, smul]; ring
    rw [e, e2, Real.sqrt_mul (by norm_num), Real.sqrt_sq (by norm_num)]
  have ns : Real.sqrt (dot (cross a b) (cross a b)) = Real.sin (ang a b) := by
    have e2 : dot (cross a b) (cross a b) = Real.sin (ang a b) ^ 2 := by
      have k := cos_ang ha hb
      have q := Real.sin_sq_add_cos_sq (ang a b)
      rw [k] at q
      simp only [UnitV, dot, cross] at ha hb q ⊢
      linear_combination (b.x * b.x + b.y * b.y + b.z * b.z) * ha + hb - q
    rw [e2, Real.sqrt_sq (Real.sin_nonneg_of_nonneg_of_le_pi (ang_nonneg _ _) (ang_le_pi _ _))]
  have dd : Vec.dot _root_.id a b = dot a b := rfl
  unfold RectBounder.addPoint at e
  rw [hr] at e
  dsimp only at e
  rw [nn, ns, dd] at e
  split_ifs at e with c1 c2
  · have kb := isLL_of h (unit_ne hb)
    refine ⟨by rw [e], ?_, ?_, ?_, ?_⟩
    · rw [e]; exact (c56_empty_full hp one_le_half_pi).2.2.1
    · intro φ l hl; rw [e]; exact rpts_full hv hl
    · rw [e]; exact full_rpts kb.1 kb.2.1 kb.2.2.1 kb.2.2.2
    · intro p hpe
      have kp := isLL_of h (unit_ne hpe.1)
      have := full_rpts kp.1 kp.2.1 kp.2.2.1 kp.2.2.2
      rw [e]
      exact ⟨latOf atan2 p, this.1, by rw [sub_self, abs_zero]; linarith, Or.inl this.2⟩
  · have hd : 0 ≤ dot a b := not_lt.1 c2
    obtain ⟨v, _, k2, k3⟩ := edge_short h ha hb hd he (fun _ => not_lt.1 fun c => absurd (hs c hd) (not_le.2 c1)) rfl
    obtain ⟨u1, u2⟩ := c56_union hp hv v _root_.id
    rw [e]
    exact ⟨rfl, u1, fun φ l hl => u2 φ l (Or.inl hl), u2 _ _ (Or.inr k2), edgeCov_mono (fun φ l hl => u2 φ l (Or.inr hl)) k3⟩
  · have hab : ¬ IsZero (cross a b) := by
      rintro ⟨z1, z2, z3⟩
      have : dot (cross a b) (cross a b) = 0 := by simp only [dot, z1, z2, z3]; ring
      rw [this, Real.sqrt_zero] at ns
      rw [← ns] at c1
      exact c1 (by linarith)
    obtain ⟨v, k⟩ := edge_long h ha hb hab he m1 m2 rfl
    obtain ⟨u1, u2⟩ := c56_union hp hv v _root_.id
    rw [e]
    exact ⟨rfl, u1, fun φ l hl => u2 φ l (Or.inl hl), u2 _ _ (Or.inr (k b (onEdge_right hb))), fun p hpe =>
      ⟨latOf atan2 p, (u2 _ _ (Or.inr (k p hpe))).1, by rw [sub_self, abs_zero]; linarith, Or.inl (u2 _ _ (Or.inr (k p hpe))).2⟩⟩

theorem consec_snoc {T : Type} {l : List T} {b x y : T} (h : Consec (l ++ [b]) x y) : Consec l x y ∨ (l.getLast? = some x ∧ y = b) := by
  obtain ⟨s, t, e⟩ := h
  rcases List.eq_nil_or_concat t with rfl | ⟨t', c, rfl⟩
  · right
    have e' : l ++ [b] = (s ++ [x]) ++ [y] := by rw [e]; simp
    obtain ⟨e1, e2⟩ := List.append_inj' e' rfl
    exact ⟨by rw [e1]; simp, by simpa using e2.symm⟩
  · left
    have e' : l ++ [b] = (s ++ x :: y :: t') ++ [c] := by rw [e]; simp
    exact ⟨s, t', (List.append_inj' e' rfl).1⟩

theorem consec_append {T : Type} {l m : List T} {x y : T} (h : Consec l x y) : Consec (l ++ m) x y := by
  obtain ⟨s, t, rfl⟩ := h
  exact ⟨s, t ++ m, by simp⟩

theorem consec_last {T : Type} {l : List T} {x b : T} (h : l.getLast? = some x) : Consec (l ++ [b]) x b := by
  rcases List.eq_nil_or_concat l with rfl | ⟨t', c, rfl⟩
  · simp at h
  · have : c = x := by simpa using h
    subst this
    exact ⟨t', [], by simp⟩

theorem consec_mem {T : Type} {l : List T} {x y : T} (h : Consec l x y) : x ∈ l ∧ y ∈ l := by
  obtain ⟨s, t, rfl⟩ := h
  simp

/-- The bounder after the points of a list. -/
theorem chain_inv {atan2 : ℝ → ℝ → ℝ} (h : IsArg atan2) {eps : ℝ} (he : 0 ≤ eps) {mg : Margins ℝ} (m0 : 0 < mg.short) (m1 : 0 ≤ mg.rel) (m2 : 0 ≤ mg.abs)
    (l : List (Vec ℝ)) (hu : ∀ v ∈ l, UnitV v) (hs : ∀ a b, Consec l a b → 4 * eps < ang a b → 0 ≤ dot a b → mg.short ≤ 2 * Real.sin (ang a b)) :
    (bounder atan2 eps mg l).a = l.getLast?.map (fun v => (v, LatLng.ofPoint _root_.id Real.sqrt atan2 v)) ∧
    (bounder atan2 eps mg l).bound.isValid Real.pi = true ∧ (∀ v ∈ l, RPts Real.pi (bounder atan2 eps mg l).bound (latOf atan2 v) (lngOf atan2 v)) ∧
    ∀ a b, Consec l a b → EdgeCov atan2 eps (bounder atan2 eps mg l).bound a b := by
  have hp := Real.pi_pos
  induction l using List.reverseRecOn with
  | nil =>
    refine ⟨rfl, (c56_empty_full hp one_le_half_pi).1, by simp, ?_⟩
    rintro a b ⟨s, t, e⟩
    simp at e
  | append_singleton l b ih =>
    obtain ⟨i1, i2, i3, i4⟩ := ih (fun v hv => hu v (by simp [hv])) (fun a b hc => hs a b (consec_append hc))
    have hb : UnitV b := hu b (by simp)
    have e : bounder atan2 eps mg (l ++ [b]) = RectBounder.addPoint Real.pi _root_.id Real.sqrt Real.sin Real.arcsin atan2 eps mg (bounder atan2 eps mg l) b := by
      unfold bounder; rw [List.foldl_append]; rfl
    have main : (bounder atan2 eps mg (l ++ [b])).a = some (b, LatLng.ofPoint _root_.id Real.sqrt atan2 b) ∧ (bounder atan2 eps mg (l ++ [b])).bound.isValid Real.pi = true ∧
        (∀ φ z, RPts Real.pi (bounder atan2 eps mg l).bound φ z → RPts Real.pi (bounder atan2 eps mg (l ++ [b])).bound φ z) ∧
        RPts Real.pi (bounder atan2 eps mg (l ++ [b])).bound (latOf atan2 b) (lngOf atan2 b) ∧
        ∀ a, l.getLast? = some a → EdgeCov atan2 eps (bounder atan2 eps mg (l ++ [b])).bound a b := by
      cases hl : l.getLast? with
      | none =>
        rw [hl] at i1
        have e2 : bounder atan2 eps mg (l ++ [b]) = ⟨some (b, LatLng.ofPoint _root_.id Real.sqrt atan2 b),
            (bounder atan2 eps mg l).bound.add Real.pi _root_.id (LatLng.ofPoint _root_.id Real.sqrt atan2 b)⟩ := by
          rw [e]; unfold RectBounder.addPoint; rw [i1]; rfl
        obtain ⟨k1, k2, k3, _⟩ := c57_add hp i2 (LatLng.ofPoint _root_.id Real.sqrt atan2 b) _root_.id
        rw [e2]
        exact ⟨rfl, k1, k3, k2 (ll_valid h hb), by simp⟩
      | some a =>
        rw [hl] at i1
        have hla : a ∈ l := List.mem_of_getLast? hl
        obtain ⟨k1, k2, k3, k4, k5⟩ := step_edge h he m0 m1 m2 (hu a (by simp [hla])) hb (hs a b (consec_last hl)) i1 i2 e
        exact ⟨k1, k2, k3, k4, by rintro x ⟨⟩; exact k5⟩
    obtain ⟨k1, k2, k3, k4, k5⟩ := main
    refine ⟨by rw [k1]; simp, k2, ?_, ?_⟩
    · intro v hv
      rcases List.mem_append.1 hv with hv | hv
      · exact k3 _ _ (i3 v hv)
      · rw [List.mem_singleton] at hv; rw [hv]; exact k4
    · intro x y hc
      rcases consec_snoc hc with hc | ⟨hg, rfl⟩
      · exact edgeCov_mono k3 (i4 x y hc)
      · exact k5 x hg

theorem near_zero {I : S1.Interval ℝ} {p : ℝ} (h : S1.Pts Real.pi I p) : S1.Near Real.pi 0 I p :=
  ⟨p, 0, h, by simp, 0, by simp⟩

/-- C95: the bound of a chain of edges contains every point of the chain: latitudes that are reached inside an edge are included, edges over a pole and between
antipodal vertices too. In exact arithmetic; an edge between `4 eps` long and the length that the code takes for degenerate is excluded. -/
theorem c95_edges {atan2 : ℝ → ℝ → ℝ} (h : IsArg atan2) {eps : ℝ} (he : 0 ≤ eps) {rem : ℝ → ℝ} (hr : S1.IsRem Real.pi rem) {mg : Margins ℝ}
    (m0 : 0 < mg.short) (m1 : 0 ≤ mg.rel) (m2 : 0 ≤ mg.abs) (l : List (Vec ℝ)) (hu : ∀ v ∈ l, UnitV v)
    (hs : ∀ a b, Consec l a b → 4 * eps < ang a b → 0 ≤ dot a b → mg.short ≤ 2 * Real.sin (ang a b)) {B : S2.Rect ℝ}
    (hB : B = RectBounder.getBound Real.pi _root_.id rem eps (bounder atan2 eps mg l)) (hl : l ≠ []) :
    B.isValid Real.pi = true ∧ ∀ p, OnChain l p → RPts Real.pi B (latOf atan2 p) (lngOf atan2 p) := by
  have hp := Real.pi_pos
  obtain ⟨_, i2, i3, i4⟩ := chain_inv h he m0 m1 m2 l hu hs
  generalize hC : (bounder atan2 eps mg l).bound = C at *
  have hB : B = (C.expanded Real.pi _root_.id rem eps ⟨2 * eps, 0⟩).polarClosure Real.pi := by rw [hB, ← hC]; rfl
  obtain ⟨x1, x2, _⟩ := c72_expanded hp one_le_half_pi i2 hr he (m := ⟨2 * eps, 0⟩) (by simpa using he) le_rfl
  generalize hD : C.expanded Real.pi _root_.id rem eps ⟨2 * eps, 0⟩ = D at *
  obtain ⟨v, hv⟩ := List.exists_mem_of_ne_nil l hl
  have grow : ∀ φ z, RPts Real.pi C φ z → RPts Real.pi D φ z := by
    intro φ z k
    have q := isValid_iff.1 i2
    exact x2 φ z φ ⟨by have := q.lo1; have := k.1.1; linarith, k.1.2.trans q.hi2, k.2.1, k.2.2.1⟩ k.1 (by simpa using he) (near_zero k.2)
  have hn : D.isEmpty = false := by
    by_contra c
    rw [Bool.not_eq_false] at c
    exact (c56_isEmpty hp x1).1 c _ _ (grow _ _ (i3 v hv))
  obtain ⟨y1, y2, _, y4⟩ := c56_polarClosure hp x1 hn
  rw [← hB] at y1 y2 y4
  refine ⟨y1, ?_⟩
  rintro p (hpl | ⟨a, b, hc, hpe⟩)
  · exact y2 _ _ (grow _ _ (i3 p hpl))
  · obtain ⟨φ, f1, f2, f3⟩ := i4 a b hc p hpe
    have kp := isLL_of h (unit_ne hpe.1)
    rcases f3 with f3 | ⟨px, py, z, hz⟩
    · exact y2 _ _ (x2 _ _ φ kp f1 f2 (near_zero f3))
    · have kz : RPts Real.pi D (latOf atan2 p) z := x2 _ _ φ ⟨kp.1, kp.2.1, hz.1, hz.2.1⟩ f1 f2 (near_zero hz)
      have hz1 : p.z = 1 ∨ p.z = -1 := by
        have := hpe.1
        simp only [UnitV, dot, px, py] at this
        have : (p.z - 1) * (p.z + 1) = 0 := by linarith
        rcases mul_eq_zero.1 this with k | k
        · left; linarith
        · right; linarith
      refine y4 ⟨z, ?_⟩ _ _ kp.2.2.1 kp.2.2.2 kz.1
      rcases hz1 with k | k
      · left
        rw [← Real.arcsin_one, ← k, ← latOf_unit h hpe.1]; exact kz
      · right
        rw [← Real.arcsin_neg_one, ← k, ← latOf_unit h hpe.1]; exact kz

/-- The ends of the latitudes of the bound, without margins. -/
theorem chain_tight {atan2 : ℝ → ℝ → ℝ} (h : IsArg atan2) {mg : Margins ℝ} (m0 : 0 < mg.short) (m1 : mg.rel = 0) (m2 : mg.abs = 0)
    (l : List (Vec ℝ)) (hu : ∀ v ∈ l, UnitV v) (hs : ∀ a b, Consec l a b → a ≠ b → mg.short ≤ 2 * Real.sin (ang a b)) (hl : l ≠ []) :
    (∃ p, OnChain l p ∧ latOf atan2 p = (bounder atan2 0 mg l).bound.lat.lo) ∧ ∃ p, OnChain l p ∧ latOf atan2 p = (bounder atan2 0 mg l).bound.lat.hi := by
  have hp := Real.pi_pos
  induction l using List.reverseRecOn with
  | nil => exact absurd rfl hl
  | append_singleton l b ih =>
    have hb : UnitV b := hu b (by simp)
    have e : bounder atan2 0 mg (l ++ [b]) = RectBounder.addPoint Real.pi _root_.id Real.sqrt Real.sin Real.arcsin atan2 0 mg (bounder atan2 0 mg l) b := by
      unfold bounder; rw [List.foldl_append]; rfl
    have hs' : ∀ a b, Consec l a b → (4 : ℝ) * 0 < ang a b → 0 ≤ dot a b → mg.short ≤ 2 * Real.sin (ang a b) := by
      intro x y hc h0 _
      refine hs x y (consec_append hc) fun e => ?_
      rw [e] at h0
      have : ang y y = 0 := ang_of_cos le_rfl Real.pi_pos.le (by rw [Real.cos_zero]; exact hu y (by have := (consec_mem hc).2; simp [this]))
      linarith
    obtain ⟨i1, i2, i3, _⟩ := chain_inv h le_rfl m0 m1.ge m2.ge l (fun v hv => hu v (by simp [hv])) hs'
    cases hg : l.getLast? with
    | none =>
      rw [hg] at i1
      have hnil : l = [] := List.getLast?_eq_none_iff.1 hg
      subst hnil
      have e2 : (bounder atan2 0 mg ([] ++ [b])).bound.lat = ⟨latOf atan2 b, latOf atan2 b⟩ := by
        rw [e]
        show ((Rect.empty Real.pi).add Real.pi _root_.id (LatLng.ofPoint _root_.id Real.sqrt atan2 b)).lat = _
        unfold Rect.add
        rw [ll_valid h hb]
        simp only [Bool.not_true, Bool.false_eq_true, if_false, if_true]
        show (R1.Interval.addPoint R1.Interval.empty _) = _
        unfold R1.Interval.addPoint
        rw [R1.c48_empty]
        rfl
      rw [e2]
      exact ⟨⟨b, Or.inl (by simp), rfl⟩, ⟨b, Or.inl (by simp), rfl⟩⟩
    | some a =>
      rw [hg] at i1
      have hla : a ∈ l := List.mem_of_getLast? hg
      have ha : UnitV a := hu a (by simp [hla])
      have hlne : l ≠ [] := by rintro rfl; simp at hla
      obtain ⟨⟨p1, q1, r1⟩, ⟨p2, q2, r2⟩⟩ := ih (fun v hv => hu v (by simp [hv])) (fun a b hc => hs a b (consec_append hc)) hlne
      have lift : ∀ p, OnChain l p → OnChain (l ++ [b]) p := by
        rintro p (k | ⟨x, y, k, k'⟩)
        · exact Or.inl (by simp [k])
        · exact Or.inr ⟨x, y, consec_append k, k'⟩
      have hcl := consec_last (b := b) hg
      -- the bound of the edge
      have key : ∃ E : S2.Rect ℝ, (bounder atan2 0 mg (l ++ [b])).bound = (bounder atan2 0 mg l).bound.union Real.pi _root_.id E ∧ E.lat.isEmpty = false ∧
          (∃ p, OnEdge a b p ∧ latOf atan2 p = E.lat.lo) ∧ ∃ p, OnEdge a b p ∧ latOf atan2 p = E.lat.hi := by
        have nn : (RectBounder.normal _root_.id a b).norm _root_.id Real.sqrt = 2 * Real.sin (ang a b) := normal_norm ha hb
        have dd : Vec.dot _root_.id a b = dot a b := rfl
        unfold RectBounder.addPoint at e
        rw [i1] at e
        dsimp only [Option.map] at e
        rw [nn, dd] at e
        have cases : a = b ∨ mg.short ≤ 2 * Real.sin (ang a b) := by
          by_cases hab : a = b
          · exact Or.inl hab
          · exact Or.inr (hs a b hcl hab)
        by_cases hab : a = b
        · subst hab
          have a0 : ang a a = 0 := ang_of_cos le_rfl Real.pi_pos.le (by rw [Real.cos_zero]; exact ha)
          rw [a0, Real.sin_zero, if_pos (by linarith), if_neg (by rw [show dot a a = 1 from ha]; norm_num)] at e
          refine ⟨_, by rw [e], ?_⟩
          have el : (Rect.fromPointPair Real.pi _root_.id (LatLng.ofPoint _root_.id Real.sqrt atan2 a) (LatLng.ofPoint _root_.id Real.sqrt atan2 a)).lat = ⟨latOf atan2 a, latOf atan2 a⟩ := by
            show R1.Interval.fromPointPair (latOf atan2 a) (latOf atan2 a) = _
            unfold R1.Interval.fromPointPair
            simp
          rw [el]
          exact ⟨by simp [R1.Interval.isEmpty], ⟨a, onEdge_left ha, rfl⟩, ⟨a, onEdge_left ha, rfl⟩⟩
        · have hsh := hs a b hcl hab
          rw [if_neg (not_lt.2 hsh)] at e
          have hz : ¬ IsZero (cross a b) := by
            intro z
            have := normal_norm ha hb
            rw [← nn, normal_eq] at hsh
            obtain ⟨z1, z2, z3⟩ := z
            have e0 : (smul 2 (cross a b)).norm _root_.id Real.sqrt = Real.sqrt (dot (smul 2 (cross a b)) (smul 2 (cross a b))) := rfl
            have e2 : dot (smul 2 (cross a b)) (smul 2 (cross a b)) = 0 := by simp only [dot, smul, z1, z2, z3]; ring
            rw [e0, e2, Real.sqrt_zero] at hsh
            linarith
          obtain ⟨_, _, k3, k4⟩ := edgeLat_bounds h ha hb hz le_rfl m1.ge m2.ge rfl
          refine ⟨_, by rw [e], ?_, (k4 rfl m1 m2).2, (k4 rfl m1 m2).1⟩
          rw [R1.isEmpty_eq_false]
          exact (k3 a (onEdge_left ha)).1.trans (k3 a (onEdge_left ha)).2
      obtain ⟨E, eE, nE, ⟨p3, q3, r3⟩, ⟨p4, q4, r4⟩⟩ := key
      have nB : (bounder atan2 0 mg l).bound.lat.isEmpty = false := by
        rw [R1.isEmpty_eq_false]
        exact (i3 a hla).1.1.trans (i3 a hla).1.2
      rw [eE]
      have eu : ((bounder atan2 0 mg l).bound.union Real.pi _root_.id E).lat =
          ⟨min (bounder atan2 0 mg l).bound.lat.lo E.lat.lo, max (bounder atan2 0 mg l).bound.lat.hi E.lat.hi⟩ := by
        unfold Rect.union R1.Interval.union
        rw [nB, nE]
        simp
      rw [eu]
      have up : ∀ p, OnEdge a b p → OnChain (l ++ [b]) p := fun p k => Or.inr ⟨a, b, hcl, k⟩
      constructor
      · rcases min_choice (bounder atan2 0 mg l).bound.lat.lo E.lat.lo with c | c
        · exact ⟨p1, lift _ q1, by rw [c]; exact r1⟩
        · exact ⟨p3, up _ q3, by rw [c]; exact r3⟩
      · rcases max_choice (bounder atan2 0 mg l).bound.lat.hi E.lat.hi with c | c
        · exact ⟨p2, lift _ q2, by rw [c]; exact r2⟩
        · exact ⟨p4, up _ q4, by rw [c]; exact r4⟩

/-- C95: without margins the latitudes of the bound are exactly those of the chain: its ends are latitudes of points of the chain. -/
theorem c95_tight {atan2 : ℝ → ℝ → ℝ} (h : IsArg atan2) {rem : ℝ → ℝ} (hr : S1.IsRem Real.pi rem) {mg : Margins ℝ} (m0 : 0 < mg.short) (m1 : mg.rel = 0) (m2 : mg.abs = 0)
    (l : List (Vec ℝ)) (hu : ∀ v ∈ l, UnitV v) (hs : ∀ a b, Consec l a b → a ≠ b → mg.short ≤ 2 * Real.sin (ang a b)) (hl : l ≠ []) {B : S2.Rect ℝ}
    (hB : B = RectBounder.getBound Real.pi _root_.id rem 0 (bounder atan2 0 mg l)) :
    (∃ p, OnChain l p ∧ latOf atan2 p = B.lat.lo) ∧ ∃ p, OnChain l p ∧ latOf atan2 p = B.lat.hi := by
  have hp := Real.pi_pos
  have hs' : ∀ a b, Consec l a b → (4 : ℝ) * 0 < ang a b → 0 ≤ dot a b → mg.short ≤ 2 * Real.sin (ang a b) := by
    intro x y hc h0 _
    refine hs x y hc fun e => ?_
    rw [e] at h0
    have : ang y y = 0 := ang_of_cos le_rfl Real.pi_pos.le (by rw [Real.cos_zero]; exact hu y (consec_mem hc).2)
    linarith
  obtain ⟨_, i2, i3, _⟩ := chain_inv h le_rfl m0 m1.ge m2.ge l hu hs'
  have ct := chain_tight h m0 m1 m2 l hu hs hl
  obtain ⟨v, hv⟩ := List.exists_mem_of_ne_nil l hl
  have iv := i3 v hv
  generalize (bounder atan2 0 mg l) = R at *
  have q := isValid_iff.1 i2
  have hne : R.bound.lat.isEmpty = false := by rw [R1.isEmpty_eq_false]; exact iv.1.1.trans iv.1.2
  have x1 : RPts Real.pi (R.bound.expanded Real.pi _root_.id rem 0 ⟨2 * 0, 0⟩) (latOf atan2 v) (lngOf atan2 v) := by
    refine (c72_expanded hp one_le_half_pi i2 hr le_rfl (m := ⟨2 * 0, 0⟩) (by simp) le_rfl).2.1 _ _ _ ?_ iv.1 (by simp) (near_zero iv.2)
    exact ⟨by have := q.lo1; have := iv.1.1; linarith, iv.1.2.trans q.hi2, iv.2.1, iv.2.2.1⟩
  have el : B.lat = R.bound.lat := by
    have e1 : ∀ D : S2.Rect ℝ, (D.polarClosure Real.pi).lat = D.lat := by
      intro D; unfold Rect.polarClosure; split_ifs <;> rfl
    rw [hB, RectBounder.getBound, e1]
    unfold Rect.expanded at x1 ⊢
    dsimp only at x1 ⊢
    split_ifs at x1 ⊢ with c
    · exact absurd x1 ((c56_isEmpty hp (c56_empty_full hp one_le_half_pi).1).1 (c56_empty_full hp one_le_half_pi).2.1 _ _)
    · unfold R1.Interval.expanded R1.Interval.intersection Rect.validLat
      rw [hne]
      have z1 := q.lo1
      have z2 := q.hi2
      simp only [Bool.false_eq_true, if_false, _root_.id, mul_zero, sub_zero, add_zero]
      rw [max_eq_left (by linarith), min_eq_left (by linarith)]
  rw [el]
  exact ct

/-- Two opposite directions in an arc make it at least half a turn long. -/
theorem opposite_len {I : S1.Interval ℝ} (hv : I.isValid Real.pi = true) {α β : ℝ} (ha : S1.Pts Real.pi I α) (hb : S1.Pts Real.pi I β)
    (h : β = α - Real.pi ∨ β = α + Real.pi) : Real.pi ≤ I.len Real.pi _root_.id := by
  have hp := Real.pi_pos
  have hne : I.isEmpty Real.pi = false := by
    by_contra c
    rw [Bool.not_eq_false] at c
    exact (S1.c50_isEmpty_isFull hp hv).1.1 c α ha
  rw [(S1.c51_len hp hv).2 hne]
  obtain ⟨_, t, t0, t1, k, ek⟩ := (S1.pts_len ha.1 ha.2.1).1 ha
  obtain ⟨_, u, u0, u1, m, em⟩ := (S1.pts_len hb.1 hb.2.1).1 hb
  by_contra c
  rw [not_le] at c
  have key : ∃ j : ℤ, t - u = Real.pi * (2 * j + 1) := by
    rcases h with e | e
    · exact ⟨m - k, by push_cast; linarith⟩
    · exact ⟨m - k - 1, by push_cast; linarith⟩
  obtain ⟨j, ej⟩ := key
  rcases lt_or_ge j 0 with hj | hj
  · have : (j : ℝ) ≤ -1 := by exact_mod_cast (by omega : j ≤ -1)
    nlinarith
  · have : (0 : ℝ) ≤ j := by exact_mod_cast hj
    nlinarith

/-- C95: `expand_for_subregions` contains the bound, and is the whole sphere if the bound contains two opposite points. -/
theorem c95_subregions {atan2 : ℝ → ℝ → ℝ} (h : IsArg atan2) {rem : ℝ → ℝ} (hr : S1.IsRem Real.pi rem) {eps t1 t2 t3 : ℝ} (he : 0 ≤ eps)
    (h1 : 0 < t1) (h2 : 0 < t2) (h3 : 0 < t3) {B R : S2.Rect ℝ} (hB : B.isValid Real.pi = true)
    (e : R = RectBounder.expandForSubregions Real.pi _root_.id rem eps t1 t2 t3 B) :
    R.isValid Real.pi = true ∧ (∀ φ l, RPts Real.pi B φ l → RPts Real.pi R φ l) ∧
    (∀ p, UnitV p → RPts Real.pi B (latOf atan2 p) (lngOf atan2 p) → RPts Real.pi B (latOf atan2 (smul (-1) p)) (lngOf atan2 (smul (-1) p)) → R = Rect.full Real.pi) := by
  have hp := Real.pi_pos
  have q := isValid_iff.1 hB
  have hfull := (c56_empty_full hp one_le_half_pi).2.2.1
  unfold RectBounder.expandForSubregions at e
  dsimp only at e
  cases hn : B.isEmpty with
  | true =>
    rw [hn, if_pos rfl] at e
    rw [e]
    exact ⟨hB, fun _ _ k => k, fun p _ k => absurd k ((c56_isEmpty hp hB).1 hn _ _)⟩
  | false =>
    rw [hn, if_neg (by simp)] at e
    obtain ⟨gap, hg⟩ : ∃ gap, gap = max 0 (Real.pi - B.lng.len Real.pi _root_.id - 5 / 2 * eps) := ⟨_, rfl⟩
    obtain ⟨F, hF⟩ : ∃ F : Bool, F = (if max B.lat.lo (-B.lat.hi) ≥ 0 then decide (2 * max B.lat.lo (-B.lat.hi) + gap < t1)
      else if gap ≥ Real.pi / 2 then decide (Real.pi / 2 + B.lat.lo + (Real.pi / 2 - B.lat.hi) < t2)
      else decide (max (Real.pi / 2 + B.lat.lo) (Real.pi / 2 - B.lat.hi) * gap < t3)) := ⟨_, rfl⟩
    replace e : R = if F = true then Rect.full Real.pi else (B.expanded Real.pi _root_.id rem eps ⟨9 * eps, if gap ≤ 0 then Real.pi else 0⟩).polarClosure Real.pi := by
      rw [hF, hg]; exact e
    have opp : ∀ p, UnitV p → RPts Real.pi B (latOf atan2 p) (lngOf atan2 p) → RPts Real.pi B (latOf atan2 (smul (-1) p)) (lngOf atan2 (smul (-1) p)) → F = true := by
      intro p up k1 k2
      have um : UnitV (smul (-1) p) := by simp only [UnitV, dot, smul] at up ⊢; linarith
      have l1 := latOf_unit h up
      have l2 := latOf_unit h um
      have l3 : Real.arcsin (smul (-1) p).z = -Real.arcsin p.z := by
        rw [← Real.arcsin_neg]; simp [smul]
      rw [l2, l3] at k2
      rw [l1] at k1
      have a1 := k1.1.1
      have a2 := k1.1.2
      have a3 := k2.1.1
      have a4 := k2.1.2
      have mle : max B.lat.lo (-B.lat.hi) ≤ 0 := max_le (by linarith) (by linarith)
      by_cases hpole : p.x = 0 ∧ p.y = 0
      · have hz1 : p.z = 1 ∨ p.z = -1 := by
          have := up
          simp only [UnitV, dot, hpole.1, hpole.2] at this
          have : (p.z - 1) * (p.z + 1) = 0 := by linarith
          rcases mul_eq_zero.1 this with k | k
          · left; linarith
          · right; linarith
        have ends : B.lat.lo = -(Real.pi / 2) ∧ B.lat.hi = Real.pi / 2 := by
          have q1 := q.lo1
          have q2 := q.hi2
          rcases hz1 with k | k
          · rw [k, Real.arcsin_one] at a1 a2 a3 a4
            exact ⟨by linarith, by linarith⟩
          · rw [k, Real.arcsin_neg_one] at a1 a2 a3 a4
            exact ⟨by linarith, by linarith⟩
        rw [hF, ends.1, ends.2, if_neg (by rw [max_self]; linarith)]
        split_ifs
        · rw [decide_eq_true_eq]; linarith
        · rw [decide_eq_true_eq]; ring_nf; rw [max_self, zero_mul]; exact h3
      · have hl := arg_opposite h (k := -1) (by norm_num) hpole
        have len := opposite_len q.lng k1.2 (β := lngOf atan2 (smul (-1) p)) k2.2 hl
        have g0 : gap = 0 := by
          rw [hg, max_eq_left]; linarith
        rw [hF, g0]
        split_ifs with c1 c2
        · have : max B.lat.lo (-B.lat.hi) = 0 := le_antisymm mle c1
          rw [this, decide_eq_true_eq]; linarith
        · linarith
        · rw [decide_eq_true_eq, mul_zero]; exact h3
    cases F with
    | true =>
      rw [if_pos rfl] at e
      rw [e]
      exact ⟨hfull, fun φ l k => rpts_full hB k, fun _ _ _ _ => rfl⟩
    | false =>
      rw [if_neg (by simp)] at e
      obtain ⟨x1, x2, _⟩ := c72_expanded hp one_le_half_pi hB hr he (m := ⟨9 * eps, if gap ≤ 0 then Real.pi else 0⟩) (by simpa using he) (by
        show 0 ≤ ite _ _ _
        split_ifs <;> linarith)
      have grow : ∀ φ l, RPts Real.pi B φ l → RPts Real.pi (B.expanded Real.pi _root_.id rem eps ⟨9 * eps, if gap ≤ 0 then Real.pi else 0⟩) φ l := by
        intro φ l k
        refine x2 φ l φ ⟨by have := q.lo1; have := k.1.1; linarith, k.1.2.trans q.hi2, k.2.1, k.2.2.1⟩ k.1 (by simpa using he) ⟨l, 0, k.2, ?_, 0, by simp⟩
        show |(0 : ℝ)| ≤ ite _ _ _
        rw [abs_zero]
        split_ifs <;> linarith
      have hne : (B.expanded Real.pi _root_.id rem eps ⟨9 * eps, if gap ≤ 0 then Real.pi else 0⟩).isEmpty = false := by
        by_contra c
        rw [Bool.not_eq_false] at c
        rcases parts hp q with ⟨k, _⟩ | ⟨_, _, ⟨a, ka⟩, ⟨b, kb⟩⟩
        · unfold Rect.isEmpty at hn; rw [k] at hn; cases hn
        · exact (c56_isEmpty hp x1).1 c _ _ (grow a b ⟨ka, kb⟩)
      obtain ⟨y1, y2, _, _⟩ := c56_polarClosure hp x1 hne
      rw [e]
      exact ⟨y1, fun φ l k => y2 _ _ (grow φ l k), fun p up k1 k2 => absurd (opp p up k1 k2) (by simp)⟩

/-- An edge over the north pole, and its angle. -/
theorem pole_edge : UnitV (⟨3 / 5, 0, 4 / 5⟩ : Vec ℝ) ∧ UnitV (⟨-3 / 5, 0, 4 / 5⟩ : Vec ℝ) ∧ Real.sin (ang ⟨3 / 5, 0, 4 / 5⟩ ⟨-3 / 5, 0, 4 / 5⟩) = 24 / 25 ∧
    OnEdge (⟨3 / 5, 0, 4 / 5⟩ : Vec ℝ) ⟨-3 / 5, 0, 4 / 5⟩ ⟨0, 0, 1⟩ := by
  refine ⟨by norm_num [UnitV, dot], by norm_num [UnitV, dot], ?_, by norm_num [UnitV, dot], 5 / 8, 5 / 8, by norm_num, by norm_num, ?_⟩
  · have e : ang (⟨3 / 5, 0, 4 / 5⟩ : Vec ℝ) ⟨-3 / 5, 0, 4 / 5⟩ = Real.arccos (7 / 25) := by
      show Real.arccos _ = _
      norm_num [dot]
    rw [e, Real.sin_arccos, show (1 : ℝ) - (7 / 25) ^ 2 = (24 / 25) ^ 2 by norm_num, Real.sqrt_sq (by norm_num)]
  · refine vec_ext' ?_ ?_ ?_ <;> norm_num [lin]

-- the bound of that edge contains the pole, with the constants of the code
example : RPts Real.pi (RectBounder.getBound Real.pi _root_.id exists_rem_real.choose (2 ^ (-52 : ℤ)) (bounder (fun y x => Complex.arg ⟨x, y⟩) (2 ^ (-52 : ℤ))
    (Margins.code _root_.id) [⟨3 / 5, 0, 4 / 5⟩, ⟨-3 / 5, 0, 4 / 5⟩])) (latOf (fun y x => Complex.arg ⟨x, y⟩) ⟨0, 0, 1⟩) (lngOf (fun y x => Complex.arg ⟨x, y⟩) ⟨0, 0, 1⟩) := by
  obtain ⟨ha, hb, hs, hp⟩ := pole_edge
  refine (c95_edges isArg_arg (by positivity) exists_rem_real.choose_spec (mg := Margins.code _root_.id) ?_ ?_ ?_ _ ?_ ?_ rfl (by simp)).2 _
    (Or.inr ⟨_, _, ⟨[], [], rfl⟩, hp⟩)
  · show (0 : ℝ) < 191346 / 10 ^ 20
    norm_num
  · show (0 : ℝ) ≤ 606638 / 10 ^ 21
    norm_num
  · show (0 : ℝ) ≤ 683174 / 10 ^ 36
    norm_num
  · intro v hv
    simp only [List.mem_cons, List.not_mem_nil, or_false] at hv
    rcases hv with rfl | rfl
    · exact ha
    · exact hb
  · intro a b hc _ _
    rcases consec_snoc (l := [_]) hc with ⟨s, t, e⟩ | ⟨e1, e2⟩
    · have := congrArg List.length e
      simp at this
      omega
    · obtain rfl : _ = a := by simpa using e1
      subst e2
      rw [hs]
      show (191346 / 10 ^ 20 : ℝ) ≤ 2 * (24 / 25)
      norm_num

-- without margins, the latitude of the pole is attained
example : ∃ p, OnChain [⟨3 / 5, 0, 4 / 5⟩, ⟨-3 / 5, 0, 4 / 5⟩] p ∧ latOf (fun y x => Complex.arg ⟨x, y⟩) p =
    (RectBounder.getBound Real.pi _root_.id exists_rem_real.choose 0 (bounder (fun y x => Complex.arg ⟨x, y⟩) 0 ⟨1, 0, 0⟩ [⟨3 / 5, 0, 4 / 5⟩, ⟨-3 / 5, 0, 4 / 5⟩])).lat.hi := by
  obtain ⟨ha, hb, hs, hp⟩ := pole_edge
  refine (c95_tight isArg_arg exists_rem_real.choose_spec (mg := ⟨1, 0, 0⟩) one_pos rfl rfl _ ?_ ?_ (by simp) rfl).2
  · intro v hv
    simp only [List.mem_cons, List.not_mem_nil, or_false] at hv
    rcases hv with rfl | rfl
    · exact ha
    · exact hb
  · intro a b hc _
    rcases consec_snoc (l := [_]) hc with ⟨s, t, e⟩ | ⟨e1, e2⟩
    · have := congrArg List.length e
      simp at this
      omega
    · obtain rfl : _ = a := by simpa using e1
      subst e2
      rw [hs]
      norm_num

-- the full rectangle contains opposite points
example : RectBounder.expandForSubregions Real.pi _root_.id exists_rem_real.choose (2 ^ (-52 : ℤ)) (1354 / 10 ^ 18) (1687 / 10 ^ 18) (1765 / 10 ^ 18) (Rect.full Real.pi) =
    Rect.full Real.pi := by
  refine (c95_subregions isArg_arg exists_rem_real.choose_spec (by positivity) (by norm_num) (by norm_num) (by norm_num)
    (c56_empty_full Real.pi_pos one_le_half_pi).2.2.1 rfl).2.2 ⟨1, 0, 0⟩ (by norm_num [UnitV, dot]) ?_ ?_
  · have k := isLL_of isArg_arg (unit_ne (a := ⟨1, 0, 0⟩) (by norm_num [UnitV, dot]))
    exact full_rpts k.1 k.2.1 k.2.2.1 k.2.2.2
  · have k := isLL_of isArg_arg (unit_ne (a := smul (-1) ⟨1, 0, 0⟩) (by norm_num [UnitV, dot, smul]))
    exact full_rpts k.1 k.2.1 k.2.2.1 k.2.2.2

end Verif
