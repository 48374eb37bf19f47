import Verif.Proofs.LatEdge
import Verif.Properties.Crossing

/-!
# Rectangles and edges, rectangles and cells, in exact arithmetic: C93, C94
-/

namespace Verif
open Spec S2 CellID

/-- A cell contains a point exactly if it contains the direction. -/
theorem inCell_smul {C : Cell ℝ} {p : Vec ℝ} {k : ℝ} (hk : 0 < k) (h : InCell C (smul k p)) : InCell C p := by
  obtain ⟨u, v, w, t, h1, h2, h3, h4⟩ := h
  refine ⟨u, v, w, t / k, h1, h2, by positivity, ?_⟩
  have e : ∀ x y : ℝ, k * x = t * y → x = t / k * y := by
    intro x y hxy
    field_simp
    linarith
  simp only [smul, Vec.mk.injEq] at h4
  exact vec_ext' (e _ _ h4.1) (e _ _ h4.2.1) (e _ _ h4.2.2)

/-- The margin of `contains_point` only adds points. -/
theorem inCell_contains {c : CellID} {C : Cell ℝ} {eps : ℝ} (he : 0 ≤ eps) (hc : Valid c) (hC : Cell.fromCellID _root_.id c = some C) {p : Vec ℝ}
    (h : InCell C p) : C.containsPoint _root_.id eps p = some true := by
  obtain ⟨r, e, hr⟩ := c75_containsPoint he hc hC p
  obtain ⟨u, v, w, t, ⟨⟨h1, h2⟩, h3, h4⟩, h5, h6, h7⟩ := h
  dsimp only at h1 h2 h3 h4
  rw [e, hr.2 ⟨u, v, w, t, h5, h6, h7, by linarith, by linarith, by linarith, by linarith⟩]

theorem contains_smul {c : CellID} {C : Cell ℝ} {eps : ℝ} (he : 0 ≤ eps) (hc : Valid c) (hC : Cell.fromCellID _root_.id c = some C) {p : Vec ℝ} {k : ℝ}
    (hk : 0 < k) (h : C.containsPoint _root_.id eps (smul k p) = some true) : C.containsPoint _root_.id eps p = some true := by
  obtain ⟨r, e, hr⟩ := c75_containsPoint he hc hC (smul k p)
  obtain ⟨r', e', hr'⟩ := c75_containsPoint he hc hC p
  rw [e] at h
  obtain ⟨u, v, w, t, h5, h6, h4, h8⟩ := hr.1 (Option.some.inj h)
  rw [e', hr'.2 ⟨u, v, w, t / k, h5, by positivity, ?_, h8⟩]
  have e : ∀ x y : ℝ, k * x = t * y → x = t / k * y := by
    intro x y hxy
    field_simp
    linarith
  simp only [smul, Vec.mk.injEq] at h4
  exact vec_ext' (e _ _ h4.1) (e _ _ h4.2.1) (e _ _ h4.2.2)

/-- The points between two neighbouring vertices are points of the cell. -/
theorem edge_inCell {c : CellID} {C : Cell ℝ} (hc : Valid c) (hC : Cell.fromCellID _root_.id c = some C) {k : Nat} (hk : k < 4) {a b : Vec ℝ}
    (ha : C.vertex _root_.id Real.sqrt k = some a) (hb : C.vertex _root_.id Real.sqrt ((k + 1) % 4) = some b) {s t : ℝ} (hs : 0 ≤ s) (ht : 0 ≤ t)
    (hst : 0 < s + t) : InCell C (lin s a t b) := by
  obtain ⟨hf, hx, hy⟩ := cell_parts hc hC
  obtain ⟨V, w, r, v1, v2, v3, v4, _⟩ := c75_vertex isSqrt_real hf hk
  obtain ⟨W, w', r', v1', v2', v3', v4', _⟩ := c75_vertex isSqrt_real hf (Nat.mod_lt (k + 1) (show 4 > 0 by omega))
  rw [v1] at ha
  rw [v1'] at hb
  obtain rfl := Option.some.inj ha
  obtain rfl := Option.some.inj hb
  subst v4 v4'
  have hD : 0 < s * r + t * r' := by
    rcases hs.eq_or_lt with e | e
    · have : 0 < t := by linarith
      have := mul_pos this v3'
      nlinarith [mul_nonneg hs v3.le]
    · have := mul_pos e v3
      nlinarith [mul_nonneg ht v3'.le]
  have key : ∀ lo hi : ℝ, lo ≤ hi → lo ≤ (s * r * lo + t * r' * hi) / (s * r + t * r') ∧ (s * r * lo + t * r' * hi) / (s * r + t * r') ≤ hi ∧
      lo ≤ (s * r * hi + t * r' * lo) / (s * r + t * r') ∧ (s * r * hi + t * r' * lo) / (s * r + t * r') ≤ hi := by
    intro lo hi h
    have m1 := mul_nonneg (mul_nonneg hs v3.le) (sub_nonneg.2 h)
    have m2 := mul_nonneg (mul_nonneg ht v3'.le) (sub_nonneg.2 h)
    refine ⟨?_, ?_, ?_, ?_⟩
    · rw [le_div_iff₀ hD]; linarith
    · rw [div_le_iff₀ hD]; linarith
    · rw [le_div_iff₀ hD]; linarith
    · rw [div_le_iff₀ hD]; linarith
  set u := (s * r * (corner C.uv k).1 + t * r' * (corner C.uv ((k + 1) % 4)).1) / (s * r + t * r') with hu
  set v := (s * r * (corner C.uv k).2 + t * r' * (corner C.uv ((k + 1) % 4)).2) / (s * r + t * r') with hv
  have eu : u * (s * r + t * r') = s * r * (corner C.uv k).1 + t * r' * (corner C.uv ((k + 1) % 4)).1 := div_mul_cancel₀ _ hD.ne'
  have ev : v * (s * r + t * r') = s * r * (corner C.uv k).2 + t * r' * (corner C.uv ((k + 1) % 4)).2 := div_mul_cancel₀ _ hD.ne'
  have same : ∀ z : ℝ, (s * r * z + t * r' * z) / (s * r + t * r') = z := by
    intro z; rw [← add_mul, mul_comm, mul_div_assoc, div_self hD.ne', mul_one]
  have hin : R2.InRect C.uv ⟨u, v⟩ := by
    have kx := key _ _ hx.le
    have ky := key _ _ hy.le
    rw [hu, hv]
    interval_cases k
    · refine ⟨⟨kx.1, kx.2.1⟩, ?_⟩
      simp only [corner, same]
      exact ⟨le_rfl, hy.le⟩
    · refine ⟨?_, ⟨ky.1, ky.2.1⟩⟩
      simp only [corner, same]
      exact ⟨hx.le, le_rfl⟩
    · refine ⟨⟨kx.2.2.1, kx.2.2.2⟩, ?_⟩
      simp only [corner, same]
      exact ⟨hy.le, le_rfl⟩
    · refine ⟨?_, ⟨ky.2.2.1, ky.2.2.2⟩⟩
      simp only [corner, same]
      exact ⟨le_rfl, hx.le⟩
  obtain ⟨q, hq⟩ : ∃ q, faceUVtoXYZ C.face u v = some q := by
    generalize C.face = f at *
    interval_cases f <;> exact ⟨_, rfl⟩
  refine ⟨u, v, q, s * r + t * r', hin, hq, hD, ?_⟩
  clear_value u v
  generalize (corner C.uv k) = c1 at *
  generalize (corner C.uv ((k + 1) % 4)) = c2 at *
  generalize C.face = f at *
  interval_cases f
  all_goals
    obtain rfl := Option.some.inj v2
    obtain rfl := Option.some.inj v2'
    obtain rfl := Option.some.inj hq
    refine vec_ext' ?_ ?_ ?_ <;> simp only [lin, smul] <;> linarith

/-- A crossing with a meridian side is at a point of the side. -/
theorem lngEdge_sound {a b : Vec ℝ} {lo hi e : ℝ} (h1 : -(Real.pi / 2) ≤ lo) (h2 : lo ≤ hi) (h3 : hi ≤ Real.pi / 2)
    (hc : Rect.intersectsLngEdge _root_.id Real.sin Real.cos a b ⟨lo, hi⟩ e = true) :
    ∃ φ s t k, lo ≤ φ ∧ φ ≤ hi ∧ 0 < s ∧ 0 < t ∧ 0 < k ∧ lin s a t b = smul k (direction φ e) := by
  have hp := Real.pi_pos
  unfold Rect.intersectsLngEdge at hc
  rw [c81_exact, toPoint_eq, toPoint_eq] at hc
  obtain ⟨⟨s, t, u, v, s0, t0, u0, v0, ex, ey, ez⟩, hd⟩ := hc
  have ew : lin s a t b = lin u (direction lo e) v (direction hi e) := vec_ext' ex ey ez
  have hd' : ∀ k, lin s a t b ≠ smul k (direction lo e) := by
    intro k hk
    apply hd
    have : s * det a b (direction lo e) = 0 := by
      have e1 : s * det a b (direction lo e) = dot (cross (lin s a t b) b) (direction lo e) := by simp only [det, dot, cross, lin]; ring
      rw [e1, hk]
      simp only [dot, cross, smul]; ring
    exact (mul_eq_zero.1 this).resolve_left s0.ne'
  have hlt : hi - lo < Real.pi := by
    by_contra hcon
    push Not at hcon
    obtain rfl : hi = Real.pi / 2 := by linarith
    obtain rfl : lo = -(Real.pi / 2) := by linarith
    apply hd' (u - v)
    rw [ew]
    refine vec_ext' ?_ ?_ ?_ <;> simp [lin, smul, direction]
    ring
  have hw0 : ¬ IsZero (lin s a t b) := by
    rintro ⟨z1, z2, z3⟩
    exact hd' 0 (vec_ext' (by simp only [z1, smul]; ring) (by simp only [z2, smul]; ring) (by simp only [z3, smul]; ring))
  obtain ⟨r, r0, r1, r2⟩ := c74_normalize isSqrt_real hw0
  have hon : OnEdge (direction lo e) (direction hi e) (smul r (lin s a t b)) := by
    refine ⟨by rw [← r1]; exact r2, r * u, r * v, by positivity, by positivity, ?_⟩
    rw [ew]
    refine vec_ext' ?_ ?_ ?_ <;> simp only [lin, smul] <;> ring
  obtain ⟨φ, f1, f2, f3⟩ := (onEdge_meridian h1 h2 h3 hlt _).1 hon
  refine ⟨φ, s, t, 1 / r, f1, f2, s0, t0, by positivity, ?_⟩
  rw [← f3]
  refine vec_ext' ?_ ?_ ?_ <;> simp only [lin, smul] <;> field_simp

/-- A crossing with a parallel side is at a point of the side. -/
theorem latEdge_sound {atan2 : ℝ → ℝ → ℝ} (h : IsArg atan2) {a b : Vec ℝ} (ha : UnitV a) (hb : UnitV b) (hab : ¬ IsZero (cross a b)) {lat : ℝ}
    (h1 : -(Real.pi / 2) ≤ lat) (h2 : lat ≤ Real.pi / 2) {lng : S1.Interval ℝ} (hv : lng.isValid Real.pi = true)
    (hc : Rect.intersectsLatEdge Real.pi _root_.id Real.sqrt Real.sin atan2 a b lat lng = true) :
    ∃ l, S1.Pts Real.pi lng l ∧ OnEdge a b (direction lat l) := by
  obtain ⟨_, p, hp, hz, hl⟩ := (c93_latEdge h ha hb hab lat lng).1 hc
  obtain ⟨s, s0, e, q1, q2, q3, q4⟩ := latlng_dir h (unit_ne hp.1)
  have s1 : s = 1 := by
    have u := hp.1
    rw [e] at u
    have ud := unit_direction (latOf atan2 p) (lngOf atan2 p)
    have : s ^ 2 = 1 := by
      simp only [UnitV, dot, smul] at u ud
      linear_combination u - s ^ 2 * ud
    nlinarith
  have e' : p = direction (latOf atan2 p) (lngOf atan2 p) := by
    conv_lhs => rw [e, s1]
    simp [smul]
  have el : latOf atan2 p = lat := by
    have : Real.sin (latOf atan2 p) = Real.sin lat := by
      rw [← hz]; conv_rhs => rw [e']
      rfl
    exact Real.injOn_sin ⟨q1, q2⟩ ⟨h1, h2⟩ this
  refine ⟨lngOf atan2 p, ⟨q3.le, q4, ((S1.c50_contains Real.pi_pos hv q3.le q4).1).1 hl⟩, ?_⟩
  rw [← el, ← e']
  exact hp

/-- **C93.** If `boundary_intersects` answers yes, the edge and the boundary of the rectangle have a common point. -/
theorem c93_boundary {atan2 : ℝ → ℝ → ℝ} (h : IsArg atan2) {r : S2.Rect ℝ} (hv : r.isValid Real.pi = true) {a b : Vec ℝ} (ha : UnitV a) (hb : UnitV b)
    (hab : ¬ IsZero (cross a b)) (hc : r.boundaryIntersects Real.pi _root_.id Real.sqrt Real.sin Real.cos atan2 a b = true) :
    ∃ φ l, RPts Real.pi r φ l ∧ ¬ RInts Real.pi r φ l ∧ OnEdge a b (direction φ l) := by
  have hp := Real.pi_pos
  obtain ⟨o1, o2, o3, o4, o5⟩ := isValid_iff.1 hv
  have hE : r.isEmpty = false := by
    by_contra hE
    unfold Rect.boundaryIntersects at hc
    rw [if_pos (by simpa using hE)] at hc
    cases hc
  have hlat : r.lat.lo ≤ r.lat.hi := R1.isEmpty_eq_false.1 hE
  have v0 := c72_vertex hp hv hE 0
  have v1 := c72_vertex hp hv hE 1
  have v0' : S1.Pts Real.pi r.lng r.lng.lo := v0.2
  have v1' : S1.Pts Real.pi r.lng r.lng.hi := v1.2
  have lngcase : ∀ e, S1.Pts Real.pi r.lng e → ¬ S1.Ints Real.pi r.lng e → Rect.intersectsLngEdge _root_.id Real.sin Real.cos a b r.lat e = true →
      ∃ φ l, RPts Real.pi r φ l ∧ ¬ RInts Real.pi r φ l ∧ OnEdge a b (direction φ l) := by
    intro e he hi hx
    obtain ⟨φ, s, t, k, f1, f2, s0, t0, k0, e1⟩ := lngEdge_sound o1 hlat o3 hx
    refine ⟨φ, e, ⟨⟨f1, f2⟩, he⟩, fun hcon => hi hcon.2, unit_direction _ _, s / k, t / k, by positivity, by positivity, ?_⟩
    simp only [lin, smul, Vec.mk.injEq] at e1
    refine vec_ext' ?_ ?_ ?_ <;> simp only [lin] <;> field_simp
    · linarith [e1.1]
    · linarith [e1.2.1]
    · linarith [e1.2.2]
  have latcase : ∀ x, r.lat.lo ≤ x → x ≤ r.lat.hi → (x = r.lat.lo ∨ x = r.lat.hi) →
      Rect.intersectsLatEdge Real.pi _root_.id Real.sqrt Real.sin atan2 a b x r.lng = true →
      ∃ φ l, RPts Real.pi r φ l ∧ ¬ RInts Real.pi r φ l ∧ OnEdge a b (direction φ l) := by
    intro x h1 h2 h3 hx
    obtain ⟨l, hl, hon⟩ := latEdge_sound h ha hb hab (by linarith) (by linarith) o4 hx
    refine ⟨x, l, ⟨⟨h1, h2⟩, hl⟩, fun hcon => ?_, hon⟩
    have := hcon.1
    unfold R1.Ints at this
    rcases h3 with h3 | h3 <;> rw [h3] at this <;> exact absurd this (by rintro ⟨k1, k2⟩; linarith)
  have full : ∀ e, r.lng.isFull Real.pi = false → (e = r.lng.lo ∨ e = r.lng.hi) → ¬ S1.Ints Real.pi r.lng e := by
    intro e hf he hcon
    have hne : ¬ (r.lng.lo = Real.pi ∧ r.lng.hi = -Real.pi) := by
      rw [← S1.isEmpty_iff, ← o5]; exact fun hcon => by rw [show r.lat.isEmpty = false from hE] at hcon; cases hcon
    have hnf : ¬ (r.lng.lo = -Real.pi ∧ r.lng.hi = Real.pi) := by
      intro hh
      have : r.lng.isFull Real.pi = true := by
        unfold S1.Interval.isFull
        rw [Bool.and_eq_true, decide_eq_true_eq, decide_eq_true_eq]; exact hh
      rw [hf] at this; cases this
    have ok := S1.isValid_iff.1 o4
    have e1 : -Real.pi < e := by
      rcases he with rfl | rfl
      · exact lt_of_le_of_ne ok.lo1 fun hh => hnf ⟨hh.symm, ok.nlo hh.symm⟩
      · exact lt_of_le_of_ne ok.hi1 fun hh => hne ⟨ok.nhi hh.symm, hh.symm⟩
    have e2 : e ≤ Real.pi := by
      rcases he with rfl | rfl
      · exact ok.lo2
      · exact ok.hi2
    have := (S1.ints_of hp ok e1 e2).1 hcon
    unfold S1.IMem at this
    split_ifs at this with hle
    · rcases this with ⟨k1, k2⟩ | k
      · rcases he with rfl | rfl <;> linarith
      · exact hnf k
    · push Not at hle
      rcases he with rfl | rfl <;> rcases this with k | k <;> linarith
  unfold Rect.boundaryIntersects at hc
  rw [if_neg (by rw [hE]; simp)] at hc
  split_ifs at hc with c1 c2 c3 c4
  · rw [Bool.and_eq_true, Bool.not_eq_true'] at c1
    exact lngcase _ v0' (full _ c1.1 (Or.inl rfl)) c1.2
  · rw [Bool.and_eq_true, Bool.not_eq_true'] at c2
    exact lngcase _ v1' (full _ c2.1 (Or.inr rfl)) c2.2
  · rw [Bool.and_eq_true] at c3
    exact latcase _ le_rfl hlat (Or.inl rfl) c3.2
  · rw [Bool.and_eq_true] at c4
    exact latcase _ hlat le_rfl (Or.inr rfl) c4.2

/-- **C94.** If `intersects_cell` answers yes, the rectangle and the cell (with the margin of `contains_point`) have a common point. -/
theorem c94_sound {atan2 : ℝ → ℝ → ℝ} (h : IsArg atan2) {rem : ℝ → ℝ} {r : S2.Rect ℝ} (hv : r.isValid Real.pi = true)
    {c : CellID} {C : Cell ℝ} (hc : Valid c) (hC : Cell.fromCellID _root_.id c = some C) {eps : ℝ} (he : 0 ≤ eps)
    (ht : r.intersectsCell Real.pi _root_.id Real.sqrt Real.sin Real.cos Real.arcsin atan2 rem eps C = some true) :
    ∃ φ l, RPts Real.pi r φ l ∧ C.containsPoint _root_.id eps (direction φ l) = some true := by
  have hp := Real.pi_pos
  obtain ⟨o1, o2, o3, o4, o5⟩ := isValid_iff.1 hv
  obtain ⟨hf, hx, hy⟩ := cell_parts hc hC
  unfold Rect.intersectsCell at ht
  by_cases hE' : r.isEmpty = true
  · rw [if_pos hE'] at ht; cases ht
  have hE : r.isEmpty = false := by simpa using hE'
  rw [if_neg hE'] at ht
  have hlat : r.lat.lo ≤ r.lat.hi := R1.isEmpty_eq_false.1 hE
  -- a point of the cell that is in the rectangle
  have cellpt : ∀ p, InCell C p → r.containsLatLng Real.pi (LatLng.ofPoint _root_.id Real.sqrt atan2 p) = true →
      ∃ φ l, RPts Real.pi r φ l ∧ C.containsPoint _root_.id eps (direction φ l) = some true := by
    intro p hpC hr
    have hz : ¬ IsZero p := by
      obtain ⟨u, v, w, t, _, hw, ht, rfl⟩ := hpC
      have := faceUV_nonzero hw
      rintro ⟨z1, z2, z3⟩
      exact this ⟨(mul_eq_zero.1 z1).resolve_left ht.ne', (mul_eq_zero.1 z2).resolve_left ht.ne', (mul_eq_zero.1 z3).resolve_left ht.ne'⟩
    obtain ⟨s, s0, e, _⟩ := latlng_dir h hz
    refine ⟨_, _, (c56_containsLatLng hp hv _).1 hr, inCell_contains he hc hC (inCell_smul s0 ?_)⟩
    show InCell C (smul s (direction (latOf atan2 p) (lngOf atan2 p)))
    rw [← e]; exact hpC
  have rectpt : ∀ ll : LatLng ℝ, RPts Real.pi r ll.lat ll.lng → C.containsPoint _root_.id eps (LatLng.toPoint _root_.id Real.sin Real.cos ll) = some true →
      ∃ φ l, RPts Real.pi r φ l ∧ C.containsPoint _root_.id eps (direction φ l) = some true := by
    intro ll h1 h2
    rw [toPoint_eq] at h2
    exact ⟨_, _, h1, h2⟩
  have vertex : ∀ n k, n + k = 4 → Rect.vertexLoop Real.pi _root_.id Real.sqrt Real.sin Real.cos atan2 eps r C n k = some true →
      ∃ φ l, RPts Real.pi r φ l ∧ C.containsPoint _root_.id eps (direction φ l) = some true := by
    intro n
    induction n with
    | zero => intro k _ h; cases h
    | succ n ih =>
      intro k hk hl
      obtain ⟨V, e1, e2, _⟩ := vertex_inCell hc hC (k := k) (by omega)
      unfold Rect.vertexLoop at hl
      rw [e1] at hl
      simp only [Option.bind_eq_bind, Option.bind_some] at hl
      split_ifs at hl with h1
      · exact cellpt V e2 h1
      · obtain ⟨b, eb, hl⟩ := Option.bind_eq_some_iff.1 hl
        split_ifs at hl with h2
        · rw [h2] at eb
          exact rectpt _ (c72_vertex hp hv hE k) eb
        · exact ih (k + 1) (by omega) hl
  have edge : ∀ n k, n + k = 4 → Rect.edgeLoop Real.pi _root_.id Real.sqrt Real.sin Real.cos atan2 r C n k = some true →
      ∃ φ l, RPts Real.pi r φ l ∧ C.containsPoint _root_.id eps (direction φ l) = some true := by
    intro n
    induction n with
    | zero => intro k _ h; cases h
    | succ n ih =>
      intro k hk hl
      have hk4 : k < 4 := by omega
      obtain ⟨E, a, b, t, _, e1, e2, e3, t0, e4, _⟩ := c75_edge isSqrt_real hc hC hk4
      have e2' : C.vertex _root_.id Real.sqrt ((k + 1) &&& 3) = some b := by
        rw [← e2, ← Nat.and_two_pow_sub_one_eq_mod (k + 1) 2]
      obtain ⟨a', e5, _, ua⟩ := vertex_inCell hc hC hk4
      obtain ⟨b', e6, _, ub⟩ := vertex_inCell hc hC (Nat.mod_lt (k + 1) (show 4 > 0 by omega))
      rw [e1] at e5
      rw [e2] at e6
      obtain rfl := Option.some.inj e5
      obtain rfl := Option.some.inj e6
      have hab : ¬ IsZero (cross a b) := by
        rw [e4]
        rintro ⟨z1, z2, z3⟩
        have z1' := (mul_eq_zero.1 z1).resolve_left t0.ne'
        have z2' := (mul_eq_zero.1 z2).resolve_left t0.ne'
        have z3' := (mul_eq_zero.1 z3).resolve_left t0.ne'
        unfold dot at e3
        rw [z1', z2', z3'] at e3
        norm_num at e3
      have lngc : ∀ e, S1.Pts Real.pi r.lng e → Rect.intersectsLngEdge _root_.id Real.sin Real.cos a b r.lat e = true →
          ∃ φ l, RPts Real.pi r φ l ∧ C.containsPoint _root_.id eps (direction φ l) = some true := by
        intro e hep hx
        obtain ⟨φ, s, t, k', f1, f2, s0, t0, k0, ee⟩ := lngEdge_sound o1 hlat o3 hx
        refine ⟨φ, e, ⟨⟨f1, f2⟩, hep⟩, inCell_contains he hc hC (inCell_smul k0 ?_)⟩
        rw [← ee]
        exact edge_inCell hc hC hk4 e1 e2 s0.le t0.le (by linarith)
      have latc : ∀ x, r.lat.lo ≤ x → x ≤ r.lat.hi → Rect.intersectsLatEdge Real.pi _root_.id Real.sqrt Real.sin atan2 a b x r.lng = true →
          ∃ φ l, RPts Real.pi r φ l ∧ C.containsPoint _root_.id eps (direction φ l) = some true := by
        intro x x1 x2 hx
        obtain ⟨l, hl, hu, s, t, s0, t0, ee⟩ := latEdge_sound h ua ub hab (by linarith) (by linarith) o4 hx
        refine ⟨x, l, ⟨⟨x1, x2⟩, hl⟩, inCell_contains he hc hC ?_⟩
        rw [ee]
        refine edge_inCell hc hC hk4 e1 e2 s0 t0 ?_
        rcases s0.eq_or_lt with q | q
        · rcases t0.eq_or_lt with q' | q'
          · exfalso
            rw [ee, ← q, ← q'] at hu
            simp [UnitV, dot, lin] at hu
          · linarith
        · linarith
      unfold Rect.edgeLoop at hl
      rw [e1, e2'] at hl
      simp only [Option.bind_eq_bind, Option.bind_some] at hl
      split_ifs at hl with c1 c2 c3 c4 c5
      · exact ih (k + 1) (by omega) hl
      · exact lngc _ (c72_vertex hp hv hE 0).2 (Bool.and_eq_true _ _ ▸ c2).2
      · exact lngc _ (c72_vertex hp hv hE 1).2 (Bool.and_eq_true _ _ ▸ c3).2
      · exact latc _ le_rfl hlat c4
      · exact latc _ hlat le_rfl c5
      · exact ih (k + 1) (by omega) hl
  obtain ⟨m, em, ht⟩ := Option.bind_eq_some_iff.1 ht
  split_ifs at ht with h1
  · refine cellpt m ?_ h1
    have r1 := (c68_from (_root_.id : ℝ → ℝ) hc hc.level hc.square hc.faceIJ).1
    rw [hC] at r1
    have r2 := Option.some.inj r1
    obtain ⟨p, ep, _, e2⟩ := c22_real (_root_.id : ℝ → ℝ) hc hc.square
    have eid : C.id = c := by rw [r2]
    rw [eid, e2] at em
    have hs := hc.square.pos
    have mono : Monotone (stToUV (_root_.id : ℝ → ℝ)) := c59_stToUV_strictMono.monotone
    have key : ∀ i s : Int, 0 < s → uvLine (_root_.id : ℝ → ℝ) i ≤ stToUV _root_.id (_root_.id (((2 * i + s : Int) : ℝ) / 2 ^ 31)) ∧
        stToUV _root_.id (_root_.id (((2 * i + s : Int) : ℝ) / 2 ^ 31)) ≤ uvLine (_root_.id : ℝ → ℝ) (i + s) := by
      intro i s hs
      have hs' : (0 : ℝ) < s := by exact_mod_cast hs
      constructor
      · apply mono
        show (i : ℝ) / 2 ^ 30 ≤ ((2 * i + s : Int) : ℝ) / 2 ^ 31
        push_cast
        rw [div_le_div_iff₀ (by positivity) (by positivity)]
        nlinarith
      · apply mono
        show ((2 * i + s : Int) : ℝ) / 2 ^ 31 ≤ ((i + s : Int) : ℝ) / 2 ^ 30
        push_cast
        rw [div_le_div_iff₀ (by positivity) (by positivity)]
        nlinarith
    refine ⟨p.x, p.y, m, 1, ?_, ?_, one_pos, by simp [smul]⟩
    · rw [r2, ep]
      exact ⟨key _ _ hs, key _ _ hs⟩
    · rw [r2]; exact em
  obtain ⟨ins, ei, ht⟩ := Option.bind_eq_some_iff.1 ht
  split_ifs at ht with h2
  · rw [h2] at ei
    exact rectpt _ (c72_center hp hv hE) ei
  obtain ⟨B, eB, ht⟩ := Option.bind_eq_some_iff.1 ht
  split_ifs at ht with h3
  · cases ht
  obtain ⟨b, eb, ht⟩ := Option.bind_eq_some_iff.1 ht
  split_ifs at ht with h4
  · rw [h4] at eb
    exact vertex 4 0 rfl eb
  · exact edge 4 0 rfl ht

/-- The cell of a face. -/
theorem face_cell {f : Nat} (hf : f < 6) : ∃ c C, CellID.fromFace (BitVec.ofNat 64 f) = some c ∧ Valid c ∧ Cell.fromCellID (_root_.id : ℝ → ℝ) c = some C ∧
    C.id = c ∧ C.face = f ∧ C.level = 0 ∧ C.uv = ⟨⟨-1, 1⟩, ⟨-1, 1⟩⟩ ∧ c.rawPoint _root_.id = faceUVtoXYZ f (0 : ℝ) 0 := by
  have hn : (BitVec.ofNat 64 f).toNat = f := by rw [BitVec.toNat_ofNat]; exact Nat.mod_eq_of_lt (by omega)
  obtain ⟨c, e1, hc, e2, e3⟩ := c15_fromFace (f := BitVec.ofNat 64 f) (by rw [hn]; exact hf)
  have hl : lv c = 0 := by
    have := hc.level
    rw [e2] at this
    exact (Option.some.inj this).symm
  have hsf : sf c = f := by rw [← hc.face, e3, hn]
  have hsr := hc.sr_lt
  have hm := hc.ss_mul
  rw [hl, pow_zero] at hsr
  rw [hl, pow_zero, one_mul] at hm
  have s1 : (sr c).1 = 0 := by omega
  have s2 : (sr c).2.1 = 0 := by omega
  have r1 := (c68_from (_root_.id : ℝ → ℝ) hc hc.level hc.square hc.faceIJ).1
  obtain ⟨p, ep, _, e5⟩ := c22_real (_root_.id : ℝ → ℝ) hc hc.square
  obtain ⟨u0, u1, u2⟩ := c59_stToUV_ends (K := ℝ)
  have z0 : uvLine (_root_.id : ℝ → ℝ) 0 = -1 := by
    show stToUV _root_.id (((0 : Int) : ℝ) / 2 ^ 30) = -1
    rw [Int.cast_zero, zero_div]; exact u0
  have z1 : uvLine (_root_.id : ℝ → ℝ) 1073741824 = 1 := by
    show stToUV _root_.id (((1073741824 : Int) : ℝ) / 2 ^ 30) = 1
    rw [show (((1073741824 : Int) : ℝ) / 2 ^ 30) = 1 by norm_num]; exact u2
  refine ⟨c, _, e1, hc, r1, rfl, hsf, hl, ?_, ?_⟩
  · rw [s1, s2, hm]
    show uvRect _ _ _ _ = _
    unfold uvRect
    rw [zero_mul, show ((0 : Nat) : Int) = 0 from rfl, show ((1073741824 : Nat) : Int) = 1073741824 from rfl, zero_add, z0, z1]
  · rw [e5, ep, s1, s2, hm, hsf]
    have : stToUV (_root_.id : ℝ → ℝ) (_root_.id (((2 * ((0 * 1073741824 : Nat) : Int) + ((1073741824 : Nat) : Int) : Int) : ℝ) / 2 ^ 31)) = 0 := by
      have e : _root_.id (((2 * ((0 * 1073741824 : Nat) : Int) + ((1073741824 : Nat) : Int) : Int) : ℝ) / 2 ^ 31) = 1 / 2 := by
        show (((2 * ((0 * 1073741824 : Nat) : Int) + ((1073741824 : Nat) : Int) : Int) : ℝ) / 2 ^ 31) = 1 / 2
        push_cast
        norm_num
      rw [e]; exact u1
    dsimp only
    rw [this]

/-- The longitudes of the corners of face 0. -/
theorem arg_diag {atan2 : ℝ → ℝ → ℝ} (h : IsArg atan2) {t : ℝ} (ht : 0 < t) :
    atan2 (t * 1) (t * 1) = Real.pi / 4 ∧ atan2 (t * -1) (t * 1) = -(Real.pi / 4) := by
  have hp := Real.pi_pos
  have h2 : Real.sqrt 2 * Real.sqrt 2 = 2 := Real.mul_self_sqrt (by norm_num)
  have k1 := h.1 (t * Real.sqrt 2) (Real.pi / 4) (by positivity) (by linarith) (by linarith)
  have k2 := h.1 (t * Real.sqrt 2) (-(Real.pi / 4)) (by positivity) (by linarith) (by linarith)
  rw [Real.sin_neg, Real.cos_neg] at k2
  rw [Real.sin_pi_div_four, Real.cos_pi_div_four] at k1 k2
  have e1 : t * Real.sqrt 2 * (Real.sqrt 2 / 2) = t * 1 := by linear_combination t / 2 * h2
  have e2 : t * Real.sqrt 2 * -(Real.sqrt 2 / 2) = t * -1 := by linear_combination -(t / 2) * h2
  rw [e1] at k1 k2
  rw [e2] at k2
  exact ⟨k1, k2⟩

/-- **C94.** `intersects_cell` misses intersections: for the cell of face 0 and the rectangle of latitudes from arctan 0.9 to 90 degrees and
longitudes from -30 to 30 degrees it answers no, although the direction (1, 0, 0.95) is in the interior of both. -/
theorem c94_missed {atan2 : ℝ → ℝ → ℝ} (h : IsArg atan2) {rem : ℝ → ℝ} (hr : S1.IsRem Real.pi rem) {eps : ℝ} (he : 0 ≤ eps) (he1 : eps ≤ 1 / 100) :
    ∃ c C, CellID.fromFace 0 = some c ∧ Valid c ∧ Cell.fromCellID (_root_.id : ℝ → ℝ) c = some C ∧ ∃ r : S2.Rect ℝ, r.isValid Real.pi = true ∧
      (∃ φ l, RInts Real.pi r φ l ∧ InCell C (direction φ l) ∧ |(direction φ l).y| < (direction φ l).x ∧ |(direction φ l).z| < (direction φ l).x) ∧
      r.intersectsCell Real.pi _root_.id Real.sqrt Real.sin Real.cos Real.arcsin atan2 rem eps C = some false := by
  have hp := Real.pi_pos
  have hp3 := Real.pi_gt_three
  obtain ⟨c, C, e1, hc, hC, eid, eface, elevel, euv, eraw⟩ := face_cell (f := 0) (by norm_num)
  refine ⟨c, C, e1, hc, hC, ?_⟩
  set lo := Real.arctan (9 / 10) with hlo
  have lo0 : 0 < lo := Real.arctan_pos.2 (by norm_num)
  have lo1 : lo < Real.pi / 2 := Real.arctan_lt_pi_div_two _
  have lo6 : Real.pi / 6 < lo := by
    have h1 : Real.tan (Real.pi / 6) < 9 / 10 := by
      rw [Real.tan_pi_div_six, div_lt_iff₀ (by positivity)]
      have : (1.7 : ℝ) < Real.sqrt 3 := by
        rw [Real.lt_sqrt (by norm_num)]; norm_num
      linarith
    have := Real.arctan_strictMono h1
    rwa [Real.arctan_tan (by linarith) (by linarith)] at this
  have tlo : Real.sin lo = 9 / 10 * Real.cos lo := by
    have : Real.tan lo = 9 / 10 := Real.tan_arctan _
    rw [Real.tan_eq_sin_div_cos] at this
    have hc0 : Real.cos lo ≠ 0 := (Real.cos_pos_of_mem_Ioo ⟨by linarith, lo1⟩).ne'
    field_simp at this
    linarith
  set r : S2.Rect ℝ := ⟨⟨lo, Real.pi / 2⟩, ⟨-(Real.pi / 6), Real.pi / 6⟩⟩ with hrdef
  have hne : r.isEmpty = false := R1.isEmpty_eq_false.2 lo1.le
  have okl : S1.Ok Real.pi r.lng := by
    refine ⟨?_, ?_, ?_, ?_, ?_, ?_⟩ <;> simp only [hrdef]
    · linarith
    · linarith
    · linarith
    · linarith
    · intro h; linarith
    · intro h; linarith
  have hv : r.isValid Real.pi = true := by
    refine isValid_iff.2 ⟨by simp only [hrdef]; linarith, lo1.le, le_rfl, S1.isValid_iff.2 okl, ?_⟩
    rw [show r.lat.isEmpty = false from hne]
    symm
    rw [Bool.eq_false_iff, Ne, S1.isEmpty_iff]
    rintro ⟨h, _⟩
    simp only [hrdef] at h
    linarith
  -- points of the cell
  have incell : ∀ p, C.containsPoint _root_.id eps p = some true → 0 < p.x ∧ p.z ≤ (1 + eps) * p.x := by
    intro p hpc
    obtain ⟨b, eb, hb⟩ := c75_containsPoint he hc hC p
    rw [eb] at hpc
    obtain ⟨u, v, w, t, hw, ht, rfl, _, _, _, h4⟩ := hb.1 (Option.some.inj hpc)
    rw [eface] at hw
    obtain rfl := Option.some.inj hw
    rw [euv] at h4
    dsimp only at h4
    simp only [smul]
    exact ⟨by linarith, by nlinarith⟩
  have notin : ∀ p, (0 < p.x → (1 + eps) * p.x < p.z) → C.containsPoint _root_.id eps p = some false := by
    intro p hpp
    obtain ⟨b, eb, _⟩ := c75_containsPoint he hc hC p
    cases b
    · exact eb
    · have := incell p eb
      linarith [hpp this.1]
  -- the vertices of the cell
  obtain ⟨V, hV, _, hV'⟩ := vertices_exact (C := C) (by rw [eface]; norm_num)
  have vert : ∀ k, k < 4 → ∃ t, 0 < t ∧ V k = smul t ⟨1, (corner C.uv k).1, (corner C.uv k).2⟩ ∧ UnitV (V k) := by
    intro k hk
    obtain ⟨u, w, t, hw, ht, ev⟩ := hV' k hk
    rw [eface] at hw
    obtain rfl := Option.some.inj hw
    exact ⟨t, ht, ev, u⟩
  rw [euv] at vert
  obtain ⟨t0, p0, q0, u0⟩ := vert 0 (by norm_num)
  obtain ⟨t1, p1, q1, u1⟩ := vert 1 (by norm_num)
  obtain ⟨t2, p2, q2, u2⟩ := vert 2 (by norm_num)
  obtain ⟨t3, p3, q3, u3⟩ := vert 3 (by norm_num)
  dsimp only [corner] at q0 q1 q2 q3
  have g0 : lngOf atan2 (V 0) = -(Real.pi / 4) := by rw [q0]; exact (arg_diag h p0).2
  have g1 : lngOf atan2 (V 1) = Real.pi / 4 := by rw [q1]; exact (arg_diag h p1).1
  have g2 : lngOf atan2 (V 2) = Real.pi / 4 := by rw [q2]; exact (arg_diag h p2).1
  have g3 : lngOf atan2 (V 3) = -(Real.pi / 4) := by rw [q3]; exact (arg_diag h p3).2
  -- membership in the rectangle
  have notrect : ∀ p, ¬ S1.Mem Real.pi r.lng (lngOf atan2 p) → -Real.pi < lngOf atan2 p → lngOf atan2 p ≤ Real.pi →
      r.containsLatLng Real.pi (LatLng.ofPoint _root_.id Real.sqrt atan2 p) = false := by
    intro p hm h1 h2
    rw [Bool.eq_false_iff, Ne, c56_containsLatLng hp hv]
    intro hcon
    exact hm ((S1.pts_of hp okl h1 h2).1 hcon.2)
  have nm : ¬ S1.Mem Real.pi r.lng (Real.pi / 4) ∧ ¬ S1.Mem Real.pi r.lng (-(Real.pi / 4)) := by
    rw [S1.mem_iff, S1.mem_iff]
    simp only [hrdef]
    constructor
    · rintro (⟨_, _, h⟩ | ⟨h, _⟩) <;> linarith
    · rintro (⟨_, h, _⟩ | ⟨h, _⟩) <;> linarith
  refine ⟨r, hv, ?_, ?_⟩
  · -- the common point
    refine ⟨Real.arctan (19 / 20), 0, ⟨⟨Real.arctan_strictMono (by norm_num), Real.arctan_lt_pi_div_two _⟩, ?_⟩, ?_⟩
    · rw [S1.ints_of hp okl (by linarith) (by linarith)]
      unfold S1.IMem
      simp only [hrdef]
      rw [if_pos (by linarith)]
      left
      constructor <;> linarith
    · have hcos : 0 < Real.cos (Real.arctan (19 / 20)) := Real.cos_arctan_pos _
      have hsin : Real.sin (Real.arctan (19 / 20)) = 19 / 20 * Real.cos (Real.arctan (19 / 20)) := by
        have : Real.tan (Real.arctan (19 / 20)) = 19 / 20 := Real.tan_arctan _
        rw [Real.tan_eq_sin_div_cos] at this
        field_simp at this
        linarith
      refine ⟨⟨0, 19 / 20, ⟨1, 0, 19 / 20⟩, Real.cos (Real.arctan (19 / 20)), ?_, ?_, hcos, ?_⟩, ?_, ?_⟩
      · rw [euv]; refine ⟨⟨?_, ?_⟩, ?_, ?_⟩ <;> norm_num
      · rw [eface]; rfl
      · refine vec_ext' ?_ ?_ ?_ <;> simp only [direction, smul, Real.cos_zero, Real.sin_zero]
        · rw [hsin]; ring
      · simp only [direction, Real.cos_zero, Real.sin_zero, mul_zero, mul_one, abs_zero]
        exact hcos
      · simp only [direction, Real.cos_zero, mul_one]
        rw [hsin, abs_of_nonneg (by linarith)]
        linarith
  -- the answer
  obtain ⟨B, eB, _, _⟩ := c87_rectBound hc hC h hr he (by linarith)
  have c0 : r.containsPoint Real.pi _root_.id Real.sqrt atan2 ⟨1, 0, 0⟩ = false := by
    unfold Rect.containsPoint
    rw [Bool.eq_false_iff, Ne, c56_containsLatLng hp hv]
    intro hcon
    have h1 := hcon.1.1
    have : (LatLng.ofPoint _root_.id Real.sqrt atan2 (⟨1, 0, 0⟩ : Vec ℝ)).lat = 0 := by
      have := (ofPoint_direction h one_pos (φ := 0) (t := 0) (by linarith) (by linarith) (by linarith) (by linarith)).1
      show S2.LatLng.latitude _root_.id Real.sqrt atan2 (⟨1, 0, 0⟩ : Vec ℝ) = 0
      simpa [smul, direction] using this
    rw [this] at h1
    simp only [hrdef] at h1
    linarith
  have c1 : C.containsPoint _root_.id eps (LatLng.toPoint _root_.id Real.sin Real.cos (r.center Real.pi _root_.id)) = some false := by
    rw [toPoint_eq]
    apply notin
    intro hx
    have el : (r.center Real.pi _root_.id).lat = 1 / 2 * (lo + Real.pi / 2) := rfl
    rw [el]
    generalize (r.center Real.pi _root_.id).lng = l
    simp only [direction]
    set m := 1 / 2 * (lo + Real.pi / 2) with hm
    have m1 : Real.cos m ≤ 1 / 2 := by
      rw [← Real.cos_pi_div_three]
      exact Real.cos_le_cos_of_nonneg_of_le_pi (by linarith) (by linarith) (by linarith)
    have m2 : 0 ≤ Real.cos m := Real.cos_nonneg_of_mem_Icc ⟨by linarith, by linarith⟩
    have m3 : Real.sqrt 3 / 2 ≤ Real.sin m := by
      rw [← Real.sin_pi_div_three]
      exact Real.sin_le_sin_of_le_of_le_pi_div_two (by linarith) (by linarith) (by linarith)
    have m4 : (1.7 : ℝ) < Real.sqrt 3 := by
      rw [Real.lt_sqrt (by norm_num)]; norm_num
    have m5 := mul_le_mul_of_nonneg_left (Real.cos_le_one l) m2
    have m6 : (1 + eps) * (Real.cos m * Real.cos l) ≤ (1 + eps) * (1 / 2) := mul_le_mul_of_nonneg_left (by linarith) (by linarith)
    linarith
  have cv : ∀ l, (l = -(Real.pi / 6) ∨ l = Real.pi / 6) →
      C.containsPoint _root_.id eps (LatLng.toPoint _root_.id Real.sin Real.cos ⟨lo, l⟩) = some false ∧
      C.containsPoint _root_.id eps (LatLng.toPoint _root_.id Real.sin Real.cos ⟨Real.pi / 2, l⟩) = some false := by
    intro l hl
    rw [toPoint_eq, toPoint_eq]
    have hcl : Real.cos l = Real.sqrt 3 / 2 := by
      rcases hl with rfl | rfl
      · rw [Real.cos_neg, Real.cos_pi_div_six]
      · rw [Real.cos_pi_div_six]
    constructor
    · apply notin
      intro hx
      simp only [direction] at hx ⊢
      rw [tlo, hcl]
      have cl : 0 < Real.cos lo := Real.cos_pos_of_mem_Ioo ⟨by linarith, lo1⟩
      have m4 : Real.sqrt 3 < 1.75 := by
        rw [Real.sqrt_lt' (by norm_num)]; norm_num
      have m5 : 0 ≤ Real.sqrt 3 := Real.sqrt_nonneg _
      have m6 : (1 + eps) * (Real.sqrt 3 / 2) < 9 / 10 := by nlinarith
      nlinarith [mul_lt_mul_of_pos_left m6 cl]
    · apply notin
      intro hx
      simp only [direction, Real.cos_pi_div_two, zero_mul] at hx
      exact absurd hx (lt_irrefl _)
  have vl : Rect.vertexLoop Real.pi _root_.id Real.sqrt Real.sin Real.cos atan2 eps r C 4 0 = some false := by
    have n0 := notrect (V 0) (by rw [g0]; exact nm.2) (by rw [g0]; linarith) (by rw [g0]; linarith)
    have n1 := notrect (V 1) (by rw [g1]; exact nm.1) (by rw [g1]; linarith) (by rw [g1]; linarith)
    have n2 := notrect (V 2) (by rw [g2]; exact nm.1) (by rw [g2]; linarith) (by rw [g2]; linarith)
    have n3 := notrect (V 3) (by rw [g3]; exact nm.2) (by rw [g3]; linarith) (by rw [g3]; linarith)
    have w0 := (cv (-(Real.pi / 6)) (Or.inl rfl)).1
    have w1 := (cv (Real.pi / 6) (Or.inr rfl)).1
    have w2 := (cv (Real.pi / 6) (Or.inr rfl)).2
    have w3 := (cv (-(Real.pi / 6)) (Or.inl rfl)).2
    have x0 : r.vertex 0 = ⟨lo, -(Real.pi / 6)⟩ := rfl
    have x1 : r.vertex (0 + 1) = ⟨lo, Real.pi / 6⟩ := rfl
    have x2 : r.vertex (0 + 1 + 1) = ⟨Real.pi / 2, Real.pi / 6⟩ := rfl
    have x3 : r.vertex (0 + 1 + 1 + 1) = ⟨Real.pi / 2, -(Real.pi / 6)⟩ := rfl
    have y0 := hV 0 (by norm_num)
    have y1 : C.vertex _root_.id Real.sqrt (0 + 1) = some (V 1) := hV 1 (by norm_num)
    have y2 : C.vertex _root_.id Real.sqrt (0 + 1 + 1) = some (V 2) := hV 2 (by norm_num)
    have y3 : C.vertex _root_.id Real.sqrt (0 + 1 + 1 + 1) = some (V 3) := hV 3 (by norm_num)
    rw [← x0] at w0
    rw [← x1] at w1
    rw [← x2] at w2
    rw [← x3] at w3
    simp only [Rect.vertexLoop, y0, y1, y2, y3, n0, n1, n2, n3, w0, w1, w2, w3, Option.bind_eq_bind, Option.bind_some, Bool.false_eq_true, if_false]
  have el : Rect.edgeLoop Real.pi _root_.id Real.sqrt Real.sin Real.cos atan2 r C 4 0 = some false := by
    have y0 := hV 0 (by norm_num)
    have y1 : C.vertex _root_.id Real.sqrt (0 + 1) = some (V 1) := hV 1 (by norm_num)
    have y2 : C.vertex _root_.id Real.sqrt (0 + 1 + 1) = some (V 2) := hV 2 (by norm_num)
    have y3 : C.vertex _root_.id Real.sqrt (0 + 1 + 1 + 1) = some (V 3) := hV 3 (by norm_num)
    have y1' : C.vertex _root_.id Real.sqrt ((0 + 1) &&& 3) = some (V 1) := hV 1 (by norm_num)
    have y2' : C.vertex _root_.id Real.sqrt ((0 + 1 + 1) &&& 3) = some (V 2) := hV 2 (by norm_num)
    have y3' : C.vertex _root_.id Real.sqrt ((0 + 1 + 1 + 1) &&& 3) = some (V 3) := hV 3 (by norm_num)
    have y0' : C.vertex _root_.id Real.sqrt ((0 + 1 + 1 + 1 + 1) &&& 3) = some (V 0) := hV 0 (by norm_num)
    have l : ∀ k, (LatLng.ofPoint _root_.id Real.sqrt atan2 (V k)).lng = lngOf atan2 (V k) := fun _ => rfl
    -- edges 1 to 3 are skipped
    have skip : ∀ a b, (a = Real.pi / 4 ∨ a = -(Real.pi / 4)) → (b = Real.pi / 4 ∨ b = -(Real.pi / 4)) → b ≤ a →
        r.lng.intersects Real.pi (S1.Interval.new Real.pi a b) = false := by
      intro a b ha hb hba
      have a1 : -Real.pi < a := by rcases ha with rfl | rfl <;> linarith
      have a2 : a ≤ Real.pi := by rcases ha with rfl | rfl <;> linarith
      have b1 : -Real.pi < b := by rcases hb with rfl | rfl <;> linarith
      have b2 : b ≤ Real.pi := by rcases hb with rfl | rfl <;> linarith
      rw [new_pair a1 b1]
      have ok : S1.Ok Real.pi ⟨a, b⟩ := ⟨a1.le, a2, b1.le, b2, fun h => absurd h a1.ne', fun h => absurd h b1.ne'⟩
      rw [Bool.eq_false_iff, Ne, S1.c50_intersects hp (S1.isValid_iff.2 okl) (S1.isValid_iff.2 ok)]
      rintro ⟨p, hp1, hp2⟩
      rw [S1.pts_toPi hp okl hp1.1 hp1.2.1, S1.mem_iff] at hp1
      have hr2 := hp2.1
      rw [S1.pts_toPi hp ok hp2.1 hp2.2.1, S1.mem_iff] at hp2
      simp only [hrdef] at hp1
      dsimp only at hp2
      generalize S1.Interval.toPi Real.pi p = q at *
      rcases hp1 with ⟨_, k1, k2⟩ | ⟨k1, _⟩
      · rcases hp2 with ⟨m0, m1, m2⟩ | ⟨m0, _, m1 | m1⟩
        · rcases ha with rfl | rfl <;> rcases hb with rfl | rfl <;> linarith
        · rcases ha with rfl | rfl <;> rcases hb with rfl | rfl <;> linarith
        · rcases ha with rfl | rfl <;> rcases hb with rfl | rfl <;> linarith
      · linarith
    have s1 := skip (lngOf atan2 (V 1)) (lngOf atan2 (V 2)) (Or.inl g1) (Or.inl g2) (by rw [g1, g2])
    have s2 := skip (lngOf atan2 (V 2)) (lngOf atan2 (V 3)) (Or.inl g2) (Or.inr g3) (by rw [g2, g3]; linarith)
    have s3 := skip (lngOf atan2 (V 3)) (lngOf atan2 (V 0)) (Or.inr g3) (Or.inr g0) (by rw [g3, g0])
    -- edge 0 is below the rectangle
    have below : ∀ {s t : ℝ}, 0 ≤ s → 0 ≤ t → (lin s (V 0) t (V 1)).z ≤ 0 := by
      intro s t hs ht
      rw [q0, q1]
      simp only [lin, smul]
      nlinarith [mul_nonneg hs p0.le, mul_nonneg ht p1.le]
    have lngF : ∀ e, Rect.intersectsLngEdge _root_.id Real.sin Real.cos (V 0) (V 1) r.lat e = false := by
      intro e
      rw [Bool.eq_false_iff]
      intro hcon
      obtain ⟨φ, s, t, k, f1, f2, s0, t0, k0, ee⟩ := lngEdge_sound (lo := lo) (hi := Real.pi / 2) (by linarith) lo1.le le_rfl hcon
      have b := below s0.le t0.le
      rw [ee] at b
      have : 0 < Real.sin φ := Real.sin_pos_of_pos_of_lt_pi (by linarith) (by linarith)
      have := mul_pos k0 this
      exact absurd b (not_le.2 this)
    have hab : ¬ IsZero (cross (V 0) (V 1)) := by
      rintro ⟨z1, z2, z3⟩
      rw [q0, q1] at z1
      simp only [cross, smul] at z1
      nlinarith [mul_pos p0 p1]
    have latF : ∀ x, 0 < Real.sin x → Rect.intersectsLatEdge Real.pi _root_.id Real.sqrt Real.sin atan2 (V 0) (V 1) x r.lng = false := by
      intro x hx
      rw [Bool.eq_false_iff]
      intro hcon
      obtain ⟨_, p, ⟨_, s, t, s0, t0, rfl⟩, hz, _⟩ := (c93_latEdge h u0 u1 hab x r.lng).1 hcon
      have := below s0 t0
      linarith
    have f1 := latF r.lat.lo (Real.sin_pos_of_pos_of_lt_pi lo0 (by simp only [hrdef]; linarith))
    have f2 := latF r.lat.hi (by simp only [hrdef, Real.sin_pi_div_two]; norm_num)
    simp only [Rect.edgeLoop, y0, y1, y2, y3, y0', y1', y2', y3', l, s1, s2, s3, lngF, f1, f2, Option.bind_eq_bind, Option.bind_some, Bool.false_eq_true,
      Bool.and_false, if_false, Bool.not_false, if_true]
    split_ifs <;> rfl
  unfold Rect.intersectsCell
  rw [if_neg (by rw [hne]; simp), eid, eraw]
  show (if r.containsPoint Real.pi _root_.id Real.sqrt atan2 ⟨1, 0, 0⟩ = true then some true else _) = _
  rw [c0, c1, eB]
  simp only [Option.bind_eq_bind, Option.bind_some, Bool.false_eq_true, if_false, vl, el]
  split_ifs <;> rfl

theorem square_rect : (⟨⟨-1, 1⟩, ⟨-1, 1⟩⟩ : S2.Rect ℝ).isValid Real.pi = true ∧ (⟨⟨-1, 1⟩, ⟨-1, 1⟩⟩ : S2.Rect ℝ).isEmpty = false ∧
    RPts Real.pi (⟨⟨-1, 1⟩, ⟨-1, 1⟩⟩ : S2.Rect ℝ) 0 0 := by
  have hp := Real.pi_gt_three
  have ok : S1.Ok Real.pi (⟨-1, 1⟩ : S1.Interval ℝ) := ⟨by linarith, by linarith, by linarith, by linarith, fun h => by linarith, fun h => by linarith⟩
  refine ⟨isValid_iff.2 ⟨by dsimp only; linarith, by dsimp only; linarith, by dsimp only; linarith, S1.isValid_iff.2 ok, ?_⟩,
    R1.isEmpty_eq_false.2 (by norm_num), ⟨⟨by norm_num, by norm_num⟩, ?_⟩⟩
  · rw [R1.isEmpty_eq_false.2 (by norm_num)]
    symm
    rw [Bool.eq_false_iff, Ne, S1.isEmpty_iff]
    rintro ⟨h, _⟩
    linarith
  · rw [S1.pts_of Real.pi_pos ok (by linarith) (by linarith), S1.mem_iff]
    left; norm_num

-- the hypothesis of `c94_sound` holds for the cell of face 0 and a rectangle about its centre
example {atan2 : ℝ → ℝ → ℝ} (h : IsArg atan2) (rem : ℝ → ℝ) (eps : ℝ) : ∃ c C, Valid c ∧ Cell.fromCellID (_root_.id : ℝ → ℝ) c = some C ∧
    (⟨⟨-1, 1⟩, ⟨-1, 1⟩⟩ : S2.Rect ℝ).intersectsCell Real.pi _root_.id Real.sqrt Real.sin Real.cos Real.arcsin atan2 rem eps C = some true := by
  have hp := Real.pi_pos
  obtain ⟨hv, hne, hin⟩ := square_rect
  obtain ⟨c, C, _, hc, hC, eid, _, _, _, eraw⟩ := face_cell (f := 0) (by norm_num)
  refine ⟨c, C, hc, hC, ?_⟩
  unfold Rect.intersectsCell
  rw [if_neg (by rw [hne]; simp), eid, eraw]
  show (if Rect.containsPoint Real.pi _root_.id Real.sqrt atan2 _ ⟨1, 0, 0⟩ = true then some true else _) = _
  rw [if_pos]
  unfold Rect.containsPoint
  rw [c56_containsLatLng hp hv]
  obtain ⟨e1, e2⟩ := ofPoint_direction h one_pos (φ := 0) (t := 0) (by linarith) (by linarith) (by linarith) (by linarith)
  have e2 := e2 (by linarith) (by linarith)
  have ed : smul 1 (direction 0 0) = ⟨1, 0, 0⟩ := by simp [smul, direction]
  rw [ed] at e1 e2
  show RPts Real.pi _ (S2.LatLng.latitude _root_.id Real.sqrt atan2 ⟨1, 0, 0⟩) (S2.LatLng.longitude _root_.id atan2 ⟨1, 0, 0⟩)
  rw [e1, e2]
  exact hin

-- an edge from the equator to the pole crosses the boundary of that rectangle
example {atan2 : ℝ → ℝ → ℝ} (h : IsArg atan2) : (⟨⟨-1, 1⟩, ⟨-1, 1⟩⟩ : S2.Rect ℝ).boundaryIntersects Real.pi _root_.id Real.sqrt Real.sin Real.cos atan2
    ⟨1, 0, 0⟩ ⟨0, 0, 1⟩ = true := by
  have hp := Real.pi_gt_three
  obtain ⟨hv, hne, hin⟩ := square_rect
  have hc : 0 < Real.cos 1 := Real.cos_one_pos
  have hs : 0 < Real.sin 1 := Real.sin_pos_of_pos_of_lt_pi one_pos (by linarith)
  have hsc := Real.sin_sq_add_cos_sq 1
  have key : Rect.intersectsLatEdge Real.pi _root_.id Real.sqrt Real.sin atan2 ⟨1, 0, 0⟩ ⟨0, 0, 1⟩ 1 (⟨-1, 1⟩ : S1.Interval ℝ) = true := by
    rw [c93_latEdge h (by norm_num [UnitV, dot]) (by norm_num [UnitV, dot]) (by rintro ⟨_, h, _⟩; norm_num [cross] at h)]
    refine ⟨?_, direction 1 0, ⟨unit_direction _ _, Real.cos 1, Real.sin 1, hc.le, hs.le, ?_⟩, rfl, ?_⟩
    · norm_num [dot, cross]
      rw [abs_of_pos hs]
      nlinarith
    · refine vec_ext' ?_ ?_ ?_ <;> simp [lin, direction]
    · have e : atan2 (direction 1 0).y (direction 1 0).x = 0 := by
        have := h.1 (Real.cos 1) 0 hc (by linarith) (by linarith)
        simpa [direction] using this
      rw [e]
      have := hin.2
      exact ((S1.c50_contains Real.pi_pos (isValid_iff.1 hv).lng this.1 this.2.1).1).2 this.2.2
  unfold Rect.boundaryIntersects
  rw [if_neg (by rw [hne]; simp)]
  have hh : (decide ((1 : ℝ) ≠ Real.pi / 2) && Rect.intersectsLatEdge Real.pi _root_.id Real.sqrt Real.sin atan2 ⟨1, 0, 0⟩ ⟨0, 0, 1⟩ 1 (⟨-1, 1⟩ : S1.Interval ℝ)) = true := by
    rw [key, Bool.and_true, decide_eq_true_eq]
    intro h; linarith
  dsimp only
  rw [hh]
  split_ifs <;> first | rfl | contradiction

end Verif
