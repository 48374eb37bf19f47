import Verif.Properties.CellBound
import Verif.Properties.RectExact

/-!
# The point of a cell that is nearest to a given point

A cell is a convex cone. The nearest point of it is found with compactness of the cell's rectangle; it is a vertex, or a point inside an
edge, or the given point itself.
-/

namespace Verif
open Spec CellID

/-- The scalar product with a vector is an affine function on the face of the cube. -/
theorem face_affine {f : Nat} (hf : f < 6) (g : Vec ℝ) :
    ∃ A B D : ℝ, (∀ u v, ∃ w, faceUVtoXYZ f u v = some w ∧ dot w w = 1 + u ^ 2 + v ^ 2 ∧ dot g w = A + u * B + v * D) ∧ dot g g = A ^ 2 + B ^ 2 + D ^ 2 := by
  interval_cases f
  · exact ⟨g.x, g.y, g.z, fun u v => ⟨_, rfl, by simp only [dot]; ring, by simp only [dot]; ring⟩, by simp only [dot]; ring⟩
  · exact ⟨g.y, -g.x, g.z, fun u v => ⟨_, rfl, by simp only [dot]; ring, by simp only [dot]; ring⟩, by simp only [dot]; ring⟩
  · exact ⟨g.z, -g.x, -g.y, fun u v => ⟨_, rfl, by simp only [dot]; ring, by simp only [dot]; ring⟩, by simp only [dot]; ring⟩
  · exact ⟨-g.x, -g.z, -g.y, fun u v => ⟨_, rfl, by simp only [dot]; ring, by simp only [dot]; ring⟩, by simp only [dot]; ring⟩
  · exact ⟨-g.y, -g.z, g.x, fun u v => ⟨_, rfl, by simp only [dot]; ring, by simp only [dot]; ring⟩, by simp only [dot]; ring⟩
  · exact ⟨-g.z, g.y, g.x, fun u v => ⟨_, rfl, by simp only [dot]; ring, by simp only [dot]; ring⟩, by simp only [dot]; ring⟩

/-- Combinations of points of a face. -/
theorem face_comb {f : Nat} (hf : f < 6) {u v u' v' : ℝ} {w w' : Vec ℝ} (h : faceUVtoXYZ f u v = some w) (h' : faceUVtoXYZ f u' v' = some w') {s t : ℝ}
    (hst : 0 < s + t) : ∃ w'', faceUVtoXYZ f ((s * u + t * u') / (s + t)) ((s * v + t * v') / (s + t)) = some w'' ∧ lin s w t w' = smul (s + t) w'' := by
  interval_cases f <;> obtain rfl := Option.some.inj h <;> obtain rfl := Option.some.inj h' <;> refine ⟨_, rfl, ?_⟩ <;>
    simp only [lin, smul, Vec.mk.injEq] <;> refine ⟨?_, ?_, ?_⟩ <;> field_simp <;> ring

theorem inCell_add {C : Cell ℝ} (hf : C.face < 6) {p q : Vec ℝ} (hp : InCell C p) (hq : InCell C q) {s : ℝ} (hs : 0 < s) : InCell C (lin 1 p s q) := by
  obtain ⟨u, v, w, t, ⟨⟨a1, a2⟩, a3, a4⟩, hw, ht, rfl⟩ := hp
  obtain ⟨u', v', w', t', ⟨⟨b1, b2⟩, b3, b4⟩, hw', ht', rfl⟩ := hq
  dsimp only at a1 a2 a3 a4 b1 b2 b3 b4
  have st : 0 < s * t' := mul_pos hs ht'
  have hT : 0 < t + s * t' := by linarith
  obtain ⟨w'', e1, e2⟩ := face_comb hf hw hw' hT
  refine ⟨_, _, w'', t + s * t', ⟨⟨?_, ?_⟩, ?_, ?_⟩, e1, hT, ?_⟩
  · dsimp only; rw [le_div_iff₀ hT]; nlinarith
  · dsimp only; rw [div_le_iff₀ hT]; nlinarith
  · dsimp only; rw [le_div_iff₀ hT]; nlinarith
  · dsimp only; rw [div_le_iff₀ hT]; nlinarith
  · rw [← e2]
    simp only [lin, smul, Vec.mk.injEq]
    refine ⟨?_, ?_, ?_⟩ <;> ring

theorem inCell_scale {C : Cell ℝ} {p : Vec ℝ} (hp : InCell C p) {s : ℝ} (hs : 0 < s) : InCell C (smul s p) := by
  obtain ⟨u, v, w, t, h1, hw, ht, rfl⟩ := hp
  refine ⟨u, v, w, s * t, h1, hw, mul_pos hs ht, ?_⟩
  simp only [smul, mul_assoc]

theorem inCell_ne {C : Cell ℝ} {p : Vec ℝ} (hp : InCell C p) : 0 < dot p p := by
  obtain ⟨u, v, w, t, h1, hw, ht, rfl⟩ := hp
  have h := faceUV_nonzero hw
  have e : dot (smul t w) (smul t w) = t ^ 2 * (w.x ^ 2 + w.y ^ 2 + w.z ^ 2) := by simp only [dot, smul]; ring
  rw [e]
  refine mul_pos (by positivity) ?_
  by_contra hc
  push Not at hc
  have h1 := sq_nonneg w.x
  have h2 := sq_nonneg w.y
  have h3 := sq_nonneg w.z
  exact h ⟨pow_eq_zero_iff (two_ne_zero) |>.1 (by linarith), pow_eq_zero_iff (two_ne_zero) |>.1 (by linarith), pow_eq_zero_iff (two_ne_zero) |>.1 (by linarith)⟩

/-- The unit vector of a vector of the cell. -/
theorem inCell_unit {C : Cell ℝ} {p : Vec ℝ} (hp : InCell C p) : ∃ s, 0 < s ∧ s ^ 2 = dot p p ∧ InCell C (smul (1 / s) p) ∧ UnitV (smul (1 / s) p) ∧ p = smul s (smul (1 / s) p) := by
  have h := inCell_ne hp
  have hs : 0 < Real.sqrt (dot p p) := Real.sqrt_pos.2 h
  have hq : Real.sqrt (dot p p) ^ 2 = dot p p := Real.sq_sqrt h.le
  refine ⟨Real.sqrt (dot p p), hs, hq, inCell_scale hp (by positivity), ?_, ?_⟩
  · unfold UnitV
    have e : dot (smul (1 / Real.sqrt (dot p p)) p) (smul (1 / Real.sqrt (dot p p)) p) = dot p p / Real.sqrt (dot p p) ^ 2 := by
      simp only [dot, smul]; ring
    rw [e, hq, div_self h.ne']
  · generalize Real.sqrt (dot p p) = s at *
    apply vec_ext' <;> simp only [smul] <;> field_simp

/-- A nearest point exists. -/
theorem cell_max {C : Cell ℝ} (hf : C.face < 6) (hx : C.uv.x.lo < C.uv.x.hi) (hy : C.uv.y.lo < C.uv.y.hi) (c : Vec ℝ) :
    ∃ q, InCell C q ∧ UnitV q ∧ ∀ x, InCell C x → UnitV x → dot x c ≤ dot q c := by
  obtain ⟨A, B, D, key, -⟩ := face_affine hf c
  have hpos : ∀ u v : ℝ, 0 < 1 + u ^ 2 + v ^ 2 := fun u v => by positivity
  have hcont : Continuous (fun z : ℝ × ℝ => (A + z.1 * B + z.2 * D) / Real.sqrt (1 + z.1 ^ 2 + z.2 ^ 2)) := by
    refine Continuous.div (by fun_prop) (by fun_prop) ?_
    intro z
    exact (Real.sqrt_pos.2 (hpos z.1 z.2)).ne'
  obtain ⟨⟨u, v⟩, hm, hmax⟩ := (isCompact_Icc.prod isCompact_Icc).exists_isMaxOn (s := Set.Icc C.uv.x.lo C.uv.x.hi ×ˢ Set.Icc C.uv.y.lo C.uv.y.hi)
    ⟨(C.uv.x.lo, C.uv.y.lo), ⟨⟨le_rfl, hx.le⟩, ⟨le_rfl, hy.le⟩⟩⟩ hcont.continuousOn
  have val : ∀ u v w, faceUVtoXYZ C.face u v = some w → ∀ t, 0 < t → UnitV (smul t w) → dot (smul t w) c = (A + u * B + v * D) / Real.sqrt (1 + u ^ 2 + v ^ 2) := by
    intro u v w hw t ht hu
    obtain ⟨w', e1, e2, e3⟩ := key u v
    rw [hw] at e1
    obtain rfl := Option.some.inj e1
    have hu' : t ^ 2 * (1 + u ^ 2 + v ^ 2) = 1 := by
      rw [← e2]
      refine Eq.trans ?_ hu
      simp only [dot, smul]; ring
    have hs : Real.sqrt (1 + u ^ 2 + v ^ 2) = 1 / t := by
      rw [Real.sqrt_eq_iff_mul_self_eq (hpos u v).le (by positivity)]
      field_simp
      linarith
    have e4 : dot (smul t w) c = t * dot c w := by simp only [dot, smul]; ring
    rw [hs, e4, e3]
    field_simp
  obtain ⟨w, hw, -, -⟩ := key u v
  have hin : InCell C w := ⟨u, v, w, 1, ⟨⟨hm.1.1, hm.1.2⟩, hm.2.1, hm.2.2⟩, hw, one_pos, by simp [smul]⟩
  obtain ⟨s, hs, -, h1, h2, -⟩ := inCell_unit hin
  refine ⟨_, h1, h2, ?_⟩
  rintro x ⟨u', v', w', t', ⟨⟨b1, b2⟩, b3, b4⟩, hw', ht', rfl⟩ ux
  rw [val u v w hw (1 / s) (by positivity) h2, val u' v' w' hw' t' ht' ux]
  exact hmax (a := (u', v')) ⟨⟨b1, b2⟩, b3, b4⟩

theorem le_of_small {X Y M : ℝ} (h : ∀ s, 0 < s → X ≤ Y + s * M) : X ≤ Y := by
  by_contra hc
  push Not at hc
  have hM : 0 < M := by
    have := h 1 one_pos
    linarith
  have := h ((X - Y) / (2 * M)) (by apply div_pos <;> linarith)
  have e : (X - Y) / (2 * M) * M = (X - Y) / 2 := by field_simp
  rw [e] at this
  linarith

/-- The condition of the first order at a nearest point. -/
theorem cell_polar {C : Cell ℝ} (hf : C.face < 6) {q c : Vec ℝ} (hq : InCell C q) (uq : UnitV q) (hmax : ∀ x, InCell C x → UnitV x → dot x c ≤ dot q c)
    (h0 : 0 < dot q c) {x : Vec ℝ} (hx : InCell C x) : dot x c ≤ dot q c * dot q x := by
  refine le_of_small (M := dot q c * dot x x / 2) fun s hs => ?_
  have hy := inCell_add hf hq hx hs
  obtain ⟨r, hr, hr2, h1, h2, h3⟩ := inCell_unit hy
  have h4 := hmax _ h1 h2
  have e1 : dot (smul (1 / r) (lin 1 q s x)) c = (dot q c + s * dot x c) / r := by simp only [dot, smul, lin]; ring
  have e2 : dot (lin 1 q s x) (lin 1 q s x) = dot q q + 2 * s * dot q x + s ^ 2 * dot x x := by simp only [dot, lin]; ring
  rw [e1, div_le_iff₀ hr] at h4
  rw [e2, show dot q q = 1 from uq] at hr2
  have h5 : r ≤ (1 + r ^ 2) / 2 := by nlinarith [sq_nonneg (r - 1)]
  have h6 := mul_le_mul_of_nonneg_left h5 h0.le
  rw [hr2] at h6
  have h7 : s * dot x c ≤ s * (dot q c * dot q x + s * (dot q c * dot x x / 2)) := by nlinarith
  exact le_of_mul_le_mul_left h7 hs

theorem unit_same {w a b : Vec ℝ} {s t : ℝ} (hs : 0 < s) (ht : 0 < t) (ea : a = smul s w) (eb : b = smul t w) (ua : UnitV a) (ub : UnitV b) : a = b := by
  have h1 : s ^ 2 * dot w w = 1 := by rw [← ua, ea]; simp only [dot, smul]; ring
  have h2 : t ^ 2 * dot w w = 1 := by rw [← ub, eb]; simp only [dot, smul]; ring
  have h3 : s ^ 2 = t ^ 2 := by
    have hw : dot w w ≠ 0 := by rintro h; rw [h] at h1; norm_num at h1
    exact mul_right_cancel₀ hw (h1.trans h2.symm)
  have h4 : s = t := by
    rw [sq_eq_sq₀ hs.le ht.le] at h3; exact h3
  rw [ea, eb, h4]

/-- The vertices and edges of a cell. -/
structure CellEdges (C : Cell ℝ) (V E : Nat → Vec ℝ) : Prop where
  vert : ∀ k, k < 4 → UnitV (V k) ∧ ∃ w t, faceUVtoXYZ C.face (corner C.uv k).1 (corner C.uv k).2 = some w ∧ 0 < t ∧ V k = smul t w
  edge : ∀ k, k < 4 → C.edge _root_.id Real.sqrt k = some (E k) ∧ UnitV (E k) ∧ (∃ t, 0 < t ∧ cross (V k) (V ((k + 1) % 4)) = smul t (E k)) ∧
    ∀ x, InCell C x → 0 ≤ dot (E k) x

theorem cellEdges_exist {c : CellID} {C : Cell ℝ} (hc : Valid c) (hC : Cell.fromCellID _root_.id c = some C) :
    ∃ V E, CellEdges C V E ∧ Cap.cellVertices _root_.id Real.sqrt C = some [V 0, V 1, V 2, V 3] := by
  obtain ⟨hf, -, -⟩ := cell_parts hc hC
  obtain ⟨V, v1, v2, v3⟩ := vertices_exact hf
  have key : ∀ k, k < 4 → ∃ E, C.edge _root_.id Real.sqrt k = some E ∧ UnitV E ∧ (∃ t, 0 < t ∧ cross (V k) (V ((k + 1) % 4)) = smul t E) ∧
      ∀ x, InCell C x → 0 ≤ dot E x := by
    intro k hk
    obtain ⟨E, A, B, t, h1, h2, h3, h4, h5, h6, h7⟩ := c75_edge isSqrt_real hc hC hk
    rw [v1 k hk] at h2
    rw [v1 _ (Nat.mod_lt _ (by norm_num))] at h3
    obtain rfl := Option.some.inj h2
    obtain rfl := Option.some.inj h3
    refine ⟨E, h1, h4, ⟨t, h5, h6⟩, ?_⟩
    rintro x ⟨u, v, w, s, hin, hw, hs, rfl⟩
    have := h7 u v w hin hw
    have e : dot E (smul s w) = s * dot E w := by simp only [dot, smul]; ring
    rw [e]
    positivity
  haveI : Nonempty (Vec ℝ) := ⟨⟨0, 0, 0⟩⟩
  choose! E hE using key
  exact ⟨V, E, ⟨v3, hE⟩, v2⟩

/-- A linear form that vanishes on a cell is zero. -/
theorem form_zero {C : Cell ℝ} (hf : C.face < 6) (hx : C.uv.x.lo < C.uv.x.hi) (hy : C.uv.y.lo < C.uv.y.hi) {g : Vec ℝ} (h : ∀ x, InCell C x → dot g x = 0) :
    dot g g = 0 := by
  obtain ⟨A, B, D, key, e⟩ := face_affine hf g
  have val : ∀ u v, C.uv.x.lo ≤ u → u ≤ C.uv.x.hi → C.uv.y.lo ≤ v → v ≤ C.uv.y.hi → A + u * B + v * D = 0 := by
    intro u v h1 h2 h3 h4
    obtain ⟨w, hw, -, h5⟩ := key u v
    rw [← h5]
    exact h w ⟨u, v, w, 1, ⟨⟨h1, h2⟩, h3, h4⟩, hw, one_pos, by simp [smul]⟩
  have a1 := val _ _ le_rfl hx.le le_rfl hy.le
  have a2 := val _ _ hx.le le_rfl le_rfl hy.le
  have a3 := val _ _ le_rfl hx.le hy.le le_rfl
  have hB : B = 0 := by
    have : (C.uv.x.hi - C.uv.x.lo) * B = 0 := by linarith
    rcases mul_eq_zero.1 this with k | k
    · linarith
    · exact k
  have hD : D = 0 := by
    have : (C.uv.y.hi - C.uv.y.lo) * D = 0 := by linarith
    rcases mul_eq_zero.1 this with k | k
    · linarith
    · exact k
  have hA : A = 0 := by rw [hB, hD] at a1; linarith
  rw [e, hA, hB, hD]; ring

/-- The nearest point is inside an edge if it is neither a vertex nor a multiple of `c`. -/
theorem nearest_edge {C : Cell ℝ} (hf : C.face < 6) (hx : C.uv.x.lo < C.uv.x.hi) (hy : C.uv.y.lo < C.uv.y.hi) {V E : Nat → Vec ℝ} (hVE : CellEdges C V E)
    {q c : Vec ℝ} (hq : InCell C q) (uq : UnitV q) (h0 : 0 < dot q c) (hpol : ∀ x, InCell C x → dot x c ≤ dot q c * dot q x)
    (hv : ∀ k, k < 4 → dot (V k) c < dot q c) (hc : ¬ InCell C c) :
    ∃ k l a b, k < 4 ∧ l ≤ 0 ∧ 0 < a ∧ 0 < b ∧ q = lin a (V k) b (V ((k + 1) % 4)) ∧ c = lin (dot q c) q l (E k) := by
  obtain ⟨g, hg⟩ : ∃ g, g = diff c (smul (dot q c) q) := ⟨_, rfl⟩
  have gx : ∀ x, dot g x = dot x c - dot q c * dot q x := by intro x; rw [hg]; simp only [dot, diff, smul]; ring
  have g1 : ∀ x, InCell C x → dot g x ≤ 0 := fun x hx => by rw [gx]; linarith [hpol x hx]
  have g2 : dot g q = 0 := by rw [gx, show dot q q = 1 from uq]; ring
  have g3 : dot g g ≠ 0 := by
    intro h
    have z1 := mul_self_nonneg g.x
    have z2 := mul_self_nonneg g.y
    have z3 := mul_self_nonneg g.z
    simp only [dot] at h
    have e1 : g.x = 0 := mul_self_eq_zero.1 (by linarith)
    have e2 : g.y = 0 := mul_self_eq_zero.1 (by linarith)
    have e3 : g.z = 0 := mul_self_eq_zero.1 (by linarith)
    apply hc
    have : c = smul (dot q c) q := by
      rw [hg] at e1 e2 e3
      simp only [diff] at e1 e2 e3
      exact vec_ext' (by linarith) (by linarith) (by linarith)
    rw [this]
    exact inCell_scale hq h0
  obtain ⟨A, B, D, key, ee⟩ := face_affine hf g
  obtain ⟨u, v, w, t, ⟨⟨u1, u2⟩, v1, v2⟩, hw, ht, eq⟩ := hq
  dsimp only at u1 u2 v1 v2
  have val : ∀ u v, C.uv.x.lo ≤ u → u ≤ C.uv.x.hi → C.uv.y.lo ≤ v → v ≤ C.uv.y.hi → A + u * B + v * D ≤ 0 := by
    intro u v h1 h2 h3 h4
    obtain ⟨w, hw, -, h5⟩ := key u v
    rw [← h5]
    exact g1 w ⟨u, v, w, 1, ⟨⟨h1, h2⟩, h3, h4⟩, hw, one_pos, by simp [smul]⟩
  have val0 : A + u * B + v * D = 0 := by
    obtain ⟨w', hw', -, h5⟩ := key u v
    rw [hw] at hw'
    obtain rfl := Option.some.inj hw'
    rw [← h5]
    rw [eq] at g2
    have : t * dot g w = 0 := by rw [← g2]; simp only [dot, smul]; ring
    rcases mul_eq_zero.1 this with k | k
    · linarith
    · exact k
  have Bp : 0 < B → u = C.uv.x.hi := by
    intro hB
    have := val C.uv.x.hi v hx.le le_rfl v1 v2
    have h' : (C.uv.x.hi - u) * B ≤ 0 := by linarith
    by_contra hne
    have := mul_pos (sub_pos.2 (lt_of_le_of_ne u2 hne)) hB
    linarith
  have Bn : B < 0 → u = C.uv.x.lo := by
    intro hB
    have := val C.uv.x.lo v le_rfl hx.le v1 v2
    have h' : (C.uv.x.lo - u) * B ≤ 0 := by linarith
    by_contra hne
    have := mul_pos_of_neg_of_neg (sub_neg.2 (lt_of_le_of_ne u1 (Ne.symm hne))) hB
    linarith
  have Dp : 0 < D → v = C.uv.y.hi := by
    intro hD
    have := val u C.uv.y.hi u1 u2 hy.le le_rfl
    have h' : (C.uv.y.hi - v) * D ≤ 0 := by linarith
    by_contra hne
    have := mul_pos (sub_pos.2 (lt_of_le_of_ne v2 hne)) hD
    linarith
  have Dn : D < 0 → v = C.uv.y.lo := by
    intro hD
    have := val u C.uv.y.lo u1 u2 le_rfl hy.le
    have h' : (C.uv.y.lo - v) * D ≤ 0 := by linarith
    by_contra hne
    have := mul_pos_of_neg_of_neg (sub_neg.2 (lt_of_le_of_ne v1 (Ne.symm hne))) hD
    linarith
  -- not a corner
  have ncorner : ∀ k, k < 4 → (u, v) ≠ corner C.uv k := by
    intro k hk h
    obtain ⟨uV, w', t', e1, e2, e3⟩ := hVE.vert k hk
    rw [← h] at e1
    dsimp only at e1
    rw [hw] at e1
    obtain rfl := Option.some.inj e1
    have := unit_same ht e2 eq e3 uq uV
    have h' := hv k hk
    rw [← this] at h'
    exact lt_irrefl _ h'
  have nll : ¬ (u = C.uv.x.lo ∧ v = C.uv.y.lo) := fun h => ncorner 0 (by norm_num) (by simp [corner, h])
  have nhl : ¬ (u = C.uv.x.hi ∧ v = C.uv.y.lo) := fun h => ncorner 1 (by norm_num) (by simp [corner, h])
  have nhh : ¬ (u = C.uv.x.hi ∧ v = C.uv.y.hi) := fun h => ncorner 2 (by norm_num) (by simp [corner, h])
  have nlh : ¬ (u = C.uv.x.lo ∧ v = C.uv.y.hi) := fun h => ncorner 3 (by norm_num) (by simp [corner, h])
  -- inside an edge
  have main : ∃ k th, k < 4 ∧ 0 < th ∧ th < 1 ∧ u = (1 - th) * (corner C.uv k).1 + th * (corner C.uv ((k + 1) % 4)).1 ∧
      v = (1 - th) * (corner C.uv k).2 + th * (corner C.uv ((k + 1) % 4)).2 ∧ A + (corner C.uv k).1 * B + (corner C.uv k).2 * D = 0 ∧
      A + (corner C.uv ((k + 1) % 4)).1 * B + (corner C.uv ((k + 1) % 4)).2 * D = 0 := by
    have hX : 0 < C.uv.x.hi - C.uv.x.lo := by linarith
    have hY : 0 < C.uv.y.hi - C.uv.y.lo := by linarith
    rcases lt_trichotomy B 0 with b | b | b <;> rcases lt_trichotomy D 0 with d | d | d
    · exact absurd ⟨Bn b, Dn d⟩ nll
    · have hu := Bn b
      have l1 : C.uv.y.lo < v := lt_of_le_of_ne v1 (fun h => nll ⟨hu, h.symm⟩)
      have l2 : v < C.uv.y.hi := lt_of_le_of_ne v2 (fun h => nlh ⟨hu, h⟩)
      rw [d, hu] at val0
      refine ⟨3, (C.uv.y.hi - v) / (C.uv.y.hi - C.uv.y.lo), by norm_num, by apply div_pos <;> linarith, (div_lt_one hY).2 (by linarith), ?_, ?_, ?_, ?_⟩ <;>
        simp only [corner, d]
      · rw [hu]; ring
      · field_simp; ring
      · linarith
      · linarith
    · exact absurd ⟨Bn b, Dp d⟩ nlh
    · have hv' := Dn d
      have l1 : C.uv.x.lo < u := lt_of_le_of_ne u1 (fun h => nll ⟨h.symm, hv'⟩)
      have l2 : u < C.uv.x.hi := lt_of_le_of_ne u2 (fun h => nhl ⟨h, hv'⟩)
      rw [b, hv'] at val0
      refine ⟨0, (u - C.uv.x.lo) / (C.uv.x.hi - C.uv.x.lo), by norm_num, by apply div_pos <;> linarith, (div_lt_one hX).2 (by linarith), ?_, ?_, ?_, ?_⟩ <;>
        simp only [corner, b]
      · field_simp; ring
      · rw [hv']; ring
      · linarith
      · linarith
    · exfalso
      apply g3
      rw [ee, b, d]
      rw [b, d] at val0
      rw [show A = 0 by linarith]; ring
    · have hv' := Dp d
      have l1 : C.uv.x.lo < u := lt_of_le_of_ne u1 (fun h => nlh ⟨h.symm, hv'⟩)
      have l2 : u < C.uv.x.hi := lt_of_le_of_ne u2 (fun h => nhh ⟨h, hv'⟩)
      rw [b, hv'] at val0
      refine ⟨2, (C.uv.x.hi - u) / (C.uv.x.hi - C.uv.x.lo), by norm_num, by apply div_pos <;> linarith, (div_lt_one hX).2 (by linarith), ?_, ?_, ?_, ?_⟩ <;>
        simp only [corner, b]
      · field_simp; ring
      · rw [hv']; ring
      · linarith
      · linarith
    · exact absurd ⟨Bp b, Dn d⟩ nhl
    · have hu := Bp b
      have l1 : C.uv.y.lo < v := lt_of_le_of_ne v1 (fun h => nhl ⟨hu, h.symm⟩)
      have l2 : v < C.uv.y.hi := lt_of_le_of_ne v2 (fun h => nhh ⟨hu, h⟩)
      rw [d, hu] at val0
      refine ⟨1, (v - C.uv.y.lo) / (C.uv.y.hi - C.uv.y.lo), by norm_num, by apply div_pos <;> linarith, (div_lt_one hY).2 (by linarith), ?_, ?_, ?_, ?_⟩ <;>
        simp only [corner, d]
      · rw [hu]; ring
      · field_simp; ring
      · linarith
      · linarith
    · exact absurd ⟨Bp b, Dp d⟩ nhh
  obtain ⟨k, th, hk, t0, t1, eu, ev, z1, z2⟩ := main
  have hk' : (k + 1) % 4 < 4 := Nat.mod_lt _ (by norm_num)
  obtain ⟨uV, w1, s1, e1, p1, f1⟩ := hVE.vert k hk
  obtain ⟨uW, w2, s2, e2, p2, f2⟩ := hVE.vert _ hk'
  obtain ⟨-, uE, ⟨r, hr, hcr⟩, hE⟩ := hVE.edge k hk
  obtain ⟨w1', i1, -, j1⟩ := key (corner C.uv k).1 (corner C.uv k).2
  rw [e1] at i1
  obtain rfl := Option.some.inj i1
  obtain ⟨w2', i2, -, j2⟩ := key (corner C.uv ((k + 1) % 4)).1 (corner C.uv ((k + 1) % 4)).2
  rw [e2] at i2
  obtain rfl := Option.some.inj i2
  have gV : dot g (V k) = 0 := by
    have : dot g (V k) = s1 * dot g w1 := by rw [f1]; simp only [dot, smul]; ring
    rw [this, j1, z1, mul_zero]
  have gW : dot g (V ((k + 1) % 4)) = 0 := by
    have : dot g (V ((k + 1) % 4)) = s2 * dot g w2 := by rw [f2]; simp only [dot, smul]; ring
    rw [this, j2, z2, mul_zero]
  -- `g` is a multiple of the normal
  have gE : g = smul (dot g (E k)) (E k) := by
    generalize V k = P at *
    generalize V ((k + 1) % 4) = Q at *
    generalize E k = N at *
    simp only [cross, smul, Vec.mk.injEq] at hcr
    obtain ⟨n1, n2, n3⟩ := hcr
    simp only [dot] at gV gW
    have uN : N.x * N.x + N.y * N.y + N.z * N.z = 1 := uE
    have c1 : g.y * N.z - g.z * N.y = 0 := by
      have : r * (g.y * N.z - g.z * N.y) = 0 := by linear_combination (-g.y) * n3 + g.z * n2 + P.x * gW - Q.x * gV
      rcases mul_eq_zero.1 this with k | k
      · linarith
      · exact k
    have c2 : g.z * N.x - g.x * N.z = 0 := by
      have : r * (g.z * N.x - g.x * N.z) = 0 := by linear_combination (-g.z) * n1 + g.x * n3 + P.y * gW - Q.y * gV
      rcases mul_eq_zero.1 this with k | k
      · linarith
      · exact k
    have c3 : g.x * N.y - g.y * N.x = 0 := by
      have : r * (g.x * N.y - g.y * N.x) = 0 := by linear_combination (-g.x) * n2 + g.y * n1 + P.z * gW - Q.z * gV
      rcases mul_eq_zero.1 this with k | k
      · linarith
      · exact k
    apply vec_ext' <;> simp only [smul, dot]
    · linear_combination (-g.x) * uN + N.y * c3 - N.z * c2
    · linear_combination (-g.y) * uN + N.z * c1 - N.x * c3
    · linear_combination (-g.z) * uN + N.x * c2 - N.y * c1
  refine ⟨k, dot g (E k), t * (1 - th) / s1, t * th / s2, hk, ?_, by apply div_pos; exact mul_pos ht (by linarith); exact p1, by positivity, ?_, ?_⟩
  · by_contra hl
    push Not at hl
    have zero : ∀ x, InCell C x → dot (E k) x = 0 := by
      intro x hx'
      have a1 := g1 x hx'
      rw [gE] at a1
      have e : dot (smul (dot g (E k)) (E k)) x = dot g (E k) * dot (E k) x := by simp only [dot, smul]; ring
      rw [e] at a1
      have a2 := hE x hx'
      by_contra hne
      have := mul_pos hl (lt_of_le_of_ne a2 (Ne.symm hne))
      linarith
    have := form_zero hf hx hy zero
    rw [show dot (E k) (E k) = 1 from uE] at this
    norm_num at this
  · obtain ⟨w3, i3, j3⟩ := face_comb hf e1 e2 (s := 1 - th) (t := th) (by linarith)
    rw [show 1 - th + th = 1 by ring, div_one, div_one, ← eu, ← ev, hw] at i3
    obtain rfl := Option.some.inj i3
    rw [show 1 - th + th = 1 by ring] at j3
    simp only [lin, smul, Vec.mk.injEq, one_mul] at j3
    obtain ⟨j1, j2, j3⟩ := j3
    rw [eq, f1, f2]
    apply vec_ext' <;> simp only [lin, smul]
    · rw [← j1]; field_simp
    · rw [← j2]; field_simp
    · rw [← j3]; field_simp
  · have := gE
    rw [hg] at this
    rw [← hg] at this
    have e1 := congrArg Vec.x gE
    have e2 := congrArg Vec.y gE
    have e3 := congrArg Vec.z gE
    generalize dot g (E k) = l at *
    rw [hg] at e1 e2 e3
    simp only [diff, smul] at e1 e2 e3
    apply vec_ext' <;> simp only [lin] <;> linarith

/-- A half-space within reach. -/
theorem plane_reach {p c n : Vec ℝ} (hp : UnitV p) (hc : UnitV c) (hn : UnitV n) {k : ℝ} (h0 : 0 ≤ k) (h1 : k ≤ dot p c) (h2 : 0 ≤ dot n p) (h3 : dot c n ≤ 0) :
    dot c n * dot c n ≤ 1 - k ^ 2 := by
  obtain ⟨d, hd⟩ : ∃ d, d = dot c n := ⟨_, rfl⟩
  obtain ⟨m, hm⟩ : ∃ m, m = dot n p := ⟨_, rfl⟩
  have hx := cauchy (diff p (smul m n)) (diff c (smul d n))
  have e1 : dot (diff p (smul m n)) (diff c (smul d n)) = dot p c - m * d := by
    have : dot (diff p (smul m n)) (diff c (smul d n)) = dot p c - m * dot c n - d * dot n p + m * d * dot n n := by simp only [dot, diff, smul]; ring
    rw [this, show dot n n = 1 from hn, ← hd, ← hm]; ring
  have e2 : dot (diff p (smul m n)) (diff p (smul m n)) = 1 - m ^ 2 := by
    have : dot (diff p (smul m n)) (diff p (smul m n)) = dot p p - 2 * m * dot n p + m ^ 2 * dot n n := by simp only [dot, diff, smul]; ring
    rw [this, show dot n n = 1 from hn, show dot p p = 1 from hp, ← hm]; ring
  have e3 : dot (diff c (smul d n)) (diff c (smul d n)) = 1 - d ^ 2 := by
    have : dot (diff c (smul d n)) (diff c (smul d n)) = dot c c - 2 * d * dot c n + d ^ 2 * dot n n := by simp only [dot, diff, smul]; ring
    rw [this, show dot n n = 1 from hn, show dot c c = 1 from hc, ← hd]; ring
  rw [e1, e2, e3] at hx
  have e4 := dot_self_nonneg (diff c (smul d n))
  rw [e3] at e4
  rw [← hd] at h3 ⊢
  rw [← hm] at h2
  have h4 : k ≤ dot p c - m * d := by nlinarith
  have h5 : k ^ 2 ≤ (dot p c - m * d) ^ 2 := by nlinarith
  have h6 : (1 - m ^ 2) * (1 - d ^ 2) ≤ 1 - d ^ 2 := by nlinarith [sq_nonneg m]
  nlinarith

end Verif
