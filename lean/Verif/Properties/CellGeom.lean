import Verif.Properties.Cell
import Verif.Properties.R2

/-!
# Vertices, edges and points of a cell, in exact arithmetic: C75

`sqrt` is any function with the property `IsSqrt` (for the reals, `Real.sqrt`).
-/

namespace Verif
open Rust Spec CellID

variable {K : Type} [Field K] [LinearOrder K] [IsStrictOrderedRing K]

/-- `normalize` of a non-zero vector divides by its length. -/
theorem normalize_exact {sqrt : K → K} (hs : IsSqrt sqrt) {p : Vec K} (h : ¬ (p.x = 0 ∧ p.y = 0 ∧ p.z = 0)) :
    ∃ t, 0 < t ∧ p.normalize _root_.id sqrt = smul t p ∧ dot (p.normalize _root_.id sqrt) (p.normalize _root_.id sqrt) = 1 := by
  have hpos : 0 < dot p p := by
    unfold dot
    by_contra hc
    have h1 := mul_self_nonneg p.x
    have h2 := mul_self_nonneg p.y
    have h3 := mul_self_nonneg p.z
    exact h ⟨mul_self_eq_zero.1 (by linarith), mul_self_eq_zero.1 (by linarith), mul_self_eq_zero.1 (by linarith)⟩
  obtain ⟨r1, r2⟩ := hs (dot p p) hpos.le
  have r3 : 0 < sqrt (dot p p) := by
    rcases r1.lt_or_eq with h' | h'
    · exact h'
    · rw [← h', mul_zero] at r2; rw [← r2] at hpos; exact absurd hpos (lt_irrefl _)
  have e : p.normalize _root_.id sqrt = smul (1 / sqrt (dot p p)) p := by
    unfold Vec.normalize
    rw [if_neg h]
    simp only [Vec.scale, Vec.norm, Vec.norm2, Vec.dot, _root_.id, smul, Vec.mk.injEq, dot]
    refine ⟨?_, ?_, ?_⟩ <;> ring
  refine ⟨_, by positivity, e, ?_⟩
  rw [e]
  have : dot (smul (1 / sqrt (dot p p)) p) (smul (1 / sqrt (dot p p)) p) = dot p p / (sqrt (dot p p) * sqrt (dot p p)) := by
    simp only [dot, smul]; field_simp
  rw [this, r2, div_self hpos.ne']

theorem faceUV_nonzero {f : Nat} {u v : K} {w : Vec K} (h : faceUVtoXYZ f u v = some w) : ¬ (w.x = 0 ∧ w.y = 0 ∧ w.z = 0) := by
  unfold faceUVtoXYZ at h
  split at h <;> simp only [Option.some.injEq, reduceCtorEq] at h <;> subst h <;> simp

theorem unorm_nonzero {f : Nat} {u : K} {w : Vec K} (h : unorm f u = some w) : ¬ (w.x = 0 ∧ w.y = 0 ∧ w.z = 0) := by
  unfold unorm at h
  split at h <;> simp only [Option.some.injEq, reduceCtorEq] at h <;> subst h <;> simp

theorem vnorm_nonzero {f : Nat} {u : K} {w : Vec K} (h : vnorm f u = some w) : ¬ (w.x = 0 ∧ w.y = 0 ∧ w.z = 0) := by
  unfold vnorm at h
  split at h <;> simp only [Option.some.injEq, reduceCtorEq] at h <;> subst h <;> simp

/-- The rectangle of a cell in exact arithmetic has a positive extent. -/
theorem uvRect_pos {i j s : Int} (h : 0 < s) : (uvRect (_root_.id : K → K) i j s).x.lo < (uvRect (_root_.id : K → K) i j s).x.hi ∧
    (uvRect (_root_.id : K → K) i j s).y.lo < (uvRect (_root_.id : K → K) i j s).y.hi := by
  have key : ∀ i : Int, uvLine (_root_.id : K → K) i < uvLine _root_.id (i + s) := by
    intro i
    refine c59_stToUV_strictMono ?_
    have h' : (0 : K) < (s : K) := by exact_mod_cast h
    simp only [_root_.id]
    push_cast
    gcongr
    linarith
  exact ⟨key i, key j⟩

/-- The corner `k` of a rectangle, counter-clockwise from the lower left. -/
def corner (r : R2.Rect K) : Nat → K × K
  | 0 => (r.x.lo, r.y.lo)
  | 1 => (r.x.hi, r.y.lo)
  | 2 => (r.x.hi, r.y.hi)
  | _ => (r.x.lo, r.y.hi)

/-- **C75.** `vertex(k)` is the unit vector towards corner `k` of the cell's rectangle. -/
theorem c75_vertex {sqrt : K → K} (hs : IsSqrt sqrt) {C : Cell K} (hf : C.face < 6) {k : Nat} (hk : k < 4) :
    ∃ V w t, C.vertex _root_.id sqrt k = some V ∧ faceUVtoXYZ C.face (corner C.uv k).1 (corner C.uv k).2 = some w ∧
      0 < t ∧ V = smul t w ∧ dot V V = 1 := by
  obtain ⟨w, hw⟩ : ∃ w, faceUVtoXYZ C.face (corner C.uv k).1 (corner C.uv k).2 = some w := by
    generalize C.face = f at *
    interval_cases f <;> exact ⟨_, rfl⟩
  obtain ⟨t, h1, h2, h3⟩ := normalize_exact hs (faceUV_nonzero hw)
  refine ⟨_, w, t, ?_, hw, h1, h2, h3⟩
  unfold Cell.vertex
  interval_cases k <;> simp only [R2.Rect.vertices, corner] at hw ⊢ <;> simp [hw]

/-- The normal used by `edge(k)` before normalization, with its properties. -/
theorem edge_normal (C : Cell K) (hf : C.face < 6) {k : Nat} (hk : k < 4) (hx : C.uv.x.lo < C.uv.x.hi) (hy : C.uv.y.lo < C.uv.y.hi)
    (sqrt : K → K) :
    ∃ n a b t, C.edge _root_.id sqrt k = some (n.normalize _root_.id sqrt) ∧ ¬ (n.x = 0 ∧ n.y = 0 ∧ n.z = 0) ∧
      faceUVtoXYZ C.face (corner C.uv k).1 (corner C.uv k).2 = some a ∧
      faceUVtoXYZ C.face (corner C.uv ((k + 1) % 4)).1 (corner C.uv ((k + 1) % 4)).2 = some b ∧ 0 < t ∧ cross a b = smul t n ∧
      ∀ u v w, R2.InRect C.uv ⟨u, v⟩ → faceUVtoXYZ C.face u v = some w → 0 ≤ dot n w := by
  obtain ⟨f, l, o, id, ⟨⟨x0, x1⟩, ⟨y0, y1⟩⟩⟩ := C
  dsimp only at *
  have d1 : 0 < x1 - x0 := sub_pos.2 hx
  have d2 : 0 < y1 - y0 := sub_pos.2 hy
  interval_cases k
  all_goals interval_cases f
  all_goals
    first
    | refine ⟨_, _, _, x1 - x0, rfl, ?_, rfl, rfl, d1, ?_, ?_⟩
      · simp [Vec.scale]
      · simp only [cross, smul, corner, Vec.scale, Vec.mk.injEq, _root_.id]
        refine ⟨?_, ?_, ?_⟩ <;> ring
      · intro u v w hin hw
        obtain ⟨⟨h1, h2⟩, h3, h4⟩ := hin
        dsimp only at h1 h2 h3 h4
        simp only [faceUVtoXYZ, Option.some.injEq] at hw
        subst hw
        simp only [dot, Vec.scale, _root_.id]
        linarith
    | refine ⟨_, _, _, y1 - y0, rfl, ?_, rfl, rfl, d2, ?_, ?_⟩
      · simp [Vec.scale]
      · simp only [cross, smul, corner, Vec.scale, Vec.mk.injEq, _root_.id]
        refine ⟨?_, ?_, ?_⟩ <;> ring
      · intro u v w hin hw
        obtain ⟨⟨h1, h2⟩, h3, h4⟩ := hin
        dsimp only at h1 h2 h3 h4
        simp only [faceUVtoXYZ, Option.some.injEq] at hw
        subst hw
        simp only [dot, Vec.scale, _root_.id]
        linarith

/-- **C75.** `edge(k)` is the unit normal of the great circle from vertex `k` to vertex `k + 1`, and all points of the cell are on
its inner side. -/
theorem c75_edge {sqrt : K → K} (hs : IsSqrt sqrt) {c : CellID} {C : Cell K} (hc : Valid c) (hC : Cell.fromCellID _root_.id c = some C)
    {k : Nat} (hk : k < 4) :
    ∃ E V W t, C.edge _root_.id sqrt k = some E ∧ C.vertex _root_.id sqrt k = some V ∧ C.vertex _root_.id sqrt ((k + 1) % 4) = some W ∧
      dot E E = 1 ∧ 0 < t ∧ cross V W = smul t E ∧
      ∀ u v w, R2.InRect C.uv ⟨u, v⟩ → faceUVtoXYZ C.face u v = some w → 0 ≤ dot E w := by
  have r1 := (c68_from (_root_.id : K → K) hc hc.level hc.square hc.faceIJ).1
  rw [hC] at r1
  have hf : C.face < 6 := by rw [Option.some.inj r1]; exact hc.sf_lt
  have hp := uvRect_pos (K := K) (i := ((sr c).1 * ss c : Nat)) (j := ((sr c).2.1 * ss c : Nat)) hc.square.pos
  obtain ⟨n, a, b, t, e1, e2, e3, e4, e5, e6, e7⟩ := edge_normal C hf hk (by rw [Option.some.inj r1]; exact hp.1)
    (by rw [Option.some.inj r1]; exact hp.2) sqrt
  obtain ⟨V, w, r, v1, v2, v3, v4, _⟩ := c75_vertex hs hf hk
  obtain ⟨W, w', r', v1', v2', v3', v4', _⟩ := c75_vertex hs hf (Nat.mod_lt (k + 1) (show 4 > 0 by omega))
  rw [e3] at v2
  rw [e4] at v2'
  obtain rfl := Option.some.inj v2
  obtain rfl := Option.some.inj v2'
  obtain ⟨q, q1, q2, q3⟩ := normalize_exact hs e2
  refine ⟨_, V, W, r * r' * t / q, e1, v1, v1', q3, by positivity, ?_, ?_⟩
  · rw [v4, v4', q2]
    have e6' := e6
    simp only [cross, smul, Vec.mk.injEq] at e6' ⊢
    obtain ⟨g1, g2, g3⟩ := e6'
    refine ⟨?_, ?_, ?_⟩
    · field_simp; linear_combination g1
    · field_simp; linear_combination g2
    · field_simp; linear_combination g3
  · intro u v w hin hw
    have := e7 u v w hin hw
    rw [q2]
    have e : dot (smul q n) w = q * dot n w := by simp only [dot, smul]; ring
    rw [e]
    positivity

theorem faceXYZtoUV_total {f : Nat} (hf : f < 6) (p : Vec K) : ∃ res, faceXYZtoUV (_root_.id : K → K) f p = some res := by
  interval_cases f <;> simp only [faceXYZtoUV, validFaceXYZtoUV, Option.bind_eq_bind, Option.bind_some] <;> split <;> exact ⟨_, rfl⟩

/-- **C75.** `contains_point` holds exactly for the vectors whose projection to the face is within `eps` of the cell's rectangle. -/
theorem c75_containsPoint {c : CellID} {C : Cell K} {eps : K} (he : 0 ≤ eps) (hc : Valid c) (hC : Cell.fromCellID _root_.id c = some C) (p : Vec K) :
    ∃ r, C.containsPoint _root_.id eps p = some r ∧
      (r = true ↔ ∃ u v w t, faceUVtoXYZ C.face u v = some w ∧ 0 < t ∧ p = smul t w ∧ C.uv.x.lo - eps ≤ u ∧ u ≤ C.uv.x.hi + eps ∧
        C.uv.y.lo - eps ≤ v ∧ v ≤ C.uv.y.hi + eps) := by
  have r1 := (c68_from (_root_.id : K → K) hc hc.level hc.square hc.faceIJ).1
  rw [hC] at r1
  have hf : C.face < 6 := by rw [Option.some.inj r1]; exact hc.sf_lt
  have hp := uvRect_pos (K := K) (i := ((sr c).1 * ss c : Nat)) (j := ((sr c).2.1 * ss c : Nat)) hc.square.pos
  have hx : C.uv.x.lo < C.uv.x.hi := by rw [Option.some.inj r1]; exact hp.1
  have hy : C.uv.y.lo < C.uv.y.hi := by rw [Option.some.inj r1]; exact hp.2
  clear r1 hp
  have hexp : C.uv.expandedByMargin _root_.id eps = ⟨⟨C.uv.x.lo - eps, C.uv.x.hi + eps⟩, ⟨C.uv.y.lo - eps, C.uv.y.hi + eps⟩⟩ := by
    have a1 : ¬ C.uv.x.lo > C.uv.x.hi := not_lt.2 hx.le
    have a2 : ¬ C.uv.y.lo > C.uv.y.hi := not_lt.2 hy.le
    have a3 : ¬ C.uv.x.lo - eps > C.uv.x.hi + eps := not_lt.2 (by linarith)
    have a4 : ¬ C.uv.y.lo - eps > C.uv.y.hi + eps := not_lt.2 (by linarith)
    simp [R2.Rect.expandedByMargin, R2.Rect.expanded, R1.Interval.expanded, R1.Interval.isEmpty, a1, a2, a3, a4]
  obtain ⟨⟨n, hn, hnone⟩, hsome⟩ := c60_faceXYZtoUV hf p
  obtain ⟨res, hres⟩ := faceXYZtoUV_total hf p
  unfold Cell.containsPoint
  rw [hres]
  simp only [Option.bind_eq_bind, Option.bind_some]
  -- the face normal and the point of the face
  have hdot : ∀ (u v : K) (w : Vec K), faceUVtoXYZ C.face u v = some w → dot w n = 1 := by
    intro u v w hw
    have hn' := hn
    generalize C.face = f at hf hw hn'
    interval_cases f <;> simp [faceUVtoXYZ, uvwAxis, faceUVWAxes] at hw hn' <;> subst hw <;> subst hn' <;> simp [dot]
  have hinj : ∀ (u v : K) (w : Vec K) (u' v' : K) (w' : Vec K), faceUVtoXYZ C.face u v = some w → faceUVtoXYZ C.face u' v' = some w' → w = w' → u = u' ∧ v = v' := by
    intro u v w u' v' w' hw hw' e
    subst e
    generalize C.face = f at hf hw hw'
    interval_cases f <;> simp [faceUVtoXYZ] at hw hw' <;> subst hw <;> simp at hw' <;> (obtain ⟨rfl, rfl⟩ := hw'; exact ⟨rfl, rfl⟩)
  rcases res with _ | ⟨u, v⟩
  · refine ⟨false, rfl, ?_⟩
    constructor
    · intro h; cases h
    · rintro ⟨u, v, w, t, hw, ht, rfl, _⟩
      have h1 := hnone.1 hres
      have h2 := hdot u v w hw
      have e : dot (smul t w) n = t * dot w n := by simp only [dot, smul]; ring
      rw [e, h2, mul_one] at h1
      exact absurd ht (not_lt.2 h1)
  · refine ⟨_, rfl, ?_⟩
    obtain ⟨w, t, hw, ht, hpw⟩ := hsome u v hres
    rw [hexp, (R2.c55_containsPoint).1]
    constructor
    · rintro ⟨⟨h1, h2⟩, h3, h4⟩
      exact ⟨u, v, w, t, hw, ht, hpw, h1, h2, h3, h4⟩
    · rintro ⟨u', v', w', t', hw', ht', hpw', h1, h2, h3, h4⟩
      have e1 : t = t' := by
        have a1 := hdot u v w hw
        have a2 := hdot u' v' w' hw'
        have a3 : dot p n = t := by
          rw [hpw]
          have e : dot (smul t w) n = t * dot w n := by simp only [dot, smul]; ring
          rw [e, a1, mul_one]
        have a4 : dot p n = t' := by
          rw [hpw']
          have e : dot (smul t' w') n = t' * dot w' n := by simp only [dot, smul]; ring
          rw [e, a2, mul_one]
        rw [← a3, a4]
      subst e1
      have e2 : w = w' := by
        rw [hpw] at hpw'
        obtain ⟨wx, wy, wz⟩ := w
        obtain ⟨wx', wy', wz'⟩ := w'
        simp only [smul, Vec.mk.injEq] at hpw' ⊢
        exact ⟨mul_left_cancel₀ ht.ne' hpw'.1, mul_left_cancel₀ ht.ne' hpw'.2.1, mul_left_cancel₀ ht.ne' hpw'.2.2⟩
      obtain ⟨rfl, rfl⟩ := hinj _ _ _ _ _ _ hw hw' e2
      exact ⟨⟨h1, h2⟩, h3, h4⟩

/-! ## Examples -/

example : ∃ C E V W, Cell.fromCellID (_root_.id : ℝ → ℝ) ⟨0x6060730000000000#64⟩ = some C ∧ C.edge _root_.id Real.sqrt 3 = some E ∧
    C.vertex _root_.id Real.sqrt 3 = some V ∧ C.vertex _root_.id Real.sqrt 0 = some W ∧ dot E E = 1 := by
  have h := (c68_from (_root_.id : ℝ → ℝ) exCell.1 exCell.2.1 exCell.1.square exCell.1.faceIJ).1
  obtain ⟨E, V, W, t, h1, h2, h3, h4, _⟩ := c75_edge isSqrt_real exCell.1 h (k := 3) (by norm_num)
  exact ⟨_, E, V, W, h, h1, h2, h3, h4⟩

end Verif
