import Verif.Model.CellBound
import Verif.Proofs.LatLngOrder
import Verif.Properties.CellGeom
import Verif.Properties.CapExact
import Verif.Properties.Cap
import Verif.Properties.EdgeDist

/-!
# The bounding rectangle and the bounding cap of a cell, in exact arithmetic: C87, C88
-/

namespace Verif
open Spec S2 CellID

namespace Spec

/-- `p` is a point of the closed cell: a positive multiple of a point of the cell's rectangle on its face of the cube. -/
def InCell (C : Cell ℝ) (p : Vec ℝ) : Prop :=
  ∃ u v w t, R2.InRect C.uv ⟨u, v⟩ ∧ faceUVtoXYZ C.face u v = some w ∧ 0 < t ∧ p = smul t w

/-- `u` is between `n` and `f` on one side of zero, `n` the nearer to zero. -/
def Side (n u f : ℝ) : Prop := 0 ≤ n ∧ n ≤ u ∧ u ≤ f ∨ n ≤ 0 ∧ u ≤ n ∧ f ≤ u

end Spec

theorem latlng_smul {atan2 : ℝ → ℝ → ℝ} (h : IsArg atan2) {t : ℝ} (ht : 0 < t) {v : Vec ℝ} (hv : ¬ IsZero v) :
    latOf atan2 (smul t v) = latOf atan2 v ∧ lngOf atan2 (smul t v) = lngOf atan2 v := by
  obtain ⟨s, hs, e, a1, a2, b1, b2⟩ := latlng_dir h hv
  have e' : smul t v = smul (t * s) (direction (latOf atan2 v) (lngOf atan2 v)) := by
    conv_lhs => rw [e]
    simp only [smul, mul_assoc]
  obtain ⟨h1, h2⟩ := ofPoint_direction h (mul_pos ht hs) a1 a2 b1 b2
  rw [← e'] at h1 h2
  refine ⟨h1, ?_⟩
  by_cases hx : v.x = 0 ∧ v.y = 0
  · show _root_.id (atan2 (t * v.y) (t * v.x)) = _root_.id (atan2 v.y v.x)
    rw [hx.1, hx.2, mul_zero]
  · refine h2 (lt_of_le_of_ne a1 fun hc => hx ?_) (lt_of_le_of_ne a2 fun hc => hx ?_)
    · rw [e, ← hc]; simp [smul, direction]
    · rw [e, hc]; simp [smul, direction]

/-- The corner chosen for one axis: the end nearer to zero if the axis is horizontal, the other end if it is vertical. -/
theorem cornerIndex_spec {lo hi z : ℝ} (h : lo < hi) (hs : 0 ≤ lo ∨ hi ≤ 0) :
    ∃ n f : ℝ, n ≠ f ∧ (∀ u, lo ≤ u → u ≤ hi → Side n u f) ∧
      (Cell.cornerIndex z (lo + hi) = 0 ∨ Cell.cornerIndex z (lo + hi) = 1) ∧
      (if Cell.cornerIndex z (lo + hi) = 0 then lo else hi) = (if z = 0 then n else f) ∧
      (if 1 - Cell.cornerIndex z (lo + hi) = 0 then lo else hi) = (if z = 0 then f else n) ∧ (n = lo ∧ f = hi ∨ n = hi ∧ f = lo) := by
  unfold Cell.cornerIndex
  rcases hs with hs | hs
  · refine ⟨lo, hi, h.ne, fun u h1 h2 => Or.inl ⟨hs, h1, h2⟩, ?_⟩
    have a : ¬ lo + hi < 0 := by linarith
    have b : lo + hi > 0 := by linarith
    by_cases hz : z = 0 <;> simp [hz, a, b]
  · refine ⟨hi, lo, h.ne', fun u h1 h2 => Or.inr ⟨hs, h2, h1⟩, ?_⟩
    have a : lo + hi < 0 := by linarith
    have b : ¬ lo + hi > 0 := by linarith
    by_cases hz : z = 0 <;> simp [hz, a, b]

theorem uvFromIJ_eq (C : Cell ℝ) {i j : Int} (hi : i = 0 ∨ i = 1) (hj : j = 0 ∨ j = 1) :
    C.uvFromIJ i j = some (if i = 0 then C.uv.x.lo else C.uv.x.hi, if j = 0 then C.uv.y.lo else C.uv.y.hi) := by
  rcases hi with rfl | rfl <;> rcases hj with rfl | rfl <;> rfl

theorem side_sq {n u f : ℝ} (h : Side n u f) : n ^ 2 ≤ u ^ 2 ∧ u ^ 2 ≤ f ^ 2 := by
  rcases h with ⟨a, b, c⟩ | ⟨a, b, c⟩ <;> constructor <;> nlinarith

theorem side_lin {n u f : ℝ} (hn : n ≠ f) (h : Side n u f) : 0 < f - n ∧ 0 ≤ u - n ∧ 0 ≤ f - u ∨ f - n < 0 ∧ u - n ≤ 0 ∧ f - u ≤ 0 := by
  rcases h with ⟨a, b, c⟩ | ⟨a, b, c⟩
  · exact Or.inl ⟨sub_pos.2 (lt_of_le_of_ne (b.trans c) hn), by linarith, by linarith⟩
  · exact Or.inr ⟨sub_neg.2 (lt_of_le_of_ne (c.trans b) hn.symm), by linarith, by linarith⟩

theorem side_cross {n u f m v g : ℝ} (hn : n ≠ f) (hm : m ≠ g) (h : Side n u f) (k : Side m v g) :
    0 < f * g - n * m ∧ 0 ≤ f * v - u * m ∧ 0 ≤ u * g - n * v ∨ f * g - n * m < 0 ∧ f * v - u * m ≤ 0 ∧ u * g - n * v ≤ 0 := by
  have pos : ∀ {n u f m v g : ℝ}, n ≠ f → m ≠ g → (0 ≤ n ∧ n ≤ u ∧ u ≤ f) → (0 ≤ m ∧ m ≤ v ∧ v ≤ g) →
      0 < f * g - n * m ∧ 0 ≤ f * v - u * m ∧ 0 ≤ u * g - n * v := by
    rintro n u f m v g hn hm ⟨a, b, c⟩ ⟨d, e, k⟩
    have s1 := lt_of_le_of_ne (b.trans c) hn
    have s2 := lt_of_le_of_ne (e.trans k) hm
    refine ⟨sub_pos.2 (mul_lt_mul'' s1 s2 a d), sub_nonneg.2 (mul_le_mul c e d (by linarith)), sub_nonneg.2 (mul_le_mul b k (by linarith) (by linarith))⟩
  rcases h with ⟨a, b, c⟩ | ⟨a, b, c⟩ <;> rcases k with ⟨d, e, k⟩ | ⟨d, e, k⟩
  · exact Or.inl (pos hn hm ⟨a, b, c⟩ ⟨d, e, k⟩)
  · have := pos hn (fun e => hm (neg_injective e)) ⟨a, b, c⟩ (m := -m) (v := -v) (g := -g) ⟨by linarith, by linarith, by linarith⟩
    right
    refine ⟨by linarith [this.1], by linarith [this.2.1], by linarith [this.2.2]⟩
  · have := pos (fun e => hn (neg_injective e)) hm (n := -n) (u := -u) (f := -f) ⟨by linarith, by linarith, by linarith⟩ ⟨d, e, k⟩
    right
    refine ⟨by linarith [this.1], by linarith [this.2.1], by linarith [this.2.2]⟩
  · have := pos (fun e => hn (neg_injective e)) (fun e => hm (neg_injective e)) (n := -n) (u := -u) (f := -f) (m := -m) (v := -v) (g := -g) ⟨by linarith, by linarith, by linarith⟩
      ⟨by linarith, by linarith, by linarith⟩
    left
    refine ⟨by linarith [this.1], by linarith [this.2.1], by linarith [this.2.2]⟩

set_option maxHeartbeats 1000000 in
/-- The corners that `rect_bound` chooses are extreme in latitude and longitude. -/
theorem face_extremes {atan2 : ℝ → ℝ → ℝ} (h : IsArg atan2) {f : Nat} (hf : f < 6) {nx fx ny fy : ℝ} (hnx : nx ≠ fx) (hny : ny ≠ fy) :
    ∃ (ua va A B C D : Vec ℝ), uvwAxis f 0 = some ua ∧ uvwAxis f 1 = some va ∧
      faceUVtoXYZ f (if ua.z = 0 then nx else fx) (if va.z = 0 then ny else fy) = some A ∧
      faceUVtoXYZ f (if ua.z = 0 then fx else nx) (if va.z = 0 then fy else ny) = some B ∧
      faceUVtoXYZ f (if ua.z = 0 then nx else fx) (if va.z = 0 then fy else ny) = some C ∧
      faceUVtoXYZ f (if ua.z = 0 then fx else nx) (if va.z = 0 then ny else fy) = some D ∧
      ∀ u v w, Side nx u fx → Side ny v fy → faceUVtoXYZ f u v = some w →
        (latOf atan2 B ≤ latOf atan2 w ∧ latOf atan2 w ≤ latOf atan2 A ∨ latOf atan2 A ≤ latOf atan2 w ∧ latOf atan2 w ≤ latOf atan2 B) ∧
        (0 < hdet C D ∧ 0 ≤ hdet C w ∧ 0 ≤ hdet w D ∨ 0 < hdet D C ∧ 0 ≤ hdet D w ∧ 0 ≤ hdet w C) := by
  have nz : ∀ {u v : ℝ} {w : Vec ℝ}, faceUVtoXYZ f u v = some w → ¬ IsZero w := fun hw => faceUV_nonzero hw
  interval_cases f
  all_goals
    refine ⟨_, _, _, _, _, _, rfl, rfl, rfl, rfl, rfl, rfl, ?_⟩
    intro u v w hu hv hw
    have su := side_sq hu
    have sv := side_sq hv
    have lx := side_lin hnx hu
    have ly := side_lin hny hv
    have lc := side_cross hnx hny hu hv
    have k := fun (a b : ℝ) => @nz a b
    simp only [faceUVtoXYZ, Option.some.injEq] at hw k
    constructor
    · refine lat_between h (nz (by rw [← hw]; rfl)) (k _ _ rfl) (k _ _ rfl) ?_ ?_ ?_
      · subst hw
        simp only [neg_eq_zero, one_ne_zero, if_true, if_false]
        rcases hu with ⟨a, b, c⟩ | ⟨a, b, c⟩ <;> rcases hv with ⟨d, e, g⟩ | ⟨d, e, g⟩ <;>
          first
          | (left; refine ⟨?_, ?_, ?_⟩ <;> linarith)
          | (right; refine ⟨?_, ?_, ?_⟩ <;> linarith)
      · subst hw
        simp only [neg_eq_zero, one_ne_zero, if_true, if_false]
        nlinarith [mul_nonneg (sub_nonneg.2 su.1) (sq_nonneg v), mul_nonneg (sub_nonneg.2 su.2) (sq_nonneg v), mul_nonneg (sub_nonneg.2 sv.1) (sq_nonneg u),
          mul_nonneg (sub_nonneg.2 sv.2) (sq_nonneg u), mul_nonneg (sub_nonneg.2 su.2) (sub_nonneg.2 sv.1), mul_nonneg (sub_nonneg.2 su.1) (sub_nonneg.2 sv.2)]
      · subst hw
        simp only [neg_eq_zero, one_ne_zero, if_true, if_false]
        nlinarith [mul_nonneg (sub_nonneg.2 su.1) (sq_nonneg v), mul_nonneg (sub_nonneg.2 su.2) (sq_nonneg v), mul_nonneg (sub_nonneg.2 sv.1) (sq_nonneg u),
          mul_nonneg (sub_nonneg.2 sv.2) (sq_nonneg u), mul_nonneg (sub_nonneg.2 su.2) (sub_nonneg.2 sv.1), mul_nonneg (sub_nonneg.2 su.1) (sub_nonneg.2 sv.2)]
    · subst hw
      simp only [neg_eq_zero, one_ne_zero, if_true, if_false, hdet]
      first
      | (rcases lx with ⟨a, b, c⟩ | ⟨a, b, c⟩ <;> first
          | (left; refine ⟨?_, ?_, ?_⟩ <;> linarith; done)
          | (right; refine ⟨?_, ?_, ?_⟩ <;> linarith; done))
      | (rcases ly with ⟨a, b, c⟩ | ⟨a, b, c⟩ <;> first
          | (left; refine ⟨?_, ?_, ?_⟩ <;> linarith; done)
          | (right; refine ⟨?_, ?_, ?_⟩ <;> linarith; done))
      | (rcases lc with ⟨a, b, c⟩ | ⟨a, b, c⟩ <;> first
          | (left; refine ⟨?_, ?_, ?_⟩ <;> linarith; done)
          | (right; refine ⟨?_, ?_, ?_⟩ <;> linarith; done))

/-- A cell other than a face is on one side of each axis of its face. -/
theorem cell_side {c : CellID} {C : Cell ℝ} (hc : Valid c) (hC : Cell.fromCellID _root_.id c = some C) (hl : 0 < C.level) :
    (0 ≤ C.uv.x.lo ∨ C.uv.x.hi ≤ 0) ∧ (0 ≤ C.uv.y.lo ∨ C.uv.y.hi ≤ 0) := by
  have r1 := (c68_from (_root_.id : ℝ → ℝ) hc hc.level hc.square hc.faceIJ).1
  rw [hC] at r1
  have r2 := Option.some.inj r1
  have hl' : 0 < lv c := by rw [r2] at hl; exact hl
  have hb := hc.sr_lt
  have hm := hc.ss_mul
  obtain ⟨l, hl2⟩ : ∃ l, lv c = l + 1 := ⟨lv c - 1, by omega⟩
  rw [hl2, pow_succ] at hm hb
  have hm' : 2 ^ l * ss c = 536870912 := by nlinarith
  have mono : Monotone (stToUV (_root_.id : ℝ → ℝ)) := c59_stToUV_strictMono.monotone
  have mid : stToUV _root_.id (1 / 2 : ℝ) = 0 := c59_stToUV_ends.2.1
  have key : ∀ a : Nat, a < 2 ^ l * 2 → 0 ≤ uvLine (_root_.id : ℝ → ℝ) ((a * ss c : Nat) : Int) ∨
      uvLine (_root_.id : ℝ → ℝ) (((a * ss c : Nat) : Int) + ((ss c : Nat) : Int)) ≤ 0 := by
    intro a ha
    rcases Nat.lt_or_ge a (2 ^ l) with h | h
    · right
      have h1 : (a + 1) * ss c ≤ 536870912 := by rw [← hm']; exact Nat.mul_le_mul_right _ h
      have h2 : ((a : ℝ) + 1) * (ss c : ℝ) ≤ 536870912 := by exact_mod_cast h1
      rw [← mid]
      refine mono ?_
      simp only [_root_.id]
      push_cast
      norm_num
      linarith
    · left
      have h1 : 536870912 ≤ a * ss c := by rw [← hm']; exact Nat.mul_le_mul_right _ h
      have h2 : (536870912 : ℝ) ≤ (a : ℝ) * (ss c : ℝ) := by exact_mod_cast h1
      rw [← mid]
      refine mono ?_
      simp only [_root_.id]
      push_cast
      norm_num
      linarith
  rw [r2]
  exact ⟨key _ hb.1, key _ hb.2.1⟩

theorem lat_pole {atan2 : ℝ → ℝ → ℝ} (h : IsArg atan2) {p : Vec ℝ} (hp : ¬ IsZero p) (hx : p.x = 0 ∧ p.y = 0) :
    latOf atan2 p = Real.pi / 2 ∨ latOf atan2 p = -(Real.pi / 2) := by
  obtain ⟨s, hs, e, a1, a2, _, _⟩ := latlng_dir h hp
  by_contra hc
  push Not at hc
  have c1 : 0 < Real.cos (latOf atan2 p) := Real.cos_pos_of_mem_Ioo ⟨lt_of_le_of_ne a1 (Ne.symm hc.2), lt_of_le_of_ne a2 hc.1⟩
  have e1 : p.x = s * Real.cos (latOf atan2 p) * Real.cos (lngOf atan2 p) := by
    conv_lhs => rw [e]
    simp only [smul, direction]; ring
  have e2 : p.y = s * Real.cos (latOf atan2 p) * Real.sin (lngOf atan2 p) := by
    conv_lhs => rw [e]
    simp only [smul, direction]; ring
  rw [hx.1] at e1
  rw [hx.2] at e2
  have k : s * Real.cos (latOf atan2 p) ≠ 0 := by positivity
  have z1 := (mul_eq_zero.1 e1.symm).resolve_left k
  have z2 := (mul_eq_zero.1 e2.symm).resolve_left k
  have := Real.sin_sq_add_cos_sq (lngOf atan2 p)
  rw [z1, z2] at this
  norm_num at this

theorem ok_pair {a b : ℝ} (a1 : -Real.pi < a) (a2 : a ≤ Real.pi) (b1 : -Real.pi < b) (b2 : b ≤ Real.pi) :
    (⟨a, b⟩ : S1.Interval ℝ).isValid Real.pi = true := by
  rw [S1.isValid_iff]
  constructor <;> dsimp only <;> first | linarith | (intro h; linarith)

/-- What `rect_bound` computes before it expands the rectangle, for a cell other than a face. -/
theorem rectBound_core {c : CellID} {C : Cell ℝ} (hc : Valid c) (hC : Cell.fromCellID _root_.id c = some C) (hl : 0 < C.level)
    {atan2 : ℝ → ℝ → ℝ} (h : IsArg atan2) (asin rem : ℝ → ℝ) (eps : ℝ) :
    ∃ (lat : R1.Interval ℝ) (P Q S T : Vec ℝ), InCell C P ∧ InCell C Q ∧ InCell C S ∧ InCell C T ∧
      C.rectBound Real.pi _root_.id Real.sqrt asin atan2 rem eps =
        some ((S2.Rect.expanded Real.pi _root_.id rem eps ⟨lat, ⟨lngOf atan2 S, lngOf atan2 T⟩⟩ ⟨2 * eps, 2 * eps⟩).polarClosure Real.pi) ∧
      lat.lo = latOf atan2 P ∧ lat.hi = latOf atan2 Q ∧ 0 < Real.sin (lngOf atan2 T - lngOf atan2 S) ∧ ¬ (S.x = 0 ∧ S.y = 0) ∧
      ¬ (T.x = 0 ∧ T.y = 0) ∧
      ∀ p, InCell C p → ¬ IsZero p ∧ latOf atan2 P ≤ latOf atan2 p ∧ latOf atan2 p ≤ latOf atan2 Q ∧
        (¬ (p.x = 0 ∧ p.y = 0) → S1.Mem Real.pi ⟨lngOf atan2 S, lngOf atan2 T⟩ (lngOf atan2 p)) := by
  have r1 := (c68_from (_root_.id : ℝ → ℝ) hc hc.level hc.square hc.faceIJ).1
  rw [hC] at r1
  have hf : C.face < 6 := by rw [Option.some.inj r1]; exact hc.sf_lt
  have hp := uvRect_pos (K := ℝ) (i := ((sr c).1 * ss c : Nat)) (j := ((sr c).2.1 * ss c : Nat)) hc.square.pos
  have hx : C.uv.x.lo < C.uv.x.hi := by rw [Option.some.inj r1]; exact hp.1
  have hy : C.uv.y.lo < C.uv.y.hi := by rw [Option.some.inj r1]; exact hp.2
  obtain ⟨sx, sy⟩ := cell_side hc hC hl
  obtain ⟨ua, hua⟩ : ∃ ua : Vec ℝ, uvwAxis C.face 0 = some ua := by
    generalize C.face = f at hf
    interval_cases f <;> exact ⟨_, rfl⟩
  obtain ⟨va, hva⟩ : ∃ va : Vec ℝ, uvwAxis C.face 1 = some va := by
    generalize C.face = f at hf
    interval_cases f <;> exact ⟨_, rfl⟩
  obtain ⟨nx, fx, nfx, bx, ix, ex, ex', wx⟩ := cornerIndex_spec (z := ua.z) hx sx
  obtain ⟨ny, fy, nfy, by', iy, ey, ey', wy⟩ := cornerIndex_spec (z := va.z) hy sy
  obtain ⟨ua', va', A, B, S, T, hua', hva', hA, hB, hS, hT, key⟩ := face_extremes h hf nfx nfy
  rw [hua] at hua'
  rw [hva] at hva'
  obtain rfl := Option.some.inj hua'
  obtain rfl := Option.some.inj hva'
  set i := Cell.cornerIndex ua.z (C.uv.x.lo + C.uv.x.hi) with hi
  set j := Cell.cornerIndex va.z (C.uv.y.lo + C.uv.y.hi) with hj
  have ix' : 1 - i = 0 ∨ 1 - i = 1 := by rcases ix with h' | h' <;> rw [h'] <;> simp
  have iy' : 1 - j = 0 ∨ 1 - j = 1 := by rcases iy with h' | h' <;> rw [h'] <;> simp
  have pA : C.pointFromIJ i j = some A := by
    unfold Cell.pointFromIJ
    rw [uvFromIJ_eq C ix iy, ex, ey]
    exact hA
  have pB : C.pointFromIJ (1 - i) (1 - j) = some B := by
    unfold Cell.pointFromIJ
    rw [uvFromIJ_eq C ix' iy', ex', ey']
    exact hB
  have pS : C.pointFromIJ i (1 - j) = some S := by
    unfold Cell.pointFromIJ
    rw [uvFromIJ_eq C ix iy', ex, ey']
    exact hS
  have pT : C.pointFromIJ (1 - i) j = some T := by
    unfold Cell.pointFromIJ
    rw [uvFromIJ_eq C ix' iy, ex', ey]
    exact hT
  have one : ∀ v : Vec ℝ, smul 1 v = v := fun v => by simp [smul]
  have inx : C.uv.x.lo ≤ nx ∧ nx ≤ C.uv.x.hi ∧ C.uv.x.lo ≤ fx ∧ fx ≤ C.uv.x.hi := by
    rcases wx with ⟨rfl, rfl⟩ | ⟨rfl, rfl⟩ <;> exact ⟨by linarith, by linarith, by linarith, by linarith⟩
  have iny : C.uv.y.lo ≤ ny ∧ ny ≤ C.uv.y.hi ∧ C.uv.y.lo ≤ fy ∧ fy ≤ C.uv.y.hi := by
    rcases wy with ⟨rfl, rfl⟩ | ⟨rfl, rfl⟩ <;> exact ⟨by linarith, by linarith, by linarith, by linarith⟩
  have inc : ∀ u v w, (u = nx ∨ u = fx) → (v = ny ∨ v = fy) → faceUVtoXYZ C.face u v = some w → InCell C w := by
    rintro u v w hu hv hw
    refine ⟨u, v, w, 1, ⟨⟨?_, ?_⟩, ?_, ?_⟩, hw, one_pos, (one w).symm⟩
    · rcases hu with rfl | rfl; exacts [inx.1, inx.2.2.1]
    · rcases hu with rfl | rfl; exacts [inx.2.1, inx.2.2.2]
    · rcases hv with rfl | rfl; exacts [iny.1, iny.2.2.1]
    · rcases hv with rfl | rfl; exacts [iny.2.1, iny.2.2.2]
  have or1 : ∀ (z a b : ℝ), (if z = 0 then a else b) = a ∨ (if z = 0 then a else b) = b := fun z a b => by split_ifs <;> simp
  have cA := inc _ _ _ (or1 _ _ _) (or1 _ _ _) hA
  have cB := inc _ _ _ (or1 _ _ _).symm (or1 _ _ _).symm hB
  have cS := inc _ _ _ (or1 _ _ _) (or1 _ _ _).symm hS
  have cT := inc _ _ _ (or1 _ _ _).symm (or1 _ _ _) hT
  have key' : ∀ p, InCell C p → ¬ IsZero p ∧
      (latOf atan2 B ≤ latOf atan2 p ∧ latOf atan2 p ≤ latOf atan2 A ∨ latOf atan2 A ≤ latOf atan2 p ∧ latOf atan2 p ≤ latOf atan2 B) ∧
      (0 < hdet S T ∧ 0 ≤ hdet S p ∧ 0 ≤ hdet p T ∨ 0 < hdet T S ∧ 0 ≤ hdet T p ∧ 0 ≤ hdet p S) := by
    rintro p ⟨u, v, w, t, ⟨⟨u1, u2⟩, v1, v2⟩, hw, ht, rfl⟩
    have nw : ¬ IsZero w := faceUV_nonzero hw
    obtain ⟨k1, k2⟩ := key u v w (bx u u1 u2) (by' v v1 v2) hw
    have d1 : ∀ q, hdet q (smul t w) = t * hdet q w := fun q => by simp only [hdet, smul]; ring
    have d2 : ∀ q, hdet (smul t w) q = t * hdet w q := fun q => by simp only [hdet, smul]; ring
    refine ⟨fun hz => nw ⟨?_, ?_, ?_⟩, ?_, ?_⟩
    · exact (mul_eq_zero.1 hz.1).resolve_left ht.ne'
    · exact (mul_eq_zero.1 hz.2.1).resolve_left ht.ne'
    · exact (mul_eq_zero.1 hz.2.2).resolve_left ht.ne'
    · rw [(latlng_smul h ht nw).1]; exact k1
    · rw [d1, d2, d1, d2]
      rcases k2 with ⟨a, b, c⟩ | ⟨a, b, c⟩
      · exact Or.inl ⟨a, mul_nonneg ht.le b, mul_nonneg ht.le c⟩
      · exact Or.inr ⟨a, mul_nonneg ht.le b, mul_nonneg ht.le c⟩
  have nS : ¬ (S.x = 0 ∧ S.y = 0) := by
    rintro ⟨h1, h2⟩
    rcases (key' A cA).2.2 with ⟨a, _, _⟩ | ⟨a, _, _⟩ <;> unfold hdet at a <;> rw [h1, h2] at a <;> simp at a
  have nT : ¬ (T.x = 0 ∧ T.y = 0) := by
    rintro ⟨h1, h2⟩
    rcases (key' A cA).2.2 with ⟨a, _, _⟩ | ⟨a, _, _⟩ <;> unfold hdet at a <;> rw [h1, h2] at a <;> simp at a
  have hform : C.rectBound Real.pi _root_.id Real.sqrt asin atan2 rem eps =
      some ((S2.Rect.expanded Real.pi _root_.id rem eps ⟨(R1.Interval.fromPoint (latOf atan2 A)).addPoint (latOf atan2 B),
        ((S1.Interval.empty Real.pi).addPoint Real.pi _root_.id (lngOf atan2 S)).addPoint Real.pi _root_.id (lngOf atan2 T)⟩
          ⟨2 * eps, 2 * eps⟩).polarClosure Real.pi) := by
    unfold Cell.rectBound
    rw [if_pos hl]
    simp only [hua, hva, Option.bind_eq_bind, Option.bind_some]
    have e1 : Cell.cornerIndex ua.z (_root_.id (C.uv.x.lo + C.uv.x.hi)) = i := rfl
    have e2 : Cell.cornerIndex va.z (_root_.id (C.uv.y.lo + C.uv.y.hi)) = j := rfl
    rw [e1, e2]
    unfold Cell.latitude Cell.longitude
    simp only [pA, pB, pS, pT, Option.bind_eq_bind, Option.bind_some]
    rfl
  -- the latitudes
  have hlat : ∃ P Q, InCell C P ∧ InCell C Q ∧ ((R1.Interval.fromPoint (latOf atan2 A)).addPoint (latOf atan2 B)).lo = latOf atan2 P ∧
      ((R1.Interval.fromPoint (latOf atan2 A)).addPoint (latOf atan2 B)).hi = latOf atan2 Q ∧
      ∀ p, InCell C p → latOf atan2 P ≤ latOf atan2 p ∧ latOf atan2 p ≤ latOf atan2 Q := by
    unfold R1.Interval.addPoint R1.Interval.fromPoint R1.Interval.isEmpty
    simp only [gt_iff_lt, lt_irrefl, decide_false, Bool.false_eq_true, if_false]
    rcases lt_trichotomy (latOf atan2 A) (latOf atan2 B) with hlt | heq | hgt
    · rw [if_neg (not_lt.2 hlt.le), if_pos hlt]
      refine ⟨A, B, cA, cB, rfl, rfl, fun p hp' => ?_⟩
      rcases (key' p hp').2.1 with ⟨a, b⟩ | ⟨a, b⟩ <;> constructor <;> linarith
    · rw [if_neg (not_lt.2 heq.le), if_neg (not_lt.2 heq.ge)]
      refine ⟨A, A, cA, cA, rfl, rfl, fun p hp' => ?_⟩
      rcases (key' p hp').2.1 with ⟨a, b⟩ | ⟨a, b⟩ <;> constructor <;> linarith
    · rw [if_pos hgt]
      refine ⟨B, A, cB, cA, rfl, rfl, fun p hp' => ?_⟩
      rcases (key' p hp').2.1 with ⟨a, b⟩ | ⟨a, b⟩ <;> constructor <;> linarith
  obtain ⟨P, Q, cP, cQ, eP, eQ, hPQ⟩ := hlat
  rcases (key' S cS).2.2 with ⟨d1, _, _⟩ | ⟨d1, _, _⟩
  · obtain ⟨_, s1⟩ := lng_mem h d1 (by unfold hdet; linarith) d1.le nS
    refine ⟨_, P, Q, S, T, cP, cQ, cS, cT, ?_, eP, eQ, s1, nS, nT, fun p hp' => ⟨(key' p hp').1, (hPQ p hp').1, (hPQ p hp').2, fun hn => ?_⟩⟩
    · rw [hform, (addPoint_pair (lng_range h nS).1 (lng_range h nS).2 (lng_range h nT).1 (lng_range h nT).2 s1).1.1]
    · rcases (key' p hp').2.2 with ⟨a, b, c⟩ | ⟨a, b, c⟩
      · exact (lng_mem h a b c hn).1
      · exfalso; unfold hdet at a d1; linarith
  · obtain ⟨_, s1⟩ := lng_mem h d1 (by unfold hdet; linarith) d1.le nT
    refine ⟨_, P, Q, T, S, cP, cQ, cT, cS, ?_, eP, eQ, s1, nT, nS, fun p hp' => ⟨(key' p hp').1, (hPQ p hp').1, (hPQ p hp').2, fun hn => ?_⟩⟩
    · rw [hform, (addPoint_pair (lng_range h nT).1 (lng_range h nT).2 (lng_range h nS).1 (lng_range h nS).2 s1).1.2]
    · rcases (key' p hp').2.2 with ⟨a, b, c⟩ | ⟨a, b, c⟩
      · exfalso; unfold hdet at a d1; linarith
      · exact (lng_mem h a b c hn).1

/-- A rectangle expanded by a margin contains the points of the rectangle. -/
theorem expanded_pts {r : S2.Rect ℝ} (hv : r.isValid Real.pi = true) {rem : ℝ → ℝ} (hr : S1.IsRem Real.pi rem) {eps : ℝ} (he : 0 ≤ eps)
    {m : LatLng ℝ} (m1 : 0 ≤ m.lat) (m2 : 0 ≤ m.lng) {a b : ℝ} (h : RPts Real.pi r a b) :
    RPts Real.pi (r.expanded Real.pi _root_.id rem eps m) a b :=
  (c72_expanded Real.pi_pos (by linarith [Real.pi_gt_three]) hv hr he m1 m2).2.1 a b a (c56_points hv h) h.1 (by simpa using m1)
    ⟨b, 0, h.2, by simpa using m2, 0, by simp⟩

theorem rectBound_pos {c : CellID} {C : Cell ℝ} (hc : Valid c) (hC : Cell.fromCellID _root_.id c = some C) (hl : 0 < C.level)
    {atan2 : ℝ → ℝ → ℝ} (h : IsArg atan2) {rem : ℝ → ℝ} (hr : S1.IsRem Real.pi rem) {eps : ℝ} (he : 0 ≤ eps) (asin : ℝ → ℝ) :
    ∃ B, C.rectBound Real.pi _root_.id Real.sqrt asin atan2 rem eps = some B ∧ B.isValid Real.pi = true ∧
      ∀ p, InCell C p → B.containsLatLng Real.pi (LatLng.ofPoint _root_.id Real.sqrt atan2 p) = true := by
  have hπ := Real.pi_pos
  have h1 : (1 : ℝ) ≤ Real.pi / 2 := by linarith [Real.pi_gt_three]
  obtain ⟨lat, P, Q, S, T, cP, cQ, cS, cT, e, eP, eQ, s1, nS, nT, key⟩ := rectBound_core hc hC hl h asin rem eps
  set r : S2.Rect ℝ := ⟨lat, ⟨lngOf atan2 S, lngOf atan2 T⟩⟩ with hrr
  have lP := isLL_of h (key P cP).1
  have lQ := isLL_of h (key Q cQ).1
  have lS := lng_range h nS
  have lT := lng_range h nT
  have hlo : lat.lo ≤ lat.hi := by rw [eP, eQ]; exact (key P cP).2.2.1
  have hv : r.isValid Real.pi = true := by
    rw [isValid_iff]
    refine ⟨?_, ?_, ?_, ok_pair lS.1 lS.2 lT.1 lT.2, ?_⟩
    · show -(Real.pi / 2) ≤ lat.lo; rw [eP]; exact lP.1
    · show lat.lo ≤ Real.pi / 2; rw [eP]; exact lP.2.1
    · show lat.hi ≤ Real.pi / 2; rw [eQ]; exact lQ.2.1
    · have a : r.lat.isEmpty = false := R1.isEmpty_eq_false.2 hlo
      have b : r.lng.isEmpty Real.pi = false := by
        rw [← Bool.not_eq_true, S1.isEmpty_iff]
        rintro ⟨_, x2⟩
        have : lngOf atan2 T = -Real.pi := x2
        linarith [lT.1]
      rw [a, b]
  have m0 : 0 ≤ 2 * eps := by linarith
  obtain ⟨v1, _, _⟩ := c72_expanded hπ h1 hv hr he (m := ⟨2 * eps, 2 * eps⟩) m0 m0
  have pts : ∀ p, InCell C p → ¬ (p.x = 0 ∧ p.y = 0) → RPts Real.pi r (latOf atan2 p) (lngOf atan2 p) := by
    intro p hp hn
    obtain ⟨k1, k2, k3, k4⟩ := key p hp
    refine ⟨⟨?_, ?_⟩, ?_⟩
    · show lat.lo ≤ _; rw [eP]; exact k2
    · show _ ≤ lat.hi; rw [eQ]; exact k3
    · exact (S1.pts_of hπ (S1.isValid_iff.1 (ok_pair lS.1 lS.2 lT.1 lT.2)) (lng_range h hn).1 (lng_range h hn).2).2 (k4 hn)
  have pS := expanded_pts hv hr he (m := ⟨2 * eps, 2 * eps⟩) m0 m0 (pts S cS nS)
  have hne : (r.expanded Real.pi _root_.id rem eps ⟨2 * eps, 2 * eps⟩).isEmpty = false := by
    rw [← Bool.not_eq_true]
    intro hcon
    exact (c56_isEmpty hπ v1).1 hcon _ _ pS
  obtain ⟨w1, w2, _, w4⟩ := c56_polarClosure hπ v1 hne
  refine ⟨_, e, w1, fun p hp => ?_⟩
  rw [c56_containsLatLng hπ w1]
  show RPts Real.pi _ (latOf atan2 p) (lngOf atan2 p)
  by_cases hn : p.x = 0 ∧ p.y = 0
  · obtain ⟨k1, k2, k3, _⟩ := key p hp
    have q : RPts Real.pi (r.expanded Real.pi _root_.id rem eps ⟨2 * eps, 2 * eps⟩) (latOf atan2 p) (lngOf atan2 S) := by
      refine expanded_pts hv hr he m0 m0 ⟨⟨?_, ?_⟩, (pts S cS nS).2⟩
      · show lat.lo ≤ _; rw [eP]; exact k2
      · show _ ≤ lat.hi; rw [eQ]; exact k3
    have lp := isLL_of h k1
    refine w4 ⟨lngOf atan2 S, ?_⟩ _ _ lp.2.2.1 lp.2.2.2 q.1
    rcases lat_pole h k1 hn with e' | e' <;> rw [e'] at q
    · exact Or.inl q
    · exact Or.inr q
  · exact w2 _ _ (expanded_pts hv hr he m0 m0 (pts p hp hn))

/-- The rectangle of a cell is within the square of its face. -/
theorem cell_unit {c : CellID} {C : Cell ℝ} (hc : Valid c) (hC : Cell.fromCellID _root_.id c = some C) :
    (-1 ≤ C.uv.x.lo ∧ C.uv.x.hi ≤ 1) ∧ -1 ≤ C.uv.y.lo ∧ C.uv.y.hi ≤ 1 := by
  have r1 := (c68_from (_root_.id : ℝ → ℝ) hc hc.level hc.square hc.faceIJ).1
  rw [hC] at r1
  have r2 := Option.some.inj r1
  have hb := hc.sr_lt
  have hm := hc.ss_mul
  have mono : Monotone (stToUV (_root_.id : ℝ → ℝ)) := c59_stToUV_strictMono.monotone
  have key : ∀ a : Nat, a < 2 ^ lv c → -1 ≤ uvLine (_root_.id : ℝ → ℝ) ((a * ss c : Nat) : Int) ∧
      uvLine (_root_.id : ℝ → ℝ) (((a * ss c : Nat) : Int) + ((ss c : Nat) : Int)) ≤ 1 := by
    intro a ha
    have h1 : (a + 1) * ss c ≤ 1073741824 := by
      refine le_trans (Nat.mul_le_mul_right _ ha) ?_
      omega
    have h2 : ((a : ℝ) + 1) * (ss c : ℝ) ≤ 1073741824 := by exact_mod_cast h1
    constructor
    · rw [← c59_stToUV_ends.1]
      refine mono ?_
      simp only [_root_.id]
      positivity
    · rw [← c59_stToUV_ends.2.2]
      refine mono ?_
      simp only [_root_.id]
      push_cast
      norm_num
      linarith
  rw [r2]
  exact ⟨key _ hb.1, key _ hb.2.1⟩

/-- Latitudes within 45 degrees of the equator. -/
theorem lat_equator {atan2 : ℝ → ℝ → ℝ} (h : IsArg atan2) {p : Vec ℝ} (hp : ¬ IsZero p) (hz : p.z ^ 2 ≤ p.x ^ 2 + p.y ^ 2) :
    -(Real.pi / 4) ≤ latOf atan2 p ∧ latOf atan2 p ≤ Real.pi / 4 := by
  obtain ⟨s, hs, e, a1, a2, _, _⟩ := latlng_dir h hp
  set φ := latOf atan2 p
  rw [e] at hz
  simp only [smul, direction] at hz
  have e2 : (s * (Real.cos φ * Real.cos (lngOf atan2 p))) ^ 2 + (s * (Real.cos φ * Real.sin (lngOf atan2 p))) ^ 2 = s ^ 2 * Real.cos φ ^ 2 := by
    linear_combination (s * Real.cos φ) ^ 2 * Real.sin_sq_add_cos_sq (lngOf atan2 p)
  rw [e2, mul_pow] at hz
  have k : Real.sin φ ^ 2 ≤ Real.cos φ ^ 2 := le_of_mul_le_mul_left hz (by positivity)
  have k2 : 0 ≤ Real.cos (2 * φ) := by
    rw [Real.cos_two_mul]
    have := Real.sin_sq_add_cos_sq φ
    linarith
  have hpi := Real.pi_pos
  constructor
  · by_contra hcon
    push Not at hcon
    have := Real.cos_neg_of_pi_div_two_lt_of_lt (x := -(2 * φ)) (by linarith) (by linarith)
    rw [Real.cos_neg] at this
    linarith
  · by_contra hcon
    push Not at hcon
    have := Real.cos_neg_of_pi_div_two_lt_of_lt (x := 2 * φ) (by linarith) (by linarith)
    linarith

/-- Latitudes of the face around the north pole. -/
theorem lat_polar {atan2 : ℝ → ℝ → ℝ} (h : IsArg atan2) {p : Vec ℝ} (hp : ¬ IsZero p) (h0 : 0 ≤ p.z) (hz : p.x ^ 2 + p.y ^ 2 ≤ 2 * p.z ^ 2) :
    Real.arcsin (Real.sqrt (1 / 3)) ≤ latOf atan2 p := by
  obtain ⟨s, hs, e, a1, a2, _, _⟩ := latlng_dir h hp
  set φ := latOf atan2 p
  rw [e] at hz h0
  simp only [smul, direction] at hz h0
  have e2 : (s * (Real.cos φ * Real.cos (lngOf atan2 p))) ^ 2 + (s * (Real.cos φ * Real.sin (lngOf atan2 p))) ^ 2 = s ^ 2 * Real.cos φ ^ 2 := by
    linear_combination (s * Real.cos φ) ^ 2 * Real.sin_sq_add_cos_sq (lngOf atan2 p)
  rw [e2, mul_pow] at hz
  have k : Real.cos φ ^ 2 ≤ 2 * Real.sin φ ^ 2 := le_of_mul_le_mul_left (by linarith) (show 0 < s ^ 2 by positivity)
  have k0 : 0 ≤ Real.sin φ := nonneg_of_mul_nonneg_right h0 hs
  have k3 : 1 / 3 ≤ Real.sin φ ^ 2 := by
    have := Real.sin_sq_add_cos_sq φ
    linarith
  have k4 : Real.sqrt (1 / 3) ≤ Real.sin φ := by
    rw [← Real.sqrt_sq k0]
    exact Real.sqrt_le_sqrt k3
  calc _ ≤ Real.arcsin (Real.sin φ) := Real.monotone_arcsin k4
    _ = φ := Real.arcsin_sin a1 a2

theorem lng_direction {atan2 : ℝ → ℝ → ℝ} (h : IsArg atan2) {t : ℝ} (h3 : -Real.pi < t) (h4 : t ≤ Real.pi) :
    lngOf atan2 (direction 0 t) = t := by
  have hp := Real.pi_pos
  have := (ofPoint_direction h one_pos (φ := 0) (t := t) (by linarith) (by linarith) h3 h4).2 (by linarith) (by linarith)
  simp only [smul, one_mul] at this
  exact this

/-- A vector in the quadrant between two directions 90 degrees apart. -/
theorem lng_quadrant {atan2 : ℝ → ℝ → ℝ} (h : IsArg atan2) {p : Vec ℝ} {a b : ℝ} (a1 : -Real.pi < a) (a2 : a ≤ Real.pi) (b1 : -Real.pi < b)
    (b2 : b ≤ Real.pi) (hab : 0 < Real.sin (b - a)) (hp : ¬ (p.x = 0 ∧ p.y = 0)) (h1 : 0 ≤ Real.cos a * p.y - Real.sin a * p.x)
    (h2 : 0 ≤ p.x * Real.sin b - p.y * Real.cos b) : S1.Mem Real.pi ⟨a, b⟩ (lngOf atan2 p) := by
  have k := (lng_mem h (a := direction 0 a) (b := direction 0 b) (p := p)
    (by simp only [hdet, direction, Real.cos_zero, one_mul]; rw [Real.sin_sub] at hab; linarith)
    (by simp only [hdet, direction, Real.cos_zero, one_mul]; exact h1)
    (by simp only [hdet, direction, Real.cos_zero, one_mul]; exact h2) hp).1
  rwa [lng_direction h a1 a2, lng_direction h b1 b2] at k

theorem new_pair {a b : ℝ} (a1 : -Real.pi < a) (b1 : -Real.pi < b) : S1.Interval.new Real.pi a b = ⟨a, b⟩ := by
  unfold S1.Interval.new
  rw [if_neg (fun k => a1.ne' k.1), if_neg (fun k => b1.ne' k.1)]

/-- The bound of a face before it is expanded. -/
theorem faceBound_spec {atan2 : ℝ → ℝ → ℝ} (h : IsArg atan2) {f : Nat} (hf : f < 6) {eps : ℝ} (he : 0 ≤ eps) (he1 : eps ≤ 1) :
    ∃ B, Cell.faceBound Real.pi _root_.id Real.sqrt Real.arcsin eps f = some B ∧ B.isValid Real.pi = true ∧
      ∀ u v w t, -1 ≤ u → u ≤ 1 → -1 ≤ v → v ≤ 1 → faceUVtoXYZ f u v = some w → 0 < t →
        RPts Real.pi B (latOf atan2 (smul t w)) (lngOf atan2 (smul t w)) := by
  have hpi := Real.pi_pos
  have hpi3 := Real.pi_gt_three
  have r2 : (0 : ℝ) < Real.sqrt 2 / 2 := by positivity
  have c1 : Real.cos (3 * (Real.pi / 4)) = -(Real.sqrt 2 / 2) := by
    rw [show 3 * (Real.pi / 4) = Real.pi - Real.pi / 4 by ring, Real.cos_pi_sub, Real.cos_pi_div_four]
  have s1 : Real.sin (3 * (Real.pi / 4)) = Real.sqrt 2 / 2 := by
    rw [show 3 * (Real.pi / 4) = Real.pi - Real.pi / 4 by ring, Real.sin_pi_sub, Real.sin_pi_div_four]
  have asin0 : 0 ≤ Real.arcsin (Real.sqrt (1 / 3)) := Real.arcsin_nonneg.2 (Real.sqrt_nonneg _)
  have asin1 := Real.arcsin_le_pi_div_two (Real.sqrt (1 / 3))
  -- the four faces around the equator
  have equ : ∀ (a b : ℝ), -Real.pi < a → a ≤ Real.pi → -Real.pi < b → b ≤ Real.pi → 0 < Real.sin (b - a) →
      (∀ u v w, -1 ≤ u → u ≤ 1 → -1 ≤ v → v ≤ 1 → faceUVtoXYZ f u v = some w → w.z ^ 2 ≤ w.x ^ 2 + w.y ^ 2 ∧ ¬ (w.x = 0 ∧ w.y = 0) ∧
        0 ≤ Real.cos a * w.y - Real.sin a * w.x ∧ 0 ≤ w.x * Real.sin b - w.y * Real.cos b) →
      Cell.faceBound Real.pi _root_.id Real.sqrt Real.arcsin eps f = some ⟨⟨-(Real.pi / 4), Real.pi / 4⟩, S1.Interval.new Real.pi a b⟩ →
      ∃ B, Cell.faceBound Real.pi _root_.id Real.sqrt Real.arcsin eps f = some B ∧ B.isValid Real.pi = true ∧
      ∀ u v w t, -1 ≤ u → u ≤ 1 → -1 ≤ v → v ≤ 1 → faceUVtoXYZ f u v = some w → 0 < t →
        RPts Real.pi B (latOf atan2 (smul t w)) (lngOf atan2 (smul t w)) := by
    intro a b a1 a2 b1 b2 hs key e
    rw [new_pair a1 b1] at e
    have ok := ok_pair a1 a2 b1 b2
    refine ⟨_, e, ?_, fun u v w t u1 u2 v1 v2 hw ht => ?_⟩
    · rw [isValid_iff]
      refine ⟨by dsimp only; linarith, by dsimp only; linarith, by dsimp only; linarith, ok, ?_⟩
      have k1 : (⟨-(Real.pi / 4), Real.pi / 4⟩ : R1.Interval ℝ).isEmpty = false := R1.isEmpty_eq_false.2 (by dsimp only; linarith)
      have k2 : (⟨a, b⟩ : S1.Interval ℝ).isEmpty Real.pi = false := by
        rw [← Bool.not_eq_true, S1.isEmpty_iff]
        rintro ⟨_, x2⟩
        exact b1.ne' x2
      dsimp only
      rw [k1, k2]
    · obtain ⟨q1, q2, q3, q4⟩ := key u v w u1 u2 v1 v2 hw
      have nw : ¬ IsZero w := fun hz => q2 ⟨hz.1, hz.2.1⟩
      obtain ⟨l1, l2⟩ := latlng_smul h ht nw
      rw [l1, l2]
      exact ⟨lat_equator h nw q1, (S1.pts_of hpi (S1.isValid_iff.1 ok) (lng_range h q2).1 (lng_range h q2).2).2
        (lng_quadrant h a1 a2 b1 b2 hs q2 q3 q4)⟩
  have vfull : (S1.Interval.full Real.pi).isValid Real.pi = true := by
    rw [S1.isValid_iff]
    unfold S1.Interval.full
    constructor <;> dsimp only <;> first | linarith | (intro h; linarith)
  have efull : (S1.Interval.full Real.pi).isEmpty Real.pi = false := by
    rw [← Bool.not_eq_true, S1.isEmpty_iff]
    unfold S1.Interval.full
    rintro ⟨_, x2⟩
    dsimp only at x2
    linarith
  have pfull : ∀ {p : Vec ℝ}, ¬ IsZero p → S1.Pts Real.pi (S1.Interval.full Real.pi) (lngOf atan2 p) := by
    intro p hp
    obtain ⟨_, _, _, _, _, b1, b2⟩ := latlng_dir h hp
    refine (S1.pts_of hpi (S1.isValid_iff.1 vfull) b1 b2).2 ?_
    unfold S1.Mem S1.Interval.full
    dsimp only
    rw [if_pos (by linarith)]
    exact ⟨b1.le, b2⟩
  interval_cases f
  · refine equ (-(Real.pi / 4)) (Real.pi / 4) (by linarith) (by linarith) (by linarith) (by linarith) ?_ ?_ rfl
    · rw [show Real.pi / 4 - -(Real.pi / 4) = Real.pi / 2 by ring, Real.sin_pi_div_two]; exact one_pos
    · rintro u v w u1 u2 v1 v2 hw
      obtain rfl := Option.some.inj hw
      simp only [Real.cos_neg, Real.sin_neg, Real.cos_pi_div_four, Real.sin_pi_div_four]
      exact ⟨by nlinarith, fun k => one_ne_zero k.1, by nlinarith, by nlinarith⟩
  · refine equ (Real.pi / 4) (3 * (Real.pi / 4)) (by linarith) (by linarith) (by linarith) (by linarith) ?_ ?_ rfl
    · rw [show 3 * (Real.pi / 4) - Real.pi / 4 = Real.pi / 2 by ring, Real.sin_pi_div_two]; exact one_pos
    · rintro u v w u1 u2 v1 v2 hw
      obtain rfl := Option.some.inj hw
      simp only [Real.cos_pi_div_four, Real.sin_pi_div_four, c1, s1]
      exact ⟨by nlinarith, fun k => one_ne_zero k.2, by nlinarith, by nlinarith⟩
  · refine ⟨_, rfl, ?_, fun u v w t u1 u2 v1 v2 hw ht => ?_⟩
    · rw [isValid_iff]
      have k0 : Cell.poleMinLat (_root_.id : ℝ → ℝ) Real.sqrt Real.arcsin eps = Real.arcsin (Real.sqrt (1 / 3)) - 1 / 2 * eps := rfl
      refine ⟨by dsimp only; rw [k0]; linarith, by dsimp only; rw [k0]; linarith, by dsimp only; linarith, vfull, ?_⟩
      dsimp only
      rw [efull, k0]
      exact R1.isEmpty_eq_false.2 (by dsimp only; linarith)
    · have nw : ¬ IsZero w := faceUV_nonzero hw
      obtain ⟨l1, l2⟩ := latlng_smul h ht nw
      rw [l1, l2]
      refine ⟨⟨?_, (isLL_of h nw).2.1⟩, pfull nw⟩
      obtain rfl := Option.some.inj hw
      have := lat_polar h nw (by dsimp only; linarith) (by dsimp only; nlinarith)
      show Real.arcsin (Real.sqrt (1 / 3)) - 1 / 2 * eps ≤ _
      linarith
  · refine equ (3 * (Real.pi / 4)) (-(3 * (Real.pi / 4))) (by linarith) (by linarith) (by linarith) (by linarith) ?_ ?_ rfl
    · rw [show -(3 * (Real.pi / 4)) - 3 * (Real.pi / 4) = Real.pi / 2 - 2 * Real.pi by ring, Real.sin_sub_two_pi, Real.sin_pi_div_two]; exact one_pos
    · rintro u v w u1 u2 v1 v2 hw
      obtain rfl := Option.some.inj hw
      simp only [Real.cos_neg, Real.sin_neg, c1, s1]
      exact ⟨by nlinarith, fun k => neg_ne_zero.2 one_ne_zero k.1, by nlinarith, by nlinarith⟩
  · refine equ (-(3 * (Real.pi / 4))) (-(Real.pi / 4)) (by linarith) (by linarith) (by linarith) (by linarith) ?_ ?_ rfl
    · rw [show -(Real.pi / 4) - -(3 * (Real.pi / 4)) = Real.pi / 2 by ring, Real.sin_pi_div_two]; exact one_pos
    · rintro u v w u1 u2 v1 v2 hw
      obtain rfl := Option.some.inj hw
      simp only [Real.cos_neg, Real.sin_neg, Real.cos_pi_div_four, Real.sin_pi_div_four, c1, s1]
      exact ⟨by nlinarith, fun k => neg_ne_zero.2 one_ne_zero k.2, by nlinarith, by nlinarith⟩
  · refine ⟨_, rfl, ?_, fun u v w t u1 u2 v1 v2 hw ht => ?_⟩
    · rw [isValid_iff]
      have k0 : Cell.poleMinLat (_root_.id : ℝ → ℝ) Real.sqrt Real.arcsin eps = Real.arcsin (Real.sqrt (1 / 3)) - 1 / 2 * eps := rfl
      refine ⟨by dsimp only; linarith, by dsimp only; linarith, by dsimp only; rw [k0]; linarith, vfull, ?_⟩
      dsimp only
      rw [efull, k0]
      exact R1.isEmpty_eq_false.2 (by dsimp only; linarith)
    · have nw : ¬ IsZero w := faceUV_nonzero hw
      obtain ⟨l1, l2⟩ := latlng_smul h ht nw
      rw [l1, l2]
      have ll := (isLL_of h nw).1
      refine ⟨⟨?_, ?_⟩, pfull nw⟩
      · show -Real.pi / 2 ≤ _; linarith
      obtain rfl := Option.some.inj hw
      have n2 : ¬ IsZero (⟨v, u, 1⟩ : Vec ℝ) := fun k => one_ne_zero k.2.2
      have := lat_polar h n2 (by dsimp only; linarith) (by dsimp only; nlinarith)
      have f2 := lat_flip h n2 (q := ⟨v, u, -1⟩) rfl rfl rfl
      show _ ≤ -(Real.arcsin (Real.sqrt (1 / 3)) - 1 / 2 * eps)
      linarith

/-- **C87.** The bounding rectangle of a cell is valid and contains every point of the cell. -/
theorem c87_rectBound {c : CellID} {C : Cell ℝ} (hc : Valid c) (hC : Cell.fromCellID _root_.id c = some C)
    {atan2 : ℝ → ℝ → ℝ} (h : IsArg atan2) {rem : ℝ → ℝ} (hr : S1.IsRem Real.pi rem) {eps : ℝ} (he : 0 ≤ eps) (he1 : eps ≤ 1) :
    ∃ B, C.rectBound Real.pi _root_.id Real.sqrt Real.arcsin atan2 rem eps = some B ∧ B.isValid Real.pi = true ∧
      ∀ p, InCell C p → B.containsLatLng Real.pi (LatLng.ofPoint _root_.id Real.sqrt atan2 p) = true := by
  by_cases hl : 0 < C.level
  · exact rectBound_pos hc hC hl h hr he _
  have r1 := (c68_from (_root_.id : ℝ → ℝ) hc hc.level hc.square hc.faceIJ).1
  rw [hC] at r1
  have hf : C.face < 6 := by rw [Option.some.inj r1]; exact hc.sf_lt
  obtain ⟨⟨x1, x2⟩, y1, y2⟩ := cell_unit hc hC
  obtain ⟨B, e, hv, key⟩ := faceBound_spec h hf he he1
  have h1 : (1 : ℝ) ≤ Real.pi / 2 := by linarith [Real.pi_gt_three]
  obtain ⟨v1, _, _⟩ := c72_expanded Real.pi_pos h1 hv hr he (m := ⟨eps, 0⟩) he le_rfl
  refine ⟨B.expanded Real.pi _root_.id rem eps ⟨eps, 0⟩, ?_, v1, ?_⟩
  · unfold Cell.rectBound
    rw [if_neg hl, e]
    rfl
  · rintro p ⟨u, v, w, t, ⟨⟨u1, u2⟩, w1, w2⟩, hw, ht, rfl⟩
    rw [c56_containsLatLng Real.pi_pos v1]
    exact expanded_pts hv hr he (m := ⟨eps, 0⟩) he le_rfl
      (key u v w t (x1.trans u1) (u2.trans x2) (y1.trans w1) (w2.trans y2) hw ht)

/-- An arc of less than 180 degrees expanded a little does not become the whole circle. -/
theorem expanded_not_full {i : S1.Interval ℝ} (hv : i.isValid Real.pi = true) (hl : arcLen Real.pi i.lo i.hi < Real.pi) (rem : ℝ → ℝ) {eps m : ℝ}
    (hm : 0 ≤ m) (h1 : 2 * m + 2 * eps ≤ 3) : (i.expanded Real.pi _root_.id rem eps m).isFull Real.pi = false := by
  have hpi := Real.pi_gt_three
  have h3 := S1.c51_len Real.pi_pos hv
  have nf : ∀ x : S1.Interval ℝ, x.lo ≠ -Real.pi → x.isFull Real.pi = false := by
    intro x hx
    rw [← Bool.not_eq_true]
    intro hc
    unfold S1.Interval.isFull at hc
    rw [Bool.and_eq_true, decide_eq_true_eq] at hc
    exact hx hc.1
  unfold S1.Interval.expanded
  rw [if_pos hm]
  by_cases he : i.isEmpty Real.pi = true
  · rw [if_pos he]
    refine nf _ ?_
    rw [((S1.isEmpty_iff).1 he).1]
    linarith
  · rw [if_neg he]
    have h4 := h3.2 (by simpa using he)
    have h5 : ¬ (_root_.id (_root_.id (i.len Real.pi _root_.id + 2 * m) + 2 * eps) ≥ 2 * Real.pi) := by
      simp only [_root_.id]
      rw [h4]
      linarith
    rw [if_neg h5]
    dsimp only
    split_ifs with h6
    · exact nf _ (by dsimp only; linarith)
    · exact nf _ (by linarith)

/-- **C87.** The bounding rectangle of a cell other than a face exceeds the latitudes and the longitudes of the cell by at most
`2 * DBL_EPSILON`, except that it has all longitudes when the cell comes within that distance of a pole. -/
theorem c87_tight {c : CellID} {C : Cell ℝ} (hc : Valid c) (hC : Cell.fromCellID _root_.id c = some C) (hl : 0 < C.level)
    {atan2 : ℝ → ℝ → ℝ} (h : IsArg atan2) {rem : ℝ → ℝ} (hr : S1.IsRem Real.pi rem) {eps : ℝ} (he : 0 ≤ eps) (he4 : eps ≤ 1 / 4) (asin : ℝ → ℝ) {B : S2.Rect ℝ}
    (hB : C.rectBound Real.pi _root_.id Real.sqrt asin atan2 rem eps = some B) {a b : ℝ}
    (hab : RPts Real.pi B a b) :
    (∃ p q, InCell C p ∧ InCell C q ∧ latOf atan2 p - 2 * eps ≤ a ∧ a ≤ latOf atan2 q + 2 * eps) ∧
    ((∃ p, InCell C p ∧ Real.pi / 2 - 2 * eps ≤ |latOf atan2 p|) ∨
      ∃ p q, InCell C p ∧ InCell C q ∧ arcLen Real.pi (lngOf atan2 p) (lngOf atan2 q) < Real.pi ∧
        S1.Near Real.pi (2 * eps) ⟨lngOf atan2 p, lngOf atan2 q⟩ b) := by
  have hπ := Real.pi_pos
  have h1 : (1 : ℝ) ≤ Real.pi / 2 := by linarith [Real.pi_gt_three]
  obtain ⟨lat, P, Q, S, T, cP, cQ, cS, cT, e, eP, eQ, s1, nS, nT, key⟩ := rectBound_core hc hC hl h asin rem eps
  set r : S2.Rect ℝ := ⟨lat, ⟨lngOf atan2 S, lngOf atan2 T⟩⟩ with hrr
  have lP := isLL_of h (key P cP).1
  have lQ := isLL_of h (key Q cQ).1
  have lS := lng_range h nS
  have lT := lng_range h nT
  have hlo : lat.lo ≤ lat.hi := by rw [eP, eQ]; exact (key P cP).2.2.1
  have hv : r.isValid Real.pi = true := by
    rw [isValid_iff]
    refine ⟨?_, ?_, ?_, ok_pair lS.1 lS.2 lT.1 lT.2, ?_⟩
    · show -(Real.pi / 2) ≤ lat.lo; rw [eP]; exact lP.1
    · show lat.lo ≤ Real.pi / 2; rw [eP]; exact lP.2.1
    · show lat.hi ≤ Real.pi / 2; rw [eQ]; exact lQ.2.1
    · have a : r.lat.isEmpty = false := R1.isEmpty_eq_false.2 hlo
      have b : r.lng.isEmpty Real.pi = false := by
        rw [← Bool.not_eq_true, S1.isEmpty_iff]
        rintro ⟨_, x2⟩
        have : lngOf atan2 T = -Real.pi := x2
        linarith [lT.1]
      rw [a, b]
  have m0 : 0 ≤ 2 * eps := by linarith
  obtain ⟨v1, _, v3⟩ := c72_expanded hπ h1 hv hr he (m := ⟨2 * eps, 2 * eps⟩) m0 m0
  have harc : arcLen Real.pi (lngOf atan2 S) (lngOf atan2 T) < Real.pi := by
    have k := sin_pos_cases s1 (by linarith) (by linarith)
    unfold arcLen arcEnd
    rw [if_neg (by rintro ⟨_, x⟩; linarith)]
    rcases k with ⟨c1, c2⟩ | c1
    · rw [if_pos (by linarith)]; exact c2
    · rw [if_neg (by linarith)]; linarith
  have hnf := expanded_not_full (i := ⟨lngOf atan2 S, lngOf atan2 T⟩) (ok_pair lS.1 lS.2 lT.1 lT.2) harc rem (eps := eps) m0 (by linarith)
  set E := r.expanded Real.pi _root_.id rem eps ⟨2 * eps, 2 * eps⟩ with hE
  have hEf : E.lng.isFull Real.pi = false := by
    rw [hE]
    unfold S2.Rect.expanded
    dsimp only
    split_ifs with hsp
    · rw [← Bool.not_eq_true]
      intro hc
      unfold S1.Interval.isFull S2.Rect.empty S1.Interval.empty at hc
      rw [Bool.and_eq_true, decide_eq_true_eq] at hc
      dsimp only at hc
      linarith [hc.1]
    · exact hnf
  have z := v3 hEf
  have lats : ∀ a b, RPts Real.pi E a b → latOf atan2 P - 2 * eps ≤ a ∧ a ≤ latOf atan2 Q + 2 * eps := by
    intro a b hab
    obtain ⟨_, a', z2, z3⟩ := z a b hab
    have z3' := abs_le.1 z3
    have k1 : lat.lo ≤ a' := z2.1
    have k2 : a' ≤ lat.hi := z2.2
    rw [eP] at k1
    rw [eQ] at k2
    have t1 : a - a' ≤ 2 * eps := z3'.2
    have t2 : -(2 * eps) ≤ a - a' := z3'.1
    exact ⟨by linarith, by linarith⟩
  have pS : RPts Real.pi r (latOf atan2 S) (lngOf atan2 S) := by
    obtain ⟨k1, k2, k3, k4⟩ := key S cS
    refine ⟨⟨?_, ?_⟩, ?_⟩
    · show lat.lo ≤ _; rw [eP]; exact k2
    · show _ ≤ lat.hi; rw [eQ]; exact k3
    · exact (S1.pts_of hπ (S1.isValid_iff.1 (ok_pair lS.1 lS.2 lT.1 lT.2)) lS.1 lS.2).2 (k4 nS)
  have pE := expanded_pts hv hr he (m := ⟨2 * eps, 2 * eps⟩) m0 m0 pS
  rw [← hE] at pE
  rw [e] at hB
  rw [← Option.some.inj hB] at hab
  unfold S2.Rect.polarClosure at hab
  split_ifs at hab with hpol
  · have q := lats a (lngOf atan2 S) ⟨hab.1, pE.2⟩
    refine ⟨⟨P, Q, cP, cQ, q.1, q.2⟩, Or.inl ?_⟩
    have hlh := pE.1.1.trans pE.1.2
    rcases hpol with hp' | hp'
    · have := (lats E.lat.lo (lngOf atan2 S) ⟨⟨le_rfl, hlh⟩, pE.2⟩).1
      rw [hp'] at this
      exact ⟨P, cP, by rw [abs_of_nonpos (by linarith)]; linarith⟩
    · have := (lats E.lat.hi (lngOf atan2 S) ⟨⟨hlh, le_rfl⟩, pE.2⟩).2
      rw [hp'] at this
      exact ⟨Q, cQ, by rw [abs_of_nonneg (by linarith)]; linarith⟩
  · have q := lats a b hab
    exact ⟨⟨P, Q, cP, cQ, q.1, q.2⟩, Or.inr ⟨S, T, cS, cT, harc, (z a b hab).1⟩⟩

/-- The four vertices of a cell. -/
theorem vertices_exact {C : Cell ℝ} (hf : C.face < 6) : ∃ V : Nat → Vec ℝ, (∀ k, k < 4 → C.vertex _root_.id Real.sqrt k = some (V k)) ∧
    Cap.cellVertices _root_.id Real.sqrt C = some [V 0, V 1, V 2, V 3] ∧
    ∀ k, k < 4 → UnitV (V k) ∧ ∃ w t, faceUVtoXYZ C.face (corner C.uv k).1 (corner C.uv k).2 = some w ∧ 0 < t ∧ V k = smul t w := by
  obtain ⟨V0, w0, t0, e0, f0, p0, s0, u0⟩ := c75_vertex isSqrt_real hf (k := 0) (by norm_num)
  obtain ⟨V1, w1, t1, e1, f1, p1, s1, u1⟩ := c75_vertex isSqrt_real hf (k := 1) (by norm_num)
  obtain ⟨V2, w2, t2, e2, f2, p2, s2, u2⟩ := c75_vertex isSqrt_real hf (k := 2) (by norm_num)
  obtain ⟨V3, w3, t3, e3, f3, p3, s3, u3⟩ := c75_vertex isSqrt_real hf (k := 3) (by norm_num)
  refine ⟨fun k => match k with | 0 => V0 | 1 => V1 | 2 => V2 | _ => V3, ?_, ?_, ?_⟩
  · intro k hk
    interval_cases k
    exacts [e0, e1, e2, e3]
  · unfold Cap.cellVertices
    rw [e0, e1, e2, e3]
    rfl
  · intro k hk
    interval_cases k
    exacts [⟨u0, w0, t0, f0, p0, s0⟩, ⟨u1, w1, t1, f1, p1, s1⟩, ⟨u2, w2, t2, f2, p2, s2⟩, ⟨u3, w3, t3, f3, p3, s3⟩]

/-- A point of a cell is a combination of the vertices with coefficients that are not negative. -/
theorem cell_combo {C : Cell ℝ} (hf : C.face < 6) (hx : C.uv.x.lo < C.uv.x.hi) (hy : C.uv.y.lo < C.uv.y.hi) {V : Nat → Vec ℝ}
    (hV : ∀ k, k < 4 → UnitV (V k) ∧ ∃ w t, faceUVtoXYZ C.face (corner C.uv k).1 (corner C.uv k).2 = some w ∧ 0 < t ∧ V k = smul t w)
    {p : Vec ℝ} (hp : InCell C p) :
    ∃ a0 a1 a2 a3 : ℝ, 0 ≤ a0 ∧ 0 ≤ a1 ∧ 0 ≤ a2 ∧ 0 ≤ a3 ∧
      ∀ x, dot p x = a0 * dot (V 0) x + a1 * dot (V 1) x + a2 * dot (V 2) x + a3 * dot (V 3) x := by
  obtain ⟨u, v, w, t, ⟨⟨u1, u2⟩, v1, v2⟩, hw, ht, rfl⟩ := hp
  obtain ⟨-, w0, t0, e0, p0, s0⟩ := hV 0 (by norm_num)
  obtain ⟨-, w1, t1, e1, p1, s1⟩ := hV 1 (by norm_num)
  obtain ⟨-, w2, t2, e2, p2, s2⟩ := hV 2 (by norm_num)
  obtain ⟨-, w3, t3, e3, p3, s3⟩ := hV 3 (by norm_num)
  dsimp only [corner] at e0 e1 e2 e3 u1 u2 v1 v2
  have hX : 0 < C.uv.x.hi - C.uv.x.lo := by linarith
  have hY : 0 < C.uv.y.hi - C.uv.y.lo := by linarith
  obtain ⟨s, s0', s1', es⟩ : ∃ s, 0 ≤ s ∧ s ≤ 1 ∧ u = C.uv.x.lo + s * (C.uv.x.hi - C.uv.x.lo) := by
    refine ⟨(u - C.uv.x.lo) / (C.uv.x.hi - C.uv.x.lo), div_nonneg (by linarith) hX.le, (div_le_one hX).2 (by linarith), ?_⟩
    rw [div_mul_cancel₀ _ hX.ne']; ring
  obtain ⟨r, r0, r1, er⟩ : ∃ r, 0 ≤ r ∧ r ≤ 1 ∧ v = C.uv.y.lo + r * (C.uv.y.hi - C.uv.y.lo) := by
    refine ⟨(v - C.uv.y.lo) / (C.uv.y.hi - C.uv.y.lo), div_nonneg (by linarith) hY.le, (div_le_one hY).2 (by linarith), ?_⟩
    rw [div_mul_cancel₀ _ hY.ne']; ring
  have s1'' : 0 ≤ 1 - s := by linarith
  have r1' : 0 ≤ 1 - r := by linarith
  have key : ∀ x, dot w x = (1 - s) * (1 - r) * dot w0 x + s * (1 - r) * dot w1 x + s * r * dot w2 x + (1 - s) * r * dot w3 x := by
    intro x
    generalize C.face = f at hf e0 e1 e2 e3 hw
    interval_cases f <;> obtain rfl := Option.some.inj hw <;> obtain rfl := Option.some.inj e0 <;> obtain rfl := Option.some.inj e1 <;>
      obtain rfl := Option.some.inj e2 <;> obtain rfl := Option.some.inj e3 <;> simp only [dot, es, er] <;> ring
  have sm : ∀ (k : ℝ) (y x : Vec ℝ), dot (smul k y) x = k * dot y x := fun k y x => by simp only [dot, smul]; ring
  refine ⟨t * ((1 - s) * (1 - r)) / t0, t * (s * (1 - r)) / t1, t * (s * r) / t2, t * ((1 - s) * r) / t3, by positivity, by positivity,
    by positivity, by positivity, fun x => ?_⟩
  rw [s0, s1, s2, s3, sm, sm, sm, sm, sm, key]
  field_simp

/-- A point whose dot product with the vertices of a cell is at least `D` has at least that product with every point of the cell. -/
theorem cell_dot {C : Cell ℝ} (hf : C.face < 6) (hx : C.uv.x.lo < C.uv.x.hi) (hy : C.uv.y.lo < C.uv.y.hi) {V : Nat → Vec ℝ}
    (hV : ∀ k, k < 4 → UnitV (V k) ∧ ∃ w t, faceUVtoXYZ C.face (corner C.uv k).1 (corner C.uv k).2 = some w ∧ 0 < t ∧ V k = smul t w)
    {p : Vec ℝ} (hp : InCell C p) (up : UnitV p) {x : Vec ℝ} {D : ℝ} (hD : 0 ≤ D) (h : ∀ k, k < 4 → D ≤ dot (V k) x) : D ≤ dot p x := by
  obtain ⟨a0, a1, a2, a3, q0, q1, q2, q3, key⟩ := cell_combo hf hx hy hV hp
  have h1 : 1 ≤ a0 + a1 + a2 + a3 := by
    have e := key p
    rw [show dot p p = 1 from up] at e
    have k0 := mul_le_mul_of_nonneg_left (dot_le_one (hV 0 (by norm_num)).1 up).2 q0
    have k1 := mul_le_mul_of_nonneg_left (dot_le_one (hV 1 (by norm_num)).1 up).2 q1
    have k2 := mul_le_mul_of_nonneg_left (dot_le_one (hV 2 (by norm_num)).1 up).2 q2
    have k3 := mul_le_mul_of_nonneg_left (dot_le_one (hV 3 (by norm_num)).1 up).2 q3
    linarith
  rw [key]
  have k0 := mul_le_mul_of_nonneg_left (h 0 (by norm_num)) q0
  have k1 := mul_le_mul_of_nonneg_left (h 1 (by norm_num)) q1
  have k2 := mul_le_mul_of_nonneg_left (h 2 (by norm_num)) q2
  have k3 := mul_le_mul_of_nonneg_left (h 3 (by norm_num)) q3
  have k4 := mul_le_mul_of_nonneg_right h1 hD
  linarith

/-- **C88.** The bounding cap of a cell contains every point of the cell, is at most a hemisphere, and has a vertex of the cell on its
boundary. -/
theorem c88_capBound {c : CellID} {C : Cell ℝ} (hc : Valid c) (hC : Cell.fromCellID _root_.id c = some C) :
    ∃ B, C.capBound _root_.id Real.sqrt = some B ∧ UnitV B.center ∧ InCell C B.center ∧ 0 ≤ B.radius ∧ B.radius < 2 ∧
      (∀ p, InCell C p → UnitV p → B.containsPoint _root_.id p = true) ∧
      ∃ k V, k < 4 ∧ C.vertex _root_.id Real.sqrt k = some V ∧ dot (diff V B.center) (diff V B.center) = B.radius := by
  have r1 := (c68_from (_root_.id : ℝ → ℝ) hc hc.level hc.square hc.faceIJ).1
  rw [hC] at r1
  have hf : C.face < 6 := by rw [Option.some.inj r1]; exact hc.sf_lt
  have hp := uvRect_pos (K := ℝ) (i := ((sr c).1 * ss c : Nat)) (j := ((sr c).2.1 * ss c : Nat)) hc.square.pos
  have hx : C.uv.x.lo < C.uv.x.hi := by rw [Option.some.inj r1]; exact hp.1
  have hy : C.uv.y.lo < C.uv.y.hi := by rw [Option.some.inj r1]; exact hp.2
  obtain ⟨⟨x1, x2⟩, y1, y2⟩ := cell_unit hc hC
  obtain ⟨V, hv, hvs, hV⟩ := vertices_exact hf
  set mx := 1 / 2 * (C.uv.x.lo + C.uv.x.hi) with hmx
  set my := 1 / 2 * (C.uv.y.lo + C.uv.y.hi) with hmy
  obtain ⟨w, hw⟩ : ∃ w, faceUVtoXYZ C.face mx my = some w := by
    generalize C.face = f at hf
    interval_cases f <;> exact ⟨_, rfl⟩
  obtain ⟨t, ht, et, ut⟩ := normalize_exact isSqrt_real (faceUV_nonzero hw)
  set m := w.normalize _root_.id Real.sqrt with hm
  have um : UnitV m := ut
  have sm : ∀ (k : ℝ) (y x : Vec ℝ), dot (smul k y) x = k * dot y x := fun k y x => by simp only [dot, smul]; ring
  have sm' : ∀ (k : ℝ) (y x : Vec ℝ), dot y (smul k x) = k * dot y x := fun k y x => by simp only [dot, smul]; ring
  have pos : ∀ k, k < 4 → 0 < dot (V k) m := by
    intro k hk
    obtain ⟨_, w', t', hw', ht', e'⟩ := hV k hk
    rw [e', et, sm, sm']
    refine mul_pos ht' (mul_pos ht ?_)
    have g : ∀ a b : ℝ, -1 ≤ a → b ≤ 1 → a < b → -1 / 4 ≤ a * (1 / 2 * (a + b)) ∧ -1 / 4 ≤ b * (1 / 2 * (a + b)) := by
      intro a b h1 h2 h3
      constructor <;> nlinarith [sq_nonneg (a + b / 2), sq_nonneg (b + a / 2)]
    obtain ⟨g1, g2⟩ := g _ _ x1 x2 hx
    obtain ⟨g3, g4⟩ := g _ _ y1 y2 hy
    have e3 : dot w' w = 1 + (corner C.uv k).1 * mx + (corner C.uv k).2 * my := by
      generalize C.face = f at hf hw hw'
      interval_cases f <;> obtain rfl := Option.some.inj hw <;> obtain rfl := Option.some.inj hw' <;> simp only [dot] <;> ring
    rw [e3]
    have g5 : -1 / 4 ≤ (corner C.uv k).1 * mx := by interval_cases k <;> dsimp only [corner] <;> assumption
    have g6 : -1 / 4 ≤ (corner C.uv k).2 * my := by interval_cases k <;> dsimp only [corner] <;> assumption
    linarith
  have ch : ∀ k, k < 4 → Vec.chordAngle _root_.id m (V k) = 2 - 2 * dot (V k) m := by
    intro k hk
    rw [chordAngle_ang um (hV k hk).1, ← dist2_ang um (hV k hk).1]
    have := dist2_unit (hV k hk).1 um
    rw [← this]
    simp only [dist2, dot, diff]; ring
  set R := max (Vec.chordAngle _root_.id m (V 3)) (max (Vec.chordAngle _root_.id m (V 2)) (max (Vec.chordAngle _root_.id m (V 1))
    (max (Vec.chordAngle _root_.id m (V 0)) 0))) with hR
  have hform : C.capBound _root_.id Real.sqrt = some ⟨m, R⟩ := by
    unfold Cell.capBound
    have e1 : faceUVtoXYZ C.face (C.uv.center _root_.id).x (C.uv.center _root_.id).y = some w := hw
    dsimp only
    rw [e1, hvs]
    simp only [Option.bind_eq_bind, Option.bind_some, List.foldl_cons, List.foldl_nil]
    have step : ∀ r p, 0 ≤ r → Cap.addPoint _root_.id (⟨m, r⟩ : Cap ℝ) p = ⟨m, max (Vec.chordAngle _root_.id m p) r⟩ := by
      intro r p hr
      unfold Cap.addPoint
      rw [if_neg (by rw [empty_iff]; exact not_lt.2 hr)]
    have s0 : Cap.ofPoint (w.normalize _root_.id Real.sqrt) = ⟨m, 0⟩ := rfl
    rw [s0, step _ _ le_rfl, step _ _ (le_max_of_le_right le_rfl), step _ _ (le_max_of_le_right (le_max_of_le_right le_rfl)),
      step _ _ (le_max_of_le_right (le_max_of_le_right (le_max_of_le_right le_rfl)))]
  have R0 : 0 ≤ R := le_max_of_le_right (le_max_of_le_right (le_max_of_le_right (le_max_right _ _)))
  have Rk : ∀ k, k < 4 → Vec.chordAngle _root_.id m (V k) ≤ R := by
    intro k hk
    interval_cases k
    · exact le_max_of_le_right (le_max_of_le_right (le_max_of_le_right (le_max_left _ _)))
    · exact le_max_of_le_right (le_max_of_le_right (le_max_left _ _))
    · exact le_max_of_le_right (le_max_left _ _)
    · exact le_max_left _ _
  have c0 : ∀ k, k < 4 → 0 ≤ Vec.chordAngle _root_.id m (V k) := fun k hk => chordAngle_nonneg monotone_id rfl _ _
  obtain ⟨k, hk, ek⟩ : ∃ k, k < 4 ∧ R = Vec.chordAngle _root_.id m (V k) := by
    have d0 := c0 0 (by norm_num)
    rw [hR, max_eq_left d0]
    rcases max_choice (Vec.chordAngle _root_.id m (V 3)) (max (Vec.chordAngle _root_.id m (V 2)) (max (Vec.chordAngle _root_.id m (V 1))
      (Vec.chordAngle _root_.id m (V 0)))) with h | h
    · exact ⟨3, by norm_num, h⟩
    rw [h]
    rcases max_choice (Vec.chordAngle _root_.id m (V 2)) (max (Vec.chordAngle _root_.id m (V 1)) (Vec.chordAngle _root_.id m (V 0))) with h | h
    · exact ⟨2, by norm_num, h⟩
    rw [h]
    rcases max_choice (Vec.chordAngle _root_.id m (V 1)) (Vec.chordAngle _root_.id m (V 0)) with h | h
    · exact ⟨1, by norm_num, h⟩
    · exact ⟨0, by norm_num, h⟩
  refine ⟨_, hform, um, ⟨mx, my, w, t, ⟨⟨?_, ?_⟩, ?_, ?_⟩, hw, ht, et⟩, R0, ?_, fun p hp up => ?_, k, V k, hk, hv k hk, ?_⟩
  · dsimp only; linarith
  · dsimp only; linarith
  · dsimp only; linarith
  · dsimp only; linarith
  · show R < 2
    rw [ek, ch k hk]
    linarith [pos k hk]
  · rw [(c64_containsPoint (c := ⟨m, R⟩) um up).1]
    unfold InCap
    have e := dist2_unit up um
    unfold dist2 at e
    dsimp only
    rw [e]
    have := cell_dot hf hx hy hV hp up (x := m) (D := (2 - R) / 2) (by rw [ek, ch k hk]; linarith [pos k hk])
      (fun i hi => by have := Rk i hi; rw [ch i hi] at this; linarith)
    linarith
  · have e := dist2_unit (hV k hk).1 um
    unfold dist2 at e
    dsimp only
    rw [e, ek, ch k hk]

/-- The IEEE remainder exists over the reals. -/
theorem exists_rem_real : ∃ rem : ℝ → ℝ, S1.IsRem Real.pi rem := by
  have hp := Real.pi_pos
  refine ⟨fun x => x - 2 * Real.pi * round (x / (2 * Real.pi)), fun x => ⟨?_, -round (x / (2 * Real.pi)), by push_cast; ring⟩⟩
  have h := abs_sub_round (x / (2 * Real.pi))
  have e : x - 2 * Real.pi * round (x / (2 * Real.pi)) = 2 * Real.pi * (x / (2 * Real.pi) - round (x / (2 * Real.pi))) := by
    field_simp
  show |x - 2 * Real.pi * round (x / (2 * Real.pi))| ≤ Real.pi
  rw [e, abs_mul, abs_of_pos (by linarith : (0 : ℝ) < 2 * Real.pi)]
  nlinarith

/-- The face and the rectangle of a cell. -/
theorem cell_parts {c : CellID} {C : Cell ℝ} (hc : Valid c) (hC : Cell.fromCellID _root_.id c = some C) :
    C.face < 6 ∧ C.uv.x.lo < C.uv.x.hi ∧ C.uv.y.lo < C.uv.y.hi := by
  have r1 := (c68_from (_root_.id : ℝ → ℝ) hc hc.level hc.square hc.faceIJ).1
  rw [hC] at r1
  have hp := uvRect_pos (K := ℝ) (i := ((sr c).1 * ss c : Nat)) (j := ((sr c).2.1 * ss c : Nat)) hc.square.pos
  rw [Option.some.inj r1]
  exact ⟨hc.sf_lt, hp.1, hp.2⟩

/-- The vertices are points of the cell. -/
theorem vertex_inCell {c : CellID} {C : Cell ℝ} (hc : Valid c) (hC : Cell.fromCellID _root_.id c = some C) {k : Nat} (hk : k < 4) :
    ∃ V, C.vertex _root_.id Real.sqrt k = some V ∧ InCell C V ∧ UnitV V := by
  obtain ⟨hf, hx, hy⟩ := cell_parts hc hC
  obtain ⟨V, w, t, h1, h2, h3, h4, h5⟩ := c75_vertex isSqrt_real hf hk
  refine ⟨V, h1, ⟨_, _, w, t, ?_, h2, h3, h4⟩, h5⟩
  interval_cases k
  exacts [⟨⟨le_rfl, hx.le⟩, le_rfl, hy.le⟩, ⟨⟨hx.le, le_rfl⟩, le_rfl, hy.le⟩, ⟨⟨hx.le, le_rfl⟩, hy.le, le_rfl⟩, ⟨⟨le_rfl, hx.le⟩, hy.le, le_rfl⟩]

-- a cell of level 10 (so `c87_tight` applies too), its bounds and its vertex 2
example : ∃ C B D V, Cell.fromCellID (_root_.id : ℝ → ℝ) ⟨0x6060730000000000#64⟩ = some C ∧
    C.vertex _root_.id Real.sqrt 2 = some V ∧ InCell C V ∧
    C.rectBound Real.pi _root_.id Real.sqrt Real.arcsin (fun y x => Complex.arg ⟨x, y⟩) exists_rem_real.choose (2 ^ (-52 : ℤ)) = some B ∧
    B.containsLatLng Real.pi (LatLng.ofPoint _root_.id Real.sqrt (fun y x => Complex.arg ⟨x, y⟩) V) = true ∧
    C.capBound _root_.id Real.sqrt = some D ∧ D.containsPoint _root_.id V = true := by
  have h := (c68_from (_root_.id : ℝ → ℝ) exCell.1 exCell.2.1 exCell.1.square exCell.1.faceIJ).1
  obtain ⟨V, h1, hV, h5⟩ := vertex_inCell exCell.1 h (k := 2) (by norm_num)
  obtain ⟨B, b1, b2, b3⟩ := c87_rectBound exCell.1 h isArg_arg exists_rem_real.choose_spec (eps := 2 ^ (-52 : ℤ)) (by norm_num) (by norm_num)
  obtain ⟨D, d1, _, _, _, _, d2, _⟩ := c88_capBound exCell.1 h
  exact ⟨_, B, D, V, h, h1, hV, b1, b3 V hV, d1, d2 V hV h5⟩

end Verif
