import Mathlib.Analysis.SpecialFunctions.Integrals.Basic
import Verif.Model.RectRegion
import Verif.Properties.CellBound
import Verif.Properties.S1Hausdorff

/-!
# Latitude-longitude rectangles as regions of the sphere, in exact arithmetic: C89, C90
-/

namespace Verif
open Spec S2 CellID

theorem vec_ext' {p q : Vec ℝ} (h1 : p.x = q.x) (h2 : p.y = q.y) (h3 : p.z = q.z) : p = q := by
  cases p; cases q; simp_all

theorem dot_direction (φ t a b : ℝ) :
    dot (direction φ t) (direction a b) = Real.cos φ * Real.cos a * Real.cos (t - b) + Real.sin φ * Real.sin a := by
  rw [Real.cos_sub]
  simp only [dot, direction]
  ring

theorem cos_sameDir {a b : ℝ} (h : SameDir Real.pi a b) (c : ℝ) : Real.cos (b - c) = Real.cos (a - c) := by
  obtain ⟨k, rfl⟩ := h
  rw [show a + 2 * Real.pi * k - c = (a - c) + k * (2 * Real.pi) by ring, Real.cos_add_int_mul_two_pi]

theorem cos_sameDir' {a b : ℝ} (h : SameDir Real.pi a b) (c : ℝ) : Real.cos (c - b) = Real.cos (c - a) := by
  rw [← Real.cos_neg, neg_sub, cos_sameDir h, ← Real.cos_neg, neg_sub]

/-- On the latitudes, a combination of cosine and sine with a cosine factor that is not negative has its least value at an end. -/
theorem unimodal {A B lo hi φ : ℝ} (hA : 0 ≤ A) (h1 : -(Real.pi / 2) ≤ lo) (h2 : lo ≤ φ) (h3 : φ ≤ hi) (h4 : hi ≤ Real.pi / 2) :
    A * Real.cos lo + B * Real.sin lo ≤ A * Real.cos φ + B * Real.sin φ ∨ A * Real.cos hi + B * Real.sin hi ≤ A * Real.cos φ + B * Real.sin φ := by
  obtain ⟨R, ψ, hR, p1, p2, e1, e2, _⟩ := exists_polar A B
  have hp := Real.pi_pos
  have f : ∀ x, A * Real.cos x + B * Real.sin x = R * Real.cos (ψ - x) := by
    intro x
    rw [e1, e2, Real.cos_sub]
    ring
  rw [f, f, f]
  rcases hR.eq_or_lt with hR0 | hR0
  · left; rw [← hR0]; simp
  have hc : 0 ≤ Real.cos ψ := nonneg_of_mul_nonneg_right (by rw [← e1]; exact hA) hR0
  have q1 : -(Real.pi / 2) ≤ ψ := by
    by_contra hcon
    push Not at hcon
    have := Real.cos_neg_of_pi_div_two_lt_of_lt (x := -ψ) (by linarith) (by linarith)
    rw [Real.cos_neg] at this
    linarith
  have q2 : ψ ≤ Real.pi / 2 := by
    by_contra hcon
    push Not at hcon
    have := Real.cos_neg_of_pi_div_two_lt_of_lt (x := ψ) hcon (by linarith)
    linarith
  rcases le_total φ ψ with h | h
  · left
    exact mul_le_mul_of_nonneg_left (Real.cos_le_cos_of_nonneg_of_le_pi (by linarith) (by linarith) (by linarith)) hR
  · right
    rw [← Real.cos_neg (ψ - hi), ← Real.cos_neg (ψ - φ), neg_sub, neg_sub]
    exact mul_le_mul_of_nonneg_left (Real.cos_le_cos_of_nonneg_of_le_pi (by linarith) (by linarith) (by linarith)) hR

/-- The squared distance of two points by their coordinates. -/
theorem dist_direction (φ t a b : ℝ) : dot (diff (direction φ t) (direction a b)) (diff (direction φ t) (direction a b)) =
    2 - 2 * (Real.cos φ * Real.cos a * Real.cos (t - b) + Real.sin φ * Real.sin a) := by
  have := dist2_unit (unit_direction φ t) (unit_direction a b)
  unfold dist2 at this
  rw [this, dot_direction]

theorem chordOf_cos (a : ℝ) : chordOf a = 2 - 2 * Real.cos a := by
  unfold chordOf
  have := Real.cos_sq' (a / 2)
  have h2 := Real.cos_two_mul (a / 2)
  rw [show 2 * (a / 2) = a by ring] at h2
  rw [h2, this]; ring

/-- **C89.** The bounding cap of a rectangle contains every point of the rectangle and has a point of the rectangle on its boundary; for the
empty rectangle it is empty. -/
theorem c89_capBound {r : S2.Rect ℝ} (hv : r.isValid Real.pi = true) {rem : ℝ → ℝ} (hr : S1.IsRem Real.pi rem) :
    (r.isEmpty = true → (r.capBound Real.pi _root_.id Real.sin Real.cos rem).isEmpty = true) ∧
    UnitV (r.capBound Real.pi _root_.id Real.sin Real.cos rem).center ∧
    (∀ a b, RPts Real.pi r a b → (r.capBound Real.pi _root_.id Real.sin Real.cos rem).containsPoint _root_.id (direction a b) = true) ∧
    (r.isEmpty = false → ∃ a b, RPts Real.pi r a b ∧
      dot (diff (direction a b) (r.capBound Real.pi _root_.id Real.sin Real.cos rem).center)
        (diff (direction a b) (r.capBound Real.pi _root_.id Real.sin Real.cos rem).center) =
        (r.capBound Real.pi _root_.id Real.sin Real.cos rem).radius) := by
  have hp := Real.pi_pos
  have hok := isValid_iff.1 hv
  by_cases hE : r.isEmpty = true
  · have e : r.capBound Real.pi _root_.id Real.sin Real.cos rem = Cap.empty := by unfold S2.Rect.capBound; rw [if_pos hE]
    rw [e]
    refine ⟨fun _ => by rw [empty_iff]; simp [Cap.empty, ChordAngle.negative], by simp [Cap.empty, UnitV, dot], fun a b hab => ?_, fun h => ?_⟩
    · exact absurd hab ((c56_isEmpty hp hv).1 hE a b)
    · rw [hE] at h; cases h
  have hE' : r.isEmpty = false := by simpa using hE
  refine ⟨fun h => absurd h hE, ?_⟩
  have hlat : r.lat.lo ≤ r.lat.hi := R1.isEmpty_eq_false.1 hE'
  have hlngE : r.lng.isEmpty Real.pi = false := by rw [← hok.emp]; exact hE'
  obtain ⟨o1, o2, o3, o4, o5⟩ := hok
  -- the vertices of the rectangle
  have v0 := c72_vertex hp hv hE' 0
  have v2 := c72_vertex hp hv hE' 2
  -- what has to be shown of a cap
  suffices H : ∀ B : Cap ℝ, (UnitV B.center ∧ (∀ a b, RPts Real.pi r a b → dot (diff (direction a b) B.center) (diff (direction a b) B.center) ≤ B.radius) ∧
      ∃ a b, RPts Real.pi r a b ∧ dot (diff (direction a b) B.center) (diff (direction a b) B.center) = B.radius) →
      (UnitV B.center ∧ (∀ a b, RPts Real.pi r a b → B.containsPoint _root_.id (direction a b) = true) ∧
      (r.isEmpty = false → ∃ a b, RPts Real.pi r a b ∧ dot (diff (direction a b) B.center) (diff (direction a b) B.center) = B.radius)) by
    refine H _ ?_
    -- the cap about a pole
    set z : ℝ := if r.lat.hi + r.lat.lo < 0 then -1 else 1 with hz
    set angle : ℝ := if r.lat.hi + r.lat.lo < 0 then Real.pi / 2 + r.lat.hi else Real.pi / 2 - r.lat.lo with hangle
    set pole : Cap ℝ := ⟨⟨0, 0, z⟩, ChordAngle.ofRad _root_.id Real.sin Real.pi angle⟩ with hpole
    have hangle1 : angle ≤ Real.pi := by rw [hangle]; split_ifs <;> linarith
    have hrad : pole.radius = 2 - 2 * Real.cos angle := by
      rw [← chordOf_cos]
      show ChordAngle.ofRad _root_.id Real.sin Real.pi angle = _
      simp only [ChordAngle.ofRad, _root_.id, chordOf]
      rw [min_eq_left hangle1, show 1 / 2 * angle = angle / 2 by ring]
      ring
    have hpd : ∀ a b, dot (diff (direction a b) pole.center) (diff (direction a b) pole.center) = 2 - 2 * (z * Real.sin a) := by
      intro a b
      have u : UnitV pole.center := by
        show (0 : ℝ) * 0 + 0 * 0 + z * z = 1
        rw [hz]; split_ifs <;> norm_num
      have := dist2_unit (unit_direction a b) u
      unfold dist2 at this
      rw [this]
      show 2 - 2 * (_ * 0 + _ * 0 + Real.sin a * z) = _
      ring
    have hcos : Real.cos angle = z * Real.sin (if r.lat.hi + r.lat.lo < 0 then r.lat.hi else r.lat.lo) := by
      rw [hangle, hz]
      split_ifs
      · rw [add_comm, Real.cos_add_pi_div_two]; ring
      · rw [Real.cos_pi_div_two_sub]; ring
    have hpoleOk : UnitV pole.center ∧ (∀ a b, RPts Real.pi r a b → dot (diff (direction a b) pole.center) (diff (direction a b) pole.center) ≤ pole.radius) ∧
        ∃ a b, RPts Real.pi r a b ∧ dot (diff (direction a b) pole.center) (diff (direction a b) pole.center) = pole.radius := by
      refine ⟨?_, fun a b hab => ?_, ?_⟩
      · show (0 : ℝ) * 0 + 0 * 0 + z * z = 1
        rw [hz]; split_ifs <;> norm_num
      · rw [hpd, hrad, hcos]
        have ha1 : r.lat.lo ≤ a := hab.1.1
        have ha2 : a ≤ r.lat.hi := hab.1.2
        rw [hz]
        split_ifs
        · have := (sin_le_iff (a := a) (b := r.lat.hi) (by linarith) (by linarith) (by linarith) o3).2 ha2
          linarith
        · have := (sin_le_iff (a := r.lat.lo) (b := a) o1 o2 (by linarith) (by linarith)).2 ha1
          linarith
      · by_cases hs : r.lat.hi + r.lat.lo < 0
        · refine ⟨_, _, v2, ?_⟩
          rw [hpd, hrad, hcos, if_pos hs]; rfl
        · refine ⟨_, _, v0, ?_⟩
          rw [hpd, hrad, hcos, if_neg hs]; rfl
    have hform : r.capBound Real.pi _root_.id Real.sin Real.cos rem =
        if rem (r.lng.hi - r.lng.lo) ≥ 0 ∧ r.lng.hi - r.lng.lo < 2 * Real.pi then
          (if (((Cap.ofPoint (LatLng.toPoint _root_.id Real.sin Real.cos (r.center Real.pi _root_.id))).addPoint _root_.id
              (LatLng.toPoint _root_.id Real.sin Real.cos r.lo)).addPoint _root_.id (LatLng.toPoint _root_.id Real.sin Real.cos r.hi)).height _root_.id
              < pole.height _root_.id then
            ((Cap.ofPoint (LatLng.toPoint _root_.id Real.sin Real.cos (r.center Real.pi _root_.id))).addPoint _root_.id
              (LatLng.toPoint _root_.id Real.sin Real.cos r.lo)).addPoint _root_.id (LatLng.toPoint _root_.id Real.sin Real.cos r.hi)
          else pole) else pole := by
      unfold S2.Rect.capBound
      rw [if_neg hE]
      rfl
    rw [hform]
    split_ifs with h1 h2
    · -- the cap about the centre
      rw [toPoint_eq, toPoint_eq, toPoint_eq]
      obtain ⟨_, h, eh, c1, c2⟩ := S1.c52_center hp o4 hlngE
      set m := r.lng.center Real.pi _root_.id with hm
      set φ := r.lat.center _root_.id with hφ
      have eφ : φ = 1 / 2 * (r.lat.lo + r.lat.hi) := rfl
      have l0 : 0 ≤ h := by
        have := S1.c51_len hp o4
        have k := this.2 hlngE
        have ok := S1.isValid_iff.1 o4
        have : 0 ≤ arcLen Real.pi r.lng.lo r.lng.hi := by
          unfold arcLen arcEnd
          split_ifs
          · exact le_rfl
          · linarith
          · linarith [ok.lo2, ok.hi1]
        linarith
      have lpi : 2 * h ≤ Real.pi := by
        rw [eh]
        have ok := S1.isValid_iff.1 o4
        obtain ⟨k1, k, k2⟩ := hr (r.lng.hi - r.lng.lo)
        have k1' := abs_le.1 k1
        have hne : ¬ (r.lng.lo = Real.pi ∧ r.lng.hi = -Real.pi) := by
          rw [← S1.isEmpty_iff (π := Real.pi), hlngE]; simp
        unfold arcLen arcEnd
        rw [if_neg hne]
        have b1 := ok.lo1
        have b2 := ok.lo2
        have b3 := ok.hi1
        have b4 := ok.hi2
        have tc := S1.turn_cases hp (hr (r.lng.hi - r.lng.lo)).2 (by linarith) (by linarith)
        have r0 := h1.1
        split_ifs with hle
        · rcases tc with e | e | e
          · rw [e] at r0; linarith [h1.2]
          · rw [e] at k1'; linarith
          · linarith
        · push Not at hle
          rcases tc with e | e | e
          · linarith
          · rw [e] at r0; linarith
          · rw [e] at k1'; linarith
      set ρ := max (Vec.chordAngle _root_.id (direction φ m) (direction r.hi.lat r.hi.lng))
        (max (Vec.chordAngle _root_.id (direction φ m) (direction r.lo.lat r.lo.lng)) 0) with hρ
      have step : ∀ x p, 0 ≤ x → Cap.addPoint _root_.id (⟨direction φ m, x⟩ : Cap ℝ) p = ⟨direction φ m, max (Vec.chordAngle _root_.id (direction φ m) p) x⟩ := by
        intro x p hx
        unfold Cap.addPoint
        rw [if_neg (by rw [empty_iff]; exact not_lt.2 hx)]
      have e0 : Cap.ofPoint (direction (r.center Real.pi _root_.id).lat (r.center Real.pi _root_.id).lng) = ⟨direction φ m, 0⟩ := rfl
      rw [e0, step _ _ le_rfl, step _ _ (le_max_of_le_right le_rfl)]
      have ch : ∀ a b, Vec.chordAngle _root_.id (direction φ m) (direction a b) = 2 - 2 * (Real.cos a * Real.cos φ * Real.cos (b - m) + Real.sin a * Real.sin φ) := by
        intro a b
        rw [chordAngle_ang (unit_direction _ _) (unit_direction _ _), ang_comm, ← dist2_ang (unit_direction _ _) (unit_direction _ _), dist_direction]
      have clo : Real.cos (r.lng.lo - m) = Real.cos h := by
        rw [cos_sameDir' c1, show r.lng.lo - (r.lng.lo + h) = -h by ring, Real.cos_neg]
      have chi : Real.cos (r.lng.hi - m) = Real.cos h := by
        rw [cos_sameDir' c2, show r.lng.hi - (r.lng.hi - h) = h by ring]
      have f1 : Vec.chordAngle _root_.id (direction φ m) (direction r.lo.lat r.lo.lng) =
          2 - 2 * (Real.cos φ * Real.cos h * Real.cos r.lat.lo + Real.sin φ * Real.sin r.lat.lo) := by
        rw [ch]
        show 2 - 2 * (Real.cos r.lat.lo * Real.cos φ * Real.cos (r.lng.lo - m) + Real.sin r.lat.lo * Real.sin φ) = _
        rw [clo]; ring
      have f2 : Vec.chordAngle _root_.id (direction φ m) (direction r.hi.lat r.hi.lng) =
          2 - 2 * (Real.cos φ * Real.cos h * Real.cos r.lat.hi + Real.sin φ * Real.sin r.lat.hi) := by
        rw [ch]
        show 2 - 2 * (Real.cos r.lat.hi * Real.cos φ * Real.cos (r.lng.hi - m) + Real.sin r.lat.hi * Real.sin φ) = _
        rw [chi]; ring
      have g1 : Vec.chordAngle _root_.id (direction φ m) (direction r.lo.lat r.lo.lng) ≤ ρ := le_max_of_le_right (le_max_left _ _)
      have g2 : Vec.chordAngle _root_.id (direction φ m) (direction r.hi.lat r.hi.lng) ≤ ρ := le_max_left _ _
      have cφ : 0 ≤ Real.cos φ := Real.cos_nonneg_of_mem_Icc ⟨by linarith, by linarith⟩
      have ch0 : 0 ≤ Real.cos h := Real.cos_nonneg_of_mem_Icc ⟨by linarith, by linarith⟩
      refine ⟨unit_direction _ _, fun a b hab => ?_, ?_⟩
      · show dot (diff (direction a b) (direction φ m)) (diff (direction a b) (direction φ m)) ≤ ρ
        rw [dist_direction]
        have ha1 : r.lat.lo ≤ a := hab.1.1
        have ha2 : a ≤ r.lat.hi := hab.1.2
        obtain ⟨_, t, t0, t1, ts⟩ := (S1.pts_len hab.2.1 hab.2.2.1).1 hab.2
        have cb : Real.cos h ≤ Real.cos (b - m) := by
          rw [cos_sameDir ts, cos_sameDir' c1, show r.lng.lo + t - (r.lng.lo + h) = t - h by ring, ← Real.cos_abs (t - h)]
          refine Real.cos_le_cos_of_nonneg_of_le_pi (abs_nonneg _) (by linarith) (abs_le.2 ⟨by linarith, by linarith⟩)
        have ca : 0 ≤ Real.cos a := Real.cos_nonneg_of_mem_Icc ⟨by linarith, by linarith⟩
        have k := mul_le_mul_of_nonneg_left cb (mul_nonneg ca cφ)
        rcases unimodal (A := Real.cos φ * Real.cos h) (B := Real.sin φ) (mul_nonneg cφ ch0) o1 ha1 ha2 o3 with u | u
        · rw [f1] at g1; linarith
        · rw [f2] at g2; linarith
      · show ∃ a b, RPts Real.pi r a b ∧ dot (diff (direction a b) (direction φ m)) (diff (direction a b) (direction φ m)) = ρ
        have n1 : 0 ≤ Vec.chordAngle _root_.id (direction φ m) (direction r.lo.lat r.lo.lng) := chordAngle_nonneg monotone_id rfl _ _
        have d : ∀ a b, dot (diff (direction a b) (direction φ m)) (diff (direction a b) (direction φ m)) = Vec.chordAngle _root_.id (direction φ m) (direction a b) := by
          intro a b; rw [ch, dist_direction]
        rw [hρ, max_eq_left n1]
        rcases max_choice (Vec.chordAngle _root_.id (direction φ m) (direction r.hi.lat r.hi.lng)) (Vec.chordAngle _root_.id (direction φ m) (direction r.lo.lat r.lo.lng)) with e | e
        · rw [e]; exact ⟨_, _, v2, d _ _⟩
        · rw [e]; exact ⟨_, _, v0, d _ _⟩
    · exact hpoleOk
    · exact hpoleOk
  rintro B ⟨b1, b2, b3⟩
  exact ⟨b1, fun a b hab => ((c64_containsPoint b1 (unit_direction a b)).1).2 (b2 a b hab), fun _ => b3⟩

/-- The end of an arc that `distance_to_latlng` chooses is the end nearest to a longitude that is not in the arc. -/
theorem nearest_end {y : S1.Interval ℝ} (hy : S1.Ok Real.pi y) (he : ¬ (y.lo = Real.pi ∧ y.hi = -Real.pi)) {l : ℝ} (l1 : -Real.pi ≤ l) (l2 : l ≤ Real.pi)
    (hl : y.contains Real.pi l = false) {e : ℝ}
    (ee : e = if (S1.Interval.new Real.pi y.hi (y.complementCenter Real.pi _root_.id)).contains Real.pi l then y.hi else y.lo) :
    S1.Pts Real.pi y e ∧ ∀ b, S1.Pts Real.pi y b → Real.cos (b - l) ≤ Real.cos (e - l) := by
  have hp := Real.pi_pos
  have tl := S1.toPi_range hp l1 l2
  have hv := S1.isValid_iff.2 hy
  have hl' : ¬ S1.Mem Real.pi y (S1.Interval.toPi Real.pi l) := by
    intro hm
    have := ((S1.c50_contains hp hv l1 l2).1).2 ((S1.pts_toPi hp hy l1 l2).2 hm).2.2
    rw [hl] at this; cases this
  have hf : ¬ (y.lo = -Real.pi ∧ y.hi = Real.pi) := by
    intro h
    apply hl'
    rw [S1.mem_iff]
    exact Or.inl ⟨by linarith, by linarith, by linarith⟩
  obtain ⟨q1, q2, q3⟩ := S1.complementCenter_cases hp hy he hf
  set c := y.complementCenter Real.pi _root_.id with hc
  obtain ⟨a1, a2, a3, a4, a5, a6⟩ := hy
  have b1 : -Real.pi < y.lo := lt_of_le_of_ne a1 fun h => hf ⟨h.symm, a5 h.symm⟩
  have b3 : -Real.pi < y.hi := lt_of_le_of_ne a3 fun h => he ⟨a6 h.symm, h.symm⟩
  have hm := S1.pd_mem hp b3 a4 q1 q2 l1 l2
  have hy' : S1.Ok Real.pi y := ⟨a1, a2, a3, a4, a5, a6⟩
  have el : Real.cos (e - l) = Real.cos (e - S1.Interval.toPi Real.pi l) ∧ ∀ b, Real.cos (b - l) = Real.cos (b - S1.Interval.toPi Real.pi l) := by
    have : ∀ b, Real.cos (b - l) = Real.cos (b - S1.Interval.toPi Real.pi l) := by
      intro b
      unfold S1.Interval.toPi
      split_ifs with h
      · rw [h, show b - -Real.pi = b - Real.pi + 2 * Real.pi by ring, Real.cos_add_two_pi]
      · rfl
    exact ⟨this e, this⟩
  rw [el.1]
  simp only [el.2]
  generalize S1.Interval.toPi Real.pi l = m at *
  have ecase : e = y.hi ∧ (y.hi ≤ c ∧ y.hi ≤ m ∧ m ≤ c ∨ c < y.hi ∧ (y.hi ≤ m ∨ m ≤ c)) ∨
      e = y.lo ∧ ¬ (y.hi ≤ c ∧ y.hi ≤ m ∧ m ≤ c ∨ c < y.hi ∧ (y.hi ≤ m ∨ m ≤ c)) := by
    by_cases h : (S1.Interval.new Real.pi y.hi c).contains Real.pi l = true
    · left; rw [if_pos h] at ee; exact ⟨ee, hm.1 h⟩
    · right; rw [if_neg h] at ee; exact ⟨ee, fun k => h (hm.2 k)⟩
  have emem : -Real.pi < e ∧ e ≤ Real.pi ∧ S1.Mem Real.pi y e := by
    rw [S1.mem_iff]
    rcases ecase with ⟨rfl, _⟩ | ⟨rfl, _⟩ <;> grind
  refine ⟨(S1.pts_of hp hy' emem.1 emem.2.1).2 emem.2.2, fun b hb => ?_⟩
  have hb' := (S1.pts_toPi hp hy' hb.1 hb.2.1).1 hb
  have hbr := S1.toPi_range hp hb.1 hb.2.1
  have : Real.cos (b - m) = Real.cos (S1.Interval.toPi Real.pi b - m) := by
    unfold S1.Interval.toPi
    split_ifs with h
    · rw [h, show Real.pi - m = -Real.pi - m + 2 * Real.pi by ring, Real.cos_add_two_pi]
    · rfl
  rw [this]
  generalize S1.Interval.toPi Real.pi b = b' at *
  rw [S1.mem_iff] at hl' hb'
  have em := emem.2.2
  rw [S1.mem_iff] at em
  have key : ∃ s, 0 ≤ s ∧ s ≤ Real.pi ∧ (e - m = s ∨ e - m = -s ∨ e - m = 2 * Real.pi - s ∨ e - m = s - 2 * Real.pi) ∧
      s ≤ |b' - m| ∧ |b' - m| ≤ 2 * Real.pi - s := by
    have ab : |b' - m| = b' - m ∧ 0 ≤ b' - m ∨ |b' - m| = m - b' ∧ b' - m ≤ 0 := by
      rcases le_total 0 (b' - m) with h | h
      · left; exact ⟨abs_of_nonneg h, h⟩
      · right; exact ⟨by rw [abs_of_nonpos h]; ring, h⟩
    generalize |b' - m| = w at *
    obtain ⟨e1, e2, -⟩ := emem
    rcases le_total (e - m) 0 with h1 | h1
    · rcases le_total (m - e) Real.pi with h2 | h2
      · refine ⟨m - e, ?_⟩; grind (splits := 20)
      · refine ⟨2 * Real.pi - (m - e), ?_⟩; grind (splits := 20)
    · rcases le_total (e - m) Real.pi with h2 | h2
      · refine ⟨e - m, ?_⟩; grind (splits := 20)
      · refine ⟨2 * Real.pi - (e - m), ?_⟩; grind (splits := 20)
  obtain ⟨s, s0, s1, s2, s3, s4⟩ := key
  have e1 : Real.cos (e - m) = Real.cos s := by
    rcases s2 with h | h | h | h
    · rw [h]
    · rw [h, Real.cos_neg]
    · rw [h, Real.cos_two_pi_sub]
    · rw [h, Real.cos_sub_two_pi]
  rw [e1, ← Real.cos_abs (b' - m)]
  rcases le_total |b' - m| Real.pi with h | h
  · exact Real.cos_le_cos_of_nonneg_of_le_pi s0 h s3
  · rw [← Real.cos_two_pi_sub]
    exact Real.cos_le_cos_of_nonneg_of_le_pi s0 (by linarith) (by linarith)

/-- The points of an edge along a meridian are those between the latitudes of its ends. -/
theorem onEdge_meridian {lo hi e : ℝ} (h1 : -(Real.pi / 2) ≤ lo) (h2 : lo ≤ hi) (h3 : hi ≤ Real.pi / 2) (h4 : hi - lo < Real.pi) (p : Vec ℝ) :
    OnEdge (direction lo e) (direction hi e) p ↔ ∃ φ, lo ≤ φ ∧ φ ≤ hi ∧ p = direction φ e := by
  have hp := Real.pi_pos
  rcases h2.eq_or_lt with h | h
  · subst h
    constructor
    · rintro ⟨hu, s, t, hs, ht, rfl⟩
      refine ⟨lo, le_rfl, le_rfl, ?_⟩
      have hu' : (s + t) ^ 2 = 1 := by
        have := unit_direction lo e
        simp only [UnitV, dot, lin] at hu this
        linear_combination hu - (s + t) ^ 2 * this
      have : s + t = 1 := by nlinarith
      have : t = 1 - s := by linarith
      rw [this]
      refine vec_ext' ?_ ?_ ?_ <;> simp only [lin] <;> ring
    · rintro ⟨φ, p1, p2, rfl⟩
      obtain rfl : φ = lo := le_antisymm p2 p1
      refine ⟨unit_direction _ _, 1, 0, zero_le_one, le_rfl, ?_⟩
      refine vec_ext' ?_ ?_ ?_ <;> simp only [lin] <;> ring
  have hs0 : 0 < Real.sin (hi - lo) := Real.sin_pos_of_pos_of_lt_pi (by linarith) h4
  constructor
  · rintro ⟨hu, s, t, hs, ht, rfl⟩
    obtain ⟨R, φ, hR, p1, p2, e1, e2, hR2⟩ := exists_polar (s * Real.cos lo + t * Real.cos hi) (s * Real.sin lo + t * Real.sin hi)
    have hR1 : R = 1 := by
      have : R ^ 2 = 1 := by
        rw [hR2]
        simp only [UnitV, dot, lin, direction] at hu
        linear_combination hu - (s * Real.cos lo + t * Real.cos hi) ^ 2 * Real.sin_sq_add_cos_sq e
      nlinarith
    rw [hR1, one_mul] at e1 e2
    have c0 : 0 ≤ Real.cos φ := by
      rw [← e1]
      exact add_nonneg (mul_nonneg hs (Real.cos_nonneg_of_mem_Icc ⟨by linarith, by linarith⟩))
        (mul_nonneg ht (Real.cos_nonneg_of_mem_Icc ⟨by linarith, by linarith⟩))
    have q1 : -(Real.pi / 2) ≤ φ := by
      by_contra hcon
      push Not at hcon
      have := Real.cos_neg_of_pi_div_two_lt_of_lt (x := -φ) (by linarith) (by linarith)
      rw [Real.cos_neg] at this
      linarith
    have q2 : φ ≤ Real.pi / 2 := by
      by_contra hcon
      push Not at hcon
      have := Real.cos_neg_of_pi_div_two_lt_of_lt (x := φ) hcon (by linarith)
      linarith
    have s1 : Real.sin (φ - lo) = t * Real.sin (hi - lo) := by
      rw [Real.sin_sub, Real.sin_sub, ← e1, ← e2]; ring
    have s2 : Real.sin (hi - φ) = s * Real.sin (hi - lo) := by
      rw [Real.sin_sub, Real.sin_sub, ← e1, ← e2]; ring
    refine ⟨φ, ?_, ?_, ?_⟩
    · by_contra hcon
      push Not at hcon
      have := Real.sin_pos_of_pos_of_lt_pi (x := lo - φ) (by linarith) (by linarith)
      rw [← neg_sub, Real.sin_neg, s1] at this
      linarith [mul_nonneg ht hs0.le]
    · by_contra hcon
      push Not at hcon
      have := Real.sin_pos_of_pos_of_lt_pi (x := φ - hi) (by linarith) (by linarith)
      rw [← neg_sub, Real.sin_neg, s2] at this
      linarith [mul_nonneg hs hs0.le]
    · refine vec_ext' ?_ ?_ ?_ <;> simp only [lin, direction]
      · rw [← e1]; ring
      · rw [← e1]; ring
      · rw [← e2]
  · rintro ⟨φ, p1, p2, rfl⟩
    refine ⟨unit_direction _ _, Real.sin (hi - φ) / Real.sin (hi - lo), Real.sin (φ - lo) / Real.sin (hi - lo),
      div_nonneg (Real.sin_nonneg_of_nonneg_of_le_pi (by linarith) (by linarith)) hs0.le,
      div_nonneg (Real.sin_nonneg_of_nonneg_of_le_pi (by linarith) (by linarith)) hs0.le, ?_⟩
    have k1 : Real.sin (hi - φ) * Real.cos lo + Real.sin (φ - lo) * Real.cos hi = Real.cos φ * Real.sin (hi - lo) := by
      rw [Real.sin_sub, Real.sin_sub, Real.sin_sub]; ring
    have k2 : Real.sin (hi - φ) * Real.sin lo + Real.sin (φ - lo) * Real.sin hi = Real.sin φ * Real.sin (hi - lo) := by
      rw [Real.sin_sub, Real.sin_sub, Real.sin_sub]; ring
    have hne := hs0.ne'
    refine vec_ext' ?_ ?_ ?_ <;> simp only [lin, direction] <;> field_simp
    · linear_combination (-Real.cos e) * k1
    · linear_combination (-Real.sin e) * k1
    · linear_combination -k2

/-- **C90.** `distance_to_latlng` is the least angle between the point and a point of the rectangle. -/
theorem c90_distance {r : S2.Rect ℝ} (hv : r.isValid Real.pi = true) (hE : r.isEmpty = false) {ll : LatLng ℝ} (hll : IsLL Real.pi ll.lat ll.lng)
    (h : r.lng.contains Real.pi ll.lng = true ∨ r.lat.hi - r.lat.lo < Real.pi) :
    IsLeast {θ | ∃ a b, RPts Real.pi r a b ∧ θ = ang (direction ll.lat ll.lng) (direction a b)}
      (r.distanceToLatLng Real.pi _root_.id Real.sqrt Real.sin Real.cos Real.arcsin ll) := by
  have hp := Real.pi_pos
  obtain ⟨o1, o2, o3, o4, o5⟩ := isValid_iff.1 hv
  have hlat : r.lat.lo ≤ r.lat.hi := R1.isEmpty_eq_false.1 hE
  obtain ⟨i1, i2, i3, i4⟩ := hll
  have ca : ∀ {a}, r.lat.lo ≤ a → a ≤ r.lat.hi → 0 ≤ Real.cos a := fun h1 h2 => Real.cos_nonneg_of_mem_Icc ⟨by linarith, by linarith⟩
  have cl : 0 ≤ Real.cos ll.lat := Real.cos_nonneg_of_mem_Icc ⟨by linarith, by linarith⟩
  by_cases hc : r.lng.contains Real.pi ll.lng = true
  · have e : r.distanceToLatLng Real.pi _root_.id Real.sqrt Real.sin Real.cos Real.arcsin ll = max (max (ll.lat - r.lat.hi) (r.lat.lo - ll.lat)) 0 := by
      unfold S2.Rect.distanceToLatLng
      rw [if_pos hc]; rfl
    rw [e]
    have hm := ((S1.c50_contains hp o4 i3 i4).1).1 hc
    constructor
    · refine ⟨max r.lat.lo (min ll.lat r.lat.hi), ll.lng, ⟨⟨le_max_left _ _, max_le hlat (min_le_right _ _)⟩, i3, i4, hm⟩, ?_⟩
      have k : dot (direction ll.lat ll.lng) (direction (max r.lat.lo (min ll.lat r.lat.hi)) ll.lng) =
          Real.cos (ll.lat - max r.lat.lo (min ll.lat r.lat.hi)) := by
        rw [dot_direction, sub_self, Real.cos_zero, Real.cos_sub]; ring
      rw [← Real.cos_abs] at k
      have hab : |ll.lat - max r.lat.lo (min ll.lat r.lat.hi)| = max (max (ll.lat - r.lat.hi) (r.lat.lo - ll.lat)) 0 := by
        rw [abs_eq_max_neg]
        simp only [max_def, min_def]
        split_ifs <;> linarith
      rw [hab] at k
      exact (ang_of_cos (le_max_right _ _) (max_le (max_le (by linarith) (by linarith)) hp.le) k).symm
    · rintro θ ⟨a, b, hab, rfl⟩
      have k : dot (direction ll.lat ll.lng) (direction a b) ≤ Real.cos (ll.lat - a) := by
        rw [dot_direction, Real.cos_sub ll.lat]
        have := mul_le_mul_of_nonneg_left (Real.cos_le_one (ll.lng - b)) (mul_nonneg cl (ca hab.1.1 hab.1.2))
        linarith
      have a1 : r.lat.lo ≤ a := hab.1.1
      have a2 : a ≤ r.lat.hi := hab.1.2
      rw [← Real.cos_abs] at k
      have k2 : |ll.lat - a| ≤ ang (direction ll.lat ll.lng) (direction a b) := by
        unfold ang
        rw [← Real.arccos_cos (abs_nonneg (ll.lat - a)) (abs_le.2 ⟨by linarith, by linarith⟩)]
        exact Real.arccos_le_arccos k
      refine le_trans ?_ k2
      have z1 := le_abs_self (ll.lat - a)
      have z2 := neg_le_abs (ll.lat - a)
      exact max_le (max_le (by linarith) (by linarith)) (abs_nonneg _)
  · have hc' : r.lng.contains Real.pi ll.lng = false := by simpa using hc
    have h4 := h.resolve_left hc
    have hne : ¬ (r.lng.lo = Real.pi ∧ r.lng.hi = -Real.pi) := by
      rw [← S1.isEmpty_iff, ← o5]; exact fun hcon => by rw [show r.lat.isEmpty = false from hE] at hcon; cases hcon
    obtain ⟨n1, n2⟩ := nearest_end (S1.isValid_iff.1 o4) hne i3 i4 hc' rfl
    set e := (if (S1.Interval.new Real.pi r.lng.hi (r.lng.complementCenter Real.pi _root_.id)).contains Real.pi ll.lng then r.lng.hi else r.lng.lo) with he
    have ed : r.distanceToLatLng Real.pi _root_.id Real.sqrt Real.sin Real.cos Real.arcsin ll =
        EdgeUtil.distanceFromSegment _root_.id Real.sqrt Real.arcsin (direction ll.lat ll.lng) (direction r.lat.lo e) (direction r.lat.hi e) := by
      unfold S2.Rect.distanceToLatLng
      rw [if_neg hc]
      dsimp only
      rw [toPoint_eq, toPoint_eq, toPoint_eq]
    rw [ed]
    have hna : direction r.lat.hi e ≠ smul (-1) (direction r.lat.lo e) := by
      intro hcon
      have h1 := dot_direction r.lat.lo e r.lat.hi e
      rw [hcon, sub_self, Real.cos_zero] at h1
      have h2 : dot (direction r.lat.lo e) (smul (-1) (direction r.lat.lo e)) = -1 := by
        have := unit_direction r.lat.lo e
        simp only [UnitV, dot, smul] at this ⊢
        linear_combination -this
      rw [h2] at h1
      have h3 : Real.cos (r.lat.hi - r.lat.lo) = -1 := by rw [Real.cos_sub, h1]; ring
      have h5 := Real.cos_lt_cos_of_nonneg_of_le_pi (x := r.lat.hi - r.lat.lo) (y := Real.pi) (by linarith) le_rfl h4
      rw [Real.cos_pi, h3] at h5
      exact lt_irrefl _ h5
    obtain ⟨⟨p, hpE, hpd⟩, hmin⟩ := c82_distance (unit_direction r.lat.lo e) (unit_direction r.lat.hi e) (unit_direction ll.lat ll.lng) hna
    constructor
    · obtain ⟨φ, f1, f2, rfl⟩ := (onEdge_meridian o1 hlat o3 h4 p).1 hpE
      exact ⟨φ, e, ⟨⟨f1, f2⟩, n1⟩, hpd⟩
    · rintro θ ⟨a, b, hab, rfl⟩
      have k := hmin ⟨direction a e, (onEdge_meridian o1 hlat o3 h4 _).2 ⟨a, hab.1.1, hab.1.2, rfl⟩, rfl⟩
      refine k.trans ?_
      unfold ang
      apply Real.arccos_le_arccos
      rw [dot_direction, dot_direction]
      have := n2 b hab.2
      rw [← Real.cos_neg, neg_sub, ← Real.cos_neg (e - ll.lng), neg_sub] at this
      have := mul_le_mul_of_nonneg_left this (mul_nonneg cl (ca hab.1.1 hab.1.2))
      linarith

/-- **C91.** If `contains_cell` answers yes, the rectangle contains every point of the cell. -/
theorem c91_containsCell {r : S2.Rect ℝ} (hv : r.isValid Real.pi = true) {c : CellID} {C : Cell ℝ} (hc : Valid c) (hC : Cell.fromCellID _root_.id c = some C)
    {atan2 : ℝ → ℝ → ℝ} (h : IsArg atan2) {rem : ℝ → ℝ} (hr : S1.IsRem Real.pi rem) {eps : ℝ} (he : 0 ≤ eps) (he1 : eps ≤ 1) :
    ∃ b, r.containsCell Real.pi _root_.id Real.sqrt Real.arcsin atan2 rem eps C = some b ∧
      (b = true → ∀ p, InCell C p → r.containsLatLng Real.pi (LatLng.ofPoint _root_.id Real.sqrt atan2 p) = true) := by
  obtain ⟨B, e, hB, hin⟩ := c87_rectBound hc hC h hr he he1
  refine ⟨r.contains Real.pi B, by unfold S2.Rect.containsCell; rw [e]; rfl, fun hb p hp => ?_⟩
  have k := hin p hp
  rw [c56_containsLatLng Real.pi_pos hB] at k
  rw [c56_containsLatLng Real.pi_pos hv]
  exact (c56_contains Real.pi_pos hv hB).1 hb _ _ k

/-- **C92.** `area` is the area of the rectangle on the unit sphere. -/
theorem c92_area {r : S2.Rect ℝ} (hv : r.isValid Real.pi = true) :
    (r.isEmpty = true → r.area Real.pi _root_.id Real.sin = 0) ∧
    (r.isEmpty = false → r.area Real.pi _root_.id Real.sin =
      ∫ φ in r.lat.lo..r.lat.hi, ∫ _t in r.lng.lo..r.lng.lo + arcLen Real.pi r.lng.lo r.lng.hi, Real.cos φ) := by
  obtain ⟨o1, o2, o3, o4, o5⟩ := isValid_iff.1 hv
  constructor
  · intro h
    unfold S2.Rect.area
    rw [if_pos h]
  · intro h
    have hlat : r.lat.lo ≤ r.lat.hi := R1.isEmpty_eq_false.1 h
    have l := (S1.c51_len Real.pi_pos o4).2 (by rw [← o5]; exact h)
    have e : r.area Real.pi _root_.id Real.sin = r.lng.len Real.pi _root_.id * |Real.sin r.lat.hi - Real.sin r.lat.lo| := by
      unfold S2.Rect.area
      rw [if_neg (by rw [h]; simp)]
      rfl
    have s := (sin_le_iff o1 o2 (by linarith) o3).2 hlat
    rw [e, l, abs_of_nonneg (by linarith)]
    simp only [intervalIntegral.integral_const, smul_eq_mul, add_sub_cancel_left]
    rw [intervalIntegral.integral_const_mul, integral_cos]

/-- **C92.** `centroid` is the centroid of the rectangle multiplied by its area: the integral of the points over the area. -/
theorem c92_centroid {r : S2.Rect ℝ} (hv : r.isValid Real.pi = true) :
    (r.isEmpty = true → IsZero (r.centroid Real.pi _root_.id Real.sin Real.cos)) ∧
    (r.isEmpty = false → ∀ i, comp (r.centroid Real.pi _root_.id Real.sin Real.cos) i =
      ∫ φ in r.lat.lo..r.lat.hi, ∫ t in r.lng.lo..r.lng.lo + arcLen Real.pi r.lng.lo r.lng.hi, comp (direction φ t) i * Real.cos φ) := by
  obtain ⟨o1, o2, o3, o4, o5⟩ := isValid_iff.1 hv
  constructor
  · intro h
    unfold S2.Rect.centroid
    rw [if_pos h]
    exact ⟨rfl, rfl, rfl⟩
  · intro h i
    have hlngE : r.lng.isEmpty Real.pi = false := by rw [← o5]; exact h
    have l := (S1.c51_len Real.pi_pos o4).2 hlngE
    obtain ⟨_, w, ew, c1, c2⟩ := S1.c52_center Real.pi_pos o4 hlngE
    have e : r.centroid Real.pi _root_.id Real.sin Real.cos =
        ⟨Real.sin (1 / 2 * r.lng.len Real.pi _root_.id) * (Real.cos r.lat.hi * Real.sin r.lat.hi - Real.cos r.lat.lo * Real.sin r.lat.lo + (r.lat.hi - r.lat.lo)) *
            Real.cos (r.lng.center Real.pi _root_.id),
          Real.sin (1 / 2 * r.lng.len Real.pi _root_.id) * (Real.cos r.lat.hi * Real.sin r.lat.hi - Real.cos r.lat.lo * Real.sin r.lat.lo + (r.lat.hi - r.lat.lo)) *
            Real.sin (r.lng.center Real.pi _root_.id),
          1 / 2 * r.lng.len Real.pi _root_.id * (Real.sin r.lat.hi + Real.sin r.lat.lo) * (Real.sin r.lat.hi - Real.sin r.lat.lo)⟩ := by
      unfold S2.Rect.centroid
      rw [if_neg (by rw [h]; simp)]
      rfl
    rw [e, l, ← ew, show 1 / 2 * (2 * w) = w by ring]
    have k1 : Real.cos (r.lng.center Real.pi _root_.id) = Real.cos (r.lng.lo + w) := by
      have := cos_sameDir c1 0
      rwa [sub_zero, sub_zero] at this
    have k2 : Real.sin (r.lng.center Real.pi _root_.id) = Real.sin (r.lng.lo + w) := by
      have := cos_sameDir c1 (Real.pi / 2)
      rwa [Real.cos_sub_pi_div_two, Real.cos_sub_pi_div_two] at this
    have q : (∫ φ in r.lat.lo..r.lat.hi, Real.cos φ * Real.cos φ) =
        (Real.cos r.lat.hi * Real.sin r.lat.hi - Real.cos r.lat.lo * Real.sin r.lat.lo + (r.lat.hi - r.lat.lo)) / 2 := by
      have := integral_cos_sq (a := r.lat.lo) (b := r.lat.hi)
      simp only [pow_two] at this
      rw [this]; ring
    match i with
    | .X =>
      simp only [comp, direction]
      have : ∀ φ t, Real.cos φ * Real.cos t * Real.cos φ = (Real.cos φ * Real.cos φ) * Real.cos t := fun φ t => by ring
      simp only [this]
      simp only [intervalIntegral.integral_const_mul, intervalIntegral.integral_mul_const, q, k1, integral_cos]
      have : Real.sin (r.lng.lo + 2 * w) - Real.sin r.lng.lo = 2 * Real.sin w * Real.cos (r.lng.lo + w) := by
        rw [show r.lng.lo + 2 * w = (r.lng.lo + w) + w by ring, show Real.sin r.lng.lo = Real.sin ((r.lng.lo + w) - w) by ring_nf, Real.sin_add, Real.sin_sub]
        ring
      rw [this]; ring
    | .Y =>
      simp only [comp, direction]
      have : ∀ φ t, Real.cos φ * Real.sin t * Real.cos φ = (Real.cos φ * Real.cos φ) * Real.sin t := fun φ t => by ring
      simp only [this]
      simp only [intervalIntegral.integral_const_mul, intervalIntegral.integral_mul_const, q, k2, integral_sin]
      have : Real.cos r.lng.lo - Real.cos (r.lng.lo + 2 * w) = 2 * Real.sin w * Real.sin (r.lng.lo + w) := by
        rw [show r.lng.lo + 2 * w = (r.lng.lo + w) + w by ring, show Real.cos r.lng.lo = Real.cos ((r.lng.lo + w) - w) by ring_nf, Real.cos_add, Real.cos_sub]
        ring
      rw [this]; ring
    | .Z =>
      simp only [comp, direction]
      simp only [intervalIntegral.integral_const, smul_eq_mul, add_sub_cancel_left]
      rw [intervalIntegral.integral_const_mul, integral_sin_mul_cos₁]
      ring

/-- A rectangle across the antimeridian, of latitudes from -1/2 to 1. -/
noncomputable def exRect : S2.Rect ℝ := ⟨⟨-1 / 2, 1⟩, ⟨2, -2⟩⟩

theorem exRect_valid : exRect.isValid Real.pi = true ∧ exRect.isEmpty = false := by
  have hp := Real.pi_gt_three
  refine ⟨isValid_iff.2 ⟨?_, ?_, ?_, S1.isValid_iff.2 ⟨?_, ?_, ?_, ?_, ?_, ?_⟩, ?_⟩, ?_⟩
  all_goals simp only [exRect]
  · linarith
  · linarith
  · linarith
  · linarith
  · linarith
  · linarith
  · linarith
  · intro h; linarith
  · intro h; linarith
  · rw [R1.isEmpty_eq_false.2 (by norm_num)]
    symm
    rw [Bool.eq_false_iff, Ne, S1.isEmpty_iff]
    rintro ⟨h, _⟩
    linarith
  · exact R1.isEmpty_eq_false.2 (by norm_num)

-- the theorems apply to it: the cap contains the corner, the distance of the point on the equator at longitude 1 is the least angle, and the
-- centroid has the height of the integral
example : (exRect.capBound Real.pi _root_.id Real.sin Real.cos exists_rem_real.choose).containsPoint _root_.id (direction 1 2) = true ∧
    IsLeast {θ | ∃ a b, RPts Real.pi exRect a b ∧ θ = ang (direction 0 1) (direction a b)}
      (exRect.distanceToLatLng Real.pi _root_.id Real.sqrt Real.sin Real.cos Real.arcsin ⟨0, 1⟩) ∧
    (exRect.centroid Real.pi _root_.id Real.sin Real.cos).z =
      ∫ φ in (-1 / 2 : ℝ)..1, ∫ _t in (2 : ℝ)..2 + arcLen Real.pi 2 (-2), Real.sin φ * Real.cos φ := by
  have hp := Real.pi_gt_three
  obtain ⟨h1, h2⟩ := exRect_valid
  refine ⟨(c89_capBound h1 exists_rem_real.choose_spec).2.2.1 1 2 (c72_vertex Real.pi_pos h1 h2 3),
    c90_distance (ll := ⟨0, 1⟩) h1 h2 ?_ (Or.inr ?_), (c92_centroid h1).2 h2 .Z⟩
  · refine ⟨?_, ?_, ?_, ?_⟩ <;> dsimp only <;> linarith
  · show (1 : ℝ) - -1 / 2 < Real.pi
    linarith

example : ∃ C b, Cell.fromCellID (_root_.id : ℝ → ℝ) ⟨0x6060730000000000#64⟩ = some C ∧
    exRect.containsCell Real.pi _root_.id Real.sqrt Real.arcsin (fun y x => Complex.arg ⟨x, y⟩) exists_rem_real.choose (2 ^ (-52 : ℤ)) C = some b := by
  have h := (c68_from (_root_.id : ℝ → ℝ) exCell.1 exCell.2.1 exCell.1.square exCell.1.faceIJ).1
  obtain ⟨b, e, _⟩ := c91_containsCell exRect_valid.1 exCell.1 h isArg_arg exists_rem_real.choose_spec (eps := 2 ^ (-52 : ℤ)) (by norm_num) (by norm_num)
  exact ⟨_, b, h, e⟩

end Verif
