import Verif.Properties.ProjectRound
import Verif.Properties.CellBound
import Verif.Proofs.Near
import Verif.Proofs.RNE

/-!
# The bounding cap of a cell with rounding (C123)
-/

namespace Verif
open Spec EdgeUtil

/-- The direction of a vector, and the vector that `normalize` computes. -/
theorem normalize_dir {fl : ℝ → ℝ} (h : Rounding fl) {w : Vec ℝ} (w1 : 1 ≤ dot w w) (w2 : dot w w ≤ 4) :
    UnitV (smul (1 / Real.sqrt (dot w w)) w) ∧ ∃ M l, UnitV M ∧ w.normalize fl Real.sqrt = smul l M ∧ |l - 1| ≤ 9 * eps53 ∧
      Real.sqrt (dist2 M (smul (1 / Real.sqrt (dot w w)) w)) ≤ 20 * eps53 := by
  have e0 := eps53_pos
  have e1 := eps53_le
  have n1 := eta75_tiny
  have hr := Real.sq_sqrt (by linarith : 0 ≤ dot w w)
  have r1 : 1 ≤ Real.sqrt (dot w w) := Real.one_le_sqrt.2 w1
  have r2 : Real.sqrt (dot w w) ≤ 2 := Real.sqrt_le_iff.2 ⟨by norm_num, by linarith⟩
  generalize Real.sqrt (dot w w) = r at *
  have rp : 0 < r := by linarith
  have b0 : (1 : ℝ) / 2 ^ 400 ≤ r := le_trans (by rw [div_le_one (by positivity)]; exact one_le_pow₀ (by norm_num)) r1
  have b1 : r ≤ 2 ^ 400 := r2.trans (le_self_pow₀ (by norm_num) (by norm_num))
  obtain ⟨a, b, c⟩ := normalize_gen h b0 b1 hr
  have hl := normalize_len h b0 b1 hr
  obtain ⟨x1, y1, z1⟩ := comp_le rp.le hr.ge
  clear b0 b1
  generalize w.normalize fl Real.sqrt = m at *
  have uW : UnitV (smul (1 / r) w) := by
    show dot (smul (1 / r) w) (smul (1 / r) w) = 1
    have : dot (smul (1 / r) w) (smul (1 / r) w) = (1 / r) ^ 2 * dot w w := by unfold dot smul; ring
    rw [this, ← hr]
    field_simp
  refine ⟨uW, ?_⟩
  have hl' := abs_le.1 hl
  have dp : 0 < dot m m := by linarith
  have hs := Real.sq_sqrt dp.le
  have sp := Real.sqrt_pos.2 dp
  generalize Real.sqrt (dot m m) = l at *
  have uM : UnitV (smul (1 / l) m) := by
    show dot (smul (1 / l) m) (smul (1 / l) m) = 1
    have : dot (smul (1 / l) m) (smul (1 / l) m) = (1 / l) ^ 2 * dot m m := by unfold dot smul; ring
    rw [this, ← hs]
    field_simp
  have em : m = smul l (smul (1 / l) m) := by
    cases m
    simp only [smul, Vec.mk.injEq]
    refine ⟨?_, ?_, ?_⟩ <;> field_simp
  have hl9 := mult_near sp uM em (by linarith)
  refine ⟨_, l, uM, em, hl9, ?_⟩
  have q1 := chord_scale uM em hl9
  have fin : ∀ {t s : ℝ}, |t - s / r| ≤ 5 * eps53 * (|s| / r) + eta75 → |s| ≤ r → |t - 1 / r * s| ≤ 6 * eps53 := by
    intro t s ht hs
    have : |s| / r ≤ 1 := (div_le_one rp).2 hs
    have := mul_le_mul_of_nonneg_left this (by linarith : 0 ≤ 5 * eps53)
    rw [one_div_mul_eq_div]
    linarith
  have q2 := chord_comps (u := m) (v := smul (1 / r) w) (k := 6 * eps53) (by linarith) (by
    rintro (_ | _ | _)
    exacts [fin a x1, fin b y1, fin c z1])
  have := chord_tri (smul (1 / l) m) m (smul (1 / r) w)
  linarith

/-- Taking directions does not increase distances outside the unit ball. -/
theorem dir_near {w z : Vec ℝ} (w1 : 1 ≤ dot w w) (z1 : 1 ≤ dot z z) :
    dist2 (smul (1 / Real.sqrt (dot w w)) w) (smul (1 / Real.sqrt (dot z z)) z) ≤ dist2 w z := by
  have hr := Real.sq_sqrt (by linarith : 0 ≤ dot w w)
  have hs := Real.sq_sqrt (by linarith : 0 ≤ dot z z)
  have r1 : 1 ≤ Real.sqrt (dot w w) := Real.one_le_sqrt.2 w1
  have s1 : 1 ≤ Real.sqrt (dot z z) := Real.one_le_sqrt.2 z1
  have cs := cauchy w z
  generalize Real.sqrt (dot w w) = r at *
  generalize Real.sqrt (dot z z) = s at *
  have ea : dist2 w z = dot w w + dot z z - 2 * dot w z := by unfold dist2 dot diff; ring
  have eb : dist2 (smul (1 / r) w) (smul (1 / s) z) = (1 / r) ^ 2 * dot w w + (1 / s) ^ 2 * dot z z - 2 * (1 / r * (1 / s) * dot w z) := by
    unfold dist2 dot diff smul; ring
  rw [ea, eb, ← hr, ← hs]
  set q := 1 / r * (1 / s) * dot w z with hq
  have eq : dot w z = r * s * q := by rw [hq]; field_simp
  have f1 : (1 / r) ^ 2 * r ^ 2 = 1 := by field_simp
  have f2 : (1 / s) ^ 2 * s ^ 2 = 1 := by field_simp
  have rs : 1 ≤ r * s := one_le_mul_of_one_le_of_one_le r1 s1
  have q1 : q ≤ 1 := by
    by_contra hc
    have hc := not_le.1 hc
    rw [eq, ← hr, ← hs] at cs
    have : (r * s) ^ 2 * 1 < (r * s) ^ 2 * q ^ 2 := mul_lt_mul_of_pos_left (by nlinarith) (by positivity)
    nlinarith
  rw [f1, f2, eq]
  nlinarith [sq_nonneg (r - s), mul_nonneg (sub_nonneg.2 rs) (sub_nonneg.2 q1)]

/-- The computed chord angle of two computed points. -/
theorem chordAngle_near {fl : ℝ → ℝ} (h : Rounding fl) {m v M V V' : Vec ℝ} {l r : ℝ} (hM : UnitV M) (hV : UnitV V) (hV' : UnitV V') (em : m = smul l M)
    (ev : v = smul r V) (hl : |l - 1| ≤ 9 * eps53) (hr : |r - 1| ≤ 9 * eps53) (hn : Real.sqrt (dist2 V V') ≤ 20 * eps53) :
    |Real.sqrt (Vec.chordAngle fl m v) - Real.sqrt (dist2 M V')| ≤ 90 * eps53 := by
  have e0 := eps53_pos
  have D4 : ∀ {A B : Vec ℝ}, UnitV A → UnitV B → dist2 A B ≤ 4 := by
    intro A B hA hB
    rw [dist2_unit hA hB]
    linarith [(dot_le_one hA hB).1]
  have a := sqdist_sqrt (D := dist2 M V) (dot_self_ge _) (D4 hM hV) (sqdist_near h hM hV em ev hl hr)
  have t1 := chord_tri M V V'
  have t2 := chord_tri M V' V
  rw [chord_comm V' V] at t2
  have a' := abs_le.1 a
  have s2 : Real.sqrt (dist2 M V') ≤ 2 := Real.sqrt_le_iff.2 ⟨by norm_num, by linarith [D4 hM hV']⟩
  unfold Vec.chordAngle
  rw [abs_le]
  rcases min_choice 4 (Vec.norm2 fl (Vec.sub fl m v)) with hc | hc
  · rw [hc, show Real.sqrt 4 = 2 by rw [show (4 : ℝ) = 2 ^ 2 by norm_num]; exact Real.sqrt_sq (by norm_num)]
    have : Real.sqrt 4 ≤ Real.sqrt (Vec.norm2 fl (Vec.sub fl m v)) := Real.sqrt_le_sqrt (min_eq_left_iff.1 hc)
    rw [show Real.sqrt 4 = 2 by rw [show (4 : ℝ) = 2 ^ 2 by norm_num]; exact Real.sqrt_sq (by norm_num)] at this
    constructor <;> linarith
  · rw [hc]
    constructor <;> linarith

/-- The middle of an interval within `[-1.001, 1.001]`. -/
theorem center_near {fl : ℝ → ℝ} (h : Rounding fl) {i : R1.Interval ℝ} (h0 : -1001 / 1000 ≤ i.lo) (h1 : i.lo < i.hi) (h2 : i.hi ≤ 1001 / 1000) :
    |i.center fl - (i.lo + i.hi) / 2| ≤ 3 * eps53 ∧ |i.center fl| ≤ 1002 / 1000 ∧ -1 / 4 ≤ i.lo * i.center fl ∧ -1 / 4 ≤ i.hi * i.center fl := by
  have e0 := eps53_pos
  have e1 := eps53_le
  have t1 := tau600_le
  unfold R1.Interval.center
  obtain ⟨a, b⟩ := i
  dsimp only at *
  have b1 : |a + b| ≤ 2002 / 1000 := by rw [abs_le]; constructor <;> linarith
  have f1 := fl_err6 h (x := a + b) (by linarith)
  have g1 := mul_le_mul_of_nonneg_right b1 e0.le
  generalize fl (a + b) = s at *
  have f1' := abs_le.1 f1
  have b1' := abs_le.1 b1
  have b2 : |1 / 2 * s| ≤ 10015 / 10000 := by rw [abs_le]; constructor <;> linarith
  have f2 := fl_err6 h (x := 1 / 2 * s) (by linarith)
  have g2 := mul_le_mul_of_nonneg_right b2 e0.le
  generalize fl (1 / 2 * s) = c at *
  have f2' := abs_le.1 f2
  have b2' := abs_le.1 b2
  have n : |c - (a + b) / 2| ≤ 3 * eps53 := by rw [abs_le]; constructor <;> linarith
  refine ⟨n, by rw [abs_le]; constructor <;> linarith, ?_⟩
  have n' := abs_le.1 n
  clear f1 f2 f1' f2' g1 g2 b1 b2 b1' b2'
  have pr : ∀ {x : ℝ}, -1001 / 1000 ≤ x → x ≤ 1001 / 1000 → -1 / 5 ≤ x * ((a + b) / 2) → -1 / 4 ≤ x * c := by
    intro x x0 x1 hx
    have : |x * (c - (a + b) / 2)| ≤ 2 * (1 / 10 ^ 10) := by
      rw [abs_mul]
      exact mul_le_mul (by rw [abs_le]; constructor <;> linarith) (by linarith) (abs_nonneg _) (by norm_num)
    have t := (abs_le.1 this).1
    have : x * c = x * ((a + b) / 2) + x * (c - (a + b) / 2) := by ring
    rw [this]
    linarith
  constructor
  · refine pr h0 (by linarith) ?_
    nlinarith [sq_nonneg (a + b / 2), mul_nonneg (sub_nonneg.2 h2) (by linarith : 0 ≤ b + 1001 / 1000)]
  · refine pr (by linarith) h2 ?_
    nlinarith [sq_nonneg (b + a / 2), mul_nonneg (sub_nonneg.2 h0) (by linarith : 0 ≤ 1001 / 1000 - a)]

/-- A face point and its direction. -/
theorem face_sq {f : Nat} (hf : f < 6) {u v u' v' : ℝ} {w w' : Vec ℝ} (hw : faceUVtoXYZ f u v = some w) (hw' : faceUVtoXYZ f u' v' = some w') :
    dot w w' = 1 + u * u' + v * v' ∧ dist2 w w' = (u - u') ^ 2 + (v - v') ^ 2 := by
  interval_cases f <;> obtain rfl := Option.some.inj hw <;> obtain rfl := Option.some.inj hw' <;> simp only [dist2, dot, diff] <;> constructor <;> ring

theorem face_some {f : Nat} (hf : f < 6) (u v : ℝ) : ∃ w, faceUVtoXYZ f u v = some w := by
  interval_cases f <;> exact ⟨_, rfl⟩

/-- The vertices of a cell as computed. -/
theorem vertices_form (fl : ℝ → ℝ) {C : Cell ℝ} (hf : C.face < 6) : ∃ w : Nat → Vec ℝ,
    (∀ k, k < 4 → faceUVtoXYZ C.face (corner C.uv k).1 (corner C.uv k).2 = some (w k)) ∧
    (∀ k, k < 4 → C.vertex fl Real.sqrt k = some ((w k).normalize fl Real.sqrt)) ∧
    Cap.cellVertices fl Real.sqrt C = some [(w 0).normalize fl Real.sqrt, (w 1).normalize fl Real.sqrt, (w 2).normalize fl Real.sqrt, (w 3).normalize fl Real.sqrt] := by
  have ex : ∀ k, ∃ w, faceUVtoXYZ C.face (corner C.uv k).1 (corner C.uv k).2 = some w := fun k => face_some hf _ _
  choose w hw using ex
  have hv : ∀ k, k < 4 → C.vertex fl Real.sqrt k = some ((w k).normalize fl Real.sqrt) := by
    intro k hk
    have := hw k
    unfold Cell.vertex
    interval_cases k <;> simp only [R2.Rect.vertices, corner] at this ⊢ <;> simp [this]
  refine ⟨w, fun k _ => hw k, hv, ?_⟩
  unfold Cap.cellVertices
  rw [hv 0 (by norm_num), hv 1 (by norm_num), hv 2 (by norm_num), hv 3 (by norm_num)]
  rfl

/-- The cap that is computed: its radius is the greatest chord angle from the centre to a vertex. -/
theorem capBound_form {fl : ℝ → ℝ} (hm : Monotone fl) (f0 : fl 0 = 0) {C : Cell ℝ} {m : Vec ℝ} {v : Nat → Vec ℝ}
    (hw : faceUVtoXYZ C.face (C.uv.center fl).x (C.uv.center fl).y = some m) (hvs : Cap.cellVertices fl Real.sqrt C = some [v 0, v 1, v 2, v 3]) :
    ∃ R, C.capBound fl Real.sqrt = some ⟨m.normalize fl Real.sqrt, R⟩ ∧ 0 ≤ R ∧ (∀ k, k < 4 → Vec.chordAngle fl (m.normalize fl Real.sqrt) (v k) ≤ R) ∧
      ∃ k, k < 4 ∧ R = Vec.chordAngle fl (m.normalize fl Real.sqrt) (v k) := by
  set c := m.normalize fl Real.sqrt with hc
  refine ⟨max (Vec.chordAngle fl c (v 3)) (max (Vec.chordAngle fl c (v 2)) (max (Vec.chordAngle fl c (v 1)) (max (Vec.chordAngle fl c (v 0)) 0))), ?_, ?_, ?_, ?_⟩
  · unfold Cell.capBound
    dsimp only
    rw [hw, hvs]
    simp only [Option.bind_eq_bind, Option.bind_some, List.foldl_cons, List.foldl_nil]
    have step : ∀ r p, 0 ≤ r → Cap.addPoint fl (⟨c, r⟩ : Cap ℝ) p = ⟨c, max (Vec.chordAngle fl c p) r⟩ := by
      intro r p hr
      unfold Cap.addPoint
      rw [if_neg (by rw [empty_iff]; exact not_lt.2 hr)]
    have s0 : Cap.ofPoint (m.normalize fl Real.sqrt) = ⟨c, 0⟩ := rfl
    rw [s0, step _ _ le_rfl, step _ _ (le_max_of_le_right le_rfl), step _ _ (le_max_of_le_right (le_max_of_le_right le_rfl)),
      step _ _ (le_max_of_le_right (le_max_of_le_right (le_max_of_le_right le_rfl)))]
  · exact le_max_of_le_right (le_max_of_le_right (le_max_of_le_right (le_max_right _ _)))
  · intro k hk
    interval_cases k
    · exact le_max_of_le_right (le_max_of_le_right (le_max_of_le_right (le_max_left _ _)))
    · exact le_max_of_le_right (le_max_of_le_right (le_max_left _ _))
    · exact le_max_of_le_right (le_max_left _ _)
    · exact le_max_left _ _
  · have d0 := chordAngle_nonneg hm f0 c (v 0)
    rw [max_eq_left d0]
    rcases max_choice (Vec.chordAngle fl c (v 3)) (max (Vec.chordAngle fl c (v 2)) (max (Vec.chordAngle fl c (v 1)) (Vec.chordAngle fl c (v 0)))) with h | h
    · exact ⟨3, by norm_num, h⟩
    rw [h]
    rcases max_choice (Vec.chordAngle fl c (v 2)) (max (Vec.chordAngle fl c (v 1)) (Vec.chordAngle fl c (v 0))) with h | h
    · exact ⟨2, by norm_num, h⟩
    rw [h]
    rcases max_choice (Vec.chordAngle fl c (v 1)) (Vec.chordAngle fl c (v 0)) with h | h
    · exact ⟨1, by norm_num, h⟩
    · exact ⟨0, by norm_num, h⟩

/-- The bounding cap of a cell whose rectangle is within `[-1.001, 1.001]`. -/
theorem capBound_round {fl : ℝ → ℝ} (h : Rounding fl) (hm : Monotone fl) (f0 : fl 0 = 0) {C : Cell ℝ} (hf : C.face < 6)
    (hx : C.uv.x.lo < C.uv.x.hi) (hy : C.uv.y.lo < C.uv.y.hi) (x0 : -1001 / 1000 ≤ C.uv.x.lo) (x1 : C.uv.x.hi ≤ 1001 / 1000)
    (y0 : -1001 / 1000 ≤ C.uv.y.lo) (y1 : C.uv.y.hi ≤ 1001 / 1000) :
    ∃ B M l, C.capBound fl Real.sqrt = some B ∧ UnitV M ∧ B.center = smul l M ∧ |l - 1| ≤ 9 * eps53 ∧ 0 ≤ B.radius ∧ B.radius < 2 ∧
      (∃ Z t z, faceUVtoXYZ C.face ((C.uv.x.lo + C.uv.x.hi) / 2) ((C.uv.y.lo + C.uv.y.hi) / 2) = some z ∧ 0 < t ∧ Z = smul t z ∧ UnitV Z ∧
        Real.sqrt (dist2 M Z) ≤ 25 * eps53) ∧
      (∀ k, k < 4 → ∃ v, C.vertex fl Real.sqrt k = some v ∧ B.containsPoint fl v = true) ∧
      (∀ p, InCell C p → UnitV p → Real.sqrt (dist2 M p) ≤ Real.sqrt B.radius + 90 * eps53) ∧
      ∃ p, InCell C p ∧ UnitV p ∧ Real.sqrt B.radius ≤ Real.sqrt (dist2 M p) + 90 * eps53 := by
  have e0 := eps53_pos
  have e1 := eps53_le
  obtain ⟨w, hw, hv, hvs⟩ := vertices_form fl hf
  obtain ⟨nx, mx, ax, bx⟩ := center_near h x0 hx x1
  obtain ⟨ny, my, ay, by'⟩ := center_near h y0 hy y1
  obtain ⟨m, em⟩ := face_some hf (C.uv.center fl).x (C.uv.center fl).y
  obtain ⟨z, ez⟩ := face_some hf ((C.uv.x.lo + C.uv.x.hi) / 2) ((C.uv.y.lo + C.uv.y.hi) / 2)
  obtain ⟨R, hB, R0, Rk, k, hk, ek⟩ := capBound_form hm f0 em (v := fun k => (w k).normalize fl Real.sqrt) hvs
  have cx : (C.uv.center fl).x = C.uv.x.center fl := rfl
  have cy : (C.uv.center fl).y = C.uv.y.center fl := rfl
  rw [cx, cy] at em
  generalize C.uv.x.center fl = cu at *
  generalize C.uv.y.center fl = cv at *
  have sq1 : ∀ {u : ℝ}, |u| ≤ 1002 / 1000 → 0 ≤ u * u ∧ u * u ≤ 101 / 100 := by
    intro u hu
    refine ⟨mul_self_nonneg u, ?_⟩
    rw [← abs_mul_abs_self]
    have := mul_le_mul hu hu (abs_nonneg _) (by norm_num)
    linarith
  have size : ∀ {u v : ℝ} {y : Vec ℝ}, faceUVtoXYZ C.face u v = some y → |u| ≤ 1002 / 1000 → |v| ≤ 1002 / 1000 → 1 ≤ dot y y ∧ dot y y ≤ 302 / 100 := by
    intro u v y hy hu hv
    rw [(face_sq hf hy hy).1]
    obtain ⟨a, b⟩ := sq1 hu
    obtain ⟨c, d⟩ := sq1 hv
    constructor <;> linarith
  have sm := size em mx my
  have sz := size ez (by rw [abs_le]; constructor <;> linarith) (by rw [abs_le]; constructor <;> linarith)
  have cb : ∀ k, k < 4 → |(corner C.uv k).1| ≤ 1002 / 1000 ∧ |(corner C.uv k).2| ≤ 1002 / 1000 ∧ -1 / 4 ≤ (corner C.uv k).1 * cu ∧ -1 / 4 ≤ (corner C.uv k).2 * cv := by
    intro k hk
    interval_cases k <;> simp only [corner] <;> refine ⟨?_, ?_, ?_, ?_⟩ <;> first | assumption | (rw [abs_le]; constructor <;> linarith)
  have sw : ∀ k, k < 4 → 1 ≤ dot (w k) (w k) ∧ dot (w k) (w k) ≤ 302 / 100 := fun k hk => size (hw k hk) (cb k hk).1 (cb k hk).2.1
  obtain ⟨uW, M, l, uM, eM, lM, nM⟩ := normalize_dir h sm.1 (by linarith)
  set W := smul (1 / Real.sqrt (dot m m)) m with hW
  set V : Nat → Vec ℝ := fun k => smul (1 / Real.sqrt (dot (w k) (w k))) (w k) with hVd
  have tp : ∀ {y : Vec ℝ}, 1 ≤ dot y y → 0 < 1 / Real.sqrt (dot y y) := fun {y} hy => by
    have := Real.sqrt_pos.2 (by linarith : 0 < dot y y)
    positivity
  have hV : ∀ k, k < 4 → UnitV (V k) ∧ ∃ w t, faceUVtoXYZ C.face (corner C.uv k).1 (corner C.uv k).2 = some w ∧ 0 < t ∧ V k = smul t w := fun k hk =>
    ⟨(normalize_dir h (sw k hk).1 (by linarith [(sw k hk).2])).1, w k, _, hw k hk, tp (sw k hk).1, rfl⟩
  have near : ∀ k, k < 4 → |Real.sqrt (Vec.chordAngle fl (m.normalize fl Real.sqrt) ((w k).normalize fl Real.sqrt)) - Real.sqrt (dist2 M (V k))| ≤ 90 * eps53 := by
    intro k hk
    obtain ⟨uV, M', l', a, b, c, d⟩ := normalize_dir h (sw k hk).1 (by linarith [(sw k hk).2])
    exact chordAngle_near h uM a uV eM b lM c d
  -- the vertices are less than a right angle away
  have close : ∀ k, k < 4 → Real.sqrt (dist2 M (V k)) ≤ 13 / 10 := by
    intro k hk
    have d1 : 1 / 2 ≤ dot m (w k) := by
      rw [(face_sq hf em (hw k hk)).1]
      have := cb k hk
      linarith [mul_comm cu (corner C.uv k).1, mul_comm cv (corner C.uv k).2]
    have d2 : 1 / 2 * (1 / (302 / 100)) ≤ dot W (V k) := by
      have e : dot W (V k) = dot m (w k) * (1 / Real.sqrt (dot m m) * (1 / Real.sqrt (dot (w k) (w k)))) := by
        simp only [hW, hVd, dot, smul]; ring
      rw [e]
      refine mul_le_mul d1 ?_ (by positivity) (by linarith)
      rw [one_div_mul_one_div, mul_comm, ← Real.sqrt_mul_self (by norm_num : (0 : ℝ) ≤ 302 / 100), ← Real.sqrt_mul (by linarith [(sw k hk).1])]
      have := (sw k hk)
      refine one_div_le_one_div_of_le (Real.sqrt_pos.2 (mul_pos (by linarith) (by linarith [sm.1]))) (Real.sqrt_le_sqrt ?_)
      exact mul_le_mul this.2 sm.2 (by linarith [sm.1]) (by norm_num)
    have d3 : Real.sqrt (dist2 W (V k)) ≤ 1295 / 1000 := by
      refine Real.sqrt_le_iff.2 ⟨by norm_num, ?_⟩
      rw [dist2_unit uW (hV k hk).1]
      norm_num at d2 ⊢
      linarith
    have := chord_tri M W (V k)
    linarith
  have nk := near k hk
  rw [← ek] at nk
  have nk' := abs_le.1 nk
  have sR : Real.sqrt R ≤ 131 / 100 := by linarith [close k hk]
  have sR0 := Real.sqrt_nonneg R
  have vertexIn : ∀ k, k < 4 → InCell C (V k) := by
    intro k hk
    refine ⟨_, _, w k, _, ?_, hw k hk, tp (sw k hk).1, rfl⟩
    interval_cases k
    exacts [⟨⟨le_rfl, hx.le⟩, le_rfl, hy.le⟩, ⟨⟨hx.le, le_rfl⟩, le_rfl, hy.le⟩, ⟨⟨hx.le, le_rfl⟩, hy.le, le_rfl⟩, ⟨⟨le_rfl, hx.le⟩, hy.le, le_rfl⟩]
  refine ⟨_, M, l, hB, uM, eM, lM, R0, ?_, ⟨_, _, z, ez, tp sz.1, rfl, (normalize_dir h sz.1 (by linarith)).1, ?_⟩, fun i hi => ⟨_, hv i hi, ?_⟩, fun p hp up => ?_,
    V k, vertexIn k hk, (hV k hk).1, by dsimp only; linarith⟩
  · show R < 2
    rw [← Real.sq_sqrt R0]
    nlinarith
  · have t := chord_tri M W (smul (1 / Real.sqrt (dot z z)) z)
    have t2 := Real.sqrt_le_sqrt (dir_near sm.1 sz.1)
    have t3 : Real.sqrt (dist2 m z) ≤ 5 * eps53 := by
      refine Real.sqrt_le_iff.2 ⟨by linarith, ?_⟩
      rw [(face_sq hf em ez).2, ← sq_abs (cu - _), ← sq_abs (cv - _)]
      have a := pow_le_pow_left₀ (abs_nonneg _) nx 2
      have b := pow_le_pow_left₀ (abs_nonneg _) ny 2
      have := sq_nonneg eps53
      linarith [show (3 * eps53) ^ 2 = 9 * eps53 ^ 2 by ring, show (5 * eps53) ^ 2 = 25 * eps53 ^ 2 by ring]
    linarith
  · exact decide_eq_true (Rk i hi)
  · set Q := Real.sqrt R + 90 * eps53 with hQ
    have Q0 : 0 ≤ Q := by linarith
    have Q1 : Q ^ 2 ≤ 2 := by nlinarith
    have hk : ∀ i, i < 4 → 1 - Q ^ 2 / 2 ≤ dot (V i) M := by
      intro i hi
      have a := abs_le.1 (near i hi)
      have b := Real.sqrt_le_sqrt (Rk i hi)
      have c : Real.sqrt (dist2 M (V i)) ≤ Q := by linarith
      have d := (Real.sqrt_le_iff.1 c).2
      rw [chord_comm, dist2_unit (hV i hi).1 uM] at d
      linarith
    have := cell_dot hf hx hy hV hp up (x := M) (by linarith) hk
    refine Real.sqrt_le_iff.2 ⟨Q0, ?_⟩
    rw [chord_comm, dist2_unit up uM]
    linarith

/-- Grid lines with rounding: they are in order and near the exact ones. -/
theorem line_round {fl : ℝ → ℝ} (h : Rounding fl) {a : Int} (a0 : 0 ≤ a) (a1 : a ≤ 2 ^ 30) :
    |uvLine fl a - uvLine (_root_.id : ℝ → ℝ) a| ≤ 1 / 2 ^ 45 := by
  have r0 : (0 : ℝ) ≤ a := by exact_mod_cast a0
  have r1 : (a : ℝ) ≤ 2 ^ 30 := by exact_mod_cast a1
  have s0 : 0 ≤ (a : ℝ) / 2 ^ 30 := by positivity
  have s1 : (a : ℝ) / 2 ^ 30 ≤ 1 := (div_le_one (by positivity)).2 r1
  have e := near_self h (x := (a : ℝ) / 2 ^ 30) (B := 1) (by rw [abs_of_nonneg s0]; exact s1) (by norm_num)
  unfold uvLine
  simp only [_root_.id]
  generalize (a : ℝ) / 2 ^ 30 = s at *
  generalize fl s = t at *
  have e' := abs_le.1 e
  norm_num at e'
  have n := stToUV_near h (s := t) (by linarith) (by linarith)
  have n' := abs_le.1 n
  have l := stToUV_lip_abs (a := s) (b := t) (by linarith) (by linarith) (by linarith) (by linarith)
  have l' := abs_le.1 (l.2.trans (mul_le_mul_of_nonneg_left e (by norm_num)))
  rw [abs_le]
  norm_num at n' l' ⊢
  constructor <;> linarith

/-- The rectangle of a cell with rounding. -/
theorem rect_round {fl : ℝ → ℝ} (h : Rounding fl) {i s : Int} (i0 : 0 ≤ i) (s0 : 0 < s) (i1 : i + s ≤ 2 ^ 30) :
    -1001 / 1000 ≤ uvLine fl i ∧ uvLine fl i < uvLine fl (i + s) ∧ uvLine fl (i + s) ≤ 1001 / 1000 := by
  have a := abs_le.1 (line_round h i0 (by omega))
  have b := abs_le.1 (line_round h (a := i + s) (by omega) i1)
  have r0 : (0 : ℝ) ≤ i := by exact_mod_cast i0
  have r1 : ((i + s : Int) : ℝ) ≤ 2 ^ 30 := by exact_mod_cast i1
  have r2 : (i : ℝ) + 1 ≤ (i + s : Int) := by exact_mod_cast (by omega : i + 1 ≤ i + s)
  have q0 : 0 ≤ (i : ℝ) / 2 ^ 30 := by positivity
  have q1 : ((i + s : Int) : ℝ) / 2 ^ 30 ≤ 1 := (div_le_one (by positivity)).2 r1
  have q2 : (i : ℝ) / 2 ^ 30 + 1 / 2 ^ 30 ≤ ((i + s : Int) : ℝ) / 2 ^ 30 := by rw [← add_div]; gcongr
  have l := stToUV_lip (a := (i : ℝ) / 2 ^ 30) (b := ((i + s : Int) : ℝ) / 2 ^ 30) (by linarith) (by norm_num at q2 ⊢; linarith) (by linarith)
  have g0 := (c59_stToUV_range q0 (by norm_num at q2 q1 ⊢; linarith)).1
  have g1 := (c59_stToUV_range (K := ℝ) (s := ((i + s : Int) : ℝ) / 2 ^ 30) (by norm_num at q2 q0 ⊢; linarith) q1).2
  have u0 : uvLine (_root_.id : ℝ → ℝ) i = stToUV _root_.id ((i : ℝ) / 2 ^ 30) := rfl
  have u1 : uvLine (_root_.id : ℝ → ℝ) (i + s) = stToUV _root_.id (((i + s : Int) : ℝ) / 2 ^ 30) := rfl
  rw [u0] at a
  rw [u1] at b
  generalize stToUV _root_.id ((i : ℝ) / 2 ^ 30) = X at *
  generalize stToUV _root_.id (((i + s : Int) : ℝ) / 2 ^ 30) = Y at *
  generalize uvLine fl i = x at *
  generalize uvLine fl (i + s) = y at *
  generalize (i : ℝ) / 2 ^ 30 = c at *
  generalize ((i + s : Int) : ℝ) / 2 ^ 30 = d at *
  norm_num at a b q2
  refine ⟨?_, ?_, ?_⟩ <;> linarith

/-- **C123.** The bounding cap of a cell with rounding: its centre is the middle of the cell's rectangle and its radius the greatest distance
of a point of the cell, up to `90 / 2^53` in chord length; the computed vertices are contained by the computed test. -/
theorem c123_capBound {fl : ℝ → ℝ} (h : Rounding fl) (hm : Monotone fl) (f0 : fl 0 = 0) {c : CellID} (hc : Valid c) :
    ∃ C B M l, Cell.fromCellID fl c = some C ∧ C.capBound fl Real.sqrt = some B ∧ UnitV M ∧ B.center = smul l M ∧ |l - 1| ≤ 9 / 2 ^ 53 ∧
      0 ≤ B.radius ∧ B.radius < 2 ∧
      (∃ Z t z, faceUVtoXYZ C.face ((C.uv.x.lo + C.uv.x.hi) / 2) ((C.uv.y.lo + C.uv.y.hi) / 2) = some z ∧ 0 < t ∧ Z = smul t z ∧ UnitV Z ∧
        Real.sqrt (dist2 M Z) ≤ 25 / 2 ^ 53) ∧
      (∀ k, k < 4 → ∃ v, C.vertex fl Real.sqrt k = some v ∧ B.containsPoint fl v = true) ∧
      (∀ p, InCell C p → UnitV p → Real.sqrt (dist2 M p) ≤ Real.sqrt B.radius + 90 / 2 ^ 53) ∧
      ∃ p, InCell C p ∧ UnitV p ∧ Real.sqrt B.radius ≤ Real.sqrt (dist2 M p) + 90 / 2 ^ 53 := by
  have r1 := (c68_from fl hc hc.level hc.square hc.faceIJ).1
  have sq := hc.square
  have p1 := rect_round h sq.i_lo sq.pos sq.i_hi
  have p2 := rect_round h sq.j_lo sq.pos sq.j_hi
  have e : ∀ n : ℝ, n * eps53 = n / 2 ^ 53 := fun n => by unfold eps53; ring
  obtain ⟨B, M, l, h1, h2, h3, h4, h5, h6, h7, h8, h9, h10⟩ := capBound_round h hm f0 (C := ⟨sf c, _, _, c, uvRect fl _ _ _⟩) hc.sf_lt p1.2.1 p2.2.1 p1.1 p1.2.2 p2.1 p2.2.2
  simp only [e] at h4 h7 h9 h10
  exact ⟨_, B, M, l, r1, h1, h2, h3, h4, h5, h6, h7, h8, h9, h10⟩

/-- The nearest number of an interval whose ends are near those of another. -/
theorem cell_clamp {a b a' b' u d : ℝ} (d0 : 0 ≤ d) (h : a' ≤ b') (ha : |a' - a| ≤ d) (hb : |b' - b| ≤ d) (h1 : a ≤ u) (h2 : u ≤ b) :
    ∃ u', a' ≤ u' ∧ u' ≤ b' ∧ |u - u'| ≤ d := by
  rw [abs_le] at ha hb
  rcases lt_or_ge u a' with h3 | h3
  · exact ⟨a', le_rfl, h, by rw [abs_le]; constructor <;> linarith⟩
  rcases lt_or_ge b' u with h4 | h4
  · exact ⟨b', h, le_rfl, by rw [abs_le]; constructor <;> linarith⟩
  · exact ⟨u, h3, h4, by simpa using d0⟩

/-- A unit vector that is a positive multiple of `w` is its direction. -/
theorem dir_unique {p w : Vec ℝ} {t : ℝ} (ht : 0 < t) (e : p = smul t w) (up : UnitV p) : p = smul (1 / Real.sqrt (dot w w)) w := by
  have h : t ^ 2 * dot w w = 1 := by
    have : dot p p = t ^ 2 * dot w w := by rw [e]; unfold dot smul; ring
    rw [← this]; exact up
  have hs : Real.sqrt (dot w w) = 1 / t := by
    rw [show dot w w = (1 / t) ^ 2 by field_simp; linarith]
    exact Real.sqrt_sq (by positivity)
  rw [hs, one_div_one_div]
  exact e

/-- Every point of the exact cell is near a point of the cell whose rectangle is computed with rounding. -/
theorem cell_round {fl : ℝ → ℝ} (h : Rounding fl) {c : CellID} (hc : Valid c) {C E : Cell ℝ} (hC : Cell.fromCellID fl c = some C)
    (hE : Cell.fromCellID _root_.id c = some E) {p : Vec ℝ} (hp : InCell E p) (up : UnitV p) :
    ∃ q, InCell C q ∧ UnitV q ∧ Real.sqrt (dist2 p q) ≤ 1 / 2 ^ 44 := by
  have sq := hc.square
  have i1 := sq.i_lo; have i2 := sq.i_hi; have j1 := sq.j_lo; have j2 := sq.j_hi; have s0 := sq.pos
  have r1 := (c68_from fl hc hc.level hc.square hc.faceIJ).1
  have r2 := (c68_from (_root_.id : ℝ → ℝ) hc hc.level hc.square hc.faceIJ).1
  rw [hC] at r1
  rw [hE] at r2
  have r1 := Option.some.inj r1
  have r2 := Option.some.inj r2
  have hf : E.face < 6 := by rw [r2]; exact hc.sf_lt
  have fe : C.face = E.face := by rw [r1, r2]
  obtain ⟨u, v, w, t, ⟨⟨u1, u2⟩, v1, v2⟩, hw, ht, ep⟩ := hp
  have side0 : ∀ {a : Int}, a ≤ side → a ≤ 2 ^ 30 := fun {a} ha => by unfold side at ha; omega
  have px := rect_round h i1 s0 (side0 i2)
  have py := rect_round h j1 s0 (side0 j2)
  have lx := line_round h i1 (by have := side0 i2; omega)
  have lx' := line_round h (a := _ + _) (by omega) (side0 i2)
  have ly := line_round h j1 (by have := side0 j2; omega)
  have ly' := line_round h (a := _ + _) (by omega) (side0 j2)
  have d0 : (0 : ℝ) ≤ 1 / 2 ^ 45 := by positivity
  rw [r2] at u1 u2 v1 v2
  obtain ⟨u', a1, a2, a3⟩ := cell_clamp d0 px.2.1.le lx lx' u1 u2
  obtain ⟨v', b1, b2, b3⟩ := cell_clamp d0 py.2.1.le ly ly' v1 v2
  obtain ⟨w', hw'⟩ := face_some hf u' v'
  have big : ∀ {x y : ℝ} {z : Vec ℝ}, faceUVtoXYZ E.face x y = some z → 1 ≤ dot z z := by
    intro x y z hz
    rw [(face_sq hf hz hz).1]
    linarith [mul_self_nonneg x, mul_self_nonneg y]
  have w1 := big hw
  have w1' := big hw'
  have sp : 0 < Real.sqrt (dot w' w') := Real.sqrt_pos.2 (by linarith)
  refine ⟨smul (1 / Real.sqrt (dot w' w')) w', ⟨u', v', w', _, ?_, by rw [fe]; exact hw', one_div_pos.2 sp, rfl⟩, ?_, ?_⟩
  · rw [r1]
    exact ⟨⟨a1, a2⟩, b1, b2⟩
  · show dot (smul (1 / Real.sqrt (dot w' w')) w') (smul (1 / Real.sqrt (dot w' w')) w') = 1
    have hs := Real.sq_sqrt (by linarith : 0 ≤ dot w' w')
    have : ∀ k, dot (smul k w') (smul k w') = k ^ 2 * dot w' w' := fun k => by unfold dot smul; ring
    rw [this]
    generalize Real.sqrt (dot w' w') = r at *
    rw [← hs]
    field_simp
  · rw [dir_unique ht ep up]
    refine (Real.sqrt_le_sqrt (dir_near w1 w1')).trans (Real.sqrt_le_iff.2 ⟨by positivity, ?_⟩)
    rw [(face_sq hf hw hw').2, ← sq_abs (u - u'), ← sq_abs (v - v')]
    have a := pow_le_pow_left₀ (abs_nonneg _) a3 2
    have b := pow_le_pow_left₀ (abs_nonneg _) b3 2
    norm_num at a b ⊢
    linarith

/-- **C123.** Every point of the exact cell is within the computed radius plus `2^-43` of the computed centre. -/
theorem c123_exactCell {fl : ℝ → ℝ} (h : Rounding fl) (hm : Monotone fl) (f0 : fl 0 = 0) {c : CellID} (hc : Valid c) :
    ∃ C E B M l, Cell.fromCellID fl c = some C ∧ Cell.fromCellID _root_.id c = some E ∧ C.capBound fl Real.sqrt = some B ∧ UnitV M ∧
      B.center = smul l M ∧ |l - 1| ≤ 9 / 2 ^ 53 ∧
      ∀ p, InCell E p → UnitV p → Real.sqrt (dist2 M p) ≤ Real.sqrt B.radius + 1 / 2 ^ 43 := by
  obtain ⟨C, B, M, l, h1, h2, h3, h4, h5, -, -, -, -, h6, -⟩ := c123_capBound h hm f0 hc
  have r2 := (c68_from (_root_.id : ℝ → ℝ) hc hc.level hc.square hc.faceIJ).1
  refine ⟨C, _, B, M, l, h1, r2, h2, h3, h4, h5, fun p hp up => ?_⟩
  obtain ⟨q, q1, q2, q3⟩ := cell_round h hc h1 r2 hp up
  have a := h6 q q1 q2
  have b := chord_tri M q p
  rw [chord_comm q p] at b
  norm_num at a q3 ⊢
  linarith

-- a cell of level 10 with IEEE double rounding
example : ∃ C B V, Cell.fromCellID (rne : ℝ → ℝ) ⟨0x6060730000000000#64⟩ = some C ∧ C.capBound rne Real.sqrt = some B ∧ B.radius < 2 ∧
    C.vertex rne Real.sqrt 2 = some V ∧ B.containsPoint rne V = true := by
  obtain ⟨C, B, M, l, h1, h2, -, -, -, -, h3, -, h4, -⟩ := c123_capBound rounding_rne rne_mono rne_zero exCell.1
  obtain ⟨V, v1, v2⟩ := h4 2 (by norm_num)
  exact ⟨C, B, V, h1, h2, h3, v1, v2⟩

-- vertex 2 of the exact cell is near the cap computed with rounding
example : ∃ E B M V, Cell.fromCellID (_root_.id : ℝ → ℝ) ⟨0x6060730000000000#64⟩ = some E ∧ E.vertex _root_.id Real.sqrt 2 = some V ∧
    UnitV M ∧ Real.sqrt (dist2 M V) ≤ Real.sqrt (Cap.radius B) + 1 / 2 ^ 43 := by
  obtain ⟨C, E, B, M, l, -, h2, -, h4, -, -, h7⟩ := c123_exactCell rounding_rne rne_mono rne_zero exCell.1
  obtain ⟨V, v1, v2, v3⟩ := vertex_inCell exCell.1 h2 (k := 2) (by norm_num)
  exact ⟨E, B, M, V, h2, v1, h4, h7 V v2 v3⟩

end Verif
