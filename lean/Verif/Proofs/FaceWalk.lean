import Verif.Properties.EdgeExact
import Verif.Proofs.Sphere
import Verif.Properties.LatLng

/-!
# Following a great circle from face to face

The coordinates of the six faces, the point where a directed line leaves a face in exact arithmetic, and the choice of the
next face.
-/

namespace Verif
open Spec EdgeClip

/-- The coordinates of a vector on a face. -/
def uvw (f : Nat) (v : Vec ℝ) : Vec ℝ :=
  match f with
  | 0 => ⟨v.y, v.z, v.x⟩
  | 1 => ⟨-v.x, v.z, v.y⟩
  | 2 => ⟨-v.x, -v.y, v.z⟩
  | 3 => ⟨-v.z, -v.y, -v.x⟩
  | 4 => ⟨-v.z, v.x, -v.y⟩
  | _ => ⟨v.y, v.x, -v.z⟩

/-- The point of the cube with given coordinates. -/
def cubeXYZ (f : Nat) (u v : ℝ) : Vec ℝ :=
  match f with
  | 0 => ⟨1, u, v⟩
  | 1 => ⟨-u, 1, v⟩
  | 2 => ⟨-u, -v, 1⟩
  | 3 => ⟨-1, -v, -u⟩
  | 4 => ⟨v, -1, -u⟩
  | _ => ⟨v, u, -1⟩

theorem uvw_eq {f : Nat} (hf : f < 6) (P : Vec ℝ) : faceXYZtoUVW f P = some (uvw f P) := by
  interval_cases f <;> rfl

theorem cubeXYZ_eq {f : Nat} (hf : f < 6) (u v : ℝ) : faceUVtoXYZ f u v = some (cubeXYZ f u v) := by
  interval_cases f <;> rfl

theorem uvw_cubeXYZ {f : Nat} (hf : f < 6) (u v : ℝ) : uvw f (cubeXYZ f u v) = ⟨u, v, 1⟩ := by
  interval_cases f <;> simp [uvw, cubeXYZ]

theorem dot_uvw {f : Nat} (hf : f < 6) (P Q : Vec ℝ) : dot (uvw f P) (uvw f Q) = dot P Q := by
  interval_cases f <;> simp only [uvw, dot] <;> ring

theorem uvw_cross {f : Nat} (hf : f < 6) (P Q : Vec ℝ) : uvw f (cross P Q) = cross (uvw f P) (uvw f Q) := by
  interval_cases f <;> simp only [uvw, cross, Vec.mk.injEq] <;> refine ⟨?_, ?_, ?_⟩ <;> ring

theorem vec_mk {a b c d e g : ℝ} (h1 : a = d) (h2 : b = e) (h3 : c = g) : (⟨a, b, c⟩ : Vec ℝ) = ⟨d, e, g⟩ := by
  rw [h1, h2, h3]

theorem uvw_lin {f : Nat} (hf : f < 6) (s t : ℝ) (P Q : Vec ℝ) : uvw f (lin s P t Q) = lin s (uvw f P) t (uvw f Q) := by
  interval_cases f <;> simp only [uvw, lin] <;> refine vec_mk ?_ ?_ ?_ <;> ring

theorem uvw_smul {f : Nat} (hf : f < 6) (s : ℝ) (P : Vec ℝ) : uvw f (smul s P) = smul s (uvw f P) := by
  interval_cases f <;> simp only [uvw, smul] <;> refine vec_mk ?_ ?_ ?_ <;> ring

theorem uvw_injective {f : Nat} (hf : f < 6) {P Q : Vec ℝ} (h : uvw f P = uvw f Q) : P = Q := by
  obtain ⟨a, b, c⟩ := P
  obtain ⟨d, e, g⟩ := Q
  interval_cases f <;> simp only [uvw, Vec.mk.injEq, neg_inj] at h ⊢ <;> obtain ⟨h1, h2, h3⟩ := h <;>
    exact ⟨by assumption, by assumption, by assumption⟩

namespace Spec

/-- The vector is in the direction of a point of the face (with its boundary). -/
def Cone (f : Nat) (P : Vec ℝ) : Prop :=
  0 < (uvw f P).z ∧ -(uvw f P).z ≤ (uvw f P).x ∧ (uvw f P).x ≤ (uvw f P).z ∧ -(uvw f P).z ≤ (uvw f P).y ∧ (uvw f P).y ≤ (uvw f P).z

end Spec

theorem cone_smul {f : Nat} (hf : f < 6) {s : ℝ} (hs : 0 < s) {P : Vec ℝ} : Cone f (smul s P) ↔ Cone f P := by
  unfold Cone
  rw [uvw_smul hf]
  simp only [smul]
  constructor
  · rintro ⟨h1, h2, h3, h4, h5⟩
    have h1' : 0 < (uvw f P).z := (mul_pos_iff_of_pos_left hs).mp h1
    refine ⟨h1', ?_, ?_, ?_, ?_⟩ <;> nlinarith
  · rintro ⟨h1, h2, h3, h4, h5⟩
    refine ⟨mul_pos hs h1, ?_, ?_, ?_, ?_⟩ <;> nlinarith

theorem cone_lin {f : Nat} (hf : f < 6) {s t : ℝ} (hs : 0 < s) (ht : 0 ≤ t) {P Q : Vec ℝ} (hP : Cone f P) (hQ : Cone f Q) :
    Cone f (lin s P t Q) := by
  unfold Cone at *
  rw [uvw_lin hf]
  simp only [lin]
  obtain ⟨h1, h2, h3, h4, h5⟩ := hP
  obtain ⟨k1, k2, k3, k4, k5⟩ := hQ
  have := mul_pos hs h1
  have := mul_nonneg ht k1.le
  refine ⟨by linarith, ?_, ?_, ?_, ?_⟩ <;> nlinarith

/-- The normal component is the greatest one. -/
theorem cone_max {f g : Nat} (hf : f < 6) (hg : g < 6) {P : Vec ℝ} (h : Cone f P) : (uvw g P).z ≤ (uvw f P).z := by
  unfold Cone at h
  obtain ⟨h1, h2, h3, h4, h5⟩ := h
  interval_cases f <;> interval_cases g <;> simp only [uvw] at * <;> linarith

theorem cone_of_eq {f g : Nat} (hf : f < 6) (hg : g < 6) {P : Vec ℝ} (h : Cone f P) (he : (uvw f P).z ≤ (uvw g P).z) : Cone g P := by
  unfold Cone at h ⊢
  obtain ⟨h1, h2, h3, h4, h5⟩ := h
  interval_cases f <;> interval_cases g <;> simp only [uvw] at * <;> refine ⟨?_, ?_, ?_, ?_, ?_⟩ <;> linarith

/-- A point strictly inside a chord of one face that is in another face forces the start of the chord into that face. -/
theorem cone_start {f g : Nat} (hf : f < 6) (hg : g < 6) {s t : ℝ} (hs : 0 < s) (ht : 0 ≤ t) {P Q : Vec ℝ} (hP : Cone f P) (hQ : Cone f Q)
    (h : Cone g (lin s P t Q)) : Cone g P := by
  refine cone_of_eq hf hg hP ?_
  have h1 := cone_max hg hf h
  rw [uvw_lin hf, uvw_lin hg] at h1
  simp only [lin] at h1
  have h2 := cone_max hf hg hP
  have h3 := cone_max hf hg hQ
  by_contra hc
  rw [not_le] at hc
  nlinarith

theorem cone_neg {f : Nat} (hf : f < 6) {s : ℝ} (hs : 0 < s) {P : Vec ℝ} (h : Cone f P) : ¬ Cone f (smul (-s) P) := by
  intro h2
  have a := h.1
  have b := h2.1
  rw [uvw_smul hf] at b
  simp only [smul] at b
  nlinarith

theorem vecFace_cone {P : Vec ℝ} (h : ¬ IsZero P) : vecFace P < 6 ∧ Cone (vecFace P) P := by
  unfold Cone
  rcases vecFace_cases P h with ⟨e, h1, h2, h3⟩ | ⟨e, h1, h2, h3⟩ | ⟨e, h1, h2, h3⟩ | ⟨e, h1, h2, h3⟩ | ⟨e, h1, h2, h3⟩ | ⟨e, h1, h2, h3⟩ <;>
    rw [e] <;> simp only [uvw] <;>
    (first | rw [abs_of_pos h1] at h2 h3 | rw [abs_of_neg h1] at h2 h3) <;> rw [abs_le] at h2 h3 <;>
    refine ⟨by norm_num, ?_, ?_, ?_, ?_, ?_⟩ <;> linarith [h2.1, h2.2, h3.1, h3.2]

/-- Among the faces of a vector, `face` takes the first axis. -/
theorem vecFace_first {P : Vec ℝ} {g : Nat} (hg : g < 6) (h : Cone g P) : vecFace P % 3 ≤ g % 3 ∧ (vecFace P % 3 = g % 3 → vecFace P = g) := by
  obtain ⟨x, y, z⟩ := P
  unfold Cone at h
  obtain ⟨h1, h2, h3, h4, h5⟩ := h
  unfold vecFace
  interval_cases g <;> simp only [uvw] at * <;>
    rcases abs_cases x with ⟨hx, hx'⟩ | ⟨hx, hx'⟩ <;> rcases abs_cases y with ⟨hy, hy'⟩ | ⟨hy, hy'⟩ <;>
    rcases abs_cases z with ⟨hz, hz'⟩ | ⟨hz, hz'⟩ <;> rw [hx, hy] <;> grind

theorem vecFace_tie {A B : Vec ℝ} (hA : ¬ IsZero A) (hB : ¬ IsZero B) (h1 : Cone (vecFace B) A) (h2 : Cone (vecFace A) B) :
    vecFace A = vecFace B := by
  have a := vecFace_first (vecFace_cone hB).1 h1
  have b := vecFace_first (vecFace_cone hA).1 h2
  exact a.2 (le_antisymm a.1 b.1)

/-! ## The exit point -/

theorem opposite_id {n : Vec ℝ} : intersectsOppositeEdges _root_.id n = true ↔ |n.z| ≤ |(|n.x| - |n.y|)| := by
  unfold intersectsOppositeEdges
  simp only [_root_.id]
  split_ifs with h1 h2
  · simp
  · rw [decide_eq_true_iff]
    rw [ne_eq, not_not] at h1
    rw [h1]
    rw [abs_of_nonneg (by linarith)] at h1
    constructor <;> intro <;> linarith
  · rw [decide_eq_true_iff]
    rw [ne_eq, not_not] at h1
    rw [h1]
    rw [abs_of_neg (by linarith)] at h1
    constructor <;> intro <;> linarith

/-- What `exit_axis` guarantees in exact arithmetic. -/
theorem exit_num_id {n : Vec ℝ} {neg : ℝ → Bool} (hneg : SignBit neg) (hI : |n.z| ≤ |n.x| + |n.y|) (h0 : n.x ≠ 0 ∨ n.y ≠ 0) :
    (exitAxis _root_.id neg n = .V → n.x ≠ 0 ∧ |-(if n.x < 0 then 1 else -1 : ℝ) * n.y - n.z| ≤ |n.x|) ∧
    (exitAxis _root_.id neg n = .U → n.y ≠ 0 ∧ |-(if n.y > 0 then 1 else -1 : ℝ) * n.x - n.z| ≤ |n.y|) := by
  have tri : ∀ s a b : ℝ, (s = 1 ∨ s = -1) → |-s * a - b| ≤ |a| + |b| := by
    rintro s a b (rfl | rfl)
    · calc |-1 * a - b| = |-(a + b)| := by congr 1; ring
        _ ≤ |a| + |b| := by rw [abs_neg]; exact abs_add_le _ _
    · calc |-(-1) * a - b| = |a - b| := by congr 1; ring
        _ ≤ |a| + |b| := abs_sub a b
  have px : (if n.x < 0 then 1 else -1 : ℝ) = 1 ∨ (if n.x < 0 then 1 else -1 : ℝ) = -1 := by split_ifs <;> simp
  have py : (if n.y > 0 then 1 else -1 : ℝ) = 1 ∨ (if n.y > 0 then 1 else -1 : ℝ) = -1 := by split_ifs <;> simp
  unfold exitAxis
  by_cases ho : intersectsOppositeEdges _root_.id n = true
  · rw [if_pos ho]
    have ho' := opposite_id.1 ho
    by_cases hc : |n.x| ≥ |n.y|
    · rw [if_pos hc]
      rw [abs_of_nonneg (show 0 ≤ |n.x| - |n.y| by linarith)] at ho'
      refine ⟨fun _ => ⟨?_, (tri _ n.y n.z px).trans (by linarith)⟩, fun h => by cases h⟩
      intro hx0
      rw [hx0, abs_zero] at hc
      rcases h0 with h | h
      · exact h hx0
      · exact h (abs_eq_zero.1 (le_antisymm hc (abs_nonneg _)))
    · rw [if_neg hc]
      rw [abs_of_neg (show |n.x| - |n.y| < 0 by linarith)] at ho'
      refine ⟨fun h => (by cases h), fun _ => ⟨?_, (tri _ n.x n.z py).trans (by linarith)⟩⟩
      intro hy0
      rw [hy0, abs_zero] at hc
      exact hc (abs_nonneg _)
  · rw [if_neg ho]
    have hO : ¬ |n.z| ≤ |(|n.x| - |n.y|)| := fun h => ho (opposite_id.2 h)
    have hb := exit_bound n.x n.y n.z neg hneg hI hO
    rw [not_le, abs_lt] at hO
    have hx : n.x ≠ 0 := by intro h; rw [h, abs_zero] at hO hI; linarith
    have hy : n.y ≠ 0 := by intro h; rw [h, abs_zero] at hO hI; linarith
    by_cases hc : xor (xor (neg n.x) (neg n.y)) (neg n.z) = false
    · rw [if_pos hc]
      exact ⟨fun _ => ⟨hx, hb.1 hc⟩, fun h => by cases h⟩
    · rw [if_neg hc]
      exact ⟨fun h => (by cases h), fun _ => ⟨hy, hb.2 (by simpa using hc)⟩⟩

/-- The exit point, its axis and the direction of the crossing. -/
structure ExitOK (n : Vec ℝ) (ax : Axis) (p : R2.Point ℝ) : Prop where
  x_le : |p.x| ≤ 1
  y_le : |p.y| ≤ 1
  line : n.x * p.x + n.y * p.y + n.z = 0
  last : ∀ u v w : ℝ, 0 < w → |u| ≤ w → |v| ≤ w → n.x * u + n.y * v + n.z * w = 0 → (u - w * p.x) * n.y - (v - w * p.y) * n.x ≤ 0
  axU : ax = .U → n.y ≠ 0 ∧ p.x = (if n.y > 0 then 1 else -1) ∧ 0 < p.x * n.y
  axV : ax = .V → n.x ≠ 0 ∧ p.y = (if n.x < 0 then 1 else -1) ∧ p.y * n.x < 0

theorem exit_ok {n : Vec ℝ} {neg : ℝ → Bool} (hneg : SignBit neg) (hI : |n.z| ≤ |n.x| + |n.y|) (h0 : n.x ≠ 0 ∨ n.y ≠ 0) :
    ExitOK n (exitAxis _root_.id neg n) (exitPoint _root_.id n (exitAxis _root_.id neg n)) := by
  obtain ⟨hV, hU⟩ := exit_num_id hneg hI h0
  cases hax : exitAxis _root_.id neg n with
  | U =>
    obtain ⟨hy, hb⟩ := hU hax
    have hs : (if n.y > 0 then 1 else -1 : ℝ) = 1 ∧ 0 < n.y ∨ (if n.y > 0 then 1 else -1 : ℝ) = -1 ∧ n.y < 0 := by
      rcases lt_or_gt_of_ne hy with h | h
      · exact Or.inr ⟨if_neg (not_lt.mpr h.le), h⟩
      · exact Or.inl ⟨if_pos h, h⟩
    unfold exitPoint
    simp only [_root_.id]
    generalize hσ : (if n.y > 0 then 1 else -1 : ℝ) = σ at *
    have h1 : |σ| = 1 := by rcases hs with ⟨h, -⟩ | ⟨h, -⟩ <;> rw [h] <;> simp
    have hp : 0 < σ * n.y := by rcases hs with ⟨h, h'⟩ | ⟨h, h'⟩ <;> rw [h] <;> linarith
    refine ⟨h1.le, ?_, ?_, ?_, fun _ => ⟨hy, hσ.symm, hp⟩, fun h => by cases h⟩
    · simp only
      rw [abs_div]
      exact div_le_one_of_le₀ hb (abs_nonneg _)
    · simp only
      field_simp
      ring
    · intro u v w hw hu hv hl
      simp only
      rw [abs_le] at hu
      have e : ((u - w * σ) * n.y - (v - w * ((-σ * n.x - n.z) / n.y)) * n.x) * n.y ^ 2 =
          (u - w * σ) * n.y * (n.y ^ 2 + n.x ^ 2) := by
        field_simp
        linear_combination (-n.x) * hl
      have hle : (u - w * σ) * n.y ≤ 0 := by
        rcases hs with ⟨h, h'⟩ | ⟨h, h'⟩ <;> rw [h] <;> nlinarith
      have h2 : 0 < n.y ^ 2 := by positivity
      have h3 : (u - w * σ) * n.y * (n.y ^ 2 + n.x ^ 2) ≤ 0 := mul_nonpos_of_nonpos_of_nonneg hle (by positivity)
      rw [← e] at h3
      by_contra hc
      rw [not_le] at hc
      nlinarith
  | V =>
    obtain ⟨hx, hb⟩ := hV hax
    have hs : (if n.x < 0 then 1 else -1 : ℝ) = 1 ∧ n.x < 0 ∨ (if n.x < 0 then 1 else -1 : ℝ) = -1 ∧ 0 < n.x := by
      rcases lt_or_gt_of_ne hx with h | h
      · exact Or.inl ⟨if_pos h, h⟩
      · exact Or.inr ⟨if_neg (not_lt.mpr h.le), h⟩
    unfold exitPoint
    simp only [_root_.id]
    generalize hσ : (if n.x < 0 then 1 else -1 : ℝ) = σ at *
    have h1 : |σ| = 1 := by rcases hs with ⟨h, -⟩ | ⟨h, -⟩ <;> rw [h] <;> simp
    have hp : σ * n.x < 0 := by rcases hs with ⟨h, h'⟩ | ⟨h, h'⟩ <;> rw [h] <;> linarith
    refine ⟨?_, h1.le, ?_, ?_, fun h => (by cases h), fun _ => ⟨hx, hσ.symm, hp⟩⟩
    · simp only
      rw [abs_div]
      exact div_le_one_of_le₀ hb (abs_nonneg _)
    · simp only
      field_simp
      ring
    · intro u v w hw hu hv hl
      simp only
      rw [abs_le] at hv
      have e : ((u - w * ((-σ * n.y - n.z) / n.x)) * n.y - (v - w * σ) * n.x) * n.x ^ 2 =
          -((v - w * σ) * n.x) * (n.x ^ 2 + n.y ^ 2) := by
        field_simp
        linear_combination n.y * hl
      have hle : 0 ≤ (v - w * σ) * n.x := by
        rcases hs with ⟨h, h'⟩ | ⟨h, h'⟩ <;> rw [h] <;> nlinarith
      have h2 : 0 < n.x ^ 2 := by positivity
      have h3 : -((v - w * σ) * n.x) * (n.x ^ 2 + n.y ^ 2) ≤ 0 := mul_nonpos_of_nonpos_of_nonneg (by linarith) (by positivity)
      rw [← e] at h3
      by_contra hc
      rw [not_le] at hc
      nlinarith

/-- The hypotheses on the normal hold on a face that the line visits. -/
theorem normal_ok {n p : Vec ℝ} (hn : ¬ IsZero n) (hp : 0 < p.z) (hx : |p.x| ≤ p.z) (hy : |p.y| ≤ p.z) (h : dot n p = 0) :
    |n.z| ≤ |n.x| + |n.y| ∧ (n.x ≠ 0 ∨ n.y ≠ 0) := by
  unfold dot at h
  constructor
  · have h1 : |n.z| * p.z = |n.x * p.x + n.y * p.y| := by
      rw [← abs_of_pos hp, ← abs_mul, show n.z * p.z = -(n.x * p.x + n.y * p.y) by linarith, abs_neg]
    have h2 : |n.x * p.x + n.y * p.y| ≤ |n.x| * p.z + |n.y| * p.z := by
      refine (abs_add_le _ _).trans ?_
      rw [abs_mul, abs_mul]
      exact add_le_add (mul_le_mul_of_nonneg_left hx (abs_nonneg _)) (mul_le_mul_of_nonneg_left hy (abs_nonneg _))
    rw [← h1, ← add_mul] at h2
    exact le_of_mul_le_mul_right h2 hp
  · by_contra hc
    rw [not_or, not_not, not_not] at hc
    refine hn ⟨hc.1, hc.2, ?_⟩
    rw [hc.1, hc.2] at h
    have : n.z * p.z = 0 := by linarith
    exact (mul_eq_zero.mp this).resolve_right hp.ne'

/-! ## The next face -/

theorem nbr_spec {f : Nat} (hf : f < 6) : ∃ a b c d, uvwFace f 0 1 = some a ∧ uvwFace f 0 0 = some b ∧ uvwFace f 1 1 = some c ∧ uvwFace f 1 0 = some d ∧
    a < 6 ∧ b < 6 ∧ c < 6 ∧ d < 6 ∧ (∀ P, (uvw a P).z = (uvw f P).x) ∧ (∀ P, (uvw b P).z = -(uvw f P).x) ∧
    (∀ P, (uvw c P).z = (uvw f P).y) ∧ (∀ P, (uvw d P).z = -(uvw f P).y) ∧
    ∀ g < 6, g ≠ f → g = a ∨ g = b ∨ g = c ∨ g = d ∨ ∀ P, (uvw g P).z = -(uvw f P).z := by
  interval_cases f <;> refine ⟨_, _, _, _, rfl, rfl, rfl, rfl, by decide, by decide, by decide, by decide, ?_, ?_, ?_, ?_, ?_⟩ <;>
    first
    | (intro P; simp only [uvw, neg_neg]; done)
    | (intro g hg hne
       interval_cases g <;> first
         | exact absurd rfl hne
         | exact Or.inl rfl
         | exact Or.inr (Or.inl rfl)
         | exact Or.inr (Or.inr (Or.inl rfl))
         | exact Or.inr (Or.inr (Or.inr (Or.inl rfl)))
         | (refine Or.inr (Or.inr (Or.inr (Or.inr ?_))); intro P; simp only [uvw, neg_neg]))

theorem nextFace_ok {f g : Nat} (hf : f < 6) (hg : g < 6) (hfg : f ≠ g) {N : Vec ℝ} {ax : Axis} {p : R2.Point ℝ} (h : ExitOK (uvw f N) ax p) :
    ∃ k, nextFace _root_.id f p ax (uvw f N) g = some k ∧ k < 6 ∧ Cone k (cubeXYZ f p.x p.y) ∧ (Cone g (cubeXYZ f p.x p.y) → k = g) ∧
      (k = g ∨ (uvw f (cross N (cubeXYZ f p.x p.y))).z < (uvw k (cross N (cubeXYZ f p.x p.y))).z) := by
  obtain ⟨a, b, c, d, ea, eb, ec, ed, la, lb, lc, ld, wa, wb, wc, wd, hall⟩ := nbr_spec hf
  have hE := uvw_cubeXYZ hf p.x p.y
  have hX := uvw_cross hf N (cubeXYZ f p.x p.y)
  have hx := abs_le.mp h.x_le
  have hy := abs_le.mp h.y_le
  have hC : Cone f (cubeXYZ f p.x p.y) := by
    unfold Cone
    rw [hE]
    exact ⟨one_pos, hx.1, hx.2, hy.1, hy.2⟩
  have hl := h.line
  generalize cubeXYZ f p.x p.y = E at *
  have touch : ∀ k < 6, 1 ≤ (uvw k E).z → Cone k E := fun k hk hw => cone_of_eq hf hk hC (by rw [hE]; exact hw)
  have back : Cone g E → 1 ≤ (uvw g E).z := fun hc => by
    have := cone_max hg hf hc
    rw [hE] at this
    exact this
  have hs : sumEqual _root_.id (_root_.id (p.x * (uvw f N).x)) (_root_.id (p.y * (uvw f N).y)) (-(uvw f N).z) = true := by
    unfold sumEqual
    simp only [_root_.id, Bool.and_eq_true, decide_eq_true_iff]
    refine ⟨⟨?_, ?_⟩, ?_⟩ <;> linarith
  have hg' := hall g hg (Ne.symm hfg)
  unfold nextFace
  cases ax with
  | U =>
    obtain ⟨n0, pe, pp⟩ := h.axU rfl
    have hother : ∃ o, uvwFace f 1 (if p.y > 0 then 1 else 0) = some o ∧ o < 6 ∧ (uvw o E).z = |p.y| ∧ (0 < p.y → o = c) ∧ (p.y ≤ 0 → o = d) := by
      by_cases hp : p.y > 0
      · rw [if_pos hp]
        exact ⟨c, ec, lc, by rw [wc, hE, abs_of_pos hp], fun _ => rfl, fun hn => absurd hp (not_lt.mpr hn)⟩
      · rw [if_neg hp]
        rw [gt_iff_lt, not_lt] at hp
        exact ⟨d, ed, ld, by rw [wd, hE, abs_of_nonpos hp], fun hn => absurd hp (not_le.mpr hn), fun _ => rfl⟩
    have hmain : ∃ m, uvwFace f 0 (if p.x > 0 then 1 else 0) = some m ∧ m < 6 ∧ (uvw m E).z = 1 ∧
        (uvw f (cross N E)).z < (uvw m (cross N E)).z ∧ (0 < p.x → m = a) ∧ (p.x < 0 → m = b) := by
      rw [hX, hE]
      rcases lt_or_gt_of_ne n0 with hn | hn
      · rw [if_neg (not_lt.mpr hn.le)] at pe
        rw [if_neg (show ¬ p.x > 0 by rw [pe]; norm_num)]
        refine ⟨b, eb, lb, by rw [wb, hE, pe]; norm_num, ?_, fun hc => by rw [pe] at hc; norm_num at hc, fun _ => rfl⟩
        rw [wb, hX, hE]
        simp only [cross]
        rw [pe] at hl ⊢
        nlinarith [mul_nonneg (neg_pos.mpr hn).le (mul_self_nonneg p.y)]
      · rw [if_pos hn] at pe
        rw [if_pos (show p.x > 0 by rw [pe]; norm_num)]
        refine ⟨a, ea, la, by rw [wa, hE, pe], ?_, fun _ => rfl, fun hc => by rw [pe] at hc; norm_num at hc⟩
        rw [wa, hX, hE]
        simp only [cross]
        rw [pe] at hl ⊢
        nlinarith [mul_nonneg hn.le (mul_self_nonneg p.y)]
    obtain ⟨o, eo, lo, wo, oc, od⟩ := hother
    obtain ⟨m, em, lm, wm, dm, ma, mb⟩ := hmain
    simp only [Axis.value, Nat.sub_zero, if_neg (show ¬ (Axis.U = Axis.V) by simp)]
    rw [eo, em]
    simp only [Option.bind_eq_bind, Option.bind_some]
    by_cases hcond : |p.y| = 1 ∧ o = g ∧ sumEqual _root_.id (_root_.id (p.x * (uvw f N).x)) (_root_.id (p.y * (uvw f N).y)) (-(uvw f N).z) = true
    · rw [if_pos hcond]
      exact ⟨g, rfl, hg, touch g hg (by rw [← hcond.2.1, wo, hcond.1]), fun _ => rfl, Or.inl rfl⟩
    · rw [if_neg hcond]
      refine ⟨m, rfl, lm, touch m lm wm.ge, ?_, Or.inr dm⟩
      intro hgE
      have h1 := back hgE
      rcases hg' with rfl | rfl | rfl | rfl | hop
      · rw [wa, hE] at h1
        exact ma (lt_of_lt_of_le one_pos h1)
      · rw [wb, hE] at h1
        simp only at h1
        exact mb (by linarith)
      · rw [wc, hE] at h1
        simp only at h1
        exact absurd ⟨by rw [abs_of_pos (by linarith)]; linarith, oc (by linarith), hs⟩ hcond
      · rw [wd, hE] at h1
        simp only at h1
        exact absurd ⟨by rw [abs_of_neg (by linarith)]; linarith, od (by linarith), hs⟩ hcond
      · rw [hop, hE] at h1
        norm_num at h1
  | V =>
    obtain ⟨n0, pe, pp⟩ := h.axV rfl
    have hother : ∃ o, uvwFace f 0 (if p.x > 0 then 1 else 0) = some o ∧ o < 6 ∧ (uvw o E).z = |p.x| ∧ (0 < p.x → o = a) ∧ (p.x ≤ 0 → o = b) := by
      by_cases hp : p.x > 0
      · rw [if_pos hp]
        exact ⟨a, ea, la, by rw [wa, hE, abs_of_pos hp], fun _ => rfl, fun hn => absurd hp (not_lt.mpr hn)⟩
      · rw [if_neg hp]
        rw [gt_iff_lt, not_lt] at hp
        exact ⟨b, eb, lb, by rw [wb, hE, abs_of_nonpos hp], fun hn => absurd hp (not_le.mpr hn), fun _ => rfl⟩
    have hmain : ∃ m, uvwFace f 1 (if p.y > 0 then 1 else 0) = some m ∧ m < 6 ∧ (uvw m E).z = 1 ∧
        (uvw f (cross N E)).z < (uvw m (cross N E)).z ∧ (0 < p.y → m = c) ∧ (p.y < 0 → m = d) := by
      rw [hX, hE]
      rcases lt_or_gt_of_ne n0 with hn | hn
      · rw [if_pos hn] at pe
        rw [if_pos (show p.y > 0 by rw [pe]; norm_num)]
        refine ⟨c, ec, lc, by rw [wc, hE, pe], ?_, fun _ => rfl, fun hc => by rw [pe] at hc; norm_num at hc⟩
        rw [wc, hX, hE]
        simp only [cross]
        rw [pe] at hl ⊢
        nlinarith [mul_nonneg (neg_pos.mpr hn).le (mul_self_nonneg p.x)]
      · rw [if_neg (not_lt.mpr hn.le)] at pe
        rw [if_neg (show ¬ p.y > 0 by rw [pe]; norm_num)]
        refine ⟨d, ed, ld, by rw [wd, hE, pe]; norm_num, ?_, fun hc => by rw [pe] at hc; norm_num at hc, fun _ => rfl⟩
        rw [wd, hX, hE]
        simp only [cross]
        rw [pe] at hl ⊢
        nlinarith [mul_nonneg hn.le (mul_self_nonneg p.x)]
    obtain ⟨o, eo, lo, wo, oa, ob⟩ := hother
    obtain ⟨m, em, lm, wm, dm, mc, md⟩ := hmain
    simp only [Axis.value, Nat.sub_self, if_true]
    rw [eo, em]
    simp only [Option.bind_eq_bind, Option.bind_some]
    by_cases hcond : |p.x| = 1 ∧ o = g ∧ sumEqual _root_.id (_root_.id (p.x * (uvw f N).x)) (_root_.id (p.y * (uvw f N).y)) (-(uvw f N).z) = true
    · rw [if_pos hcond]
      exact ⟨g, rfl, hg, touch g hg (by rw [← hcond.2.1, wo, hcond.1]), fun _ => rfl, Or.inl rfl⟩
    · rw [if_neg hcond]
      refine ⟨m, rfl, lm, touch m lm wm.ge, ?_, Or.inr dm⟩
      intro hgE
      have h1 := back hgE
      rcases hg' with rfl | rfl | rfl | rfl | hop
      · rw [wa, hE] at h1
        simp only at h1
        exact absurd ⟨by rw [abs_of_pos (by linarith)]; linarith, oa (by linarith), hs⟩ hcond
      · rw [wb, hE] at h1
        simp only at h1
        exact absurd ⟨by rw [abs_of_neg (by linarith)]; linarith, ob (by linarith), hs⟩ hcond
      · rw [wc, hE] at h1
        exact mc (lt_of_lt_of_le one_pos h1)
      · rw [wd, hE] at h1
        simp only at h1
        exact md (by linarith)
      · rw [hop, hE] at h1
        norm_num at h1

/-! ## The curve -/

namespace Spec

/-- The point at angle `t` on the great circle through `A` in the direction `T`. -/
noncomputable def arcPt (A T : Vec ℝ) (t : ℝ) : Vec ℝ := lin (Real.cos t) A (Real.sin t) T

/-- Two perpendicular unit vectors. -/
def Frame (A T : Vec ℝ) : Prop := UnitV A ∧ UnitV T ∧ dot A T = 0

end Spec

/-- The direction of travel. -/
noncomputable def arcDir (A T : Vec ℝ) (t : ℝ) : Vec ℝ := lin (-Real.sin t) A (Real.cos t) T

theorem arcPt_dots {A T : Vec ℝ} (h : Frame A T) (t : ℝ) : dot A (arcPt A T t) = Real.cos t ∧ dot T (arcPt A T t) = Real.sin t := by
  obtain ⟨h1, h2, h3⟩ := h
  unfold UnitV at *
  unfold arcPt
  rw [dot_comm A, dot_comm T, dot_lin, dot_lin, dot_comm T A, h1, h2, h3]
  constructor <;> ring

theorem arcPt_unit {A T : Vec ℝ} (h : Frame A T) (t : ℝ) : UnitV (arcPt A T t) := by
  have h2 := arcPt_dots h t
  unfold UnitV
  have : dot (arcPt A T t) (arcPt A T t) = Real.cos t * dot A (arcPt A T t) + Real.sin t * dot T (arcPt A T t) := by
    conv_lhs => unfold arcPt
    rw [dot_lin]
    rfl
  rw [this, h2.1, h2.2]
  nlinarith [Real.sin_sq_add_cos_sq t]

theorem triple (A T P : Vec ℝ) : cross (cross A T) P = lin (dot A P) T (-dot T P) A := by
  simp only [cross, lin, dot]
  refine vec_mk ?_ ?_ ?_ <;> ring

theorem binet (A T P Q : Vec ℝ) : dot (cross A T) (cross P Q) = dot A P * dot T Q - dot A Q * dot T P := by
  simp only [cross, dot]
  ring

theorem cross_arc {A T : Vec ℝ} (h : Frame A T) (c t : ℝ) : cross (smul c (cross A T)) (arcPt A T t) = smul c (arcDir A T t) := by
  have h2 := arcPt_dots h t
  have : cross (smul c (cross A T)) (arcPt A T t) = smul c (cross (cross A T) (arcPt A T t)) := by
    simp only [cross, smul]
    refine vec_mk ?_ ?_ ?_ <;> ring
  rw [this, triple, h2.1, h2.2]
  simp only [smul, lin, arcDir]
  refine vec_mk ?_ ?_ ?_ <;> ring

theorem turn_arc {A T : Vec ℝ} (h : Frame A T) (c s e : ℝ) :
    dot (smul c (cross A T)) (cross (arcPt A T s) (arcPt A T e)) = c * Real.sin (e - s) := by
  have h2 := arcPt_dots h s
  have h3 := arcPt_dots h e
  have : dot (smul c (cross A T)) (cross (arcPt A T s) (arcPt A T e)) = c * dot (cross A T) (cross (arcPt A T s) (arcPt A T e)) := by
    simp only [dot, smul]
    ring
  rw [this, binet, h2.1, h2.2, h3.1, h3.2, Real.sin_sub]
  ring

theorem normal_arc (A T : Vec ℝ) (c t : ℝ) : dot (smul c (cross A T)) (arcPt A T t) = 0 := by
  simp only [dot, smul, cross, arcPt, lin]
  ring

theorem normal_ne {A T : Vec ℝ} (h : Frame A T) {c : ℝ} (hc : 0 < c) : ¬ IsZero (smul c (cross A T)) := by
  rintro ⟨h1, h2, h3⟩
  have e := binet A T A T
  obtain ⟨k1, k2, k3⟩ := h
  unfold UnitV at *
  rw [k1, k2, k3] at e
  have z : ∀ x : ℝ, c * x = 0 → x = 0 := fun x hx => (mul_eq_zero.mp hx).resolve_left hc.ne'
  simp only [smul] at h1 h2 h3
  unfold dot at e
  rw [z _ h1, z _ h2, z _ h3] at e
  norm_num at e

/-- Every vector in the plane is on the curve. -/
theorem on_arc {A T : Vec ℝ} (h : Frame A T) {c s : ℝ} (hc : 0 < c) (hs0 : 0 ≤ s) (hs1 : s ≤ Real.pi) {P : Vec ℝ} (hP : ¬ IsZero P)
    (hn : dot (smul c (cross A T)) P = 0) : ∃ r e, 0 < r ∧ s ≤ e ∧ e < s + 2 * Real.pi ∧ P = smul r (arcPt A T e) := by
  have hpi := Real.pi_pos
  obtain ⟨h1, h2, h3⟩ := id h
  unfold UnitV at h1 h2
  have hn' : dot (cross A T) P = 0 := by
    have : dot (smul c (cross A T)) P = c * dot (cross A T) P := by simp only [dot, smul]; ring
    rw [this] at hn
    exact (mul_eq_zero.mp hn).resolve_left hc.ne'
  -- the part outside the plane is zero
  obtain ⟨R, hR⟩ : ∃ R : Vec ℝ, R = lin 1 P (-1) (lin (dot A P) A (dot T P) T) := ⟨_, rfl⟩
  have r1 : dot R A = 0 := by
    rw [hR, dot_lin, dot_lin, h1, dot_comm T A, h3, dot_comm P A]
    ring
  have r2 : dot R T = 0 := by
    rw [hR, dot_lin, dot_lin, h2, h3, dot_comm P T]
    ring
  have r3 : dot R (cross A T) = 0 := by
    have e1 : dot A (cross A T) = 0 := by simp only [dot, cross]; ring
    have e2 : dot T (cross A T) = 0 := by simp only [dot, cross]; ring
    rw [hR, dot_lin, dot_lin, e1, e2, dot_comm P, hn']
    ring
  have hzero : dot R R = 0 := by
    have e1 := triple A T R
    rw [dot_comm A R, dot_comm T R, r1, r2] at e1
    have e2 := binet (cross A T) R (cross A T) R
    rw [e1, r3, dot_comm (cross A T) R, r3, binet A T A T, h1, h2, h3] at e2
    simp only [dot, lin] at e2 ⊢
    linarith
  have hRz : R.x = 0 ∧ R.y = 0 ∧ R.z = 0 := by
    unfold dot at hzero
    refine ⟨?_, ?_, ?_⟩ <;> nlinarith [mul_self_nonneg R.x, mul_self_nonneg R.y, mul_self_nonneg R.z]
  obtain ⟨r, t, r0, t0, t1, ex, ey, er⟩ := exists_polar (dot A P) (dot T P)
  have hP2 : P = smul r (arcPt A T t) := by
    obtain ⟨z1, z2, z3⟩ := hRz
    rw [hR] at z1 z2 z3
    simp only [lin] at z1 z2 z3
    rw [ex, ey] at z1 z2 z3
    obtain ⟨px, py, pz⟩ := P
    simp only [smul, arcPt, lin] at *
    refine vec_mk ?_ ?_ ?_ <;> linarith
  have hr : 0 < r := by
    rcases r0.lt_or_eq with h | h
    · exact h
    · exfalso
      rw [← h] at hP2
      apply hP
      rw [hP2]
      simp [IsZero, smul]
  rcases le_or_gt s t with hst | hst
  · exact ⟨r, t, hr, hst, by linarith, hP2⟩
  · refine ⟨r, t + 2 * Real.pi, hr, by linarith, by linarith, ?_⟩
    rw [hP2]
    unfold arcPt
    rw [Real.cos_add_two_pi, Real.sin_add_two_pi]

theorem arc_between (A T : Vec ℝ) (s b e : ℝ) :
    smul (Real.sin (e - s)) (arcPt A T b) = lin (Real.sin (e - b)) (arcPt A T s) (Real.sin (b - s)) (arcPt A T e) := by
  have k1 : Real.sin (e - s) * Real.cos b = Real.sin (e - b) * Real.cos s + Real.sin (b - s) * Real.cos e := by
    rw [Real.sin_sub, Real.sin_sub, Real.sin_sub]
    ring
  have k2 : Real.sin (e - s) * Real.sin b = Real.sin (e - b) * Real.sin s + Real.sin (b - s) * Real.sin e := by
    rw [Real.sin_sub, Real.sin_sub, Real.sin_sub]
    ring
  simp only [smul, arcPt, lin]
  refine vec_mk ?_ ?_ ?_
  · linear_combination A.x * k1 + T.x * k2
  · linear_combination A.y * k1 + T.y * k2
  · linear_combination A.z * k1 + T.z * k2

theorem arcPt_opposite (A T : Vec ℝ) (t : ℝ) : arcPt A T (t + Real.pi) = smul (-1) (arcPt A T t) := by
  unfold arcPt
  rw [Real.cos_add_pi, Real.sin_add_pi]
  simp only [lin, smul]
  refine vec_mk ?_ ?_ ?_ <;> ring

theorem cone_opposite {A T : Vec ℝ} {f : Nat} (hf : f < 6) {t : ℝ} (h : Cone f (arcPt A T t)) : ¬ Cone f (arcPt A T (t + Real.pi)) := by
  rw [arcPt_opposite]
  exact cone_neg hf one_pos h

/-! ## One step -/

/-- The exit point is not before any point of the line on the face. -/
theorem exit_last {f : Nat} (hf : f < 6) {N S : Vec ℝ} {ax : Axis} {p : R2.Point ℝ} (h : ExitOK (uvw f N) ax p)
    (h0 : (uvw f N).x ≠ 0 ∨ (uvw f N).y ≠ 0) (hS : Cone f S) (hn : dot N S = 0) : 0 ≤ dot N (cross S (cubeXYZ f p.x p.y)) := by
  rw [← dot_uvw hf, uvw_cross hf, uvw_cubeXYZ hf]
  rw [← dot_uvw hf] at hn
  have hl := h.line
  have hm := h.last (uvw f S).x (uvw f S).y (uvw f S).z hS.1 (abs_le.mpr ⟨hS.2.1, hS.2.2.1⟩) (abs_le.mpr ⟨hS.2.2.2.1, hS.2.2.2.2⟩) hn
  clear h hS
  generalize uvw f N = n at *
  generalize uvw f S = q at *
  simp only [dot, cross] at hn ⊢
  have hpos : 0 < n.x ^ 2 + n.y ^ 2 := by
    rcases h0 with h | h
    · have := pow_pos (abs_pos.mpr h) 2
      rw [sq_abs] at this
      nlinarith [sq_nonneg n.y]
    · have := pow_pos (abs_pos.mpr h) 2
      rw [sq_abs] at this
      nlinarith [sq_nonneg n.x]
  have key : (n.x * (q.y * 1 - q.z * p.y) + n.y * (q.z * p.x - q.x * 1) + n.z * (q.x * p.y - q.y * p.x)) * (n.x ^ 2 + n.y ^ 2) =
      -((q.x - q.z * p.x) * n.y - (q.y - q.z * p.y) * n.x) * (n.x ^ 2 + n.y ^ 2 + n.z ^ 2) := by
    have ez : n.z = -n.x * p.x - n.y * p.y := by linarith
    have e2 : n.x * q.x + n.y * q.y + (-n.x * p.x - n.y * p.y) * q.z = 0 := by rw [← ez]; exact hn
    rw [ez]
    linear_combination (n.x * p.x + n.y * p.y) * (n.y * p.x - n.x * p.y) * e2
  by_contra hc
  rw [not_le] at hc
  have h1 := mul_neg_of_neg_of_pos hc hpos
  rw [key] at h1
  have h2 : 0 ≤ -((q.x - q.z * p.x) * n.y - (q.y - q.z * p.y) * n.x) * (n.x ^ 2 + n.y ^ 2 + n.z ^ 2) :=
    mul_nonneg (by linarith) (by positivity)
  linarith

/-- In exact arithmetic the origin never moves. -/
theorem moveOrigin_ok {sqrt : ℝ → ℝ} (hs : IsSqrt sqrt) {neg : ℝ → Bool} (hneg : SignBit neg) (sqrt2 : ℝ) {f : Nat} (hf : f < 6) {N A : Vec ℝ}
    (hA : UnitV A) (hC : Cone f A) (hN : ¬ IsZero N) (hn : dot N A = 0) (auv : R2.Point ℝ) :
    moveOrigin _root_.id sqrt neg sqrt2 f A N auv = some (f, auv) := by
  unfold moveOrigin
  have hn' := hn
  rw [← dot_uvw hf] at hn'
  have hNf : ¬ IsZero (uvw f N) := by
    intro hz
    apply hN
    have h1 : dot (uvw f N) (uvw f N) = 0 := by
      obtain ⟨z1, z2, z3⟩ := hz
      unfold dot
      rw [z1, z2, z3]
      ring
    rw [dot_uvw hf] at h1
    unfold dot at h1
    refine ⟨?_, ?_, ?_⟩ <;> nlinarith [mul_self_nonneg N.x, mul_self_nonneg N.y, mul_self_nonneg N.z]
  obtain ⟨hI, h0⟩ := normal_ok hNf hC.1 (abs_le.mpr ⟨hC.2.1, hC.2.2.1⟩) (abs_le.mpr ⟨hC.2.2.2.1, hC.2.2.2.2⟩) hn'
  have hE := exit_ok hneg hI h0
  have hlast := exit_last hf hE h0 hC hn
  simp only [uvw_eq hf, cubeXYZ_eq hf, Option.bind_eq_bind, Option.bind_some]
  by_cases hsafe : max |auv.x| |auv.y| ≤ _root_.id (1 - faceClipErrorUVCoord _root_.id sqrt2)
  · exact if_pos hsafe
  · rw [if_neg hsafe]
    refine if_pos ⟨?_, ?_⟩
    · unfold intersectsFace
      simp only [_root_.id, Bool.and_eq_true, decide_eq_true_iff]
      constructor <;> linarith
    · obtain ⟨t, t0, e1, e2⟩ := c74_normalize hs hN
      have hz : ¬ IsZero (Vec.normalize _root_.id sqrt N) := by
        rintro ⟨z1, z2, z3⟩
        unfold dot at e2
        rw [z1, z2, z3] at e2
        norm_num at e2
      unfold UnitV at hA
      have hd : dot (Vec.normalize _root_.id sqrt N) A = 0 := by
        rw [e1]
        have : dot (smul t N) A = t * dot N A := by simp only [dot, smul]; ring
        rw [this, hn, mul_zero]
      have hx : ¬ IsZero (cross (Vec.normalize _root_.id sqrt N) A) := by
        rintro ⟨z1, z2, z3⟩
        have e := binet (Vec.normalize _root_.id sqrt N) A (Vec.normalize _root_.id sqrt N) A
        rw [e2, hA, hd, dot_comm A, hd] at e
        unfold dot at e
        rw [z1, z2, z3] at e
        norm_num at e
      have ht := (c74_pointCross hs hz (e2.trans hA.symm)).2.2.2.1 hx
      rw [ht, e1]
      generalize cubeXYZ f (exitPoint _root_.id (uvw f N) (exitAxis _root_.id neg (uvw f N))).x
        (exitPoint _root_.id (uvw f N) (exitAxis _root_.id neg (uvw f N))).y = E at hlast ⊢
      have e3 : (E.sub _root_.id A).dot _root_.id (smul 2 (cross (smul t N) A)) = 2 * t * dot N (cross A E) := by
        simp only [Vec.sub, Vec.dot, smul, cross, dot, _root_.id]
        ring
      rw [e3]
      have h1 : 0 ≤ 2 * t * dot N (cross A E) := mul_nonneg (by linarith) hlast
      have h2 : (0 : ℝ) ≤ faceClipErrorRadians _root_.id := by
        unfold faceClipErrorRadians Predicates.dblEpsilon
        simp only [_root_.id]
        positivity
      linarith

/-! ## The loop -/

namespace Spec

/-- The point with coordinates `p` on the face `f` is in the direction of the point at angle `t`. -/
def At (A T : Vec ℝ) (f : Nat) (p : R2.Point ℝ) (t : ℝ) : Prop :=
  |p.x| ≤ 1 ∧ |p.y| ≤ 1 ∧ ∃ P r, faceUVtoXYZ f p.x p.y = some P ∧ 0 < r ∧ P = smul r (arcPt A T t)

/-- The segments follow the curve from the angle `s` to the angle `β`, each one starting where the previous one ends. -/
def Chain (A T : Vec ℝ) (β : ℝ) : ℝ → List (FaceSegment ℝ) → Prop
  | s, [] => s = β
  | s, g :: l => ∃ e, s ≤ e ∧ At A T g.face g.a s ∧ At A T g.face g.b e ∧ Chain A T β e l

end Spec

theorem at_lt {A T : Vec ℝ} {f : Nat} {p : R2.Point ℝ} {t : ℝ} (h : At A T f p t) : f < 6 := by
  obtain ⟨-, -, P, r, h1, -⟩ := h
  by_contra hc
  obtain ⟨k, rfl⟩ : ∃ k, f = k + 6 := ⟨f - 6, by omega⟩
  cases h1

theorem at_cone {A T : Vec ℝ} {f : Nat} {p : R2.Point ℝ} {t : ℝ} (h : At A T f p t) : Cone f (arcPt A T t) := by
  have hf := at_lt h
  obtain ⟨h1, h2, P, r, h3, h4, h5⟩ := h
  rw [cubeXYZ_eq hf] at h3
  obtain rfl := Option.some.inj h3
  rw [← cone_smul hf h4, ← h5]
  unfold Cone
  rw [uvw_cubeXYZ hf]
  rw [abs_le] at h1 h2
  exact ⟨one_pos, h1.1, h1.2, h2.1, h2.2⟩

theorem at_uvw {A T : Vec ℝ} {f : Nat} (hf : f < 6) {E : Vec ℝ} {r t : ℝ} (hr : 0 < r) (hE : E = smul r (arcPt A T t)) (hC : Cone f E)
    (h1 : (uvw f E).z = 1) : At A T f ⟨(uvw f E).x, (uvw f E).y⟩ t := by
  obtain ⟨k1, k2, k3, k4, k5⟩ := hC
  rw [h1] at k2 k3 k4 k5
  refine ⟨abs_le.mpr ⟨k2, k3⟩, abs_le.mpr ⟨k4, k5⟩, E, r, ?_, hr, hE⟩
  rw [cubeXYZ_eq hf]
  refine congrArg some (uvw_injective hf ?_)
  rw [uvw_cubeXYZ hf, ← h1]

theorem loop_ok {A T : Vec ℝ} (hF : Frame A T) {c β : ℝ} (hc : 0 < c) (hβ1 : β ≤ Real.pi) {neg : ℝ → Bool} (hneg : SignBit neg)
    {g : Nat} {bs : R2.Point ℝ} (hB : At A T g bs β) (k : Nat) :
    ∀ (f : Nat) (V : Finset Nat) (s : ℝ) (seg : FaceSegment ℝ), f < 6 → f ∉ V → V ⊆ Finset.range 6 → 6 ≤ V.card + k → 0 ≤ s → s ≤ β →
      seg.face = f → At A T f seg.a s →
      (∀ h ∈ V, h ≠ g ∧ ∀ t, s ≤ t → t ≤ β → Cone h (arcPt A T t) → t = s ∧ (f = g ∨ (uvw h (arcDir A T s)).z < (uvw f (arcDir A T s)).z)) →
      (f ≠ g → Cone g (arcPt A T s) → ¬ Cone f (arcPt A T β)) →
      ∃ segs, segmentLoop _root_.id neg (smul c (cross A T)) g bs f seg = some segs ∧ Chain A T β s segs ∧ (segs.map (·.face)).Nodup ∧
        (∀ x ∈ segs, x.face ∉ V) ∧ (segs.map (·.face)).head? = some f ∧ (segs.map (·.face)).getLast? = some g := by
  have hpi := Real.pi_pos
  have hg := at_lt hB
  induction k with
  | zero =>
    intro f V s seg hf hfV hV hk
    exfalso
    have h1 : insert f V ⊆ Finset.range 6 := Finset.insert_subset (Finset.mem_range.mpr hf) hV
    have h2 := Finset.card_le_card h1
    rw [Finset.card_insert_of_notMem hfV, Finset.card_range] at h2
    omega
  | succ k ih =>
    intro f V s seg hf hfV hV hk hs0 hsβ hseg hAt hinv hstart
    rw [segmentLoop]
    by_cases hfg : f = g
    · rw [if_pos hfg]
      refine ⟨_, rfl, ⟨β, hsβ, ?_, ?_, rfl⟩, ?_, ?_, ?_, ?_⟩
      · rw [hseg]; exact hAt
      · rw [hseg, hfg]; exact hB
      · simp
      · intro x hx
        rw [List.mem_singleton] at hx
        rw [hx]
        simp only
        rw [hseg]
        exact hfV
      · simp [hseg]
      · simp [hseg, hfg]
    · rw [if_neg hfg]
      have hC := at_cone hAt
      obtain ⟨N, hNdef⟩ : ∃ N : Vec ℝ, N = smul c (cross A T) := ⟨_, rfl⟩
      have hN : ¬ IsZero N := by rw [hNdef]; exact normal_ne hF hc
      have hnS : dot N (arcPt A T s) = 0 := by rw [hNdef]; exact normal_arc A T c s
      rw [← hNdef]
      have hn' := hnS
      rw [← dot_uvw hf] at hn'
      have hNf : ¬ IsZero (uvw f N) := by
        rintro ⟨z1, z2, z3⟩
        apply hN
        have h1 : dot (uvw f N) (uvw f N) = 0 := by
          unfold dot
          rw [z1, z2, z3]
          ring
        rw [dot_uvw hf] at h1
        unfold dot at h1
        refine ⟨?_, ?_, ?_⟩ <;> nlinarith [mul_self_nonneg N.x, mul_self_nonneg N.y, mul_self_nonneg N.z]
      obtain ⟨hI, h0⟩ := normal_ok hNf hC.1 (abs_le.mpr ⟨hC.2.1, hC.2.2.1⟩) (abs_le.mpr ⟨hC.2.2.2.1, hC.2.2.2.2⟩) hn'
      have hX := exit_ok hneg hI h0
      simp only [uvw_eq hf, cubeXYZ_eq hf, Option.bind_eq_bind, Option.bind_some]
      generalize exitAxis _root_.id neg (uvw f N) = ax at *
      generalize exitPoint _root_.id (uvw f N) ax = p at *
      obtain ⟨k', ek, lk, ck, tk, dk⟩ := nextFace_ok hf hg hfg hX
      have hlast : ∀ t, Cone f (arcPt A T t) → 0 ≤ dot N (cross (arcPt A T t) (cubeXYZ f p.x p.y)) := fun t ht =>
        exit_last hf hX h0 ht (by rw [hNdef]; exact normal_arc A T c t)
      have hEw := uvw_cubeXYZ hf p.x p.y
      have hEc : Cone f (cubeXYZ f p.x p.y) := by
        unfold Cone
        rw [hEw]
        have h1 := abs_le.mp hX.x_le
        have h2 := abs_le.mp hX.y_le
        exact ⟨one_pos, h1.1, h1.2, h2.1, h2.2⟩
      have hEn : dot N (cubeXYZ f p.x p.y) = 0 := by
        rw [← dot_uvw hf, hEw]
        have := hX.line
        unfold dot
        linarith
      have hEat : faceUVtoXYZ f p.x p.y = some (cubeXYZ f p.x p.y) := cubeXYZ_eq hf p.x p.y
      generalize cubeXYZ f p.x p.y = E at *
      have hEz : ¬ IsZero E := by
        rintro ⟨z1, z2, z3⟩
        have h1 : dot (uvw f E) (uvw f E) = 0 := by
          rw [dot_uvw hf]
          unfold dot
          rw [z1, z2, z3]
          ring
        rw [hEw] at h1
        unfold dot at h1
        nlinarith [mul_self_nonneg p.x, mul_self_nonneg p.y]
      obtain ⟨r, e, hr, hse, hes, hEe⟩ := on_arc hF hc hs0 (hsβ.trans hβ1) hEz (by rw [← hNdef]; exact hEn)
      have hcone : ∀ j < 6, (Cone j E ↔ Cone j (arcPt A T e)) := fun j hj => by rw [hEe]; exact cone_smul hj hr
      have hsin : ∀ t, Cone f (arcPt A T t) → 0 ≤ Real.sin (e - t) := by
        intro t ht
        have h1 := hlast t ht
        have h2 : dot N (cross (arcPt A T t) E) = r * dot N (cross (arcPt A T t) (arcPt A T e)) := by
          rw [hEe]
          simp only [dot, cross, smul]
          ring
        rw [h2, hNdef, turn_arc hF] at h1
        by_contra hneg'
        rw [not_le] at hneg'
        have := mul_neg_of_pos_of_neg hr (mul_neg_of_pos_of_neg hc hneg')
        linarith
      have hCe := (hcone f hf).mp hEc
      have hes2 : e < s + Real.pi := by
        have h1 := hsin s hC
        rcases lt_trichotomy e (s + Real.pi) with h | h | h
        · exact h
        · rw [h] at hCe
          exact absurd hCe (cone_opposite hf hC)
        · exfalso
          have h2 : Real.sin (e - s - Real.pi) = -Real.sin (e - s) := Real.sin_sub_pi _
          have h3 : 0 < Real.sin (e - s - Real.pi) := Real.sin_pos_of_pos_of_lt_pi (by linarith) (by linarith)
          linarith
      have heβ : e ≤ β := by
        by_contra hlt
        rw [not_le] at hlt
        have s1 : 0 < Real.sin (e - s) := Real.sin_pos_of_pos_of_lt_pi (by linarith) (by linarith)
        have s2 : 0 < Real.sin (e - β) := Real.sin_pos_of_pos_of_lt_pi (by linarith) (by linarith)
        have s3 : 0 ≤ Real.sin (β - s) := Real.sin_nonneg_of_nonneg_of_le_pi (by linarith) (by linarith)
        have hb := arc_between A T s β e
        have c1 : Cone f (arcPt A T β) := by
          rw [← cone_smul hf s1, hb]
          exact cone_lin hf s2 s3 hC hCe
        have c2 : Cone g (arcPt A T s) := by
          refine cone_start hf hg s2 s3 hC hCe ?_
          rw [← hb, cone_smul hg s1]
          exact at_cone hB
        exact hstart hfg c2 c1
      have he0 : 0 ≤ e := hs0.trans hse
      have hdir : cross N E = smul (r * c) (arcDir A T e) := by
        have h1 := cross_arc hF c e
        rw [← hNdef] at h1
        have h2 : cross N E = smul r (cross N (arcPt A T e)) := by
          rw [hEe]
          simp only [cross, smul]
          refine vec_mk ?_ ?_ ?_ <;> ring
        rw [h2, h1]
        simp only [smul]
        refine vec_mk ?_ ?_ ?_ <;> ring
      have hd : k' = g ∨ (uvw f (arcDir A T e)).z < (uvw k' (arcDir A T e)).z := by
        rcases dk with h | h
        · exact Or.inl h
        · right
          rw [hdir, uvw_smul hf, uvw_smul lk] at h
          simp only [smul] at h
          exact lt_of_mul_lt_mul_left h (mul_pos hr hc).le
      have hw : (uvw k' E).z = 1 := by
        have h1 := cone_max hf lk hEc
        have h2 := cone_max lk hf ck
        rw [hEw] at h1 h2
        exact le_antisymm h1 h2
      have hkV : k' ∉ V ∧ k' ≠ f := by
        constructor
        · intro hmem
          obtain ⟨hne, ht⟩ := hinv k' hmem
          obtain ⟨t1, t2⟩ := ht e hse heβ ((hcone k' lk).mp ck)
          rcases hd with h | h
          · exact hne h
          · rw [t1] at h
            exact lt_irrefl _ (h.trans (t2.resolve_left hfg))
        · rintro rfl
          rcases hd with h | h
          · exact hfg h
          · exact lt_irrefl _ h
      rw [ek]
      simp only [Option.bind_some, uvw_eq lk]
      have hAt' : At A T k' ⟨(uvw k' E).x, (uvw k' E).y⟩ e := at_uvw lk hr hEe ck hw
      obtain ⟨segs, q1, q2, q3, q4, q5, q6⟩ := ih k' (insert f V) e ⟨k', ⟨(uvw k' E).x, (uvw k' E).y⟩, p⟩ lk
        (by rw [Finset.mem_insert, not_or]; exact ⟨hkV.2, hkV.1⟩)
        (Finset.insert_subset (Finset.mem_range.mpr hf) hV)
        (by rw [Finset.card_insert_of_notMem hfV]; omega)
        he0 heβ rfl hAt'
        (by
          intro h hh
          rw [Finset.mem_insert] at hh
          have hdk : ∀ t, e ≤ t → t ≤ β → Cone f (arcPt A T t) → t = e := by
            intro t t1 t2 ht
            have h1 := hsin t ht
            rcases t1.lt_or_eq with hlt | heq
            · exfalso
              rcases (show t ≤ e + Real.pi by linarith).lt_or_eq with h3 | h3
              · have : 0 < Real.sin (t - e) := Real.sin_pos_of_pos_of_lt_pi (by linarith) (by linarith)
                rw [← neg_sub, Real.sin_neg] at this
                linarith
              · rw [h3] at ht
                exact cone_opposite hf hCe ht
            · exact heq.symm
          rcases hh with rfl | hh
          · exact ⟨hfg, fun t t1 t2 ht => ⟨hdk t t1 t2 ht, hd⟩⟩
          · obtain ⟨hne, hv⟩ := hinv h hh
            refine ⟨hne, fun t t1 t2 ht => ?_⟩
            obtain ⟨u1, u2⟩ := hv t (hse.trans t1) t2 ht
            have hes' : e = s := le_antisymm (u1 ▸ t1) hse
            refine ⟨by rw [u1, hes'], ?_⟩
            rcases hd with h2 | h2
            · exact Or.inl h2
            · rw [hes'] at h2 ⊢
              exact Or.inr ((u2.resolve_left hfg).trans h2))
        (fun hkg hgc => absurd (tk ((hcone g hg).mpr hgc)) hkg)
      rw [hNdef, q1]
      refine ⟨_, rfl, ⟨e, hse, ?_, ?_, q2⟩, ?_, ?_, ?_, ?_⟩
      · rw [hseg]; exact hAt
      · rw [hseg]; exact ⟨hX.x_le, hX.y_le, E, r, hEat, hr, hEe⟩
      · rw [List.map_cons, List.nodup_cons]
        refine ⟨?_, q3⟩
        intro hm
        obtain ⟨x, x1, x2⟩ := List.mem_map.mp hm
        apply q4 x x1
        rw [x2]
        simp only
        rw [hseg]
        exact Finset.mem_insert_self f V
      · intro x hx
        rcases List.mem_cons.mp hx with rfl | hx
        · simp only
          rw [hseg]
          exact hfV
        · intro hm
          exact q4 x hx (Finset.mem_insert_of_mem hm)
      · simp [hseg]
      · rw [List.map_cons, List.getLast?_cons, q6]
        rfl

end Verif
