import Verif.Proofs.FaceWalk2

/-!
# The walk from face to face with IEEE rounding

The comparisons are exact, so that the faces are those of exact arithmetic (`walk_exists`).
-/

namespace Verif
open Spec EdgeClip

namespace Spec

/-- The components of a vector are finite doubles. -/
def VecF64 (v : Vec ℝ) : Prop := IsF64 v.x ∧ IsF64 v.y ∧ IsF64 v.z

/-- The point is in the square of a face. -/
def InFace (p : R2.Point ℝ) : Prop := |p.x| ≤ 1 ∧ |p.y| ≤ 1

end Spec

theorem uvw_f64 {f : Nat} (hf : f < 6) {N : Vec ℝ} (h : VecF64 N) : VecF64 (uvw f N) := by
  obtain ⟨h1, h2, h3⟩ := h
  interval_cases f <;> refine ⟨?_, ?_, ?_⟩ <;> first | assumption | (apply isF64_neg; assumption)

theorem axis_same {n : Vec ℝ} (hn : VecF64 n) (neg : ℝ → Bool) : exitAxis rne neg n = exitAxis _root_.id neg n := by
  have h : intersectsOppositeEdges rne n = intersectsOppositeEdges _root_.id n := by
    rw [Bool.eq_iff_iff, opposite_exact hn.1 hn.2.1 hn.2.2, opposite_id]
  unfold exitAxis
  rw [h]

theorem intersects_iff {n : Vec ℝ} (hn : VecF64 n) : intersectsFace rne n = true ↔ |n.z| ≤ |n.x| + |n.y| := by
  unfold intersectsFace
  rw [Bool.and_eq_true, decide_eq_true_eq, decide_eq_true_eq]
  obtain ⟨hx, hy, hz⟩ := hn
  constructor
  · rintro ⟨h1, h2⟩
    by_contra h
    rcases sum_lt_cases (isF64_abs hx) (isF64_abs hy) (isF64_abs hz) (abs_nonneg _) (abs_nonneg _) (not_le.1 h) with h | h <;> linarith
  · intro h
    constructor
    · have := rne_mono (show |n.z| - |n.x| ≤ |n.y| by linarith)
      rwa [isF64_abs hy] at this
    · have := rne_mono (show |n.z| - |n.y| ≤ |n.x| by linarith)
      rwa [isF64_abs hx] at this

theorem pm_f64 {s a : ℝ} (hs : s = 1 ∨ s = -1) (ha : IsF64 a) : IsF64 (s * a) := by
  rcases hs with rfl | rfl
  · rw [one_mul]; exact ha
  · rw [neg_one_mul]; exact isF64_neg ha

theorem abs_one {s : ℝ} (h : |s| = 1) : s = 1 ∨ s = -1 := by
  rcases abs_choice s with e | e <;> rw [e] at h
  · exact Or.inl h
  · exact Or.inr (by linarith)

/-- If the true quotient is plus or minus one, the computed one is exact. -/
theorem quot_exact {s a b c t : ℝ} (hs : s = 1 ∨ s = -1) (ha : IsF64 a) (hc : IsF64 c) (hn : c ≠ 0) (ht : t = 1 ∨ t = -1)
    (h : (-s * a - b) / c = t) : rne (rne (rne (-s * a) - b) / c) = t := by
  have e1 : rne (-s * a) = -s * a := by
    rw [neg_mul]
    exact isF64_neg (pm_f64 hs ha)
  rw [div_eq_iff hn] at h
  rw [e1, h, show rne (t * c) = t * c from pm_f64 ht hc, mul_div_assoc, div_self hn, mul_one]
  rcases ht with rfl | rfl
  · exact rne_one
  · rw [rne_odd, rne_one]

/-- The choice of the next face: the two computations agree if one of two conditions holds. -/
theorem next_eq {f g : Nat} (hf : f < 6) {p q : R2.Point ℝ} {ax : Axis} {n : Vec ℝ} (hn : VecF64 n)
    (hA : ax = .U → p.x = q.x ∧ (p.x = 1 ∨ p.x = -1)) (hA' : ax = .V → p.y = q.y ∧ (p.y = 1 ∨ p.y = -1))
    (hB : ax = .U → |q.y| = 1 → p.y = q.y) (hB' : ax = .V → |q.x| = 1 → p.x = q.x)
    (hl : ax = .U → |p.y| = 1 → p.x * n.x + p.y * n.y = -n.z → p.y = q.y) (hl' : ax = .V → |p.x| = 1 → p.x * n.x + p.y * n.y = -n.z → p.x = q.x) :
    nextFace rne f p ax n g = nextFace _root_.id f q ax n g := by
  obtain ⟨a, b, c, d, ea, eb, ec, ed, -⟩ := nbr_spec hf
  have exact : ∀ p : R2.Point ℝ, (p.x = 1 ∨ p.x = -1) → (p.y = 1 ∨ p.y = -1) →
      (sumEqual rne (rne (p.x * n.x)) (rne (p.y * n.y)) (-n.z) = true ↔ p.x * n.x + p.y * n.y = -n.z) := by
    intro p h1 h2
    have f1 := pm_f64 h1 hn.1
    have f2 := pm_f64 h2 hn.2.1
    rw [show rne (p.x * n.x) = _ from f1, show rne (p.y * n.y) = _ from f2]
    exact c78_sumEqual f1 f2 (isF64_neg hn.2.2)
  have exact' : ∀ p : R2.Point ℝ, (sumEqual _root_.id (_root_.id (p.x * n.x)) (_root_.id (p.y * n.y)) (-n.z) = true ↔ p.x * n.x + p.y * n.y = -n.z) := by
    intro p
    unfold sumEqual
    simp only [_root_.id, Bool.and_eq_true, decide_eq_true_iff]
    constructor
    · exact fun h => h.1.1
    · intro h
      refine ⟨⟨h, ?_⟩, ?_⟩ <;> linarith
  unfold nextFace
  cases ax with
  | U =>
    obtain ⟨h1, h2⟩ := hA rfl
    have hB := hB rfl
    have hl := hl rfl
    simp only [reduceCtorEq, if_false, Axis.value, Nat.sub_zero, Option.bind_eq_bind]
    have ho : ∀ y : ℝ, ∃ o, uvwFace f 1 (if y > 0 then 1 else 0) = some o := by
      intro y
      split_ifs
      · exact ⟨c, ec⟩
      · exact ⟨d, ed⟩
    rw [← h1]
    by_cases hpq : p.y = q.y
    · rw [← hpq]
      obtain ⟨o, eo⟩ := ho p.y
      rw [eo, Option.bind_some, Option.bind_some]
      refine if_congr (and_congr_right fun h => and_congr_right fun _ => ?_) rfl rfl
      rw [exact p h2 (abs_one h)]
      exact (exact' p).symm
    · obtain ⟨o, eo⟩ := ho p.y
      obtain ⟨o', eo'⟩ := ho q.y
      rw [eo, eo', Option.bind_some, Option.bind_some]
      refine (if_neg ?_).trans (if_neg ?_).symm
      · rintro ⟨c1, -, c3⟩
        exact hpq (hl c1 ((exact p h2 (abs_one c1)).1 c3))
      · rintro ⟨c1, -⟩
        exact hpq (hB c1)
  | V =>
    obtain ⟨h1, h2⟩ := hA' rfl
    have hB := hB' rfl
    have hl := hl' rfl
    simp only [if_true, Axis.value, Nat.sub_self, Option.bind_eq_bind]
    have ho : ∀ y : ℝ, ∃ o, uvwFace f 0 (if y > 0 then 1 else 0) = some o := by
      intro y
      split_ifs
      · exact ⟨a, ea⟩
      · exact ⟨b, eb⟩
    rw [← h1]
    by_cases hpq : p.x = q.x
    · rw [← hpq]
      obtain ⟨o, eo⟩ := ho p.x
      rw [eo, Option.bind_some, Option.bind_some]
      refine if_congr (and_congr_right fun h => and_congr_right fun _ => ?_) rfl rfl
      rw [exact p (abs_one h) h2]
      have := exact' ⟨p.x, p.y⟩
      simp only at this
      exact this.symm
    · obtain ⟨o, eo⟩ := ho p.x
      obtain ⟨o', eo'⟩ := ho q.x
      rw [eo, eo', Option.bind_some, Option.bind_some]
      refine (if_neg ?_).trans (if_neg ?_).symm
      · rintro ⟨c1, -, c3⟩
        exact hpq (hl c1 ((exact p (abs_one c1) h2).1 c3))
      · rintro ⟨c1, -⟩
        exact hpq (hB c1)

/-- The face after `f` is the one of exact arithmetic. -/
theorem next_same {f : Nat} (hf : f < 6) (g : Nat) {neg : ℝ → Bool} (hneg : SignBit neg) {N : Vec ℝ} (hN : VecF64 N)
    (hI : |(uvw f N).z| ≤ |(uvw f N).x| + |(uvw f N).y|) (h0 : (uvw f N).x ≠ 0 ∨ (uvw f N).y ≠ 0) :
    nextFace rne f (exitPoint rne (uvw f N) (exitAxis rne neg (uvw f N))) (exitAxis rne neg (uvw f N)) (uvw f N) g = nxt neg N g f := by
  have hn := uvw_f64 hf hN
  unfold nxt
  rw [axis_same hn]
  have hX := exit_ok hneg hI h0
  generalize uvw f N = n at *
  generalize hax : exitAxis _root_.id neg n = ax at *
  have sgn : ∀ P : Prop, ∀ _ : Decidable P, (if P then 1 else -1 : ℝ) = 1 ∨ (if P then 1 else -1 : ℝ) = -1 := by
    intro P _
    split_ifs <;> simp
  have hline := hX.line
  refine next_eq hf hn ?_ ?_ ?_ ?_ ?_ ?_
  · rintro rfl
    exact ⟨rfl, sgn _ _⟩
  · rintro rfl
    exact ⟨rfl, sgn _ _⟩
  · rintro rfl h
    exact quot_exact (sgn _ _) hn.1 hn.2.1 (hX.axU rfl).1 (abs_one h) rfl
  · rintro rfl h
    exact quot_exact (sgn _ _) hn.2.1 hn.1 (hX.axV rfl).1 (abs_one h) rfl
  · rintro rfl - h
    have e : (exitPoint rne n .U).x = (exitPoint _root_.id n .U).x := rfl
    rw [e] at h
    exact mul_right_cancel₀ (hX.axU rfl).1 (by linarith)
  · rintro rfl - h
    have e : (exitPoint rne n .V).y = (exitPoint _root_.id n .V).y := rfl
    rw [e] at h
    exact mul_right_cancel₀ (hX.axV rfl).1 (by linarith)

/-- The next face shares the computed exit point. -/
theorem next_shared {f g k : Nat} (hf : f < 6) (hg : g < 6) {p : R2.Point ℝ} {ax : Axis} {n : Vec ℝ} (hU : ax = .U → p.x = 1 ∨ p.x = -1)
    (hV : ax = .V → p.y = 1 ∨ p.y = -1) (h : nextFace rne f p ax n g = some k) : k < 6 ∧ (uvw k (cubeXYZ f p.x p.y)).z = 1 := by
  obtain ⟨a, b, c, d, ea, eb, ec, ed, la, lb, lc, ld, wa, wb, wc, wd, -⟩ := nbr_spec hf
  have hE := uvw_cubeXYZ hf p.x p.y
  have hx : (p.x = 1 ∨ p.x = -1) → ∃ m, uvwFace f 0 (if p.x > 0 then 1 else 0) = some m ∧ m < 6 ∧ (uvw m (cubeXYZ f p.x p.y)).z = 1 := by
    rintro (h | h)
    · rw [if_pos (by rw [h]; exact one_pos)]
      exact ⟨a, ea, la, by rw [wa, hE]; exact h⟩
    · rw [if_neg (by rw [h]; norm_num)]
      exact ⟨b, eb, lb, by rw [wb, hE]; simp only; rw [h, neg_neg]⟩
  have hy : (p.y = 1 ∨ p.y = -1) → ∃ m, uvwFace f 1 (if p.y > 0 then 1 else 0) = some m ∧ m < 6 ∧ (uvw m (cubeXYZ f p.x p.y)).z = 1 := by
    rintro (h | h)
    · rw [if_pos (by rw [h]; exact one_pos)]
      exact ⟨c, ec, lc, by rw [wc, hE]; exact h⟩
    · rw [if_neg (by rw [h]; norm_num)]
      exact ⟨d, ed, ld, by rw [wd, hE]; simp only; rw [h, neg_neg]⟩
  unfold nextFace at h
  cases ax with
  | U =>
    simp only [reduceCtorEq, if_false, Axis.value, Nat.sub_zero, Option.bind_eq_bind] at h
    obtain ⟨o, eo, h⟩ := Option.bind_eq_some_iff.mp h
    rcases ite_eq_iff.mp h with ⟨hc, h⟩ | ⟨-, h⟩
    · obtain ⟨m, m1, m2, m3⟩ := hy (abs_one hc.1)
      obtain rfl := Option.some.inj h
      obtain rfl := Option.some.inj (m1.symm.trans eo)
      rw [← hc.2.1]
      exact ⟨m2, m3⟩
    · obtain ⟨m, m1, m2, m3⟩ := hx (hU rfl)
      obtain rfl := Option.some.inj (m1.symm.trans h)
      exact ⟨m2, m3⟩
  | V =>
    simp only [if_true, Axis.value, Nat.sub_self, Option.bind_eq_bind] at h
    obtain ⟨o, eo, h⟩ := Option.bind_eq_some_iff.mp h
    rcases ite_eq_iff.mp h with ⟨hc, h⟩ | ⟨-, h⟩
    · obtain ⟨m, m1, m2, m3⟩ := hx (abs_one hc.1)
      obtain rfl := Option.some.inj h
      obtain rfl := Option.some.inj (m1.symm.trans eo)
      rw [← hc.2.1]
      exact ⟨m2, m3⟩
    · obtain ⟨m, m1, m2, m3⟩ := hy (hV rfl)
      obtain rfl := Option.some.inj (m1.symm.trans h)
      exact ⟨m2, m3⟩

namespace Spec

/-- Consecutive segments meet, exactly, in one point of the cube. -/
def SegJoined (g k : FaceSegment ℝ) : Prop := faceUVtoXYZ g.face g.b.x g.b.y = faceUVtoXYZ k.face k.a.x k.a.y

/-- The segment ends, to within `2^-52`, where the line with this normal leaves the face. -/
def EndsAtExit (N : Vec ℝ) (g : FaceSegment ℝ) : Prop :=
  ∃ n q, faceXYZtoUVW g.face N = some n ∧ IsExit n q ∧ |g.b.x - q.x| ≤ 1 / 2 ^ 52 ∧ |g.b.y - q.y| ≤ 1 / 2 ^ 52

end Spec

theorem loop_round {neg : ℝ → Bool} (hneg : SignBit neg) {N : Vec ℝ} (hN : VecF64 N) {g : Nat} (hg : g < 6) {bs : R2.Point ℝ} (hbs : InFace bs) :
    ∀ (fs : List Nat) (f : Nat) (seg : FaceSegment ℝ), fs.head? = some f → fs.getLast? = some g →
      (∀ x ∈ fs, x < 6 ∧ |(uvw x N).z| ≤ |(uvw x N).x| + |(uvw x N).y| ∧ ((uvw x N).x ≠ 0 ∨ (uvw x N).y ≠ 0)) →
      fs.IsChain (fun x y => x ≠ g ∧ nxt neg N g x = some y) → fs.Nodup → seg.face = f → InFace seg.a →
      ∃ segs, segmentLoop rne neg N g bs f seg = some segs ∧ segs.map (·.face) = fs ∧ (∀ s ∈ segs, InFace s.a ∧ InFace s.b) ∧
        segs.IsChain SegJoined ∧ (segs.head?.map (·.a)) = some seg.a ∧ (segs.getLast?.map (·.b)) = some bs ∧ ∀ s ∈ segs.dropLast, EndsAtExit N s := by
  intro fs
  induction fs with
  | nil => intro f seg h; cases h
  | cons x l ih =>
    intro f seg h1 h2 h3 h4 h5 h6 h7
    obtain rfl : x = f := by simpa using h1
    rw [segmentLoop]
    cases l with
    | nil =>
      obtain rfl : x = g := by simpa using h2
      rw [if_pos rfl]
      refine ⟨_, rfl, by simp [h6], ?_, List.IsChain.singleton _, rfl, rfl, by simp⟩
      intro s hs
      rw [List.mem_singleton] at hs
      rw [hs]
      exact ⟨h7, hbs⟩
    | cons y l =>
      obtain ⟨hx6, hI, h0⟩ := h3 x (by simp)
      rw [List.isChain_cons_cons] at h4
      obtain ⟨⟨hxg, hnx⟩, h4⟩ := h4
      rw [if_neg hxg]
      rw [← next_same hx6 g hneg hN hI h0] at hnx
      simp only [uvw_eq hx6, cubeXYZ_eq hx6, Option.bind_eq_bind, Option.bind_some]
      rw [hnx, Option.bind_some]
      have hn := uvw_f64 hx6 hN
      obtain ⟨hb, q, hq, hq1, hq2⟩ := c78_exitPoint hn.1 hn.2.1 hn.2.2 neg hneg ((intersects_iff hn).2 hI) h0
      have hp1 : exitAxis rne neg (uvw x N) = .U → (exitPoint rne (uvw x N) (exitAxis rne neg (uvw x N))).x = 1 ∨
          (exitPoint rne (uvw x N) (exitAxis rne neg (uvw x N))).x = -1 := by
        intro e
        rw [e]
        change (if _ then 1 else -1 : ℝ) = 1 ∨ (if _ then 1 else -1 : ℝ) = -1
        split_ifs <;> simp
      have hp2 : exitAxis rne neg (uvw x N) = .V → (exitPoint rne (uvw x N) (exitAxis rne neg (uvw x N))).y = 1 ∨
          (exitPoint rne (uvw x N) (exitAxis rne neg (uvw x N))).y = -1 := by
        intro e
        rw [e]
        change (if _ then 1 else -1 : ℝ) = 1 ∨ (if _ then 1 else -1 : ℝ) = -1
        split_ifs <;> simp
      obtain ⟨hy6, hz⟩ := next_shared hx6 hg hp1 hp2 hnx
      generalize exitPoint rne (uvw x N) (exitAxis rne neg (uvw x N)) = p at *
      have hpi : InFace p := by
        rcases hb with ⟨c1, c2⟩ | ⟨c1, c2⟩
        · exact ⟨c1.le, c2⟩
        · exact ⟨c1, c2.le⟩
      have hC : Cone y (cubeXYZ x p.x p.y) := cone_of_eq hx6 hy6 (cube_cone hx6 hpi.1 hpi.2) (by rw [hz, uvw_cubeXYZ hx6])
      rw [uvw_eq hy6, Option.bind_some]
      obtain ⟨segs, k1, k2, k3, k4, k5, k6, k7⟩ := ih y
        ⟨y, ⟨(uvw y (cubeXYZ x p.x p.y)).x, (uvw y (cubeXYZ x p.x p.y)).y⟩, p⟩ rfl
        (by simpa using h2) (fun z hz => h3 z (List.mem_cons_of_mem _ hz)) h4 (List.nodup_cons.mp h5).2 rfl (by
          unfold Cone at hC
          rw [hz] at hC
          exact ⟨abs_le.mpr ⟨hC.2.1, hC.2.2.1⟩, abs_le.mpr ⟨hC.2.2.2.1, hC.2.2.2.2⟩⟩)
      rw [k1, Option.bind_some]
      cases segs with
      | nil => cases k2
      | cons s segs =>
        simp only [List.head?_cons, Option.map_some, Option.some.injEq] at k5
        simp only [List.map_cons, List.cons.injEq] at k2
        refine ⟨_, rfl, by simp [h6, k2.1, k2.2], ?_, ?_, rfl, ?_, ?_⟩
        · intro z hz
          rcases List.mem_cons.mp hz with rfl | hz
          · exact ⟨h7, hpi⟩
          · exact k3 z hz
        · rw [List.isChain_cons_cons]
          refine ⟨?_, k4⟩
          unfold SegJoined
          simp only
          rw [h6, k2.1, k5, cubeXYZ_eq hx6, cubeXYZ_eq hy6]
          simp only
          congr 1
          refine uvw_injective hy6 ?_
          rw [uvw_cubeXYZ hy6]
          generalize uvw y (cubeXYZ x p.x p.y) = w at *
          obtain ⟨w1, w2, w3⟩ := w
          simp only at hz
          rw [hz]
        · rw [List.getLast?_cons_cons]
          exact k6
        · intro z hz
          rw [List.dropLast_cons_cons] at hz
          rcases List.mem_cons.mp hz with rfl | hz
          · exact ⟨_, q, by rw [h6]; exact uvw_eq hx6 N, hq, hq1, hq2⟩
          · exact k7 z hz

end Verif
