import Verif.Proofs.FaceWalk

/-!
# Following a complete great circle

The walk from face to face around a given line reaches every face that the line meets. The comparisons on rounded numbers are exact, so
that the faces are the same with rounding.
-/

namespace Verif
open Spec EdgeClip

/-- The face after `f` on the way to `g`, in exact arithmetic. -/
noncomputable def nxt (neg : ℝ → Bool) (N : Vec ℝ) (g f : Nat) : Option Nat :=
  nextFace _root_.id f (exitPoint _root_.id (uvw f N) (exitAxis _root_.id neg (uvw f N))) (exitAxis _root_.id neg (uvw f N)) (uvw f N) g

theorem arcPt_period (A T : Vec ℝ) (t : ℝ) (n : ℤ) : arcPt A T (t + n * (2 * Real.pi)) = arcPt A T t := by
  unfold arcPt
  rw [Real.cos_add_int_mul_two_pi, Real.sin_add_int_mul_two_pi]

/-- Every vector in the plane is on the curve, at an angle of a given period. -/
theorem on_arc' {A T : Vec ℝ} (h : Frame A T) {c : ℝ} (s : ℝ) (hc : 0 < c) {P : Vec ℝ} (hP : ¬ IsZero P)
    (hn : dot (smul c (cross A T)) P = 0) : ∃ r e, 0 < r ∧ s ≤ e ∧ e < s + 2 * Real.pi ∧ P = smul r (arcPt A T e) := by
  have hpi := Real.two_pi_pos
  obtain ⟨r, e, hr, -, -, hPe⟩ := on_arc h hc le_rfl Real.pi_pos.le hP hn
  have h1 := Int.ceil_lt_add_one ((s - e) / (2 * Real.pi))
  have h2 := Int.le_ceil ((s - e) / (2 * Real.pi))
  refine ⟨r, e + ⌈(s - e) / (2 * Real.pi)⌉ * (2 * Real.pi), hr, ?_, ?_, by rw [arcPt_period]; exact hPe⟩
  · rw [div_le_iff₀ hpi] at h2
    linarith
  · have h3 : ((⌈(s - e) / (2 * Real.pi)⌉ : ℝ) - 1) * (2 * Real.pi) < s - e := by
      rw [← lt_div_iff₀ hpi]
      linarith
    linarith

theorem uvw_ne {f : Nat} (hf : f < 6) {N : Vec ℝ} (hN : ¬ IsZero N) : ¬ IsZero (uvw f N) := by
  rintro ⟨z1, z2, z3⟩
  apply hN
  have h1 : dot (uvw f N) (uvw f N) = 0 := by
    unfold dot
    rw [z1, z2, z3]
    ring
  rw [dot_uvw hf] at h1
  unfold dot at h1
  refine ⟨?_, ?_, ?_⟩ <;> nlinarith [mul_self_nonneg N.x, mul_self_nonneg N.y, mul_self_nonneg N.z]

theorem cube_ne {f : Nat} (hf : f < 6) (u v : ℝ) : ¬ IsZero (cubeXYZ f u v) := by
  rintro ⟨z1, z2, z3⟩
  have h1 : dot (uvw f (cubeXYZ f u v)) (uvw f (cubeXYZ f u v)) = 0 := by
    rw [dot_uvw hf]
    unfold dot
    rw [z1, z2, z3]
    ring
  rw [uvw_cubeXYZ hf] at h1
  unfold dot at h1
  nlinarith [mul_self_nonneg u, mul_self_nonneg v]

theorem cube_cone {f : Nat} (hf : f < 6) {u v : ℝ} (hu : |u| ≤ 1) (hv : |v| ≤ 1) : Cone f (cubeXYZ f u v) := by
  unfold Cone
  rw [uvw_cubeXYZ hf]
  rw [abs_le] at hu hv
  exact ⟨one_pos, hu.1, hu.2, hv.1, hv.2⟩

/-- The exit point as a point of the curve. -/
theorem exit_arc {A T : Vec ℝ} (hF : Frame A T) {c : ℝ} (hc : 0 < c) {f : Nat} (hf : f < 6) {ax : Axis} {p : R2.Point ℝ} {N : Vec ℝ}
    (hN : N = smul c (cross A T)) (h : ExitOK (uvw f N) ax p) (h0 : (uvw f N).x ≠ 0 ∨ (uvw f N).y ≠ 0) (s : ℝ) :
    ∃ r e, 0 < r ∧ s ≤ e ∧ e < s + 2 * Real.pi ∧ cubeXYZ f p.x p.y = smul r (arcPt A T e) ∧ Cone f (arcPt A T e) ∧
      ∀ t, Cone f (arcPt A T t) → 0 ≤ Real.sin (e - t) := by
  have hEn : dot (smul c (cross A T)) (cubeXYZ f p.x p.y) = 0 := by
    rw [← hN, ← dot_uvw hf, uvw_cubeXYZ hf]
    have := h.line
    unfold dot
    linarith
  obtain ⟨r, e, hr, h1, h2, h3⟩ := on_arc' hF s hc (cube_ne hf p.x p.y) hEn
  have hC := cube_cone hf h.x_le h.y_le
  rw [h3, cone_smul hf hr] at hC
  refine ⟨r, e, hr, h1, h2, h3, hC, ?_⟩
  intro t ht
  have k1 := exit_last hf h h0 ht (by rw [hN]; exact normal_arc A T c t)
  have k2 : dot N (cross (arcPt A T t) (smul r (arcPt A T e))) = r * dot N (cross (arcPt A T t) (arcPt A T e)) := by
    simp only [dot, cross, smul]
    ring
  rw [h3, k2, hN, turn_arc hF] at k1
  by_contra hneg
  rw [not_le] at hneg
  have := mul_neg_of_pos_of_neg hr (mul_neg_of_pos_of_neg hc hneg)
  linarith

theorem sin_range {x : ℝ} (h0 : 0 ≤ x) (h1 : x < 2 * Real.pi) (h : 0 ≤ Real.sin x) : x ≤ Real.pi := by
  by_contra hc
  rw [not_le] at hc
  have h2 : Real.sin (x - Real.pi) = -Real.sin x := Real.sin_sub_pi _
  have h3 : 0 < Real.sin (x - Real.pi) := Real.sin_pos_of_pos_of_lt_pi (by linarith) (by linarith)
  linarith

/-- The arc of a face. -/
theorem cone_range {A T : Vec ℝ} {f : Nat} (hf : f < 6) {s t : ℝ} (hs : Cone f (arcPt A T s)) (hP : ∀ t, Cone f (arcPt A T t) → 0 ≤ Real.sin (t - s))
    (h0 : s ≤ t) (h1 : t < s + 2 * Real.pi) (ht : Cone f (arcPt A T t)) : t < s + Real.pi := by
  have h2 := sin_range (show 0 ≤ t - s by linarith) (by linarith) (hP t ht)
  rcases (show t ≤ s + Real.pi by linarith).lt_or_eq with h | h
  · exact h
  · rw [h] at ht
    exact absurd ht (cone_opposite hf hs)

theorem arcPt_add (A T : Vec ℝ) (s t : ℝ) : arcPt A T t = lin (Real.cos (t - s)) (arcPt A T s) (Real.sin (t - s)) (arcDir A T s) := by
  have k1 : Real.cos t = Real.cos (t - s) * Real.cos s + Real.sin (t - s) * -Real.sin s := by
    have := Real.cos_add (t - s) s
    rw [sub_add_cancel] at this
    linarith
  have k2 : Real.sin t = Real.cos (t - s) * Real.sin s + Real.sin (t - s) * Real.cos s := by
    have := Real.sin_add (t - s) s
    rw [sub_add_cancel] at this
    linarith
  simp only [arcPt, arcDir, lin]
  refine vec_mk ?_ ?_ ?_ <;> rw [k1, k2] <;> ring

theorem walk_ok {A T : Vec ℝ} (hF : Frame A T) {c : ℝ} (hc : 0 < c) {neg : ℝ → Bool} (hneg : SignBit neg) {N : Vec ℝ} (hN : N = smul c (cross A T))
    {g : Nat} (hg : g < 6) {s0 b : ℝ} (hb : b ≤ s0 + 2 * Real.pi) (hB : Cone g (arcPt A T b)) (k : Nat) :
    ∀ (f : Nat) (V : Finset Nat) (s : ℝ), f < 6 → f ∉ V → V ⊆ Finset.range 6 → 6 ≤ V.card + k → s0 ≤ s → (f ≠ g → s < b) →
      Cone f (arcPt A T s) → (∀ t, Cone f (arcPt A T t) → 0 ≤ Real.sin (t - s)) →
      (∀ h ∈ V, h ≠ g ∧ ∀ t, s ≤ t → t < b → Cone h (arcPt A T t) → t = s ∧ (f = g ∨ (uvw h (arcDir A T s)).z < (uvw f (arcDir A T s)).z)) →
      ∃ fs : List Nat, fs.head? = some f ∧ fs.getLast? = some g ∧ fs.Nodup ∧ (∀ x ∈ fs, x ∉ V) ∧
        (∀ x ∈ fs, x < 6 ∧ ∃ t, Cone x (arcPt A T t)) ∧ fs.IsChain (fun x y => x ≠ g ∧ nxt neg N g x = some y) := by
  have hpi := Real.pi_pos
  induction k with
  | zero =>
    intro f V s hf hfV hV hk
    exfalso
    have h1 : insert f V ⊆ Finset.range 6 := Finset.insert_subset (Finset.mem_range.mpr hf) hV
    have h2 := Finset.card_le_card h1
    rw [Finset.card_insert_of_notMem hfV, Finset.card_range] at h2
    omega
  | succ k ih =>
    intro f V s hf hfV hV hk hs0 hsb hC hP hinv
    by_cases hfg : f = g
    · refine ⟨[f], rfl, by rw [hfg]; rfl, by simp, ?_, ?_, List.IsChain.singleton f⟩
      · intro x hx
        rw [List.mem_singleton] at hx
        rw [hx]
        exact hfV
      · intro x hx
        rw [List.mem_singleton] at hx
        rw [hx]
        exact ⟨hf, s, hC⟩
    have hsb := hsb hfg
    have hN0 : ¬ IsZero N := by rw [hN]; exact normal_ne hF hc
    have hnS : dot (uvw f N) (uvw f (arcPt A T s)) = 0 := by rw [dot_uvw hf, hN]; exact normal_arc A T c s
    obtain ⟨hI, h0⟩ := normal_ok (uvw_ne hf hN0) hC.1 (abs_le.mpr ⟨hC.2.1, hC.2.2.1⟩) (abs_le.mpr ⟨hC.2.2.2.1, hC.2.2.2.2⟩) hnS
    have hX := exit_ok hneg hI h0
    obtain ⟨r, e, hr, hse, hes, hEe, hCe, hsin⟩ := exit_arc hF hc hf hN hX h0 s
    obtain ⟨k', ek, lk, ck, tk, dk⟩ := nextFace_ok hf hg hfg hX
    have ek' : nxt neg N g f = some k' := ek
    have hcone : ∀ j < 6, (Cone j (cubeXYZ f (exitPoint _root_.id (uvw f N) (exitAxis _root_.id neg (uvw f N))).x
        (exitPoint _root_.id (uvw f N) (exitAxis _root_.id neg (uvw f N))).y) ↔ Cone j (arcPt A T e)) := fun j hj => by
      rw [hEe]
      exact cone_smul hj hr
    rw [hcone k' lk] at ck
    rw [hcone g hg] at tk
    have hes2 : e < s + Real.pi := cone_range hf hC hP hse hes hCe
    have hkf : k' ≠ f := by
      rintro rfl
      rcases dk with h | h
      · exact hfg h
      · exact lt_irrefl _ h
    have hd : k' = g ∨ (uvw f (arcDir A T e)).z < (uvw k' (arcDir A T e)).z := by
      rcases dk with h | h
      · exact Or.inl h
      · right
        have hdir : cross N (smul r (arcPt A T e)) = smul (r * c) (arcDir A T e) := by
          have h1 := cross_arc hF c e
          rw [← hN] at h1
          have h2 : cross N (smul r (arcPt A T e)) = smul r (cross N (arcPt A T e)) := by
            simp only [cross, smul]
            refine vec_mk ?_ ?_ ?_ <;> ring
          rw [h2, h1]
          simp only [smul]
          refine vec_mk ?_ ?_ ?_ <;> ring
        rw [hEe, hdir, uvw_smul hf, uvw_smul lk] at h
        simp only [smul] at h
        exact lt_of_mul_lt_mul_left h (mul_pos hr hc).le
    by_cases hkg : k' = g
    · subst hkg
      refine ⟨[f, k'], rfl, rfl, by simp [hkf.symm], ?_, ?_, List.IsChain.cons_cons ⟨hfg, ek'⟩ (List.IsChain.singleton _)⟩
      · intro x hx
        simp only [List.mem_cons, List.not_mem_nil, or_false] at hx
        rcases hx with rfl | rfl
        · exact hfV
        · exact fun hm => (hinv _ hm).1 rfl
      · intro x hx
        simp only [List.mem_cons, List.not_mem_nil, or_false] at hx
        rcases hx with rfl | rfl
        · exact ⟨hf, s, hC⟩
        · exact ⟨lk, e, ck⟩
    have hgE : ¬ Cone g (arcPt A T e) := fun h => hkg (tk h)
    have heb : e < b := by
      by_contra hlt
      rw [not_lt] at hlt
      have hlt : b < e := lt_of_le_of_ne hlt (fun h => hgE (h ▸ hB))
      have s1 : 0 < Real.sin (e - s) := Real.sin_pos_of_pos_of_lt_pi (by linarith) (by linarith)
      have s2 : 0 < Real.sin (e - b) := Real.sin_pos_of_pos_of_lt_pi (by linarith) (by linarith)
      have s3 : 0 < Real.sin (b - s) := Real.sin_pos_of_pos_of_lt_pi (by linarith) (by linarith)
      have hbt := arc_between A T s b e
      have hsw : lin (Real.sin (e - b)) (arcPt A T s) (Real.sin (b - s)) (arcPt A T e) =
          lin (Real.sin (b - s)) (arcPt A T e) (Real.sin (e - b)) (arcPt A T s) := by
        simp only [lin]
        refine vec_mk ?_ ?_ ?_ <;> ring
      rw [hsw] at hbt
      refine hgE (cone_start hf hg s3 s2.le hCe hC ?_)
      rw [← hbt, cone_smul hg s1]
      exact hB
    have hdk := hd.resolve_left hkg
    have hkV : k' ∉ V := by
      intro hmem
      obtain ⟨t1, t2⟩ := (hinv k' hmem).2 e hse heb ck
      rw [t1] at hdk
      exact lt_irrefl _ (hdk.trans (t2.resolve_left hfg))
    obtain ⟨fs, q1, q2, q3, q4, q5, q6⟩ := ih k' (insert f V) e lk
      (by rw [Finset.mem_insert, not_or]; exact ⟨hkf, hkV⟩)
      (Finset.insert_subset (Finset.mem_range.mpr hf) hV)
      (by rw [Finset.card_insert_of_notMem hfV]; omega)
      (hs0.trans hse) (fun _ => heb) ck
      (by
        intro t ht
        -- the difference of the two normal components
        have e1 := le_antisymm (cone_max hf lk hCe) (cone_max lk hf ck)
        have e2 := cone_max lk hf ht
        rw [arcPt_add A T e t, uvw_lin hf, uvw_lin lk] at e2
        simp only [lin] at e2
        rw [e1] at e2
        have e3 : 0 ≤ Real.sin (t - e) * ((uvw k' (arcDir A T e)).z - (uvw f (arcDir A T e)).z) := by linarith
        exact nonneg_of_mul_nonneg_left e3 (by linarith))
      (by
        intro h hh
        rw [Finset.mem_insert] at hh
        rcases hh with rfl | hh
        · refine ⟨hfg, fun t t1 t2 ht => ⟨?_, hd⟩⟩
          have h1 := cone_range hf hC hP (hse.trans t1) (by linarith) ht
          have h2 := hsin t ht
          rcases t1.lt_or_eq with h3 | h3
          · exfalso
            have : 0 < Real.sin (t - e) := Real.sin_pos_of_pos_of_lt_pi (by linarith) (by linarith)
            rw [← neg_sub, Real.sin_neg] at this
            linarith
          · exact h3.symm
        · obtain ⟨hne, hv⟩ := hinv h hh
          refine ⟨hne, fun t t1 t2 ht => ?_⟩
          obtain ⟨u1, u2⟩ := hv t (hse.trans t1) t2 ht
          have hes' : e = s := le_antisymm (u1 ▸ t1) hse
          refine ⟨by rw [u1, hes'], Or.inr ?_⟩
          rw [hes'] at hdk ⊢
          exact (u2.resolve_left hfg).trans hdk)
    refine ⟨f :: fs, rfl, ?_, ?_, ?_, ?_, ?_⟩
    · rw [List.getLast?_cons, q2]
      rfl
    · rw [List.nodup_cons]
      exact ⟨fun hm => q4 f hm (Finset.mem_insert_self f V), q3⟩
    · intro x hx
      rcases List.mem_cons.mp hx with rfl | hx
      · exact hfV
      · exact fun hm => q4 x hx (Finset.mem_insert_of_mem hm)
    · intro x hx
      rcases List.mem_cons.mp hx with rfl | hx
      · exact ⟨hf, s, hC⟩
      · exact q5 x hx
    · cases fs with
      | nil => cases q1
      | cons y l =>
        obtain rfl : y = k' := by simpa using q1
        exact List.IsChain.cons_cons ⟨hfg, ek'⟩ q6

/-- Every plane through the origin has a frame. -/
theorem plane_frame {N : Vec ℝ} (hN : ¬ IsZero N) : ∃ A T c, Frame A T ∧ 0 < c ∧ N = smul c (cross A T) := by
  obtain ⟨o1, o2⟩ := c74_ortho isSqrt_real hN
  obtain ⟨t, t0, t1, t2⟩ := c74_normalize isSqrt_real hN
  generalize Vec.ortho _root_.id Real.sqrt N = A at *
  generalize Vec.normalize _root_.id Real.sqrt N = M at *
  have hMA : dot M A = 0 := by
    rw [t1]
    have : dot (smul t N) A = t * dot A N := by simp only [dot, smul]; ring
    rw [this, o1, mul_zero]
  refine ⟨A, cross M A, t⁻¹, ⟨o2, ?_, ?_⟩, inv_pos.mpr t0, ?_⟩
  · unfold UnitV
    rw [binet, t2, o2, hMA]
    norm_num
  · simp only [dot, cross]
    ring
  · have k : cross A (cross M A) = lin (dot A A) M (-dot M A) A := by
      simp only [cross, dot, lin]
      refine vec_mk ?_ ?_ ?_ <;> ring
    rw [k, o2, hMA, t1]
    have h := t0.ne'
    obtain ⟨x, y, z⟩ := N
    simp only [smul, lin]
    refine vec_mk ?_ ?_ ?_ <;> field_simp <;> ring

/-- The walk reaches every face that the line meets. -/
theorem walk_exists {neg : ℝ → Bool} (hneg : SignBit neg) {N : Vec ℝ} (hN : ¬ IsZero N) {f g : Nat} (hf : f < 6) (hg : g < 6)
    (hIf : |(uvw f N).z| ≤ |(uvw f N).x| + |(uvw f N).y|) (hIg : |(uvw g N).z| ≤ |(uvw g N).x| + |(uvw g N).y|) :
    ∃ fs : List Nat, fs.head? = some f ∧ fs.getLast? = some g ∧ fs.Nodup ∧
      (∀ x ∈ fs, x < 6 ∧ |(uvw x N).z| ≤ |(uvw x N).x| + |(uvw x N).y| ∧ ((uvw x N).x ≠ 0 ∨ (uvw x N).y ≠ 0)) ∧
      fs.IsChain (fun x y => x ≠ g ∧ nxt neg N g x = some y) := by
  obtain ⟨A, T, c, hF, hc, hNe⟩ := plane_frame hN
  have h0 : ∀ j < 6, |(uvw j N).z| ≤ |(uvw j N).x| + |(uvw j N).y| → (uvw j N).x ≠ 0 ∨ (uvw j N).y ≠ 0 := by
    intro j hj h
    by_contra hz
    rw [not_or, not_not, not_not] at hz
    rw [hz.1, hz.2, abs_zero, add_zero] at h
    exact uvw_ne hj hN ⟨hz.1, hz.2, abs_eq_zero.mp (le_antisymm h (abs_nonneg _))⟩
  -- the entry into `f` is the exit of the opposite line
  have hN' : ∃ M : Vec ℝ, M = smul (-1) N := ⟨_, rfl⟩
  obtain ⟨M, hM⟩ := hN'
  have hMf : uvw f M = smul (-1) (uvw f N) := by rw [hM, uvw_smul hf]
  have hMT : M = smul c (cross A (smul (-1) T)) := by
    rw [hM, hNe]
    simp only [smul, cross]
    refine vec_mk ?_ ?_ ?_ <;> ring
  have hF' : Frame A (smul (-1) T) := by
    obtain ⟨h1, h2, h3⟩ := hF
    refine ⟨h1, ?_, ?_⟩
    · unfold UnitV at *
      have : dot (smul (-1) T) (smul (-1) T) = dot T T := by simp only [dot, smul]; ring
      rw [this, h2]
    · have : dot A (smul (-1) T) = -dot A T := by simp only [dot, smul]; ring
      rw [this, h3, neg_zero]
  have hIM : |(uvw f M).z| ≤ |(uvw f M).x| + |(uvw f M).y| := by
    rw [hMf]
    simp only [smul, neg_one_mul, abs_neg]
    exact hIf
  have h0M : (uvw f M).x ≠ 0 ∨ (uvw f M).y ≠ 0 := by
    rw [hMf]
    simp only [smul, neg_one_mul, ne_eq, neg_eq_zero]
    exact h0 f hf hIf
  have hrev : ∀ t, arcPt A (smul (-1) T) t = arcPt A T (-t) := by
    intro t
    unfold arcPt
    rw [Real.cos_neg, Real.sin_neg]
    simp only [lin, smul]
    refine vec_mk ?_ ?_ ?_ <;> ring
  obtain ⟨r, e, -, -, -, -, hCe, hsin⟩ := exit_arc hF' hc hf hMT (exit_ok hneg hIM h0M) h0M 0
  rw [hrev] at hCe
  have hP : ∀ t, Cone f (arcPt A T t) → 0 ≤ Real.sin (t - -e) := by
    intro t ht
    have h1 := hsin (-t) (by rw [hrev, neg_neg]; exact ht)
    rwa [show e - -t = t - -e by ring] at h1
  obtain ⟨r2, b, -, hb1, hb2, -, hCb, -⟩ := exit_arc hF hc hg hNe (exit_ok hneg hIg (h0 g hg hIg)) (h0 g hg hIg) (-e)
  have hb' : ∃ b, -e < b ∧ b ≤ -e + 2 * Real.pi ∧ Cone g (arcPt A T b) := by
    rcases hb1.lt_or_eq with h | h
    · exact ⟨b, h, hb2.le, hCb⟩
    · refine ⟨b + 2 * Real.pi, ?_, ?_, ?_⟩
      · have := Real.pi_pos
        linarith
      · rw [← h]
      · have := arcPt_period A T b 1
        rw [Int.cast_one, one_mul] at this
        rw [this]
        exact hCb
  obtain ⟨b, b1, b2, b3⟩ := hb'
  obtain ⟨fs, q1, q2, q3, -, q5, q6⟩ := walk_ok hF hc hneg hNe hg b2 b3 6 f ∅ (-e) hf (by simp) (by simp) (by simp) le_rfl (fun _ => b1) hCe hP (by simp)
  refine ⟨fs, q1, q2, q3, ?_, q6⟩
  intro x hx
  obtain ⟨hx6, t, ht⟩ := q5 x hx
  exact ⟨hx6, normal_ok (uvw_ne hx6 hN) ht.1 (abs_le.mpr ⟨ht.2.1, ht.2.2.1⟩) (abs_le.mpr ⟨ht.2.2.2.1, ht.2.2.2.2⟩)
    (by rw [dot_uvw hx6, hNe]; exact normal_arc A T c t)⟩

end Verif
