import Verif.Proofs.LeafUlp
import Verif.Properties.PointCell
import Verif.Properties.EdgeExact

/-!
# C96: does the leaf cell of a point contain the point, in `f64` arithmetic?

`contains_point` expands the `(u, v)` rectangle by `DBL_EPSILON`, so that `Cell::from(p).contains_point(p)` be always true, says the
comment. The theorems are about the model with the rounding of `f64` operations to nearest, ties to even.
-/

namespace Verif
open Spec CellID

variable {K : Type} [Field K] [LinearOrder K] [IsStrictOrderedRing K] [FloorRing K]

theorem uvLine_pos {m : ℤ} (h0 : 2 ^ 29 ≤ m) (h1 : m ≤ 2 ^ 30) : ∃ X U : K, StSteps m ((m : K) / 2 ^ 29) X U ∧ uvLine rne m = U := by
  refine ⟨_, _, ⟨h0, h1, rfl, rfl, rfl⟩, ?_⟩
  have m0 : ((2 ^ 29 : ℤ) : K) ≤ m := by exact_mod_cast h0
  push_cast at m0
  have e1 : rne ((m : K) / 2 ^ 30) = (m : K) / 2 ^ 30 :=
    rne_exact (m := m) (k := -30) (by rw [show (2 : K) ^ (-30 : ℤ) = 1 / 2 ^ 30 by norm_num]; ring) (by rw [abs_of_nonneg (by omega)]; omega) (by norm_num)
  have e2 : rne (4 * ((m : K) / 2 ^ 30)) = 4 * ((m : K) / 2 ^ 30) := by
    refine rne_exact (m := m) (k := -28) ?_ (by rw [abs_of_nonneg (by omega)]; omega) (by norm_num)
    rw [show (2 : K) ^ (-28 : ℤ) = 1 / 2 ^ 28 by norm_num]; ring
  unfold uvLine stToUV
  rw [e1, if_pos, e2]
  · congr 3
    congr 2
    ring
  · rw [ge_iff_le, le_div_iff₀ (by positivity)]
    linarith

theorem uvLine_neg {i : ℤ} (h0 : 0 ≤ i) (h1 : i < 2 ^ 29) : ∃ X U : K, StSteps (2 ^ 30 - i) (((2 ^ 30 - i : ℤ) : K) / 2 ^ 29) X U ∧ uvLine rne i = -U := by
  refine ⟨_, _, ⟨by omega, by omega, rfl, rfl, rfl⟩, ?_⟩
  have m1 : (i : K) < ((2 ^ 29 : ℤ) : K) := by exact_mod_cast h1
  push_cast at m1
  have z30 : (2 : K) ^ (-30 : ℤ) = 1 / 2 ^ 30 := by norm_num
  have e1 : rne ((i : K) / 2 ^ 30) = (i : K) / 2 ^ 30 :=
    rne_exact (m := i) (k := -30) (by rw [z30]; ring) (by rw [abs_of_nonneg (by omega)]; omega) (by norm_num)
  have e3 : rne (1 - (i : K) / 2 ^ 30) = 1 - (i : K) / 2 ^ 30 :=
    rne_exact (m := 2 ^ 30 - i) (k := -30) (by rw [z30]; push_cast; ring) (by rw [abs_of_nonneg (by omega)]; omega) (by norm_num)
  have e2 : rne (4 * (1 - (i : K) / 2 ^ 30)) = 4 * (1 - (i : K) / 2 ^ 30) := by
    refine rne_exact (m := 2 ^ 30 - i) (k := -28) ?_ (by rw [abs_of_nonneg (by omega)]; omega) (by norm_num)
    rw [show (2 : K) ^ (-28 : ℤ) = 1 / 2 ^ 28 by norm_num]; push_cast; ring
  unfold uvLine stToUV
  rw [e1, if_neg, e3, e2]
  · have hx : (4 * (1 - (i : K) / 2 ^ 30) * (1 - i / 2 ^ 30)) = ((2 ^ 30 - i : ℤ) : K) / 2 ^ 29 * (((2 ^ 30 - i : ℤ) : K) / 2 ^ 29) := by push_cast; ring
    rw [hx]
    generalize rne (((2 ^ 30 - i : ℤ) : K) / 2 ^ 29 * (((2 ^ 30 - i : ℤ) : K) / 2 ^ 29)) = X
    rw [← rne_odd, show 1 - X = -(X - 1) by ring, rne_odd, mul_neg]
  · rw [ge_iff_le, not_le, div_lt_iff₀ (by positivity)]
    linarith

theorem clamp_floor {z : K} (h0 : 0 ≤ z) (h1 : z ≤ 2 ^ 30) {i : ℤ} (hi : i = clamp (f64ToI32 ⌊z⌋) 0 (maxSize - 1)) :
    0 ≤ i ∧ i < 2 ^ 30 ∧ (i : K) ≤ z ∧ (z < i + 1 ∨ (i + 1 = 2 ^ 30 ∧ z = 2 ^ 30)) := by
  have hf0 : 0 ≤ ⌊z⌋ := Int.floor_nonneg.2 h0
  have hf1 : ⌊z⌋ ≤ 2 ^ 30 := by
    have : (⌊z⌋ : K) ≤ ((2 ^ 30 : ℤ) : K) := by
      push_cast
      linarith [Int.floor_le z]
    exact_mod_cast this
  have hle := Int.floor_le z
  have hlt := Int.lt_floor_add_one z
  unfold clamp f64ToI32 maxSize at hi
  generalize ⌊z⌋ = x at *
  have e1 : max (-2 ^ 31) (min (2 ^ 31 - 1) x) = x := by omega
  rw [e1, if_neg (by omega)] at hi
  rcases lt_or_eq_of_le hf1 with hx | hx
  · rw [if_neg (by omega)] at hi
    subst hi
    exact ⟨hf0, hx, hle, Or.inl hlt⟩
  · rw [if_pos (by omega)] at hi
    subst hi hx
    have hz : z = 2 ^ 30 := le_antisymm h1 (by exact_mod_cast hle)
    refine ⟨by norm_num, by norm_num, ?_, Or.inr ⟨by norm_num, hz⟩⟩
    rw [hz]; push_cast; norm_num

/-- The grid lines of the leaf that is computed for a coordinate `u`, and `u`. -/
theorem leaf_lines {sqrt : K → K} (hs : IsSqrt sqrt) {u : K} (h64 : rne u = u) (u0 : -1 ≤ u) (u1 : u ≤ 1) {i : ℤ} (hi : i = stToIJ rne (uvToST rne sqrt u)) :
    0 ≤ i ∧ i < 2 ^ 30 ∧ uvLine rne i ≤ u + 5 * eta K ∧ (u ≤ -1 / 2 ∨ -1 / 3 ≤ u → uvLine rne i ≤ u + 4 * eta K) ∧ u ≤ uvLine rne (i + 1) + 4 * eta K := by
  have e0 := eta_pos (K := K)
  have e1 := eta_one (K := K)
  have e2 := eta_small (K := K)
  have z53 : (2 : K) ^ (-53 : ℤ) = 2 * eta K := by unfold eta; norm_num
  have z23 : (2 : K) ^ (-23 : ℤ) = 2 ^ 30 * (2 * eta K) := by unfold eta; norm_num
  have bound : ∀ {r : K} {n : ℤ}, 1 ≤ r → r ≤ 2 → r = n * (4 * eta K) → 2 ^ 52 ≤ n ∧ n ≤ 2 ^ 53 := by
    intro r n h1 h2 hr
    constructor
    · have h3 : (2 ^ 52 : K) * (4 * eta K) ≤ n * (4 * eta K) := by rw [← hr]; linarith
      have := le_of_mul_le_mul_right h3 (by linarith)
      exact_mod_cast this
    · have h3 : n * (4 * eta K) ≤ 2 ^ 53 * (4 * eta K) := by rw [← hr]; linarith
      have := le_of_mul_le_mul_right h3 (by linarith)
      exact_mod_cast this
  rcases le_or_gt 0 u with hu | hu
  · have st : UvSteps sqrt u (rne (3 * u)) (rne (1 + rne (3 * u))) (rne (sqrt (rne (1 + rne (3 * u))))) := ⟨hu, u1, h64, rfl, rfl, rfl⟩
    have es : uvToST rne sqrt u = rne (1 / 2 * rne (sqrt (rne (1 + rne (3 * u))))) := by unfold uvToST; rw [if_pos hu]
    generalize rne (3 * u) = T at *
    generalize rne (1 + T) = A at *
    generalize rne (sqrt A) = r at *
    obtain ⟨_, _, _, _, r1, r2, n, hr⟩ := st.r_near hs
    obtain ⟨n0, n1⟩ := bound r1 r2 hr
    have es2 : rne (1 / 2 * r) = 1 / 2 * r := rne_exact (m := n) (k := -53) (by rw [z53, hr]; ring) (by rw [abs_of_nonneg (by omega)]; exact n1) (by norm_num)
    have ez : rne (2 ^ 30 * (1 / 2 * r)) = 2 ^ 30 * (1 / 2 * r) :=
      rne_exact (m := n) (k := -23) (by rw [z23, hr]; ring) (by rw [abs_of_nonneg (by omega)]; exact n1) (by norm_num)
    unfold stToIJ at hi
    rw [es, es2, ez] at hi
    obtain ⟨i0, i1, i2, i3⟩ := clamp_floor (by linarith) (by linarith) hi
    have i29 : 2 ^ 29 ≤ i := by
      rcases i3 with k | ⟨k, _⟩
      · have : ((2 ^ 29 : ℤ) : K) < ((i + 1 : ℤ) : K) := by push_cast; linarith
        have : 2 ^ 29 < i + 1 := by exact_mod_cast this
        omega
      · omega
    obtain ⟨X, U, g, eU⟩ := uvLine_pos (K := K) i29 i1.le
    have l1 := line_le st hs g (by rw [div_le_iff₀ (by positivity)]; linarith)
    rw [eU]
    refine ⟨i0, i1, by linarith, fun _ => l1, ?_⟩
    obtain ⟨X', U', g', eU'⟩ := uvLine_pos (K := K) (m := i + 1) (by omega) (by omega)
    rw [eU']
    rcases i3 with k | ⟨k, _⟩
    · exact line_gt st hs g' (by rw [lt_div_iff₀ (by positivity)]; push_cast; linarith)
    · have q2 : ((i + 1 : ℤ) : K) / 2 ^ 29 = 2 := by rw [k]; norm_num
      rw [q2] at g'
      have hX : X' = 4 := by rw [g'.eX, show (2 : K) * 2 = 4 by norm_num, rne_four]
      obtain ⟨_, _, _, yn, _⟩ := g'.u_near rfl
      rw [hX, abs_le] at yn
      linarith
  · have o3 : rne (3 * u) = -rne (3 * -u) := by rw [← rne_odd]; congr 1; ring
    have st : UvSteps sqrt (-u) (rne (3 * -u)) (rne (1 + rne (3 * -u))) (rne (sqrt (rne (1 + rne (3 * -u))))) :=
      ⟨by linarith, by linarith, by rw [rne_odd, h64], rfl, rfl, rfl⟩
    have es : uvToST rne sqrt u = rne (1 - rne (1 / 2 * rne (sqrt (rne (1 + rne (3 * -u)))))) := by
      unfold uvToST; rw [if_neg (by linarith), o3, sub_neg_eq_add]
    generalize rne (3 * -u) = T at *
    generalize rne (1 + T) = A at *
    generalize rne (sqrt A) = r at *
    obtain ⟨_, _, _, _, r1, r2, n, hr⟩ := st.r_near hs
    obtain ⟨n0, n1⟩ := bound r1 r2 hr
    have es2 : rne (1 / 2 * r) = 1 / 2 * r := rne_exact (m := n) (k := -53) (by rw [z53, hr]; ring) (by rw [abs_of_nonneg (by omega)]; exact n1) (by norm_num)
    have es3 : rne (1 - 1 / 2 * r) = 1 - 1 / 2 * r :=
      rne_exact (m := 2 ^ 53 - n) (k := -53) (by rw [z53, hr]; push_cast; linarith) (by rw [abs_of_nonneg (by omega)]; omega) (by norm_num)
    have ez : rne (2 ^ 30 * (1 - 1 / 2 * r)) = 2 ^ 30 * (1 - 1 / 2 * r) :=
      rne_exact (m := 2 ^ 53 - n) (k := -23) (by rw [z23, hr]; push_cast; linarith) (by rw [abs_of_nonneg (by omega)]; omega) (by norm_num)
    unfold stToIJ at hi
    rw [es, es2, es3, ez] at hi
    obtain ⟨i0, i1, i2, i3⟩ := clamp_floor (by linarith) (by linarith) hi
    have i29 : i ≤ 2 ^ 29 := by
      have : (i : K) ≤ ((2 ^ 29 : ℤ) : K) := by push_cast; linarith
      exact_mod_cast this
    have i3 : 2 ^ 30 * (1 - 1 / 2 * r) < i + 1 := by
      rcases i3 with k | ⟨k, _⟩
      · exact k
      · omega
    refine ⟨i0, i1, ?_⟩
    -- the lower line
    have lower : uvLine rne i ≤ u + 5 * eta K ∧ (u ≤ -1 / 2 ∨ -1 / 3 ≤ u → uvLine rne i ≤ u + 4 * eta K) := by
      rcases i29.lt_or_eq with c | c
      · obtain ⟨X, U, g, eU⟩ := uvLine_neg (K := K) i0 c
        obtain ⟨l1, l2⟩ := line_ge st hs g (by rw [le_div_iff₀ (by positivity)]; push_cast; linarith)
        rw [eU]
        refine ⟨by linarith, fun k => ?_⟩
        have := l2 (by rcases k with k | k
                       · right; linarith
                       · left; linarith)
        linarith
      · obtain ⟨X, U, g, eU⟩ := uvLine_pos (K := K) (m := i) (by omega) (by omega)
        have ci : (i : K) = 2 ^ 29 := by rw [c]; push_cast; norm_num
        obtain ⟨l1, l2⟩ := line_ge st hs g (by rw [le_div_iff₀ (by positivity)]; linarith)
        have q1 : (i : K) / 2 ^ 29 = 1 := by rw [ci]; norm_num
        rw [q1] at g
        have hX : X = 1 := by rw [g.eX, mul_one, rne_one]
        have hU : U = 0 := by rw [g.u_eq, hX, sub_self, mul_zero, rne_zero]
        rw [eU]
        have := l2 (by left; linarith)
        exact ⟨by linarith, fun _ => by linarith⟩
    refine ⟨lower.1, lower.2, ?_⟩
    -- the upper line
    rcases lt_or_ge (i + 1) (2 ^ 29) with c | c
    · obtain ⟨X, U, g, eU⟩ := uvLine_neg (K := K) (i := i + 1) (by omega) c
      have l1 := line_le st hs g (by rw [div_le_iff₀ (by positivity)]; push_cast; linarith)
      rw [eU]
      linarith
    · obtain ⟨X, U, g, eU⟩ := uvLine_pos (K := K) (m := i + 1) c (by omega)
      have hU : 0 ≤ U := by
        rw [g.u_eq]
        exact rne_nonneg (g.u_near rfl).1
      rw [eU]
      linarith

/-- The coordinates are results of a rounded operation. -/
theorem xyzToFaceUV_rounded {p : Vec K} {f : Nat} {u v : K} (h : xyzToFaceUV rne p = some (f, u, v)) : rne u = u ∧ rne v = v := by
  unfold xyzToFaceUV validFaceXYZtoUV at h
  rw [Option.bind_eq_bind] at h
  dsimp only at h
  split at h <;> simp only [Option.bind_some, Option.bind_none, Option.some.injEq, Prod.mk.injEq, reduceCtorEq] at h <;> obtain ⟨_, rfl, rfl⟩ := h <;>
    exact ⟨rne_rne _, rne_rne _⟩

omit [FloorRing K] in
theorem faceXYZtoUV_of {fl : K → K} {p : Vec K} (hp : ¬ IsZero p) {f : Nat} {u v : K} (h : xyzToFaceUV fl p = some (f, u, v)) :
    faceXYZtoUV fl f p = some (some (u, v)) := by
  unfold xyzToFaceUV at h
  unfold faceXYZtoUV
  rcases vecFace_cases p hp with ⟨e, h1, -⟩ | ⟨e, h1, -⟩ | ⟨e, h1, -⟩ | ⟨e, h1, -⟩ | ⟨e, h1, -⟩ | ⟨e, h1, -⟩ <;>
    simp only [e, validFaceXYZtoUV, Option.bind_eq_bind, Option.bind_some, Option.some.injEq, Prod.mk.injEq] at h <;> obtain ⟨rfl, rfl, rfl⟩ := h <;>
    simp [validFaceXYZtoUV, h1]

theorem contains_expanded {r : R2.Rect K} {m : K} (hm : 0 ≤ m) (hx : r.x.lo ≤ r.x.hi) (hy : r.y.lo ≤ r.y.hi) {q : R2.Point K} :
    (r.expandedByMargin rne m).containsPoint q = true ↔ rne (r.x.lo - m) ≤ q.x ∧ q.x ≤ rne (r.x.hi + m) ∧ rne (r.y.lo - m) ≤ q.y ∧ q.y ≤ rne (r.y.hi + m) := by
  have a1 : rne (r.x.lo - m) ≤ rne (r.x.hi + m) := rne_mono (by linarith)
  have a2 : rne (r.y.lo - m) ≤ rne (r.y.hi + m) := rne_mono (by linarith)
  simp [R2.Rect.expandedByMargin, R2.Rect.expanded, R1.Interval.expanded, R1.Interval.isEmpty, hx.not_gt, hy.not_gt, a1.not_gt, a2.not_gt,
    R2.Rect.containsPoint, R1.Interval.contains, and_assoc]

/-- What `Cell::from(p)` and `contains_point` compute, for the rounding to nearest. -/
theorem leaf_cell {sqrt : K → K} {eps : K} (he : 0 ≤ eps) {p : Vec K} (hp : ¬ IsZero p) {f : Nat} {u v : K} (e : xyzToFaceUV rne p = some (f, u, v)) :
    ∃ C, Cell.fromPoint rne sqrt p = some C ∧ ∃ i j : ℤ, i = stToIJ rne (uvToST rne sqrt u) ∧ j = stToIJ rne (uvToST rne sqrt v) ∧ ∃ b,
      C.containsPoint rne eps p = some b ∧ (b = true ↔ rne (uvLine rne i - eps) ≤ u ∧ u ≤ rne (uvLine rne (i + 1) + eps) ∧
        rne (uvLine rne j - eps) ≤ v ∧ v ≤ rne (uvLine rne (j + 1) + eps)) := by
  obtain ⟨l, u', v', g1, g2, g3, g4, g5, g6⟩ := c61_total (rne : K → K) sqrt hp
  rw [e] at g5
  simp only [Option.some.injEq, Prod.mk.injEq] at g5
  obtain ⟨rfl, rfl, rfl⟩ := g5
  have hsq := leaf_square g2 g3 g6
  obtain ⟨o, ho⟩ := g6
  obtain ⟨hc, hb⟩ := c68_from (rne : K → K) g2 g3 hsq ho
  have hfp : Cell.fromPoint rne sqrt p = Cell.fromCellID rne l := by
    unfold Cell.fromPoint
    rw [g1, Option.bind_eq_bind, Option.bind_some]
  have hmono := uvLine_mono (K := K) (fl := rne) rne_mono rne_zero rne_halfv rne_one rne_two_eq
  refine ⟨_, hfp.trans hc, _, _, rfl, rfl, ((uvRect rne (stToIJ rne (uvToST rne sqrt u)) (stToIJ rne (uvToST rne sqrt v)) 1).expandedByMargin rne eps).containsPoint ⟨u, v⟩, ?_, ?_⟩
  · unfold Cell.containsPoint
    rw [faceXYZtoUV_of hp e, Option.bind_eq_bind, Option.bind_some]
  · exact contains_expanded he (hmono (by omega)) (hmono (by omega))

theorem in_bounds {a u m : K} (h64 : rne u = u) (h : a ≤ u + m) : rne (a - m) ≤ u := by
  rw [← h64]; exact rne_mono (by linarith)

theorem in_bounds' {a u m : K} (h64 : rne u = u) (h : u ≤ a + m) : u ≤ rne (a + m) := by
  rw [← h64]; exact rne_mono h

/-- **C96.** In `f64` arithmetic (rounding to nearest, ties to even) `Cell::from(p).contains_point(p)` is true for every point neither of
whose projected coordinates is between `-1/2` and `-1/3`. -/
theorem c96_contains {sqrt : K → K} (hs : IsSqrt sqrt) {p : Vec K} (hp : ¬ IsZero p) {f : Nat} {u v : K} (e : xyzToFaceUV rne p = some (f, u, v))
    (hu : u ≤ -1 / 2 ∨ -1 / 3 ≤ u) (hv : v ≤ -1 / 2 ∨ -1 / 3 ≤ v) :
    ∃ C, Cell.fromPoint rne sqrt p = some C ∧ C.containsPoint rne (1 / 2 ^ 52) p = some true := by
  obtain ⟨C, h1, i, j, hi, hj, b, h2, h3⟩ := leaf_cell (sqrt := sqrt) (eps := (1 / 2 ^ 52 : K)) (by positivity) hp e
  refine ⟨C, h1, ?_⟩
  obtain ⟨f', u', v', k1, k2, k3, k4, k5, k6⟩ := c60_range (fl := (rne : K → K)) rne_mono rne_one (by rw [rne_odd, rne_one]) hp
  rw [e] at k1
  simp only [Option.some.injEq, Prod.mk.injEq] at k1
  obtain ⟨rfl, rfl, rfl⟩ := k1
  obtain ⟨r1, r2⟩ := xyzToFaceUV_rounded e
  have ee : (1 / 2 ^ 52 : K) = 4 * eta K := by unfold eta; norm_num
  obtain ⟨_, _, _, a1, a2⟩ := leaf_lines hs r1 k3 k4 hi
  obtain ⟨_, _, _, b1, b2⟩ := leaf_lines hs r2 k5 k6 hj
  rw [h2, Option.some.injEq, h3, ee]
  exact ⟨in_bounds r1 (a1 hu), in_bounds' r1 a2, in_bounds r2 (b1 hv), in_bounds' r2 b2⟩

/-- **C96.** With a margin of `5/4` of `DBL_EPSILON` it would be true for all points. -/
theorem c96_margin {sqrt : K → K} (hs : IsSqrt sqrt) {eps : K} (he : 5 / 2 ^ 54 ≤ eps) {p : Vec K} (hp : ¬ IsZero p) :
    ∃ C, Cell.fromPoint rne sqrt p = some C ∧ C.containsPoint rne eps p = some true := by
  obtain ⟨f, u, v, e, k2, k3, k4, k5, k6⟩ := c60_range (fl := (rne : K → K)) rne_mono rne_one (by rw [rne_odd, rne_one]) hp
  have e0 := eta_pos (K := K)
  have ee : (5 / 2 ^ 54 : K) = 5 * eta K := by unfold eta; norm_num
  rw [ee] at he
  obtain ⟨C, h1, i, j, hi, hj, b, h2, h3⟩ := leaf_cell (sqrt := sqrt) (eps := eps) (by linarith) hp e
  refine ⟨C, h1, ?_⟩
  obtain ⟨r1, r2⟩ := xyzToFaceUV_rounded e
  obtain ⟨_, _, a0, _, a2⟩ := leaf_lines hs r1 k3 k4 hi
  obtain ⟨_, _, b0, _, b2⟩ := leaf_lines hs r2 k5 k6 hj
  rw [h2, Option.some.injEq, h3]
  exact ⟨in_bounds r1 (by linarith), in_bounds' r1 (by linarith), in_bounds r2 (by linarith), in_bounds' r2 (by linarith)⟩

/-! ## A point that is not in its leaf cell -/

theorem rne_eval {x : K} (m k : ℤ) (hk : -1074 ≤ k) (h0 : 2 ^ 52 < m) (h1 : m < 2 ^ 53) (h2 : |(m : K) - x / 2 ^ k| < 1 / 2) : rne x = m * 2 ^ k := by
  have hp := two_zpow_pos (K := K) k
  have m0 : ((2 ^ 52 + 1 : ℤ) : K) ≤ m := by exact_mod_cast h0
  have m1 : (m : K) ≤ ((2 ^ 53 - 1 : ℤ) : K) := by exact_mod_cast Int.le_sub_one_of_lt h1
  push_cast at m0 m1
  have h3 := abs_lt.1 h2
  have b1 : 2 ^ 52 ≤ x / 2 ^ k := by norm_num at *; linarith
  have b2 : x / 2 ^ k ≤ 2 ^ 53 := by norm_num at *; linarith
  rw [le_div_iff₀ hp] at b1
  rw [div_le_iff₀ hp] at b2
  have hx : 0 ≤ x := le_trans (by positivity) b1
  rw [rne_binade hk (by rw [abs_of_nonneg hx, two_zpow_add, mul_comm]; exact_mod_cast b1)
    (by rw [abs_of_nonneg hx, two_zpow_add, mul_comm]; exact_mod_cast b2), roundEven_eq h2]

theorem rne_eval_sqrt {sqrt : K → K} (hs : IsSqrt sqrt) {x : K} (hx : 0 ≤ x) (m k : ℤ) (hk : -1074 ≤ k) (h0 : 2 ^ 52 < m) (h1 : m < 2 ^ 53)
    (h2 : ((m - 1 / 2 : K) * 2 ^ k) * ((m - 1 / 2 : K) * 2 ^ k) < x) (h3 : x < ((m + 1 / 2 : K) * 2 ^ k) * ((m + 1 / 2 : K) * 2 ^ k)) :
    rne (sqrt x) = m * 2 ^ k := by
  have hp := two_zpow_pos (K := K) k
  obtain ⟨s0, s1⟩ := hs x hx
  have m0 : (0 : K) < m := by exact_mod_cast (by omega : 0 < m)
  apply rne_eval m k hk h0 h1
  have a1 : (m - 1 / 2 : K) * 2 ^ k < sqrt x := by
    by_contra h
    push Not at h
    have := mul_self_le_mul_self s0 h
    linarith
  have a2 : sqrt x < (m + 1 / 2 : K) * 2 ^ k := by
    by_contra h
    push Not at h
    have := mul_self_le_mul_self (by positivity) h
    linarith
  rw [← lt_div_iff₀ hp] at a1
  rw [← div_lt_iff₀ hp] at a2
  rw [abs_lt]
  constructor <;> linarith

/-- The `y` coordinate of the vector. -/
def missedY (K : Type) [Field K] : K := -8356872692090119 / 2 ^ 54

section missed
variable {sqrt : K → K} (hs : IsSqrt sqrt)
include hs

/-- The normalized vector. -/
theorem missed_normalize : (⟨1, missedY K, 0⟩ : Vec K).normalize rne sqrt = ⟨8170815019208390 / 2 ^ 53, -7580876027606642 / 2 ^ 54, 0⟩ := by
  have e1 : rne (missedY K * missedY K) = 7753500196528046 / 2 ^ 55 := by
    rw [rne_eval 7753500196528046 (-55)] <;> norm_num [missedY, abs_lt]
  have e2 : rne (1 + 7753500196528046 / 2 ^ 55 : K) = 5472787151936502 / 2 ^ 52 := by
    rw [rne_eval 5472787151936502 (-52)] <;> norm_num [abs_lt]
  have e3 : rne (5472787151936502 / 2 ^ 52 : K) = 5472787151936502 / 2 ^ 52 := by
    rw [rne_eval 5472787151936502 (-52)] <;> norm_num [abs_lt]
  have e4 : rne (sqrt (5472787151936502 / 2 ^ 52 : K)) = 4964598893983206 / 2 ^ 52 := by
    rw [rne_eval_sqrt hs (by norm_num) 4964598893983206 (-52)] <;> norm_num
  have e5 : rne (1 / (4964598893983206 / 2 ^ 52) : K) = 8170815019208390 / 2 ^ 53 := by
    rw [rne_eval 8170815019208390 (-53)] <;> norm_num [abs_lt]
  have e6 : rne (8170815019208390 / 2 ^ 53 : K) = 8170815019208390 / 2 ^ 53 := by
    rw [rne_eval 8170815019208390 (-53)] <;> norm_num [abs_lt]
  have e7 : rne (missedY K * (8170815019208390 / 2 ^ 53)) = -7580876027606642 / 2 ^ 54 := by
    rw [show missedY K * (8170815019208390 / 2 ^ 53) = -(8356872692090119 / 2 ^ 54 * (8170815019208390 / 2 ^ 53)) by unfold missedY; ring, rne_odd,
      rne_eval 7580876027606642 (-54)] <;> norm_num [abs_lt]
  have hn : (⟨1, missedY K, 0⟩ : Vec K).norm rne sqrt = 4964598893983206 / 2 ^ 52 := by
    unfold Vec.norm Vec.norm2 Vec.dot
    dsimp only
    rw [mul_one, rne_one, e1, e2, mul_zero, rne_zero, add_zero, e3, e4]
  unfold Vec.normalize
  rw [if_neg (by simp), hn, e5]
  unfold Vec.scale
  dsimp only
  rw [one_mul, e6, e7, zero_mul, rne_zero]

omit hs in
theorem missed_uv : xyzToFaceUV rne (⟨8170815019208390 / 2 ^ 53, -7580876027606642 / 2 ^ 54, 0⟩ : Vec K) = some (0, missedY K, 0) := by
  have hf : vecFace (⟨8170815019208390 / 2 ^ 53, -7580876027606642 / 2 ^ 54, 0⟩ : Vec K) = 0 :=
    (face_char _).1 (by norm_num [abs_lt]) (by norm_num)
  have e1 : rne (-7580876027606642 / 2 ^ 54 / (8170815019208390 / 2 ^ 53) : K) = missedY K := by
    rw [show (-7580876027606642 / 2 ^ 54 / (8170815019208390 / 2 ^ 53) : K) = -(7580876027606642 / 2 ^ 54 / (8170815019208390 / 2 ^ 53)) by ring, rne_odd,
      rne_eval 8356872692090119 (-54)] <;> norm_num [abs_lt, missedY]
  unfold xyzToFaceUV
  dsimp only
  rw [hf]
  unfold validFaceXYZtoUV
  dsimp only
  rw [e1, zero_div, rne_zero]
  rfl

/-- The leaf computed for the coordinate. -/
theorem missed_index : stToIJ rne (uvToST rne sqrt (missedY K)) = 243464602 := by
  have e1 : rne (3 * missedY K) = -6267654519067589 / 2 ^ 52 := by
    rw [show 3 * missedY K = -(3 * (8356872692090119 / 2 ^ 54)) by unfold missedY; ring, rne_odd, rne_eval 6267654519067589 (-52)] <;> norm_num [abs_lt]
  have e2 : rne (1 - -6267654519067589 / 2 ^ 52 : K) = 5385627073219042 / 2 ^ 51 := by
    rw [rne_binade (e := -51) (by norm_num) (by norm_num [abs_of_pos]) (by norm_num [abs_of_pos]),
      roundEven_tie_eq (n := 5385627073219042) (by norm_num) (by norm_num)]
    norm_num
  have e3 : rne (sqrt (5385627073219042 / 2 ^ 51 : K)) = 6964870146686976 / 2 ^ 52 := by
    rw [rne_eval_sqrt hs (by norm_num) 6964870146686976 (-52)] <;> norm_num
  have e4 : rne (1 / 2 * (6964870146686976 / 2 ^ 52) : K) = 6964870146686976 / 2 ^ 53 := by
    rw [rne_eval 6964870146686976 (-53)] <;> norm_num [abs_lt]
  have e5 : rne (1 - 6964870146686976 / 2 ^ 53 : K) = 243464602 / 2 ^ 30 := by
    rw [show (1 - 6964870146686976 / 2 ^ 53 : K) = 243464602 / 2 ^ 30 by norm_num]
    exact rne_exact (m := 243464602) (k := -30) (by norm_num) (by norm_num) (by norm_num)
  have e6 : rne (2 ^ 30 * (243464602 / 2 ^ 30) : K) = 243464602 := by
    rw [show (2 ^ 30 * (243464602 / 2 ^ 30) : K) = 243464602 by norm_num]
    exact rne_exact (m := 243464602) (k := 0) (by norm_num) (by norm_num) (by norm_num)
  have e7 : ⌊(243464602 : K)⌋ = 243464602 := by exact_mod_cast Int.floor_intCast (R := K) 243464602
  unfold stToIJ uvToST
  rw [if_neg (by norm_num [missedY]), e1, e2, e3, e4, e5, e6, e7]
  decide

omit hs in
theorem missed_line : uvLine rne 243464602 = (-8356872692090114 / 2 ^ 54 : K) := by
  obtain ⟨X, U, g, e⟩ := uvLine_neg (K := K) (i := 243464602) (by norm_num) (by norm_num)
  have hX : X = 5385627073219041 / 2 ^ 51 := by
    rw [g.eX, rne_eval 5385627073219041 (-51)] <;> norm_num [abs_lt]
  have hU : U = 8356872692090114 / 2 ^ 54 := by
    rw [g.u_eq, hX, rne_eval 8356872692090114 (-54)] <;> norm_num [abs_lt, eta]
  rw [e, hU]
  ring

/-- **C96.** The margin is too small: `Cell::from(p).contains_point(p)` is false for the point `p = Point::from_coords(1, y, 0)` with the
`f64` number `y = -8356872692090119 / 2^54`, about `-0.4638996238309833`, contrary to the comment in `contains_point`. -/
theorem c96_missed : IsF64 (missedY K) ∧ ∃ C, Cell.fromPoint rne sqrt ((⟨1, missedY K, 0⟩ : Vec K).normalize rne sqrt) = some C ∧
    C.containsPoint rne (1 / 2 ^ 52) ((⟨1, missedY K, 0⟩ : Vec K).normalize rne sqrt) = some false := by
  refine ⟨?_, ?_⟩
  · refine rne_exact (m := -8356872692090119) (k := -54) ?_ (by norm_num) (by norm_num)
    unfold missedY
    norm_num
  rw [missed_normalize hs]
  obtain ⟨C, h1, i, j, hi, hj, b, h2, h3⟩ := leaf_cell (sqrt := sqrt) (eps := (1 / 2 ^ 52 : K)) (by positivity)
    (p := (⟨8170815019208390 / 2 ^ 53, -7580876027606642 / 2 ^ 54, 0⟩ : Vec K)) (by norm_num [IsZero]) missed_uv
  refine ⟨C, h1, ?_⟩
  rw [h2, Option.some.injEq]
  by_contra hb
  have hb : b = true := by revert hb; cases b <;> simp
  have h4 := (h3.1 hb).1
  rw [hi, missed_index hs, missed_line] at h4
  have e : rne (-8356872692090114 / 2 ^ 54 - 1 / 2 ^ 52 : K) = -8356872692090118 / 2 ^ 54 := by
    rw [show (-8356872692090114 / 2 ^ 54 - 1 / 2 ^ 52 : K) = -(8356872692090118 / 2 ^ 54) by norm_num, rne_odd, rne_eval 8356872692090118 (-54)] <;>
      norm_num [abs_lt]
  rw [e] at h4
  unfold missedY at h4
  norm_num at h4

end missed

/-! ## Examples -/

example : ∃ C, Cell.fromPoint rne Real.sqrt (⟨1, 1 / 2, -3 / 4⟩ : Vec ℝ) = some C ∧ C.containsPoint rne (1 / 2 ^ 52) ⟨1, 1 / 2, -3 / 4⟩ = some true := by
  have hf : vecFace (⟨1, 1 / 2, -3 / 4⟩ : Vec ℝ) = 0 := (face_char _).1 (by norm_num [abs_lt]) (by norm_num [abs_lt])
  have e1 : rne (1 / 2 / 1 : ℝ) = 1 / 2 := by rw [div_one]; exact rne_halfv
  have e2 : rne (-3 / 4 / 1 : ℝ) = -3 / 4 := by rw [div_one]; exact rne_exact (m := -3) (k := -2) (by norm_num) (by norm_num) (by norm_num)
  refine c96_contains isSqrt_real (by norm_num [IsZero]) (f := 0) (u := 1 / 2) (v := -3 / 4) ?_ (by norm_num) (by norm_num)
  unfold xyzToFaceUV
  dsimp only
  rw [hf]
  unfold validFaceXYZtoUV
  dsimp only
  rw [e1, e2]
  rfl

example : ∃ C, Cell.fromPoint rne Real.sqrt (⟨3, -1, 2⟩ : Vec ℝ) = some C ∧ C.containsPoint rne (2 * (1 / 2 ^ 52)) ⟨3, -1, 2⟩ = some true :=
  c96_margin isSqrt_real (by norm_num) (by norm_num [IsZero])

end Verif
