import Verif.Properties.CapUnion
import Verif.Properties.Expand

/-!
# Cells of points that are close to each other touch
-/

namespace Verif
open Spec CellID

theorem half_line {i0 i1 n N i : Int} (hn : 0 < n) (hN : N = 2 * n) (d0 : N ∣ i0) (d1 : n ∣ i1) (a1 : i0 ≤ i) (a2 : i < i0 + N) (b1 : i1 ≤ i) (b2 : i < i1 + n) :
    ∃ a c, (a = 0 ∨ a = N) ∧ (c = 0 ∨ c = n) ∧ i1 + c = i0 + a ∧
      ∀ a', (a' = 0 ∨ a' = N) → ∃ m, (m = 0 ∨ m = n) ∧ 2 * (i1 + m) = (i0 + a) + (i0 + a') := by
  obtain ⟨x, rfl⟩ := d1
  obtain ⟨y, rfl⟩ := d0
  subst hN
  have h1 : 2 * y < x + 1 := by
    refine lt_of_mul_lt_mul_left (a := n) ?_ hn.le
    linarith
  have h2 : x < 2 * y + 2 := by
    refine lt_of_mul_lt_mul_left (a := n) ?_ hn.le
    linarith
  obtain rfl | rfl : x = 2 * y ∨ x = 2 * y + 1 := by omega
  · refine ⟨0, 0, Or.inl rfl, Or.inl rfl, by ring, ?_⟩
    rintro a' (rfl | rfl)
    · exact ⟨0, Or.inl rfl, by ring⟩
    · exact ⟨n, Or.inr rfl, by ring⟩
  · refine ⟨2 * n, n, Or.inr rfl, Or.inr rfl, by ring, ?_⟩
    rintro a' (rfl | rfl)
    · exact ⟨0, Or.inl rfl, by ring⟩
    · exact ⟨n, Or.inr rfl, by ring⟩

theorem cubePt_mid {f : Nat} (hf : f < 6) {x y a b a' b' : Int} (h1 : 2 * x = a + a') (h2 : 2 * y = b + b') :
    2 * (cubePt f x y).x = (cubePt f a b).x + (cubePt f a' b').x ∧ 2 * (cubePt f x y).y = (cubePt f a b).y + (cubePt f a' b').y ∧
      2 * (cubePt f x y).z = (cubePt f a b).z + (cubePt f a' b').z := by
  interval_cases f <;> simp only [cubePt] <;> refine ⟨?_, ?_, ?_⟩ <;> omega

/-- The corner that a cell shares with its parent; the midpoint of it and of any other corner of the parent is a corner of the cell. -/
theorem corner_choice {l A B : CellID} {L : Nat} (hl : Valid l) (h30 : l.level = some 30) (hL : L + 1 ≤ 30) (hA : l.parent L = some A)
    (hB : l.parent (L + 1) = some B) {f o : Nat} {i j : Int} (hij : l.faceIJOrientation = some (f, i, j, o)) :
    ∃ P, IsCorner A P ∧ IsCorner B P ∧ MeshPt ((2 ^ (30 - L) : Nat) : Int) P ∧
      ∀ Q, IsCorner A Q → ∃ M, IsCorner B M ∧ 2 * M.x = P.x + Q.x ∧ 2 * M.y = P.y + Q.y ∧ 2 * M.z = P.z + Q.z := by
  obtain ⟨B', i1, j1, n, hn, hB', -, -, -, hf, n0, ns, sqB, ni, nj, a1, a2, a3, a4⟩ := parent_setting hl h30 hL hij
  obtain ⟨A', i0, j0, N, hN, hA', -, -, -, -, N0, Ns, sqA, Ni, Nj, b1, b2, b3, b4⟩ := parent_setting hl h30 (show L ≤ 30 by omega) hij
  rw [hB] at hB'
  obtain rfl := Option.some.inj hB'
  rw [hA] at hA'
  obtain rfl := Option.some.inj hA'
  have hNn : N = 2 * n := by
    rw [hN, hn, show 30 - L = (30 - (L + 1)) + 1 by omega, pow_succ]
    push_cast
    ring
  obtain ⟨a, c, ha, hc, e, ka⟩ := half_line n0 hNn Ni ni b1 b2 a1 a2
  obtain ⟨b, d, hb, hd, e', kb⟩ := half_line n0 hNn Nj nj b3 b4 a3 a4
  rw [← hN]
  have w1 := sqA.i_lo
  have w2 := sqA.i_hi
  have w3 := sqA.j_lo
  have w4 := sqA.j_hi
  refine ⟨cubePt f (i0 + a) (j0 + b), ⟨f, i0, j0, N, a, b, sqA, ha, hb, rfl⟩, ⟨f, i1, j1, n, c, d, sqB, hc, hd, by rw [e, e']⟩, ?_, ?_⟩
  · refine meshPt_of Ns ?_ ?_ ?_ ?_ ?_ ?_
    · rcases ha with rfl | rfl <;> omega
    · rcases ha with rfl | rfl <;> omega
    · rcases hb with rfl | rfl <;> omega
    · rcases hb with rfl | rfl <;> omega
    · rcases ha with rfl | rfl
      · simpa using Ni
      · exact dvd_add Ni dvd_rfl
    · rcases hb with rfl | rfl
      · simpa using Nj
      · exact dvd_add Nj dvd_rfl
  · rintro Q ⟨f', i', j', s, a', b', sq', ha', hb', rfl⟩
    obtain ⟨rfl, rfl, rfl, rfl⟩ := square_unique sqA sq'
    obtain ⟨m, hm, em⟩ := ka a' ha'
    obtain ⟨m', hm', em'⟩ := kb b' hb'
    exact ⟨cubePt f' (i1 + m) (j1 + m'), ⟨f', i1, j1, n, m, m', sqB, hm, hm', rfl⟩, cubePt_mid hf em em'⟩

theorem corner_onCell {c : CellID} {P : Pt} (h : IsCorner c P) : OnCell c P := by
  obtain ⟨f, i0, j0, s, a, b, sq, ha, hb, e⟩ := h
  have := sq.pos
  refine ⟨f, i0, j0, s, a, b, sq, ?_, ?_, ?_, ?_, e⟩ <;> [rcases ha with rfl | rfl; rcases ha with rfl | rfl; rcases hb with rfl | rfl; rcases hb with rfl | rfl] <;> omega

/-- A point closer than the least width of the cells of a level is in a cell of this level that touches. -/
theorem near_touch {p q : Vec ℝ} (hp : UnitV p) (hq : UnitV q) {l m A X : CellID} (hl : fromPoint _root_.id Real.sqrt p = some l)
    (hm : fromPoint _root_.id Real.sqrt q = some m) {L : Nat} (hL : L + 1 ≤ 30) (hA : l.parent (L + 1) = some A) (hX : m.parent (L + 1) = some X)
    (hd : ang p q ≤ (minWidthMetric (_root_.id : ℝ → ℝ) (Real.sqrt 2)).value (L + 1)) : Touch A X := by
  obtain ⟨l', f, u, v, t, i, j, o, e1, e2, e3, e4, -⟩ := point_lines hp
  rw [hl] at e1
  obtain rfl := Option.some.inj e1
  obtain ⟨m', f', u', v', t', i', j', o', g1, g2, g3, g4, -⟩ := point_lines hq
  rw [hm] at g1
  obtain rfl := Option.some.inj g1
  obtain ⟨A', hA', -⟩ := c05_parent e2 e3 (show L ≤ 30 by omega)
  obtain ⟨X', hX', -⟩ := c05_parent g2 g3 (show L ≤ 30 by omega)
  obtain ⟨P, p1, p2, p3, p4⟩ := corner_choice e2 e3 hL hA' hA e4
  obtain ⟨Q, q1, q2, q3, q4⟩ := corner_choice g2 g3 hL hX' hX g4
  rw [width_value hL] at hd
  obtain ⟨N, hN⟩ : ∃ N : Int, N = ((2 ^ (30 - L) : Nat) : Int) := ⟨_, rfl⟩
  rw [← hN] at hd p3 q3
  have hN0 : 0 < N := by rw [hN]; positivity
  have hN1 : (N : ℝ) ≤ 2 ^ 30 := by
    rw [hN, Int.cast_natCast, Nat.cast_pow, Nat.cast_ofNat]
    exact pow_le_pow_right₀ (by norm_num) (by omega)
  have hH : 0 < 2 * ((N : ℝ) / 2 ^ 30) := by
    have : (0 : ℝ) < N := by exact_mod_cast hN0
    positivity
  have hH2 : 2 * ((N : ℝ) / 2 ^ 30) ≤ 2 := by
    have : (N : ℝ) / 2 ^ 30 ≤ 1 := (div_le_one (by positivity)).2 hN1
    linarith
  have hcos : Real.cos (widthOf (2 * ((N : ℝ) / 2 ^ 30))) ≤ dot p q := by
    rw [← cos_ang hp hq]
    exact Real.cos_le_cos_of_nonneg_of_le_pi (ang_nonneg _ _) ((widthOf_le hH hH2).trans (by linarith [Real.pi_gt_three])) hd
  obtain ⟨X1, r1, -, -, -, r2⟩ := reach_corner hq hm (show L ≤ 30 by omega) hN p3 (near_corner hp hq hl hL hA hA' p1 p2 hN hcos)
  obtain ⟨A1, s1, -, -, -, s2⟩ := reach_corner hp hl (show L ≤ 30 by omega) hN q3 (near_corner hq hp hm hL hX hX' q1 q2 hN (by rw [dot_comm]; exact hcos))
  rw [hX'] at r1
  obtain rfl := Option.some.inj r1
  rw [hA'] at s1
  obtain rfl := Option.some.inj s1
  obtain ⟨M, m1, m2, m3, m4⟩ := p4 Q s2
  obtain ⟨M', n1, n2, n3, n4⟩ := q4 P r2
  have : M = M' := by
    obtain ⟨x, y, z⟩ := M
    obtain ⟨x', y', z'⟩ := M'
    simp only [Pt.mk.injEq] at *
    refine ⟨?_, ?_, ?_⟩ <;> omega
  exact ⟨M, corner_onCell m1, this ▸ corner_onCell n1⟩

end Verif
