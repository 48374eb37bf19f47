import Verif.Proofs.CapUnion
import Verif.Properties.PointCell
import Verif.Properties.VertexNeighbors

/-!
# Points within the width of a level of a point, and the cells at the nearest grid point
-/

namespace Verif
open Spec CellID

/-- The coordinates of a vector in the frame of a face: normal, `u`, `v`. -/
def loc (f : Nat) (p : Vec ℝ) : Vec ℝ :=
  match f with
  | 0 => ⟨p.x, p.y, p.z⟩
  | 1 => ⟨p.y, -p.x, p.z⟩
  | 2 => ⟨p.z, -p.x, -p.y⟩
  | 3 => ⟨-p.x, -p.z, -p.y⟩
  | 4 => ⟨-p.y, -p.z, p.x⟩
  | _ => ⟨-p.z, p.y, p.x⟩

theorem loc_dot {f : Nat} (hf : f < 6) (p q : Vec ℝ) : dot (loc f p) (loc f q) = dot p q := by
  interval_cases f <;> simp only [loc, dot] <;> ring

theorem loc_smul {f : Nat} (hf : f < 6) {u v t : ℝ} {w : Vec ℝ} (h : faceUVtoXYZ f u v = some w) : loc f (smul t w) = ⟨t, t * u, t * v⟩ := by
  interval_cases f <;> obtain rfl := Option.some.inj h <;> simp only [loc, smul] <;> simp

theorem nr_neg' {P H m q : ℝ} (h : Nr (-P) H m (-q)) : Nr P H m q := by
  have := h.neg
  rwa [neg_neg, neg_neg] at this

theorem reach_global {f : Nat} (hf : f < 6) {H : ℝ} {P q : Vec ℝ} (h : Reach H (loc f P) (loc f q)) : Reach H P q := by
  intro m mx my mz hm
  interval_cases f
  · exact h m mx my mz hm
  · obtain ⟨a, b, c, d, e, g⟩ := h m my ((abs_neg _).trans_le mx) mz (by simp only [loc]; grind)
    simp only [loc] at a b c d e g
    exact ⟨nr_neg' b, a, c, by grind, d, g⟩
  · obtain ⟨a, b, c, d, e, g⟩ := h m mz ((abs_neg _).trans_le mx) ((abs_neg _).trans_le my) (by simp only [loc]; grind)
    simp only [loc] at a b c d e g
    exact ⟨nr_neg' b, nr_neg' c, a, by grind, by grind, d⟩
  · obtain ⟨a, b, c, d, e, g⟩ := h m ((abs_neg _).trans_le mx) ((abs_neg _).trans_le mz) ((abs_neg _).trans_le my) (by simp only [loc]; grind)
    simp only [loc] at a b c d e g
    exact ⟨nr_neg' a, nr_neg' c, nr_neg' b, by grind, by grind, by grind⟩
  · obtain ⟨a, b, c, d, e, g⟩ := h m ((abs_neg _).trans_le my) ((abs_neg _).trans_le mz) mx (by simp only [loc]; grind)
    simp only [loc] at a b c d e g
    exact ⟨c, nr_neg' a, nr_neg' b, by grind, by grind, by grind⟩
  · obtain ⟨a, b, c, d, e, g⟩ := h m ((abs_neg _).trans_le mz) my mx (by simp only [loc]; grind)
    simp only [loc] at a b c d e g
    exact ⟨c, b, nr_neg' a, by grind, by grind, by grind⟩

/-- In the frame of the face of `q`. -/
theorem reach_local {f : Nat} (hf : f < 6) {H : ℝ} {P q : Vec ℝ} (h : Reach H P q) {t u v : ℝ} (ht : 0 < t) (hl : loc f q = ⟨t, t * u, t * v⟩)
    (hu : |u| ≤ 1) (hv : |v| ≤ 1) : (loc f P).x = 1 ∧ Nr (loc f P).y H t (t * u) ∧ Nr (loc f P).z H t (t * v) := by
  have tu : |t * u| ≤ t := by rw [abs_mul, abs_of_pos ht]; nlinarith
  have tv : |t * v| ≤ t := by rw [abs_mul, abs_of_pos ht]; nlinarith
  have tt : |t| ≤ t := (abs_of_pos ht).le
  have key : ∀ a b c : ℝ, (q.x = a ∨ q.x = -a) → (q.y = b ∨ q.y = -b) → (q.z = c ∨ q.z = -c) → |a| ≤ t → |b| ≤ t → |c| ≤ t → a = t ∨ b = t ∨ c = t →
      Nr P.x H t q.x ∧ Nr P.y H t q.y ∧ Nr P.z H t q.z ∧ ((q.x = t → P.x = 1) ∧ (q.x = -t → P.x = -1)) ∧
      ((q.y = t → P.y = 1) ∧ (q.y = -t → P.y = -1)) ∧ (q.z = t → P.z = 1) ∧ (q.z = -t → P.z = -1) := by
    intro a b c e1 e2 e3 h1 h2 h3 h4
    apply h t
    · rcases e1 with e | e <;> rw [e] <;> simpa using h1
    · rcases e2 with e | e <;> rw [e] <;> simpa using h2
    · rcases e3 with e | e <;> rw [e] <;> simpa using h3
    · grind
  interval_cases f <;> simp only [loc, Vec.mk.injEq] at hl <;> obtain ⟨l1, l2, l3⟩ := hl
  · obtain ⟨a, b, c, d, e, g⟩ := key t (t * u) (t * v) (Or.inl l1) (Or.inl l2) (Or.inl l3) tt tu tv (Or.inl rfl)
    rw [l2] at b
    rw [l3] at c
    exact ⟨d.1 l1, b, c⟩
  · obtain ⟨a, b, c, d, e, g⟩ := key (t * u) t (t * v) (Or.inr (by linarith)) (Or.inl l1) (Or.inl l3) tu tt tv (Or.inr (Or.inl rfl))
    have a' := a.neg
    rw [l2] at a'
    rw [l3] at c
    exact ⟨e.1 l1, a', c⟩
  · obtain ⟨a, b, c, d, e, g⟩ := key (t * u) (t * v) t (Or.inr (by linarith)) (Or.inr (by linarith)) (Or.inl l1) tu tv tt (Or.inr (Or.inr rfl))
    have a' := a.neg
    rw [l2] at a'
    have b' := b.neg
    rw [l3] at b'
    exact ⟨g.1 l1, a', b'⟩
  · obtain ⟨a, b, c, d, e, g⟩ := key t (t * v) (t * u) (Or.inr (by linarith)) (Or.inr (by linarith)) (Or.inr (by linarith)) tt tv tu (Or.inl rfl)
    have c' := c.neg
    rw [l2] at c'
    have b' := b.neg
    rw [l3] at b'
    have := d.2 (by linarith)
    exact ⟨by simp only [loc]; linarith, c', b'⟩
  · obtain ⟨a, b, c, d, e, g⟩ := key (t * v) t (t * u) (Or.inl (by linarith)) (Or.inr (by linarith)) (Or.inr (by linarith)) tv tt tu (Or.inr (Or.inl rfl))
    have c' := c.neg
    rw [l2] at c'
    rw [l3] at a
    have := e.2 (by linarith)
    exact ⟨by simp only [loc]; linarith, c', a⟩
  · obtain ⟨a, b, c, d, e, g⟩ := key (t * v) (t * u) t (Or.inl (by linarith)) (Or.inl (by linarith)) (Or.inr (by linarith)) tv tu tt (Or.inr (Or.inr rfl))
    rw [l2] at b
    rw [l3] at a
    have := g.2 (by linarith)
    exact ⟨by simp only [loc]; linarith, b, a⟩

/-- A grid point as a real vector. -/
noncomputable def ptR (P : Pt) : Vec ℝ := ⟨(P.x : ℝ) / 2 ^ 30, (P.y : ℝ) / 2 ^ 30, (P.z : ℝ) / 2 ^ 30⟩

/-- The grid line `a` of a face. -/
noncomputable def grd (a : Int) : ℝ := 2 * ((a : ℝ) / 2 ^ 30) - 1

theorem ptR_loc {f : Nat} (hf : f < 6) (a b : Int) : loc f (ptR (cubePt f a b)) = ⟨1, grd a, grd b⟩ := by
  interval_cases f <;> simp only [loc, ptR, cubePt, grd, side, Vec.mk.injEq] <;> push_cast <;> refine ⟨?_, ?_, ?_⟩ <;> ring

/-- The leaf of a point, its face and its grid lines. -/
theorem point_lines {p : Vec ℝ} (hp : UnitV p) : ∃ l f u v t i j o, fromPoint _root_.id Real.sqrt p = some l ∧ Valid l ∧ l.level = some 30 ∧
    l.faceIJOrientation = some (f, i, j, o) ∧ f < 6 ∧ 0 < t ∧ loc f p = ⟨t, t * u, t * v⟩ ∧ |u| ≤ 1 ∧ |v| ≤ 1 ∧
    (gUV (grd i) ≤ u ∧ u ≤ gUV (grd (i + 1))) ∧ gUV (grd j) ≤ v ∧ v ≤ gUV (grd (j + 1)) := by
  have h : ¬ (p.x = 0 ∧ p.y = 0 ∧ p.z = 0) := by
    rintro ⟨h1, h2, h3⟩
    have : p.x * p.x + p.y * p.y + p.z * p.z = 1 := hp
    rw [h1, h2, h3] at this
    norm_num at this
  obtain ⟨l, u, v, h1, h2, h3, h4, h5, o, h6⟩ := c61_total _root_.id Real.sqrt h
  obtain ⟨f', u', v', g1, g2, g3, g4, g5, g6⟩ := c60_range (fl := (_root_.id : ℝ → ℝ)) monotone_id rfl rfl h
  rw [h5] at g1
  simp only [Option.some.injEq, Prod.mk.injEq] at g1
  obtain ⟨rfl, rfl, rfl⟩ := g1
  obtain ⟨f', u', v', w, t, k1, k2, k3, k4⟩ := c60_projection h
  rw [h5] at k1
  simp only [Option.some.injEq, Prod.mk.injEq] at k1
  obtain ⟨rfl, rfl, rfl⟩ := k1
  have key : ∀ x : ℝ, -1 ≤ x → x ≤ 1 → gUV (grd (stToIJ _root_.id (uvToST _root_.id Real.sqrt x))) ≤ x ∧
      x ≤ gUV (grd (stToIJ _root_.id (uvToST _root_.id Real.sqrt x) + 1)) := by
    intro x hx0 hx1
    have hr := uvToST_range isSqrt_real hx0 hx1
    have hi := stToIJ_exact hr.1 hr.2
    have hm := (c59_stToUV_strictMono (K := ℝ)).monotone
    have e := c59_stToUV_uvToST isSqrt_real x
    have r1 := (hm hi.1).trans e.le
    have r2 := e.symm.le.trans (hm hi.2)
    rw [gUV_stToUV] at r1 r2
    exact ⟨r1, r2⟩
  refine ⟨l, vecFace p, u, v, t, _, _, o, h1, h2, h3, h6, g2, k3, ?_, abs_le.2 ⟨g3, g4⟩, abs_le.2 ⟨g5, g6⟩, key u g3 g4, key v g5 g6⟩
  have e := loc_smul (t := t) g2 k2
  rwa [← k4] at e

theorem grd_le {a b : Int} : grd a ≤ grd b ↔ a ≤ b := by
  unfold grd
  constructor
  · intro h
    have : (a : ℝ) ≤ b := by
      have h' : (a : ℝ) / 2 ^ 30 ≤ (b : ℝ) / 2 ^ 30 := by linarith
      exact (div_le_div_iff_of_pos_right (by positivity)).1 h'
    exact_mod_cast this
  · intro h
    have : (a : ℝ) ≤ b := by exact_mod_cast h
    have := (div_le_div_iff_of_pos_right (c := (2 : ℝ) ^ 30) (by positivity)).2 this
    linarith

theorem grd_add (a n : Int) : grd (a + n) = grd a + 2 * ((n : ℝ) / 2 ^ 30) := by unfold grd; push_cast; ring
theorem grd_sub (a n : Int) : grd (a - n) = grd a - 2 * ((n : ℝ) / 2 ^ 30) := by unfold grd; push_cast; ring
theorem grd_zero : grd 0 = -1 := by unfold grd; norm_num
theorem grd_side : grd side = 1 := by unfold grd side; norm_num

theorem grid_of {a n : Int} (hn : 0 < n) (h0 : 0 ≤ a) (h1 : a ≤ side) (hd : n ∣ a) (hs : n ∣ side) : Grid (2 * ((n : ℝ) / 2 ^ 30)) (grd a) := by
  refine ⟨?_, ?_, ?_, ?_⟩
  · rw [← grd_zero, grd_le]; exact h0
  · rw [← grd_side, grd_le]; exact h1
  · rw [← grd_add, ← grd_side, grd_le]
    rcases eq_or_lt_of_le h1 with h | h
    · left; rw [h]
    · right
      obtain ⟨k, rfl⟩ := hd
      obtain ⟨s, hs⟩ := hs
      rw [hs] at h ⊢
      have : k < s := by
        by_contra hk
        have := mul_le_mul_of_nonneg_left (not_lt.1 hk) hn.le
        omega
      have := mul_le_mul_of_nonneg_left (show k + 1 ≤ s by omega) hn.le
      rw [mul_add, mul_one] at this
      exact this
  · rw [← grd_sub, ← grd_zero, grd_le]
    rcases eq_or_lt_of_le h0 with h | h
    · left; rw [← h]
    · right
      have := Int.le_of_dvd h hd
      omega

theorem mesh_cases {l : Nat} (hl : l < 30) {N : Int} (hN : N = ((2 ^ (30 - l) : Nat) : Int)) :
    0 < 2 * ((N : ℝ) / 2 ^ 30) ∧ (2 * ((N : ℝ) / 2 ^ 30) ≤ 1 ∨ 2 * ((N : ℝ) / 2 ^ 30) = 2) := by
  subst hN
  interval_cases l <;> norm_num

/-- The points within the width of mesh `N` of a point `c` are close to the grid point `P`, when `P` is a corner of the square `B` of `c`
of half the mesh. -/
theorem near_corner {c q : Vec ℝ} (uc : UnitV c) (uq : UnitV q) {l B : CellID} (hl : fromPoint _root_.id Real.sqrt c = some l) {L : Nat} (hL : L + 1 ≤ 30)
    (hB : l.parent (L + 1) = some B) {A : CellID} (hA : l.parent L = some A) {P : Pt} (cA : IsCorner A P) (cB : IsCorner B P) {N : Int} (hN : N = ((2 ^ (30 - L) : Nat) : Int))
    (hd : Real.cos (widthOf (2 * ((N : ℝ) / 2 ^ 30))) ≤ dot c q) : Reach (2 * ((N : ℝ) / 2 ^ 30)) (ptR P) q := by
  obtain ⟨l', f, u, v, t, i, j, o, e1, e2, e3, e4, hf, ht, e5, hu, hv, ⟨u1, u2⟩, v1, v2⟩ := point_lines uc
  rw [hl] at e1
  obtain rfl := Option.some.inj e1
  obtain ⟨B', i1, j1, n, hn, hB', -, -, -, -, n0, ns, sqB, ni, nj, a1, a2, a3, a4⟩ := parent_setting e2 e3 hL e4
  obtain ⟨A', i0, j0, N', hN', hA', -, -, -, -, N0, Ns, sqA, Ni, Nj, b1, b2, b3, b4⟩ := parent_setting e2 e3 (show L ≤ 30 by omega) e4
  rw [hB] at hB'
  obtain rfl := Option.some.inj hB'
  rw [hA] at hA'
  obtain rfl := Option.some.inj hA'
  rw [← hN] at hN'
  obtain rfl := hN'
  have hNn : N' = 2 * n := by
    rw [hN, hn]
    have : 30 - L = (30 - (L + 1)) + 1 := by omega
    rw [this, Nat.pow_succ]
    push_cast
    ring
  obtain ⟨f1, x1, y1, s1, p1, p2, q1, q2, q3, rfl⟩ := cA
  obtain ⟨rfl, rfl, rfl, rfl⟩ := square_unique q1 sqA
  obtain ⟨f2, x2, y2, s2, r1, r2, w1, w2, w3, w4⟩ := cB
  obtain ⟨rfl, rfl, rfl, rfl⟩ := square_unique w1 sqB
  obtain ⟨e6, e7⟩ := cubePt_inj w4
  obtain ⟨m0, m1⟩ := mesh_cases (show L < 30 by omega) hN
  have g1 : Grid (2 * ((N' : ℝ) / 2 ^ 30)) (grd (i0 + p1)) := by
    refine grid_of N0 ?_ ?_ ?_ Ns
    · have := sqA.i_lo; omega
    · have := sqA.i_hi; omega
    · rcases q2 with rfl | rfl
      · simpa using Ni
      · exact dvd_add Ni dvd_rfl
  have g2 : Grid (2 * ((N' : ℝ) / 2 ^ 30)) (grd (j0 + p2)) := by
    refine grid_of N0 ?_ ?_ ?_ Ns
    · have := sqA.j_lo; omega
    · have := sqA.j_hi; omega
    · rcases q3 with rfl | rfl
      · simpa using Nj
      · exact dvd_add Nj dvd_rfl
  have hh : 2 * ((N' : ℝ) / 2 ^ 30) / 2 = 2 * ((n : ℝ) / 2 ^ 30) := by rw [hNn]; push_cast; ring
  apply reach_global hf
  apply core_reach (c := loc f c) m0 m1 (by unfold UnitV; rw [loc_dot hf]; exact uc) (by unfold UnitV; rw [loc_dot hf]; exact uq)
  · rw [e5]; exact ht
  · rw [e5]
    show |t * u| ≤ t
    rw [abs_mul, abs_of_pos ht]; nlinarith
  · rw [e5]
    show |t * v| ≤ t
    rw [abs_mul, abs_of_pos ht]; nlinarith
  · rw [loc_dot hf]; exact hd
  · rw [ptR_loc hf]
  · rw [ptR_loc hf]; exact g1
  · rw [ptR_loc hf]; exact g2
  · rw [ptR_loc hf, e5]
    show InStrip (grd (i0 + p1)) _ t (t * u)
    unfold InStrip
    rw [hh, ← grd_add, ← grd_sub, mul_comm _ t, mul_comm _ t]
    constructor
    · exact mul_le_mul_of_nonneg_left ((gUV_mono.monotone (grd_le.2 (by omega))).trans u1) ht.le
    · exact mul_le_mul_of_nonneg_left (u2.trans (gUV_mono.monotone (grd_le.2 (by omega)))) ht.le
  · rw [ptR_loc hf, e5]
    show InStrip (grd (j0 + p2)) _ t (t * v)
    unfold InStrip
    rw [hh, ← grd_add, ← grd_sub, mul_comm _ t, mul_comm _ t]
    constructor
    · exact mul_le_mul_of_nonneg_left ((gUV_mono.monotone (grd_le.2 (by omega))).trans v1) ht.le
    · exact mul_le_mul_of_nonneg_left (v2.trans (gUV_mono.monotone (grd_le.2 (by omega)))) ht.le

/-- A grid point with the mesh `N`. -/
def MeshPt (N : Int) (P : Pt) : Prop :=
  (-side ≤ P.x ∧ P.x ≤ side ∧ 2 * N ∣ P.x + side) ∧ (-side ≤ P.y ∧ P.y ≤ side ∧ 2 * N ∣ P.y + side) ∧ -side ≤ P.z ∧ P.z ≤ side ∧ 2 * N ∣ P.z + side

theorem meshPt_of {N : Int} (hs : N ∣ side) {f : Nat} {a b : Int} (a0 : 0 ≤ a) (a1 : a ≤ side) (b0 : 0 ≤ b) (b1 : b ≤ side)
    (ha : N ∣ a) (hb : N ∣ b) : MeshPt N (cubePt f a b) := by
  have k : ∀ x, 0 ≤ x → x ≤ side → N ∣ x → (-side ≤ 2 * x - side ∧ 2 * x - side ≤ side ∧ 2 * N ∣ 2 * x - side + side) ∧
      (-side ≤ -(2 * x - side) ∧ -(2 * x - side) ≤ side ∧ 2 * N ∣ -(2 * x - side) + side) := by
    intro x x0 x1 hx
    refine ⟨⟨by omega, by omega, ?_⟩, by omega, by omega, ?_⟩
    · rw [show 2 * x - side + side = 2 * x by ring]; exact mul_dvd_mul_left 2 hx
    · rw [show -(2 * x - side) + side = 2 * (side - x) by ring]; exact mul_dvd_mul_left 2 (dvd_sub hs hx)
  have k1 : -side ≤ side ∧ side ≤ side ∧ 2 * N ∣ side + side := ⟨by decide, le_rfl, by rw [← two_mul]; exact mul_dvd_mul_left 2 hs⟩
  have k2 : -side ≤ -side ∧ -side ≤ side ∧ 2 * N ∣ -side + side := ⟨le_rfl, by decide, by simp⟩
  obtain ⟨ka, ka'⟩ := k a a0 a1 ha
  obtain ⟨kb, kb'⟩ := k b b0 b1 hb
  unfold MeshPt cubePt
  split <;> dsimp only
  · exact ⟨k1, ka, kb⟩
  · exact ⟨ka', k1, kb⟩
  · exact ⟨ka', kb', k1⟩
  · exact ⟨k2, kb', ka'⟩
  · exact ⟨kb, k2, ka'⟩
  · exact ⟨kb, ka, k2⟩

/-- A grid point on a face has coordinates there. -/
theorem meshPt_face {N : Int} {P : Pt} (h : MeshPt N P) (hs : N ∣ side) {f : Nat} (hf : f < 6) (hx : (loc f (ptR P)).x = 1) :
    ∃ a b, P = cubePt f a b ∧ N ∣ a ∧ N ∣ b ∧ 0 ≤ a ∧ a ≤ side ∧ 0 ≤ b ∧ b ≤ side := by
  obtain ⟨X, Y, Z⟩ := P
  have k : ∀ x : Int, (-side ≤ x ∧ x ≤ side ∧ 2 * N ∣ x + side) → (∃ a, x = 2 * a - side ∧ N ∣ a ∧ 0 ≤ a ∧ a ≤ side) ∧ ∃ a, x = -(2 * a - side) ∧ N ∣ a ∧ 0 ≤ a ∧ a ≤ side := by
    intro x ⟨x0, x1, y, hy⟩
    have e : x = 2 * (N * y) - side := by linarith
    refine ⟨⟨N * y, e, dvd_mul_right _ _, by omega, by omega⟩, side - N * y, by rw [e]; ring, dvd_sub hs (dvd_mul_right _ _), by omega, by omega⟩
  have one : ∀ x : Int, (x : ℝ) / 2 ^ 30 = 1 → x = side := by
    intro x hx
    rw [div_eq_one_iff_eq (by positivity)] at hx
    have : (x : ℝ) = ((side : Int) : ℝ) := by rw [hx]; unfold side; norm_num
    exact_mod_cast this
  have mone : ∀ x : Int, -((x : ℝ) / 2 ^ 30) = 1 → x = -side := by
    intro x hx
    have := one (-x) (by push_cast; linarith)
    omega
  obtain ⟨hX, hY, hZ⟩ := h
  obtain ⟨⟨a1, A1⟩, ⟨a2, A2⟩⟩ := k _ hX
  obtain ⟨⟨b1, B1⟩, ⟨b2, B2⟩⟩ := k _ hY
  obtain ⟨⟨c1, C1⟩, ⟨c2, C2⟩⟩ := k _ hZ
  dsimp only at A1 A2 B1 B2 C1 C2
  interval_cases f <;> simp only [loc, ptR] at hx <;> simp only [cubePt, Pt.mk.injEq]
  · exact ⟨b1, c1, ⟨one _ hx, B1.1, C1.1⟩, B1.2.1, C1.2.1, B1.2.2.1, B1.2.2.2, C1.2.2⟩
  · exact ⟨a2, c1, ⟨A2.1, one _ hx, C1.1⟩, A2.2.1, C1.2.1, A2.2.2.1, A2.2.2.2, C1.2.2⟩
  · exact ⟨a2, b2, ⟨A2.1, B2.1, one _ hx⟩, A2.2.1, B2.2.1, A2.2.2.1, A2.2.2.2, B2.2.2⟩
  · exact ⟨c2, b2, ⟨mone _ hx, B2.1, C2.1⟩, C2.2.1, B2.2.1, C2.2.2.1, C2.2.2.2, B2.2.2⟩
  · exact ⟨c2, a1, ⟨A1.1, mone _ hx, C2.1⟩, C2.2.1, A1.2.1, C2.2.2.1, C2.2.2.2, A1.2.2⟩
  · exact ⟨b1, a1, ⟨A1.1, B1.1, mone _ hx⟩, B1.2.1, A1.2.1, B1.2.2.1, B1.2.2.2, A1.2.2⟩

/-- A point close to `P` is in a cell of the mesh that has the corner `P`. -/
theorem reach_corner {q : Vec ℝ} (uq : UnitV q) {l : CellID} (hl : fromPoint _root_.id Real.sqrt q = some l) {L : Nat} (hL : L ≤ 30) {N : Int}
    (hN : N = ((2 ^ (30 - L) : Nat) : Int)) {P : Pt} (hP : MeshPt N P) (hr : Reach (2 * ((N : ℝ) / 2 ^ 30)) (ptR P) q) :
    ∃ X, l.parent L = some X ∧ Valid X ∧ X.level = some L ∧ X.contains l = some true ∧ IsCorner X P := by
  obtain ⟨l', f, u, v, t, i, j, o, e1, e2, e3, e4, hf, ht, e5, hu, hv, ⟨u1, u2⟩, v1, v2⟩ := point_lines uq
  rw [hl] at e1
  obtain rfl := Option.some.inj e1
  obtain ⟨X, i0, j0, n, hn, hX, vX, lX, cX, -, n0, ns, sqX, ni, nj, a1, a2, a3, a4⟩ := parent_setting e2 e3 hL e4
  rw [← hN] at hn
  obtain rfl := hn
  obtain ⟨r1, r2, r3⟩ := reach_local hf hr ht e5 hu hv
  obtain ⟨a, b, rfl, na, nb, a5, a6, b5, b6⟩ := meshPt_face hP ns hf r1
  rw [ptR_loc hf] at r2 r3
  have key : ∀ (a i : Int) (u : ℝ), gUV (grd i) ≤ u → u ≤ gUV (grd (i + 1)) → Nr (grd a) (2 * ((n : ℝ) / 2 ^ 30)) t (t * u) → a - n ≤ i ∧ i < a + n := by
    intro a i u h1 h2 ⟨h3, h4⟩
    rw [← grd_add, mul_comm _ t] at h4
    rw [← grd_sub, mul_comm _ t] at h3
    have h3' := lt_of_mul_lt_mul_left h3 ht.le
    have h4' := lt_of_mul_lt_mul_left h4 ht.le
    have k1 := gUV_mono.lt_iff_lt.1 (h3'.trans_le h2)
    have k2 := gUV_mono.lt_iff_lt.1 (h1.trans_lt h4')
    rw [← not_le, grd_le] at k1 k2
    omega
  have ka := key a i u u1 u2 r2
  have kb := key b j v v1 v2 r3
  have pin : ∀ a i0 i : Int, n ∣ a → n ∣ i0 → a - n ≤ i → i < a + n → i0 ≤ i → i < i0 + n → a = i0 ∨ a = i0 + n := by
    intro a i0 i ⟨x, hx⟩ ⟨y, hy⟩ k1 k2 k3 k4
    have h1 : n * x < n * (y + 2) := by rw [mul_add]; omega
    have h2 : n * (y - 1) < n * x := by rw [mul_sub]; omega
    have h3 := lt_of_mul_lt_mul_left h1 n0.le
    have h4 := lt_of_mul_lt_mul_left h2 n0.le
    have : x = y ∨ x = y + 1 := by omega
    rcases this with rfl | rfl
    · left; rw [hx, hy]
    · right; rw [hx, hy]; ring
  refine ⟨X, hX, vX, lX, cX, f, i0, j0, n, a - i0, b - j0, sqX, ?_, ?_, ?_⟩
  · have := pin a i0 i na ni ka.1 ka.2 a1 a2
    omega
  · have := pin b j0 j nb nj kb.1 kb.2 a3 a4
    omega
  · rw [show i0 + (a - i0) = a by ring, show j0 + (b - j0) = b by ring]

end Verif
