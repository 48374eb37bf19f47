import Verif.Properties.CellGeom

/-!
# From points to cells and back: C61

`c61_total` is about any rounding whatsoever; `c61_contains` and `c61_containsPoint` are about exact arithmetic.
-/

namespace Verif
open Rust Spec CellID

variable {K : Type} [Field K] [LinearOrder K] [IsStrictOrderedRing K] [FloorRing K]

omit [IsStrictOrderedRing K] in
theorem stToIJ_range (fl : K → K) (s : K) : 0 ≤ stToIJ fl s ∧ stToIJ fl s < 2 ^ 30 := by
  unfold stToIJ clamp maxSize
  generalize f64ToI32 ⌊fl (2 ^ 30 * s)⌋ = x
  constructor <;> split_ifs <;> omega

theorem xyzToFaceUV_total (fl : K → K) {p : Vec K} (h : ¬ (p.x = 0 ∧ p.y = 0 ∧ p.z = 0)) :
    vecFace p < 6 ∧ ∃ u v, xyzToFaceUV fl p = some (vecFace p, u, v) := by
  unfold xyzToFaceUV
  rcases vecFace_cases p h with ⟨e, -⟩ | ⟨e, -⟩ | ⟨e, -⟩ | ⟨e, -⟩ | ⟨e, -⟩ | ⟨e, -⟩ <;> rw [e] <;> exact ⟨by omega, _, _, rfl⟩

/-- **C61.** `CellID::from(&Point)` is a valid leaf for every non-zero vector, whatever the rounding; its face is the face of the
vector and its coordinates are those of the projection. -/
theorem c61_total (fl sqrt : K → K) {p : Vec K} (h : ¬ (p.x = 0 ∧ p.y = 0 ∧ p.z = 0)) :
    ∃ l u v, fromPoint fl sqrt p = some l ∧ Valid l ∧ l.level = some 30 ∧ l.face = vecFace p ∧ xyzToFaceUV fl p = some (vecFace p, u, v) ∧
      LeafAt l (vecFace p) (stToIJ fl (uvToST fl sqrt u)) (stToIJ fl (uvToST fl sqrt v)) := by
  obtain ⟨hf, u, v, e⟩ := xyzToFaceUV_total fl h
  have r1 := stToIJ_range fl (uvToST fl sqrt u)
  have r2 := stToIJ_range fl (uvToST fl sqrt v)
  obtain ⟨i, hi⟩ := Int.eq_ofNat_of_zero_le r1.1
  obtain ⟨j, hj⟩ := Int.eq_ofNat_of_zero_le r2.1
  obtain ⟨l, h1, h2, h3, h4, h5⟩ := c18_ij_roundtrip hf (i := i) (j := j) (by omega) (by omega)
  refine ⟨l, u, v, ?_, h2, h3, h4, e, ?_⟩
  · have e2 : fromPoint fl sqrt p = CellID.fromFaceIJ (vecFace p) (stToIJ fl (uvToST fl sqrt u)) (stToIJ fl (uvToST fl sqrt v)) := by
      unfold fromPoint
      rw [e, Option.bind_eq_bind, Option.bind_some]
    rw [e2, hi, hj]
    exact h1
  · rw [hi, hj]; exact h5

theorem leaf_square {l : CellID} {f : Nat} {i j : Int} (h : Valid l) (hl : l.level = some 30) (hat : LeafAt l f i j) : Square l f i j 1 := by
  have hlv := lv_of_level hl
  have := (leafAt_iff h hlv).1 hat
  have hs := h.square
  rw [leaf_ss hlv, Nat.mul_one, Nat.mul_one] at hs
  rw [this.1, this.2.1, this.2.2]
  exact hs

/-- The index of a coordinate in `[0, 1]`. -/
theorem stToIJ_exact {s : K} (h0 : 0 ≤ s) (h1 : s ≤ 1) :
    ((stToIJ _root_.id s : Int) : K) / 2 ^ 30 ≤ s ∧ s ≤ ((stToIJ _root_.id s + 1 : Int) : K) / 2 ^ 30 := by
  have hp : (0 : K) < 2 ^ 30 := by positivity
  have hfl0 : 0 ≤ ⌊2 ^ 30 * s⌋ := Int.floor_nonneg.2 (by positivity)
  have hfl1 : ⌊2 ^ 30 * s⌋ ≤ 2 ^ 30 := by
    have : (⌊2 ^ 30 * s⌋ : K) ≤ 2 ^ 30 := (Int.floor_le _).trans (by nlinarith)
    exact_mod_cast this
  have hle := Int.floor_le (2 ^ 30 * s)
  have hlt := Int.lt_floor_add_one (2 ^ 30 * s)
  rw [div_le_iff₀ hp, le_div_iff₀ hp]
  unfold stToIJ clamp f64ToI32 maxSize
  simp only [_root_.id]
  generalize ⌊2 ^ 30 * s⌋ = x at *
  rcases lt_or_eq_of_le hfl1 with hx | hx
  · have e1 : max (-2 ^ 31) (min (2 ^ 31 - 1) x) = x := by omega
    rw [e1, if_neg (by omega), if_neg (by omega)]
    push_cast
    constructor <;> linarith
  · subst hx
    have e1 : max (-2 ^ 31) (min (2 ^ 31 - 1) (2 ^ 30 : Int)) = 2 ^ 30 := by omega
    rw [e1, if_neg (by omega), if_pos (by omega)]
    push_cast at *
    constructor <;> linarith

theorem uvToST_range {sqrt : K → K} (hs : IsSqrt sqrt) {u : K} (h0 : -1 ≤ u) (h1 : u ≤ 1) :
    0 ≤ uvToST _root_.id sqrt u ∧ uvToST _root_.id sqrt u ≤ 1 := by
  have hm := (c59_stToUV_strictMono (K := K))
  obtain ⟨e0, _, e1⟩ := c59_stToUV_ends (K := K)
  constructor
  · rw [← hm.le_iff_le, e0, c59_stToUV_uvToST hs]; exact h0
  · rw [← hm.le_iff_le, e1, c59_stToUV_uvToST hs]; exact h1

/-- **C61.** In exact arithmetic the `(u, v)` rectangle of the leaf contains the projection of the point. -/
theorem c61_contains {sqrt : K → K} (hs : IsSqrt sqrt) {p : Vec K} (h : ¬ (p.x = 0 ∧ p.y = 0 ∧ p.z = 0)) :
    ∃ l u v r, fromPoint _root_.id sqrt p = some l ∧ xyzToFaceUV _root_.id p = some (l.face, u, v) ∧ l.boundUV _root_.id = some r ∧
      R2.InRect r ⟨u, v⟩ := by
  obtain ⟨l, u, v, h1, h2, h3, h4, h5, h6⟩ := c61_total _root_.id sqrt h
  obtain ⟨f', u', v', g1, g2, g3, g4, g5, g6⟩ := c60_range (fl := (_root_.id : K → K)) monotone_id rfl rfl h
  rw [h5] at g1
  simp only [Option.some.injEq, Prod.mk.injEq] at g1
  obtain ⟨rfl, rfl, rfl⟩ := g1
  have hsq := leaf_square h2 h3 h6
  obtain ⟨o, ho⟩ := h6
  obtain ⟨_, hb⟩ := c68_from (_root_.id : K → K) h2 h3 hsq ho
  refine ⟨l, u, v, _, h1, by rw [h4]; exact h5, hb, ?_⟩
  have key : ∀ x : K, -1 ≤ x → x ≤ 1 → uvLine _root_.id (stToIJ _root_.id (uvToST _root_.id sqrt x)) ≤ x ∧
      x ≤ uvLine _root_.id (stToIJ _root_.id (uvToST _root_.id sqrt x) + 1) := by
    intro x hx0 hx1
    have hr := uvToST_range hs hx0 hx1
    have hi := stToIJ_exact hr.1 hr.2
    have hm := (c59_stToUV_strictMono (K := K)).monotone
    have e := c59_stToUV_uvToST hs x
    exact ⟨(hm hi.1).trans e.le, e.symm.le.trans (hm hi.2)⟩
  exact ⟨key u g3 g4, key v g5 g6⟩

/-- **C61.** In exact arithmetic `Cell::from(p).contains_point(p)` is true. -/
theorem c61_containsPoint {sqrt : K → K} (hs : IsSqrt sqrt) {eps : K} (he : 0 ≤ eps) {p : Vec K} (h : ¬ (p.x = 0 ∧ p.y = 0 ∧ p.z = 0)) :
    ∃ C, Cell.fromPoint _root_.id sqrt p = some C ∧ C.containsPoint _root_.id eps p = some true := by
  obtain ⟨l, u, v, r, h1, h2, h3, ⟨h4, h5⟩, h6, h7⟩ := c61_contains hs h
  obtain ⟨l', u', v', g1, g2, g3, g4, g5, g6⟩ := c61_total _root_.id sqrt h
  rw [h1] at g1
  obtain rfl := Option.some.inj g1
  have hsq := leaf_square g2 g3 g6
  obtain ⟨o, ho⟩ := g6
  obtain ⟨hc, hb⟩ := c68_from (_root_.id : K → K) g2 g3 hsq ho
  rw [h3] at hb
  obtain rfl := Option.some.inj hb
  have hfp : Cell.fromPoint _root_.id sqrt p = Cell.fromCellID _root_.id l := by
    unfold Cell.fromPoint
    rw [h1, Option.bind_eq_bind, Option.bind_some]
  rw [hfp]
  refine ⟨_, hc, ?_⟩
  obtain ⟨b, e1, e2⟩ := c75_containsPoint he g2 hc p
  rw [e1, Option.some.injEq, e2]
  obtain ⟨f', u'', v'', w, t, k1, k2, k3, k4⟩ := c60_projection h
  rw [h2] at k1
  simp only [Option.some.injEq, Prod.mk.injEq] at k1
  obtain ⟨rfl, rfl, rfl⟩ := k1
  rw [g4] at k2
  exact ⟨u, v, w, t, k2, k3, k4, by dsimp only at *; linarith, by dsimp only at *; linarith, by dsimp only at *; linarith, by dsimp only at *; linarith⟩

/-! ## Example -/

example : ∃ C, Cell.fromPoint _root_.id Real.sqrt (⟨1, 2, -3⟩ : Vec ℝ) = some C ∧ C.containsPoint _root_.id (1 / 2 ^ 52) ⟨1, 2, -3⟩ = some true :=
  c61_containsPoint isSqrt_real (by positivity) (by norm_num)

end Verif
