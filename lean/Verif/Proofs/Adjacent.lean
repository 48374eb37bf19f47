import Verif.Properties.Hilbert
import Verif.Proofs.Wrap

/-! # Neighbouring squares on the cube -/

namespace Verif
open Rust Spec CellID

/-! ## Lattice points on the edges -/

/-- Lattice coordinate beyond an edge, from the lattice coordinate along the edge. -/
def la : Nat → Int → Int
  | 0, _ => 0
  | 1, _ => side
  | 2, t => t
  | _, t => side - t

/-- Lattice point of an edge (0 down, 1 right, 2 up, 3 left). -/
def edgePt : Nat → Int → Int × Int
  | 0, t => (t, 0)
  | 1, t => (side, t)
  | 2, t => (t, side)
  | _, t => (0, t)

theorem edgeTab_lt {f d : Nat} (hf : f < 6) (hd : d < 4) : (edgeTab f d).1 < 6 ∧ (edgeTab f d).1 ≠ f ∧
    (edgeTab f d).2.1 < 4 ∧ (edgeTab f d).2.2 < 4 := by
  interval_cases f <;> interval_cases d <;> decide

theorem edgeTab_inj {f d e : Nat} (hf : f < 6) (hd : d < 4) (he : e < 4)
    (h : (edgeTab f d).1 = (edgeTab f e).1) : d = e := by
  interval_cases f <;> interval_cases d <;> interval_cases e <;> first | rfl | (exact absurd h (by decide))

theorem edge_pt {f d : Nat} (hf : f < 6) (hd : d < 4) (t : Int) :
    cubePt f (edgePt d t).1 (edgePt d t).2 =
      cubePt (edgeTab f d).1 (la (edgeTab f d).2.1 t) (la (edgeTab f d).2.2 t) := by
  interval_cases f <;> interval_cases d <;> simp [edgeTab, edgePt, la, cubePt, side] <;> omega

theorem edge_conv {f g : Nat} (hf : f < 6) (hg : g < 6) (hne : g ≠ f) {a b a' b' : Int} (ha : 0 ≤ a) (ha1 : a ≤ side)
    (hb : 0 ≤ b) (hb1 : b ≤ side)
    (h : cubePt f a b = cubePt g a' b') :
    ∃ d t, d < 4 ∧ (edgeTab f d).1 = g ∧ 0 ≤ t ∧ t ≤ side ∧ (a, b) = edgePt d t ∧
      a' = la (edgeTab f d).2.1 t ∧ b' = la (edgeTab f d).2.2 t := by
  have key : ∀ d : Nat, d < 4 → (edgeTab f d).1 = g →
      (∃ t, 0 ≤ t ∧ t ≤ side ∧ (a, b) = edgePt d t ∧
      a' = la (edgeTab f d).2.1 t ∧ b' = la (edgeTab f d).2.2 t) → ∃ d t, d < 4 ∧ (edgeTab f d).1 = g ∧ 0 ≤ t ∧ t ≤ side ∧ (a, b) = edgePt d t ∧
      a' = la (edgeTab f d).2.1 t ∧ b' = la (edgeTab f d).2.2 t := by
    rintro d hd hg ⟨t, h1⟩; exact ⟨d, t, hd, hg, h1⟩
  interval_cases f <;> interval_cases g <;> first | (exact absurd rfl hne) | skip
  all_goals
    simp only [cubePt, Pt.mk.injEq] at h
    first
    | (exfalso; unfold side at *; omega)
    | (refine key 0 (by decide) (by decide) ⟨a, ha, ha1, ?_, ?_, ?_⟩ <;>
        simp [edgePt, edgeTab, la] <;> unfold side at * <;> omega)
    | (refine key 2 (by decide) (by decide) ⟨a, ha, ha1, ?_, ?_, ?_⟩ <;>
        simp [edgePt, edgeTab, la] <;> unfold side at * <;> omega)
    | (refine key 1 (by decide) (by decide) ⟨b, hb, hb1, ?_, ?_, ?_⟩ <;>
        simp [edgePt, edgeTab, la] <;> unfold side at * <;> omega)
    | (refine key 3 (by decide) (by decide) ⟨b, hb, hb1, ?_, ?_, ?_⟩ <;>
        simp [edgePt, edgeTab, la] <;> unfold side at * <;> omega)

/-- Lattice point of a corner, index `2·(i too large) + (j too large)`. -/
def cornerPt : Nat → Int × Int
  | 0 => (0, 0)
  | 1 => (0, side)
  | 2 => (side, 0)
  | _ => (side, side)

theorem cornerTab_lt {f d : Nat} (hf : f < 6) (hd : d < 4) : (cornerTab f d).1 < 6 ∧ (cornerTab f d).1 ≠ f ∧
    (cornerTab f d).2.1 < 2 ∧ (cornerTab f d).2.2 < 2 := by
  interval_cases f <;> interval_cases d <;> decide

theorem corner_pt {f d : Nat} (hf : f < 6) (hd : d < 4) :
    cubePt f (cornerPt d).1 (cornerPt d).2 =
      cubePt (cornerTab f d).1 (la (cornerTab f d).2.1 0) (la (cornerTab f d).2.2 0) := by
  interval_cases f <;> interval_cases d <;> simp [cornerTab, cornerPt, la, cubePt, side]

/-! ## Squares beyond an edge or a corner -/

/-- Lower end of the square beyond an edge, from the lower end of the square along the edge. -/
def sq (n : Int) : Nat → Int → Int
  | 0, _ => 0
  | 1, _ => side - n
  | 2, t => t
  | _, t => side - n - t

/-- The square of side `n` found from the (possibly outside) position `(x, y)` of face `f`. -/
def vsq (f : Nat) (n x y : Int) : Nat × Int × Int :=
  if x < 0 then
    if y < 0 then ((cornerTab f 0).1, sq n (cornerTab f 0).2.1 0, sq n (cornerTab f 0).2.2 0)
    else if side ≤ y then ((cornerTab f 1).1, sq n (cornerTab f 1).2.1 0, sq n (cornerTab f 1).2.2 0)
    else ((edgeTab f 3).1, sq n (edgeTab f 3).2.1 y, sq n (edgeTab f 3).2.2 y)
  else if side ≤ x then
    if y < 0 then ((cornerTab f 2).1, sq n (cornerTab f 2).2.1 0, sq n (cornerTab f 2).2.2 0)
    else if side ≤ y then ((cornerTab f 3).1, sq n (cornerTab f 3).2.1 0, sq n (cornerTab f 3).2.2 0)
    else ((edgeTab f 1).1, sq n (edgeTab f 1).2.1 y, sq n (edgeTab f 1).2.2 y)
  else
    if y < 0 then ((edgeTab f 0).1, sq n (edgeTab f 0).2.1 x, sq n (edgeTab f 0).2.2 x)
    else if side ≤ y then ((edgeTab f 2).1, sq n (edgeTab f 2).2.1 x, sq n (edgeTab f 2).2.2 x)
    else (f, x, y)

/-- `n` divides the side of the face. -/
theorem size_dvd {k : Nat} (hk : k ≤ 30) : ((2 ^ (30 - k) : Nat) : Int) ∣ side := by
  refine ⟨((2 ^ k : Nat) : Int), ?_⟩
  rw [← Nat.cast_mul, ← Nat.pow_add, show 30 - k + k = 30 by omega]
  norm_num

theorem size_bounds {k : Nat} : 0 < ((2 ^ (30 - k) : Nat) : Int) ∧ ((2 ^ (30 - k) : Nat) : Int) ≤ side := by
  have h1 := pow2_pos (30 - k)
  have h2 : 2 ^ (30 - k) ≤ 2 ^ 30 := Nat.pow_le_pow_right (by omega) (by omega)
  unfold side
  omega

/-- The cell of level `k` at a leaf in an aligned square. -/
theorem cell_in {f k : Nat} {n i0 j0 i j : Int} (hf : f < 6) (hk : k ≤ 30) (hn : n = ((2 ^ (30 - k) : Nat) : Int))
    (hi : n ∣ i0) (hj : n ∣ j0) (hi0 : 0 ≤ i) (hi1 : i < side) (hj0 : 0 ≤ j) (hj1 : j < side)
    (h1 : i0 ≤ i) (h2 : i < i0 + n) (h3 : j0 ≤ j) (h4 : j < j0 + n) :
    ∃ X, (fromFaceIJ f i j).bind (·.parent k) = some X ∧ Valid X ∧ X.level = some k ∧ Square X f i0 j0 n := by
  have hnp : 0 < n := by have := (size_bounds (k := k)).1; omega
  obtain ⟨a, rfl⟩ := Int.eq_ofNat_of_zero_le hi0
  obtain ⟨b, rfl⟩ := Int.eq_ofNat_of_zero_le hj0
  have ha : a < 1073741824 := by unfold side at *; omega
  have hb : b < 1073741824 := by unfold side at *; omega
  have hF := cellAt_facts hf hk ha hb
  refine ⟨cellAt f k a b, ?_, hF.1, by rw [hF.1.level, hF.2.1], ?_⟩
  · rw [fromFaceIJ_cellAt hf ha hb, Option.bind_some, parent_cellAt hf (le_refl 30) hk ha hb]
  · have hs := hF.1.square
    have e0 : ss (cellAt f k a b) = 2 ^ (30 - k) := by rw [ss, hF.2.1]
    rw [hF.2.2.1, hF.2.2.2.1, hF.2.2.2.2, e0] at hs
    generalize (2 ^ (30 - k) : Nat) = m at *
    subst hn
    have key : ∀ {x : Nat} {x0 : Int}, (m : Int) ∣ x0 → x0 ≤ x → (x : Int) < x0 + m → ((x / m * m : Nat) : Int) = x0 := by
      intro x x0 hd h1 h2
      obtain ⟨q, rfl⟩ := hd
      push_cast
      have : (x : Int) / m = q := by
        rw [Int.ediv_eq_iff_of_pos hnp]
        constructor <;> linarith [mul_comm q (m : Int)]
      rw [this, mul_comm]
    rwa [key hi h1 h2, key hj h3 h4] at hs

theorem sq_dvd {n t : Int} (k : Nat) (h : n ∣ side) (ht : n ∣ t) : n ∣ sq n k t := by
  unfold sq
  split
  · exact dvd_zero n
  · exact dvd_sub h (dvd_refl n)
  · exact ht
  · exact dvd_sub (dvd_sub h (dvd_refl n)) ht

/-- An aligned interval that meets the face lies in the face. -/
theorem aligned_in {n x0 : Int} (hn : 0 < n) (hd : n ∣ side) (hx : n ∣ x0) : (0 ≤ x0 ∨ x0 + n ≤ 0) ∧
    (side ≤ x0 ∨ x0 + n ≤ side) := by
  obtain ⟨a, ha⟩ := hd
  obtain ⟨q, rfl⟩ := hx
  constructor
  · rcases lt_or_ge q 0 with h | h
    · right
      have := mul_le_mul_of_nonneg_left (show q + 1 ≤ 0 by omega) hn.le
      linarith
    · left; positivity
  · rcases lt_or_ge q a with h | h
    · right
      have := mul_le_mul_of_nonneg_left (show q + 1 ≤ a by omega) hn.le
      linarith
    · left
      have := mul_le_mul_of_nonneg_left h hn.le
      linarith

theorem sq_mem {n t0 t : Int} (k : Nat) (hn : 0 < n) (hs : n ≤ side) (h1 : t0 ≤ t) (h2 : t < t0 + n) :
    sq n k t0 ≤ ap k t ∧ ap k t < sq n k t0 + n := by
  unfold sq ap
  unfold side at *
  split <;> simp <;> omega

theorem sq_range {n t0 : Int} (k : Nat) (hn : 0 < n) (hs : n ≤ side) (h1 : 0 ≤ t0) (h2 : t0 + n ≤ side) :
    0 ≤ sq n k t0 ∧ sq n k t0 + n ≤ side := by
  unfold sq
  unfold side at *
  split <;> omega

/-- What `from_face_ij_wrap(face, x, y).parent(k)` returns. -/
theorem wrap_parent {fl : ℚ → ℚ} (h : Rounding fl) {f k : Nat} {n x0 y0 x y : Int} (hf : f < 6) (hk : k ≤ 30)
    (hn : n = ((2 ^ (30 - k) : Nat) : Int)) (hx : n ∣ x0) (hy : n ∣ y0)
    (h1 : x0 ≤ x) (h2 : x < x0 + n) (h3 : y0 ≤ y) (h4 : y < y0 + n) :
    ∃ X, (fromFaceIJWrap fl f x y).bind (·.parent k) = some X ∧ Valid X ∧ X.level = some k ∧
      Square X (vsq f n x0 y0).1 (vsq f n x0 y0).2.1 (vsq f n x0 y0).2.2 n := by
  have hb := size_bounds (k := k)
  have hdv := size_dvd hk
  rw [← hn] at hb hdv
  have ax := aligned_in hb.1 hdv hx
  have ay := aligned_in hb.1 hdv hy
  rw [wrap_eq h hf]
  have hedge : ∀ {d : Nat} {t t0 : Int}, d < 4 → n ∣ t0 → 0 ≤ t0 → t0 + n ≤ side → t0 ≤ t → t < t0 + n →
      ∃ X, (fromFaceIJ (edgeTab f d).1 (ap (edgeTab f d).2.1 t) (ap (edgeTab f d).2.2 t)).bind (·.parent k) = some X ∧
        Valid X ∧ X.level = some k ∧
      Square X (edgeTab f d).1 (sq n (edgeTab f d).2.1 t0) (sq n (edgeTab f d).2.2 t0) n := by
    intro d t t0 hd ht0 h0 h1 h2 h3
    have m1 := sq_mem (edgeTab f d).2.1 hb.1 hb.2 h2 h3
    have m2 := sq_mem (edgeTab f d).2.2 hb.1 hb.2 h2 h3
    have r1 := sq_range (edgeTab f d).2.1 hb.1 hb.2 h0 h1
    have r2 := sq_range (edgeTab f d).2.2 hb.1 hb.2 h0 h1
    exact cell_in (edgeTab_lt hf hd).1 hk hn (sq_dvd _ hdv ht0) (sq_dvd _ hdv ht0) (by omega) (by omega) (by omega) (by omega)
      m1.1 m1.2 m2.1 m2.2
  have hcorner : ∀ {d : Nat}, d < 4 →
      ∃ X, (fromFaceIJ (cornerTab f d).1 (ap (cornerTab f d).2.1 0) (ap (cornerTab f d).2.2 0)).bind (·.parent k) = some X ∧
        Valid X ∧ X.level = some k ∧
      Square X (cornerTab f d).1 (sq n (cornerTab f d).2.1 0) (sq n (cornerTab f d).2.2 0) n := by
    intro d hd
    have m1 := sq_mem (t0 := 0) (t := 0) (cornerTab f d).2.1 hb.1 hb.2 (by omega) (by omega)
    have m2 := sq_mem (t0 := 0) (t := 0) (cornerTab f d).2.2 hb.1 hb.2 (by omega) (by omega)
    have r1 := sq_range (t0 := 0) (cornerTab f d).2.1 hb.1 hb.2 (by omega) (by omega)
    have r2 := sq_range (t0 := 0) (cornerTab f d).2.2 hb.1 hb.2 (by omega) (by omega)
    exact cell_in (cornerTab_lt hf hd).1 hk hn (sq_dvd _ hdv (dvd_zero n)) (sq_dvd _ hdv (dvd_zero n)) (by omega) (by omega) (by omega) (by omega)
      m1.1 m1.2 m2.1 m2.2
  unfold vsq wrapInt
  have es : (2:Int) ^ 30 = side := by norm_num
  rw [es]
  by_cases c1 : x0 < 0
  · rw [if_pos (show x < 0 by omega), if_pos c1]
    by_cases c2 : y0 < 0
    · rw [if_pos (show y < 0 by omega), if_pos c2]; exact hcorner (by decide)
    · rw [if_neg (show ¬ y < 0 by omega), if_neg c2]
      by_cases c3 : side ≤ y0
      · rw [if_pos (show side ≤ y by omega), if_pos c3]; exact hcorner (by decide)
      · rw [if_neg (show ¬ side ≤ y by omega), if_neg c3]
        exact hedge (by decide) hy (by omega) (by omega) h3 h4
  · rw [if_neg (show ¬ x < 0 by omega), if_neg c1]
    by_cases c4 : side ≤ x0
    · rw [if_pos (show side ≤ x by omega), if_pos c4]
      by_cases c2 : y0 < 0
      · rw [if_pos (show y < 0 by omega), if_pos c2]; exact hcorner (by decide)
      · rw [if_neg (show ¬ y < 0 by omega), if_neg c2]
        by_cases c3 : side ≤ y0
        · rw [if_pos (show side ≤ y by omega), if_pos c3]; exact hcorner (by decide)
        · rw [if_neg (show ¬ side ≤ y by omega), if_neg c3]
          exact hedge (by decide) hy (by omega) (by omega) h3 h4
    · rw [if_neg (show ¬ side ≤ x by omega), if_neg c4]
      by_cases c2 : y0 < 0
      · rw [if_pos (show y < 0 by omega), if_pos c2]
        exact hedge (by decide) hx (by omega) (by omega) h1 h2
      · rw [if_neg (show ¬ y < 0 by omega), if_neg c2]
        by_cases c3 : side ≤ y0
        · rw [if_pos (show side ≤ y by omega), if_pos c3]
          exact hedge (by decide) hx (by omega) (by omega) h1 h2
        · rw [if_neg (show ¬ side ≤ y by omega), if_neg c3]
          dsimp only
          exact cell_in hf hk hn hx hy (by omega) (by omega) (by omega) (by omega) h1 h2 h3 h4

/-! ## Positions around a face -/

theorem pair_eq {a b : Int} {p : Int × Int} (h : (a, b) = p) : a = p.1 ∧ b = p.2 :=
  ⟨congrArg Prod.fst h, congrArg Prod.snd h⟩

/-- Position beyond edge `d`, at `t` along the edge. -/
def dpos (n : Int) : Nat → Int → Int × Int
  | 0, t => (t, -n)
  | 1, t => (side, t)
  | 2, t => (t, side)
  | _, t => (-n, t)

/-- Position beyond corner `d`. -/
def cpos (n : Int) : Nat → Int × Int
  | 0 => (-n, -n)
  | 1 => (-n, side)
  | 2 => (side, -n)
  | _ => (side, side)

theorem vsq_in {f : Nat} {n x y : Int} (hn : 0 < n) (h1 : 0 ≤ x) (h2 : x + n ≤ side) (h3 : 0 ≤ y) (h4 : y + n ≤ side) :
    vsq f n x y = (f, x, y) := by
  unfold vsq
  rw [if_neg (by omega), if_neg (by omega), if_neg (by omega), if_neg (by omega)]

theorem vsq_edge {f d : Nat} {n t : Int} (hd : d < 4) (hn : 0 < n) (h1 : 0 ≤ t) (h2 : t + n ≤ side) :
    vsq f n (dpos n d t).1 (dpos n d t).2 = ((edgeTab f d).1, sq n (edgeTab f d).2.1 t, sq n (edgeTab f d).2.2 t) := by
  interval_cases d <;> simp only [dpos] <;> unfold vsq
  · rw [if_neg (by omega), if_neg (by omega), if_pos (by omega)]
  · rw [if_neg (by decide), if_pos (by omega), if_neg (by omega), if_neg (by omega)]
  · rw [if_neg (by omega), if_neg (by omega), if_neg (by decide), if_pos (by omega)]
  · rw [if_pos (by omega), if_neg (by omega), if_neg (by omega)]

theorem vsq_corner {f d : Nat} {n : Int} (hd : d < 4) (hn : 0 < n) :
    vsq f n (cpos n d).1 (cpos n d).2 = ((cornerTab f d).1, sq n (cornerTab f d).2.1 0, sq n (cornerTab f d).2.2 0) := by
  interval_cases d <;> simp only [cpos] <;> unfold vsq
  · rw [if_pos (by omega), if_pos (by omega)]
  · rw [if_pos (by omega), if_neg (by decide), if_pos (by omega)]
  · rw [if_neg (by decide), if_pos (by omega), if_pos (by omega)]
  · rw [if_neg (by decide), if_pos (by omega), if_neg (by decide), if_pos (by omega)]

/-- Every aligned position around a face is in the face, beyond an edge or beyond a corner. -/
theorem pos_cases {n x y : Int} (hn : 0 < n) (hd : n ∣ side) (hx : n ∣ x) (hy : n ∣ y)
    (h1 : -n ≤ x) (h2 : x ≤ side) (h3 : -n ≤ y) (h4 : y ≤ side) :
    (0 ≤ x ∧ x + n ≤ side ∧ 0 ≤ y ∧ y + n ≤ side) ∨
    (∃ d t, d < 4 ∧ 0 ≤ t ∧ t + n ≤ side ∧ n ∣ t ∧ (x, y) = dpos n d t) ∨ (∃ d, d < 4 ∧ (x, y) = cpos n d) := by
  have ax := aligned_in hn hd hx
  have ay := aligned_in hn hd hy
  have cx : x = -n ∨ x = side ∨ (0 ≤ x ∧ x + n ≤ side) := by omega
  have cy : y = -n ∨ y = side ∨ (0 ≤ y ∧ y + n ≤ side) := by omega
  rcases cx with rfl | rfl | cx <;> rcases cy with rfl | rfl | cy
  · exact Or.inr (Or.inr ⟨0, by decide, rfl⟩)
  · exact Or.inr (Or.inr ⟨1, by decide, rfl⟩)
  · exact Or.inr (Or.inl ⟨3, y, by decide, cy.1, cy.2, hy, rfl⟩)
  · exact Or.inr (Or.inr ⟨2, by decide, rfl⟩)
  · exact Or.inr (Or.inr ⟨3, by decide, rfl⟩)
  · exact Or.inr (Or.inl ⟨1, y, by decide, cy.1, cy.2, hy, rfl⟩)
  · exact Or.inr (Or.inl ⟨0, x, by decide, cx.1, cx.2, hx, rfl⟩)
  · exact Or.inr (Or.inl ⟨2, x, by decide, cx.1, cx.2, hx, rfl⟩)
  · exact Or.inl ⟨cx.1, cx.2, cy.1, cy.2⟩

theorem la_sq {n t0 t : Int} (k : Nat) (h1 : t0 ≤ t) (h2 : t ≤ t0 + n) (hn : 0 < n) :
    sq n k t0 ≤ la k t ∧ la k t ≤ sq n k t0 + n ∧
    (t = t0 ∨ t = t0 + n → la k t = sq n k t0 ∨ la k t = sq n k t0 + n) := by
  unfold sq la
  split <;> omega

/-- A lattice point of the face in a closed square around the face is a point of the square found. -/
theorem vsq_on {f : Nat} {n x y a b : Int} (hf : f < 6) (hn : 0 < n) (hd : n ∣ side) (hx : n ∣ x) (hy : n ∣ y)
    (h1 : -n ≤ x) (h2 : x ≤ side) (h3 : -n ≤ y) (h4 : y ≤ side) (ha : 0 ≤ a) (ha1 : a ≤ side) (hb : 0 ≤ b)
    (hb1 : b ≤ side) (hax : x ≤ a) (hax1 : a ≤ x + n) (hby : y ≤ b) (hby1 : b ≤ y + n) :
    ∃ a' b', cubePt f a b = cubePt (vsq f n x y).1 a' b' ∧
      (vsq f n x y).2.1 ≤ a' ∧ a' ≤ (vsq f n x y).2.1 + n ∧ (vsq f n x y).2.2 ≤ b' ∧ b' ≤ (vsq f n x y).2.2 + n ∧
      ((a = x ∨ a = x + n) → (b = y ∨ b = y + n) →
        (a' = (vsq f n x y).2.1 ∨ a' = (vsq f n x y).2.1 + n) ∧ (b' = (vsq f n x y).2.2 ∨ b' = (vsq f n x y).2.2 + n)) := by
  rcases pos_cases hn hd hx hy h1 h2 h3 h4 with h | ⟨d, t, hdd, ht0, ht1, _, e⟩ | ⟨d, hdd, e⟩
  · rw [vsq_in hn h.1 h.2.1 h.2.2.1 h.2.2.2]
    exact ⟨a, b, rfl, hax, hax1, hby, hby1, fun h1 h2 => ⟨h1, h2⟩⟩
  · obtain ⟨rfl, rfl⟩ := pair_eq e
    rw [vsq_edge hdd hn ht0 ht1]
    obtain ⟨t', hp, h5, h6, h7⟩ : ∃ t', (a, b) = edgePt d t' ∧ t ≤ t' ∧ t' ≤ t + n ∧
        ((a = (dpos n d t).1 ∨ a = (dpos n d t).1 + n) → (b = (dpos n d t).2 ∨ b = (dpos n d t).2 + n) →
          t' = t ∨ t' = t + n) := by
      interval_cases d <;> simp only [dpos, edgePt] at *
      · exact ⟨a, by rw [show b = 0 by omega], hax, hax1, fun h _ => h⟩
      · exact ⟨b, by rw [show a = side by omega], hby, hby1, fun _ h => h⟩
      · exact ⟨a, by rw [show b = side by omega], hax, hax1, fun h _ => h⟩
      · exact ⟨b, by rw [show a = 0 by omega], hby, hby1, fun _ h => h⟩
    have hq := edge_pt hf hdd t'
    obtain ⟨q1, q2⟩ := pair_eq hp
    rw [← q1, ← q2] at hq
    have l1 := la_sq (edgeTab f d).2.1 h5 h6 hn
    have l2 := la_sq (edgeTab f d).2.2 h5 h6 hn
    exact ⟨_, _, hq, l1.1, l1.2.1, l2.1, l2.2.1, fun e1 e2 => ⟨l1.2.2 (h7 e1 e2), l2.2.2 (h7 e1 e2)⟩⟩
  · obtain ⟨rfl, rfl⟩ := pair_eq e
    rw [vsq_corner hdd hn]
    have hp : (a, b) = cornerPt d := by
      interval_cases d <;> simp only [cpos, cornerPt] at * <;> rw [Prod.mk.injEq] <;> omega
    have hq := corner_pt hf hdd
    obtain ⟨q1, q2⟩ := pair_eq hp
    rw [← q1, ← q2] at hq
    have l1 := la_sq (t0 := 0) (t := 0) (cornerTab f d).2.1 (le_refl _) (by omega) hn
    have l2 := la_sq (t0 := 0) (t := 0) (cornerTab f d).2.2 (le_refl _) (by omega) hn
    exact ⟨_, _, hq, l1.1, l1.2.1, l2.1, l2.2.1, fun _ _ => ⟨l1.2.2 (Or.inl rfl), l2.2.2 (Or.inl rfl)⟩⟩

/-- One coordinate beyond an edge is fixed, the other runs along the edge. -/
theorem edgeTab_kind {f d : Nat} (hf : f < 6) (hd : d < 4) :
    ((edgeTab f d).2.1 < 2 ∧ 2 ≤ (edgeTab f d).2.2 ∧ (edgeTab f d).2.2 < 4) ∨
    ((edgeTab f d).2.2 < 2 ∧ 2 ≤ (edgeTab f d).2.1 ∧ (edgeTab f d).2.1 < 4) := by
  interval_cases f <;> interval_cases d <;> decide

theorem sq_fixed {n i t : Int} {k : Nat} (hk : k < 2) (h0 : 0 ≤ i) (h1 : i + n ≤ side)
    (h2 : i ≤ la k t) (h3 : la k t ≤ i + n) (t0 : Int) : i = sq n k t0 := by
  interval_cases k <;> simp only [la, sq] at * <;> omega

theorem sq_along {n i t : Int} {k : Nat} (hk : 2 ≤ k) (hk4 : k < 4) (hd : n ∣ side) (hi : n ∣ i) (h0 : 0 ≤ i) (h1 : i + n ≤ side)
    (h2 : i ≤ la k t) (h3 : la k t ≤ i + n) : ∃ t0, i = sq n k t0 ∧ n ∣ t0 ∧ 0 ≤ t0 ∧ t0 + n ≤ side ∧ t0 ≤ t ∧ t ≤ t0 + n := by
  interval_cases k <;> simp only [la, sq] at *
  · exact ⟨i, rfl, hi, h0, h1, h2, h3⟩
  · exact ⟨side - n - i, by omega, dvd_sub (dvd_sub hd (dvd_refl n)) hi, by omega, by omega, by omega, by omega⟩

/-- A square of another face that has a lattice point in common with face `f` is found beyond an edge
of `f`. -/
theorem vsq_conv {f g : Nat} {n i j a b a' b' : Int} (hf : f < 6) (hg : g < 6) (hne : g ≠ f) (hn : 0 < n) (hd : n ∣ side)
    (hi : n ∣ i) (hj : n ∣ j) (hi0 : 0 ≤ i) (hi1 : i + n ≤ side) (hj0 : 0 ≤ j) (hj1 : j + n ≤ side)
    (ha : 0 ≤ a) (ha1 : a ≤ side) (hb : 0 ≤ b) (hb1 : b ≤ side)
    (h1 : i ≤ a') (h2 : a' ≤ i + n) (h3 : j ≤ b') (h4 : b' ≤ j + n) (h : cubePt f a b = cubePt g a' b') :
    ∃ d t t0, d < 4 ∧ (edgeTab f d).1 = g ∧ (a, b) = edgePt d t ∧ a' = la (edgeTab f d).2.1 t ∧ b' = la (edgeTab f d).2.2 t ∧
      i = sq n (edgeTab f d).2.1 t0 ∧ j = sq n (edgeTab f d).2.2 t0 ∧ n ∣ t0 ∧ 0 ≤ t0 ∧ t0 + n ≤ side ∧ t0 ≤ t ∧ t ≤ t0 + n := by
  obtain ⟨d, t, hd4, hgd, _, _, hp, rfl, rfl⟩ := edge_conv hf hg hne ha ha1 hb hb1 h
  refine ⟨d, t, ?_⟩
  rcases edgeTab_kind hf hd4 with ⟨k1, k2, k3⟩ | ⟨k1, k2, k3⟩
  · obtain ⟨t0, e, r⟩ := sq_along k2 k3 hd hj hj0 hj1 h3 h4
    have := sq_fixed k1 hi0 hi1 h1 h2 t0
    exact ⟨t0, hd4, hgd, hp, rfl, rfl, by omega, e, r⟩
  · obtain ⟨t0, e, r⟩ := sq_along k2 k3 hd hi hi0 hi1 h1 h2
    have := sq_fixed k1 hj0 hj1 h3 h4 t0
    exact ⟨t0, hd4, hgd, hp, rfl, rfl, e, by omega, r⟩

theorem sq_inj {n t t' : Int} {k : Nat} (hk : 2 ≤ k) (hk4 : k < 4) (h : sq n k t = sq n k t') : t = t' := by
  interval_cases k <;> simp only [sq] at h <;> omega

/-- Different positions in the face or beyond the edges give different squares. -/
theorem vsq_inj {f : Nat} {n x y x' y' : Int} (hf : f < 6) (hn : 0 < n) (hd : n ∣ side) (hx : n ∣ x) (hy : n ∣ y)
    (hx' : n ∣ x') (hy' : n ∣ y') (h1 : -n ≤ x) (h2 : x ≤ side) (h3 : -n ≤ y) (h4 : y ≤ side)
    (h1' : -n ≤ x') (h2' : x' ≤ side) (h3' : -n ≤ y') (h4' : y' ≤ side)
    (hc : (0 ≤ x ∧ x < side) ∨ (0 ≤ y ∧ y < side)) (hc' : (0 ≤ x' ∧ x' < side) ∨ (0 ≤ y' ∧ y' < side))
    (h : vsq f n x y = vsq f n x' y') : x = x' ∧ y = y' := by
  have nocorner : ∀ {x y : Int}, ((0 ≤ x ∧ x < side) ∨ (0 ≤ y ∧ y < side)) → ¬ ∃ d, d < 4 ∧ (x, y) = cpos n d := by
    rintro x y h ⟨d, hd, e⟩
    obtain ⟨rfl, rfl⟩ := pair_eq e
    interval_cases d <;> simp only [cpos] at h <;> omega
  rcases pos_cases hn hd hx hy h1 h2 h3 h4 with g | ⟨d, t, hdd, ht0, ht1, _, e⟩ | g
  · rw [vsq_in hn g.1 g.2.1 g.2.2.1 g.2.2.2] at h
    rcases pos_cases hn hd hx' hy' h1' h2' h3' h4' with g' | ⟨d', t', hdd', ht0', ht1', _, e'⟩ | g'
    · rw [vsq_in hn g'.1 g'.2.1 g'.2.2.1 g'.2.2.2] at h
      simp only [Prod.mk.injEq] at h
      exact h.2
    · obtain ⟨rfl, rfl⟩ := pair_eq e'
      rw [vsq_edge hdd' hn ht0' ht1'] at h
      exact absurd (Prod.mk.inj h).1.symm (edgeTab_lt hf hdd').2.1
    · exact absurd g' (nocorner hc')
  · obtain ⟨rfl, rfl⟩ := pair_eq e
    rw [vsq_edge hdd hn ht0 ht1] at h
    rcases pos_cases hn hd hx' hy' h1' h2' h3' h4' with g' | ⟨d', t', hdd', ht0', ht1', _, e'⟩ | g'
    · rw [vsq_in hn g'.1 g'.2.1 g'.2.2.1 g'.2.2.2] at h
      exact absurd (Prod.mk.inj h).1 (edgeTab_lt hf hdd).2.1
    · obtain ⟨rfl, rfl⟩ := pair_eq e'
      rw [vsq_edge hdd' hn ht0' ht1'] at h
      simp only [Prod.mk.injEq] at h
      obtain rfl := edgeTab_inj hf hdd hdd' h.1
      have : t = t' := by
        rcases edgeTab_kind hf hdd with ⟨_, k2, k3⟩ | ⟨_, k2, k3⟩
        · exact sq_inj k2 k3 h.2.2
        · exact sq_inj k2 k3 h.2.1
      subst this
      exact ⟨rfl, rfl⟩
    · exact absurd g' (nocorner hc')
  · exact absurd g (nocorner hc)

end Verif
