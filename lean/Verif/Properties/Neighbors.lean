import Verif.Proofs.Adjacent
import Verif.Proofs.Float

/-!
# Properties of the neighbour functions (C23 to C25)

`fl` is the rounding function of the floating-point type. The theorems hold for every rounding with
the error bound of IEEE 754 (`Rounding`), in particular for exact arithmetic
(`rounding_id`) and for rounding to the nearest `f64` (`rounding_f64`).
-/

namespace Verif
open Rust Spec CellID

/-! ## Setting -/

theorem isCorner_iff {c : CellID} {f : Nat} {i j s : Int} (h : Square c f i j s) {P : Pt} :
    IsCorner c P ↔ ∃ a b, (a = i ∨ a = i + s) ∧ (b = j ∨ b = j + s) ∧ P = cubePt f a b := by
  constructor
  · rintro ⟨g, i', j', s', a, b, h', ha, hb, rfl⟩
    obtain ⟨rfl, rfl, rfl, rfl⟩ := square_unique h h'
    exact ⟨_, _, by omega, by omega, rfl⟩
  · rintro ⟨a, b, ha, hb, rfl⟩
    exact corner_of h a b ha hb

theorem onCell_iff {c : CellID} {f : Nat} {i j s : Int} (h : Square c f i j s) {P : Pt} :
    OnCell c P ↔ ∃ a b, i ≤ a ∧ a ≤ i + s ∧ j ≤ b ∧ b ≤ j + s ∧ P = cubePt f a b := by
  constructor
  · rintro ⟨g, i', j', s', a, b, h', h1, h2, h3, h4, rfl⟩
    obtain ⟨rfl, rfl, rfl, rfl⟩ := square_unique h h'
    exact ⟨_, _, by omega, by omega, by omega, by omega, rfl⟩
  · rintro ⟨a, b, h1, h2, h3, h4, rfl⟩
    exact ⟨f, i, j, s, a - i, b - j, h, by omega, by omega, by omega, by omega, by congr 1 <;> omega⟩

theorem sizeI32_eq {k : Nat} (hk : k ≤ 30) : sizeI32 k = some ((2 ^ (30 - k) : Nat) : Int) := by
  interval_cases k <;> decide +kernel

/-- The square of a cell together with the coordinates the code works with. -/
theorem Valid.setting {c : CellID} {k : Nat} (h : Valid c) (hk : c.level = some k) :
    ∃ n : Int, ∃ f i0 j0 i j o, n = ((2 ^ (30 - k) : Nat) : Int) ∧ k ≤ 30 ∧ f < 6 ∧ 0 < n ∧ n ≤ side ∧ n ∣ side ∧
      Square c f i0 j0 n ∧ n ∣ i0 ∧ n ∣ j0 ∧ c.faceIJOrientation = some (f, i, j, o) ∧
      i0 ≤ i ∧ i < i0 + n ∧ j0 ≤ j ∧ j < j0 + n := by
  obtain ⟨i0, j0, i, j, o, h1, h2, h3, h4, h5⟩ := c19_square h hk
  have hk30 : k ≤ 30 := by have := h.lv_le; rw [lv_of_level hk] at this; exact this
  have e : ((2 ^ (30 - k) : Nat) : Int) = 2 ^ (30 - k) := by push_cast; rfl
  rw [← e] at *
  exact ⟨_, _, i0, j0, i, j, o, rfl, hk30, h1.face, size_bounds.1, size_bounds.2, size_dvd hk30, h1, h2, h3, h4, h5⟩

theorem i32_ok {x : Int} (h1 : -2147483648 ≤ x) (h2 : x < 2147483648) : i32 x = some x := by
  unfold i32
  rw [if_pos ⟨by omega, by omega⟩]

/-- The cell found at a position around the face. -/
def Nb (f k : Nat) (n x y : Int) (X : CellID) : Prop :=
  Valid X ∧ X.level = some k ∧ Square X (vsq f n x y).1 (vsq f n x y).2.1 (vsq f n x y).2.2 n

theorem Nb.eq {f k : Nat} {n x y : Int} {X Y : CellID} (h : Nb f k n x y X) (hY : Valid Y)
    {g : Nat} {i j : Int} (hs : Square Y g i j n) (e : vsq f n x y = (g, i, j)) : Y = X := by
  have := h.2.2
  rw [e] at this
  exact (c19_square_unique hY h.1 hs this).2 ⟨rfl, rfl, rfl, rfl⟩

theorem Nb.ne {f k : Nat} {n x y x' y' : Int} {X Y : CellID} (h : Nb f k n x y X) (h' : Nb f k n x' y' Y)
    (hne : vsq f n x y ≠ vsq f n x' y') : X ≠ Y := by
  intro e
  have := (c19_square_unique h.1 h'.1 h.2.2 h'.2.2).1 e
  exact hne (Prod.ext this.1.symm (Prod.ext this.2.1.symm this.2.2.1.symm))

theorem wrap_nb {fl : ℚ → ℚ} (h : Rounding fl) {f k : Nat} {n x0 y0 x y : Int} (hf : f < 6) (hk : k ≤ 30)
    (hn : n = ((2 ^ (30 - k) : Nat) : Int)) (hx : n ∣ x0) (hy : n ∣ y0)
    (h1 : x0 ≤ x) (h2 : x < x0 + n) (h3 : y0 ≤ y) (h4 : y < y0 + n) :
    ∃ l X, fromFaceIJWrap fl f x y = some l ∧ l.parent k = some X ∧ Nb f k n x0 y0 X := by
  obtain ⟨X, e, r⟩ := wrap_parent h hf hk hn hx hy h1 h2 h3 h4
  obtain ⟨l, e1, e2⟩ := Option.bind_eq_some_iff.1 e
  exact ⟨l, X, e1, e2, r⟩

/-! ## C23: edge neighbours -/

theorem edge_core {fl : ℚ → ℚ} (hfl : Rounding fl) {c : CellID} {k : Nat} (h : Valid c) (hk : c.level = some k) :
    ∃ n : Int, ∃ f i0 j0 a b d e, n = ((2 ^ (30 - k) : Nat) : Int) ∧ f < 6 ∧ 0 < n ∧ n ∣ side ∧
      Square c f i0 j0 n ∧ n ∣ i0 ∧ n ∣ j0 ∧ c.edgeNeighbors fl = some [a, b, d, e] ∧
      Nb f k n i0 (j0 - n) a ∧ Nb f k n (i0 + n) j0 b ∧ Nb f k n i0 (j0 + n) d ∧ Nb f k n (i0 - n) j0 e := by
  obtain ⟨n, f, i0, j0, i, j, o, hn, hk30, hf, hn0, hns, hdv, hsq, hi, hj, hij, h1, h2, h3, h4⟩ := h.setting hk
  have b1 := hsq.i_lo
  have b2 := hsq.i_hi
  have b3 := hsq.j_lo
  have b4 := hsq.j_hi
  have d1 : n ∣ j0 - n := dvd_sub hj (dvd_refl n)
  have d2 : n ∣ i0 + n := dvd_add hi (dvd_refl n)
  have d3 : n ∣ j0 + n := dvd_add hj (dvd_refl n)
  have d4 : n ∣ i0 - n := dvd_sub hi (dvd_refl n)
  obtain ⟨l1, a, p1, q1, r1⟩ := wrap_nb hfl hf hk30 hn hi d1 h1 h2 (show j0 - n ≤ j - n by omega) (by omega)
  obtain ⟨l2, b, p2, q2, r2⟩ := wrap_nb hfl hf hk30 hn d2 hj (show i0 + n ≤ i + n by omega) (by omega) h3 h4
  obtain ⟨l3, d, p3, q3, r3⟩ := wrap_nb hfl hf hk30 hn hi d3 h1 h2 (show j0 + n ≤ j + n by omega) (by omega)
  obtain ⟨l4, e, p4, q4, r4⟩ := wrap_nb hfl hf hk30 hn d4 hj (show i0 - n ≤ i - n by omega) (by omega) h3 h4
  refine ⟨n, f, i0, j0, a, b, d, e, hn, hf, hn0, hdv, hsq, hi, hj, ?_, r1, r2, r3, r4⟩
  unfold side at *
  unfold edgeNeighbors
  simp only [Option.bind_eq_bind]
  rw [hk, Option.bind_some, sizeI32_eq hk30, ← hn, Option.bind_some, hij, Option.bind_some]
  dsimp only
  rw [i32_ok (x := j - n) (by omega) (by omega), Option.bind_some, p1, Option.bind_some, q1, Option.bind_some,
    i32_ok (x := i + n) (by omega) (by omega), Option.bind_some, p2, Option.bind_some, q2, Option.bind_some,
    i32_ok (x := j + n) (by omega) (by omega), Option.bind_some, p3, Option.bind_some, q3, Option.bind_some,
    i32_ok (x := i - n) (by omega) (by omega), Option.bind_some, p4, Option.bind_some, q4, Option.bind_some]

/-- A lattice point of the face on the closed square at the position is on the cell found. -/
theorem Nb.corner {f k : Nat} {n x y a b : Int} {X : CellID} (h : Nb f k n x y X) (hf : f < 6) (hn : 0 < n) (hd : n ∣ side)
    (hx : n ∣ x) (hy : n ∣ y) (h1 : -n ≤ x) (h2 : x ≤ side) (h3 : -n ≤ y) (h4 : y ≤ side) (ha : 0 ≤ a) (ha1 : a ≤ side)
    (hb : 0 ≤ b) (hb1 : b ≤ side) (hax : a = x ∨ a = x + n) (hby : b = y ∨ b = y + n) : IsCorner X (cubePt f a b) := by
  obtain ⟨a', b', e, _, _, _, _, hc⟩ := vsq_on hf hn hd hx hy h1 h2 h3 h4 ha ha1 hb hb1 (by omega) (by omega) (by omega) (by omega)
  rw [isCorner_iff h.2.2]
  have := hc hax hby
  exact ⟨a', b', this.1, this.2, e⟩

theorem Nb.on {f k : Nat} {n x y a b : Int} {X : CellID} (h : Nb f k n x y X) (hf : f < 6) (hn : 0 < n) (hd : n ∣ side)
    (hx : n ∣ x) (hy : n ∣ y) (h1 : -n ≤ x) (h2 : x ≤ side) (h3 : -n ≤ y) (h4 : y ≤ side) (ha : 0 ≤ a) (ha1 : a ≤ side)
    (hb : 0 ≤ b) (hb1 : b ≤ side) (hax : x ≤ a) (hax1 : a ≤ x + n) (hby : y ≤ b) (hby1 : b ≤ y + n) :
    OnCell X (cubePt f a b) := by
  obtain ⟨a', b', e, q1, q2, q3, q4, _⟩ := vsq_on hf hn hd hx hy h1 h2 h3 h4 ha ha1 hb hb1 hax hax1 hby hby1
  rw [onCell_iff h.2.2]
  exact ⟨a', b', q1, q2, q3, q4, e⟩

/-- **C23.** `edge_neighbors` of a valid cell returns four cells of the same level. They are valid, different
from each other and from the cell. In the order down, right, up, left, each has the two corners of the
respective edge of the cell as corners. -/
theorem c23_edge_neighbors {fl : ℚ → ℚ} (hfl : Rounding fl) {c : CellID} {k : Nat} (h : Valid c)
    (hk : c.level = some k) :
    ∃ a b d e, c.edgeNeighbors fl = some [a, b, d, e] ∧ [c, a, b, d, e].Nodup ∧
      (∀ x ∈ [a, b, d, e], Valid x ∧ x.level = some k) ∧
      ∀ f i j s, Square c f i j s →
        (IsCorner a (cubePt f i j) ∧ IsCorner a (cubePt f (i + s) j)) ∧
        (IsCorner b (cubePt f (i + s) j) ∧ IsCorner b (cubePt f (i + s) (j + s))) ∧
        (IsCorner d (cubePt f i (j + s)) ∧ IsCorner d (cubePt f (i + s) (j + s))) ∧
        (IsCorner e (cubePt f i j) ∧ IsCorner e (cubePt f i (j + s))) := by
  obtain ⟨n, f, i0, j0, a, b, d, e, hn, hf, hn0, hdv, hsq, hi, hj, hE, r1, r2, r3, r4⟩ := edge_core hfl h hk
  have b1 := hsq.i_lo
  have b2 := hsq.i_hi
  have b3 := hsq.j_lo
  have b4 := hsq.j_hi
  have d1 : n ∣ j0 - n := dvd_sub hj (dvd_refl n)
  have d2 : n ∣ i0 + n := dvd_add hi (dvd_refl n)
  have d3 : n ∣ j0 + n := dvd_add hj (dvd_refl n)
  have d4 : n ∣ i0 - n := dvd_sub hi (dvd_refl n)
  have r0 : Nb f k n i0 j0 c := ⟨h, hk, by rw [vsq_in hn0 b1 b2 b3 b4]; exact hsq⟩
  have inj := @vsq_inj f n
  refine ⟨a, b, d, e, hE, ?_, ?_, ?_⟩
  · simp only [List.nodup_cons, List.mem_cons, List.not_mem_nil, or_false, not_or, not_false_eq_true,
      List.nodup_nil, and_true]
    refine ⟨⟨?_, ?_, ?_, ?_⟩, ⟨?_, ?_, ?_⟩, ⟨?_, ?_⟩, ?_⟩
    · exact r0.ne r1 fun e => by
        have := inj hf hn0 hdv hi hj hi d1 (by omega) (by omega) (by omega) (by omega) (by omega) (by omega) (by omega) (by omega) (by omega) (by omega) e
        omega
    · exact r0.ne r2 fun e => by
        have := inj hf hn0 hdv hi hj d2 hj (by omega) (by omega) (by omega) (by omega) (by omega) (by omega) (by omega) (by omega) (by omega) (by omega) e
        omega
    · exact r0.ne r3 fun e => by
        have := inj hf hn0 hdv hi hj hi d3 (by omega) (by omega) (by omega) (by omega) (by omega) (by omega) (by omega) (by omega) (by omega) (by omega) e
        omega
    · exact r0.ne r4 fun e => by
        have := inj hf hn0 hdv hi hj d4 hj (by omega) (by omega) (by omega) (by omega) (by omega) (by omega) (by omega) (by omega) (by omega) (by omega) e
        omega
    · exact r1.ne r2 fun e => by
        have := inj hf hn0 hdv hi d1 d2 hj (by omega) (by omega) (by omega) (by omega) (by omega) (by omega) (by omega) (by omega) (by omega) (by omega) e
        omega
    · exact r1.ne r3 fun e => by
        have := inj hf hn0 hdv hi d1 hi d3 (by omega) (by omega) (by omega) (by omega) (by omega) (by omega) (by omega) (by omega) (by omega) (by omega) e
        omega
    · exact r1.ne r4 fun e => by
        have := inj hf hn0 hdv hi d1 d4 hj (by omega) (by omega) (by omega) (by omega) (by omega) (by omega) (by omega) (by omega) (by omega) (by omega) e
        omega
    · exact r2.ne r3 fun e => by
        have := inj hf hn0 hdv d2 hj hi d3 (by omega) (by omega) (by omega) (by omega) (by omega) (by omega) (by omega) (by omega) (by omega) (by omega) e
        omega
    · exact r2.ne r4 fun e => by
        have := inj hf hn0 hdv d2 hj d4 hj (by omega) (by omega) (by omega) (by omega) (by omega) (by omega) (by omega) (by omega) (by omega) (by omega) e
        omega
    · exact r3.ne r4 fun e => by
        have := inj hf hn0 hdv hi d3 d4 hj (by omega) (by omega) (by omega) (by omega) (by omega) (by omega) (by omega) (by omega) (by omega) (by omega) e
        omega
  · intro x hx
    simp only [List.mem_cons, List.not_mem_nil, or_false] at hx
    rcases hx with rfl | rfl | rfl | rfl
    exacts [⟨r1.1, r1.2.1⟩, ⟨r2.1, r2.2.1⟩, ⟨r3.1, r3.2.1⟩, ⟨r4.1, r4.2.1⟩]
  · intro g i j s hs
    obtain ⟨rfl, rfl, rfl, rfl⟩ := square_unique hsq hs
    refine ⟨⟨?_, ?_⟩, ⟨?_, ?_⟩, ⟨?_, ?_⟩, ?_, ?_⟩
    · exact r1.corner hf hn0 hdv hi d1 (by omega) (by omega) (by omega) (by omega) (by omega) (by omega) (by omega) (by omega) (by omega) (by omega)
    · exact r1.corner hf hn0 hdv hi d1 (by omega) (by omega) (by omega) (by omega) (by omega) (by omega) (by omega) (by omega) (by omega) (by omega)
    · exact r2.corner hf hn0 hdv d2 hj (by omega) (by omega) (by omega) (by omega) (by omega) (by omega) (by omega) (by omega) (by omega) (by omega)
    · exact r2.corner hf hn0 hdv d2 hj (by omega) (by omega) (by omega) (by omega) (by omega) (by omega) (by omega) (by omega) (by omega) (by omega)
    · exact r3.corner hf hn0 hdv hi d3 (by omega) (by omega) (by omega) (by omega) (by omega) (by omega) (by omega) (by omega) (by omega) (by omega)
    · exact r3.corner hf hn0 hdv hi d3 (by omega) (by omega) (by omega) (by omega) (by omega) (by omega) (by omega) (by omega) (by omega) (by omega)
    · exact r4.corner hf hn0 hdv d4 hj (by omega) (by omega) (by omega) (by omega) (by omega) (by omega) (by omega) (by omega) (by omega) (by omega)
    · exact r4.corner hf hn0 hdv d4 hj (by omega) (by omega) (by omega) (by omega) (by omega) (by omega) (by omega) (by omega) (by omega) (by omega)

theorem one_common {i i' n p q : Int} (hn : 0 < n) (h1 : p = i ∨ p = i + n) (h2 : p = i' ∨ p = i' + n)
    (h3 : q = i ∨ q = i + n) (h4 : q = i' ∨ q = i' + n) : i' = i ∨ p = q := by omega

/-- A square with two corners in common with another square is found beyond an edge. -/
theorem edge_squares {f g : Nat} {n i0 j0 i' j' p1 p2 q1 q2 p1' p2' q1' q2' : Int} (hf : f < 6) (hg : g < 6) (hn0 : 0 < n) (hdv : n ∣ side)
    (hi' : n ∣ i') (hj' : n ∣ j') (b1 : 0 ≤ i0) (b2 : i0 + n ≤ side) (b3 : 0 ≤ j0) (b4 : j0 + n ≤ side)
    (b1' : 0 ≤ i') (b2' : i' + n ≤ side) (b3' : 0 ≤ j') (b4' : j' + n ≤ side)
    (hp1 : p1 = i0 ∨ p1 = i0 + n) (hp2 : p2 = j0 ∨ p2 = j0 + n) (hq1 : q1 = i0 ∨ q1 = i0 + n) (hq2 : q2 = j0 ∨ q2 = j0 + n)
    (hp1' : p1' = i' ∨ p1' = i' + n) (hp2' : p2' = j' ∨ p2' = j' + n) (hq1' : q1' = i' ∨ q1' = i' + n) (hq2' : q2' = j' ∨ q2' = j' + n)
    (eP : cubePt f p1 p2 = cubePt g p1' p2') (eQ : cubePt f q1 q2 = cubePt g q1' q2')
    (hPQ : cubePt f p1 p2 ≠ cubePt f q1 q2) (hsame : ¬ (g = f ∧ i' = i0 ∧ j' = j0)) :
    vsq f n i0 (j0 - n) = (g, i', j') ∨ vsq f n (i0 + n) j0 = (g, i', j') ∨ vsq f n i0 (j0 + n) = (g, i', j') ∨
      vsq f n (i0 - n) j0 = (g, i', j') := by
  have u : ∀ {p i : Int}, (p = i ∨ p = i + n) → i ≤ p ∧ p ≤ i + n := by intros; omega
  by_cases hgf : g = f
  · subst hgf
    obtain ⟨rfl, rfl⟩ := cubePt_inj eP
    obtain ⟨rfl, rfl⟩ := cubePt_inj eQ
    have hne2 : ¬ (p1 = q1 ∧ p2 = q2) := by
      rintro ⟨rfl, rfl⟩
      exact hPQ rfl
    have e1 := vsq_in (f := g) hn0 b1' b2' b3' b4'
    have c1 : i' = i0 ∨ i' = i0 - n ∨ i' = i0 + n := by omega
    have c2 : j' = j0 ∨ j' = j0 - n ∨ j' = j0 + n := by omega
    have o1 := one_common hn0 hp1 hp1' hq1 hq1'
    have o2 := one_common hn0 hp2 hp2' hq2 hq2'
    have hs : ¬ (i' = i0 ∧ j' = j0) := fun h => hsame ⟨rfl, h⟩
    clear hp1 hp1' hq1 hq1' hp2 hp2' hq2 hq2' eP eQ hPQ hsame
    have : (i' = i0 ∧ j' = j0 - n) ∨ (i' = i0 + n ∧ j' = j0) ∨ (i' = i0 ∧ j' = j0 + n) ∨ (i' = i0 - n ∧ j' = j0) := by omega
    rcases this with ⟨rfl, rfl⟩ | ⟨rfl, rfl⟩ | ⟨rfl, rfl⟩ | ⟨rfl, rfl⟩
    · exact Or.inl e1
    · exact Or.inr (Or.inl e1)
    · exact Or.inr (Or.inr (Or.inl e1))
    · exact Or.inr (Or.inr (Or.inr e1))
  · obtain ⟨dP, tP, t0, hd4, hgP, epP, _, _, eiP, ejP, _, t00, t01, tP0, tP1⟩ := vsq_conv hf hg hgf hn0 hdv hi' hj' b1' b2' b3' b4'
      (b1.trans (u hp1).1) ((u hp1).2.trans b2) (b3.trans (u hp2).1) ((u hp2).2.trans b4) (u hp1').1 (u hp1').2 (u hp2').1 (u hp2').2 eP
    obtain ⟨dQ, tQ, t0', hd4', hgQ, epQ, _, _, eiQ, ejQ, _, t00', t01', tQ0, tQ1⟩ := vsq_conv hf hg hgf hn0 hdv hi' hj' b1' b2' b3' b4'
      (b1.trans (u hq1).1) ((u hq1).2.trans b2) (b3.trans (u hq2).1) ((u hq2).2.trans b4) (u hq1').1 (u hq1').2 (u hq2').1 (u hq2').2 eQ
    obtain rfl := edgeTab_inj hf hd4 hd4' (hgP.trans hgQ.symm)
    have et : t0' = t0 := by
      rcases edgeTab_kind hf hd4 with ⟨_, k2, k3⟩ | ⟨_, k2, k3⟩
      · exact sq_inj k2 k3 (ejQ.symm.trans ejP)
      · exact sq_inj k2 k3 (eiQ.symm.trans eiP)
    obtain ⟨e3, e4⟩ := pair_eq epP
    obtain ⟨e5, e6⟩ := pair_eq epQ
    have htne : tP ≠ tQ := by
      rintro rfl
      exact hPQ (by rw [e3, e4, e5, e6])
    have e1 := vsq_edge (f := f) hd4 hn0 t00 t01
    rw [hgP, ← eiP, ← ejP] at e1
    clear eiQ ejQ eiP ejP hgP hgQ eP eQ hp1' hq1' hp2' hq2' epP epQ hPQ hsame b1' b2' b3' b4' t00' t01' hi' hj' hdv
    subst et
    interval_cases dP <;> simp only [edgePt, dpos] at e1 e3 e4 e5 e6
    · have : t0' = i0 ∧ j0 = 0 := by omega
      rw [this.1, show -n = j0 - n by omega] at e1
      exact Or.inl e1
    · have : t0' = j0 ∧ i0 + n = side := by omega
      rw [this.1, ← this.2] at e1
      exact Or.inr (Or.inl e1)
    · have : t0' = i0 ∧ j0 + n = side := by omega
      rw [this.1, ← this.2] at e1
      exact Or.inr (Or.inr (Or.inl e1))
    · have : t0' = j0 ∧ i0 = 0 := by omega
      rw [this.1, show -n = i0 - n by omega] at e1
      exact Or.inr (Or.inr (Or.inr e1))

/-- **C23.** The edge neighbours are exactly the cells of the same level that share an edge with the cell. -/
theorem c23_exact {fl : ℚ → ℚ} (hfl : Rounding fl) {c d : CellID} {k : Nat} (h : Valid c) (hk : c.level = some k)
    (hd : Valid d) (hdk : d.level = some k) :
    ∃ xs, c.edgeNeighbors fl = some xs ∧ (d ∈ xs ↔ d ≠ c ∧ ShareEdge c d) := by
  obtain ⟨a, b, u, e, hE, hnd, -, hcor⟩ := c23_edge_neighbors hfl h hk
  refine ⟨_, hE, ?_, ?_⟩
  · intro hm
    obtain ⟨n, f, i0, j0, _, _, _, _, _, _, hn0, _, hsq, _⟩ := edge_core hfl h hk
    obtain ⟨⟨k1, k2⟩, ⟨k3, k4⟩, ⟨k5, k6⟩, k7, k8⟩ := hcor f i0 j0 n hsq
    have hne : d ≠ c := by rintro rfl; exact (List.nodup_cons.1 hnd).1 hm
    refine ⟨hne, ?_⟩
    simp only [List.mem_cons, List.not_mem_nil, or_false] at hm
    have cc : ∀ x y, (x = i0 ∨ x = i0 + n) → (y = j0 ∨ y = j0 + n) → IsCorner c (cubePt f x y) :=
      fun x y hx hy => corner_of hsq x y hx hy
    rcases hm with rfl | rfl | rfl | rfl
    · exact ⟨_, _, fun e => by have := cubePt_inj e; omega, cc _ _ (by omega) (by omega), cc _ _ (by omega) (by omega), k1, k2⟩
    · exact ⟨_, _, fun e => by have := cubePt_inj e; omega, cc _ _ (by omega) (by omega), cc _ _ (by omega) (by omega), k3, k4⟩
    · exact ⟨_, _, fun e => by have := cubePt_inj e; omega, cc _ _ (by omega) (by omega), cc _ _ (by omega) (by omega), k5, k6⟩
    · exact ⟨_, _, fun e => by have := cubePt_inj e; omega, cc _ _ (by omega) (by omega), cc _ _ (by omega) (by omega), k7, k8⟩
  · rintro ⟨hne, P, Q, hPQ, hcP, hcQ, hdP, hdQ⟩
    clear hnd hcor
    obtain ⟨n, f, i0, j0, a', b', u', e', hn, hf, hn0, hdv, hsq, hi, hj, hE', r1, r2, r3, r4⟩ := edge_core hfl h hk
    rw [hE] at hE'
    simp only [Option.some.injEq, List.cons.injEq, and_true] at hE'
    obtain ⟨rfl, rfl, rfl, rfl⟩ := hE'
    obtain ⟨n', g, i', j', _, _, _, hn', -, hg, -, -, -, hsq', hi', hj', -⟩ := hd.setting hdk
    rw [← hn] at hn'
    subst hn'
    have b1 := hsq.i_lo
    have b2 := hsq.i_hi
    have b3 := hsq.j_lo
    have b4 := hsq.j_hi
    have b1' := hsq'.i_lo
    have b2' := hsq'.i_hi
    have b3' := hsq'.j_lo
    have b4' := hsq'.j_hi
    obtain ⟨p1, p2, hp1, hp2, rfl⟩ := (isCorner_iff hsq).1 hcP
    obtain ⟨q1, q2, hq1, hq2, rfl⟩ := (isCorner_iff hsq).1 hcQ
    obtain ⟨p1', p2', hp1', hp2', eP⟩ := (isCorner_iff hsq').1 hdP
    obtain ⟨q1', q2', hq1', hq2', eQ⟩ := (isCorner_iff hsq').1 hdQ
    simp only [List.mem_cons, List.not_mem_nil, or_false]
    rcases edge_squares hf hg hn0 hdv hi' hj' hsq.i_lo hsq.i_hi hsq.j_lo hsq.j_hi hsq'.i_lo hsq'.i_hi hsq'.j_lo hsq'.j_hi
      hp1 hp2 hq1 hq2 hp1' hp2' hq1' hq2' eP eQ hPQ (by
        rintro ⟨rfl, rfl, rfl⟩
        exact hne ((c19_square_unique hd h hsq' hsq).2 ⟨rfl, rfl, rfl, rfl⟩)) with e1 | e1 | e1 | e1
    · exact Or.inl (r1.eq hd hsq' e1)
    · exact Or.inr (Or.inl (r2.eq hd hsq' e1))
    · exact Or.inr (Or.inr (Or.inl (r3.eq hd hsq' e1)))
    · exact Or.inr (Or.inr (Or.inr (r4.eq hd hsq' e1)))

/-- **C23.** Being an edge neighbour is symmetric. -/
theorem c23_symmetric {fl : ℚ → ℚ} (hfl : Rounding fl) {c d : CellID} {xs : List CellID} (h : Valid c)
    (hx : c.edgeNeighbors fl = some xs) (hm : d ∈ xs) :
    ∃ ys, d.edgeNeighbors fl = some ys ∧ c ∈ ys := by
  obtain ⟨a, b, u, e, hE, -, hv, -⟩ := c23_edge_neighbors hfl h h.level
  rw [hx] at hE
  obtain rfl := Option.some.inj hE
  have hd := hv d hm
  obtain ⟨xs', h1, h2⟩ := c23_exact hfl h h.level hd.1 hd.2
  rw [hx] at h1
  obtain rfl := Option.some.inj h1
  obtain ⟨hne, P, Q, hPQ, k1, k2, k3, k4⟩ := h2.1 hm
  obtain ⟨ys, h3, h4⟩ := c23_exact hfl hd.1 hd.2 h h.level
  exact ⟨ys, h3, h4.2 ⟨hne.symm, P, Q, hPQ, k3, k4, k1, k2⟩⟩

example : (⟨0x7b37fda650000000#64⟩ : CellID).isValid = some true ∧
    (⟨0x7b37fda650000000#64⟩ : CellID).level = some 16 := by decide +kernel

example : Rounding (roundF64 : ℚ → ℚ) := rounding_f64

/-! ## C25: all neighbours -/

theorem and_neg32 {x s : Nat} (hs : s < 32) :
    BitVec.ofNat 32 x &&& -(BitVec.ofNat 32 (2 ^ s)) = BitVec.ofNat 32 (x / 2 ^ s * 2 ^ s) := by
  apply BitVec.eq_of_getLsbD_eq
  intro i hi
  have e2 : ∀ j, (BitVec.ofNat 32 (2 ^ s)).getLsbD j = (decide (j < 32) && decide (j = s)) := by
    intro j
    simp only [BitVec.getLsbD_ofNat, Nat.testBit_two_pow]
    simp [eq_comm]
  have ex : (∃ j, j < i ∧ (BitVec.ofNat 32 (2 ^ s)).getLsbD j = true) ↔ s < i := by
    constructor
    · rintro ⟨j, hj, hb⟩
      rw [e2] at hb; simp at hb; omega
    · intro h; exact ⟨s, h, by rw [e2]; simp [hs]⟩
  rw [BitVec.getLsbD_and, BitVec.getLsbD_neg, e2, BitVec.getLsbD_ofNat, BitVec.getLsbD_ofNat, Nat.testBit_mul_two_pow]
  simp only [ex, Nat.testBit_div_two_pow]
  by_cases e : i = s
  · subst e; simp [hi]
  · by_cases lt : s < i
    · have h1 : s ≤ i := by omega
      have h3 : i - s + s = i := by omega
      simp [hi, e, lt, h1, h3]
    · have h1 : ¬ s ≤ i := by omega
      simp [e, lt, h1]

/-- `i &= -size` rounds down to a multiple of the size. -/
theorem mask_eq {k : Nat} (hk : k ≤ 30) {n i0 i : Int} (hn : n = ((2 ^ (30 - k) : Nat) : Int)) (hi0 : 0 ≤ i0) (hd : n ∣ i0)
    (h1 : i0 ≤ i) (h2 : i < i0 + n) (h3 : i0 + n ≤ side) :
    ((BitVec.ofInt 32 i) &&& (BitVec.ofInt 32 (-n))).toInt = i0 := by
  have hnp := size_bounds (k := k)
  obtain ⟨a, rfl⟩ := Int.eq_ofNat_of_zero_le (show 0 ≤ i by omega)
  rw [BitVec.ofInt_neg, hn, BitVec.ofInt_natCast, BitVec.ofInt_natCast, and_neg32 (by omega)]
  rw [← hn] at hnp
  have e : ((a / 2 ^ (30 - k) * 2 ^ (30 - k) : Nat) : Int) = i0 := by
    obtain ⟨q, rfl⟩ := hd
    push_cast
    have : (a : Int) / n = q := by
      rw [Int.ediv_eq_iff_of_pos hnp.1]
      constructor <;> linarith [mul_comm q n]
    have hn' : (2:Int) ^ (30 - k) = n := by rw [hn]; push_cast; rfl
    rw [hn', this, mul_comm]
  have hlt : a / 2 ^ (30 - k) * 2 ^ (30 - k) < 2 ^ 31 := by unfold side at *; omega
  generalize a / 2 ^ (30 - k) * 2 ^ (30 - k) = z at *
  have ez : (BitVec.ofNat 32 z).toNat = z := by
    rw [BitVec.toNat_ofNat]; exact Nat.mod_eq_of_lt (by omega)
  rw [BitVec.toInt_eq_toNat_of_lt (by rw [ez]; omega), ez, e]

theorem same_nb {fl : ℚ → ℚ} (h : Rounding fl) {f k : Nat} {n x0 y0 x y : Int} {b : Bool} (hf : f < 6) (hk : k ≤ 30)
    (hn : n = ((2 ^ (30 - k) : Nat) : Int)) (hx : n ∣ x0) (hy : n ∣ y0)
    (h1 : x0 ≤ x) (h2 : x < x0 + n) (h3 : y0 ≤ y) (h4 : y < y0 + n)
    (hb : b = true → 0 ≤ x ∧ x < side ∧ 0 ≤ y ∧ y < side) :
    ∃ l X, fromFaceIJSame fl f x y b = some l ∧ l.parent k = some X ∧ Nb f k n x0 y0 X := by
  have e : fromFaceIJSame fl f x y b = fromFaceIJWrap fl f x y := by
    unfold fromFaceIJSame
    by_cases hbt : b = true
    · have := hb hbt
      rw [if_pos hbt, wrap_eq h hf, wrapInt, if_neg (by omega), if_neg (by unfold side at *; omega), if_neg (by omega),
        if_neg (by unfold side at *; omega)]
    · rw [if_neg hbt]
  rw [e]
  exact wrap_nb h hf hk hn hx hy h1 h2 h3 h4

/-- The positions visited at step `k`. -/
def Ring (f l : Nat) (n s i0 j0 k : Int) (X : CellID) : Prop :=
  Nb f l n (i0 - n) (j0 + k) X ∨ Nb f l n (i0 + s) (j0 + k) X ∨
    (0 ≤ k ∧ k < s ∧ (Nb f l n (i0 + k) (j0 - n) X ∨ Nb f l n (i0 + k) (j0 + s) X))

theorem Nb.unique {f k : Nat} {n x y : Int} {X Y : CellID} (h : Nb f k n x y X) (h' : Nb f k n x y Y) : X = Y :=
  (c19_square_unique h.1 h'.1 h.2.2 h'.2.2).2 ⟨rfl, rfl, rfl, rfl⟩

theorem Nb.iff {f k : Nat} {n x y : Int} {X Y : CellID} (h : Nb f k n x y X) : Nb f k n x y Y ↔ Y = X :=
  ⟨fun h' => h'.unique h, fun e => e ▸ h⟩

theorem sides_eq {fl : ℚ → ℚ} (hfl : Rounding fl) {f l : Nat} {n s i0 j0 k : Int} {b : Bool} (hf : f < 6) (hl : l ≤ 30)
    (hn : n = ((2 ^ (30 - l) : Nat) : Int)) (hs : 0 < s) (hi : s ∣ i0) (hns : n ∣ s) (hj : n ∣ j0) (hk : n ∣ k)
    (hi0 : 0 ≤ i0) (hi1 : i0 + s ≤ side) (hj0 : 0 ≤ j0) (hj1 : j0 + s ≤ side) (hk0 : -n ≤ k) (hk1 : k ≤ s)
    (hb : b = true → 0 ≤ j0 + k ∧ j0 + k < side) :
    ∃ xs, allNeighborsSides fl f i0 j0 s n l k b = some xs ∧
      ∀ X, X ∈ xs ↔ Nb f l n (i0 - n) (j0 + k) X ∨ Nb f l n (i0 + s) (j0 + k) X := by
  have hn0 : 0 < n := by have := (size_bounds (k := l)).1; omega
  have hnS := Int.le_of_dvd hs hns
  have hdn : n ∣ i0 := dvd_trans hns hi
  obtain ⟨l1, a, p1, q1, r1⟩ := same_nb hfl (b := (b && decide (i0 - s ≥ 0))) hf hl hn (dvd_sub hdn (dvd_refl n)) (dvd_add hj hk)
    (le_refl (i0 - n)) (by omega) (le_refl (j0 + k)) (by omega) (by
      intro h
      simp only [Bool.and_eq_true, decide_eq_true_eq] at h
      have := hb h.1
      omega)
  obtain ⟨l2, d, p2, q2, r2⟩ := same_nb hfl (b := (b && decide (i0 + s < maxSize))) hf hl hn (dvd_add hdn hns) (dvd_add hj hk)
    (le_refl (i0 + s)) (by omega) (le_refl (j0 + k)) (by omega) (by
      intro h
      simp only [Bool.and_eq_true, decide_eq_true_eq] at h
      unfold maxSize at h
      have := hb h.1
      unfold side at *
      omega)
  refine ⟨[a, d], ?_, ?_⟩
  · unfold side at *
    unfold allNeighborsSides
    simp only [Option.bind_eq_bind]
    rw [i32_ok (x := i0 - n) (by omega) (by omega), Option.bind_some, i32_ok (x := j0 + k) (by omega) (by omega), Option.bind_some,
      i32_ok (x := i0 - s) (by omega) (by omega), Option.bind_some, p1, Option.bind_some, q1, Option.bind_some,
      i32_ok (x := i0 + s) (by omega) (by omega), Option.bind_some, p2, Option.bind_some, q2, Option.bind_some]
  · intro X
    rw [r1.iff, r2.iff]
    simp

theorem mid_eq {fl : ℚ → ℚ} (hfl : Rounding fl) {f l : Nat} {n s i0 j0 k : Int} (hf : f < 6) (hl : l ≤ 30)
    (hn : n = ((2 ^ (30 - l) : Nat) : Int)) (hs : 0 < s) (hi : n ∣ i0) (hns : n ∣ s) (hj : s ∣ j0) (hk : n ∣ k)
    (hi0 : 0 ≤ i0) (hi1 : i0 + s ≤ side) (hj0 : 0 ≤ j0) (hj1 : j0 + s ≤ side) (hk0 : 0 ≤ k) (hk1 : k < s) :
    ∃ xs, allNeighborsMid fl f i0 j0 s n l k = some xs ∧
      ∀ X, X ∈ xs ↔ Nb f l n (i0 + k) (j0 - n) X ∨ Nb f l n (i0 + k) (j0 + s) X := by
  have hn0 : 0 < n := by have := (size_bounds (k := l)).1; omega
  have hnS := Int.le_of_dvd hs hns
  have hdn : n ∣ j0 := dvd_trans hns hj
  obtain ⟨l1, a, p1, q1, r1⟩ := same_nb hfl (b := decide (j0 - s ≥ 0)) hf hl hn (dvd_add hi hk) (dvd_sub hdn (dvd_refl n))
    (le_refl (i0 + k)) (by omega) (le_refl (j0 - n)) (by omega) (by
      intro h
      simp only [decide_eq_true_eq] at h
      omega)
  obtain ⟨l2, d, p2, q2, r2⟩ := same_nb hfl (b := decide (j0 + s < maxSize)) hf hl hn (dvd_add hi hk) (dvd_add hdn hns)
    (le_refl (i0 + k)) (by omega) (le_refl (j0 + s)) (by omega) (by
      intro h
      simp only [decide_eq_true_eq] at h
      unfold maxSize at h
      unfold side at *
      omega)
  refine ⟨[a, d], ?_, ?_⟩
  · unfold side at *
    unfold allNeighborsMid
    simp only [Option.bind_eq_bind]
    rw [i32_ok (x := i0 + k) (by omega) (by omega), Option.bind_some, i32_ok (x := j0 - n) (by omega) (by omega), Option.bind_some,
      i32_ok (x := j0 - s) (by omega) (by omega), Option.bind_some, p1, Option.bind_some, q1, Option.bind_some,
      i32_ok (x := j0 + s) (by omega) (by omega), Option.bind_some, p2, Option.bind_some, q2, Option.bind_some]
  · intro X
    rw [r1.iff, r2.iff]
    simp

theorem step_ge {n s k : Int} (hs : n ∣ s) (hk : n ∣ k) (hn : 0 < n) (h : k < s) : k + n ≤ s := by
  obtain ⟨a, rfl⟩ := hs
  obtain ⟨b, rfl⟩ := hk
  have : b < a := lt_of_mul_lt_mul_left h hn.le
  have := mul_le_mul_of_nonneg_left (show b + 1 ≤ a by omega) hn.le
  linarith

/-- The loop visits the whole ring. -/
theorem loop_eq {fl : ℚ → ℚ} (hfl : Rounding fl) {f l : Nat} {n s i0 j0 : Int} (hf : f < 6) (hl : l ≤ 30)
    (hn : n = ((2 ^ (30 - l) : Nat) : Int)) (hs : 0 < s) (hi : s ∣ i0) (hns : n ∣ s) (hj : s ∣ j0)
    (hi0 : 0 ≤ i0) (hi1 : i0 + s ≤ side) (hj0 : 0 ≤ j0) (hj1 : j0 + s ≤ side) :
    ∀ (m : Nat) (k : Int), n ∣ k → -n ≤ k → k ≤ s → s ≤ k + m * n →
      ∃ xs, allNeighborsLoop fl f i0 j0 s n l k = some xs ∧
        ∀ X, X ∈ xs ↔ ∃ k', n ∣ k' ∧ k ≤ k' ∧ k' ≤ s ∧ Ring f l n s i0 j0 k' X := by
  have hn0 : 0 < n := by have := (size_bounds (k := l)).1; omega
  have hnS := Int.le_of_dvd hs hns
  have hni : n ∣ i0 := dvd_trans hns hi
  have hnj : n ∣ j0 := dvd_trans hns hj
  intro m
  induction m with
  | zero =>
    intro k hk hk0 hk1 hm
    obtain rfl : k = s := by simp at hm; omega
    obtain ⟨xs, e, hx⟩ := sides_eq hfl (b := decide (j0 + k < maxSize)) hf hl hn hs hi hns hnj hk hi0 hi1 hj0 hj1 hk0 hk1 (by
      intro h
      simp only [decide_eq_true_eq] at h
      unfold maxSize at h
      unfold side at *
      omega)
    refine ⟨xs, ?_, ?_⟩
    · rw [allNeighborsLoop]
      simp only [Option.bind_eq_bind]
      rw [i32_ok (x := j0 + k) (by omega) (by unfold side at *; omega), Option.bind_some, if_neg (by omega), if_pos (by omega), Option.bind_some,
        if_neg (by omega), if_pos (by omega), e, Option.bind_some, if_pos (by omega)]
      rfl
    · intro X
      rw [hx]
      constructor
      · intro h
        exact ⟨k, hk, le_refl k, le_refl k, h.elim Or.inl fun h => Or.inr (Or.inl h)⟩
      · rintro ⟨k', _, h1, h2, h⟩
        obtain rfl : k' = k := by omega
        rcases h with h | h | h
        · exact Or.inl h
        · exact Or.inr h
        · omega
  | succ m ih =>
    intro k hk hk0 hk1 hm
    by_cases hks : k = s
    · exact ih k hk hk0 hk1 (by have := mul_nonneg (Int.natCast_nonneg m) hn0.le; omega)
    · have hlt : k < s := by omega
      have hst := step_ge hns hk hn0 hlt
      obtain ⟨rest, er, hr⟩ := ih (k + n) (dvd_add hk (dvd_refl n)) (by omega) hst (by push_cast at hm; linarith)
      have fin : ∀ X, (∃ k', n ∣ k' ∧ k ≤ k' ∧ k' ≤ s ∧ Ring f l n s i0 j0 k' X) ↔ Ring f l n s i0 j0 k X ∨ X ∈ rest := by
        intro X
        rw [hr]
        constructor
        · rintro ⟨k', d, h1, h2, h⟩
          by_cases e : k' = k
          · subst e; exact Or.inl h
          · exact Or.inr ⟨k', d, step_ge d hk hn0 (by omega), h2, h⟩
        · rintro (h | ⟨k', d, h1, h2, h⟩)
          · exact ⟨k, hk, le_refl k, hk1, h⟩
          · exact ⟨k', d, by omega, h2, h⟩
      by_cases hneg : k < 0
      · obtain ⟨xs, e, hx⟩ := sides_eq hfl (b := decide (j0 + k ≥ 0)) hf hl hn hs hi hns hnj hk hi0 hi1 hj0 hj1 hk0 hk1 (by
          intro h
          simp only [decide_eq_true_eq] at h
          omega)
        refine ⟨[] ++ xs ++ rest, ?_, ?_⟩
        · rw [allNeighborsLoop]
          simp only [Option.bind_eq_bind]
          rw [i32_ok (x := j0 + k) (by unfold side at *; omega) (by unfold side at *; omega), Option.bind_some, if_pos hneg, Option.bind_some,
            if_pos hneg, e, Option.bind_some, if_neg (by omega), i32_ok (x := k + n) (by unfold side at *; omega) (by unfold side at *; omega),
            Option.bind_some, er, Option.bind_some]
        · intro X
          rw [fin, List.nil_append, List.mem_append, hx]
          refine or_congr_left ?_
          constructor
          · rintro (h | h)
            · exact Or.inl h
            · exact Or.inr (Or.inl h)
          · rintro (h | h | h)
            · exact Or.inl h
            · exact Or.inr h
            · omega
      · obtain ⟨xs, e, hx⟩ := sides_eq hfl (b := true) hf hl hn hs hi hns hnj hk hi0 hi1 hj0 hj1 hk0 hk1 (by
          intro _
          omega)
        obtain ⟨ms, em, hms⟩ := mid_eq hfl hf hl hn hs hni hns hj hk hi0 hi1 hj0 hj1 (by omega) hlt
        refine ⟨ms ++ xs ++ rest, ?_, ?_⟩
        · rw [allNeighborsLoop]
          simp only [Option.bind_eq_bind]
          rw [i32_ok (x := j0 + k) (by unfold side at *; omega) (by unfold side at *; omega), Option.bind_some, if_neg hneg, if_neg (by omega), em,
            Option.bind_some,
            if_neg hneg, if_neg (by omega), e, Option.bind_some, if_neg (by omega), i32_ok (x := k + n) (by unfold side at *; omega) (by unfold side at *; omega),
            Option.bind_some, er, Option.bind_some]
        · intro X
          rw [fin, List.mem_append, List.mem_append, hx, hms]
          refine or_congr_left ?_
          constructor
          · rintro (h | h | h)
            · exact Or.inr (Or.inr ⟨by omega, hlt, h⟩)
            · exact Or.inl h
            · exact Or.inr (Or.inl h)
          · rintro (h | h | h)
            · exact Or.inr (Or.inl h)
            · exact Or.inr (Or.inr h)
            · exact Or.inl h.2.2

/-- Position in the ring around the square. -/
def InRing (n s i0 j0 x y : Int) : Prop :=
  n ∣ x ∧ n ∣ y ∧ i0 - n ≤ x ∧ x ≤ i0 + s ∧ j0 - n ≤ y ∧ y ≤ j0 + s ∧ ¬ (i0 ≤ x ∧ x < i0 + s ∧ j0 ≤ y ∧ y < j0 + s)

theorem ring_iff {f l : Nat} {n s i0 j0 : Int} {X : CellID} (hn0 : 0 < n) (hs : 0 < s) (hns : n ∣ s) (hi : n ∣ i0) (hj : n ∣ j0) :
    (∃ k', n ∣ k' ∧ -n ≤ k' ∧ k' ≤ s ∧ Ring f l n s i0 j0 k' X) ↔
      ∃ x y, InRing n s i0 j0 x y ∧ Nb f l n x y X := by
  have hnS := Int.le_of_dvd hs hns
  constructor
  · rintro ⟨k', d, h1, h2, h | h | ⟨h3, h4, h | h⟩⟩
    · exact ⟨_, _, ⟨dvd_sub hi (dvd_refl n), dvd_add hj d, by omega, by omega, by omega, by omega, by omega⟩, h⟩
    · exact ⟨_, _, ⟨dvd_add hi hns, dvd_add hj d, by omega, by omega, by omega, by omega, by omega⟩, h⟩
    · exact ⟨_, _, ⟨dvd_add hi d, dvd_sub hj (dvd_refl n), by omega, by omega, by omega, by omega, by omega⟩, h⟩
    · exact ⟨_, _, ⟨dvd_add hi d, dvd_add hj hns, by omega, by omega, by omega, by omega, by omega⟩, h⟩
  · rintro ⟨x, y, ⟨hx, hy, h1, h2, h3, h4, h5⟩, h⟩
    by_cases c1 : x < i0
    · have := step_ge hi hx hn0 c1
      refine ⟨y - j0, dvd_sub hy hj, by omega, by omega, Or.inl ?_⟩
      rwa [show j0 + (y - j0) = y by omega, show i0 - n = x by omega]
    · by_cases c2 : x < i0 + s
      · refine ⟨x - i0, dvd_sub hx hi, by omega, by omega, Or.inr (Or.inr ⟨by omega, by omega, ?_⟩)⟩
        rw [show i0 + (x - i0) = x by omega]
        by_cases c3 : y < j0
        · have := step_ge hj hy hn0 c3
          left
          rwa [show j0 - n = y by omega]
        · right
          rwa [show j0 + s = y by omega]
      · refine ⟨y - j0, dvd_sub hy hj, by omega, by omega, Or.inr (Or.inl ?_)⟩
        rwa [show j0 + (y - j0) = y by omega, show i0 + s = x by omega]

/-- Overlap of cells, in coordinates. -/
theorem overlap_iff {c d : CellID} (hc : Valid c) (hd : Valid d) {f g : Nat} {i j s i' j' s' : Int}
    (h : Square c f i j s) (h' : Square d g i' j' s') :
    c.intersects d = some true ↔ g = f ∧ i < i' + s' ∧ i' < i + s ∧ j < j' + s' ∧ j' < j + s := by
  obtain ⟨r, e, e1, e2⟩ := c04_intersects hc hd
  rw [e, Option.some.injEq]
  have key : ∀ {c d : CellID}, Valid c → Valid d → ∀ {f g : Nat} {i j s i' j' s' : Int}, Square c f i j s → Square d g i' j' s' →
      c.contains d = some true → g = f ∧ i < i' + s' ∧ i' < i + s ∧ j < j' + s' ∧ j' < j + s := by
    intro c d hc hd f g i j s i' j' s' h h' hcd
    have := h'.i_lo; have := h'.j_lo; have := h'.i_hi; have := h'.j_hi; have := h'.pos
    unfold side at *
    obtain ⟨l, hl, hlev, hat⟩ := valid_leaf_exists (i := i'.toNat) (j := j'.toNat) h'.face (by omega) (by omega)
    rw [Int.toNat_of_nonneg (by omega), Int.toNat_of_nonneg (by omega)] at hat
    have h1 := (h'.leaves l g i' j' hl hlev hat).2 ⟨rfl, by omega, by omega, by omega, by omega⟩
    have h2 := (h.leaves l g i' j' hl hlev hat).1 (c03_trans hc hd hl hcd h1)
    exact ⟨h2.1, by omega, by omega, by omega, by omega⟩
  constructor
  · intro hr
    rcases e2.1 hr with h1 | h1
    · exact key hc hd h h' h1
    · have := key hd hc h' h h1
      exact ⟨this.1.symm, by omega, by omega, by omega, by omega⟩
  · rintro ⟨rfl, h1, h2, h3, h4⟩
    have := h.i_lo; have := h.j_lo; have := h.i_hi; have := h.j_hi; have := h.pos
    have := h'.i_lo; have := h'.j_lo; have := h'.i_hi; have := h'.j_hi; have := h'.pos
    unfold side at *
    obtain ⟨l, hl, hlev, hat⟩ := valid_leaf_exists (i := (max i i').toNat) (j := (max j j').toNat) h'.face (by omega) (by omega)
    rw [Int.toNat_of_nonneg (by omega), Int.toNat_of_nonneg (by omega)] at hat
    have k1 := (h.leaves l g _ _ hl hlev hat).2 ⟨rfl, by omega, by omega, by omega, by omega⟩
    have k2 := (h'.leaves l g _ _ hl hlev hat).2 ⟨rfl, by omega, by omega, by omega, by omega⟩
    obtain ⟨q, hq⟩ : ∃ q, HasLeaf l.id.toNat q := ⟨lo l, (hl.hasLeaf _).2 ⟨le_refl _, lo_lt_hi l⟩⟩
    exact e1.2 ⟨q, (c03_contains_iff hc hl).1 k1 q hq, (c03_contains_iff hd hl).1 k2 q hq⟩

theorem ring_touch {c X : CellID} {f l : Nat} {n s i0 j0 x y : Int} (hc : Valid c) (hf : f < 6) (hn0 : 0 < n) (hdv : n ∣ side)
    (hsq : Square c f i0 j0 s) (hns : n ∣ s) (hi : n ∣ i0) (hj : n ∣ j0) (hr : InRing n s i0 j0 x y) (h : Nb f l n x y X) :
    Touch c X ∧ c.intersects X = some false := by
  obtain ⟨hx, hy, h1, h2, h3, h4, h5⟩ := hr
  have b1 := hsq.i_lo
  have b2 := hsq.i_hi
  have b3 := hsq.j_lo
  have b4 := hsq.j_hi
  have hs := hsq.pos
  have hnS := Int.le_of_dvd hs hns
  constructor
  · refine ⟨cubePt f (max x i0) (max y j0), (onCell_iff hsq).2 ⟨_, _, by omega, by omega, by omega, by omega, rfl⟩, ?_⟩
    exact h.on hf hn0 hdv hx hy (by omega) (by omega) (by omega) (by omega) (by omega) (by omega) (by omega) (by omega) (by omega) (by omega)
      (by omega) (by omega)
  · obtain ⟨r, e, _⟩ := c04_intersects hc h.1
    rw [e]
    have hov := overlap_iff hc h.1 hsq h.2.2
    rw [e] at hov
    cases r with
    | false => rfl
    | true =>
      exfalso
      have := hov.1 rfl
      rcases pos_cases hn0 hdv hx hy (by omega) (by omega) (by omega) (by omega) with g | ⟨d, t, hdd, ht0, ht1, _, e⟩ | ⟨d, hdd, e⟩
      · rw [vsq_in hn0 g.1 g.2.1 g.2.2.1 g.2.2.2] at this
        dsimp only at this
        have k1 : i0 ≤ x := by
          by_contra hcon
          have := step_ge hi hx hn0 (by omega)
          omega
        have k2 : j0 ≤ y := by
          by_contra hcon
          have := step_ge hj hy hn0 (by omega)
          omega
        omega
      · obtain ⟨rfl, rfl⟩ := pair_eq e
        rw [vsq_edge hdd hn0 ht0 ht1] at this
        exact (edgeTab_lt hf hdd).2.1 this.1
      · obtain ⟨rfl, rfl⟩ := pair_eq e
        rw [vsq_corner hdd hn0] at this
        exact (cornerTab_lt hf hdd).2.1 this.1

theorem touch_ring {c X : CellID} {f l : Nat} {n s i0 j0 : Int} (hc : Valid c) (hX : Valid X) (hXl : X.level = some l)
    (hn : n = ((2 ^ (30 - l) : Nat) : Int)) (hf : f < 6) (hn0 : 0 < n) (hdv : n ∣ side)
    (hsq : Square c f i0 j0 s) (hns : n ∣ s) (hi : n ∣ i0) (hj : n ∣ j0) (ht : Touch c X) (hno : c.intersects X = some false) :
    ∃ x y, InRing n s i0 j0 x y ∧ Nb f l n x y X := by
  have b1 := hsq.i_lo
  have b2 := hsq.i_hi
  have b3 := hsq.j_lo
  have b4 := hsq.j_hi
  have hs := hsq.pos
  have hnS := Int.le_of_dvd hs hns
  obtain ⟨n', g, i, j, _, _, _, hn', -, hg, -, -, -, hsq', hi', hj', -⟩ := hX.setting hXl
  rw [← hn] at hn'
  subst hn'
  have b1' := hsq'.i_lo
  have b2' := hsq'.i_hi
  have b3' := hsq'.j_lo
  have b4' := hsq'.j_hi
  have hov := overlap_iff hc hX hsq hsq'
  rw [hno] at hov
  obtain ⟨P, hP, hP'⟩ := ht
  obtain ⟨a, b, p1, p2, p3, p4, rfl⟩ := (onCell_iff hsq).1 hP
  obtain ⟨a', b', q1, q2, q3, q4, e⟩ := (onCell_iff hsq').1 hP'
  by_cases hgf : g = f
  · subst hgf
    obtain ⟨rfl, rfl⟩ := cubePt_inj e
    refine ⟨i, j, ⟨hi', hj', by omega, by omega, by omega, by omega, ?_⟩, hX, hXl, ?_⟩
    · intro hcon
      have := hov.2 ⟨rfl, by omega, by omega, by omega, by omega⟩
      simp at this
    · rw [vsq_in hn0 b1' b2' b3' b4']; exact hsq'
  · obtain ⟨d, t, t0, hd4, hgd, ep, _, _, ei, ej, ht0, t00, t01, u0, u1⟩ := vsq_conv hf hg hgf hn0 hdv hi' hj' b1' b2' b3' b4'
        (show 0 ≤ a by omega) (by omega) (show 0 ≤ b by omega) (by omega) q1 q2 q3 q4 e
    have e1 := vsq_edge (f := f) hd4 hn0 t00 t01
    refine ⟨(dpos n' d t0).1, (dpos n' d t0).2, ?_, hX, hXl, ?_⟩
    · obtain ⟨e3, e4⟩ := pair_eq ep
      have dn : n' ∣ -n' := (dvd_neg).2 (dvd_refl n')
      interval_cases d <;> simp only [edgePt, dpos] at *
      · exact ⟨ht0, dn, by omega, by omega, by omega, by omega, by omega⟩
      · exact ⟨hdv, ht0, by omega, by omega, by omega, by omega, by omega⟩
      · exact ⟨ht0, hdv, by omega, by omega, by omega, by omega, by omega⟩
      · exact ⟨dn, ht0, by omega, by omega, by omega, by omega, by omega⟩
    · rw [e1, hgd, ← ei, ← ej]; exact hsq'

/-- **C25.** `all_neighbors(level)`, for a level at least that of the cell, returns exactly the valid
cells of that level that touch the cell (in an edge or in a corner) without overlapping it. -/
theorem c25_all_neighbors {fl : ℚ → ℚ} (hfl : Rounding fl) {c : CellID} {k l : Nat} (h : Valid c) (hk : c.level = some k)
    (hkl : k ≤ l) (hl : l ≤ 30) :
    ∃ xs, c.allNeighbors fl l = some xs ∧
      ∀ X, X ∈ xs ↔ Valid X ∧ X.level = some l ∧ Touch c X ∧ c.intersects X = some false := by
  obtain ⟨s, f, i0, j0, i, j, o, hs, hk30, hf, hs0, hss, hdvs, hsq, hi, hj, hij, h1, h2, h3, h4⟩ := h.setting hk
  have hn := size_bounds (k := l)
  have hdv := size_dvd hl
  have hns : ((2 ^ (30 - l) : Nat) : Int) ∣ s := by
    rw [hs]
    exact_mod_cast Nat.pow_dvd_pow 2 (by omega)
  obtain ⟨n, en⟩ : ∃ n : Int, n = ((2 ^ (30 - l) : Nat) : Int) := ⟨_, rfl⟩
  rw [← en] at hn hdv hns
  have hnS := Int.le_of_dvd hs0 hns
  have b1 := hsq.i_lo
  have b2 := hsq.i_hi
  have b3 := hsq.j_lo
  have b4 := hsq.j_hi
  obtain ⟨m, hm⟩ : ∃ m : Nat, s ≤ -n + m * n := by
    obtain ⟨q, rfl⟩ := hns
    refine ⟨(q + 1).toNat, ?_⟩
    have : 0 ≤ q := by
      by_contra hq
      have := mul_le_mul_of_nonneg_left (show q ≤ 0 by omega) hn.1.le
      omega
    rw [Int.toNat_of_nonneg (by omega)]
    linarith [mul_comm q n]
  obtain ⟨xs, ex, hx⟩ := loop_eq hfl hf hl en hs0 hi hns hj b1 b2 b3 b4 m (-n) ((dvd_neg).2 (dvd_refl n)) (le_refl _) (by omega) hm
  have hin : n ∣ i0 := dvd_trans hns hi
  have hjn : n ∣ j0 := dvd_trans hns hj
  refine ⟨xs, ?_, ?_⟩
  · unfold allNeighbors
    simp only [Option.bind_eq_bind]
    rw [hij, Option.bind_some]
    dsimp only
    rw [hk, Option.bind_some, sizeI32_eq hk30, ← hs, Option.bind_some, i32_ok (x := -s) (by unfold side at *; omega) (by omega), Option.bind_some,
      mask_eq hk30 hs b1 hi h1 h2 b2, mask_eq hk30 hs b3 hj h3 h4 b4, sizeI32_eq hl, ← en, Option.bind_some,
      i32_ok (x := -n) (by unfold side at *; omega) (by omega), Option.bind_some, ex]
  · intro X
    rw [hx, ring_iff hn.1 hs0 hns hin hjn]
    constructor
    · rintro ⟨x, y, hr, hX⟩
      have := ring_touch h hf hn.1 hdv hsq hns hin hjn hr hX
      exact ⟨hX.1, hX.2.1, this.1, this.2⟩
    · rintro ⟨hX, hXl, ht, hno⟩
      exact touch_ring h hX hXl en hf hn.1 hdv hsq hns hin hjn ht hno

end Verif
