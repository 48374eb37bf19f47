import Verif.Properties.Neighbors
namespace Verif
open Rust Spec CellID

/-! ## C24: vertex neighbours -/

/-- The ancestor of a cell, with the coordinates of the cell. -/
theorem parent_setting {c : CellID} {k l : Nat} (h : Valid c) (hk : c.level = some k) (hl : l ≤ k) {f o : Nat} {i j : Int}
    (hij : c.faceIJOrientation = some (f, i, j, o)) :
    ∃ A i0 j0, ∃ n : Int, n = ((2 ^ (30 - l) : Nat) : Int) ∧ c.parent l = some A ∧ Valid A ∧ A.level = some l ∧
      A.contains c = some true ∧ f < 6 ∧ 0 < n ∧ n ∣ side ∧ Square A f i0 j0 n ∧ n ∣ i0 ∧ n ∣ j0 ∧
      i0 ≤ i ∧ i < i0 + n ∧ j0 ≤ j ∧ j < j0 + n := by
  obtain ⟨A, hA, hAv, hAl, hAc, -⟩ := c05_parent h hk hl
  obtain ⟨n, g, i0, j0, _, _, _, hn, -, hg, hn0, -, hdv, hsq, hi, hj, -⟩ := hAv.setting hAl
  obtain ⟨s, f', i1, j1, i', j', o', -, -, hf, -, -, -, hsq', -, -, hij', h1, h2, h3, h4⟩ := h.setting hk
  rw [hij] at hij'
  simp only [Option.some.injEq, Prod.mk.injEq] at hij'
  obtain ⟨rfl, rfl, rfl, -⟩ := hij'
  have b1 := hsq'.i_lo
  have b2 := hsq'.i_hi
  have b3 := hsq'.j_lo
  have b4 := hsq'.j_hi
  unfold side at *
  obtain ⟨m, hm, hmlev, hat⟩ := valid_leaf_exists (i := i.toNat) (j := j.toNat) hf (by omega) (by omega)
  rw [Int.toNat_of_nonneg (by omega), Int.toNat_of_nonneg (by omega)] at hat
  have k1 := (hsq'.leaves m f i j hm hmlev hat).2 ⟨rfl, h1, h2, h3, h4⟩
  obtain ⟨rfl, q1, q2, q3, q4⟩ := (hsq.leaves m f i j hm hmlev hat).1 (c03_trans hAv h hm hAc k1)
  exact ⟨A, i0, j0, n, hn, hA, hAv, hAl, hAc, hg, hn0, hdv, hsq, hi, hj, q1, q2, q3, q4⟩

theorem size_shl {l : Nat} (hl : l < 30) :
    ((BitVec.ofInt 32 ((2 ^ (30 - (l + 1)) : Nat) : Int)) <<< 1).toInt = ((2 ^ (30 - l) : Nat) : Int) := by
  interval_cases l <;> decide +kernel

theorem half_bit {m : Nat} (hm : m < 32) {i0 i : Int} (hi0 : 0 ≤ i0) (hd : ((2 ^ (m + 1) : Nat) : Int) ∣ i0) (h1 : i0 ≤ i)
    (h2 : i < i0 + ((2 ^ (m + 1) : Nat) : Int)) :
    (BitVec.ofInt 32 i) &&& (BitVec.ofInt 32 ((2 ^ m : Nat) : Int)) ≠ 0#32 ↔ i0 + ((2 ^ m : Nat) : Int) ≤ i := by
  obtain ⟨a, rfl⟩ := Int.eq_ofNat_of_zero_le (show 0 ≤ i by omega)
  obtain ⟨q, rfl⟩ := hd
  have hp := pow2_pos m
  have hq : 0 ≤ q := by
    by_contra hc
    have : ((2 ^ (m + 1) : Nat) : Int) * q < 0 := mul_neg_of_pos_of_neg (by exact_mod_cast pow2_pos _) (by omega)
    omega
  obtain ⟨b, rfl⟩ := Int.eq_ofNat_of_zero_le hq
  have h1' : 2 ^ (m + 1) * b ≤ a := by exact_mod_cast h1
  have h2' : a < 2 ^ (m + 1) * b + 2 ^ (m + 1) := by exact_mod_cast h2
  have e : BitVec.ofInt 32 ((2 ^ m : Nat) : Int) = BitVec.twoPow 32 m := by
    rw [BitVec.ofInt_natCast]
    apply BitVec.eq_of_toNat_eq
    rw [BitVec.toNat_ofNat, BitVec.toNat_twoPow]
  have goal : a / 2 ^ m % 2 = 1 ↔ 2 ^ (m + 1) * b + 2 ^ m ≤ a := by
    rw [Nat.pow_succ] at h1' h2' ⊢
    generalize 2 ^ m = t at *
    have e2 : t * 2 * b = t * (2 * b) := by ring
    rw [e2] at h1' h2' ⊢
    obtain ⟨r, rfl⟩ : ∃ r, a = t * (2 * b) + r := ⟨a - t * (2 * b), by omega⟩
    rw [Nat.mul_add_div hp]
    have hr : r < t * 2 := by omega
    by_cases hc : t ≤ r
    · have : r / t = 1 := Nat.div_eq_of_lt_le (by omega) (by omega)
      rw [this]
      exact ⟨fun _ => by omega, fun _ => by omega⟩
    · have : r / t = 0 := Nat.div_eq_of_lt (by omega)
      rw [this]
      exact ⟨fun _ => by omega, fun _ => by omega⟩
  rw [e, BitVec.ofInt_natCast, BitVec.and_twoPow, BitVec.getLsbD_ofNat, Nat.testBit_eq_decide_div_mod_eq]
  have goal' : ((2 ^ (m + 1) : Nat) : Int) * b + ((2 ^ m : Nat) : Int) ≤ a ↔ 2 ^ (m + 1) * b + 2 ^ m ≤ a := by norm_cast
  change _ ↔ ((2 ^ (m + 1) : Nat) : Int) * b + ((2 ^ m : Nat) : Int) ≤ a
  rw [goal', ← goal]
  by_cases hc : a / 2 ^ m % 2 = 1
  · simp [hc, hm]
    intro hz
    have := congrArg (BitVec.getLsbD · m) hz
    simp [hm] at this
  · simp [hc]

theorem vertexOffset_eq {l : Nat} (hl : l < 30) {n i0 i : Int} (hn : n = ((2 ^ (30 - l) : Nat) : Int)) (hi0 : 0 ≤ i0)
    (hi1 : i0 + n ≤ side) (hd : n ∣ i0) (hdv : n ∣ side) (h1 : i0 ≤ i) (h2 : i < i0 + n) :
    ∃ (b : Bool) (x p h : Int), n = 2 * h ∧ h = ((2 ^ (30 - (l + 1)) : Nat) : Int) ∧ 0 < h ∧ vertexOffset i h n = some (b, x - i0) ∧
      (b = true ↔ 0 ≤ x ∧ x < side) ∧ n ∣ x ∧
      ((x = i0 + n ∧ p = i0 + n ∧ i0 + h ≤ i) ∨ (x = i0 - n ∧ p = i0 ∧ i < i0 + h)) := by
  have e : 30 - l = (30 - (l + 1)) + 1 := by omega
  have hh := half_bit (m := 30 - (l + 1)) (i0 := i0) (i := i) (by omega) hi0 (by rw [← e, ← hn]; exact hd) h1 (by rw [← e, ← hn]; exact h2)
  have hp : 0 < ((2 ^ (30 - (l + 1)) : Nat) : Int) := by exact_mod_cast pow2_pos _
  have hn2 : n = 2 * ((2 ^ (30 - (l + 1)) : Nat) : Int) := by rw [hn, e, Nat.pow_succ]; push_cast; ring
  clear hn e
  generalize ((2 ^ (30 - (l + 1)) : Nat) : Int) = h at *
  have hn0 : 0 < n := by omega
  by_cases c : i0 + h ≤ i
  · have a1 := (aligned_in hn0 hdv (dvd_add hd (dvd_refl n))).2
    refine ⟨decide (i + n < maxSize), i0 + n, i0 + n, h, hn2, rfl, hp, ?_, ?_, dvd_add hd (dvd_refl n), Or.inl ⟨rfl, rfl, c⟩⟩
    · unfold vertexOffset
      rw [if_pos (hh.2 c)]
      unfold side at *
      simp only [Option.bind_eq_bind]
      rw [i32_ok (x := i + n) (by omega) (by omega), Option.bind_some, show i0 + n - i0 = n by omega]
    · rw [decide_eq_true_eq]
      unfold maxSize side at *
      constructor <;> intro h <;> omega
  · have a1 := (aligned_in hn0 hdv (dvd_sub hd (dvd_refl n))).1
    refine ⟨decide (i - n ≥ 0), i0 - n, i0, h, hn2, rfl, hp, ?_, ?_, dvd_sub hd (dvd_refl n), Or.inr ⟨rfl, rfl, by omega⟩⟩
    · unfold vertexOffset
      rw [if_neg (fun hc => c (hh.1 hc))]
      unfold side at *
      simp only [Option.bind_eq_bind]
      rw [i32_ok (x := i - n) (by omega) (by omega), Option.bind_some, i32_ok (x := -n) (by omega) (by omega), Option.bind_some,
        show i0 - n - i0 = -n by omega]
    · rw [decide_eq_true_eq]
      unfold side at *
      constructor <;> intro h <;> omega

/-- A corner point of the lattice of a face. -/
theorem cubeVertex_iff {f : Nat} {a b : Int} (ha : 0 ≤ a) (ha1 : a ≤ side) (hb : 0 ≤ b) (hb1 : b ≤ side) :
    CubeVertex (cubePt f a b) ↔ (a = 0 ∨ a = side) ∧ (b = 0 ∨ b = side) := by
  unfold CubeVertex cubePt
  have ab : ∀ x : Int, |x| = side ↔ x = side ∨ x = -side := fun x => abs_eq (by decide)
  split <;> dsimp only <;> rw [ab, ab, ab] <;> unfold side at * <;> omega

/-- A square with the lattice point `(p, q)` of face `f` as a corner is found at a position next to the point. -/
theorem corner_squares {f g : Nat} {n i j p q a' b' : Int} (hf : f < 6) (hg : g < 6) (hn : 0 < n) (hd : n ∣ side)
    (hi : n ∣ i) (hj : n ∣ j) (hi0 : 0 ≤ i) (hi1 : i + n ≤ side) (hj0 : 0 ≤ j) (hj1 : j + n ≤ side)
    (hp : 0 ≤ p) (hp1 : p ≤ side) (hq : 0 ≤ q) (hq1 : q ≤ side)
    (ha : a' = i ∨ a' = i + n) (hb : b' = j ∨ b' = j + n) (h : cubePt f p q = cubePt g a' b') :
    ∃ x y, (x = p - n ∨ x = p) ∧ (y = q - n ∨ y = q) ∧ vsq f n x y = (g, i, j) ∧
      ((0 ≤ x ∧ x < side) ∨ (0 ≤ y ∧ y < side)) := by
  by_cases hgf : g = f
  · subst hgf
    obtain ⟨rfl, rfl⟩ := cubePt_inj h
    exact ⟨i, j, by omega, by omega, vsq_in hn hi0 hi1 hj0 hj1, by omega⟩
  · obtain ⟨d, t, t0, hd4, hgd, ep, ea, eb, ei, ej, ht0, t00, t01, u0, u1⟩ := vsq_conv hf hg hgf hn hd hi hj hi0 hi1 hj0 hj1
        hp hp1 hq hq1 (show i ≤ a' by omega) (by omega) (show j ≤ b' by omega) (by omega) h
    have e1 := vsq_edge (f := f) hd4 hn t00 t01
    rw [hgd, ← ei, ← ej] at e1
    have ht : t = t0 ∨ t = t0 + n := by
      have la_inv : ∀ {k : Nat} {x : Int}, 2 ≤ k → k < 4 → x = la k t → (x = sq n k t0 ∨ x = sq n k t0 + n) → t = t0 ∨ t = t0 + n := by
        intro k x k2 k3 e1 e2
        interval_cases k <;> simp only [la, sq] at e1 e2 <;> omega
      rcases edgeTab_kind hf hd4 with ⟨_, k2, k3⟩ | ⟨_, k2, k3⟩
      · exact la_inv k2 k3 eb (by rw [← ej]; exact hb)
      · exact la_inv k2 k3 ea (by rw [← ei]; exact ha)
    obtain ⟨e3, e4⟩ := pair_eq ep
    clear ea eb ei ej h ha hb
    refine ⟨_, _, ?_, ?_, e1, ?_⟩ <;> interval_cases d <;> simp only [edgePt, dpos] at * <;> omega

set_option maxHeartbeats 1000000 in
/-- **C24.** `vertex_neighbors(level)`, for a level at most that of the cell (and below the leaf level):
there is a corner `P` of the ancestor at that level, which for a smaller level is also a corner of the
ancestor one level below, such that the result is exactly the set of valid cells of the level with
corner `P`, each once, the ancestor first. There are four of them, or three if `P` is a vertex of the cube. -/
theorem c24_vertex_neighbors {fl : ℚ → ℚ} (hfl : Rounding fl) {c : CellID} {k l : Nat} (h : Valid c) (hk : c.level = some k)
    (hl : l ≤ k) (hl30 : l < 30) :
    ∃ P xs A, c.vertexNeighbors fl l = some xs ∧ c.parent l = some A ∧ xs.head? = some A ∧ xs.Nodup ∧ IsCorner A P ∧
      (∀ B, l < k → c.parent (l + 1) = some B → IsCorner B P) ∧
      (∀ X, X ∈ xs ↔ Valid X ∧ X.level = some l ∧ IsCorner X P) ∧
      (xs.length = 3 ∨ xs.length = 4) ∧ (xs.length = 3 ↔ CubeVertex P) := by
  obtain ⟨_, f, _, _, i, j, o, -, -, -, -, -, -, -, -, -, hij, -⟩ := h.setting hk
  obtain ⟨A, i0, j0, n, hn, hA, hAv, hAl, hAc, hf, hn0, hdv, hsq, hi, hj, h1, h2, h3, h4⟩ := parent_setting h hk hl hij
  have b1 := hsq.i_lo
  have b2 := hsq.i_hi
  have b3 := hsq.j_lo
  have b4 := hsq.j_hi
  obtain ⟨bi, x1, p, hh, hnh, hhe, hh0, evi, hbi, dx, hx⟩ := vertexOffset_eq hl30 hn b1 b2 hi hdv h1 h2
  obtain ⟨bj, y1, q, hh', _, hhe', _, evj, hbj, dy, hy⟩ := vertexOffset_eq hl30 hn b3 b4 hj hdv h3 h4
  rw [← hhe] at hhe'
  subst hhe'
  have hl31 : l ≤ 30 := by omega
  have r0 : Nb f l n i0 j0 A := ⟨hAv, hAl, by rw [vsq_in hn0 b1 b2 b3 b4]; exact hsq⟩
  have t1 := (aligned_in hn0 hdv dx).2
  have t2 := (aligned_in hn0 hdv dy).2
  obtain ⟨l1, X1, p1, q1, r1⟩ := same_nb hfl (b := bi) hf hl31 hn dx hj (show x1 ≤ i + (x1 - i0) by omega) (by omega) h3 h4 (by
    intro hb; have := hbi.1 hb; omega)
  obtain ⟨l2, X2, p2, q2, r2⟩ := same_nb hfl (b := bj) hf hl31 hn hi dy h1 h2 (show y1 ≤ j + (y1 - j0) by omega) (by omega) (by
    intro hb; have := hbj.1 hb; omega)
  obtain ⟨l3, X3, p3, q3, r3⟩ := same_nb hfl (b := (bi && bj)) hf hl31 hn dx dy (show x1 ≤ i + (x1 - i0) by omega) (by omega)
    (show y1 ≤ j + (y1 - j0) by omega) (by omega) (by
    intro hb
    rw [Bool.and_eq_true] at hb
    have := hbi.1 hb.1
    have := hbj.1 hb.2
    omega)
  have hev : c.vertexNeighbors fl l = some (if (bi || bj) = true then [A, X1, X2, X3] else [A, X1, X2]) := by
    unfold vertexNeighbors
    simp only [Option.bind_eq_bind]
    rw [sizeI32_eq (show l + 1 ≤ 30 by omega), Option.bind_some]
    rw [size_shl hl30, ← hn, ← hhe, hij, Option.bind_some]
    dsimp only
    rw [evi, Option.bind_some]
    dsimp only
    rw [evj, Option.bind_some]
    dsimp only
    unfold side at *
    rw [hA, Option.bind_some, i32_ok (x := i + (x1 - i0)) (by omega) (by omega), Option.bind_some, p1, Option.bind_some, q1, Option.bind_some,
      i32_ok (x := j + (y1 - j0)) (by omega) (by omega), Option.bind_some, p2, Option.bind_some, q2, Option.bind_some,
      p3, Option.bind_some, q3, Option.bind_some]
    split <;> rfl
  have hp : p = i0 ∨ p = i0 + n := by omega
  have hq : q = j0 ∨ q = j0 + n := by omega
  have inj := @vsq_inj f n
  refine ⟨cubePt f p q, _, A, hev, hA, by split <;> rfl, ?_, ?_, ?_, ?_, by split <;> simp, ?_⟩
  · have n1 : A ≠ X1 := r0.ne r1 fun e => by
      have := inj hf hn0 hdv hi hj dx hj (by omega) (by omega) (by omega) (by omega) (by omega) (by omega) (by omega) (by omega) (by omega) (by omega) e
      omega
    have n2 : A ≠ X2 := r0.ne r2 fun e => by
      have := inj hf hn0 hdv hi hj hi dy (by omega) (by omega) (by omega) (by omega) (by omega) (by omega) (by omega) (by omega) (by omega) (by omega) e
      omega
    have n3 : X1 ≠ X2 := r1.ne r2 fun e => by
      have := inj hf hn0 hdv dx hj hi dy (by omega) (by omega) (by omega) (by omega) (by omega) (by omega) (by omega) (by omega) (by omega) (by omega) e
      omega
    split
    · rename_i hb
      rw [Bool.or_eq_true, hbi, hbj] at hb
      have n4 : A ≠ X3 := r0.ne r3 fun e => by
        have := inj hf hn0 hdv hi hj dx dy (by omega) (by omega) (by omega) (by omega) (by omega) (by omega) (by omega) (by omega) (by omega) hb e
        omega
      have n5 : X1 ≠ X3 := r1.ne r3 fun e => by
        have := inj hf hn0 hdv dx hj dx dy (by omega) (by omega) (by omega) (by omega) (by omega) (by omega) (by omega) (by omega) (by omega) hb e
        omega
      have n6 : X2 ≠ X3 := r2.ne r3 fun e => by
        have := inj hf hn0 hdv hi dy dx dy (by omega) (by omega) (by omega) (by omega) (by omega) (by omega) (by omega) (by omega) (by omega) hb e
        omega
      simp [n1, n2, n3, n4, n5, n6]
    · simp [n1, n2, n3]
  · exact corner_of hsq p q hp hq
  · intro B hlk hB
    obtain ⟨B', i1, j1, m, hm, hB', -, -, -, -, -, -, hsqB, hi1, hj1, g1, g2, g3, g4⟩ := parent_setting h hk hlk hij
    rw [hB] at hB'
    obtain rfl := Option.some.inj hB'
    rw [← hhe] at hm
    subst hm
    have near : ∀ {i0 i1 i p x1 : Int}, n ∣ i0 → m ∣ i1 → i1 ≤ i → i < i1 + m → i0 ≤ i → i < i0 + n →
        ((x1 = i0 + n ∧ p = i0 + n ∧ i0 + m ≤ i) ∨ (x1 = i0 - n ∧ p = i0 ∧ i < i0 + m)) → p = i1 ∨ p = i1 + m := by
      intro i0 i1 i p x1 d0 d1 g1 g2 g3 g4 hc
      have dm : m ∣ n := ⟨2, by omega⟩
      have d0' : m ∣ i1 - i0 := dvd_sub d1 (dvd_trans dm d0)
      obtain ⟨z, hz⟩ := d0'
      have : z = 0 ∨ z = 1 := by
        have : -1 < z := by
          by_contra hcon
          have := mul_le_mul_of_nonneg_left (show z ≤ -1 by omega) hh0.le
          omega
        have : z < 2 := by
          by_contra hcon
          have := mul_le_mul_of_nonneg_left (show 2 ≤ z by omega) hh0.le
          omega
        omega
      rcases this with rfl | rfl <;> omega
    exact corner_of hsqB p q (near hi hi1 g1 g2 h1 h2 hx) (near hj hj1 g3 g4 h3 h4 hy)
  · have c0 : IsCorner A (cubePt f p q) := corner_of hsq p q hp hq
    have c1 : IsCorner X1 (cubePt f p q) := r1.corner hf hn0 hdv dx hj (by omega) (by omega) (by omega) (by omega) (by omega) (by omega) (by omega) (by omega) (by omega) (by omega)
    have c2 : IsCorner X2 (cubePt f p q) := r2.corner hf hn0 hdv hi dy (by omega) (by omega) (by omega) (by omega) (by omega) (by omega) (by omega) (by omega) (by omega) (by omega)
    have c3 : IsCorner X3 (cubePt f p q) := r3.corner hf hn0 hdv dx dy (by omega) (by omega) (by omega) (by omega) (by omega) (by omega) (by omega) (by omega) (by omega) (by omega)
    intro X
    constructor
    · intro hX
      split at hX <;> simp only [List.mem_cons, List.not_mem_nil, or_false] at hX
      · rcases hX with rfl | rfl | rfl | rfl
        exacts [⟨r0.1, r0.2.1, c0⟩, ⟨r1.1, r1.2.1, c1⟩, ⟨r2.1, r2.2.1, c2⟩, ⟨r3.1, r3.2.1, c3⟩]
      · rcases hX with rfl | rfl | rfl
        exacts [⟨r0.1, r0.2.1, c0⟩, ⟨r1.1, r1.2.1, c1⟩, ⟨r2.1, r2.2.1, c2⟩]
    · rintro ⟨hX, hXl, hXP⟩
      obtain ⟨n', g, i', j', _, _, _, hn', -, hg, -, -, -, hsq', hi', hj', -⟩ := hX.setting hXl
      rw [← hn] at hn'
      subst hn'
      obtain ⟨a', b', ha', hb', e⟩ := (isCorner_iff hsq').1 hXP
      obtain ⟨x, y, cx, cy, e1, cc⟩ := corner_squares hf hg hn0 hdv hi' hj' hsq'.i_lo hsq'.i_hi hsq'.j_lo hsq'.j_hi
        (by omega) (by omega) (by omega) (by omega) ha' hb' e
      have cx' : x = i0 ∨ x = x1 := by omega
      have cy' : y = j0 ∨ y = y1 := by omega
      clear cx cy
      rcases cx' with rfl | rfl <;> rcases cy' with rfl | rfl
      · have := r0.eq hX hsq' e1
        split <;> simp [this]
      · have := r2.eq hX hsq' e1
        split <;> simp [this]
      · have := r1.eq hX hsq' e1
        split <;> simp [this]
      · have := r3.eq hX hsq' e1
        rw [if_pos (by rw [Bool.or_eq_true, hbi, hbj]; exact cc)]
        simp [this]
  · rw [cubeVertex_iff (by omega) (by omega) (by omega) (by omega)]
    have t3 := (aligned_in hn0 hdv dx).1
    have t4 := (aligned_in hn0 hdv dy).1
    by_cases hb : (bi || bj) = true
    · rw [if_pos hb]
      rw [Bool.or_eq_true, hbi, hbj] at hb
      simp only [List.length_cons, List.length_nil]
      constructor
      · intro hcon; omega
      · intro hcon; omega
    · rw [if_neg hb]
      rw [Bool.or_eq_true, hbi, hbj] at hb
      simp only [List.length_cons, List.length_nil, true_iff]
      omega

/-- **C24.** At the leaf level `vertex_neighbors` panics (`size_ij(31)` underflows). -/
theorem c24_leaf_level_panics (fl : ℚ → ℚ) (c : CellID) : c.vertexNeighbors fl 30 = none := by
  rfl

example : (⟨0x7b37fda650000000#64⟩ : CellID).isValid = some true ∧
    (⟨0x7b37fda650000000#64⟩ : CellID).level = some 16 ∧ 10 ≤ 16 := by decide +kernel

end Verif
