import Verif.Model.Neighbors
import Verif.SpecCube
import Mathlib.Tactic.Linarith
import Mathlib.Tactic.LinearCombination
import Mathlib.Tactic.Ring
import Mathlib.Tactic.NormNum
import Mathlib.Tactic.Positivity
import Mathlib.Tactic.FieldSimp
import Mathlib.Tactic.IntervalCases
import Mathlib.Algebra.Order.Floor.Ring

/-! # Rounding analysis of `from_face_ij_wrap` -/

namespace Verif
open Rust Spec CellID

/-- A weaker form of the error bound, enough for everything below. -/
theorem Rounding.err {fl : ℚ → ℚ} (h : Rounding fl) {x : ℚ} (hx : |x| ≤ 2 ^ 40) :
    |fl x - x| ≤ (|x| + 1) / 2 ^ 53 := by
  have h1 := h x (hx.trans (pow_le_pow_right₀ (by norm_num) (by omega)))
  have h2 : (1 : ℚ) / 2 ^ 1075 ≤ 1 / 2 ^ 53 :=
    one_div_le_one_div_of_le (by positivity) (pow_le_pow_right₀ (by norm_num) (by omega))
  rw [add_div]
  generalize (1 : ℚ) / 2 ^ 1075 = e at *
  linarith

theorem Rounding.near {fl : ℚ → ℚ} (h : Rounding fl) {x p d B : ℚ} (hx : |x - p| ≤ d) (hp : |p| ≤ B)
    (hd : d ≤ 1) (hB : B ≤ 2 ^ 39) : |fl x - p| ≤ d + (B + 2) / 2 ^ 53 := by
  have h1 : |x| ≤ B + 1 := by
    have := abs_add_le (x - p) p
    rw [sub_add_cancel] at this
    linarith
  have h2 := h.err (x := x) (by linarith)
  have h3 := abs_add_le (fl x - x) (x - p)
  rw [sub_add_sub_cancel] at h3
  have h4 : (|x| + 1) / 2 ^ 53 ≤ (B + 2) / 2 ^ 53 :=
    div_le_div_of_nonneg_right (by linarith) (by positivity)
  linarith

theorem near_add {x p d c : ℚ} (h : |x - p| ≤ d) : |(x + c) - (p + c)| ≤ d := by
  rwa [add_sub_add_right_eq_sub]
theorem near_mul {x p d c : ℚ} (hc : 0 ≤ c) (h : |x - p| ≤ d) : |c * x - c * p| ≤ c * d := by
  rw [← mul_sub, abs_mul, abs_of_nonneg hc]
  exact mul_le_mul_of_nonneg_left h hc

/-- The projected centre of leaf column `i`, in exact arithmetic. -/
def ctr (i : Int) : ℚ := (2 * (i : ℚ) + 1 - 2 ^ 30) / 2 ^ 30

theorem raw_near {fl : ℚ → ℚ} (h : Rounding fl) {i : Int} (h0 : -1 ≤ i) (h1 : i ≤ 2 ^ 30) :
    |fl (1 / 2 ^ 30 * fl (fl (fl (2 * (i : ℚ)) + 1) - 2 ^ 30)) - ctr i| ≤ 1 / 2 ^ 47 := by
  have h0' : (-1 : ℚ) ≤ i := by exact_mod_cast h0
  have h1' : (i : ℚ) ≤ 2 ^ 30 := by exact_mod_cast h1
  have a1 := h.near (x := 2 * (i : ℚ)) (p := 2 * (i : ℚ)) (d := 0) (B := 2 ^ 31) (by simp)
    (by rw [abs_le]; constructor <;> linarith) (by norm_num) (by norm_num)
  have a2 := h.near (near_add (c := 1) a1) (B := 2 ^ 32)
    (by rw [abs_le]; constructor <;> linarith) (by norm_num) (by norm_num)
  have a3 := h.near (near_add (c := -2 ^ 30) a2) (B := 2 ^ 32)
    (by rw [abs_le]; constructor <;> linarith) (by norm_num) (by norm_num)
  have a4 := h.near (near_mul (c := 1 / 2 ^ 30) (by norm_num) a3) (B := 4)
    (by rw [abs_le]; constructor <;> linarith) (by norm_num) (by norm_num)
  rw [← sub_eq_add_neg, ← sub_eq_add_neg] at a4
  have e : 1 / 2 ^ 30 * (2 * (i : ℚ) + 1 - 2 ^ 30) = ctr i := by rw [ctr]; ring
  rw [e] at a4
  refine a4.trans ?_
  norm_num

theorem wrapU_in {fl : ℚ → ℚ} (h : Rounding fl) {i : Int} (h0 : 0 ≤ i) (h1 : i < 2 ^ 30) :
    |wrapU fl i - ctr i| ≤ 1 / 2 ^ 47 ∧ |wrapU fl i| < 1 := by
  have hn := raw_near h (i := i) (by omega) (by omega)
  have h0' : (0 : ℚ) ≤ i := by exact_mod_cast h0
  have h1' : (i : ℚ) + 1 ≤ 2 ^ 30 := by exact_mod_cast h1
  have c1 : ctr i ≤ 1 - 1 / 2 ^ 30 := by
    rw [ctr, div_le_iff₀ (by norm_num)]; linarith
  have c2 : -(1 - 1 / 2 ^ 30) ≤ ctr i := by
    rw [ctr, le_div_iff₀ (by norm_num)]; linarith
  unfold wrapU clamp
  generalize fl (1 / 2 ^ 30 * fl (fl (fl (2 * (i : ℚ)) + 1) - 2 ^ 30)) = x at *
  rw [abs_le] at hn
  obtain ⟨hn1, hn2⟩ := hn
  have e1 : ¬ x < -(1 + 1 / 2 ^ 52) := by norm_num at *; linarith
  have e2 : ¬ x > 1 + 1 / 2 ^ 52 := by norm_num at *; linarith
  rw [if_neg e1, if_neg e2]
  constructor
  · rw [abs_le]; exact ⟨hn1, hn2⟩
  · rw [abs_lt]; norm_num at *; constructor <;> linarith

theorem wrapU_hi {fl : ℚ → ℚ} (h : Rounding fl) : wrapU fl (2 ^ 30) = 1 + 1 / 2 ^ 52 := by
  have hn := raw_near h (i := 2 ^ 30) (by omega) (by omega)
  have c1 : ctr (2 ^ 30) = 1 + 1 / 2 ^ 30 := by rw [ctr]; norm_num
  unfold wrapU clamp
  generalize fl (1 / 2 ^ 30 * fl (fl (fl (2 * ((2 ^ 30 : Int) : ℚ)) + 1) - 2 ^ 30)) = x at *
  rw [abs_le, c1] at hn
  rw [if_neg (by norm_num at *; linarith), if_pos (by norm_num at *; linarith)]

theorem wrapU_lo {fl : ℚ → ℚ} (h : Rounding fl) : wrapU fl (-1) = -(1 + 1 / 2 ^ 52) := by
  have hn := raw_near h (i := -1) (by omega) (by omega)
  have c1 : ctr (-1) = -(1 + 1 / 2 ^ 30) := by rw [ctr]; norm_num
  unfold wrapU clamp
  generalize fl (1 / 2 ^ 30 * fl (fl (fl (2 * ((-1 : Int) : ℚ)) + 1) - 2 ^ 30)) = x at *
  rw [abs_le, c1] at hn
  rw [if_pos (by norm_num at *; linarith)]

theorem st_near {fl : ℚ → ℚ} (h : Rounding fl) {x p : ℚ} (hx : |x - p| ≤ 1 / 2 ^ 40) (hp : |p| ≤ 1) :
    |fl (2 ^ 30 * fl (1 / 2 * fl (x + 1))) - 2 ^ 29 * (p + 1)| ≤ 1 / 2 ^ 8 := by
  rw [abs_le] at hp
  have a1 := h.near (near_add (c := 1) hx) (B := 2) (by rw [abs_le]; constructor <;> linarith)
    (by norm_num) (by norm_num)
  have a2 := h.near (near_mul (c := 1 / 2) (by norm_num) a1) (B := 2)
    (by rw [abs_le]; constructor <;> linarith) (by norm_num) (by norm_num)
  have a3 := h.near (near_mul (c := 2 ^ 30) (by norm_num) a2) (B := 2 ^ 31)
    (by rw [abs_le]; constructor <;> linarith) (by norm_num) (by norm_num)
  have e : 2 ^ 30 * (1 / 2 * (p + 1)) = 2 ^ 29 * (p + 1) := by ring
  rw [e] at a3
  refine a3.trans ?_
  norm_num

theorem stToIJ_of {fl : ℚ → ℚ} {s : ℚ} {k : Int} (h : ⌊fl (2 ^ 30 * s)⌋ = k) (h1 : -2 ≤ k) (h2 : k ≤ 2 ^ 30 + 2) :
    stToIJ fl s = clamp k 0 (2 ^ 30 - 1) := by
  unfold stToIJ
  rw [h]
  have : f64ToI32 k = k := by unfold f64ToI32; omega
  rw [this]; rfl

theorem stToIJ_in {fl : ℚ → ℚ} (h : Rounding fl) {x : ℚ} {i : Int} (h0 : 0 ≤ i) (h1 : i < 2 ^ 30)
    (hx : |x - ctr i| ≤ 1 / 2 ^ 40) : stToIJ fl (fl (1 / 2 * fl (x + 1))) = i := by
  have h0' : (0 : ℚ) ≤ i := by exact_mod_cast h0
  have h1' : (i : ℚ) + 1 ≤ 2 ^ 30 := by exact_mod_cast h1
  have c1 : ctr i ≤ 1 := by
    rw [ctr, div_le_iff₀ (by norm_num)]; linarith
  have c2 : -1 ≤ ctr i := by
    rw [ctr, le_div_iff₀ (by norm_num)]; linarith
  have hn := st_near h hx (by rw [abs_le]; exact ⟨c2, c1⟩)
  have e : 2 ^ 29 * (ctr i + 1) = (i : ℚ) + 1 / 2 := by rw [ctr]; field_simp; ring
  rw [e, abs_le] at hn
  have hfl : ⌊fl (2 ^ 30 * fl (1 / 2 * fl (x + 1)))⌋ = i := by
    rw [Int.floor_eq_iff]
    constructor <;> norm_num at * <;> linarith
  rw [stToIJ_of hfl (by omega) (by omega)]
  unfold clamp
  rw [if_neg (by omega), if_neg (by omega)]

theorem stToIJ_lo {fl : ℚ → ℚ} (h : Rounding fl) {x : ℚ}
    (hx : |x - (-1)| ≤ 1 / 2 ^ 40) : stToIJ fl (fl (1 / 2 * fl (x + 1))) = 0 := by
  have hn := st_near h hx (by norm_num)
  rw [abs_le] at hn
  generalize hk : ⌊fl (2 ^ 30 * fl (1 / 2 * fl (x + 1)))⌋ = k
  have hk' := hk
  rw [Int.floor_eq_iff] at hk'
  have b1 : (-2 : ℚ) < k := by norm_num at *; linarith
  have b2 : (k : ℚ) < 1 := by norm_num at *; linarith
  have b1' : -2 < k := by exact_mod_cast b1
  have b2' : k < 1 := by exact_mod_cast b2
  rw [stToIJ_of hk (by omega) (by omega)]
  unfold clamp
  split_ifs <;> omega

theorem stToIJ_hi {fl : ℚ → ℚ} (h : Rounding fl) {x : ℚ}
    (hx : |x - 1| ≤ 1 / 2 ^ 40) : stToIJ fl (fl (1 / 2 * fl (x + 1))) = 2 ^ 30 - 1 := by
  have hn := st_near h hx (by norm_num)
  rw [abs_le] at hn
  generalize hk : ⌊fl (2 ^ 30 * fl (1 / 2 * fl (x + 1)))⌋ = k
  have hk' := hk
  rw [Int.floor_eq_iff] at hk'
  have b1 : (2 ^ 30 - 2 : ℚ) < k := by norm_num at *; linarith
  have b2 : (k : ℚ) < 2 ^ 30 + 1 := by norm_num at *; linarith
  have b1' : (2 ^ 30 - 2 : Int) < k := by exact_mod_cast b1
  have b2' : k < 2 ^ 30 + 1 := by exact_mod_cast b2
  rw [stToIJ_of hk (by omega) (by omega)]
  unfold clamp
  split_ifs <;> omega

/-- Quotients of coordinates: the denominator is `±1` up to `2^-52`. -/
theorem div_near {fl : ℚ → ℚ} (h : Rounding fl) {a b p q : ℚ} (ha : |a - p| ≤ 1 / 2 ^ 46) (hp : |p| ≤ 1)
    (hb : |b - q| ≤ 1 / 2 ^ 46) (hq : q = 1 ∨ q = -1) : |fl (a / b) - p * q| ≤ 1 / 2 ^ 40 := by
  have key : |a / b - p * q| ≤ 1 / 2 ^ 44 := by
    have hq2 : q * q = 1 := by rcases hq with rfl | rfl <;> norm_num
    have hqa : |q| = 1 := by rcases hq with rfl | rfl <;> norm_num
    have hb0 : 1 / 2 < |b| := by
      have := abs_sub_abs_le_abs_sub q b
      rw [abs_sub_comm q b, hqa] at this
      norm_num at *
      linarith
    have hbne : b ≠ 0 := by intro e; rw [e, abs_zero] at hb0; norm_num at hb0
    have e : a / b - p * q = ((a - p) - p * q * (b - q)) / b := by
      field_simp
      linear_combination (-p) * hq2
    rw [e, abs_div, div_le_iff₀ (by linarith)]
    have h1 := abs_sub (a - p) (p * q * (b - q))
    rw [abs_mul, abs_mul, hqa, mul_one] at h1
    have h2 : |p| * |b - q| ≤ 1 * (1 / 2 ^ 46) := mul_le_mul hp hb (abs_nonneg _) (by norm_num)
    norm_num at *
    linarith
  have := h.near key (B := 1) (by
    rw [abs_mul]
    rcases hq with rfl | rfl <;> simpa using hp) (by norm_num) (by norm_num)
  refine this.trans ?_
  norm_num

/-! ## The table -/

/-- Coordinate of the leaf reached: `0`, the last one, `t`, or `t` counted backwards. -/
def ap : Nat → Int → Int
  | 0, _ => 0
  | 1, _ => 2 ^ 30 - 1
  | 2, t => t
  | _, t => 2 ^ 30 - 1 - t

/-- The face beyond an edge (0 down, 1 right, 2 up, 3 left) and how its coordinates are obtained. -/
def edgeTab (f d : Nat) : Nat × Nat × Nat :=
  (([[(5, 2, 1), (1, 0, 2), (2, 0, 3), (4, 3, 1)],
    [(5, 1, 3), (3, 3, 0), (2, 2, 0), (0, 1, 2)],
    [(1, 2, 1), (3, 0, 2), (4, 0, 3), (0, 3, 1)],
    [(1, 1, 3), (5, 3, 0), (4, 2, 0), (2, 1, 2)],
    [(3, 2, 1), (5, 0, 2), (0, 0, 3), (2, 3, 1)],
    [(3, 1, 3), (1, 3, 0), (0, 2, 0), (4, 1, 2)]] : List (List (Nat × Nat × Nat))).getD f []).getD d (0, 0, 0)

/-- The same beyond a corner; the index is `2·(i too large) + (j too large)`. -/
def cornerTab (f d : Nat) : Nat × Nat × Nat :=
  (([[(4, 1, 1), (4, 0, 1), (1, 0, 0), (1, 0, 1)],
    [(0, 1, 0), (0, 1, 1), (3, 1, 0), (3, 0, 0)],
    [(0, 1, 1), (0, 0, 1), (3, 0, 0), (3, 0, 1)],
    [(1, 1, 1), (4, 0, 0), (1, 1, 0), (4, 1, 0)],
    [(3, 0, 1), (0, 0, 1), (3, 1, 1), (0, 0, 0)],
    [(3, 1, 1), (0, 0, 0), (3, 1, 0), (0, 1, 0)]] : List (List (Nat × Nat × Nat))).getD f []).getD d (0, 0, 0)

/-- The leaf reached from the virtual leaf `(i, j)` of face `f`. -/
def wrapInt (f : Nat) (i j : Int) : Nat × Int × Int :=
  if i < 0 then
    if j < 0 then let e := cornerTab f 0; (e.1, ap e.2.1 0, ap e.2.2 0)
    else if 2 ^ 30 ≤ j then let e := cornerTab f 1; (e.1, ap e.2.1 0, ap e.2.2 0)
    else let e := edgeTab f 3; (e.1, ap e.2.1 j, ap e.2.2 j)
  else if 2 ^ 30 ≤ i then
    if j < 0 then let e := cornerTab f 2; (e.1, ap e.2.1 0, ap e.2.2 0)
    else if 2 ^ 30 ≤ j then let e := cornerTab f 3; (e.1, ap e.2.1 0, ap e.2.2 0)
    else let e := edgeTab f 1; (e.1, ap e.2.1 j, ap e.2.2 j)
  else
    if j < 0 then let e := edgeTab f 0; (e.1, ap e.2.1 i, ap e.2.2 i)
    else if 2 ^ 30 ≤ j then let e := edgeTab f 2; (e.1, ap e.2.1 i, ap e.2.2 i)
    else (f, i, j)

/-- The float part of the computation. -/
def wrapF (fl : ℚ → ℚ) (f : Nat) (u v : ℚ) : Option (Nat × Int × Int) :=
  (faceUVtoXYZ f u v).bind fun r => (xyzToFaceUV fl r).map fun w =>
    (w.1, stToIJ fl (fl (1 / 2 * fl (w.2.1 + 1))), stToIJ fl (fl (1 / 2 * fl (w.2.2 + 1))))

theorem fromFaceIJWrap_eq (fl : ℚ → ℚ) (f : Nat) (i j : Int) : fromFaceIJWrap fl f i j =
    (wrapF fl f (wrapU fl (clamp i (-1) maxSize)) (wrapU fl (clamp j (-1) maxSize))).bind
      fun w => fromFaceIJ w.1 w.2.1 w.2.2 := by
  unfold fromFaceIJWrap wrapF
  cases h : faceUVtoXYZ f (wrapU fl (clamp i (-1) maxSize)) (wrapU fl (clamp j (-1) maxSize)) with
  | none => simp [h]
  | some r =>
    simp only [h, Option.bind_eq_bind, Option.bind_some]
    cases h2 : xyzToFaceUV fl r with
    | none => simp
    | some w => rfl

/-- A coordinate of a virtual leaf: inside, too large or too small. -/
inductive Pos (u : ℚ) (i : Int) : Prop
  | mid : 0 ≤ i → i < 2 ^ 30 → |u - ctr i| ≤ 1 / 2 ^ 46 → |u| < 1 → Pos u i
  | hi : 2 ^ 30 ≤ i → u = 1 + 1 / 2 ^ 52 → Pos u i
  | lo : i < 0 → u = -(1 + 1 / 2 ^ 52) → Pos u i

theorem pos_of {fl : ℚ → ℚ} (h : Rounding fl) (i : Int) : Pos (wrapU fl (clamp i (-1) maxSize)) i := by
  unfold clamp maxSize
  by_cases h1 : i < 0
  · have : (if i < -1 then -1 else if i > 2 ^ 30 then 2 ^ 30 else i) = -1 := by split_ifs <;> omega
    rw [this]
    exact .lo h1 (wrapU_lo h)
  · by_cases h2 : 2 ^ 30 ≤ i
    · have : (if i < -1 then -1 else if i > 2 ^ 30 then 2 ^ 30 else i) = 2 ^ 30 := by split_ifs <;> omega
      rw [this]
      exact .hi h2 (wrapU_hi h)
    · have : (if i < -1 then -1 else if i > 2 ^ 30 then 2 ^ 30 else i) = i := by split_ifs <;> omega
      rw [this]
      obtain ⟨a, b⟩ := wrapU_in h (i := i) (by omega) (by omega)
      exact .mid (by omega) (by omega) (a.trans (by norm_num)) b

/-! ## The cases -/

theorem vecFace_x {x y z : ℚ} (h1 : |y| ≤ |x|) (h2 : |z| ≤ |x|) : vecFace ⟨x, y, z⟩ = if x < 0 then 3 else 0 := by
  simp only [vecFace]
  rw [if_neg (not_lt.2 h1), if_neg (not_lt.2 h2)]
theorem vecFace_y {x y z : ℚ} (h1 : |x| < |y|) (h2 : |z| ≤ |y|) : vecFace ⟨x, y, z⟩ = if y < 0 then 4 else 1 := by
  simp only [vecFace]
  rw [if_pos h1, if_neg (not_lt.2 h2)]
theorem vecFace_z {x y z : ℚ} (h1 : |x| < |z|) (h2 : |y| < |z|) : vecFace ⟨x, y, z⟩ = if z < 0 then 5 else 2 := by
  simp only [vecFace]
  split_ifs <;> rfl

theorem st_div {fl : ℚ → ℚ} (h : Rounding fl) {a b p q : ℚ} {k : Int} (ha : |a - p| ≤ 1 / 2 ^ 46) (hp : |p| ≤ 1)
    (hb : |b - q| ≤ 1 / 2 ^ 46) (hq : q = 1 ∨ q = -1)
    (hk : (p * q = -1 ∧ k = 0) ∨ (p * q = 1 ∧ k = 2 ^ 30 - 1) ∨ (0 ≤ k ∧ k < 2 ^ 30 ∧ p * q = ctr k)) :
    stToIJ fl (fl (1 / 2 * fl (fl (a / b) + 1))) = k := by
  have hd := div_near h ha hp hb hq
  rcases hk with ⟨e, rfl⟩ | ⟨e, rfl⟩ | ⟨h1, h2, e⟩
  · rw [e] at hd; exact stToIJ_lo h hd
  · rw [e] at hd; exact stToIJ_hi h hd
  · rw [e] at hd; exact stToIJ_in h h1 h2 hd

theorem ctr_le {i : Int} (h0 : 0 ≤ i) (h1 : i < 2 ^ 30) : |ctr i| ≤ 1 := by
  have h0' : (0 : ℚ) ≤ i := by exact_mod_cast h0
  have h1' : (i : ℚ) + 1 ≤ 2 ^ 30 := by exact_mod_cast h1
  rw [abs_le, ctr, div_le_iff₀ (by norm_num), le_div_iff₀ (by norm_num)]
  constructor <;> linarith

theorem ctr_neg (i : Int) : -ctr i = ctr (2 ^ 30 - 1 - i) := by
  rw [ctr, ctr]; push_cast; ring

theorem near_neg {x p d : ℚ} (h : |x - p| ≤ d) : |-x - -p| ≤ d := by
  rw [← abs_neg]; convert h using 2; ring

theorem absL : |(1 + 1 / 2 ^ 52 : ℚ)| = 1 + 1 / 2 ^ 52 := abs_of_pos (by norm_num)

/-- Comparison of absolute values of coordinates. -/
macro "face_cmp" : tactic => `(tactic| ((try simp only [abs_neg, abs_one, absL]); first | (norm_num; done) | linarith | (norm_num; linarith)))

theorem wrapF_0 {fl : ℚ → ℚ} (h : Rounding fl) {u v : ℚ} {i j : Int} (hu : Pos u i) (hv : Pos v j) :
    wrapF fl 0 u v = some (wrapInt 0 i j) := by
  have o1 : |(1 : ℚ) - 1| ≤ 1 / 2 ^ 46 := by norm_num
  have om1 : |(-1 : ℚ) - -1| ≤ 1 / 2 ^ 46 := by norm_num
  have nL : |(1 + 1 / 2 ^ 52 : ℚ) - 1| ≤ 1 / 2 ^ 46 := by norm_num
  have nM : |(-(1 + 1 / 2 ^ 52) : ℚ) - -1| ≤ 1 / 2 ^ 46 := by norm_num
  have a1 : |(1 : ℚ)| ≤ 1 := by norm_num
  have am1 : |(-1 : ℚ)| ≤ 1 := by norm_num
  rcases hu with ⟨iu0, iu1, nu, bu⟩ | ⟨iu, rfl⟩ | ⟨iu, rfl⟩ <;> rcases hv with ⟨jv0, jv1, nv, bv⟩ | ⟨jv, rfl⟩ | ⟨jv, rfl⟩
  · have cu := ctr_le iu0 iu1
    have cv := ctr_le jv0 jv1
    have hface : vecFace (⟨1, u, v⟩ : Vec ℚ) = 0 := by
      rw [vecFace_x (by face_cmp) (by face_cmp)]
      norm_num
    have e0 := st_div h (k := i) (p := ctr i) (q := 1) nu cu o1 (by norm_num) (Or.inr (Or.inr ⟨by omega, by omega, by ring⟩))
    have e1 := st_div h (k := j) (p := ctr j) (q := 1) nv cv o1 (by norm_num) (Or.inr (Or.inr ⟨by omega, by omega, by ring⟩))
    have hw : wrapInt 0 i j = (0, i, j) := by
      rw [wrapInt, if_neg (show ¬ i < 0 by omega), if_neg (show ¬ 2 ^ 30 ≤ i by omega), if_neg (show ¬ j < 0 by omega), if_neg (show ¬ 2 ^ 30 ≤ j by omega)]
    rw [hw]
    simp only [wrapF, faceUVtoXYZ, Option.bind_some, xyzToFaceUV, hface, validFaceXYZtoUV, Option.bind_eq_bind, Option.map_some]
    rw [e0, e1]
  · have cu := ctr_le iu0 iu1
    have hface : vecFace (⟨1, u, (1 + 1 / 2 ^ 52)⟩ : Vec ℚ) = 2 := by
      rw [vecFace_z (by face_cmp) (by face_cmp)]
      norm_num
    have e0 := st_div h (k := 0) (p := -(1)) (q := 1) (near_neg o1) (by rw [abs_neg]; exact a1) nL (by norm_num) (Or.inl ⟨by norm_num, rfl⟩)
    have e1 := st_div h (k := 2 ^ 30 - 1 - i) (p := -(ctr i)) (q := 1) (near_neg nu) (by rw [abs_neg]; exact cu) nL (by norm_num) (Or.inr (Or.inr ⟨by omega, by omega, by rw [← ctr_neg]; ring⟩))
    have hw : wrapInt 0 i j = (2, 0, 2 ^ 30 - 1 - i) := by
      rw [wrapInt, if_neg (show ¬ i < 0 by omega), if_neg (show ¬ 2 ^ 30 ≤ i by omega), if_neg (show ¬ j < 0 by omega), if_pos (show 2 ^ 30 ≤ j by omega)]; rfl
    rw [hw]
    simp only [wrapF, faceUVtoXYZ, Option.bind_some, xyzToFaceUV, hface, validFaceXYZtoUV, Option.bind_eq_bind, Option.map_some]
    rw [e0, e1]
  · have cu := ctr_le iu0 iu1
    have hface : vecFace (⟨1, u, (-(1 + 1 / 2 ^ 52))⟩ : Vec ℚ) = 5 := by
      rw [vecFace_z (by face_cmp) (by face_cmp)]
      norm_num
    have e0 := st_div h (k := i) (p := -(ctr i)) (q := -1) (near_neg nu) (by rw [abs_neg]; exact cu) nM (by norm_num) (Or.inr (Or.inr ⟨by omega, by omega, by ring⟩))
    have e1 := st_div h (k := 2 ^ 30 - 1) (p := -(1)) (q := -1) (near_neg o1) (by rw [abs_neg]; exact a1) nM (by norm_num) (Or.inr (Or.inl ⟨by norm_num, rfl⟩))
    have hw : wrapInt 0 i j = (5, i, 2 ^ 30 - 1) := by
      rw [wrapInt, if_neg (show ¬ i < 0 by omega), if_neg (show ¬ 2 ^ 30 ≤ i by omega), if_pos (show j < 0 by omega)]; rfl
    rw [hw]
    simp only [wrapF, faceUVtoXYZ, Option.bind_some, xyzToFaceUV, hface, validFaceXYZtoUV, Option.bind_eq_bind, Option.map_some]
    rw [e0, e1]
  · have cv := ctr_le jv0 jv1
    have hface : vecFace (⟨1, (1 + 1 / 2 ^ 52), v⟩ : Vec ℚ) = 1 := by
      rw [vecFace_y (by face_cmp) (by face_cmp)]
      norm_num
    have e0 := st_div h (k := 0) (p := -(1)) (q := 1) (near_neg o1) (by rw [abs_neg]; exact a1) nL (by norm_num) (Or.inl ⟨by norm_num, rfl⟩)
    have e1 := st_div h (k := j) (p := ctr j) (q := 1) nv cv nL (by norm_num) (Or.inr (Or.inr ⟨by omega, by omega, by ring⟩))
    have hw : wrapInt 0 i j = (1, 0, j) := by
      rw [wrapInt, if_neg (show ¬ i < 0 by omega), if_pos (show 2 ^ 30 ≤ i by omega), if_neg (show ¬ j < 0 by omega), if_neg (show ¬ 2 ^ 30 ≤ j by omega)]; rfl
    rw [hw]
    simp only [wrapF, faceUVtoXYZ, Option.bind_some, xyzToFaceUV, hface, validFaceXYZtoUV, Option.bind_eq_bind, Option.map_some]
    rw [e0, e1]
  · have hface : vecFace (⟨1, (1 + 1 / 2 ^ 52), (1 + 1 / 2 ^ 52)⟩ : Vec ℚ) = 1 := by
      rw [vecFace_y (by face_cmp) (by face_cmp)]
      norm_num
    have e0 := st_div h (k := 0) (p := -(1)) (q := 1) (near_neg o1) (by rw [abs_neg]; exact a1) nL (by norm_num) (Or.inl ⟨by norm_num, rfl⟩)
    have e1 := st_div h (k := 2 ^ 30 - 1) (p := 1) (q := 1) nL a1 nL (by norm_num) (Or.inr (Or.inl ⟨by norm_num, rfl⟩))
    have hw : wrapInt 0 i j = (1, 0, 2 ^ 30 - 1) := by
      rw [wrapInt, if_neg (show ¬ i < 0 by omega), if_pos (show 2 ^ 30 ≤ i by omega), if_neg (show ¬ j < 0 by omega), if_pos (show 2 ^ 30 ≤ j by omega)]; rfl
    rw [hw]
    simp only [wrapF, faceUVtoXYZ, Option.bind_some, xyzToFaceUV, hface, validFaceXYZtoUV, Option.bind_eq_bind, Option.map_some]
    rw [e0, e1]
  · have hface : vecFace (⟨1, (1 + 1 / 2 ^ 52), (-(1 + 1 / 2 ^ 52))⟩ : Vec ℚ) = 1 := by
      rw [vecFace_y (by face_cmp) (by face_cmp)]
      norm_num
    have e0 := st_div h (k := 0) (p := -(1)) (q := 1) (near_neg o1) (by rw [abs_neg]; exact a1) nL (by norm_num) (Or.inl ⟨by norm_num, rfl⟩)
    have e1 := st_div h (k := 0) (p := -1) (q := 1) nM am1 nL (by norm_num) (Or.inl ⟨by norm_num, rfl⟩)
    have hw : wrapInt 0 i j = (1, 0, 0) := by
      rw [wrapInt, if_neg (show ¬ i < 0 by omega), if_pos (show 2 ^ 30 ≤ i by omega), if_pos (show j < 0 by omega)]; rfl
    rw [hw]
    simp only [wrapF, faceUVtoXYZ, Option.bind_some, xyzToFaceUV, hface, validFaceXYZtoUV, Option.bind_eq_bind, Option.map_some]
    rw [e0, e1]
  · have cv := ctr_le jv0 jv1
    have hface : vecFace (⟨1, (-(1 + 1 / 2 ^ 52)), v⟩ : Vec ℚ) = 4 := by
      rw [vecFace_y (by face_cmp) (by face_cmp)]
      norm_num
    have e0 := st_div h (k := 2 ^ 30 - 1 - j) (p := ctr j) (q := -1) nv cv nM (by norm_num) (Or.inr (Or.inr ⟨by omega, by omega, by rw [← ctr_neg]; ring⟩))
    have e1 := st_div h (k := 2 ^ 30 - 1) (p := -(1)) (q := -1) (near_neg o1) (by rw [abs_neg]; exact a1) nM (by norm_num) (Or.inr (Or.inl ⟨by norm_num, rfl⟩))
    have hw : wrapInt 0 i j = (4, 2 ^ 30 - 1 - j, 2 ^ 30 - 1) := by
      rw [wrapInt, if_pos (show i < 0 by omega), if_neg (show ¬ j < 0 by omega), if_neg (show ¬ 2 ^ 30 ≤ j by omega)]; rfl
    rw [hw]
    simp only [wrapF, faceUVtoXYZ, Option.bind_some, xyzToFaceUV, hface, validFaceXYZtoUV, Option.bind_eq_bind, Option.map_some]
    rw [e0, e1]
  · have hface : vecFace (⟨1, (-(1 + 1 / 2 ^ 52)), (1 + 1 / 2 ^ 52)⟩ : Vec ℚ) = 4 := by
      rw [vecFace_y (by face_cmp) (by face_cmp)]
      norm_num
    have e0 := st_div h (k := 0) (p := 1) (q := -1) nL a1 nM (by norm_num) (Or.inl ⟨by norm_num, rfl⟩)
    have e1 := st_div h (k := 2 ^ 30 - 1) (p := -(1)) (q := -1) (near_neg o1) (by rw [abs_neg]; exact a1) nM (by norm_num) (Or.inr (Or.inl ⟨by norm_num, rfl⟩))
    have hw : wrapInt 0 i j = (4, 0, 2 ^ 30 - 1) := by
      rw [wrapInt, if_pos (show i < 0 by omega), if_neg (show ¬ j < 0 by omega), if_pos (show 2 ^ 30 ≤ j by omega)]; rfl
    rw [hw]
    simp only [wrapF, faceUVtoXYZ, Option.bind_some, xyzToFaceUV, hface, validFaceXYZtoUV, Option.bind_eq_bind, Option.map_some]
    rw [e0, e1]
  · have hface : vecFace (⟨1, (-(1 + 1 / 2 ^ 52)), (-(1 + 1 / 2 ^ 52))⟩ : Vec ℚ) = 4 := by
      rw [vecFace_y (by face_cmp) (by face_cmp)]
      norm_num
    have e0 := st_div h (k := 2 ^ 30 - 1) (p := -1) (q := -1) nM am1 nM (by norm_num) (Or.inr (Or.inl ⟨by norm_num, rfl⟩))
    have e1 := st_div h (k := 2 ^ 30 - 1) (p := -(1)) (q := -1) (near_neg o1) (by rw [abs_neg]; exact a1) nM (by norm_num) (Or.inr (Or.inl ⟨by norm_num, rfl⟩))
    have hw : wrapInt 0 i j = (4, 2 ^ 30 - 1, 2 ^ 30 - 1) := by
      rw [wrapInt, if_pos (show i < 0 by omega), if_pos (show j < 0 by omega)]; rfl
    rw [hw]
    simp only [wrapF, faceUVtoXYZ, Option.bind_some, xyzToFaceUV, hface, validFaceXYZtoUV, Option.bind_eq_bind, Option.map_some]
    rw [e0, e1]

theorem wrapF_1 {fl : ℚ → ℚ} (h : Rounding fl) {u v : ℚ} {i j : Int} (hu : Pos u i) (hv : Pos v j) :
    wrapF fl 1 u v = some (wrapInt 1 i j) := by
  have o1 : |(1 : ℚ) - 1| ≤ 1 / 2 ^ 46 := by norm_num
  have om1 : |(-1 : ℚ) - -1| ≤ 1 / 2 ^ 46 := by norm_num
  have nL : |(1 + 1 / 2 ^ 52 : ℚ) - 1| ≤ 1 / 2 ^ 46 := by norm_num
  have nM : |(-(1 + 1 / 2 ^ 52) : ℚ) - -1| ≤ 1 / 2 ^ 46 := by norm_num
  have a1 : |(1 : ℚ)| ≤ 1 := by norm_num
  have am1 : |(-1 : ℚ)| ≤ 1 := by norm_num
  rcases hu with ⟨iu0, iu1, nu, bu⟩ | ⟨iu, rfl⟩ | ⟨iu, rfl⟩ <;> rcases hv with ⟨jv0, jv1, nv, bv⟩ | ⟨jv, rfl⟩ | ⟨jv, rfl⟩
  · have cu := ctr_le iu0 iu1
    have cv := ctr_le jv0 jv1
    have hface : vecFace (⟨-u, 1, v⟩ : Vec ℚ) = 1 := by
      rw [vecFace_y (by face_cmp) (by face_cmp)]
      norm_num
    have e0 := st_div h (k := i) (p := -(-(ctr i))) (q := 1) (near_neg (near_neg nu)) (by rw [abs_neg]; exact (by rw [abs_neg]; exact cu)) o1 (by norm_num) (Or.inr (Or.inr ⟨by omega, by omega, by ring⟩))
    have e1 := st_div h (k := j) (p := ctr j) (q := 1) nv cv o1 (by norm_num) (Or.inr (Or.inr ⟨by omega, by omega, by ring⟩))
    have hw : wrapInt 1 i j = (1, i, j) := by
      rw [wrapInt, if_neg (show ¬ i < 0 by omega), if_neg (show ¬ 2 ^ 30 ≤ i by omega), if_neg (show ¬ j < 0 by omega), if_neg (show ¬ 2 ^ 30 ≤ j by omega)]
    rw [hw]
    simp only [wrapF, faceUVtoXYZ, Option.bind_some, xyzToFaceUV, hface, validFaceXYZtoUV, Option.bind_eq_bind, Option.map_some]
    rw [e0, e1]
  · have cu := ctr_le iu0 iu1
    have hface : vecFace (⟨-u, 1, (1 + 1 / 2 ^ 52)⟩ : Vec ℚ) = 2 := by
      rw [vecFace_z (by face_cmp) (by face_cmp)]
      norm_num
    have e0 := st_div h (k := i) (p := -(-(ctr i))) (q := 1) (near_neg (near_neg nu)) (by rw [abs_neg]; exact (by rw [abs_neg]; exact cu)) nL (by norm_num) (Or.inr (Or.inr ⟨by omega, by omega, by ring⟩))
    have e1 := st_div h (k := 0) (p := -(1)) (q := 1) (near_neg o1) (by rw [abs_neg]; exact a1) nL (by norm_num) (Or.inl ⟨by norm_num, rfl⟩)
    have hw : wrapInt 1 i j = (2, i, 0) := by
      rw [wrapInt, if_neg (show ¬ i < 0 by omega), if_neg (show ¬ 2 ^ 30 ≤ i by omega), if_neg (show ¬ j < 0 by omega), if_pos (show 2 ^ 30 ≤ j by omega)]; rfl
    rw [hw]
    simp only [wrapF, faceUVtoXYZ, Option.bind_some, xyzToFaceUV, hface, validFaceXYZtoUV, Option.bind_eq_bind, Option.map_some]
    rw [e0, e1]
  · have cu := ctr_le iu0 iu1
    have hface : vecFace (⟨-u, 1, (-(1 + 1 / 2 ^ 52))⟩ : Vec ℚ) = 5 := by
      rw [vecFace_z (by face_cmp) (by face_cmp)]
      norm_num
    have e0 := st_div h (k := 2 ^ 30 - 1) (p := -(1)) (q := -1) (near_neg o1) (by rw [abs_neg]; exact a1) nM (by norm_num) (Or.inr (Or.inl ⟨by norm_num, rfl⟩))
    have e1 := st_div h (k := 2 ^ 30 - 1 - i) (p := -(-(ctr i))) (q := -1) (near_neg (near_neg nu)) (by rw [abs_neg]; exact (by rw [abs_neg]; exact cu)) nM (by norm_num) (Or.inr (Or.inr ⟨by omega, by omega, by rw [← ctr_neg]; ring⟩))
    have hw : wrapInt 1 i j = (5, 2 ^ 30 - 1, 2 ^ 30 - 1 - i) := by
      rw [wrapInt, if_neg (show ¬ i < 0 by omega), if_neg (show ¬ 2 ^ 30 ≤ i by omega), if_pos (show j < 0 by omega)]; rfl
    rw [hw]
    simp only [wrapF, faceUVtoXYZ, Option.bind_some, xyzToFaceUV, hface, validFaceXYZtoUV, Option.bind_eq_bind, Option.map_some]
    rw [e0, e1]
  · have cv := ctr_le jv0 jv1
    have hface : vecFace (⟨-(1 + 1 / 2 ^ 52), 1, v⟩ : Vec ℚ) = 3 := by
      rw [vecFace_x (by face_cmp) (by face_cmp)]
      norm_num
    have e0 := st_div h (k := 2 ^ 30 - 1 - j) (p := ctr j) (q := -(1)) nv cv (near_neg nL) (by norm_num) (Or.inr (Or.inr ⟨by omega, by omega, by rw [← ctr_neg]; ring⟩))
    have e1 := st_div h (k := 0) (p := 1) (q := -(1)) o1 a1 (near_neg nL) (by norm_num) (Or.inl ⟨by norm_num, rfl⟩)
    have hw : wrapInt 1 i j = (3, 2 ^ 30 - 1 - j, 0) := by
      rw [wrapInt, if_neg (show ¬ i < 0 by omega), if_pos (show 2 ^ 30 ≤ i by omega), if_neg (show ¬ j < 0 by omega), if_neg (show ¬ 2 ^ 30 ≤ j by omega)]; rfl
    rw [hw]
    simp only [wrapF, faceUVtoXYZ, Option.bind_some, xyzToFaceUV, hface, validFaceXYZtoUV, Option.bind_eq_bind, Option.map_some]
    rw [e0, e1]
  · have hface : vecFace (⟨-(1 + 1 / 2 ^ 52), 1, (1 + 1 / 2 ^ 52)⟩ : Vec ℚ) = 3 := by
      rw [vecFace_x (by face_cmp) (by face_cmp)]
      norm_num
    have e0 := st_div h (k := 0) (p := 1) (q := -(1)) nL a1 (near_neg nL) (by norm_num) (Or.inl ⟨by norm_num, rfl⟩)
    have e1 := st_div h (k := 0) (p := 1) (q := -(1)) o1 a1 (near_neg nL) (by norm_num) (Or.inl ⟨by norm_num, rfl⟩)
    have hw : wrapInt 1 i j = (3, 0, 0) := by
      rw [wrapInt, if_neg (show ¬ i < 0 by omega), if_pos (show 2 ^ 30 ≤ i by omega), if_neg (show ¬ j < 0 by omega), if_pos (show 2 ^ 30 ≤ j by omega)]; rfl
    rw [hw]
    simp only [wrapF, faceUVtoXYZ, Option.bind_some, xyzToFaceUV, hface, validFaceXYZtoUV, Option.bind_eq_bind, Option.map_some]
    rw [e0, e1]
  · have hface : vecFace (⟨-(1 + 1 / 2 ^ 52), 1, (-(1 + 1 / 2 ^ 52))⟩ : Vec ℚ) = 3 := by
      rw [vecFace_x (by face_cmp) (by face_cmp)]
      norm_num
    have e0 := st_div h (k := 2 ^ 30 - 1) (p := -1) (q := -(1)) nM am1 (near_neg nL) (by norm_num) (Or.inr (Or.inl ⟨by norm_num, rfl⟩))
    have e1 := st_div h (k := 0) (p := 1) (q := -(1)) o1 a1 (near_neg nL) (by norm_num) (Or.inl ⟨by norm_num, rfl⟩)
    have hw : wrapInt 1 i j = (3, 2 ^ 30 - 1, 0) := by
      rw [wrapInt, if_neg (show ¬ i < 0 by omega), if_pos (show 2 ^ 30 ≤ i by omega), if_pos (show j < 0 by omega)]; rfl
    rw [hw]
    simp only [wrapF, faceUVtoXYZ, Option.bind_some, xyzToFaceUV, hface, validFaceXYZtoUV, Option.bind_eq_bind, Option.map_some]
    rw [e0, e1]
  · have cv := ctr_le jv0 jv1
    have hface : vecFace (⟨-(-(1 + 1 / 2 ^ 52)), 1, v⟩ : Vec ℚ) = 0 := by
      rw [vecFace_x (by face_cmp) (by face_cmp)]
      norm_num
    have e0 := st_div h (k := 2 ^ 30 - 1) (p := 1) (q := -(-1)) o1 a1 (near_neg nM) (by norm_num) (Or.inr (Or.inl ⟨by norm_num, rfl⟩))
    have e1 := st_div h (k := j) (p := ctr j) (q := -(-1)) nv cv (near_neg nM) (by norm_num) (Or.inr (Or.inr ⟨by omega, by omega, by ring⟩))
    have hw : wrapInt 1 i j = (0, 2 ^ 30 - 1, j) := by
      rw [wrapInt, if_pos (show i < 0 by omega), if_neg (show ¬ j < 0 by omega), if_neg (show ¬ 2 ^ 30 ≤ j by omega)]; rfl
    rw [hw]
    simp only [wrapF, faceUVtoXYZ, Option.bind_some, xyzToFaceUV, hface, validFaceXYZtoUV, Option.bind_eq_bind, Option.map_some]
    rw [e0, e1]
  · have hface : vecFace (⟨-(-(1 + 1 / 2 ^ 52)), 1, (1 + 1 / 2 ^ 52)⟩ : Vec ℚ) = 0 := by
      rw [vecFace_x (by face_cmp) (by face_cmp)]
      norm_num
    have e0 := st_div h (k := 2 ^ 30 - 1) (p := 1) (q := -(-1)) o1 a1 (near_neg nM) (by norm_num) (Or.inr (Or.inl ⟨by norm_num, rfl⟩))
    have e1 := st_div h (k := 2 ^ 30 - 1) (p := 1) (q := -(-1)) nL a1 (near_neg nM) (by norm_num) (Or.inr (Or.inl ⟨by norm_num, rfl⟩))
    have hw : wrapInt 1 i j = (0, 2 ^ 30 - 1, 2 ^ 30 - 1) := by
      rw [wrapInt, if_pos (show i < 0 by omega), if_neg (show ¬ j < 0 by omega), if_pos (show 2 ^ 30 ≤ j by omega)]; rfl
    rw [hw]
    simp only [wrapF, faceUVtoXYZ, Option.bind_some, xyzToFaceUV, hface, validFaceXYZtoUV, Option.bind_eq_bind, Option.map_some]
    rw [e0, e1]
  · have hface : vecFace (⟨-(-(1 + 1 / 2 ^ 52)), 1, (-(1 + 1 / 2 ^ 52))⟩ : Vec ℚ) = 0 := by
      rw [vecFace_x (by face_cmp) (by face_cmp)]
      norm_num
    have e0 := st_div h (k := 2 ^ 30 - 1) (p := 1) (q := -(-1)) o1 a1 (near_neg nM) (by norm_num) (Or.inr (Or.inl ⟨by norm_num, rfl⟩))
    have e1 := st_div h (k := 0) (p := -1) (q := -(-1)) nM am1 (near_neg nM) (by norm_num) (Or.inl ⟨by norm_num, rfl⟩)
    have hw : wrapInt 1 i j = (0, 2 ^ 30 - 1, 0) := by
      rw [wrapInt, if_pos (show i < 0 by omega), if_pos (show j < 0 by omega)]; rfl
    rw [hw]
    simp only [wrapF, faceUVtoXYZ, Option.bind_some, xyzToFaceUV, hface, validFaceXYZtoUV, Option.bind_eq_bind, Option.map_some]
    rw [e0, e1]

theorem wrapF_2 {fl : ℚ → ℚ} (h : Rounding fl) {u v : ℚ} {i j : Int} (hu : Pos u i) (hv : Pos v j) :
    wrapF fl 2 u v = some (wrapInt 2 i j) := by
  have o1 : |(1 : ℚ) - 1| ≤ 1 / 2 ^ 46 := by norm_num
  have om1 : |(-1 : ℚ) - -1| ≤ 1 / 2 ^ 46 := by norm_num
  have nL : |(1 + 1 / 2 ^ 52 : ℚ) - 1| ≤ 1 / 2 ^ 46 := by norm_num
  have nM : |(-(1 + 1 / 2 ^ 52) : ℚ) - -1| ≤ 1 / 2 ^ 46 := by norm_num
  have a1 : |(1 : ℚ)| ≤ 1 := by norm_num
  have am1 : |(-1 : ℚ)| ≤ 1 := by norm_num
  rcases hu with ⟨iu0, iu1, nu, bu⟩ | ⟨iu, rfl⟩ | ⟨iu, rfl⟩ <;> rcases hv with ⟨jv0, jv1, nv, bv⟩ | ⟨jv, rfl⟩ | ⟨jv, rfl⟩
  · have cu := ctr_le iu0 iu1
    have cv := ctr_le jv0 jv1
    have hface : vecFace (⟨-u, -v, 1⟩ : Vec ℚ) = 2 := by
      rw [vecFace_z (by face_cmp) (by face_cmp)]
      norm_num
    have e0 := st_div h (k := i) (p := -(-(ctr i))) (q := 1) (near_neg (near_neg nu)) (by rw [abs_neg]; exact (by rw [abs_neg]; exact cu)) o1 (by norm_num) (Or.inr (Or.inr ⟨by omega, by omega, by ring⟩))
    have e1 := st_div h (k := j) (p := -(-(ctr j))) (q := 1) (near_neg (near_neg nv)) (by rw [abs_neg]; exact (by rw [abs_neg]; exact cv)) o1 (by norm_num) (Or.inr (Or.inr ⟨by omega, by omega, by ring⟩))
    have hw : wrapInt 2 i j = (2, i, j) := by
      rw [wrapInt, if_neg (show ¬ i < 0 by omega), if_neg (show ¬ 2 ^ 30 ≤ i by omega), if_neg (show ¬ j < 0 by omega), if_neg (show ¬ 2 ^ 30 ≤ j by omega)]
    rw [hw]
    simp only [wrapF, faceUVtoXYZ, Option.bind_some, xyzToFaceUV, hface, validFaceXYZtoUV, Option.bind_eq_bind, Option.map_some]
    rw [e0, e1]
  · have cu := ctr_le iu0 iu1
    have hface : vecFace (⟨-u, -(1 + 1 / 2 ^ 52), 1⟩ : Vec ℚ) = 4 := by
      rw [vecFace_y (by face_cmp) (by face_cmp)]
      norm_num
    have e0 := st_div h (k := 0) (p := 1) (q := -(1)) o1 a1 (near_neg nL) (by norm_num) (Or.inl ⟨by norm_num, rfl⟩)
    have e1 := st_div h (k := 2 ^ 30 - 1 - i) (p := -(-(ctr i))) (q := -(1)) (near_neg (near_neg nu)) (by rw [abs_neg]; exact (by rw [abs_neg]; exact cu)) (near_neg nL) (by norm_num) (Or.inr (Or.inr ⟨by omega, by omega, by rw [← ctr_neg]; ring⟩))
    have hw : wrapInt 2 i j = (4, 0, 2 ^ 30 - 1 - i) := by
      rw [wrapInt, if_neg (show ¬ i < 0 by omega), if_neg (show ¬ 2 ^ 30 ≤ i by omega), if_neg (show ¬ j < 0 by omega), if_pos (show 2 ^ 30 ≤ j by omega)]; rfl
    rw [hw]
    simp only [wrapF, faceUVtoXYZ, Option.bind_some, xyzToFaceUV, hface, validFaceXYZtoUV, Option.bind_eq_bind, Option.map_some]
    rw [e0, e1]
  · have cu := ctr_le iu0 iu1
    have hface : vecFace (⟨-u, -(-(1 + 1 / 2 ^ 52)), 1⟩ : Vec ℚ) = 1 := by
      rw [vecFace_y (by face_cmp) (by face_cmp)]
      norm_num
    have e0 := st_div h (k := i) (p := -(-(ctr i))) (q := -(-1)) (near_neg (near_neg nu)) (by rw [abs_neg]; exact (by rw [abs_neg]; exact cu)) (near_neg nM) (by norm_num) (Or.inr (Or.inr ⟨by omega, by omega, by ring⟩))
    have e1 := st_div h (k := 2 ^ 30 - 1) (p := 1) (q := -(-1)) o1 a1 (near_neg nM) (by norm_num) (Or.inr (Or.inl ⟨by norm_num, rfl⟩))
    have hw : wrapInt 2 i j = (1, i, 2 ^ 30 - 1) := by
      rw [wrapInt, if_neg (show ¬ i < 0 by omega), if_neg (show ¬ 2 ^ 30 ≤ i by omega), if_pos (show j < 0 by omega)]; rfl
    rw [hw]
    simp only [wrapF, faceUVtoXYZ, Option.bind_some, xyzToFaceUV, hface, validFaceXYZtoUV, Option.bind_eq_bind, Option.map_some]
    rw [e0, e1]
  · have cv := ctr_le jv0 jv1
    have hface : vecFace (⟨-(1 + 1 / 2 ^ 52), -v, 1⟩ : Vec ℚ) = 3 := by
      rw [vecFace_x (by face_cmp) (by face_cmp)]
      norm_num
    have e0 := st_div h (k := 0) (p := 1) (q := -(1)) o1 a1 (near_neg nL) (by norm_num) (Or.inl ⟨by norm_num, rfl⟩)
    have e1 := st_div h (k := j) (p := -(ctr j)) (q := -(1)) (near_neg nv) (by rw [abs_neg]; exact cv) (near_neg nL) (by norm_num) (Or.inr (Or.inr ⟨by omega, by omega, by ring⟩))
    have hw : wrapInt 2 i j = (3, 0, j) := by
      rw [wrapInt, if_neg (show ¬ i < 0 by omega), if_pos (show 2 ^ 30 ≤ i by omega), if_neg (show ¬ j < 0 by omega), if_neg (show ¬ 2 ^ 30 ≤ j by omega)]; rfl
    rw [hw]
    simp only [wrapF, faceUVtoXYZ, Option.bind_some, xyzToFaceUV, hface, validFaceXYZtoUV, Option.bind_eq_bind, Option.map_some]
    rw [e0, e1]
  · have hface : vecFace (⟨-(1 + 1 / 2 ^ 52), -(1 + 1 / 2 ^ 52), 1⟩ : Vec ℚ) = 3 := by
      rw [vecFace_x (by face_cmp) (by face_cmp)]
      norm_num
    have e0 := st_div h (k := 0) (p := 1) (q := -(1)) o1 a1 (near_neg nL) (by norm_num) (Or.inl ⟨by norm_num, rfl⟩)
    have e1 := st_div h (k := 2 ^ 30 - 1) (p := -(1)) (q := -(1)) (near_neg nL) (by rw [abs_neg]; exact a1) (near_neg nL) (by norm_num) (Or.inr (Or.inl ⟨by norm_num, rfl⟩))
    have hw : wrapInt 2 i j = (3, 0, 2 ^ 30 - 1) := by
      rw [wrapInt, if_neg (show ¬ i < 0 by omega), if_pos (show 2 ^ 30 ≤ i by omega), if_neg (show ¬ j < 0 by omega), if_pos (show 2 ^ 30 ≤ j by omega)]; rfl
    rw [hw]
    simp only [wrapF, faceUVtoXYZ, Option.bind_some, xyzToFaceUV, hface, validFaceXYZtoUV, Option.bind_eq_bind, Option.map_some]
    rw [e0, e1]
  · have hface : vecFace (⟨-(1 + 1 / 2 ^ 52), -(-(1 + 1 / 2 ^ 52)), 1⟩ : Vec ℚ) = 3 := by
      rw [vecFace_x (by face_cmp) (by face_cmp)]
      norm_num
    have e0 := st_div h (k := 0) (p := 1) (q := -(1)) o1 a1 (near_neg nL) (by norm_num) (Or.inl ⟨by norm_num, rfl⟩)
    have e1 := st_div h (k := 0) (p := -(-1)) (q := -(1)) (near_neg nM) (by rw [abs_neg]; exact am1) (near_neg nL) (by norm_num) (Or.inl ⟨by norm_num, rfl⟩)
    have hw : wrapInt 2 i j = (3, 0, 0) := by
      rw [wrapInt, if_neg (show ¬ i < 0 by omega), if_pos (show 2 ^ 30 ≤ i by omega), if_pos (show j < 0 by omega)]; rfl
    rw [hw]
    simp only [wrapF, faceUVtoXYZ, Option.bind_some, xyzToFaceUV, hface, validFaceXYZtoUV, Option.bind_eq_bind, Option.map_some]
    rw [e0, e1]
  · have cv := ctr_le jv0 jv1
    have hface : vecFace (⟨-(-(1 + 1 / 2 ^ 52)), -v, 1⟩ : Vec ℚ) = 0 := by
      rw [vecFace_x (by face_cmp) (by face_cmp)]
      norm_num
    have e0 := st_div h (k := 2 ^ 30 - 1 - j) (p := -(ctr j)) (q := -(-1)) (near_neg nv) (by rw [abs_neg]; exact cv) (near_neg nM) (by norm_num) (Or.inr (Or.inr ⟨by omega, by omega, by rw [← ctr_neg]; ring⟩))
    have e1 := st_div h (k := 2 ^ 30 - 1) (p := 1) (q := -(-1)) o1 a1 (near_neg nM) (by norm_num) (Or.inr (Or.inl ⟨by norm_num, rfl⟩))
    have hw : wrapInt 2 i j = (0, 2 ^ 30 - 1 - j, 2 ^ 30 - 1) := by
      rw [wrapInt, if_pos (show i < 0 by omega), if_neg (show ¬ j < 0 by omega), if_neg (show ¬ 2 ^ 30 ≤ j by omega)]; rfl
    rw [hw]
    simp only [wrapF, faceUVtoXYZ, Option.bind_some, xyzToFaceUV, hface, validFaceXYZtoUV, Option.bind_eq_bind, Option.map_some]
    rw [e0, e1]
  · have hface : vecFace (⟨-(-(1 + 1 / 2 ^ 52)), -(1 + 1 / 2 ^ 52), 1⟩ : Vec ℚ) = 0 := by
      rw [vecFace_x (by face_cmp) (by face_cmp)]
      norm_num
    have e0 := st_div h (k := 0) (p := -(1)) (q := -(-1)) (near_neg nL) (by rw [abs_neg]; exact a1) (near_neg nM) (by norm_num) (Or.inl ⟨by norm_num, rfl⟩)
    have e1 := st_div h (k := 2 ^ 30 - 1) (p := 1) (q := -(-1)) o1 a1 (near_neg nM) (by norm_num) (Or.inr (Or.inl ⟨by norm_num, rfl⟩))
    have hw : wrapInt 2 i j = (0, 0, 2 ^ 30 - 1) := by
      rw [wrapInt, if_pos (show i < 0 by omega), if_neg (show ¬ j < 0 by omega), if_pos (show 2 ^ 30 ≤ j by omega)]; rfl
    rw [hw]
    simp only [wrapF, faceUVtoXYZ, Option.bind_some, xyzToFaceUV, hface, validFaceXYZtoUV, Option.bind_eq_bind, Option.map_some]
    rw [e0, e1]
  · have hface : vecFace (⟨-(-(1 + 1 / 2 ^ 52)), -(-(1 + 1 / 2 ^ 52)), 1⟩ : Vec ℚ) = 0 := by
      rw [vecFace_x (by face_cmp) (by face_cmp)]
      norm_num
    have e0 := st_div h (k := 2 ^ 30 - 1) (p := -(-1)) (q := -(-1)) (near_neg nM) (by rw [abs_neg]; exact am1) (near_neg nM) (by norm_num) (Or.inr (Or.inl ⟨by norm_num, rfl⟩))
    have e1 := st_div h (k := 2 ^ 30 - 1) (p := 1) (q := -(-1)) o1 a1 (near_neg nM) (by norm_num) (Or.inr (Or.inl ⟨by norm_num, rfl⟩))
    have hw : wrapInt 2 i j = (0, 2 ^ 30 - 1, 2 ^ 30 - 1) := by
      rw [wrapInt, if_pos (show i < 0 by omega), if_pos (show j < 0 by omega)]; rfl
    rw [hw]
    simp only [wrapF, faceUVtoXYZ, Option.bind_some, xyzToFaceUV, hface, validFaceXYZtoUV, Option.bind_eq_bind, Option.map_some]
    rw [e0, e1]

theorem wrapF_3 {fl : ℚ → ℚ} (h : Rounding fl) {u v : ℚ} {i j : Int} (hu : Pos u i) (hv : Pos v j) :
    wrapF fl 3 u v = some (wrapInt 3 i j) := by
  have o1 : |(1 : ℚ) - 1| ≤ 1 / 2 ^ 46 := by norm_num
  have om1 : |(-1 : ℚ) - -1| ≤ 1 / 2 ^ 46 := by norm_num
  have nL : |(1 + 1 / 2 ^ 52 : ℚ) - 1| ≤ 1 / 2 ^ 46 := by norm_num
  have nM : |(-(1 + 1 / 2 ^ 52) : ℚ) - -1| ≤ 1 / 2 ^ 46 := by norm_num
  have a1 : |(1 : ℚ)| ≤ 1 := by norm_num
  have am1 : |(-1 : ℚ)| ≤ 1 := by norm_num
  rcases hu with ⟨iu0, iu1, nu, bu⟩ | ⟨iu, rfl⟩ | ⟨iu, rfl⟩ <;> rcases hv with ⟨jv0, jv1, nv, bv⟩ | ⟨jv, rfl⟩ | ⟨jv, rfl⟩
  · have cu := ctr_le iu0 iu1
    have cv := ctr_le jv0 jv1
    have hface : vecFace (⟨-1, -v, -u⟩ : Vec ℚ) = 3 := by
      rw [vecFace_x (by face_cmp) (by face_cmp)]
      norm_num
    have e0 := st_div h (k := i) (p := -(ctr i)) (q := -1) (near_neg nu) (by rw [abs_neg]; exact cu) om1 (by norm_num) (Or.inr (Or.inr ⟨by omega, by omega, by ring⟩))
    have e1 := st_div h (k := j) (p := -(ctr j)) (q := -1) (near_neg nv) (by rw [abs_neg]; exact cv) om1 (by norm_num) (Or.inr (Or.inr ⟨by omega, by omega, by ring⟩))
    have hw : wrapInt 3 i j = (3, i, j) := by
      rw [wrapInt, if_neg (show ¬ i < 0 by omega), if_neg (show ¬ 2 ^ 30 ≤ i by omega), if_neg (show ¬ j < 0 by omega), if_neg (show ¬ 2 ^ 30 ≤ j by omega)]
    rw [hw]
    simp only [wrapF, faceUVtoXYZ, Option.bind_some, xyzToFaceUV, hface, validFaceXYZtoUV, Option.bind_eq_bind, Option.map_some]
    rw [e0, e1]
  · have cu := ctr_le iu0 iu1
    have hface : vecFace (⟨-1, -(1 + 1 / 2 ^ 52), -u⟩ : Vec ℚ) = 4 := by
      rw [vecFace_y (by face_cmp) (by face_cmp)]
      norm_num
    have e0 := st_div h (k := i) (p := -(ctr i)) (q := -(1)) (near_neg nu) (by rw [abs_neg]; exact cu) (near_neg nL) (by norm_num) (Or.inr (Or.inr ⟨by omega, by omega, by ring⟩))
    have e1 := st_div h (k := 0) (p := -(-1)) (q := -(1)) (near_neg om1) (by rw [abs_neg]; exact am1) (near_neg nL) (by norm_num) (Or.inl ⟨by norm_num, rfl⟩)
    have hw : wrapInt 3 i j = (4, i, 0) := by
      rw [wrapInt, if_neg (show ¬ i < 0 by omega), if_neg (show ¬ 2 ^ 30 ≤ i by omega), if_neg (show ¬ j < 0 by omega), if_pos (show 2 ^ 30 ≤ j by omega)]; rfl
    rw [hw]
    simp only [wrapF, faceUVtoXYZ, Option.bind_some, xyzToFaceUV, hface, validFaceXYZtoUV, Option.bind_eq_bind, Option.map_some]
    rw [e0, e1]
  · have cu := ctr_le iu0 iu1
    have hface : vecFace (⟨-1, -(-(1 + 1 / 2 ^ 52)), -u⟩ : Vec ℚ) = 1 := by
      rw [vecFace_y (by face_cmp) (by face_cmp)]
      norm_num
    have e0 := st_div h (k := 2 ^ 30 - 1) (p := -(-1)) (q := -(-1)) (near_neg om1) (by rw [abs_neg]; exact am1) (near_neg nM) (by norm_num) (Or.inr (Or.inl ⟨by norm_num, rfl⟩))
    have e1 := st_div h (k := 2 ^ 30 - 1 - i) (p := -(ctr i)) (q := -(-1)) (near_neg nu) (by rw [abs_neg]; exact cu) (near_neg nM) (by norm_num) (Or.inr (Or.inr ⟨by omega, by omega, by rw [← ctr_neg]; ring⟩))
    have hw : wrapInt 3 i j = (1, 2 ^ 30 - 1, 2 ^ 30 - 1 - i) := by
      rw [wrapInt, if_neg (show ¬ i < 0 by omega), if_neg (show ¬ 2 ^ 30 ≤ i by omega), if_pos (show j < 0 by omega)]; rfl
    rw [hw]
    simp only [wrapF, faceUVtoXYZ, Option.bind_some, xyzToFaceUV, hface, validFaceXYZtoUV, Option.bind_eq_bind, Option.map_some]
    rw [e0, e1]
  · have cv := ctr_le jv0 jv1
    have hface : vecFace (⟨-1, -v, -(1 + 1 / 2 ^ 52)⟩ : Vec ℚ) = 5 := by
      rw [vecFace_z (by face_cmp) (by face_cmp)]
      norm_num
    have e0 := st_div h (k := 2 ^ 30 - 1 - j) (p := -(-(ctr j))) (q := -(1)) (near_neg (near_neg nv)) (by rw [abs_neg]; exact (by rw [abs_neg]; exact cv)) (near_neg nL) (by norm_num) (Or.inr (Or.inr ⟨by omega, by omega, by rw [← ctr_neg]; ring⟩))
    have e1 := st_div h (k := 0) (p := -(-1)) (q := -(1)) (near_neg om1) (by rw [abs_neg]; exact am1) (near_neg nL) (by norm_num) (Or.inl ⟨by norm_num, rfl⟩)
    have hw : wrapInt 3 i j = (5, 2 ^ 30 - 1 - j, 0) := by
      rw [wrapInt, if_neg (show ¬ i < 0 by omega), if_pos (show 2 ^ 30 ≤ i by omega), if_neg (show ¬ j < 0 by omega), if_neg (show ¬ 2 ^ 30 ≤ j by omega)]; rfl
    rw [hw]
    simp only [wrapF, faceUVtoXYZ, Option.bind_some, xyzToFaceUV, hface, validFaceXYZtoUV, Option.bind_eq_bind, Option.map_some]
    rw [e0, e1]
  · have hface : vecFace (⟨-1, -(1 + 1 / 2 ^ 52), -(1 + 1 / 2 ^ 52)⟩ : Vec ℚ) = 4 := by
      rw [vecFace_y (by face_cmp) (by face_cmp)]
      norm_num
    have e0 := st_div h (k := 2 ^ 30 - 1) (p := -(1)) (q := -(1)) (near_neg nL) (by rw [abs_neg]; exact a1) (near_neg nL) (by norm_num) (Or.inr (Or.inl ⟨by norm_num, rfl⟩))
    have e1 := st_div h (k := 0) (p := -(-1)) (q := -(1)) (near_neg om1) (by rw [abs_neg]; exact am1) (near_neg nL) (by norm_num) (Or.inl ⟨by norm_num, rfl⟩)
    have hw : wrapInt 3 i j = (4, 2 ^ 30 - 1, 0) := by
      rw [wrapInt, if_neg (show ¬ i < 0 by omega), if_pos (show 2 ^ 30 ≤ i by omega), if_neg (show ¬ j < 0 by omega), if_pos (show 2 ^ 30 ≤ j by omega)]; rfl
    rw [hw]
    simp only [wrapF, faceUVtoXYZ, Option.bind_some, xyzToFaceUV, hface, validFaceXYZtoUV, Option.bind_eq_bind, Option.map_some]
    rw [e0, e1]
  · have hface : vecFace (⟨-1, -(-(1 + 1 / 2 ^ 52)), -(1 + 1 / 2 ^ 52)⟩ : Vec ℚ) = 1 := by
      rw [vecFace_y (by face_cmp) (by face_cmp)]
      norm_num
    have e0 := st_div h (k := 2 ^ 30 - 1) (p := -(-1)) (q := -(-1)) (near_neg om1) (by rw [abs_neg]; exact am1) (near_neg nM) (by norm_num) (Or.inr (Or.inl ⟨by norm_num, rfl⟩))
    have e1 := st_div h (k := 0) (p := -(1)) (q := -(-1)) (near_neg nL) (by rw [abs_neg]; exact a1) (near_neg nM) (by norm_num) (Or.inl ⟨by norm_num, rfl⟩)
    have hw : wrapInt 3 i j = (1, 2 ^ 30 - 1, 0) := by
      rw [wrapInt, if_neg (show ¬ i < 0 by omega), if_pos (show 2 ^ 30 ≤ i by omega), if_pos (show j < 0 by omega)]; rfl
    rw [hw]
    simp only [wrapF, faceUVtoXYZ, Option.bind_some, xyzToFaceUV, hface, validFaceXYZtoUV, Option.bind_eq_bind, Option.map_some]
    rw [e0, e1]
  · have cv := ctr_le jv0 jv1
    have hface : vecFace (⟨-1, -v, -(-(1 + 1 / 2 ^ 52))⟩ : Vec ℚ) = 2 := by
      rw [vecFace_z (by face_cmp) (by face_cmp)]
      norm_num
    have e0 := st_div h (k := 2 ^ 30 - 1) (p := -(-1)) (q := -(-1)) (near_neg om1) (by rw [abs_neg]; exact am1) (near_neg nM) (by norm_num) (Or.inr (Or.inl ⟨by norm_num, rfl⟩))
    have e1 := st_div h (k := j) (p := -(-(ctr j))) (q := -(-1)) (near_neg (near_neg nv)) (by rw [abs_neg]; exact (by rw [abs_neg]; exact cv)) (near_neg nM) (by norm_num) (Or.inr (Or.inr ⟨by omega, by omega, by ring⟩))
    have hw : wrapInt 3 i j = (2, 2 ^ 30 - 1, j) := by
      rw [wrapInt, if_pos (show i < 0 by omega), if_neg (show ¬ j < 0 by omega), if_neg (show ¬ 2 ^ 30 ≤ j by omega)]; rfl
    rw [hw]
    simp only [wrapF, faceUVtoXYZ, Option.bind_some, xyzToFaceUV, hface, validFaceXYZtoUV, Option.bind_eq_bind, Option.map_some]
    rw [e0, e1]
  · have hface : vecFace (⟨-1, -(1 + 1 / 2 ^ 52), -(-(1 + 1 / 2 ^ 52))⟩ : Vec ℚ) = 4 := by
      rw [vecFace_y (by face_cmp) (by face_cmp)]
      norm_num
    have e0 := st_div h (k := 0) (p := -(-1)) (q := -(1)) (near_neg nM) (by rw [abs_neg]; exact am1) (near_neg nL) (by norm_num) (Or.inl ⟨by norm_num, rfl⟩)
    have e1 := st_div h (k := 0) (p := -(-1)) (q := -(1)) (near_neg om1) (by rw [abs_neg]; exact am1) (near_neg nL) (by norm_num) (Or.inl ⟨by norm_num, rfl⟩)
    have hw : wrapInt 3 i j = (4, 0, 0) := by
      rw [wrapInt, if_pos (show i < 0 by omega), if_neg (show ¬ j < 0 by omega), if_pos (show 2 ^ 30 ≤ j by omega)]; rfl
    rw [hw]
    simp only [wrapF, faceUVtoXYZ, Option.bind_some, xyzToFaceUV, hface, validFaceXYZtoUV, Option.bind_eq_bind, Option.map_some]
    rw [e0, e1]
  · have hface : vecFace (⟨-1, -(-(1 + 1 / 2 ^ 52)), -(-(1 + 1 / 2 ^ 52))⟩ : Vec ℚ) = 1 := by
      rw [vecFace_y (by face_cmp) (by face_cmp)]
      norm_num
    have e0 := st_div h (k := 2 ^ 30 - 1) (p := -(-1)) (q := -(-1)) (near_neg om1) (by rw [abs_neg]; exact am1) (near_neg nM) (by norm_num) (Or.inr (Or.inl ⟨by norm_num, rfl⟩))
    have e1 := st_div h (k := 2 ^ 30 - 1) (p := -(-1)) (q := -(-1)) (near_neg nM) (by rw [abs_neg]; exact am1) (near_neg nM) (by norm_num) (Or.inr (Or.inl ⟨by norm_num, rfl⟩))
    have hw : wrapInt 3 i j = (1, 2 ^ 30 - 1, 2 ^ 30 - 1) := by
      rw [wrapInt, if_pos (show i < 0 by omega), if_pos (show j < 0 by omega)]; rfl
    rw [hw]
    simp only [wrapF, faceUVtoXYZ, Option.bind_some, xyzToFaceUV, hface, validFaceXYZtoUV, Option.bind_eq_bind, Option.map_some]
    rw [e0, e1]

theorem wrapF_4 {fl : ℚ → ℚ} (h : Rounding fl) {u v : ℚ} {i j : Int} (hu : Pos u i) (hv : Pos v j) :
    wrapF fl 4 u v = some (wrapInt 4 i j) := by
  have o1 : |(1 : ℚ) - 1| ≤ 1 / 2 ^ 46 := by norm_num
  have om1 : |(-1 : ℚ) - -1| ≤ 1 / 2 ^ 46 := by norm_num
  have nL : |(1 + 1 / 2 ^ 52 : ℚ) - 1| ≤ 1 / 2 ^ 46 := by norm_num
  have nM : |(-(1 + 1 / 2 ^ 52) : ℚ) - -1| ≤ 1 / 2 ^ 46 := by norm_num
  have a1 : |(1 : ℚ)| ≤ 1 := by norm_num
  have am1 : |(-1 : ℚ)| ≤ 1 := by norm_num
  rcases hu with ⟨iu0, iu1, nu, bu⟩ | ⟨iu, rfl⟩ | ⟨iu, rfl⟩ <;> rcases hv with ⟨jv0, jv1, nv, bv⟩ | ⟨jv, rfl⟩ | ⟨jv, rfl⟩
  · have cu := ctr_le iu0 iu1
    have cv := ctr_le jv0 jv1
    have hface : vecFace (⟨v, -1, -u⟩ : Vec ℚ) = 4 := by
      rw [vecFace_y (by face_cmp) (by face_cmp)]
      norm_num
    have e0 := st_div h (k := i) (p := -(ctr i)) (q := -1) (near_neg nu) (by rw [abs_neg]; exact cu) om1 (by norm_num) (Or.inr (Or.inr ⟨by omega, by omega, by ring⟩))
    have e1 := st_div h (k := j) (p := -(ctr j)) (q := -1) (near_neg nv) (by rw [abs_neg]; exact cv) om1 (by norm_num) (Or.inr (Or.inr ⟨by omega, by omega, by ring⟩))
    have hw : wrapInt 4 i j = (4, i, j) := by
      rw [wrapInt, if_neg (show ¬ i < 0 by omega), if_neg (show ¬ 2 ^ 30 ≤ i by omega), if_neg (show ¬ j < 0 by omega), if_neg (show ¬ 2 ^ 30 ≤ j by omega)]
    rw [hw]
    simp only [wrapF, faceUVtoXYZ, Option.bind_some, xyzToFaceUV, hface, validFaceXYZtoUV, Option.bind_eq_bind, Option.map_some]
    rw [e0, e1]
  · have cu := ctr_le iu0 iu1
    have hface : vecFace (⟨(1 + 1 / 2 ^ 52), -1, -u⟩ : Vec ℚ) = 0 := by
      rw [vecFace_x (by face_cmp) (by face_cmp)]
      norm_num
    have e0 := st_div h (k := 0) (p := -1) (q := 1) om1 am1 nL (by norm_num) (Or.inl ⟨by norm_num, rfl⟩)
    have e1 := st_div h (k := 2 ^ 30 - 1 - i) (p := -(ctr i)) (q := 1) (near_neg nu) (by rw [abs_neg]; exact cu) nL (by norm_num) (Or.inr (Or.inr ⟨by omega, by omega, by rw [← ctr_neg]; ring⟩))
    have hw : wrapInt 4 i j = (0, 0, 2 ^ 30 - 1 - i) := by
      rw [wrapInt, if_neg (show ¬ i < 0 by omega), if_neg (show ¬ 2 ^ 30 ≤ i by omega), if_neg (show ¬ j < 0 by omega), if_pos (show 2 ^ 30 ≤ j by omega)]; rfl
    rw [hw]
    simp only [wrapF, faceUVtoXYZ, Option.bind_some, xyzToFaceUV, hface, validFaceXYZtoUV, Option.bind_eq_bind, Option.map_some]
    rw [e0, e1]
  · have cu := ctr_le iu0 iu1
    have hface : vecFace (⟨(-(1 + 1 / 2 ^ 52)), -1, -u⟩ : Vec ℚ) = 3 := by
      rw [vecFace_x (by face_cmp) (by face_cmp)]
      norm_num
    have e0 := st_div h (k := i) (p := -(ctr i)) (q := -1) (near_neg nu) (by rw [abs_neg]; exact cu) nM (by norm_num) (Or.inr (Or.inr ⟨by omega, by omega, by ring⟩))
    have e1 := st_div h (k := 2 ^ 30 - 1) (p := -1) (q := -1) om1 am1 nM (by norm_num) (Or.inr (Or.inl ⟨by norm_num, rfl⟩))
    have hw : wrapInt 4 i j = (3, i, 2 ^ 30 - 1) := by
      rw [wrapInt, if_neg (show ¬ i < 0 by omega), if_neg (show ¬ 2 ^ 30 ≤ i by omega), if_pos (show j < 0 by omega)]; rfl
    rw [hw]
    simp only [wrapF, faceUVtoXYZ, Option.bind_some, xyzToFaceUV, hface, validFaceXYZtoUV, Option.bind_eq_bind, Option.map_some]
    rw [e0, e1]
  · have cv := ctr_le jv0 jv1
    have hface : vecFace (⟨v, -1, -(1 + 1 / 2 ^ 52)⟩ : Vec ℚ) = 5 := by
      rw [vecFace_z (by face_cmp) (by face_cmp)]
      norm_num
    have e0 := st_div h (k := 0) (p := -(-1)) (q := -(1)) (near_neg om1) (by rw [abs_neg]; exact am1) (near_neg nL) (by norm_num) (Or.inl ⟨by norm_num, rfl⟩)
    have e1 := st_div h (k := j) (p := -(ctr j)) (q := -(1)) (near_neg nv) (by rw [abs_neg]; exact cv) (near_neg nL) (by norm_num) (Or.inr (Or.inr ⟨by omega, by omega, by ring⟩))
    have hw : wrapInt 4 i j = (5, 0, j) := by
      rw [wrapInt, if_neg (show ¬ i < 0 by omega), if_pos (show 2 ^ 30 ≤ i by omega), if_neg (show ¬ j < 0 by omega), if_neg (show ¬ 2 ^ 30 ≤ j by omega)]; rfl
    rw [hw]
    simp only [wrapF, faceUVtoXYZ, Option.bind_some, xyzToFaceUV, hface, validFaceXYZtoUV, Option.bind_eq_bind, Option.map_some]
    rw [e0, e1]
  · have hface : vecFace (⟨(1 + 1 / 2 ^ 52), -1, -(1 + 1 / 2 ^ 52)⟩ : Vec ℚ) = 0 := by
      rw [vecFace_x (by face_cmp) (by face_cmp)]
      norm_num
    have e0 := st_div h (k := 0) (p := -1) (q := 1) om1 am1 nL (by norm_num) (Or.inl ⟨by norm_num, rfl⟩)
    have e1 := st_div h (k := 0) (p := -(1)) (q := 1) (near_neg nL) (by rw [abs_neg]; exact a1) nL (by norm_num) (Or.inl ⟨by norm_num, rfl⟩)
    have hw : wrapInt 4 i j = (0, 0, 0) := by
      rw [wrapInt, if_neg (show ¬ i < 0 by omega), if_pos (show 2 ^ 30 ≤ i by omega), if_neg (show ¬ j < 0 by omega), if_pos (show 2 ^ 30 ≤ j by omega)]; rfl
    rw [hw]
    simp only [wrapF, faceUVtoXYZ, Option.bind_some, xyzToFaceUV, hface, validFaceXYZtoUV, Option.bind_eq_bind, Option.map_some]
    rw [e0, e1]
  · have hface : vecFace (⟨(-(1 + 1 / 2 ^ 52)), -1, -(1 + 1 / 2 ^ 52)⟩ : Vec ℚ) = 3 := by
      rw [vecFace_x (by face_cmp) (by face_cmp)]
      norm_num
    have e0 := st_div h (k := 2 ^ 30 - 1) (p := -(1)) (q := -1) (near_neg nL) (by rw [abs_neg]; exact a1) nM (by norm_num) (Or.inr (Or.inl ⟨by norm_num, rfl⟩))
    have e1 := st_div h (k := 2 ^ 30 - 1) (p := -1) (q := -1) om1 am1 nM (by norm_num) (Or.inr (Or.inl ⟨by norm_num, rfl⟩))
    have hw : wrapInt 4 i j = (3, 2 ^ 30 - 1, 2 ^ 30 - 1) := by
      rw [wrapInt, if_neg (show ¬ i < 0 by omega), if_pos (show 2 ^ 30 ≤ i by omega), if_pos (show j < 0 by omega)]; rfl
    rw [hw]
    simp only [wrapF, faceUVtoXYZ, Option.bind_some, xyzToFaceUV, hface, validFaceXYZtoUV, Option.bind_eq_bind, Option.map_some]
    rw [e0, e1]
  · have cv := ctr_le jv0 jv1
    have hface : vecFace (⟨v, -1, -(-(1 + 1 / 2 ^ 52))⟩ : Vec ℚ) = 2 := by
      rw [vecFace_z (by face_cmp) (by face_cmp)]
      norm_num
    have e0 := st_div h (k := 2 ^ 30 - 1 - j) (p := -(ctr j)) (q := -(-1)) (near_neg nv) (by rw [abs_neg]; exact cv) (near_neg nM) (by norm_num) (Or.inr (Or.inr ⟨by omega, by omega, by rw [← ctr_neg]; ring⟩))
    have e1 := st_div h (k := 2 ^ 30 - 1) (p := -(-1)) (q := -(-1)) (near_neg om1) (by rw [abs_neg]; exact am1) (near_neg nM) (by norm_num) (Or.inr (Or.inl ⟨by norm_num, rfl⟩))
    have hw : wrapInt 4 i j = (2, 2 ^ 30 - 1 - j, 2 ^ 30 - 1) := by
      rw [wrapInt, if_pos (show i < 0 by omega), if_neg (show ¬ j < 0 by omega), if_neg (show ¬ 2 ^ 30 ≤ j by omega)]; rfl
    rw [hw]
    simp only [wrapF, faceUVtoXYZ, Option.bind_some, xyzToFaceUV, hface, validFaceXYZtoUV, Option.bind_eq_bind, Option.map_some]
    rw [e0, e1]
  · have hface : vecFace (⟨(1 + 1 / 2 ^ 52), -1, -(-(1 + 1 / 2 ^ 52))⟩ : Vec ℚ) = 0 := by
      rw [vecFace_x (by face_cmp) (by face_cmp)]
      norm_num
    have e0 := st_div h (k := 0) (p := -1) (q := 1) om1 am1 nL (by norm_num) (Or.inl ⟨by norm_num, rfl⟩)
    have e1 := st_div h (k := 2 ^ 30 - 1) (p := -(-1)) (q := 1) (near_neg nM) (by rw [abs_neg]; exact am1) nL (by norm_num) (Or.inr (Or.inl ⟨by norm_num, rfl⟩))
    have hw : wrapInt 4 i j = (0, 0, 2 ^ 30 - 1) := by
      rw [wrapInt, if_pos (show i < 0 by omega), if_neg (show ¬ j < 0 by omega), if_pos (show 2 ^ 30 ≤ j by omega)]; rfl
    rw [hw]
    simp only [wrapF, faceUVtoXYZ, Option.bind_some, xyzToFaceUV, hface, validFaceXYZtoUV, Option.bind_eq_bind, Option.map_some]
    rw [e0, e1]
  · have hface : vecFace (⟨(-(1 + 1 / 2 ^ 52)), -1, -(-(1 + 1 / 2 ^ 52))⟩ : Vec ℚ) = 3 := by
      rw [vecFace_x (by face_cmp) (by face_cmp)]
      norm_num
    have e0 := st_div h (k := 0) (p := -(-1)) (q := -1) (near_neg nM) (by rw [abs_neg]; exact am1) nM (by norm_num) (Or.inl ⟨by norm_num, rfl⟩)
    have e1 := st_div h (k := 2 ^ 30 - 1) (p := -1) (q := -1) om1 am1 nM (by norm_num) (Or.inr (Or.inl ⟨by norm_num, rfl⟩))
    have hw : wrapInt 4 i j = (3, 0, 2 ^ 30 - 1) := by
      rw [wrapInt, if_pos (show i < 0 by omega), if_pos (show j < 0 by omega)]; rfl
    rw [hw]
    simp only [wrapF, faceUVtoXYZ, Option.bind_some, xyzToFaceUV, hface, validFaceXYZtoUV, Option.bind_eq_bind, Option.map_some]
    rw [e0, e1]

theorem wrapF_5 {fl : ℚ → ℚ} (h : Rounding fl) {u v : ℚ} {i j : Int} (hu : Pos u i) (hv : Pos v j) :
    wrapF fl 5 u v = some (wrapInt 5 i j) := by
  have o1 : |(1 : ℚ) - 1| ≤ 1 / 2 ^ 46 := by norm_num
  have om1 : |(-1 : ℚ) - -1| ≤ 1 / 2 ^ 46 := by norm_num
  have nL : |(1 + 1 / 2 ^ 52 : ℚ) - 1| ≤ 1 / 2 ^ 46 := by norm_num
  have nM : |(-(1 + 1 / 2 ^ 52) : ℚ) - -1| ≤ 1 / 2 ^ 46 := by norm_num
  have a1 : |(1 : ℚ)| ≤ 1 := by norm_num
  have am1 : |(-1 : ℚ)| ≤ 1 := by norm_num
  rcases hu with ⟨iu0, iu1, nu, bu⟩ | ⟨iu, rfl⟩ | ⟨iu, rfl⟩ <;> rcases hv with ⟨jv0, jv1, nv, bv⟩ | ⟨jv, rfl⟩ | ⟨jv, rfl⟩
  · have cu := ctr_le iu0 iu1
    have cv := ctr_le jv0 jv1
    have hface : vecFace (⟨v, u, -1⟩ : Vec ℚ) = 5 := by
      rw [vecFace_z (by face_cmp) (by face_cmp)]
      norm_num
    have e0 := st_div h (k := i) (p := -(ctr i)) (q := -1) (near_neg nu) (by rw [abs_neg]; exact cu) om1 (by norm_num) (Or.inr (Or.inr ⟨by omega, by omega, by ring⟩))
    have e1 := st_div h (k := j) (p := -(ctr j)) (q := -1) (near_neg nv) (by rw [abs_neg]; exact cv) om1 (by norm_num) (Or.inr (Or.inr ⟨by omega, by omega, by ring⟩))
    have hw : wrapInt 5 i j = (5, i, j) := by
      rw [wrapInt, if_neg (show ¬ i < 0 by omega), if_neg (show ¬ 2 ^ 30 ≤ i by omega), if_neg (show ¬ j < 0 by omega), if_neg (show ¬ 2 ^ 30 ≤ j by omega)]
    rw [hw]
    simp only [wrapF, faceUVtoXYZ, Option.bind_some, xyzToFaceUV, hface, validFaceXYZtoUV, Option.bind_eq_bind, Option.map_some]
    rw [e0, e1]
  · have cu := ctr_le iu0 iu1
    have hface : vecFace (⟨(1 + 1 / 2 ^ 52), u, -1⟩ : Vec ℚ) = 0 := by
      rw [vecFace_x (by face_cmp) (by face_cmp)]
      norm_num
    have e0 := st_div h (k := i) (p := ctr i) (q := 1) nu cu nL (by norm_num) (Or.inr (Or.inr ⟨by omega, by omega, by ring⟩))
    have e1 := st_div h (k := 0) (p := -1) (q := 1) om1 am1 nL (by norm_num) (Or.inl ⟨by norm_num, rfl⟩)
    have hw : wrapInt 5 i j = (0, i, 0) := by
      rw [wrapInt, if_neg (show ¬ i < 0 by omega), if_neg (show ¬ 2 ^ 30 ≤ i by omega), if_neg (show ¬ j < 0 by omega), if_pos (show 2 ^ 30 ≤ j by omega)]; rfl
    rw [hw]
    simp only [wrapF, faceUVtoXYZ, Option.bind_some, xyzToFaceUV, hface, validFaceXYZtoUV, Option.bind_eq_bind, Option.map_some]
    rw [e0, e1]
  · have cu := ctr_le iu0 iu1
    have hface : vecFace (⟨(-(1 + 1 / 2 ^ 52)), u, -1⟩ : Vec ℚ) = 3 := by
      rw [vecFace_x (by face_cmp) (by face_cmp)]
      norm_num
    have e0 := st_div h (k := 2 ^ 30 - 1) (p := -1) (q := -1) om1 am1 nM (by norm_num) (Or.inr (Or.inl ⟨by norm_num, rfl⟩))
    have e1 := st_div h (k := 2 ^ 30 - 1 - i) (p := ctr i) (q := -1) nu cu nM (by norm_num) (Or.inr (Or.inr ⟨by omega, by omega, by rw [← ctr_neg]; ring⟩))
    have hw : wrapInt 5 i j = (3, 2 ^ 30 - 1, 2 ^ 30 - 1 - i) := by
      rw [wrapInt, if_neg (show ¬ i < 0 by omega), if_neg (show ¬ 2 ^ 30 ≤ i by omega), if_pos (show j < 0 by omega)]; rfl
    rw [hw]
    simp only [wrapF, faceUVtoXYZ, Option.bind_some, xyzToFaceUV, hface, validFaceXYZtoUV, Option.bind_eq_bind, Option.map_some]
    rw [e0, e1]
  · have cv := ctr_le jv0 jv1
    have hface : vecFace (⟨v, (1 + 1 / 2 ^ 52), -1⟩ : Vec ℚ) = 1 := by
      rw [vecFace_y (by face_cmp) (by face_cmp)]
      norm_num
    have e0 := st_div h (k := 2 ^ 30 - 1 - j) (p := -(ctr j)) (q := 1) (near_neg nv) (by rw [abs_neg]; exact cv) nL (by norm_num) (Or.inr (Or.inr ⟨by omega, by omega, by rw [← ctr_neg]; ring⟩))
    have e1 := st_div h (k := 0) (p := -1) (q := 1) om1 am1 nL (by norm_num) (Or.inl ⟨by norm_num, rfl⟩)
    have hw : wrapInt 5 i j = (1, 2 ^ 30 - 1 - j, 0) := by
      rw [wrapInt, if_neg (show ¬ i < 0 by omega), if_pos (show 2 ^ 30 ≤ i by omega), if_neg (show ¬ j < 0 by omega), if_neg (show ¬ 2 ^ 30 ≤ j by omega)]; rfl
    rw [hw]
    simp only [wrapF, faceUVtoXYZ, Option.bind_some, xyzToFaceUV, hface, validFaceXYZtoUV, Option.bind_eq_bind, Option.map_some]
    rw [e0, e1]
  · have hface : vecFace (⟨(1 + 1 / 2 ^ 52), (1 + 1 / 2 ^ 52), -1⟩ : Vec ℚ) = 0 := by
      rw [vecFace_x (by face_cmp) (by face_cmp)]
      norm_num
    have e0 := st_div h (k := 2 ^ 30 - 1) (p := 1) (q := 1) nL a1 nL (by norm_num) (Or.inr (Or.inl ⟨by norm_num, rfl⟩))
    have e1 := st_div h (k := 0) (p := -1) (q := 1) om1 am1 nL (by norm_num) (Or.inl ⟨by norm_num, rfl⟩)
    have hw : wrapInt 5 i j = (0, 2 ^ 30 - 1, 0) := by
      rw [wrapInt, if_neg (show ¬ i < 0 by omega), if_pos (show 2 ^ 30 ≤ i by omega), if_neg (show ¬ j < 0 by omega), if_pos (show 2 ^ 30 ≤ j by omega)]; rfl
    rw [hw]
    simp only [wrapF, faceUVtoXYZ, Option.bind_some, xyzToFaceUV, hface, validFaceXYZtoUV, Option.bind_eq_bind, Option.map_some]
    rw [e0, e1]
  · have hface : vecFace (⟨(-(1 + 1 / 2 ^ 52)), (1 + 1 / 2 ^ 52), -1⟩ : Vec ℚ) = 3 := by
      rw [vecFace_x (by face_cmp) (by face_cmp)]
      norm_num
    have e0 := st_div h (k := 2 ^ 30 - 1) (p := -1) (q := -1) om1 am1 nM (by norm_num) (Or.inr (Or.inl ⟨by norm_num, rfl⟩))
    have e1 := st_div h (k := 0) (p := 1) (q := -1) nL a1 nM (by norm_num) (Or.inl ⟨by norm_num, rfl⟩)
    have hw : wrapInt 5 i j = (3, 2 ^ 30 - 1, 0) := by
      rw [wrapInt, if_neg (show ¬ i < 0 by omega), if_pos (show 2 ^ 30 ≤ i by omega), if_pos (show j < 0 by omega)]; rfl
    rw [hw]
    simp only [wrapF, faceUVtoXYZ, Option.bind_some, xyzToFaceUV, hface, validFaceXYZtoUV, Option.bind_eq_bind, Option.map_some]
    rw [e0, e1]
  · have cv := ctr_le jv0 jv1
    have hface : vecFace (⟨v, (-(1 + 1 / 2 ^ 52)), -1⟩ : Vec ℚ) = 4 := by
      rw [vecFace_y (by face_cmp) (by face_cmp)]
      norm_num
    have e0 := st_div h (k := 2 ^ 30 - 1) (p := -1) (q := -1) om1 am1 nM (by norm_num) (Or.inr (Or.inl ⟨by norm_num, rfl⟩))
    have e1 := st_div h (k := j) (p := -(ctr j)) (q := -1) (near_neg nv) (by rw [abs_neg]; exact cv) nM (by norm_num) (Or.inr (Or.inr ⟨by omega, by omega, by ring⟩))
    have hw : wrapInt 5 i j = (4, 2 ^ 30 - 1, j) := by
      rw [wrapInt, if_pos (show i < 0 by omega), if_neg (show ¬ j < 0 by omega), if_neg (show ¬ 2 ^ 30 ≤ j by omega)]; rfl
    rw [hw]
    simp only [wrapF, faceUVtoXYZ, Option.bind_some, xyzToFaceUV, hface, validFaceXYZtoUV, Option.bind_eq_bind, Option.map_some]
    rw [e0, e1]
  · have hface : vecFace (⟨(1 + 1 / 2 ^ 52), (-(1 + 1 / 2 ^ 52)), -1⟩ : Vec ℚ) = 0 := by
      rw [vecFace_x (by face_cmp) (by face_cmp)]
      norm_num
    have e0 := st_div h (k := 0) (p := -1) (q := 1) nM am1 nL (by norm_num) (Or.inl ⟨by norm_num, rfl⟩)
    have e1 := st_div h (k := 0) (p := -1) (q := 1) om1 am1 nL (by norm_num) (Or.inl ⟨by norm_num, rfl⟩)
    have hw : wrapInt 5 i j = (0, 0, 0) := by
      rw [wrapInt, if_pos (show i < 0 by omega), if_neg (show ¬ j < 0 by omega), if_pos (show 2 ^ 30 ≤ j by omega)]; rfl
    rw [hw]
    simp only [wrapF, faceUVtoXYZ, Option.bind_some, xyzToFaceUV, hface, validFaceXYZtoUV, Option.bind_eq_bind, Option.map_some]
    rw [e0, e1]
  · have hface : vecFace (⟨(-(1 + 1 / 2 ^ 52)), (-(1 + 1 / 2 ^ 52)), -1⟩ : Vec ℚ) = 3 := by
      rw [vecFace_x (by face_cmp) (by face_cmp)]
      norm_num
    have e0 := st_div h (k := 2 ^ 30 - 1) (p := -1) (q := -1) om1 am1 nM (by norm_num) (Or.inr (Or.inl ⟨by norm_num, rfl⟩))
    have e1 := st_div h (k := 2 ^ 30 - 1) (p := -1) (q := -1) nM am1 nM (by norm_num) (Or.inr (Or.inl ⟨by norm_num, rfl⟩))
    have hw : wrapInt 5 i j = (3, 2 ^ 30 - 1, 2 ^ 30 - 1) := by
      rw [wrapInt, if_pos (show i < 0 by omega), if_pos (show j < 0 by omega)]; rfl
    rw [hw]
    simp only [wrapF, faceUVtoXYZ, Option.bind_some, xyzToFaceUV, hface, validFaceXYZtoUV, Option.bind_eq_bind, Option.map_some]
    rw [e0, e1]

theorem wrapF_eq {fl : ℚ → ℚ} (h : Rounding fl) {f : Nat} (hf : f < 6) {u v : ℚ} {i j : Int} (hu : Pos u i)
    (hv : Pos v j) : wrapF fl f u v = some (wrapInt f i j) := by
  interval_cases f
  · exact wrapF_0 h hu hv
  · exact wrapF_1 h hu hv
  · exact wrapF_2 h hu hv
  · exact wrapF_3 h hu hv
  · exact wrapF_4 h hu hv
  · exact wrapF_5 h hu hv

/-- `from_face_ij_wrap` computes exactly the table, whatever the rounding. -/
theorem wrap_eq {fl : ℚ → ℚ} (h : Rounding fl) {f : Nat} (hf : f < 6) (i j : Int) :
    fromFaceIJWrap fl f i j = fromFaceIJ (wrapInt f i j).1 (wrapInt f i j).2.1 (wrapInt f i j).2.2 := by
  rw [fromFaceIJWrap_eq, wrapF_eq h hf (pos_of h i) (pos_of h j), Option.bind_some]

end Verif
