import Verif.Proofs.HilbertTables
import Verif.Proofs.CellIDMore
import Mathlib.Tactic.IntervalCases

/-! # The Hilbert recursion and the loops of `from_face_ij` and `face_ij_orientation` -/

namespace Verif
open Rust Spec

/-! ### The recursion -/

theorem div_pow4_lt {p n : Nat} (h : p < 4 ^ (n + 1)) : p / 4 ^ n < 4 := by
  rw [Nat.div_lt_iff_lt_mul (pow4_pos n), ← Nat.pow_succ']; exact h

theorem div_pow2_lt {p n : Nat} (h : p < 2 ^ (n + 1)) : p / 2 ^ n < 2 := by
  rw [Nat.div_lt_iff_lt_mul (pow2_pos n), ← Nat.pow_succ']; exact h

theorem ijOf_lt : ∀ (n o p : Nat), o < 4 → p < 4 ^ n →
    (ijOf n o p).1 < 2 ^ n ∧ (ijOf n o p).2.1 < 2 ^ n ∧ (ijOf n o p).2.2 < 4 := by
  intro n
  induction n with
  | zero => intro o p ho hp; simp [ijOf, ho]
  | succ n ih =>
    intro o p ho hp
    have hd := dig_quad o ho _ (div_pow4_lt hp)
    have := ih (ori o (p / 4 ^ n)) (p % 4 ^ n) hd.2.2.2 (Nat.mod_lt _ (pow4_pos n))
    simp only [ijOf]
    have h2 := Nat.mul_le_mul_right (2 ^ n) (show (quad o (p / 4 ^ n)).1 ≤ 1 by omega)
    have h3 := Nat.mul_le_mul_right (2 ^ n) (show (quad o (p / 4 ^ n)).2 ≤ 1 by omega)
    rw [Nat.pow_succ]
    omega

theorem posOf_lt : ∀ (n o i j : Nat), o < 4 → i < 2 ^ n → j < 2 ^ n →
    (posOf n o i j).1 < 4 ^ n ∧ (posOf n o i j).2 < 4 := by
  intro n
  induction n with
  | zero => intro o i j ho hi hj; simp [posOf, ho]
  | succ n ih =>
    intro o i j ho hi hj
    have hd := quad_dig o ho _ (div_pow2_lt hi) _ (div_pow2_lt hj)
    have hd2 := dig_quad o ho _ hd.2
    have := ih (ori o (dig o (i / 2 ^ n) (j / 2 ^ n))) (i % 2 ^ n) (j % 2 ^ n) hd2.2.2.2
      (Nat.mod_lt _ (pow2_pos n)) (Nat.mod_lt _ (pow2_pos n))
    simp only [posOf]
    have h2 := Nat.mul_le_mul_right (4 ^ n) (show dig o (i / 2 ^ n) (j / 2 ^ n) ≤ 3 by omega)
    rw [Nat.pow_succ]
    omega

theorem add_div_pow {a b m : Nat} (h : b < m) : (a * m + b) / m = a := by
  rw [Nat.mul_comm, Nat.mul_add_div (by omega), Nat.div_eq_of_lt h, Nat.add_zero]
theorem add_mod_pow {a b m : Nat} (h : b < m) : (a * m + b) % m = b := by
  rw [Nat.mul_comm, Nat.mul_add_mod, Nat.mod_eq_of_lt h]

theorem posOf_ijOf : ∀ (n o p : Nat), o < 4 → p < 4 ^ n →
    posOf n o (ijOf n o p).1 (ijOf n o p).2.1 = (p, (ijOf n o p).2.2) := by
  intro n
  induction n with
  | zero => intro o p ho hp; simp at hp; subst hp; rfl
  | succ n ih =>
    intro o p ho hp
    have hd := dig_quad o ho _ (div_pow4_lt hp)
    have hm := Nat.mod_lt p (pow4_pos n)
    have h1 := ih (ori o (p / 4 ^ n)) (p % 4 ^ n) hd.2.2.2 hm
    have h2 := ijOf_lt n (ori o (p / 4 ^ n)) (p % 4 ^ n) hd.2.2.2 hm
    simp only [ijOf, posOf]
    rw [add_div_pow h2.1, add_div_pow h2.2.1, add_mod_pow h2.1, add_mod_pow h2.2.1, hd.1, h1]
    simp only [Prod.mk.injEq, and_true]
    have := Nat.div_add_mod p (4 ^ n)
    rw [Nat.mul_comm] at this
    exact this

theorem ijOf_posOf : ∀ (n o i j : Nat), o < 4 → i < 2 ^ n → j < 2 ^ n →
    ijOf n o (posOf n o i j).1 = (i, j, (posOf n o i j).2) := by
  intro n
  induction n with
  | zero => intro o i j ho hi hj; simp at hi hj; subst hi; subst hj; rfl
  | succ n ih =>
    intro o i j ho hi hj
    have hd := quad_dig o ho _ (div_pow2_lt hi) _ (div_pow2_lt hj)
    have hd2 := dig_quad o ho _ hd.2
    have hi2 := Nat.mod_lt i (pow2_pos n)
    have hj2 := Nat.mod_lt j (pow2_pos n)
    have h1 := ih (ori o (dig o (i / 2 ^ n) (j / 2 ^ n))) _ _ hd2.2.2.2 hi2 hj2
    have h2 := posOf_lt n (ori o (dig o (i / 2 ^ n) (j / 2 ^ n))) _ _ hd2.2.2.2 hi2 hj2
    simp only [ijOf, posOf]
    rw [add_div_pow h2.1, add_mod_pow h2.1, h1, hd.1]
    have e1 := Nat.div_add_mod i (2 ^ n)
    have e2 := Nat.div_add_mod j (2 ^ n)
    rw [Nat.mul_comm] at e1 e2
    simp only [e1, e2]

/-- Splitting off the low digits. -/
theorem ijOf_add (n : Nat) : ∀ (m o p : Nat), ijOf (m + n) o p =
    ((ijOf m o (p / 4 ^ n)).1 * 2 ^ n + (ijOf n (ijOf m o (p / 4 ^ n)).2.2 (p % 4 ^ n)).1,
     (ijOf m o (p / 4 ^ n)).2.1 * 2 ^ n + (ijOf n (ijOf m o (p / 4 ^ n)).2.2 (p % 4 ^ n)).2.1,
     (ijOf n (ijOf m o (p / 4 ^ n)).2.2 (p % 4 ^ n)).2.2) ∨ ¬ p < 4 ^ (m + n) := by
  intro m
  induction m with
  | zero =>
    intro o p
    by_cases h : p < 4 ^ (0 + n)
    · left
      rw [Nat.zero_add] at h ⊢
      simp [ijOf, Nat.mod_eq_of_lt h]
    · exact Or.inr h
  | succ m ih =>
    intro o p
    by_cases h : p < 4 ^ (m + 1 + n)
    · left
      have e : 4 ^ (m + n) = 4 ^ n * 4 ^ m := by rw [Nat.add_comm, Nat.pow_add]
      have e2 : m + 1 + n = (m + n) + 1 := by omega
      have := (ih (ori o (p / 4 ^ (m + n))) (p % 4 ^ (m + n))).resolve_right
        (not_not.2 (Nat.mod_lt _ (pow4_pos _)))
      rw [e2]
      simp only [ijOf]
      have d1 : p / 4 ^ n / 4 ^ m = p / 4 ^ (m + n) := by rw [Nat.div_div_eq_div_mul, e]
      have d2 : p / 4 ^ n % 4 ^ m = p % 4 ^ (m + n) / 4 ^ n := by rw [e, Nat.mod_mul_right_div_self]
      have d3 : p % 4 ^ (m + n) % 4 ^ n = p % 4 ^ n :=
        Nat.mod_mod_of_dvd _ (Nat.pow_dvd_pow 4 (by omega))
      have e3 : 2 ^ (m + n) = 2 ^ m * 2 ^ n := Nat.pow_add 2 m n
      rw [d1, d2, this, d3]
      simp only [e3, Nat.add_mul, Nat.mul_assoc, Nat.add_assoc]
    · exact Or.inr h

theorem ijOf_add' {m n o p : Nat} (h : p < 4 ^ (m + n)) : ijOf (m + n) o p =
    ((ijOf m o (p / 4 ^ n)).1 * 2 ^ n + (ijOf n (ijOf m o (p / 4 ^ n)).2.2 (p % 4 ^ n)).1,
     (ijOf m o (p / 4 ^ n)).2.1 * 2 ^ n + (ijOf n (ijOf m o (p / 4 ^ n)).2.2 (p % 4 ^ n)).2.1,
     (ijOf n (ijOf m o (p / 4 ^ n)).2.2 (p % 4 ^ n)).2.2) :=
  (ijOf_add n m o p).resolve_right (not_not.2 h)

/-- Splitting off the low digits, from coordinates. -/
theorem posOf_add (n : Nat) : ∀ (m o i j : Nat), i < 2 ^ (m + n) → j < 2 ^ (m + n) → posOf (m + n) o i j =
    ((posOf m o (i / 2 ^ n) (j / 2 ^ n)).1 * 4 ^ n +
      (posOf n (posOf m o (i / 2 ^ n) (j / 2 ^ n)).2 (i % 2 ^ n) (j % 2 ^ n)).1,
     (posOf n (posOf m o (i / 2 ^ n) (j / 2 ^ n)).2 (i % 2 ^ n) (j % 2 ^ n)).2) := by
  intro m
  induction m with
  | zero =>
    intro o i j hi hj
    rw [Nat.zero_add] at hi hj ⊢
    simp [posOf, Nat.mod_eq_of_lt hi, Nat.mod_eq_of_lt hj]
  | succ m ih =>
    intro o i j hi hj
    have e : 2 ^ (m + n) = 2 ^ n * 2 ^ m := by rw [Nat.add_comm, Nat.pow_add]
    have e2 : m + 1 + n = (m + n) + 1 := by omega
    rw [e2]
    simp only [posOf]
    rw [ih _ _ _ (Nat.mod_lt _ (pow2_pos _)) (Nat.mod_lt _ (pow2_pos _))]
    have d1 : ∀ p, p / 2 ^ n / 2 ^ m = p / 2 ^ (m + n) := by
      intro p; rw [Nat.div_div_eq_div_mul, e]
    have d2 : ∀ p, p / 2 ^ n % 2 ^ m = p % 2 ^ (m + n) / 2 ^ n := by
      intro p; rw [e, Nat.mod_mul_right_div_self]
    have d3 : ∀ p, p % 2 ^ (m + n) % 2 ^ n = p % 2 ^ n :=
      fun p => Nat.mod_mod_of_dvd _ (Nat.pow_dvd_pow 2 (by omega))
    have e3 : 4 ^ (m + n) = 4 ^ m * 4 ^ n := Nat.pow_add 4 m n
    simp only [d1, d2, d3, e3, Nat.add_mul, Nat.mul_assoc, Nat.add_assoc]

/-- Two leading zero digits do nothing in a face's own orientation. -/
theorem ijOf_two {n o p : Nat} (ho : o < 2) (hp : p < 4 ^ n) : ijOf (n + 2) o p = ijOf n o p := by
  have h1 : p / 4 ^ (n + 1) = 0 := Nat.div_eq_of_lt (by rw [Nat.pow_succ]; omega)
  have h2 : p % 4 ^ (n + 1) = p := Nat.mod_eq_of_lt (by rw [Nat.pow_succ]; omega)
  have h3 : p / 4 ^ n = 0 := Nat.div_eq_of_lt hp
  simp only [ijOf, h1, h2, h3, Nat.mod_eq_of_lt hp]
  interval_cases o <;> simp [quad, ori, posToIJ, posToOrientation, swapMask]

theorem posOf_two {n o i j : Nat} (ho : o < 2) (hi : i < 2 ^ n) (hj : j < 2 ^ n) :
    posOf (n + 2) o i j = posOf n o i j := by
  have h1 : ∀ {x}, x < 2 ^ n → x / 2 ^ (n + 1) = 0 := fun h => Nat.div_eq_of_lt (by rw [Nat.pow_succ]; omega)
  have h2 : ∀ {x}, x < 2 ^ n → x % 2 ^ (n + 1) = x := fun h => Nat.mod_eq_of_lt (by rw [Nat.pow_succ]; omega)
  have h3 : ∀ {x}, x < 2 ^ n → x / 2 ^ n = 0 := fun h => Nat.div_eq_of_lt h
  simp only [posOf, h1 hi, h1 hj, h2 hi, h2 hj, h3 hi, h3 hj, Nat.mod_eq_of_lt hi, Nat.mod_eq_of_lt hj]
  interval_cases o <;> simp [dig, ori, ijToPos, posToOrientation, swapMask]

/-! ### The loop of `face_ij_orientation` -/

theorem and3 (x : Nat) : x &&& (swapMask ||| invertMask) = x % 4 := Nat.and_two_pow_sub_one_eq_mod x 2
theorem and15 (x : Nat) : x &&& (2 ^ lookupBits - 1) = x % 16 := Nat.and_two_pow_sub_one_eq_mod x 4
theorem and1 (x : Nat) : x &&& swapMask = x % 2 := Nat.and_two_pow_sub_one_eq_mod x 1

theorem i32_some {x : Int} (h1 : 0 ≤ x) (h2 : x < 2 ^ 31) : i32 x = some x := by
  rw [i32, if_pos]; omega

/-- The table used by `face_ij_orientation` holds four digits of the recursion. -/
def IsIJTbl (tbl : Nat → Option Nat) : Prop := ∀ p o, p < 256 → o < 4 →
  tbl (p * 4 + o) = some (((ijOf 4 o p).1 * 16 + (ijOf 4 o p).2.1) * 4 + (ijOf 4 o p).2.2)

/-- The table used by `from_face_ij` holds four digits of the recursion. -/
def IsPosTbl (tbl : Nat → Option Nat) : Prop := ∀ i j o, i < 16 → j < 16 → o < 4 →
  tbl ((i * 16 + j) * 4 + o) = some ((posOf 4 o i j).1 * 4 + (posOf 4 o i j).2)

theorem lookupIJ_isTbl : IsIJTbl lookupIJ := fun _ _ => lookupIJ_spec
theorem lookupPos_isTbl : IsPosTbl lookupPos := fun _ _ _ => lookupPos_spec

/-- One iteration. -/
theorem faceIJ_step {tbl} (ht : IsIJTbl tbl) {c : CellID} {k nb i j o : Nat} (hk : k < 8) (hn : nb ≤ 4) (ho : o < 4)
    (hi : i + (ijOf 4 o (c.id.toNat / 2 / 4 ^ (4 * k) % 4 ^ nb)).1 * 2 ^ (4 * k) < 2 ^ 31)
    (hj : j + (ijOf 4 o (c.id.toNat / 2 / 4 ^ (4 * k) % 4 ^ nb)).2.1 * 2 ^ (4 * k) < 2 ^ 31) :
    CellID.faceIJLoop tbl c (k + 1) nb i j o = CellID.faceIJLoop tbl c k 4
      ((i + (ijOf 4 o (c.id.toNat / 2 / 4 ^ (4 * k) % 4 ^ nb)).1 * 2 ^ (4 * k) : Nat) : Int)
      ((j + (ijOf 4 o (c.id.toNat / 2 / 4 ^ (4 * k) % 4 ^ nb)).2.1 * 2 ^ (4 * k) : Nat) : Int)
      (ijOf 4 o (c.id.toNat / 2 / 4 ^ (4 * k) % 4 ^ nb)).2.2 := by
  have hs : shr c.id (k * 2 * lookupBits + 1) = some (c.id >>> (k * 2 * lookupBits + 1)) := by
    rw [shr, if_pos]; unfold lookupBits; omega
  have hd : ((c.id >>> (k * 2 * lookupBits + 1)) &&& (BitVec.ofNat 64 (2 ^ (2 * nb) - 1))).toNat
      = c.id.toNat / 2 / 4 ^ (4 * k) % 4 ^ nb := by
    rw [Bits.and_mask_eq_mod _ _ (by omega), BitVec.toNat_ushiftRight, Nat.shiftRight_eq_div_pow,
      Nat.div_div_eq_div_mul, Nat.pow_mul 2 2 nb]
    congr 2
    rw [show (4:Nat) = 2 ^ 2 from rfl, ← Nat.pow_mul, ← Nat.pow_succ']
    congr 1; unfold lookupBits; omega
  have hlt : c.id.toNat / 2 / 4 ^ (4 * k) % 4 ^ nb < 256 :=
    Nat.lt_of_lt_of_le (Nat.mod_lt _ (pow4_pos _)) (Nat.pow_le_pow_right (by omega) hn)
  rw [CellID.faceIJLoop, hs]
  simp only [Option.bind_eq_bind, Option.bind_some]
  rw [hd]
  generalize c.id.toNat / 2 / 4 ^ (4 * k) % 4 ^ nb = d at *
  have hr := ijOf_lt 4 o d ho hlt
  rw [Nat.shiftLeft_eq, show o + d * 2 ^ 2 = d * 4 + o by omega, ht _ _ hlt ho, Option.bind_some]
  generalize ijOf 4 o d = r at *
  obtain ⟨a, b, q⟩ := r
  simp only at *
  have h1 : ((a * 16 + b) * 4 + q) >>> (lookupBits + 2) = a := by
    rw [Nat.shiftRight_eq_div_pow, show 2 ^ (lookupBits + 2) = 64 from rfl]; omega
  have h2 : (((a * 16 + b) * 4 + q) >>> 2) &&& (2 ^ lookupBits - 1) = b := by
    rw [and15, Nat.shiftRight_eq_div_pow]; omega
  have h3 : ((a * 16 + b) * 4 + q) &&& (swapMask ||| invertMask) = q := by
    rw [and3]; omega
  have e : 2 ^ (k * lookupBits) = 2 ^ (4 * k) := by rw [Nat.mul_comm]; rfl
  rw [h1, h2, h3, Nat.shiftLeft_eq, Nat.shiftLeft_eq, e, ← Int.natCast_add, ← Int.natCast_add,
    i32_some (by omega) (by exact_mod_cast hi), Option.bind_some, i32_some (by omega) (by exact_mod_cast hj),
    Option.bind_some]
  rfl

theorem faceIJLoop_spec {tbl} (ht : IsIJTbl tbl) {c : CellID} : ∀ (k i j o : Nat), k ≤ 7 → o < 4 →
    i + 2 ^ (4 * k) ≤ 2 ^ 31 → j + 2 ^ (4 * k) ≤ 2 ^ 31 →
    CellID.faceIJLoop tbl c k 4 i j o = some
      (((i + (ijOf (4 * k) o (c.id.toNat / 2 % 4 ^ (4 * k))).1 : Nat) : Int),
       ((j + (ijOf (4 * k) o (c.id.toNat / 2 % 4 ^ (4 * k))).2.1 : Nat) : Int),
       (ijOf (4 * k) o (c.id.toNat / 2 % 4 ^ (4 * k))).2.2) := by
  intro k
  induction k with
  | zero => intro i j o _ _ _ _; simp [CellID.faceIJLoop, ijOf]
  | succ k ih =>
    intro i j o hk ho hi hj
    have e : 4 * (k + 1) = 4 + 4 * k := by omega
    have hlt : c.id.toNat / 2 % 4 ^ (4 + 4 * k) < 4 ^ (4 + 4 * k) := Nat.mod_lt _ (pow4_pos _)
    have d1 : c.id.toNat / 2 % 4 ^ (4 + 4 * k) / 4 ^ (4 * k) = c.id.toNat / 2 / 4 ^ (4 * k) % 4 ^ 4 := by
      rw [Nat.add_comm, Nat.pow_add, Nat.mod_mul_right_div_self]
    have d2 : c.id.toNat / 2 % 4 ^ (4 + 4 * k) % 4 ^ (4 * k) = c.id.toNat / 2 % 4 ^ (4 * k) :=
      Nat.mod_mod_of_dvd _ (Nat.pow_dvd_pow 4 (by omega))
    have hr := ijOf_lt 4 o (c.id.toNat / 2 / 4 ^ (4 * k) % 4 ^ 4) ho (Nat.mod_lt _ (by omega))
    have hp := pow2_pos (4 * k)
    rw [e, Nat.pow_add] at hi hj
    have m1 := Nat.mul_le_mul_right (2 ^ (4 * k)) (show (ijOf 4 o (c.id.toNat / 2 / 4 ^ (4 * k) % 4 ^ 4)).1 + 1 ≤ 2 ^ 4 by omega)
    have m2 := Nat.mul_le_mul_right (2 ^ (4 * k)) (show (ijOf 4 o (c.id.toNat / 2 / 4 ^ (4 * k) % 4 ^ 4)).2.1 + 1 ≤ 2 ^ 4 by omega)
    rw [Nat.add_mul, Nat.one_mul] at m1 m2
    rw [faceIJ_step ht (by omega) (by omega) ho (by omega) (by omega), ih _ _ _ (by omega) hr.2.2 (by omega) (by omega),
      e, ijOf_add' hlt, d1, d2]
    simp only [Nat.add_assoc]

theorem faceIJLoop_main' {tbl} (ht : IsIJTbl tbl) {c : CellID} {o m n : Nat} (ho : o < 2) (hm : m = 7)
    (hn : n = 2 + 4 * m) :
    CellID.faceIJLoop tbl c (m + 1) 2 0 0 o = some
      (((ijOf n o (c.id.toNat / 2 % 4 ^ n)).1 : Int), ((ijOf n o (c.id.toNat / 2 % 4 ^ n)).2.1 : Int),
       (ijOf n o (c.id.toNat / 2 % 4 ^ n)).2.2) := by
  have hp : 2 ^ (4 * m) = 268435456 := by rw [hm]; norm_num
  have hlt : c.id.toNat / 2 % 4 ^ (2 + 4 * m) < 4 ^ (2 + 4 * m) := Nat.mod_lt _ (pow4_pos _)
  have d1 : c.id.toNat / 2 % 4 ^ (2 + 4 * m) / 4 ^ (4 * m) = c.id.toNat / 2 / 4 ^ (4 * m) % 4 ^ 2 := by
    rw [Nat.add_comm, Nat.pow_add, Nat.mod_mul_right_div_self]
  have d2 : c.id.toNat / 2 % 4 ^ (2 + 4 * m) % 4 ^ (4 * m) = c.id.toNat / 2 % 4 ^ (4 * m) :=
    Nat.mod_mod_of_dvd _ (Nat.pow_dvd_pow 4 (by omega))
  have h16 : c.id.toNat / 2 / 4 ^ (4 * m) % 4 ^ 2 < 4 ^ 2 := Nat.mod_lt _ (by omega)
  have h2 : ijOf 4 o (c.id.toNat / 2 / 4 ^ (4 * m) % 4 ^ 2) = _ := ijOf_two (n := 2) ho h16
  have hr := ijOf_lt 2 o _ (by omega) h16
  have hst := faceIJ_step ht (c := c) (k := m) (nb := 2) (i := 0) (j := 0) (o := o) (by omega) (by omega) (by omega)
    (by rw [h2, hp]; have := hr.1; omega) (by rw [h2, hp]; have := hr.2.1; omega)
  rw [show ((0 : Int)) = ((0 : Nat) : Int) from rfl, hst, h2,
    faceIJLoop_spec ht _ _ _ _ (by omega) hr.2.2 (by rw [hp]; have := hr.1; omega) (by rw [hp]; have := hr.2.1; omega),
    hn, ijOf_add' hlt, d1, d2]
  simp only [Nat.zero_add]

theorem faceIJLoop_main {tbl} (ht : IsIJTbl tbl) {c : CellID} {o : Nat} (ho : o < 2) :
    CellID.faceIJLoop tbl c 8 2 0 0 o = some
      (((ijOf 30 o (c.id.toNat / 2 % 4 ^ 30)).1 : Int), ((ijOf 30 o (c.id.toNat / 2 % 4 ^ 30)).2.1 : Int),
       (ijOf 30 o (c.id.toNat / 2 % 4 ^ 30)).2.2) :=
  faceIJLoop_main' ht (m := 7) ho rfl rfl

/-! ### The loop of `from_face_ij` -/

theorem nibble_eq {i k : Nat} (hi : i < 2 ^ 30) : CellID.nibble (i : Int) k = i / 2 ^ (4 * k) % 16 := by
  have h1 : (BitVec.ofInt 32 (i : Int)) = BitVec.ofNat 32 i := BitVec.ofInt_natCast 32 i
  have h2 : (BitVec.ofNat 32 i).toNat = i := by
    rw [BitVec.toNat_ofNat, Nat.mod_eq_of_lt (by omega)]
  have h3 : (BitVec.ofNat 32 i).msb = false := by
    rw [BitVec.msb_eq_false_iff_two_mul_lt, h2]; omega
  unfold CellID.nibble
  rw [h1, BitVec.sshiftRight_eq_of_msb_false h3, BitVec.toNat_and, BitVec.toNat_ushiftRight, h2,
    show (15#32).toNat = 2 ^ 4 - 1 from rfl, Nat.and_two_pow_sub_one_eq_mod, Nat.shiftRight_eq_div_pow,
    Nat.mul_comm k]
  rfl

/-- One iteration. -/
theorem fromFaceIJ_step {tbl} (ht : IsPosTbl tbl) {i j k o : Nat} (hi : i < 2 ^ 30) (hj : j < 2 ^ 30)
    (hk : k < 8) (ho : o < 4) (n : U64) :
    ∃ s : U64, s.toNat = (posOf 4 o (i / 2 ^ (4 * k) % 16) (j / 2 ^ (4 * k) % 16)).1 * 4 ^ (4 * k) ∧
      CellID.fromFaceIJLoop tbl i j (k + 1) n o = CellID.fromFaceIJLoop tbl i j k (n ||| s)
        (posOf 4 o (i / 2 ^ (4 * k) % 16) (j / 2 ^ (4 * k) % 16)).2 := by
  have hi16 : i / 2 ^ (4 * k) % 16 < 2 ^ 4 := Nat.mod_lt _ (by omega)
  have hj16 : j / 2 ^ (4 * k) % 16 < 2 ^ 4 := Nat.mod_lt _ (by omega)
  have hr := posOf_lt 4 o _ _ ho hi16 hj16
  rw [CellID.fromFaceIJLoop, nibble_eq hi, nibble_eq hj]
  have s1 : (i / 2 ^ (4 * k) % 16) <<< (lookupBits + 2) = (i / 2 ^ (4 * k) % 16) * 64 := by
    rw [Nat.shiftLeft_eq]; rfl
  have s2 : (j / 2 ^ (4 * k) % 16) <<< 2 = (j / 2 ^ (4 * k) % 16) * 4 := by rw [Nat.shiftLeft_eq]
  rw [s1, s2]
  have s3 : ∀ x y : Nat, o + x * 64 + y * 4 = (x * 16 + y) * 4 + o := by intro x y; omega
  rw [s3, ht _ _ _ hi16 hj16 ho]
  simp only [Option.bind_eq_bind, Option.bind_some]
  generalize posOf 4 o (i / 2 ^ (4 * k) % 16) (j / 2 ^ (4 * k) % 16) = r at *
  obtain ⟨p, q⟩ := r
  simp only at *
  have t1 : (p * 4 + q) >>> 2 = p := by rw [Nat.shiftRight_eq_div_pow]; omega
  have t2 : (p * 4 + q) &&& (swapMask ||| invertMask) = q := by rw [and3]; omega
  rw [t1, t2, shl, if_pos (by unfold lookupBits; omega), Option.bind_some]
  have e8 : 2 ^ (k * 2 * lookupBits) = 4 ^ (4 * k) := by
    rw [show (4:Nat) ^ (4 * k) = (2 ^ 2) ^ (4 * k) from rfl, ← Nat.pow_mul]; congr 1; unfold lookupBits; omega
  have hp4 : p * 4 ^ (4 * k) < 4 ^ (4 + 4 * k) := by
    rw [Nat.pow_add]; exact Nat.mul_lt_mul_of_pos_right hr.1 (pow4_pos _)
  have hbig : 4 ^ (4 + 4 * k) ≤ 2 ^ 64 := by
    rw [show (2:Nat) ^ 64 = 4 ^ 32 by norm_num]; exact Nat.pow_le_pow_right (by omega) (by omega)
  refine ⟨_, ?_, rfl⟩
  rw [BitVec.toNat_shiftLeft, Bits.ofNat_toNat_of_lt (by have := hr.1; omega), Nat.shiftLeft_eq, e8,
    Nat.mod_eq_of_lt (by omega)]

theorem or_add {n s : U64} {a b e f : Nat} (hn : n.toNat = a * 4 ^ (e + f)) (hs : s.toNat = b * 4 ^ f)
    (hb : b < 4 ^ e) : (n ||| s).toNat = (a * 4 ^ e + b) * 4 ^ f := by
  rw [BitVec.toNat_or, hs, hn]
  have := Nat.shiftLeft_add_eq_or_of_lt (i := 2 * (e + f)) (b := b * 4 ^ f)
    (by rw [Nat.pow_mul, show (2:Nat) ^ 2 = 4 from rfl, Nat.pow_add]
        exact Nat.mul_lt_mul_of_pos_right hb (pow4_pos _)) a
  rw [Nat.shiftLeft_eq, Nat.pow_mul, show (2:Nat) ^ 2 = 4 from rfl] at this
  rw [← this, Nat.pow_add, Nat.add_mul, Nat.mul_assoc]

theorem fromFaceIJLoop_spec {tbl} (ht : IsPosTbl tbl) {i j : Nat} (hi : i < 2 ^ 30) (hj : j < 2 ^ 30) :
    ∀ (k o a : Nat) (n : U64), k ≤ 8 → o < 4 → n.toNat = a * 4 ^ (4 * k) →
    ∃ m, CellID.fromFaceIJLoop tbl i j k n o = some m ∧
      m.toNat = a * 4 ^ (4 * k) + (posOf (4 * k) o (i % 2 ^ (4 * k)) (j % 2 ^ (4 * k))).1 := by
  intro k
  induction k with
  | zero => intro o a n _ _ hn; exact ⟨n, rfl, by rw [hn]; simp [posOf]⟩
  | succ k ih =>
    intro o a n hk ho hn
    have e : 4 * (k + 1) = 4 + 4 * k := by omega
    have hi16 : i / 2 ^ (4 * k) % 16 < 2 ^ 4 := Nat.mod_lt _ (by omega)
    have hj16 : j / 2 ^ (4 * k) % 16 < 2 ^ 4 := Nat.mod_lt _ (by omega)
    have hr := posOf_lt 4 o _ _ ho hi16 hj16
    obtain ⟨s, hs, hst⟩ := fromFaceIJ_step ht hi hj (show k < 8 by omega) ho n
    have d1 : ∀ x : Nat, x % 2 ^ (4 + 4 * k) / 2 ^ (4 * k) = x / 2 ^ (4 * k) % 16 := by
      intro x; rw [Nat.add_comm, Nat.pow_add, Nat.mod_mul_right_div_self]
    have d2 : ∀ x : Nat, x % 2 ^ (4 + 4 * k) % 2 ^ (4 * k) = x % 2 ^ (4 * k) :=
      fun x => Nat.mod_mod_of_dvd _ (Nat.pow_dvd_pow 2 (by omega))
    rw [e] at hn
    rw [hst, e, posOf_add _ _ _ _ _ (Nat.mod_lt _ (pow2_pos _)) (Nat.mod_lt _ (pow2_pos _)), d1, d1, d2, d2]
    generalize posOf 4 o (i / 2 ^ (4 * k) % 16) (j / 2 ^ (4 * k) % 16) = r at *
    obtain ⟨m, hm1, hm2⟩ := ih r.2 _ _ (by omega) hr.2 (or_add hn hs hr.1)
    refine ⟨m, hm1, ?_⟩
    rw [hm2, Nat.pow_add, Nat.add_mul, Nat.mul_assoc, Nat.add_assoc]

theorem fromFaceIJLoop_main {tbl} (ht : IsPosTbl tbl) {i j f m e : Nat} (hi : i < 2 ^ 30) (hj : j < 2 ^ 30)
    (hm : m = 7) (he : e = 2 + 4 * m) (n : U64) (hn : n.toNat = f * 4 ^ e) :
    ∃ x, CellID.fromFaceIJLoop tbl i j (m + 1) n (f % 2) = some x ∧
      x.toNat = f * 4 ^ e + (posOf e (f % 2) i j).1 := by
  have ho : f % 2 < 4 := by omega
  have hp : 2 ^ (4 * m) = 268435456 := by rw [hm]; norm_num
  have hi4 : i / 2 ^ (4 * m) < 2 ^ 2 := by rw [hp]; omega
  have hj4 : j / 2 ^ (4 * m) < 2 ^ 2 := by rw [hp]; omega
  obtain ⟨s, hs, hst⟩ := fromFaceIJ_step ht hi hj (show m < 8 by omega) ho n
  rw [Nat.mod_eq_of_lt (Nat.lt_trans hi4 (by decide)), Nat.mod_eq_of_lt (Nat.lt_trans hj4 (by decide))] at hs hst
  have h2 : posOf 4 (f % 2) (i / 2 ^ (4 * m)) (j / 2 ^ (4 * m)) = _ :=
    posOf_two (n := 2) (Nat.mod_lt _ (by omega)) hi4 hj4
  have hr := posOf_lt 2 (f % 2) _ _ ho hi4 hj4
  rw [h2] at hs hst
  rw [he] at hn ⊢
  have hpe : 2 ^ (2 + 4 * m) = 2 ^ 30 := by rw [hm]
  rw [hst, posOf_add _ _ _ _ _ (by omega) (by omega)]
  generalize posOf 2 (f % 2) (i / 2 ^ (4 * m)) (j / 2 ^ (4 * m)) = r at *
  obtain ⟨x, h1, h3⟩ := fromFaceIJLoop_spec ht hi hj m r.2 _ _ (by omega) hr.2 (or_add hn hs hr.1)
  refine ⟨x, h1, ?_⟩
  rw [h3, Nat.pow_add, Nat.add_mul, Nat.mul_assoc, Nat.add_assoc]

/-! ### The functions on cells -/

open CellID

theorem fromFaceIJ_eq {f i j : Nat} (hf : f < 6) (hi : i < 2 ^ 30) (hj : j < 2 ^ 30) :
    CellID.fromFaceIJ f i j = some (mk 30 (f * 4 ^ 30 + (posOf 30 (f % 2) i j).1)) := by
  have hpos := posOf_lt 30 (f % 2) i j (by omega) hi hj
  have hW := W_eq
  have hn : (BitVec.ofNat 64 f <<< (posBits - 1)).toNat = f * 4 ^ 30 := by
    rw [BitVec.toNat_shiftLeft, Bits.ofNat_toNat_of_lt (by omega), Nat.shiftLeft_eq,
      show (2:Nat) ^ (posBits - 1) = 4 ^ 30 by unfold posBits maxLevel; norm_num, Nat.mod_eq_of_lt]
    rw [hW]; omega
  obtain ⟨x, h1, h2⟩ := fromFaceIJLoop_main lookupPos_isTbl (m := 7) (e := 30) hi hj rfl rfl _ hn
  unfold CellID.fromFaceIJ
  rw [shl, if_pos (by unfold posBits maxLevel; omega), Option.bind_eq_bind, Option.bind_some, and1, h1,
    Option.bind_some]
  rw [hW] at hpos h2 ⊢
  generalize (posOf 30 (f % 2) i j).1 = q at *
  have hm : (x * 2#64).toNat = 2 * x.toNat := by
    rw [BitVec.toNat_mul, show (2#64).toNat = 2 from rfl]; omega
  rw [mul, if_pos (by rw [show (2#64).toNat = 2 from rfl]; omega), Option.bind_some,
    add, if_pos (by rw [hm, show (1#64).toNat = 1 from rfl]; omega), Option.bind_some]
  have hc : IsCell 30 (f * W₀ + q) := leaf_isCell (by omega)
  have e1 : (mk 30 (f * W₀ + q)).id.toNat = 2 * (f * W₀ + q) + 1 := toNat_leaf hc
  generalize mk 30 (f * W₀ + q) = y at *
  obtain ⟨y⟩ := y
  simp only at e1
  have : x * 2#64 + 1#64 = y := by
    apply BitVec.eq_of_toNat_eq
    rw [e1, BitVec.toNat_add, hm, show (1#64).toNat = 1 from rfl, h2]
    omega
  rw [this]

/-- Digits all zero: the first corner of a square. -/
theorem ijOf_zero : ∀ (n o : Nat), o < 4 →
    ijOf n o 0 = (if o < 2 then 0 else 2 ^ n - 1, if o < 2 then 0 else 2 ^ n - 1, o ^^^ (n % 2)) := by
  intro n
  induction n with
  | zero => intro o ho; simp [ijOf]
  | succ n ih =>
    intro o ho
    have hp := pow2_pos n
    have hx : ori o 0 < 4 := (dig_quad o ho 0 (by omega)).2.2.2
    simp only [ijOf, Nat.zero_div, Nat.zero_mod, ih _ hx, Nat.pow_succ]
    have h2 : n % 2 = 0 ∨ n % 2 = 1 := by omega
    have h3 : (n + 1) % 2 = 1 - n % 2 := by omega
    rw [h3]
    rcases h2 with h | h <;> rw [h] <;> interval_cases o <;>
      simp [quad, ori, posToIJ, posToOrientation, swapMask] <;> omega

/-- The leaf reached from the identifier of a non-leaf cell: digit 2, then zeros. -/
theorem ijOf_mid {n o : Nat} (ho : o < 4) :
    ijOf (n + 1) o (2 * 4 ^ n) = (if o < 2 then 2 ^ n else 2 ^ n - 1, if o < 2 then 2 ^ n else 2 ^ n - 1,
      o ^^^ (n % 2)) := by
  have h1 : 2 * 4 ^ n / 4 ^ n = 2 := Nat.mul_div_cancel _ (pow4_pos n)
  have h2 : 2 * 4 ^ n % 4 ^ n = 0 := Nat.mul_mod_left _ _
  have hx : ori o 2 < 4 := (dig_quad o ho 2 (by omega)).2.2.2
  simp only [ijOf, h1, h2, ijOf_zero _ _ hx]
  interval_cases o <;> simp [quad, ori, posToIJ, posToOrientation]

/-- Offset, from its square's lower corner, of the leaf that represents a cell of size `2^m`. -/
def cOff (m o : Nat) : Nat := if m = 0 then 0 else if o < 2 then 2 ^ (m - 1) else 2 ^ (m - 1) - 1

theorem lsb_mask_even : ∀ m, m ≤ 30 →
    ((BitVec.ofNat 64 (4 ^ m) &&& 0x1111111111111110#64 ≠ 0#64) ↔ (m % 2 = 0 ∧ m ≠ 0)) := by decide

theorem div_mod_face (p k : Nat) : p = p / 4 ^ k * 4 ^ k + p % 4 ^ k := by
  rw [Nat.mul_comm]; exact (Nat.div_add_mod p (4 ^ k)).symm

theorem faceIJ_mk {k p : Nat} (h : IsCell k p) :
    (mk k p).faceIJOrientation = some (p / 4 ^ k,
      (((ijOf k (p / 4 ^ k % 2) (p % 4 ^ k)).1 * 2 ^ (30 - k) +
        cOff (30 - k) (ijOf k (p / 4 ^ k % 2) (p % 4 ^ k)).2.2 : Nat) : Int),
      (((ijOf k (p / 4 ^ k % 2) (p % 4 ^ k)).2.1 * 2 ^ (30 - k) +
        cOff (30 - k) (ijOf k (p / 4 ^ k % 2) (p % 4 ^ k)).2.2 : Nat) : Int),
      (ijOf k (p / 4 ^ k % 2) (p % 4 ^ k)).2.2) := by
  have hf := face_lt h
  have hloop := faceIJLoop_main lookupIJ_isTbl (c := mk k p) (o := p / 4 ^ k % 2) (Nat.mod_lt _ (by omega))
  obtain ⟨hk, hp⟩ := h
  have hmod := Nat.mod_lt p (pow4_pos k)
  obtain ⟨m, hm⟩ : ∃ m, m + k = 30 := ⟨30 - k, by omega⟩
  have hkm : 30 - k = m := by omega
  have hE : E k = 4 ^ m := by rw [E, hkm]
  have hpE := pow_mul_E hk
  have hdm := div_mod_face p k
  have hq : (mk k p).id.toNat / 2 % 4 ^ 30 = p % 4 ^ k * 4 ^ m + 4 ^ m / 2 := by
    rw [toNat_mk ⟨hk, hp⟩, W_eq]
    rw [hE] at hpE ⊢
    have e1 : p * 4 ^ m = p / 4 ^ k * W₀ + p % 4 ^ k * 4 ^ m := by
      conv_lhs => rw [hdm]
      rw [Nat.add_mul, Nat.mul_assoc, hpE]
    have e2 : p % 4 ^ k * 4 ^ m + 4 ^ m ≤ W₀ := by
      rw [← hpE]
      calc p % 4 ^ k * 4 ^ m + 4 ^ m = (p % 4 ^ k + 1) * 4 ^ m := by rw [Nat.add_mul, Nat.one_mul]
        _ ≤ _ := Nat.mul_le_mul_right _ hmod
    rw [e1]
    generalize p % 4 ^ k * 4 ^ m = u at *
    have := pow4_pos m
    omega
  have hlsb := lsb_mk ⟨hk, hp⟩
  have hlast : (p % 4 ^ k * 4 ^ m + 4 ^ m / 2) < 4 ^ (k + m) := by
    rw [Nat.pow_add]
    have : (p % 4 ^ k + 1) * 4 ^ m ≤ 4 ^ k * 4 ^ m := Nat.mul_le_mul_right _ hmod
    rw [Nat.add_mul, Nat.one_mul] at this
    have := pow4_pos m
    omega
  have hhalf : 4 ^ m / 2 < 4 ^ m := by have := pow4_pos m; omega
  have hsplit := ijOf_add' (m := k) (n := m) (o := p / 4 ^ k % 2) hlast
  rw [add_div_pow hhalf, add_mod_pow hhalf, show k + m = 30 by omega] at hsplit
  have ho := (ijOf_lt k (p / 4 ^ k % 2) _ (by omega) hmod).2.2
  unfold CellID.faceIJOrientation
  simp only [face_mk ⟨hk, hp⟩, and1]
  rw [show maxLevel - 7 * lookupBits = 2 from rfl, hloop, hq, hsplit, hlsb, hE, hkm]
  generalize ijOf k (p / 4 ^ k % 2) (p % 4 ^ k) = r at *
  obtain ⟨a, b, o⟩ := r
  simp only at *
  have hmask := lsb_mask_even m (by omega)
  rcases m with _ | m
  · simp [ijOf, cOff]
  · have h42 : 4 ^ (m + 1) / 2 = 2 * 4 ^ m := by rw [Nat.pow_succ]; omega
    rw [h42, ijOf_mid ho]
    have hx : (if BitVec.ofNat 64 (4 ^ (m + 1)) &&& 1229782938247303440#64 ≠ 0#64 then
        o ^^^ m % 2 ^^^ swapMask else o ^^^ m % 2) = o := by
      have h2 : m % 2 = 0 ∨ m % 2 = 1 := by omega
      rcases h2 with h | h
      · rw [if_neg (by rw [hmask]; omega), h]; simp
      · rw [if_pos (by rw [hmask]; omega), h, show swapMask = 1 from rfl, Nat.xor_assoc]; simp
    simp only [Option.bind_eq_bind, Option.bind_some]
    rw [hx]
    simp [cOff]

end Verif
