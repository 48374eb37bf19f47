import Verif.Proofs.Square
import Mathlib.Tactic.IntervalCases

/-! # Continuity of the curve -/

namespace Verif
open Rust Spec CellID

/-- The last position of a square. -/
theorem ijOf_last : ∀ (n o : Nat), o < 4 →
    (ijOf n o (4 ^ n - 1)).1 = (if o = 0 ∨ o = 3 then 2 ^ n - 1 else 0) ∧
    (ijOf n o (4 ^ n - 1)).2.1 = (if o = 0 ∨ o = 3 then 0 else 2 ^ n - 1) := by
  intro n
  induction n with
  | zero => intro o ho; simp [ijOf]
  | succ n ih =>
    intro o ho
    have h4 := pow4_pos n
    have h2 := pow2_pos n
    have e : 4 ^ (n + 1) - 1 = 3 * 4 ^ n + (4 ^ n - 1) := by rw [Nat.pow_succ]; omega
    have h1 : (4 ^ (n + 1) - 1) / 4 ^ n = 3 := by rw [e, add_div_pow (by omega)]
    have h3 : (4 ^ (n + 1) - 1) % 4 ^ n = 4 ^ n - 1 := by rw [e, add_mod_pow (by omega)]
    have hx : ori o 3 < 4 := (dig_quad o ho 3 (by omega)).2.2.2
    have := ih (ori o 3) hx
    simp only [ijOf, h1, h3, this]
    rw [Nat.pow_succ]
    interval_cases o <;> simp [quad, ori, posToIJ, posToOrientation, swapMask, invertMask] <;> omega

/-- Two squares of a grid are side by side. -/
def Adj (i j i' j' : Nat) : Prop :=
  (i = i' ∧ (j = j' + 1 ∨ j' = j + 1)) ∨ (j = j' ∧ (i = i' + 1 ∨ i' = i + 1))

theorem ijOf_cont : ∀ (n o p : Nat), o < 4 → p + 1 < 4 ^ n →
    Adj (ijOf n o p).1 (ijOf n o p).2.1 (ijOf n o (p + 1)).1 (ijOf n o (p + 1)).2.1 := by
  intro n
  induction n with
  | zero => intro o p ho hp; simp at hp
  | succ n ih =>
    intro o p ho hp
    have h4 := pow4_pos n
    have h2 := pow2_pos n
    have hd : p / 4 ^ n < 4 := div_pow4_lt (by omega)
    have hdm := div_mod_face p n
    have hm := Nat.mod_lt p h4
    have hx : ori o (p / 4 ^ n) < 4 := (dig_quad o ho _ hd).2.2.2
    by_cases hc : p % 4 ^ n + 1 < 4 ^ n
    · have e1 : (p + 1) / 4 ^ n = p / 4 ^ n := by
        conv_lhs => rw [hdm, Nat.add_assoc, add_div_pow hc]
      have e2 : (p + 1) % 4 ^ n = p % 4 ^ n + 1 := by
        conv_lhs => rw [hdm, Nat.add_assoc, add_mod_pow hc]
      have := ih (ori o (p / 4 ^ n)) (p % 4 ^ n) hx hc
      simp only [ijOf, e1, e2]
      unfold Adj at *
      omega
    · have e0 : p % 4 ^ n = 4 ^ n - 1 := by omega
      have ep : p + 1 = (p / 4 ^ n + 1) * 4 ^ n + 0 := by rw [Nat.add_mul]; omega
      have e1 : (p + 1) / 4 ^ n = p / 4 ^ n + 1 := by rw [ep, add_div_pow h4]
      have e2 : (p + 1) % 4 ^ n = 0 := by rw [ep, add_mod_pow h4]
      have hd' : p / 4 ^ n + 1 < 4 := by
        have : (p + 1) / 4 ^ n < 4 := div_pow4_lt hp
        omega
      have hx' : ori o (p / 4 ^ n + 1) < 4 := (dig_quad o ho _ hd').2.2.2
      have l1 := ijOf_last n _ hx
      have l2 := ijOf_zero n _ hx'
      simp only [ijOf, e1, e2, e0, l1, l2]
      generalize p / 4 ^ n = d at *
      unfold Adj
      interval_cases o <;> interval_cases d <;>
        simp [quad, ori, posToIJ, posToOrientation, swapMask, invertMask] <;> omega


/-! ## Squares -/

theorem valid_leaf_exists {f i j : Nat} (hf : f < 6) (hi : i < 1073741824) (hj : j < 1073741824) :
    ∃ l, Valid l ∧ l.level = some 30 ∧ LeafAt l f i j := by
  have h := cellAt_facts hf (le_refl 30) hi hj
  refine ⟨cellAt f 30 i j, h.1, ?_, ?_⟩
  · rw [h.1.level, h.2.1]
  · rw [leafAt_iff h.1 h.2.1]
    simp [h.2.2.1, h.2.2.2.1, h.2.2.2.2]

theorem Valid.sr_bound {c : CellID} (h : Valid c) :
    (sr c).1 * ss c + ss c ≤ 1073741824 ∧ (sr c).2.1 * ss c + ss c ≤ 1073741824 := by
  have h1 := h.sr_lt
  have h2 := h.ss_mul
  have m1 := Nat.mul_le_mul_right (ss c) (show (sr c).1 + 1 ≤ 2 ^ lv c by omega)
  have m2 := Nat.mul_le_mul_right (ss c) (show (sr c).2.1 + 1 ≤ 2 ^ lv c by omega)
  rw [Nat.add_mul, Nat.one_mul, h2] at m1 m2
  exact ⟨m1, m2⟩

/-- Every valid cell is a square. -/
theorem Valid.square {c : CellID} (h : Valid c) :
    Square c (sf c) ((sr c).1 * ss c : Nat) ((sr c).2.1 * ss c : Nat) (ss c : Nat) := by
  have hb := h.sr_bound
  have hp := ss_pos c
  refine ⟨h.sf_lt, by omega, by omega, by unfold side; omega, by omega, by unfold side; omega, ?_⟩
  intro l g i j hl hlev hat
  have hlv := lv_of_level hlev
  rw [leafAt_iff hl hlv] at hat
  obtain ⟨rfl, rfl, rfl⟩ := hat
  rw [contains_cell_iff h hl (by rw [hlv]; exact h.lv_le), leaf_ss hlv, Nat.mul_one, Nat.mul_one,
    Nat.div_eq_iff hp, Nat.div_eq_iff hp]
  constructor
  · rintro ⟨h1, h2, h3⟩
    exact ⟨h1, by omega, by omega, by omega, by omega⟩
  · rintro ⟨h1, h2, h3, h4, h5⟩
    exact ⟨h1, by omega, by omega⟩

/-- A cell has one square only. -/
theorem square_unique {c : CellID} {f g : Nat} {i j s i' j' s' : Int} (h : Square c f i j s)
    (h' : Square c g i' j' s') : g = f ∧ i' = i ∧ j' = j ∧ s' = s := by
  have key : ∀ {f g : Nat} {i j s i' j' s' : Int}, Square c f i j s → Square c g i' j' s' →
      ∀ a b : Int, i ≤ a → a < i + s → j ≤ b → b < j + s →
        f = g ∧ i' ≤ a ∧ a < i' + s' ∧ j' ≤ b ∧ b < j' + s' := by
    intro f g i j s i' j' s' h h' a b h1 h2 h3 h4
    have := h.i_lo; have := h.j_lo; have := h.i_hi; have := h.j_hi
    unfold side at *
    obtain ⟨l, hl, hlev, hat⟩ := valid_leaf_exists (i := a.toNat) (j := b.toNat) h.face (by omega) (by omega)
    rw [Int.toNat_of_nonneg (by omega), Int.toNat_of_nonneg (by omega)] at hat
    exact (h'.leaves l f a b hl hlev hat).1 ((h.leaves l f a b hl hlev hat).2 ⟨rfl, h1, h2, h3, h4⟩)
  have p1 := h.pos
  have p2 := h'.pos
  have k1 := key h h' i j (by omega) (by omega) (by omega) (by omega)
  have k2 := key h h' (i + s - 1) (j + s - 1) (by omega) (by omega) (by omega) (by omega)
  have k3 := key h' h i' j' (by omega) (by omega) (by omega) (by omega)
  have k4 := key h' h (i' + s' - 1) (j' + s' - 1) (by omega) (by omega) (by omega) (by omega)
  exact ⟨k3.1, by omega, by omega, by omega⟩

/-- Consecutive positions. -/
theorem sr_next {c d : CellID} (hl : lv d = lv c) (hp : px d = px c + 1)
    (hf : sf d = sf c) : Adj (sr c).1 (sr c).2.1 (sr d).1 (sr d).2.1 := by
  have e1 := div_mod_face (px c) (lv c)
  have e2 := div_mod_face (px d) (lv c)
  have hf' : px d / 4 ^ lv c = px c / 4 ^ lv c := by
    have := hf; unfold sf at this; rw [hl] at this; exact this
  have hm := Nat.mod_lt (px d) (pow4_pos (lv c))
  have hmod : px d % 4 ^ lv c = px c % 4 ^ lv c + 1 := by rw [hf'] at e2; omega
  have := ijOf_cont (lv c) (sf c % 2) (px c % 4 ^ lv c) (by omega) (by omega)
  rw [sr, sr, hl, hf, hmod]
  exact this

/-- Last cell of a face. -/
theorem sr_last {c : CellID} (h : px c % 4 ^ lv c = 4 ^ lv c - 1) :
    (sr c).1 = (if sf c % 2 = 0 then 2 ^ lv c - 1 else 0) ∧
    (sr c).2.1 = (if sf c % 2 = 0 then 0 else 2 ^ lv c - 1) := by
  have := ijOf_last (lv c) (sf c % 2) (by omega)
  rw [sr, h]
  rw [this.1, this.2]
  have : sf c % 2 ≠ 3 := by omega
  simp [this]

/-- First cell of a face. -/
theorem sr_first {c : CellID} (h : px c % 4 ^ lv c = 0) : (sr c).1 = 0 ∧ (sr c).2.1 = 0 := by
  have := ijOf_zero (lv c) (sf c % 2) (by omega)
  rw [sr, h, this]
  have : sf c % 2 < 2 := by omega
  simp [this]

theorem corner_of {c : CellID} {f : Nat} {i j s : Int} (h : Square c f i j s) (a b : Int)
    (ha : a = i ∨ a = i + s) (hb : b = j ∨ b = j + s) : IsCorner c (cubePt f a b) :=
  ⟨f, i, j, s, a - i, b - j, h, by omega, by omega, by congr 1 <;> omega⟩

end Verif
