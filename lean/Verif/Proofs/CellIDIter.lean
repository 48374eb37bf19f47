import Mathlib.Tactic.Ring
import Mathlib.Tactic.Linarith
import Verif.Proofs.CellIDTree

/-! Helper lemmas: iteration over descendants, steps with counts, common ancestors. -/

namespace Verif
open Rust Spec

theorem pow_E_le {k p : Nat} (hk : k ≤ 30) (hp : p ≤ 6 * 4 ^ k) : p * E k ≤ 6 * W₀ := by
  have := Nat.mul_le_mul_right (E k) hp
  rwa [last_num hk] at this

/-- Numbers of cells and of the end marker of a level. -/
theorem toNat_mk' {k p : Nat} (hk : k ≤ 30) (hp : p ≤ 6 * 4 ^ k) :
    (mk k p).id.toNat = 2 * (p * E k) + E k := by
  have h1 := pow_E_le hk hp
  have := E_le_W k
  rw [mk, Bits.ofNat_toNat_of_lt (by rw [cellNum_eq]; omega), cellNum_eq]

theorem childBeginAtLevel_mk {k p l : Nat} (h : IsCell k p) (hl : k ≤ l) (hl' : l ≤ 30) :
    (mk k p).childBeginAtLevel l = some (mk l (p * 4 ^ (l - k))) := by
  have hb := cellNum_lt h
  have hW := E_le_W l
  have hs := E_split hl hl'
  simp only [CellID.childBeginAtLevel, level_mk h, Option.bind_eq_bind, Option.bind_some, assert, hl,
    decide_true, if_true, lsb_mk h, lsbForLevel_eq hl']
  simp only [mk]
  rw [cellNum_eq] at hb ⊢
  rw [sub_ofNat (by omega) (by omega)]
  simp only [Option.bind_some]
  rw [add_ofNat (by omega)]
  simp only [Option.bind_some]
  congr 3
  rw [cellNum_eq, Nat.mul_assoc, ← hs]; omega

theorem childEndAtLevel_mk {k p l : Nat} (h : IsCell k p) (hl : k ≤ l) (hl' : l ≤ 30) :
    (mk k p).childEndAtLevel l = some (mk l (p * 4 ^ (l - k) + 4 ^ (l - k))) := by
  have hb := cell_bound h
  have hW := E_le_W l
  have hs := E_split hl hl'
  simp only [CellID.childEndAtLevel, level_mk h, Option.bind_eq_bind, Option.bind_some, assert, hl,
    decide_true, if_true, lsb_mk h, lsbForLevel_eq hl']
  simp only [mk]
  rw [cellNum_eq]
  rw [add_ofNat (by omega)]
  simp only [Option.bind_some]
  rw [add_ofNat (by omega)]
  simp only [Option.bind_some]
  congr 3
  rw [cellNum_eq, Nat.add_mul, Nat.mul_assoc, ← hs]; omega

theorem collect_range {l : Nat} (hl : l ≤ 30) : ∀ (n a : Nat), a + n ≤ 6 * 4 ^ l →
    CellID.Iter.collect ⟨mk l a, mk l (a + n)⟩ = some ((List.range' a n).map (mk l)) := by
  intro n
  induction n with
  | zero =>
    intro a _
    rw [CellID.Iter.collect]
    simp [CellID.Iter.next]
  | succ n ih =>
    intro a ha
    have hE := E_pos l
    have ne : mk l a ≠ mk l (a + (n + 1)) := by
      intro e
      have h1 := toNat_mk' hl (show a ≤ 6 * 4 ^ l by omega)
      have h2 := toNat_mk' hl ha
      rw [e, h2] at h1
      have := Nat.eq_of_mul_eq_mul_right hE (show (a + (n + 1)) * E l = a * E l by omega)
      omega
    have hc : IsCell l a := ⟨hl, by omega⟩
    rw [CellID.Iter.collect]
    simp only [CellID.Iter.next, ne, if_false, next_raw hc, Option.bind_eq_bind, Option.bind_some]
    have := ih (a + 1) (by omega)
    rw [show a + 1 + n = a + (n + 1) by omega] at this
    rw [this]
    simp [List.range'_succ]

theorem childBegin_mk {k p : Nat} (h : IsCell k p) (hk : k < 30) :
    (mk k p).childBegin = some (mk (k + 1) (4 * p)) := by
  have hb := cellNum_lt h
  have h4 := E_succ (show k + 1 ≤ 30 by omega)
  have hW := E_le_W k
  simp only [CellID.childBegin, lsb_mk h, Option.bind_eq_bind, Option.bind_some]
  rw [ushiftRight_ofNat (by omega), show E k / 2 ^ 2 = E (k + 1) by omega]
  simp only [mk]
  rw [cellNum_eq] at hb ⊢
  rw [sub_ofNat (by omega) (by omega)]
  simp only [Option.bind_some]
  rw [add_ofNat (by omega)]
  simp only [Option.bind_some]
  congr 3
  rw [cellNum_eq, h4]; ring_nf; omega

theorem childEnd_mk {k p : Nat} (h : IsCell k p) (hk : k < 30) :
    (mk k p).childEnd = some (mk (k + 1) (4 * p + 4)) := by
  have hb := cell_bound h
  have h4 := E_succ (show k + 1 ≤ 30 by omega)
  have hW := E_le_W k
  simp only [CellID.childEnd, lsb_mk h, Option.bind_eq_bind, Option.bind_some]
  rw [ushiftRight_ofNat (by omega), show E k / 2 ^ 2 = E (k + 1) by omega]
  simp only [mk]
  rw [cellNum_eq]
  rw [add_ofNat (by omega)]
  simp only [Option.bind_some]
  rw [add_ofNat (by omega)]
  simp only [Option.bind_some]
  congr 3
  rw [cellNum_eq, h4]; ring

/-! ### Steps with counts -/

theorem two_pow_shift (k : Nat) : 2 ^ (2 * (30 - k) + 1) = 2 * E k := by
  rw [Nat.pow_succ, ← E_eq, Nat.mul_comm]

theorem shr_pos {k p : Nat} (h : IsCell k p) :
    shr (mk k p).id (2 * (30 - k) + 1) = some (BitVec.ofNat 64 p) := by
  have hb := cellNum_lt h
  have hE := E_pos k
  rw [mk, shr_ofNat (by omega) (by omega), two_pow_shift, cellNum_eq]
  congr 2
  rw [Nat.div_eq_iff (by omega)]
  have : p * (2 * E k) = 2 * (p * E k) := by ring
  omega

theorem shr_wrap {k : Nat} (hk : k ≤ 30) :
    shr wrapOffset (2 * (30 - k) + 1) = some (BitVec.ofNat 64 (6 * 4 ^ k)) := by
  have hE := E_pos k
  rw [wrapOffset_eq, shr_ofNat (by omega) (by omega), two_pow_shift]
  congr 2
  rw [show 12 * W₀ = 6 * 4 ^ k * (2 * E k) by
    rw [show 6 * 4 ^ k * (2 * E k) = 2 * (6 * 4 ^ k * E k) by ring, last_num hk]]
  exact Nat.mul_div_cancel _ (by omega)

theorem pow4_le {k : Nat} (hk : k ≤ 30) : 4 ^ k ≤ W₀ := by
  rw [← W_eq]; exact Nat.pow_le_pow_right (by decide) hk

theorem toInt_ofNat_small {n : Nat} (h : n < 2 ^ 63) : (BitVec.ofNat 64 n).toInt = n := by
  rw [BitVec.toInt_eq_toNat_cond, Bits.ofNat_toNat_of_lt (by omega)]
  rw [if_pos (by omega)]

theorem ofInt_shl (t : Int) (n : Nat) :
    (BitVec.ofInt 64 t) <<< n = BitVec.ofInt 64 (t * 2 ^ n) := by
  rw [BitVec.shiftLeft_eq_mul_twoPow, BitVec.ofInt_mul]
  congr 1
  apply BitVec.eq_of_toNat_eq
  rw [BitVec.toNat_twoPow]
  have : (BitVec.ofInt 64 ((2:Int) ^ n)) = BitVec.ofNat 64 (2 ^ n) := by
    rw [← BitVec.ofInt_natCast]; simp
  rw [this, BitVec.toNat_ofNat]

/-- Adding `t` cell widths. -/
theorem add_steps {k p : Nat} (hk : k ≤ 30) (t : Int) (h0 : 0 ≤ (p : Int) + t) :
    (CellID.mk ((mk k p).id + (BitVec.ofInt 64 t) <<< (2 * (30 - k) + 1)))
      = mk k ((p : Int) + t).toNat := by
  rw [ofInt_shl]
  simp only [mk]
  congr 1
  rw [← BitVec.ofInt_natCast, ← BitVec.ofInt_add, ← BitVec.ofInt_natCast]
  congr 1
  have e : ((2:Int) ^ (2 * (30 - k) + 1)) = 2 * (E k : Int) := by
    have := two_pow_shift k
    exact_mod_cast congrArg (Nat.cast : Nat → Int) this
  rw [e, cellNum_eq, cellNum_eq]
  push_cast
  rw [Int.toNat_of_nonneg h0]
  ring

theorem i64_some {x : Int} (h1 : -2 ^ 63 ≤ x) (h2 : x < 2 ^ 63) : i64 x = some x := by
  rw [i64, if_pos ⟨h1, h2⟩]

theorem shl_some {a : U64} {n : Nat} (h : n < 64) : shl a n = some (a <<< n) := by
  rw [shl, if_pos h]

theorem advanceWrap_mk {k p : Nat} (h : IsCell k p) (s : Int) (h1 : -2 ^ 63 ≤ s) (h2 : s < 2 ^ 63) :
    (mk k p).advanceWrap s = some (mk k (((p : Int) + s) % (6 * 4 ^ k : Nat)).toNat) := by
  have hk := h.1
  have hp := h.2
  have hE := E_pos k
  have h4 := pow4_le hk
  have hN : 0 < 6 * 4 ^ k := by omega
  have hb := cell_bound h
  have hns : natSub maxLevel k = some (30 - k) := by simp [natSub, maxLevel, hk]
  generalize hNN : 6 * 4 ^ k = N at *
  have hmod : ∀ m t : Int, s = t + N * m → 0 ≤ (p:Int) + t → (p:Int) + t < N →
      ((p : Int) + s) % (N : Nat) = (p:Int) + t := by
    intro m t e a b
    rw [e, ← Int.add_assoc, Int.add_mul_emod_self_left]
    exact Int.emod_eq_of_lt a b
  unfold CellID.advanceWrap
  by_cases hs0 : s = 0
  · subst hs0
    simp only [if_true]
    rw [hmod 0 0 (by simp) (by omega) (by omega)]
    simp
  rw [if_neg hs0]
  simp only [level_mk h, Option.bind_eq_bind, Option.bind_some, hns]
  have fin : ∀ t : Int, (∃ m, s = t + N * m) → 0 ≤ (p:Int) + t → (p:Int) + t < N →
      ((shl (BitVec.ofInt 64 t) (2 * (30 - k) + 1)).bind fun x => some (CellID.mk ((mk k p).id + x)))
      = some (mk k (((p : Int) + s) % (N : Nat)).toNat) := by
    rintro t ⟨m, e⟩ a b
    rw [shl_some (by omega)]
    simp only [Option.bind_some]
    rw [add_steps hk t a, hmod m t e a b]
  have hremok : ¬ ((N:Int) = 0 ∨ (s = -2 ^ 63 ∧ (N:Int) = -1)) := by omega
  have hdm : s = s.tmod N + N * s.tdiv N := (Int.tmod_add_mul_tdiv s N).symm
  by_cases hneg : s < 0
  · rw [if_pos hneg]
    simp only [shr_pos h, Option.bind_some, toInt_ofNat_small (show p < 2 ^ 63 by omega)]
    rw [i64_some (by omega) (by omega)]
    simp only [Option.bind_some]
    by_cases hlt : s < -(p:Int)
    · rw [if_pos hlt]
      simp only [shr_wrap hk, hNN, Option.bind_some, toInt_ofNat_small (show N < 2 ^ 63 by omega),
        i64Rem, hremok, if_false]
      have b1 : s.tmod N ≤ 0 := by
        have e1 := Int.neg_tmod s N
        have e2 : 0 ≤ (-s).tmod N := Int.tmod_nonneg _ (by omega)
        omega
      have b2 : -(N:Int) < s.tmod N := by
        have := Int.lt_tmod_of_pos s (show (0:Int) < N by omega); omega
      by_cases hlt2 : s.tmod N < -(p:Int)
      · rw [if_pos hlt2, i64_some (by omega) (by omega)]
        simp only [Option.bind_some]
        exact fin _ ⟨s.tdiv N - 1, by rw [Int.mul_sub]; omega⟩ (by omega) (by omega)
      · rw [if_neg hlt2]
        simp only [Option.bind_some]
        exact fin _ ⟨s.tdiv N, by omega⟩ (by omega) (by omega)
    · rw [if_neg hlt]
      simp only [Option.bind_some]
      exact fin s ⟨0, by simp⟩ (by omega) (by omega)
  · rw [if_neg hneg]
    have hsub : sub wrapOffset (mk k p).id = some (BitVec.ofNat 64 (12 * W₀ - cellNum k p)) := by
      rw [wrapOffset_eq, mk]
      exact sub_ofNat (by omega) (Nat.le_of_lt (cellNum_lt h))
    have hshr : shr (BitVec.ofNat 64 (12 * W₀ - cellNum k p)) (2 * (30 - k) + 1)
        = some (BitVec.ofNat 64 (N - p - 1)) := by
      rw [shr_ofNat (by omega) (by omega), two_pow_shift]
      congr 2
      rw [Nat.div_eq_iff (by omega), cellNum_eq]
      have hl := last_num hk
      rw [hNN] at hl
      have e1 : (N - p - 1) * (2 * E k) = 2 * (N * E k) - 2 * (p * E k) - 2 * E k := by
        rw [Nat.sub_mul, Nat.sub_mul, Nat.one_mul]
        congr 2 <;> ring
      rw [e1, hl]
      omega
    simp only [hsub, hshr, Option.bind_some, toInt_ofNat_small (show N - p - 1 < 2 ^ 63 by omega)]
    by_cases hgt : s > ((N - p - 1 : Nat) : Int)
    · rw [if_pos hgt]
      simp only [shr_wrap hk, hNN, Option.bind_some, toInt_ofNat_small (show N < 2 ^ 63 by omega),
        i64Rem, hremok, if_false]
      have b1 : 0 ≤ s.tmod N := Int.tmod_nonneg _ (by omega)
      have b2 : s.tmod N < N := Int.tmod_lt_of_pos _ (by omega)
      by_cases hgt2 : s.tmod N > ((N - p - 1 : Nat) : Int)
      · rw [if_pos hgt2, i64_some (by omega) (by omega)]
        simp only [Option.bind_some]
        exact fin _ ⟨s.tdiv N + 1, by rw [Int.mul_add]; omega⟩ (by omega) (by omega)
      · rw [if_neg hgt2]
        simp only [Option.bind_some]
        exact fin _ ⟨s.tdiv N, by omega⟩ (by omega) (by omega)
    · rw [if_neg hgt]
      simp only [Option.bind_some]
      exact fin s ⟨0, by simp⟩ (by omega) (by omega)

theorem distanceFromBegin_mk {k p : Nat} (h : IsCell k p) :
    (mk k p).distanceFromBegin = some (p : Int) := by
  have hk := h.1
  have hp := h.2
  have h4 := pow4_le hk
  have hns : natSub maxLevel k = some (30 - k) := by simp [natSub, maxLevel, hk]
  simp only [CellID.distanceFromBegin, level_mk h, Option.bind_eq_bind, Option.bind_some, hns,
    shr_pos h]
  rw [toInt_ofNat_small (by omega)]

/-- `advance` saturates. -/
theorem advance_mk {k p : Nat} (h : IsCell k p) (s : Int) :
    (mk k p).advance s = some (mk k (max 0 (min ((6 * 4 ^ k : Nat) : Int) ((p : Int) + s))).toNat) := by
  have hk := h.1
  have hp := h.2
  have hE := E_pos k
  have hEW := E_le_W k
  have h4 := pow4_le hk
  have hb := cell_bound h
  have hns : natSub maxLevel k = some (30 - k) := by simp [natSub, maxLevel, hk]
  generalize hNN : 6 * 4 ^ k = N at *
  unfold CellID.advance
  by_cases hs0 : s = 0
  · subst hs0
    simp only [if_true]
    congr 2; omega
  rw [if_neg hs0]
  simp only [level_mk h, Option.bind_eq_bind, Option.bind_some, hns]
  have fin : ∀ t : Int, (p:Int) + t = max 0 (min (N : Int) ((p : Int) + s)) →
      ((shl (BitVec.ofInt 64 t) (2 * (30 - k) + 1)).bind fun x => some (CellID.mk ((mk k p).id + x)))
      = some (mk k (max 0 (min (N : Int) ((p : Int) + s))).toNat) := by
    intro t e
    rw [shl_some (by omega)]
    simp only [Option.bind_some]
    rw [add_steps hk t (by omega), e]
  by_cases hneg : s < 0
  · rw [if_pos hneg]
    simp only [shr_pos h, Option.bind_some, toInt_ofNat_small (show p < 2 ^ 63 by omega)]
    rw [i64_some (by omega) (by omega)]
    simp only [Option.bind_some]
    apply fin
    split <;> omega
  · rw [if_neg hneg]
    have hadd : add wrapOffset (BitVec.ofNat 64 (E k)) = some (BitVec.ofNat 64 (12 * W₀ + E k)) := by
      rw [wrapOffset_eq]; exact add_ofNat (by omega)
    have hsub : sub (BitVec.ofNat 64 (12 * W₀ + E k)) (mk k p).id
        = some (BitVec.ofNat 64 (12 * W₀ + E k - cellNum k p)) := by
      rw [mk]
      have := cellNum_lt h
      exact sub_ofNat (by omega) (by omega)
    have hshr : shr (BitVec.ofNat 64 (12 * W₀ + E k - cellNum k p)) (2 * (30 - k) + 1)
        = some (BitVec.ofNat 64 (N - p)) := by
      rw [shr_ofNat (by omega) (by omega), two_pow_shift]
      congr 2
      rw [Nat.div_eq_iff (by omega), cellNum_eq]
      have hl := last_num hk
      rw [hNN] at hl
      have e1 : (N - p) * (2 * E k) = 2 * (N * E k) - 2 * (p * E k) := by
        rw [Nat.sub_mul]
        congr 1 <;> ring
      rw [e1, hl]
      omega
    simp only [lsb_mk h, hadd, hsub, hshr, Option.bind_some,
      toInt_ofNat_small (show N - p < 2 ^ 63 by omega)]
    apply fin
    split <;> omega

end Verif
