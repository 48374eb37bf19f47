import Mathlib.Tactic.Ring
import Verif.Proofs.CellIDBasic

/-! Helper lemmas: validity, containment, children, iteration, steps along the curve. -/

namespace Verif
open Rust Spec

theorem exists_odd_mul : ∀ n : Nat, 0 < n → ∃ p t, n = (2 * p + 1) * 2 ^ t := by
  intro n
  induction n using Nat.strongRecOn with
  | _ n ih =>
    intro h
    rcases Nat.mod_two_eq_zero_or_one n with h0 | h1
    · obtain ⟨p, t, e⟩ := ih (n / 2) (by omega) (by omega)
      refine ⟨p, t + 1, ?_⟩
      rw [Nat.pow_succ, ← Nat.mul_assoc, ← e]; omega
    · exact ⟨n / 2, 0, by omega⟩

theorem mask_bits : ∀ t < 64,
    (BitVec.ofNat 64 (2 ^ t) &&& 0x1555555555555555#64 ≠ 0#64) ↔ (t % 2 = 0 ∧ t ≤ 60) := by
  decide +kernel

theorem face_eq (c : CellID) : c.face = c.id.toNat / (2 * W₀) := by
  simp only [CellID.face, BitVec.toNat_ushiftRight, Nat.shiftRight_eq_div_pow]
  rfl

theorem isValid_mk {k p : Nat} (h : IsCell k p) : (mk k p).isValid = some true := by
  have hf := face_lt h
  have hk := h.1
  simp only [CellID.isValid, face_mk h, numFaces, hf, if_true, lsb_mk h, Option.bind_eq_bind,
    Option.bind_some]
  congr 1
  have := (mask_bits (2 * (30 - k)) (by omega)).2 (by omega)
  rw [← E_eq] at this
  simpa using this

theorem lsb_none_iff (c : CellID) : c.lsb = none ↔ c.id = 0x8000000000000000#64 := by
  unfold CellID.lsb negI64
  split <;> simp_all

theorem cell_of_valid {c : CellID} (h : c.isValid = some true) :
    ∃ k p, IsCell k p ∧ c = mk k p := by
  obtain ⟨b⟩ := c
  unfold CellID.isValid at h
  by_cases hf : (CellID.mk b).face < numFaces
  case neg => rw [if_neg hf] at h; simp at h
  case pos =>
    rw [if_pos hf] at h
    rw [face_eq, numFaces] at hf
    have hlt : b.toNat < 12 * W₀ := by
      have := (Nat.div_lt_iff_lt_mul (by decide : 0 < 2 * W₀)).1 hf
      simp only at this; omega
    have hb : b = BitVec.ofNat 64 b.toNat := by simp
    generalize hn : b.toNat = n at *
    subst hb
    have hn0 : 0 < n := by
      rcases Nat.eq_zero_or_pos n with h0 | h0
      · subst h0
        have : (CellID.mk (BitVec.ofNat 64 0)).lsb = some 0#64 := by decide
        rw [this] at h
        simp at h
      · exact h0
    obtain ⟨p, t, e⟩ := exists_odd_mul n hn0
    have htt : 2 ^ t ≤ n := by rw [e]; exact Nat.le_mul_of_pos_left _ (by omega)
    have ht : t < 64 := (Nat.pow_lt_pow_iff_right (a := 2) (by decide)).1 (by omega)
    have hne : n ≠ 2 ^ 63 := by
      intro h0
      have : (CellID.mk (BitVec.ofNat 64 n)).lsb = none := by
        rw [lsb_none_iff]; rw [h0]; rfl
      rw [this] at h
      simp at h
    simp only [CellID.lsb] at h
    rw [negI64_ofNat (by omega) hne] at h
    simp only [Option.bind_eq_bind, Option.bind_some] at h
    rw [e, Bits.and_neg_self (by omega)] at h
    have hm := (mask_bits t ht).1 (by simpa using h)
    have et : t = 2 * (30 - (30 - t / 2)) := by omega
    have ee : n = (2 * p + 1) * E (30 - t / 2) := by rw [E_eq, ← et, e]
    refine ⟨30 - t / 2, p, ⟨by omega, ?_⟩, ?_⟩
    · have hw := pow_mul_E (show 30 - t / 2 ≤ 30 by omega)
      rw [ee, ← hw, ← Nat.mul_assoc] at hlt
      have := Nat.lt_of_mul_lt_mul_right hlt
      omega
    · rw [mk, cellNum, ← E, ← ee]

theorem valid_iff_cell (c : CellID) :
    c.isValid = some true ↔ ∃ k p, IsCell k p ∧ c = mk k p := by
  constructor
  · exact cell_of_valid
  · rintro ⟨k, p, h, rfl⟩; exact isValid_mk h

/-- Containment in terms of positions. -/
theorem contains_mk {k p l q : Nat} (h : IsCell k p) (h' : IsCell l q) :
    (mk k p).contains (mk l q)
      = some (decide (p * E k ≤ q * E l ∧ q * E l + E l ≤ p * E k + E k)) := by
  have hk := E_pos k
  have hl := E_pos l
  simp only [CellID.contains, rangeMin_mk h, rangeMax_mk h, Option.bind_eq_bind, Option.bind_some]
  simp only [le_iff_mk (rangeMin_isCell h) h', le_iff_mk h' (rangeMax_isCell h), E_30, Nat.mul_one]
  -- alignment: one of the two lengths divides the other
  have key : (p * E k ≤ q * E l ∧ q * E l + E l ≤ p * E k + E k) ↔
      (2 * (p * E k) + 1 ≤ 2 * (q * E l) + E l ∧
        2 * (q * E l) + E l ≤ 2 * (p * E k + E k - 1) + 1) := by
    constructor
    · intro ⟨a, b⟩; constructor <;> omega
    · intro ⟨a, b⟩
      rcases Nat.lt_or_ge l k with hlk | hlk
      · -- other is strictly larger: E l = 4^(k-l) E k
        exfalso
        have hs := E_split (Nat.le_of_lt hlk) h.1
        have h4 : 4 ^ (k - l) = 4 * 4 ^ (k - l - 1) := by
          rw [← Nat.pow_succ']; congr 1; omega
        have hp4 : 0 < 4 ^ (k - l - 1) := Nat.pow_pos (by decide)
        -- midpoint of the larger cell is a multiple of E k
        have hm : 2 * (q * E l) + E l = 2 * ((2 * (q * 2 + 1) * 4 ^ (k - l - 1)) * E k) := by
          rw [hs, h4]; ring
        generalize (2 * (q * 2 + 1) * 4 ^ (k - l - 1)) = m at hm
        rw [hm] at a b
        have a' : p * E k < m * E k := by omega
        have b' : m * E k < (p + 1) * E k := by rw [Nat.add_mul, Nat.one_mul]; omega
        have := Nat.lt_of_mul_lt_mul_right a'
        have := Nat.lt_of_mul_lt_mul_right b'
        omega
      · have hs := E_split hlk h'.1
        have e1 : p * E k = p * 4 ^ (l - k) * E l := by rw [hs, Nat.mul_assoc]
        have hp4 : 0 < 4 ^ (l - k) := Nat.pow_pos (by decide)
        have a' : p * 4 ^ (l - k) * E l < (q + 1) * E l := by
          rw [Nat.add_mul, Nat.one_mul]; omega
        have a'' := Nat.lt_of_mul_lt_mul_right a'
        have b' : q * E l < (p * 4 ^ (l - k) + 4 ^ (l - k)) * E l := by
          rw [Nat.add_mul, ← e1, ← hs]; omega
        have b'' := Nat.lt_of_mul_lt_mul_right b'
        constructor
        · rw [e1]; exact Nat.mul_le_mul_right _ (by omega)
        · rw [e1]
          have := Nat.mul_le_mul_right (E l) (show q + 1 ≤ p * 4 ^ (l - k) + 4 ^ (l - k) by omega)
          rw [Nat.add_mul, Nat.add_mul, Nat.one_mul, ← hs] at this
          exact this
  by_cases a : 2 * (p * E k) + 1 ≤ 2 * (q * E l) + E l
  · rw [if_pos a]
    simp only [key, a, true_and]
  · rw [if_neg a]
    simp [key, a]

theorem contains_mk_iff {k p l q : Nat} (h : IsCell k p) (h' : IsCell l q) :
    (mk k p).contains (mk l q) = some true ↔ k ≤ l ∧ q / 4 ^ (l - k) = p := by
  have hl := E_pos l
  rw [contains_mk h h']
  simp only [Option.some.injEq, decide_eq_true_eq]
  constructor
  · intro ⟨a, b⟩
    have hEl : E l ≤ E k := by omega
    have hkl : k ≤ l := by
      rcases Nat.lt_or_ge l k with hlk | hlk
      · exfalso
        have hs := E_split (Nat.le_of_lt hlk) h.1
        have : 4 ^ 1 ≤ 4 ^ (k - l) := Nat.pow_le_pow_right (by decide) (by omega)
        have := Nat.mul_le_mul_right (E k) this
        have := E_pos k
        omega
      · exact hlk
    refine ⟨hkl, ?_⟩
    have hs := E_split hkl h'.1
    have hp4 : 0 < 4 ^ (l - k) := Nat.pow_pos (by decide)
    have e1 : p * E k = p * 4 ^ (l - k) * E l := by rw [hs, Nat.mul_assoc]
    have a1 := Nat.le_of_mul_le_mul_right (e1 ▸ a) hl
    have b1 : (q + 1) * E l ≤ (p * 4 ^ (l - k) + 4 ^ (l - k)) * E l := by
      rw [Nat.add_mul, Nat.add_mul, Nat.one_mul, ← e1, ← hs]; exact b
    have b2 := Nat.le_of_mul_le_mul_right b1 hl
    rw [Nat.div_eq_iff hp4]; omega
  · rintro ⟨hkl, e⟩
    have hs := E_split hkl h'.1
    have hp4 : 0 < 4 ^ (l - k) := Nat.pow_pos (by decide)
    rw [Nat.div_eq_iff hp4] at e
    have e1 : p * E k = p * 4 ^ (l - k) * E l := by rw [hs, Nat.mul_assoc]
    constructor
    · rw [e1]; exact Nat.mul_le_mul_right _ (by omega)
    · have := Nat.mul_le_mul_right (E l) (show q + 1 ≤ p * 4 ^ (l - k) + 4 ^ (l - k) by omega)
      rw [Nat.add_mul, Nat.add_mul, Nat.one_mul, ← e1, ← hs] at this
      exact this

theorem intersects_mk {k p l q : Nat} (h : IsCell k p) (h' : IsCell l q) :
    (mk k p).intersects (mk l q)
      = some (decide (q * E l < p * E k + E k ∧ p * E k < q * E l + E l)) := by
  have hk := E_pos k
  have hl := E_pos l
  simp only [CellID.intersects, rangeMin_mk h, rangeMax_mk h, rangeMin_mk h', rangeMax_mk h',
    Option.bind_eq_bind, Option.bind_some]
  simp only [le_iff_mk (rangeMin_isCell h') (rangeMax_isCell h),
    le_iff_mk (rangeMin_isCell h) (rangeMax_isCell h'), E_30, Nat.mul_one]
  split
  · congr 1; rw [decide_eq_decide]; omega
  · congr 1; simp; omega

theorem children_mk {k p : Nat} (h : IsCell k p) (hk : k < 30) :
    (mk k p).children
      = some [mk (k + 1) (4 * p), mk (k + 1) (4 * p + 1), mk (k + 1) (4 * p + 2),
          mk (k + 1) (4 * p + 3)] := by
  have hb := cellNum_lt h
  have hc := cell_bound h
  have h4 := E_succ (show k + 1 ≤ 30 by omega)
  have hW := E_le_W k
  have hp := E_pos (k + 1)
  have es : ∀ i, i < 4 → cellNum (k + 1) (4 * p + i) = 2 * (p * E k) + (2 * i + 1) * E (k + 1) := by
    intro i hi
    rw [cellNum_eq, h4]; ring
  simp only [CellID.children, lsb_mk h, Option.bind_eq_bind, Option.bind_some]
  rw [ushiftRight_ofNat (by omega), ushiftRight_ofNat (by omega)]
  rw [show E k / 2 ^ 2 = E (k + 1) by omega, show E k / 2 ^ 1 = 2 * E (k + 1) by omega]
  simp only [mk]
  rw [cellNum_eq] at hb ⊢
  rw [sub_ofNat (by omega) (by omega)]
  simp only [Option.bind_some]
  rw [add_ofNat (by omega)]
  simp only [Option.bind_some]
  rw [add_ofNat (by omega)]
  simp only [Option.bind_some]
  rw [add_ofNat (by omega)]
  simp only [Option.bind_some]
  rw [add_ofNat (by omega)]
  simp only [Option.bind_some]
  have e0 := es 0 (by omega)
  have e1 := es 1 (by omega)
  have e2 := es 2 (by omega)
  have e3 := es 3 (by omega)
  have e0 : cellNum (k + 1) (4 * p) = _ := e0
  rw [show 2 * (p * E k) + E k - E k + E (k + 1) = cellNum (k + 1) (4 * p) by omega,
    show cellNum (k + 1) (4 * p) + 2 * E (k + 1) = cellNum (k + 1) (4 * p + 1) by omega,
    show cellNum (k + 1) (4 * p + 1) + 2 * E (k + 1) = cellNum (k + 1) (4 * p + 2) by omega,
    show cellNum (k + 1) (4 * p + 2) + 2 * E (k + 1) = cellNum (k + 1) (4 * p + 3) by omega]

theorem child_isCell {k p i : Nat} (h : IsCell k p) (hk : k < 30) (hi : i < 4) :
    IsCell (k + 1) (4 * p + i) := by
  refine ⟨hk, ?_⟩
  have := h.2
  rw [Nat.pow_succ]; omega

theorem ofNat_wrap {n : Nat} : BitVec.ofNat 64 (n + 2 ^ 64) = BitVec.ofNat 64 n := by
  apply BitVec.eq_of_toNat_eq; simp

theorem next_raw {k p : Nat} (h : IsCell k p) : (mk k p).next = some (mk k (p + 1)) := by
  simp only [CellID.next, lsb_mk h, Option.bind_eq_bind, Option.bind_some]
  simp only [mk]
  rw [shiftLeft_ofNat, ← BitVec.ofNat_add]
  congr 3
  rw [cellNum_eq, cellNum_eq, Nat.add_mul]; omega

theorem prev_raw {k p : Nat} (h : IsCell k (p + 1)) : (mk k (p + 1)).prev = some (mk k p) := by
  simp only [CellID.prev, lsb_mk h, Option.bind_eq_bind, Option.bind_some]
  simp only [mk]
  rw [shiftLeft_ofNat]
  congr 2
  rw [BitVec.sub_eq_iff_eq_add, ← BitVec.ofNat_add]
  congr 1
  rw [cellNum_eq, cellNum_eq, Nat.add_mul]; omega

theorem wrapOffset_eq : wrapOffset = BitVec.ofNat 64 (12 * W₀) := by decide

theorem last_num {k : Nat} (h : k ≤ 30) : 6 * 4 ^ k * E k = 6 * W₀ := by
  rw [Nat.mul_assoc, pow_mul_E h]

theorem nextWrap_mk {k p : Nat} (h : IsCell k p) :
    (mk k p).nextWrap = some (mk k ((p + 1) % (6 * 4 ^ k))) := by
  have hE := E_pos k
  have hW := E_le_W k
  simp only [CellID.nextWrap, next_raw h, Option.bind_eq_bind, Option.bind_some, wrapOffset_eq]
  rcases Nat.lt_or_ge (p + 1) (6 * 4 ^ k) with hlt | hge
  · have hc : IsCell k (p + 1) := ⟨h.1, hlt⟩
    have hb := cellNum_lt hc
    rw [if_pos, Nat.mod_eq_of_lt hlt]
    rw [BitVec.lt_def, mk, Bits.ofNat_toNat_of_lt (by omega), Bits.ofNat_toNat_of_lt (by omega)]
    exact hb
  · have he : p + 1 = 6 * 4 ^ k := by have := h.2; omega
    have hn : cellNum k (p + 1) = 12 * W₀ + E k := by
      rw [cellNum_eq, he, last_num h.1]
    rw [if_neg]
    · rw [he, Nat.mod_self]
      simp only [mk]
      rw [← he, hn]
      congr 2
      rw [BitVec.sub_eq_iff_eq_add, ← BitVec.ofNat_add]
      congr 1
      rw [cellNum_eq]; omega
    · rw [BitVec.lt_def, mk, hn, Bits.ofNat_toNat_of_lt (by omega), Bits.ofNat_toNat_of_lt (by omega)]
      omega

theorem prevWrap_mk {k p : Nat} (h : IsCell k p) :
    (mk k p).prevWrap = some (mk k ((p + 6 * 4 ^ k - 1) % (6 * 4 ^ k))) := by
  have hE := E_pos k
  have hW := E_le_W k
  have h4 : 0 < 4 ^ k := Nat.pow_pos (by decide)
  have hp := h.2
  simp only [CellID.prevWrap, Option.bind_eq_bind, wrapOffset_eq]
  cases p with
  | succ p =>
    have hc : IsCell k p := ⟨h.1, by omega⟩
    have hb := cellNum_lt hc
    rw [prev_raw h]
    simp only [Option.bind_some]
    rw [if_pos, show p + 1 + 6 * 4 ^ k - 1 = p + 6 * 4 ^ k by omega, Nat.add_mod_right,
      Nat.mod_eq_of_lt (by omega)]
    rw [BitVec.lt_def, mk, Bits.ofNat_toNat_of_lt (by omega), Bits.ofNat_toNat_of_lt (by omega)]
    exact hb
  | zero =>
    have hlast : IsCell k (6 * 4 ^ k - 1) := ⟨h.1, by omega⟩
    have e : (mk k 0).prev = some ⟨BitVec.ofNat 64 (2 ^ 64 - E k)⟩ := by
      simp only [CellID.prev, lsb_mk h, Option.bind_eq_bind, Option.bind_some]
      simp only [mk]
      rw [shiftLeft_ofNat]
      congr 2
      rw [BitVec.sub_eq_iff_eq_add, ← BitVec.ofNat_add]
      rw [show 2 ^ 64 - E k + E k * 2 ^ 1 = cellNum k 0 + 2 ^ 64 by rw [cellNum_eq]; omega]
      exact ofNat_wrap.symm
    rw [e]
    simp only [Option.bind_some]
    rw [if_neg]
    · rw [Nat.zero_add, Nat.mod_eq_of_lt (by omega)]
      rw [← BitVec.ofNat_add]
      simp only [mk]
      have hl : (6 * 4 ^ k - 1) * E k = 6 * W₀ - E k := by
        rw [Nat.sub_mul, last_num h.1, Nat.one_mul]
      have e1 : cellNum k (6 * 4 ^ k - 1) = 12 * W₀ - E k := by rw [cellNum_eq, hl]; omega
      have e2 : 2 ^ 64 - E k + 12 * W₀ = cellNum k (6 * 4 ^ k - 1) + 2 ^ 64 := by omega
      rw [e2, ofNat_wrap]
    · rw [BitVec.lt_def, Bits.ofNat_toNat_of_lt (by omega), Bits.ofNat_toNat_of_lt (by omega)]
      omega

end Verif
