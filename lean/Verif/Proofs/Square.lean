import Verif.Proofs.Hilbert
import Verif.Proofs.Ranges
import Verif.Properties.CellID
import Verif.SpecCube

/-! # The square of a cell -/

namespace Verif
open Rust Spec CellID

theorem pow2_30 : (2:Nat) ^ 30 = 1073741824 := by norm_num

/-- Face of a valid cell. -/
def sf (c : CellID) : Nat := px c / 4 ^ lv c
/-- Coordinates of the square in units of its size, and the orientation. -/
def sr (c : CellID) : Nat × Nat × Nat := ijOf (lv c) (sf c % 2) (px c % 4 ^ lv c)
/-- Size of the square. -/
def ss (c : CellID) : Nat := 2 ^ (30 - lv c)

theorem ss_pos (c : CellID) : 0 < ss c := pow2_pos _

theorem Valid.sf_lt {c : CellID} (h : Valid c) : sf c < 6 := face_lt h.isCell

theorem Valid.face {c : CellID} (h : Valid c) : c.face = sf c := by
  conv_lhs => rw [h.eq, face_mk h.isCell]
  rfl

theorem Valid.sr_lt {c : CellID} (_h : Valid c) :
    (sr c).1 < 2 ^ lv c ∧ (sr c).2.1 < 2 ^ lv c ∧ (sr c).2.2 < 4 :=
  ijOf_lt _ _ _ (by have := Nat.mod_lt (sf c) (show 2 > 0 by omega); omega) (Nat.mod_lt _ (pow4_pos _))

theorem Valid.ss_mul {c : CellID} (h : Valid c) : 2 ^ lv c * ss c = 1073741824 := by
  rw [ss, ← Nat.pow_add, show lv c + (30 - lv c) = 30 by have := h.lv_le; omega]

theorem Valid.faceIJ {c : CellID} (h : Valid c) : c.faceIJOrientation = some (sf c,
    (((sr c).1 * ss c + cOff (30 - lv c) (sr c).2.2 : Nat) : Int),
    (((sr c).2.1 * ss c + cOff (30 - lv c) (sr c).2.2 : Nat) : Int), (sr c).2.2) := by
  conv_lhs => rw [h.eq, faceIJ_mk h.isCell]
  rfl

theorem cOff_lt (m o : Nat) : cOff m o < 2 ^ m := by
  unfold cOff
  rcases m with _ | m
  · simp
  · have := pow2_pos m
    rw [if_neg (by omega), Nat.add_sub_cancel, Nat.pow_succ]
    split <;> omega

/-- The cell that contains the leaf square `(i, j)` of face `f` at level `k`. -/
def cellAt (f k i j : Nat) : CellID :=
  mk k (f * 4 ^ k + (posOf k (f % 2) (i / 2 ^ (30 - k)) (j / 2 ^ (30 - k))).1)

theorem cellAt_facts {f k i j : Nat} (hf : f < 6) (hk : k ≤ 30) (hi : i < 1073741824) (hj : j < 1073741824) :
    Valid (cellAt f k i j) ∧ lv (cellAt f k i j) = k ∧ sf (cellAt f k i j) = f ∧
      (sr (cellAt f k i j)).1 = i / 2 ^ (30 - k) ∧ (sr (cellAt f k i j)).2.1 = j / 2 ^ (30 - k) := by
  have hp : 2 ^ k * 2 ^ (30 - k) = 1073741824 := by
    rw [← Nat.pow_add, show k + (30 - k) = 30 by omega]
  have ei : i / 2 ^ (30 - k) < 2 ^ k := by rw [Nat.div_lt_iff_lt_mul (pow2_pos _), hp]; exact hi
  have ej : j / 2 ^ (30 - k) < 2 ^ k := by rw [Nat.div_lt_iff_lt_mul (pow2_pos _), hp]; exact hj
  have ho : f % 2 < 4 := by omega
  have hl := posOf_lt k (f % 2) _ _ ho ei ej
  have hinv := ijOf_posOf k (f % 2) _ _ ho ei ej
  have hc : IsCell k (f * 4 ^ k + (posOf k (f % 2) (i / 2 ^ (30 - k)) (j / 2 ^ (30 - k))).1) := by
    refine ⟨hk, ?_⟩
    have := Nat.mul_le_mul_right (4 ^ k) (show f + 1 ≤ 6 by omega)
    rw [Nat.add_mul, Nat.one_mul] at this
    omega
  have e1 : lv (cellAt f k i j) = k := lv_mk hc
  have e2 : px (cellAt f k i j) = _ := px_mk hc
  have e3 : sf (cellAt f k i j) = f := by rw [sf, e1, e2, add_div_pow hl.1]
  refine ⟨valid_mk hc, e1, e3, ?_, ?_⟩
  · rw [sr, e3, e1, e2, add_mod_pow hl.1, hinv]
  · rw [sr, e3, e1, e2, add_mod_pow hl.1, hinv]

theorem fromFaceIJ_cellAt {f i j : Nat} (hf : f < 6) (hi : i < 1073741824) (hj : j < 1073741824) :
    CellID.fromFaceIJ f i j = some (cellAt f 30 i j) := by
  rw [fromFaceIJ_eq hf (by rw [pow2_30]; exact hi) (by rw [pow2_30]; exact hj), cellAt]
  simp

/-- A cell is determined by level, face and square. -/
theorem Valid.eq_of_sr {a b : CellID} (ha : Valid a) (hb : Valid b) (hl : lv a = lv b) (hf : sf a = sf b)
    (h1 : (sr a).1 = (sr b).1) (h2 : (sr a).2.1 = (sr b).2.1) : a = b := by
  have key : ∀ {c : CellID}, Valid c → px c = sf c * 4 ^ lv c + (posOf (lv c) (sf c % 2) (sr c).1 (sr c).2.1).1 := by
    intro c hc
    rw [sr, posOf_ijOf _ _ _ (by have := Nat.mod_lt (sf c) (show 2 > 0 by omega); omega) (Nat.mod_lt _ (pow4_pos _))]
    exact div_mod_face (px c) (lv c)
  have : px a = px b := by rw [key ha, key hb, hl, hf, h1, h2]
  rw [ha.eq, hb.eq, hl, this]

theorem parent_cellAt {f k l i j : Nat} (hf : f < 6) (hl : l ≤ 30) (hk : k ≤ l) (hi : i < 1073741824)
    (hj : j < 1073741824) : (cellAt f l i j).parent k = some (cellAt f k i j) := by
  have hp : 2 ^ l * 2 ^ (30 - l) = 1073741824 := by
    rw [← Nat.pow_add, show l + (30 - l) = 30 by omega]
  have ei : i / 2 ^ (30 - l) < 2 ^ l := by rw [Nat.div_lt_iff_lt_mul (pow2_pos _), hp]; exact hi
  have ej : j / 2 ^ (30 - l) < 2 ^ l := by rw [Nat.div_lt_iff_lt_mul (pow2_pos _), hp]; exact hj
  have hlt := posOf_lt l (f % 2) _ _ (by omega) ei ej
  have hc : IsCell l (f * 4 ^ l + (posOf l (f % 2) (i / 2 ^ (30 - l)) (j / 2 ^ (30 - l))).1) := by
    refine ⟨hl, ?_⟩
    have := Nat.mul_le_mul_right (4 ^ l) (show f + 1 ≤ 6 by omega)
    rw [Nat.add_mul, Nat.one_mul] at this
    omega
  unfold cellAt
  rw [parent_mk hc hk]
  obtain ⟨d, hd⟩ : ∃ d, k + d = l := ⟨l - k, by omega⟩
  have e1 : l - k = d := by omega
  have e2 : ∀ x : Nat, x / 2 ^ (30 - l) / 2 ^ d = x / 2 ^ (30 - k) := by
    intro x; rw [Nat.div_div_eq_div_mul, ← Nat.pow_add]; congr 2; omega
  have hsp := posOf_add d k (f % 2) (i / 2 ^ (30 - l)) (j / 2 ^ (30 - l)) (by rw [hd]; exact ei) (by rw [hd]; exact ej)
  rw [e2, e2] at hsp
  have ei2 : i / 2 ^ (30 - k) < 2 ^ k := by
    rw [Nat.div_lt_iff_lt_mul (pow2_pos _), ← Nat.pow_add, show k + (30 - k) = 30 by omega]; exact hi
  have ej2 : j / 2 ^ (30 - k) < 2 ^ k := by
    rw [Nat.div_lt_iff_lt_mul (pow2_pos _), ← Nat.pow_add, show k + (30 - k) = 30 by omega]; exact hj
  have hlow := posOf_lt k (f % 2) _ _ (by omega) ei2 ej2
  have hlow2 := posOf_lt d (posOf k (f % 2) (i / 2 ^ (30 - k)) (j / 2 ^ (30 - k))).2 (i / 2 ^ (30 - l) % 2 ^ d) (j / 2 ^ (30 - l) % 2 ^ d)
    hlow.2 (Nat.mod_lt _ (pow2_pos _)) (Nat.mod_lt _ (pow2_pos _))
  rw [e1, ← hd] at *
  rw [hsp]
  simp only
  rw [Nat.pow_add, ← Nat.mul_assoc, ← Nat.add_assoc, ← Nat.add_mul, add_div_pow hlow2.1]

/-- Every valid cell is the cell at its own coordinates. -/
theorem Valid.eq_cellAt {c : CellID} (h : Valid c) {a b : Nat} (ha : a < ss c) (hb : b < ss c) :
    c = cellAt (sf c) (lv c) ((sr c).1 * ss c + a) ((sr c).2.1 * ss c + b) := by
  have h1 := h.sr_lt
  have h2 := h.ss_mul
  have m1 := Nat.mul_le_mul_right (ss c) (show (sr c).1 + 1 ≤ 2 ^ lv c by omega)
  have m2 := Nat.mul_le_mul_right (ss c) (show (sr c).2.1 + 1 ≤ 2 ^ lv c by omega)
  rw [Nat.add_mul, Nat.one_mul, h2] at m1 m2
  have hf := cellAt_facts h.sf_lt h.lv_le (show (sr c).1 * ss c + a < 1073741824 by omega)
    (show (sr c).2.1 * ss c + b < 1073741824 by omega)
  have d1 : ((sr c).1 * ss c + a) / 2 ^ (30 - lv c) = (sr c).1 := add_div_pow ha
  have d2 : ((sr c).2.1 * ss c + b) / 2 ^ (30 - lv c) = (sr c).2.1 := add_div_pow hb
  exact h.eq_of_sr hf.1 hf.2.1.symm hf.2.2.1.symm (by rw [hf.2.2.2.1, d1]) (by rw [hf.2.2.2.2, d2])

theorem lv_of_level {c : CellID} {k : Nat} (h : c.level = some k) : lv c = k := by simp [lv, h]

theorem leaf_ss {l : CellID} (h : lv l = 30) : ss l = 1 := by rw [ss, h]; rfl

/-- The coordinates of a leaf. -/
theorem leafAt_iff {l : CellID} (h : Valid l) (hl : lv l = 30) {g : Nat} {i j : Int} :
    LeafAt l g i j ↔ g = sf l ∧ i = (sr l).1 ∧ j = (sr l).2.1 := by
  have h0 : ∀ o, cOff (30 - lv l) o = 0 := by intro o; rw [hl]; rfl
  unfold LeafAt
  rw [h.faceIJ]
  simp only [h0, leaf_ss hl, Nat.mul_one, Nat.add_zero, Option.some.injEq, Prod.mk.injEq]
  constructor
  · rintro ⟨o, h1, h2, h3, _⟩; exact ⟨h1.symm, h2.symm, h3.symm⟩
  · rintro ⟨h1, h2, h3⟩; exact ⟨_, h1.symm, h2.symm, h3.symm, rfl⟩

/-- Containment of a cell of a deeper level, in coordinates. -/
theorem contains_cell_iff {c l : CellID} (hc : Valid c) (hl : Valid l) (hle : lv c ≤ lv l) :
    c.contains l = some true ↔ sf l = sf c ∧ (sr l).1 * ss l / ss c = (sr c).1 ∧ (sr l).2.1 * ss l / ss c = (sr c).2.1 := by
  have hr := hl.sr_lt
  have hm := hl.ss_mul
  have m1 := Nat.mul_le_mul_right (ss l) (show (sr l).1 + 1 ≤ 2 ^ lv l by omega)
  have m2 := Nat.mul_le_mul_right (ss l) (show (sr l).2.1 + 1 ≤ 2 ^ lv l by omega)
  rw [Nat.add_mul, Nat.one_mul, hm] at m1 m2
  have hpos := ss_pos l
  have hi : (sr l).1 * ss l < 1073741824 := by omega
  have hj : (sr l).2.1 * ss l < 1073741824 := by omega
  have hat := hl.eq_cellAt (a := 0) (b := 0) hpos hpos
  rw [Nat.add_zero, Nat.add_zero] at hat
  have hpar := parent_cellAt hl.sf_lt hl.lv_le hle hi hj
  rw [← hat] at hpar
  have hf := cellAt_facts hl.sf_lt hc.lv_le hi hj
  have hkey : c.contains l = some true ↔ c = cellAt (sf l) (lv c) ((sr l).1 * ss l) ((sr l).2.1 * ss l) := by
    obtain ⟨a, ha, _, hal, hac, hau⟩ := c05_parent hl hl.level hle
    rw [hpar] at ha
    obtain rfl := Option.some.inj ha
    constructor
    · intro h; exact hau c hc hc.level h
    · intro h; rw [h]; exact hac
  rw [hkey]
  constructor
  · intro he
    rw [← he] at hf
    exact ⟨hf.2.2.1.symm, hf.2.2.2.1.symm, hf.2.2.2.2.symm⟩
  · rintro ⟨h1, h2, h3⟩
    refine hc.eq_of_sr hf.1 hf.2.1.symm (by rw [hf.2.2.1, h1]) ?_ ?_
    · rw [hf.2.2.2.1, ← h2]; rfl
    · rw [hf.2.2.2.2, ← h3]; rfl

end Verif
