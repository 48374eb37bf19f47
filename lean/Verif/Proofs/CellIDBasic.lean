import Verif.Spec
import Verif.Model.CellID
import Verif.Proofs.Bits

/-! Helper lemmas: what each identifier function does on the cell `(k, p)`. -/

namespace Verif
open Rust Spec

/-- The model's id of the cell `(k, p)`. -/
def mk (k p : Nat) : CellID := ⟨BitVec.ofNat 64 (cellNum k p)⟩

/-- 4^30 as a numeral, so that `omega` can use it. -/
scoped notation "W₀" => (1152921504606846976 : Nat)

theorem W_eq : 4 ^ 30 = W₀ := by decide

/-- Number of leaves in a level-`k` cell. -/
def E (k : Nat) : Nat := 4 ^ (30 - k)

theorem E_pos (k : Nat) : 0 < E k := Nat.pow_pos (by decide)

theorem E_30 : E 30 = 1 := rfl

theorem E_eq (k : Nat) : E k = 2 ^ (2 * (30 - k)) := by
  rw [E, Nat.pow_mul]

theorem pow_mul_E {k : Nat} (h : k ≤ 30) : 4 ^ k * E k = W₀ := by
  rw [E, ← Nat.pow_add, ← W_eq]; congr 1; omega

theorem E_le_W (k : Nat) : E k ≤ W₀ := by
  rw [E, ← W_eq]; exact Nat.pow_le_pow_right (by decide) (by omega)

theorem E_split {k l : Nat} (hk : k ≤ l) (hl : l ≤ 30) : E k = 4 ^ (l - k) * E l := by
  rw [E, E, ← Nat.pow_add]; congr 1; omega

theorem E_succ {k : Nat} (hk : k + 1 ≤ 30) : E k = 4 * E (k + 1) := by
  have := E_split (k := k) (l := k + 1) (by omega) hk
  simpa using this

theorem cellNum_eq (k p : Nat) : cellNum k p = 2 * (p * E k) + E k := by
  simp only [cellNum, E]; rw [Nat.add_mul, Nat.mul_assoc, Nat.one_mul]

theorem cell_bound {k p : Nat} (h : IsCell k p) : p * E k + E k ≤ 6 * W₀ := by
  have h1 : (p + 1) * E k ≤ 6 * 4 ^ k * E k := Nat.mul_le_mul_right _ h.2
  rw [Nat.mul_assoc, pow_mul_E h.1, Nat.add_mul, Nat.one_mul] at h1
  exact h1

theorem cellNum_lt {k p : Nat} (h : IsCell k p) : cellNum k p < 12 * W₀ := by
  have := cell_bound h; have := E_pos k
  rw [cellNum_eq]; omega

theorem toNat_mk {k p : Nat} (h : IsCell k p) : (mk k p).id.toNat = 2 * (p * E k) + E k := by
  have := cellNum_lt h
  rw [mk, Bits.ofNat_toNat_of_lt (by omega), cellNum_eq]

theorem cellNum_pow (k p : Nat) : cellNum k p = (2 * p + 1) * 2 ^ (2 * (30 - k)) := by
  rw [cellNum, ← E_eq, E]

/-- Parity argument: an odd multiple of `4^j` is not `2^63`. -/
theorem odd_mul_ne {p t : Nat} (ht : t < 63) : (2 * p + 1) * 2 ^ t ≠ 2 ^ 63 := by
  intro h
  have : 2 ^ 63 = 2 ^ (63 - t) * 2 ^ t := by rw [← Nat.pow_add]; congr 1; omega
  rw [this] at h
  have := Nat.eq_of_mul_eq_mul_right (Nat.two_pow_pos t) h
  have : 2 ^ (63 - t) = 2 * 2 ^ (62 - t) := by
    rw [← Nat.pow_succ']; congr 1; omega
  omega

theorem negI64_ofNat {n : Nat} (h : n < 2 ^ 64) (hne : n ≠ 2 ^ 63) :
    negI64 (BitVec.ofNat 64 n) = some (-(BitVec.ofNat 64 n)) := by
  unfold negI64
  rw [if_neg]
  intro h0
  have := congrArg BitVec.toNat h0
  rw [Bits.ofNat_toNat_of_lt h] at this
  exact hne (by rw [this]; rfl)

theorem add_some {a b : U64} (h : a.toNat + b.toNat < 2 ^ 64) : add a b = some (a + b) := by
  simp [add, h]

theorem sub_some {a b : U64} (h : b.toNat ≤ a.toNat) : sub a b = some (a - b) := by
  simp [sub, h]

theorem add_ofNat {a b : Nat} (h : a + b < 2 ^ 64) :
    add (BitVec.ofNat 64 a) (BitVec.ofNat 64 b) = some (BitVec.ofNat 64 (a + b)) := by
  rw [add_some]
  · rw [BitVec.ofNat_add]
  · rw [Bits.ofNat_toNat_of_lt (by omega), Bits.ofNat_toNat_of_lt (by omega)]; exact h

theorem sub_ofNat {a b : Nat} (ha : a < 2 ^ 64) (h : b ≤ a) :
    sub (BitVec.ofNat 64 a) (BitVec.ofNat 64 b) = some (BitVec.ofNat 64 (a - b)) := by
  have e : ∀ n, n < 2 ^ 64 → (BitVec.ofNat 64 n).toNat = n := fun n h => Bits.ofNat_toNat_of_lt h
  rw [sub_some (by rw [e _ ha, e _ (by omega)]; exact h)]
  congr 1
  apply BitVec.eq_of_toNat_eq
  rw [BitVec.toNat_sub, e _ ha, e _ (by omega), e _ (by omega)]
  omega

theorem shr_ofNat {a n : Nat} (ha : a < 2 ^ 64) (h : n < 64) :
    shr (BitVec.ofNat 64 a) n = some (BitVec.ofNat 64 (a / 2 ^ n)) := by
  rw [shr, if_pos h]
  congr 1
  apply BitVec.eq_of_toNat_eq
  rw [BitVec.toNat_ushiftRight, Bits.ofNat_toNat_of_lt ha, Nat.shiftRight_eq_div_pow,
    Bits.ofNat_toNat_of_lt (Nat.lt_of_le_of_lt (Nat.div_le_self _ _) ha)]

theorem ushiftRight_ofNat {a n : Nat} (ha : a < 2 ^ 64) :
    (BitVec.ofNat 64 a) >>> n = BitVec.ofNat 64 (a / 2 ^ n) := by
  apply BitVec.eq_of_toNat_eq
  rw [BitVec.toNat_ushiftRight, Bits.ofNat_toNat_of_lt ha, Nat.shiftRight_eq_div_pow,
    Bits.ofNat_toNat_of_lt (Nat.lt_of_le_of_lt (Nat.div_le_self _ _) ha)]

theorem shiftLeft_ofNat {a n : Nat} :
    (BitVec.ofNat 64 a) <<< n = BitVec.ofNat 64 (a * 2 ^ n) := by
  apply BitVec.eq_of_toNat_eq
  rw [BitVec.toNat_shiftLeft, BitVec.toNat_ofNat, BitVec.toNat_ofNat, Nat.shiftLeft_eq]
  exact Nat.mod_mul_mod _ _ _

theorem lsbForLevel_eq {l : Nat} (h : l ≤ 30) : lsbForLevel l = some (BitVec.ofNat 64 (E l)) := by
  simp only [lsbForLevel, natSub, maxLevel, h, if_true, Option.bind_eq_bind, Option.bind_some, shl]
  rw [if_pos (by omega)]
  rw [shiftLeft_ofNat, Nat.one_mul, E_eq]

theorem lsb_mk {k p : Nat} (h : IsCell k p) : (mk k p).lsb = some (BitVec.ofNat 64 (E k)) := by
  have hb := cellNum_lt h
  have hk := h.1
  have hne : cellNum k p ≠ 2 ^ 63 := by
    rw [cellNum_pow]; exact odd_mul_ne (by omega)
  simp only [CellID.lsb, mk]
  rw [negI64_ofNat (by omega) hne]
  simp only [Option.bind_eq_bind, Option.bind_some]
  rw [cellNum_pow] at hb ⊢
  rw [Bits.and_neg_self (by omega), E_eq]

theorem face_mk {k p : Nat} (h : IsCell k p) : (mk k p).face = p / 4 ^ k := by
  have hb := cellNum_lt h
  have h3 := pow_mul_E h.1
  have hp := E_pos k
  have h4 : 0 < 4 ^ k := Nat.pow_pos (by decide)
  simp only [CellID.face, BitVec.toNat_ushiftRight, toNat_mk h, Nat.shiftRight_eq_div_pow]
  show _ / 2 ^ 61 = _
  have : 2 ^ 61 = 2 * (4 ^ k * E k) := by rw [h3]
  rw [this]
  have e : 2 * (p * E k) + E k = E k * (2 * p + 1) := by
    rw [Nat.mul_comm (E k), Nat.add_mul, Nat.one_mul, Nat.mul_assoc]
  rw [e, show 2 * (4 ^ k * E k) = E k * (2 * 4 ^ k) from by
    rw [← Nat.mul_assoc, Nat.mul_comm], Nat.mul_div_mul_left _ _ hp, ← Nat.div_div_eq_div_mul]
  congr 1; omega

theorem face_lt {k p : Nat} (h : IsCell k p) : p / 4 ^ k < 6 :=
  Nat.div_lt_of_lt_mul (by rw [Nat.mul_comm]; exact h.2)

theorem level_mk {k p : Nat} (h : IsCell k p) : (mk k p).level = some k := by
  have hb := cellNum_lt h
  have hk := h.1
  simp only [CellID.level, mk]
  rw [cellNum_pow] at hb ⊢
  rw [Bits.ctz_odd_mul (by omega)]
  simp only [natSub, maxLevel, Nat.shiftRight_eq_div_pow]
  rw [if_pos (by omega)]
  congr 1; omega

theorem isLeaf_mk {k p : Nat} (h : IsCell k p) : (mk k p).isLeaf = decide (k = 30) := by
  have hk := h.1
  have h1 := Bits.and_mask_eq_mod (mk k p).id 1 (by decide)
  rw [toNat_mk h] at h1
  have e : (BitVec.ofNat 64 (2 ^ 1 - 1)) = 1#64 := rfl
  rw [e] at h1
  rw [Bool.eq_iff_iff]
  simp only [CellID.isLeaf, bne_iff_ne, ne_eq, decide_eq_true_eq]
  rw [← BitVec.toNat_inj, h1]
  simp only [BitVec.toNat_ofNat]
  by_cases e : k = 30
  · subst e; simp [E_30]
  · have : E k = 4 * E (k + 1) := E_succ (by omega)
    simp [e]; omega

theorem parent_mk {k p l : Nat} (h : IsCell k p) (hl : l ≤ k) :
    (mk k p).parent l = some (mk l (p / 4 ^ (k - l))) := by
  have hb := cellNum_lt h
  have hk := h.1
  have hE := E_le_W l
  simp only [CellID.parent, lsbForLevel_eq (Nat.le_trans hl hk), Option.bind_eq_bind,
    Option.bind_some]
  rw [negI64_ofNat (by omega) (by omega)]
  simp only [Option.bind_some, mk]
  rw [E_eq, Bits.and_neg_or (by omega), ← cellNum_pow]
  congr 3
  have e1 : 2 ^ (2 * (30 - l) + 1) = E k * (2 * 4 ^ (k - l)) := by
    rw [Nat.pow_succ, ← E_eq, E_split hl hk]
    rw [Nat.mul_comm (4 ^ (k - l)), Nat.mul_assoc, Nat.mul_comm (4 ^ (k - l))]
  have e2 : cellNum k p = E k * (2 * p + 1) := by rw [cellNum, Nat.mul_comm, E]
  rw [e1, e2, Nat.mul_div_mul_left _ _ (E_pos k), ← Nat.div_div_eq_div_mul,
    show (2 * p + 1) / 2 = p by omega]

theorem parent_isCell {k p l : Nat} (h : IsCell k p) (hl : l ≤ k) :
    IsCell l (p / 4 ^ (k - l)) := by
  refine ⟨Nat.le_trans hl h.1, ?_⟩
  apply Nat.div_lt_of_lt_mul
  have : 4 ^ (k - l) * (6 * 4 ^ l) = 6 * 4 ^ k := by
    rw [Nat.mul_left_comm, ← Nat.pow_add]; congr 2; omega
  rw [this]; exact h.2

theorem immediateParent_mk {k p : Nat} (h : IsCell (k + 1) p) :
    (mk (k + 1) p).immediateParent = some (mk k (p / 4)) := by
  have hb := cellNum_lt h
  have hk := h.1
  have hE := E_le_W k
  have h4 := E_succ hk
  simp only [CellID.immediateParent, lsb_mk h, Option.bind_eq_bind, Option.bind_some]
  rw [shiftLeft_ofNat, show E (k + 1) * 2 ^ 2 = E k by omega]
  rw [negI64_ofNat (by omega) (by omega)]
  have := parent_mk h (show k ≤ k + 1 by omega)
  simp only [CellID.parent, lsbForLevel_eq (show k ≤ 30 by omega), Option.bind_eq_bind,
    Option.bind_some] at this
  rw [negI64_ofNat (by omega) (by omega)] at this
  simpa using this

theorem isFace_mk {k p : Nat} (h : IsCell k p) : (mk k p).isFace = some (decide (k = 0)) := by
  have hk := h.1
  have e0 : E 0 = W₀ := by decide
  have hE := E_pos k
  simp only [CellID.isFace, lsbForLevel_eq (Nat.zero_le 30), Option.bind_eq_bind, Option.bind_some,
    e0]
  have h1 : (1#64) = BitVec.ofNat 64 1 := rfl
  rw [h1, sub_ofNat (by omega) (by omega)]
  simp only [Option.bind_some]
  congr 1
  have h1 := Bits.and_mask_eq_mod (mk k p).id 60 (by decide)
  rw [toNat_mk h] at h1
  have e : (BitVec.ofNat 64 (2 ^ 60 - 1)) = BitVec.ofNat 64 (W₀ - 1) := rfl
  rw [e] at h1
  rw [Bool.eq_iff_iff]
  simp only [beq_iff_eq, decide_eq_true_eq]
  rw [← BitVec.toNat_inj, h1]
  simp only [BitVec.toNat_ofNat]
  have h3 := pow_mul_E hk
  by_cases e : k = 0
  · subst e; simp [E]; omega
  · have : 4 ^ k = 4 * 4 ^ (k - 1) := by
      rw [← Nat.pow_succ']; congr 1; omega
    have h40 : 0 < 4 ^ (k - 1) := Nat.pow_pos (by decide)
    simp only [e, iff_false]
    intro h0
    have h5 : (2 * p + 1) * E k % (4 ^ k * E k) = 0 := by
      rw [h3]; rw [Nat.add_mul, Nat.mul_assoc, Nat.one_mul]; exact h0
    rw [Nat.mul_mod_mul_right] at h5
    rcases Nat.mul_eq_zero.1 h5 with h6 | h6
    · rw [this] at h6
      have : (2 * p + 1) % (4 * 4 ^ (k - 1)) % 2 = 1 := by
        rw [Nat.mod_mod_of_dvd _ ⟨2 * 4 ^ (k - 1), by omega⟩]; omega
      omega
    · omega

theorem rangeMin_mk {k p : Nat} (h : IsCell k p) :
    (mk k p).rangeMin = some (mk 30 (p * E k)) := by
  have hb := cellNum_lt h
  have hc := cell_bound h
  have hE := E_pos k
  have hW := E_le_W k
  have h1 : (1#64) = BitVec.ofNat 64 1 := rfl
  simp only [CellID.rangeMin, lsb_mk h, Option.bind_eq_bind, Option.bind_some]
  rw [h1, sub_ofNat (by omega) (by omega)]
  simp only [Option.bind_some, mk]
  rw [sub_ofNat (by omega) (by rw [cellNum_eq]; omega)]
  simp only [Option.bind_some]
  congr 3
  rw [cellNum_eq, cellNum_eq, show E 30 = 1 from rfl]; omega

theorem rangeMax_mk {k p : Nat} (h : IsCell k p) :
    (mk k p).rangeMax = some (mk 30 (p * E k + E k - 1)) := by
  have hb := cellNum_lt h
  have hc := cell_bound h
  have hE := E_pos k
  have hW := E_le_W k
  have h1 : (1#64) = BitVec.ofNat 64 1 := rfl
  simp only [CellID.rangeMax, lsb_mk h, Option.bind_eq_bind, Option.bind_some]
  rw [h1, sub_ofNat (by omega) (by omega)]
  simp only [Option.bind_some, mk]
  rw [add_ofNat (by rw [cellNum_eq]; omega)]
  simp only [Option.bind_some]
  congr 3
  rw [cellNum_eq, cellNum_eq, show E 30 = 1 from rfl]; omega

theorem leaf_isCell {q : Nat} (h : q < 6 * W₀) : IsCell 30 q := ⟨by decide, by rw [W_eq]; exact h⟩

theorem rangeMin_isCell {k p : Nat} (h : IsCell k p) : IsCell 30 (p * E k) := by
  have hc := cell_bound h; have hE := E_pos k
  exact leaf_isCell (by omega)

theorem rangeMax_isCell {k p : Nat} (h : IsCell k p) : IsCell 30 (p * E k + E k - 1) := by
  have hc := cell_bound h; have hE := E_pos k
  exact leaf_isCell (by omega)

theorem toNat_leaf {q : Nat} (h : IsCell 30 q) : (mk 30 q).id.toNat = 2 * q + 1 := by
  rw [toNat_mk h]; simp [E_30]

theorem le_iff_mk {k p k' p' : Nat} (h : IsCell k p) (h' : IsCell k' p') :
    (mk k p).id ≤ (mk k' p').id ↔ 2 * (p * E k) + E k ≤ 2 * (p' * E k') + E k' := by
  rw [BitVec.le_def, toNat_mk h, toNat_mk h']

theorem lt_iff_mk {k p k' p' : Nat} (h : IsCell k p) (h' : IsCell k' p') :
    (mk k p).id < (mk k' p').id ↔ 2 * (p * E k) + E k < 2 * (p' * E k') + E k' := by
  rw [BitVec.lt_def, toNat_mk h, toNat_mk h']

theorem mk_inj {k p k' p' : Nat} (h : IsCell k p) (h' : IsCell k' p') (e : mk k p = mk k' p') :
    k = k' ∧ p = p' := by
  have h1 := level_mk h
  rw [e, level_mk h'] at h1
  have h1 := Option.some.inj h1
  subst h1
  have h2 := toNat_mk h
  rw [e, toNat_mk h'] at h2
  have := Nat.eq_of_mul_eq_mul_right (E_pos k') (show p' * E k' = p * E k' by omega)
  exact ⟨rfl, this.symm⟩

theorem leafIn_iff {q k p : Nat} : LeafIn q k p ↔ p * E k ≤ q ∧ q < p * E k + E k := by
  have hE := E_pos k
  unfold LeafIn
  rw [← E, Nat.div_eq_iff hE]; omega

end Verif
