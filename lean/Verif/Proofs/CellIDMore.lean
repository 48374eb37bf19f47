import Mathlib.Tactic.Ring
import Mathlib.Tactic.Linarith
import Verif.Proofs.CellIDIter

/-! Helper lemmas: common ancestors, child positions, construction from positions, tiles. -/

namespace Verif
open Rust Spec

theorem E_le_E {k l : Nat} (hk : k ≤ l) : E l ≤ E k :=
  Nat.pow_le_pow_right (by decide) (by omega)

theorem E_lt_iff {k l : Nat} (hk : k ≤ 30) (hl : l ≤ 30) : E l ≤ E k ↔ k ≤ l := by
  rw [E, E, Nat.pow_le_pow_iff_right (by decide)]; omega

/-- Two aligned ranges are disjoint or nested. -/
theorem laminar_le {k l : Nat} (p q : Nat) (hkl : k ≤ l) (hl : l ≤ 30) :
    p * E k + E k ≤ q * E l ∨ q * E l + E l ≤ p * E k ∨
    (p * E k ≤ q * E l ∧ q * E l + E l ≤ p * E k + E k) := by
  have hs := E_split hkl hl
  generalize 4 ^ (l - k) = n at hs
  have e1 : p * E k = p * n * E l := by rw [hs, Nat.mul_assoc]
  rcases Nat.lt_or_ge q (p * n) with h | h
  · right; left
    have := Nat.mul_le_mul_right (E l) (show q + 1 ≤ p * n from h)
    rw [Nat.add_mul, Nat.one_mul] at this
    omega
  · have := Nat.mul_le_mul_right (E l) h
    rcases Nat.lt_or_ge q (p * n + n) with h' | h'
    · right; right
      have := Nat.mul_le_mul_right (E l) (show q + 1 ≤ p * n + n from h')
      rw [Nat.add_mul, Nat.add_mul, Nat.one_mul, ← hs] at this
      omega
    · left
      have := Nat.mul_le_mul_right (E l) h'
      rw [Nat.add_mul, ← hs] at this
      omega

theorem laminar {k l : Nat} (p q : Nat) (hk : k ≤ 30) (hl : l ≤ 30) :
    p * E k + E k ≤ q * E l ∨ q * E l + E l ≤ p * E k ∨
    (k ≤ l ∧ p * E k ≤ q * E l ∧ q * E l + E l ≤ p * E k + E k) ∨
    (l ≤ k ∧ q * E l ≤ p * E k ∧ p * E k + E k ≤ q * E l + E l) := by
  rcases Nat.le_total k l with h | h
  · rcases laminar_le p q h hl with a | a | a
    · left; exact a
    · right; left; exact a
    · right; right; left; exact ⟨h, a⟩
  · rcases laminar_le q p h hk with a | a | a
    · right; left; exact a
    · left; exact a
    · right; right; right; exact ⟨h, a⟩

/-! ### Common ancestors -/

theorem nat_xor_eq_zero {a b : Nat} : a ^^^ b = 0 ↔ a = b := by
  constructor
  · intro h
    apply Nat.eq_of_testBit_eq
    intro i
    have := congrArg (fun n => n.testBit i) h
    simp only [Nat.testBit_xor, Nat.zero_testBit] at this
    revert this
    cases a.testBit i <;> cases b.testBit i <;> simp
  · rintro rfl; exact Nat.xor_self a

theorem div_eq_iff_xor_lt (a b n : Nat) : a / 2 ^ n = b / 2 ^ n ↔ (a ^^^ b) < 2 ^ n := by
  rw [← Nat.div_eq_zero_iff_lt (Nat.two_pow_pos n), Nat.xor_div_two_pow, nat_xor_eq_zero]

theorem cellNum_div {k p j : Nat} (hj : j ≤ k) (hk : k ≤ 30) :
    cellNum k p / 2 ^ (61 - 2 * j) = p / 4 ^ (k - j) := by
  have hE := E_pos k
  have hs := E_split hj hk
  have h2 : 2 ^ (61 - 2 * j) = 4 ^ (k - j) * (2 * E k) := by
    rw [show 61 - 2 * j = 2 * (30 - j) + 1 by omega, two_pow_shift, hs]; ring
  rw [h2, Nat.mul_comm, ← Nat.div_div_eq_div_mul, cellNum_eq]
  congr 1
  rw [Nat.div_eq_iff (by omega)]
  have : p * (2 * E k) = 2 * (p * E k) := by ring
  omega

/-- Some power-of-two bracket of a positive number below `2^64`. -/
theorem exists_msb {n : Nat} (h0 : 0 < n) (h : n < 2 ^ 64) :
    ∃ m, m < 64 ∧ 2 ^ m ≤ n ∧ n < 2 ^ (m + 1) := by
  refine ⟨n.log2, ?_, Nat.log2_self_le (by omega), Nat.lt_log2_self⟩
  exact (Nat.log2_lt (by omega)).2 h

theorem commonAncestorLevel_mk {k p l q : Nat} (h : IsCell k p) (h' : IsCell l q) :
    ∃ r, (mk k p).commonAncestorLevel (mk l q) = some r ∧
      ∀ j, (∃ m, r = some m ∧ j ≤ m) ↔
        (j ≤ k ∧ j ≤ l ∧ p / 4 ^ (k - j) = q / 4 ^ (l - j)) := by
  have hk := h.1
  have hl := h'.1
  have ha := cellNum_lt h
  have hb := cellNum_lt h'
  have hEk := E_pos k
  have hEl := E_pos l
  have hWk := E_le_W k
  have hWl := E_le_W l
  have hx : cellNum k p ^^^ cellNum l q < 2 ^ 64 := Nat.xor_lt_two_pow (by omega) (by omega)
  generalize hX : cellNum k p ^^^ cellNum l q = X at hx
  have hbits : (mk k p).id ^^^ (mk l q).id = BitVec.ofNat 64 X := by
    apply BitVec.eq_of_toNat_eq
    rw [BitVec.toNat_xor, mk, mk, Bits.ofNat_toNat_of_lt (by omega),
      Bits.ofNat_toNat_of_lt (by omega), Bits.ofNat_toNat_of_lt hx, hX]
  have step : ∀ x y : Nat, x < 2 ^ 64 → y < 2 ^ 64 →
      (if BitVec.ofNat 64 x < BitVec.ofNat 64 y then BitVec.ofNat 64 y else BitVec.ofNat 64 x)
        = BitVec.ofNat 64 (max x y) := by
    intro x y hx hy
    simp only [BitVec.lt_def, Bits.ofNat_toNat_of_lt hx, Bits.ofNat_toNat_of_lt hy]
    split
    · congr 1; omega
    · congr 1; omega
  simp only [CellID.commonAncestorLevel, lsb_mk h, lsb_mk h', Option.bind_eq_bind,
    Option.bind_some, hbits]
  rw [step X (E k) hx (by omega), step (max X (E k)) (E l) (by omega) (by omega)]
  generalize hB : max (max X (E k)) (E l) = B
  obtain ⟨m, hm, h1, h2⟩ := exists_msb (n := B) (by omega) (by omega)
  have hclz := Bits.toNat_clz_of_msb hm h1 h2
  have key : ∀ j, (j ≤ k ∧ j ≤ l ∧ p / 4 ^ (k - j) = q / 4 ^ (l - j)) ↔ (2 * j + m ≤ 60) := by
    intro j
    have hjE : ∀ k, k ≤ 30 → j ≤ 30 → (E k < 2 ^ (61 - 2 * j) ↔ j ≤ k) := by
      intro k hk hj
      rw [E_eq, Nat.pow_lt_pow_iff_right (by decide)]; omega
    constructor
    · rintro ⟨a, b, c⟩
      rw [← cellNum_div a hk, ← cellNum_div b hl, div_eq_iff_xor_lt, hX] at c
      have e1 := (hjE k hk (by omega)).2 a
      have e2 := (hjE l hl (by omega)).2 b
      have : 2 ^ m < 2 ^ (61 - 2 * j) := by omega
      have := (Nat.pow_lt_pow_iff_right (a := 2) (by decide)).1 this
      omega
    · intro hj
      have : 2 ^ (m + 1) ≤ 2 ^ (61 - 2 * j) := Nat.pow_le_pow_right (by decide) (by omega)
      have e1 := (hjE k hk (by omega)).1 (by omega)
      have e2 := (hjE l hl (by omega)).1 (by omega)
      refine ⟨e1, e2, ?_⟩
      rw [← cellNum_div e1 hk, ← cellNum_div e2 hl, div_eq_iff_xor_lt, hX]
      omega
  have hmsb : CellID.findMsb (BitVec.ofNat 64 B) = some m := by
    rw [CellID.findMsb, hclz, natSub, if_pos (by omega)]; congr 1; omega
  rw [hmsb]
  simp only [Option.bind_some]
  by_cases hm60 : m > 60
  · rw [if_pos hm60]
    refine ⟨none, rfl, ?_⟩
    intro j
    rw [key j]
    simp; omega
  · rw [if_neg hm60]
    have : natSub 60 m = some (60 - m) := by rw [natSub, if_pos (by omega)]
    rw [this]
    simp only [Option.bind_some]
    refine ⟨_, rfl, ?_⟩
    intro j
    rw [key j, Nat.shiftRight_eq_div_pow]
    constructor
    · rintro ⟨m', e, hj⟩
      have := Option.some.inj e
      omega
    · intro hj
      exact ⟨_, rfl, by omega⟩

/-! ### Child positions -/

theorem natSub_some {a b : Nat} (h : b ≤ a) : natSub a b = some (a - b) := if_pos h

theorem childPosition_mk {k p l : Nat} (h : IsCell k p) (hl : l ≤ k) :
    (mk k p).childPosition l = some (BitVec.ofNat 64 (p / 4 ^ (k - l) % 4)) := by
  have hk := h.1
  have hb := cellNum_lt h
  have hns : natSub maxLevel l = some (30 - l) := natSub_some (show l ≤ 30 by omega)
  simp only [CellID.childPosition, hns, Option.bind_eq_bind, Option.bind_some]
  rw [mk, shr_ofNat (by omega) (by omega)]
  simp only [Option.bind_some]
  congr 1
  have := cellNum_div (p := p) hl hk
  rw [show 61 - 2 * l = 2 * (30 - l) + 1 by omega] at this
  rw [this]
  apply BitVec.eq_of_toNat_eq
  have hlt : p / 4 ^ (k - l) < 2 ^ 64 := by
    have := Nat.div_le_self p (4 ^ (k - l))
    have := h.2
    have := pow4_le hk
    omega
  have := Bits.and_mask_eq_mod (BitVec.ofNat 64 (p / 4 ^ (k - l))) 2 (by decide)
  rw [Bits.ofNat_toNat_of_lt hlt] at this
  rw [Bits.ofNat_toNat_of_lt (by omega)]
  exact this

/-! ### Construction from a position -/

theorem or_one (x : U64) : (x ||| 1#64).toNat = 2 * (x.toNat / 2) + 1 := by
  have h : (x ||| 1#64).toNat = x.toNat ||| 1 := by simp
  rw [h]
  apply Nat.eq_of_testBit_eq
  intro i
  rw [Nat.testBit_or]
  cases i with
  | zero => simp [Nat.testBit_zero]
  | succ i =>
    rw [Nat.testBit_succ, Nat.testBit_succ, Nat.testBit_succ]
    simp
    congr 1; omega

theorem pow_posBits : 2 ^ posBits = 2 * W₀ := by rw [show posBits = 61 from rfl]; decide

/-- Positions `pos` are measured in half-leaves within a face. -/
theorem fromFacePosLevel_eq {f l : Nat} {pos : U64} (hf : f < 6) (hpos : pos.toNat < 2 * W₀)
    (hl : l ≤ 30) :
    CellID.fromFacePosLevel (BitVec.ofNat 64 f) pos l
      = some (mk l (f * 4 ^ l + pos.toNat / (2 * E l))) ∧
    IsCell l (f * 4 ^ l + pos.toNat / (2 * E l)) := by
  have hE := E_pos l
  have hpow := pow_mul_E hl
  have hpE : pos.toNat / (2 * E l) < 4 ^ l := by
    apply Nat.div_lt_of_lt_mul
    rw [Nat.mul_assoc, Nat.mul_comm (E l), hpow]; exact hpos
  have hcell : IsCell l (f * 4 ^ l + pos.toNat / (2 * E l)) := by
    refine ⟨hl, ?_⟩
    have : (f + 1) * 4 ^ l ≤ 6 * 4 ^ l := Nat.mul_le_mul_right _ hf
    rw [Nat.add_mul] at this; omega
  refine ⟨?_, hcell⟩
  obtain ⟨P, hP⟩ : ∃ P, P = 2 * W₀ := ⟨_, rfl⟩
  have hor : pos ||| 1#64 = BitVec.ofNat 64 (2 * (pos.toNat / 2) + 1) := by
    apply BitVec.eq_of_toNat_eq
    rw [or_one, Bits.ofNat_toNat_of_lt (by omega)]
  have hleaf : f * P + (2 * (pos.toNat / 2) + 1) = cellNum 30 (f * W₀ + pos.toNat / 2) := by
    rw [cellNum_eq, E_30, hP]; omega
  have hlt : cellNum 30 (f * W₀ + pos.toNat / 2) < 2 ^ 64 := by
    rw [cellNum_eq, E_30]; omega
  have hsh : shl (BitVec.ofNat 64 f) posBits = some (BitVec.ofNat 64 (f * P)) := by
    rw [shl_some (by decide), shiftLeft_ofNat, pow_posBits, hP]
  have hadd : add (BitVec.ofNat 64 (f * P)) (pos ||| 1#64)
      = some (mk 30 (f * W₀ + pos.toNat / 2)).id := by
    rw [hor, add_ofNat (by rw [hleaf]; exact hlt), hleaf]; rfl
  have hpar := parent_mk (leaf_isCell (show f * W₀ + pos.toNat / 2 < 6 * W₀ by omega)) hl
  have hdiv : (f * W₀ + pos.toNat / 2) / E l = f * 4 ^ l + pos.toNat / (2 * E l) := by
    have hfw : f * W₀ = E l * (f * 4 ^ l) := by
      rw [← hpow]; ring
    rw [hfw, Nat.mul_add_div hE, Nat.div_div_eq_div_mul]
  unfold CellID.fromFacePosLevel
  rw [hsh, Option.bind_eq_bind, Option.bind_some, hadd, Option.bind_some,
    ← hdiv]
  exact hpar

theorem fromFace_eq {f : Nat} (hf : f < 6) :
    CellID.fromFace (BitVec.ofNat 64 f) = some (mk 0 f) := by
  obtain ⟨P, hP⟩ : ∃ P, P = 2 * W₀ := ⟨_, rfl⟩
  have hsh : shl (BitVec.ofNat 64 f) posBits = some (BitVec.ofNat 64 (f * P)) := by
    rw [shl_some (by decide), shiftLeft_ofNat, pow_posBits, hP]
  have e : E 0 = W₀ := by decide
  have he : f * P + E 0 = cellNum 0 f := by
    rw [cellNum_eq, e, hP]; omega
  have hlt : cellNum 0 f < 2 ^ 64 := by
    rw [cellNum_eq, e]; omega
  have hadd : add (BitVec.ofNat 64 (f * P)) (BitVec.ofNat 64 (E 0))
      = some (mk 0 f).id := by
    rw [add_ofNat (by rw [he]; exact hlt), he]; rfl
  unfold CellID.fromFace
  rw [hsh, Option.bind_eq_bind, Option.bind_some, lsbForLevel_eq (Nat.zero_le 30),
    Option.bind_some, hadd, Option.bind_some]

/-! ### Maximal tiles -/

/-- A cell or the end marker of a level. -/
def IsLim (l q : Nat) : Prop := l ≤ 30 ∧ q ≤ 6 * 4 ^ l

theorem IsLim.of_cell {l q : Nat} (h : IsCell l q) : IsLim l q := ⟨h.1, Nat.le_of_lt h.2⟩

theorem lim_bound {k p : Nat} (h : IsLim k p) : p * E k ≤ 6 * W₀ := pow_E_le h.1 h.2

theorem lsb_mk' {k p : Nat} (h : IsLim k p) : (mk k p).lsb = some (BitVec.ofNat 64 (E k)) := by
  have hb := lim_bound h
  have hk := h.1
  have hW := E_le_W k
  have hlt : cellNum k p < 2 ^ 64 := by rw [cellNum_eq]; omega
  have hne : cellNum k p ≠ 2 ^ 63 := by
    rw [cellNum_pow]; exact odd_mul_ne (by omega)
  simp only [CellID.lsb, mk, negI64_ofNat hlt hne, Option.bind_eq_bind, Option.bind_some]
  rw [cellNum_pow] at hlt ⊢
  rw [Bits.and_neg_self hlt, E_eq]

theorem rangeMin_mk' {k p : Nat} (h : IsLim k p) :
    (mk k p).rangeMin = some (mk 30 (p * E k)) := by
  have hb := lim_bound h
  have hE := E_pos k
  have hW := E_le_W k
  simp only [CellID.rangeMin, lsb_mk' h, Option.bind_eq_bind, Option.bind_some]
  rw [show (1#64) = BitVec.ofNat 64 1 from rfl, sub_ofNat (by omega) (by omega)]
  simp only [Option.bind_some, mk]
  rw [cellNum_eq, sub_ofNat (by omega) (by omega)]
  simp only [Option.bind_some]
  congr 3
  rw [cellNum_eq, E_30]; omega

theorem leaf_lim {q : Nat} (h : q ≤ 6 * W₀) : IsLim 30 q := ⟨by decide, by rw [W_eq]; exact h⟩

theorem toNat_lim {k p : Nat} (h : IsLim k p) : (mk k p).id.toNat = 2 * (p * E k) + E k :=
  toNat_mk' h.1 h.2

theorem le_iff_lim {k p k' p' : Nat} (h : IsLim k p) (h' : IsLim k' p') :
    (mk k p).id ≤ (mk k' p').id ↔ 2 * (p * E k) + E k ≤ 2 * (p' * E k') + E k' := by
  rw [BitVec.le_def, toNat_lim h, toNat_lim h']

theorem lt_iff_lim {k p k' p' : Nat} (h : IsLim k p) (h' : IsLim k' p') :
    (mk k p).id < (mk k' p').id ↔ 2 * (p * E k) + E k < 2 * (p' * E k') + E k' := by
  rw [BitVec.lt_def, toNat_lim h, toNat_lim h']

/-- The specification of a maximal tile starting at leaf `S` that ends at or before leaf `T`. -/
def MaxTile (S T j r : Nat) : Prop :=
  IsCell j r ∧ r * E j = S ∧ S + E j ≤ T ∧
    ∀ j' r', IsCell j' r' → r' * E j' = S → S + E j' ≤ T → j ≤ j'

theorem hi_lt_limit {k p l q : Nat} (h : IsCell k p) (h' : IsLim l q) (hlt : p * E k < q * E l) :
    (mk 30 (p * E k + E k - 1)).id < (mk l q).id ↔ p * E k + E k ≤ q * E l := by
  have hk := E_pos k
  have hl := E_pos l
  rw [lt_iff_lim (IsLim.of_cell (rangeMax_isCell h)) h', E_30, Nat.mul_one]
  rcases laminar p q h.1 h'.1 with a | a | a | a
  · omega
  · omega
  · constructor
    · intro; exfalso
      rcases Nat.lt_or_ge k l with hkl | hkl
      · -- limit's centre is at most the top of the cell
        omega
      · have : k = l := by omega
        subst this
        omega
    · intro; omega
  · omega

theorem maxTileShrink_mk {l q : Nat} (h' : IsLim l q) : ∀ (n k p : Nat), n = 30 - k → IsCell k p →
    p * E k < q * E l → q * E l < p * E k + E k →
    ∃ j r, CellID.maxTileShrink (mk k p) (mk l q) = some (mk j r) ∧
      MaxTile (p * E k) (q * E l) j r := by
  intro n
  induction n with
  | zero =>
    intro k p hn h h1 h2
    exfalso
    have : k = 30 := by have := h.1; omega
    subst this
    rw [E_30] at h1 h2; omega
  | succ n ih =>
    intro k p hn h h1 h2
    have hk30 : k < 30 := by omega
    have hs := E_succ (show k + 1 ≤ 30 by omega)
    have hc := child_isCell h hk30 (show 0 < 4 by decide)
    have hc : IsCell (k + 1) (4 * p) := hc
    have e1 : 4 * p * E (k + 1) = p * E k := by rw [hs]; ring
    rw [CellID.maxTileShrink]
    simp only [children_mk h hk30, Option.bind_eq_bind, Option.bind_some, List.head?_cons,
      rangeMax_mk hc]
    by_cases hlt : 4 * p * E (k + 1) + E (k + 1) ≤ q * E l
    · rw [if_pos ((hi_lt_limit hc h' (by omega)).2 hlt)]
      refine ⟨_, _, rfl, hc, e1, by omega, ?_⟩
      intro j' r' hj' he hle
      have : ¬ j' ≤ k := by
        intro hjk
        have := E_le_E hjk
        omega
      omega
    · rw [if_neg (fun hh => hlt ((hi_lt_limit hc h' (by omega)).1 hh))]
      have := ih (k + 1) (4 * p) (by omega) hc (by omega) (by omega)
      rw [e1] at this
      exact this

theorem maxTileGrow_mk {l q S : Nat} (h' : IsLim l q) (hS : S ≤ 6 * W₀) :
    ∀ (k p : Nat), IsCell k p → p * E k = S → S + E k ≤ q * E l →
    ∃ j r, CellID.maxTileGrow (mk k p) (mk 30 S) (mk l q) = some (mk j r) ∧
      MaxTile S (q * E l) j r := by
  intro k
  induction k with
  | zero =>
    intro p h e hle
    rw [CellID.maxTileGrow]
    simp only [isFace_mk h, Option.bind_eq_bind, Option.bind_some, decide_true, if_true]
    exact ⟨_, _, rfl, h, e, hle, fun _ _ _ _ _ => Nat.zero_le _⟩
  | succ k ih =>
    intro p h e hle
    have hk := h.1
    have hE := E_pos (k + 1)
    have hs := E_succ (show k + 1 ≤ 30 by omega)
    have hpc : IsCell k (p / 4) := by
      have := parent_isCell h (show k ≤ k + 1 by omega)
      simpa using this
    have hpb := cell_bound hpc
    have hdm := Nat.div_add_mod p 4
    have hml := Nat.mod_lt p (show 0 < 4 by decide)
    have epar : p / 4 * E k + p % 4 * E (k + 1) = S := by
      rw [← e, hs]
      conv_rhs => rw [← hdm]
      ring
    have smaller : ∀ j' r', IsCell j' r' → r' * E j' = S → j' ≤ k → p % 4 = 0 := by
      intro j' r' hj' he hjk
      have hsj := E_split hjk hpc.1
      have : p * E (k + 1) = (4 * (r' * 4 ^ (k - j'))) * E (k + 1) := by
        rw [e, ← he, hsj, hs]; ring
      have := Nat.eq_of_mul_eq_mul_right hE this
      omega
    rw [CellID.maxTileGrow]
    simp only [isFace_mk h, Option.bind_eq_bind, Option.bind_some, immediateParent_mk h,
      rangeMin_mk hpc, rangeMax_mk hpc, Nat.succ_ne_zero, decide_false]
    simp only [Bool.false_eq_true, if_false]
    by_cases hm : p % 4 = 0
    · have hpS : p / 4 * E k = S := by rw [hm] at epar; omega
      rw [hpS]
      simp only [ne_eq, not_true_eq_false, if_false]
      have hhi : (mk l q).id ≤ (mk 30 (S + E k - 1)).id ↔ ¬ (S + E k ≤ q * E l) := by
        have := hi_lt_limit hpc h' (by omega)
        rw [hpS] at this
        rw [← this, BitVec.not_lt]
      by_cases hh : S + E k ≤ q * E l
      · rw [if_neg (by rw [hhi]; simpa using hh)]
        exact ih (p / 4) hpc hpS hh
      · rw [if_pos (by rw [hhi]; exact hh)]
        refine ⟨_, _, rfl, h, e, hle, ?_⟩
        intro j' r' hj' he hle'
        rcases Nat.lt_or_ge k j' with a | a
        · omega
        · have := E_le_E a; omega
    · have hne : mk 30 (p / 4 * E k) ≠ mk 30 S := by
        intro hh
        have h1 := toNat_lim (leaf_lim (show p / 4 * E k ≤ 6 * W₀ by omega))
        have h2 := toNat_lim (leaf_lim hS)
        rw [hh, h2, E_30] at h1
        have : 0 < p % 4 * E (k + 1) := Nat.mul_pos (by omega) hE
        omega
      rw [if_pos hne]
      refine ⟨_, _, rfl, h, e, hle, ?_⟩
      intro j' r' hj' he hle'
      rcases Nat.lt_or_ge k j' with a | a
      · omega
      · exact absurd (smaller j' r' hj' he a) hm

theorem maxTile_stop {k p l q : Nat} (h : IsLim k p) (h' : IsLim l q) (hge : q * E l ≤ p * E k) :
    (mk k p).maxTile (mk l q) = some (mk l q) := by
  simp only [CellID.maxTile, rangeMin_mk' h, rangeMin_mk' h', Option.bind_eq_bind, Option.bind_some]
  rw [if_pos]
  rw [le_iff_lim (leaf_lim (lim_bound h')) (leaf_lim (lim_bound h)), E_30]
  omega

theorem maxTile_mk {k p l q : Nat} (h : IsLim k p) (h' : IsLim l q) (hlt : p * E k < q * E l) :
    ∃ j r, (mk k p).maxTile (mk l q) = some (mk j r) ∧ MaxTile (p * E k) (q * E l) j r := by
  have hc : IsCell k p := by
    refine ⟨h.1, ?_⟩
    have hb' := lim_bound h'
    have := last_num h.1
    exact Nat.lt_of_mul_lt_mul_right (show p * E k < 6 * 4 ^ k * E k by omega)
  simp only [CellID.maxTile, rangeMin_mk' h, rangeMin_mk' h', Option.bind_eq_bind,
    Option.bind_some, rangeMax_mk hc]
  rw [if_neg]
  swap
  · rw [le_iff_lim (leaf_lim (lim_bound h')) (leaf_lim (lim_bound h)), E_30]
    omega
  have hhi : (mk l q).id ≤ (mk 30 (p * E k + E k - 1)).id ↔ ¬ (p * E k + E k ≤ q * E l) := by
    rw [← hi_lt_limit hc h' hlt, BitVec.not_lt]
  by_cases hh : p * E k + E k ≤ q * E l
  · rw [if_neg (by rw [hhi]; simpa using hh)]
    exact maxTileGrow_mk h' (lim_bound h) k p hc rfl hh
  · rw [if_pos (by rw [hhi]; exact hh)]
    exact maxTileShrink_mk h' (30 - k) k p rfl hc hlt (by omega)

end Verif
