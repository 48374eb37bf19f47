import Mathlib.Tactic.Ring
import Verif.Properties.CellID
import Verif.SpecUnion

/-! Helper lemmas: a valid cell as a range `[lo, hi)` of leaves. -/

namespace Verif
open Rust Spec

/-- The level of a cell. -/
def lv (c : CellID) : Nat := c.level.getD 0
/-- The position of a cell along the curve at its level. -/
def px (c : CellID) : Nat := c.id.toNat / (2 * E (lv c))
/-- First leaf. -/
def lo (c : CellID) : Nat := px c * E (lv c)
/-- One past the last leaf. -/
def hi (c : CellID) : Nat := px c * E (lv c) + E (lv c)

theorem lv_mk {k p : Nat} (h : IsCell k p) : lv (mk k p) = k := by simp [lv, level_mk h]

theorem px_mk {k p : Nat} (h : IsCell k p) : px (mk k p) = p := by
  rw [px, lv_mk h, toNat_mk h]
  have := E_pos k
  rw [Nat.div_eq_iff (by omega)]
  have : p * (2 * E k) = 2 * (p * E k) := by ring
  omega

theorem lo_mk {k p : Nat} (h : IsCell k p) : lo (mk k p) = p * E k := by rw [lo, lv_mk h, px_mk h]
theorem hi_mk {k p : Nat} (h : IsCell k p) : hi (mk k p) = p * E k + E k := by
  rw [hi, lv_mk h, px_mk h]

theorem Valid.isCell {c : CellID} (h : Valid c) : IsCell (lv c) (px c) := by
  obtain ⟨k, p, hc, rfl⟩ := h.cell
  rw [lv_mk hc, px_mk hc]; exact hc

theorem Valid.eq {c : CellID} (h : Valid c) : c = mk (lv c) (px c) := by
  obtain ⟨k, p, hc, rfl⟩ := h.cell
  rw [lv_mk hc, px_mk hc]

theorem valid_iff_num (c : CellID) : Valid c ↔ ∃ k p, IsCell k p ∧ c.id.toNat = cellNum k p :=
  c01_isValid_iff c

theorem Valid.level {c : CellID} (h : Valid c) : c.level = some (lv c) := by
  obtain ⟨k, p, hc, rfl⟩ := h.cell
  rw [level_mk hc, lv_mk hc]

theorem Valid.lv_le {c : CellID} (h : Valid c) : lv c ≤ 30 := h.isCell.1

theorem hi_eq (c : CellID) : hi c = lo c + E (lv c) := rfl

theorem lo_lt_hi (c : CellID) : lo c < hi c := by
  have := E_pos (lv c); rw [hi_eq]; omega

theorem Valid.hi_le {c : CellID} (h : Valid c) : hi c ≤ 6 * W₀ := by
  obtain ⟨k, p, hc, rfl⟩ := h.cell
  rw [hi_mk hc]; exact cell_bound hc

theorem Valid.toNat {c : CellID} (h : Valid c) : c.id.toNat = lo c + hi c := by
  obtain ⟨k, p, hc, rfl⟩ := h.cell
  rw [toNat_mk hc, lo_mk hc, hi_mk hc]; omega

theorem Valid.hasLeaf {c : CellID} (h : Valid c) (q : Nat) :
    HasLeaf c.id.toNat q ↔ lo c ≤ q ∧ q < hi c := by
  obtain ⟨k, p, hc, rfl⟩ := h.cell
  rw [hasLeaf_mk hc, leafIn_iff, lo_mk hc, hi_mk hc]

theorem Valid.rangeMin {c : CellID} (h : Valid c) : c.rangeMin = some (mk 30 (lo c)) := by
  obtain ⟨k, p, hc, rfl⟩ := h.cell
  rw [rangeMin_mk hc, lo_mk hc]

theorem Valid.rangeMax {c : CellID} (h : Valid c) : c.rangeMax = some (mk 30 (hi c - 1)) := by
  obtain ⟨k, p, hc, rfl⟩ := h.cell
  rw [rangeMax_mk hc, hi_mk hc]

theorem toNat_leaf' {q : Nat} (h : q ≤ 6 * W₀) : (mk 30 q).id.toNat = 2 * q + 1 := by
  rw [toNat_lim (leaf_lim h), E_30]; omega

theorem Valid.toNat_lo {c : CellID} (h : Valid c) : (mk 30 (lo c)).id.toNat = 2 * lo c + 1 :=
  toNat_leaf' (by have := h.hi_le; have := lo_lt_hi c; omega)

theorem Valid.toNat_hi {c : CellID} (h : Valid c) :
    (mk 30 (hi c - 1)).id.toNat = 2 * hi c - 1 := by
  rw [toNat_leaf' (by have := h.hi_le; omega)]
  have := lo_lt_hi c; omega

theorem Valid.contains {a b : CellID} (ha : Valid a) (hb : Valid b) :
    a.contains b = some (decide (lo a ≤ lo b ∧ hi b ≤ hi a)) := by
  obtain ⟨k, p, hc, rfl⟩ := ha.cell
  obtain ⟨l, q, hd, rfl⟩ := hb.cell
  rw [contains_mk hc hd, lo_mk hc, lo_mk hd, hi_mk hc, hi_mk hd]

/-- Two cells are disjoint or nested. -/
theorem Valid.lam {a b : CellID} (ha : Valid a) (hb : Valid b) :
    hi a ≤ lo b ∨ hi b ≤ lo a ∨ (lo a ≤ lo b ∧ hi b ≤ hi a) ∨ (lo b ≤ lo a ∧ hi a ≤ hi b) := by
  obtain ⟨k, p, hc, rfl⟩ := ha.cell
  obtain ⟨l, q, hd, rfl⟩ := hb.cell
  rw [lo_mk hc, lo_mk hd, hi_mk hc, hi_mk hd]
  rcases laminar p q hc.1 hd.1 with h | h | h | h <;> omega

theorem Valid.ext {a b : CellID} (ha : Valid a) (hb : Valid b) (h1 : lo a = lo b)
    (h2 : hi a = hi b) : a = b := by
  have : a.id = b.id := by
    apply BitVec.eq_of_toNat_eq
    rw [ha.toNat, hb.toNat, h1, h2]
  cases a; cases b; simp_all

theorem id_le_iff (a b : CellID) : a.id ≤ b.id ↔ a.id.toNat ≤ b.id.toNat := BitVec.le_def
theorem id_lt_iff (a b : CellID) : a.id < b.id ↔ a.id.toNat < b.id.toNat := BitVec.lt_def

theorem Valid.leaf_mk {q : Nat} (h : q < 6 * W₀) : Valid (mk 30 q) := valid_mk (leaf_isCell h)

theorem lo_leaf {q : Nat} (h : q < 6 * W₀) : lo (mk 30 q) = q := by
  rw [lo_mk (leaf_isCell h), E_30]; omega
theorem hi_leaf {q : Nat} (h : q < 6 * W₀) : hi (mk 30 q) = q + 1 := by
  rw [hi_mk (leaf_isCell h), E_30]; omega

/-- The `i`-th child. -/
def kid (c : CellID) (i : Nat) : CellID := mk (lv c + 1) (4 * px c + i)

theorem kid_valid {c : CellID} (h : Valid c) (hl : lv c < 30) {i : Nat} (hi4 : i < 4) :
    Valid (kid c i) := valid_mk (child_isCell h.isCell hl hi4)

theorem lv_kid {c : CellID} (h : Valid c) (hl : lv c < 30) {i : Nat} (hi4 : i < 4) :
    lv (kid c i) = lv c + 1 := lv_mk (child_isCell h.isCell hl hi4)

theorem px_kid {c : CellID} (h : Valid c) (hl : lv c < 30) {i : Nat} (hi4 : i < 4) :
    px (kid c i) = 4 * px c + i := px_mk (child_isCell h.isCell hl hi4)

theorem lo_kid {c : CellID} (h : Valid c) (hl : lv c < 30) {i : Nat} (hi4 : i < 4) :
    lo (kid c i) = lo c + i * E (lv c + 1) := by
  rw [kid, lo_mk (child_isCell h.isCell hl hi4), lo, E_succ (show lv c + 1 ≤ 30 by omega)]; ring

theorem hi_kid {c : CellID} (h : Valid c) (hl : lv c < 30) {i : Nat} (hi4 : i < 4) :
    hi (kid c i) = lo c + (i + 1) * E (lv c + 1) := by
  rw [hi_eq, lo_kid h hl hi4, lv_kid h hl hi4]; ring

theorem hi_eq4 {c : CellID} (hl : lv c < 30) : hi c = lo c + 4 * E (lv c + 1) := by
  rw [hi_eq, E_succ (show lv c + 1 ≤ 30 by omega)]

theorem kid_num {c : CellID} (h : Valid c) (hl : lv c < 30) {i : Nat} (hi4 : i < 4) :
    (kid c i).id.toNat = cellNum (lv c + 1) (4 * px c + i) :=
  toNat_mk_num (child_isCell h.isCell hl hi4)

/-- A cell strictly inside another lies in one of its children. -/
theorem exists_kid {c d : CellID} (hc : Valid c) (hd : Valid d) (h1 : lo c ≤ lo d)
    (h2 : hi d ≤ hi c) (hne : c ≠ d) :
    lv c < 30 ∧ ∃ i, i < 4 ∧ lo (kid c i) ≤ lo d ∧ hi d ≤ hi (kid c i) := by
  have hlt : lv c < lv d := by
    rcases Nat.lt_or_ge (lv c) (lv d) with h | h
    · exact h
    · exfalso
      have := E_le_E h
      rw [hi_eq] at h2
      have e : hi c = lo c + E (lv c) := rfl
      apply hne
      exact hc.ext hd (by omega) (by rw [hi_eq d]; omega)
  have hl : lv c < 30 := by have := hd.lv_le; omega
  refine ⟨hl, ?_⟩
  have hE := E_pos (lv c + 1)
  have hdl := lo_lt_hi d
  have e4 := hi_eq4 hl
  have key : ∀ i, i < 4 → (lo c + i * E (lv c + 1) ≤ lo d ∧ lo d < lo c + (i + 1) * E (lv c + 1)) →
      lo (kid c i) ≤ lo d ∧ hi d ≤ hi (kid c i) := by
    intro i hi4 hh
    have l := (kid_valid hc hl hi4).lam hd
    have a := lo_kid hc hl hi4
    have b := hi_kid hc hl hi4
    have hle : hi d ≤ lo d + E (lv c + 1) := by
      rw [hi_eq]; have := E_le_E (show lv c + 1 ≤ lv d by omega); omega
    have hke : hi (kid c i) = lo (kid c i) + E (lv c + 1) := by rw [a, b]; ring
    omega
  rcases Nat.lt_or_ge (lo d) (lo c + E (lv c + 1)) with g | g
  · exact ⟨0, by decide, key 0 (by decide) (by omega)⟩
  · rcases Nat.lt_or_ge (lo d) (lo c + 2 * E (lv c + 1)) with g | g
    · exact ⟨1, by decide, key 1 (by decide) (by omega)⟩
    · rcases Nat.lt_or_ge (lo d) (lo c + 3 * E (lv c + 1)) with g | g
      · exact ⟨2, by decide, key 2 (by decide) (by omega)⟩
      · exact ⟨3, by decide, key 3 (by decide) (by omega)⟩

/-! ### Unions -/

theorem allCells_iff (v : List CellID) : AllCells v ↔ ∀ c ∈ v, Valid c := by
  unfold AllCells
  constructor
  · intro h c hc; exact (valid_iff_num c).2 (h c hc)
  · intro h c hc; exact (valid_iff_num c).1 (h c hc)

/-- Ranges in increasing order. -/
def Asc (v : List CellID) : Prop := v.Pairwise fun a b => hi a ≤ lo b

theorem ordered_iff {v : List CellID} (hv : ∀ c ∈ v, Valid c) : Ordered v ↔ Asc v := by
  unfold Ordered Asc
  constructor
  · intro h
    refine h.imp_of_mem ?_
    intro a b ha hb hh
    have h1 := lo_lt_hi a
    have h2 := lo_lt_hi b
    have := hh (hi a - 1) (lo b) (((hv a ha).hasLeaf _).2 (by omega))
      (((hv b hb).hasLeaf _).2 (by omega))
    omega
  · intro h
    refine h.imp_of_mem ?_
    intro a b ha hb hh q r hq hr
    rw [(hv a ha).hasLeaf] at hq
    rw [(hv b hb).hasLeaf] at hr
    omega

theorem covers_iff {v : List CellID} (hv : ∀ c ∈ v, Valid c) (q : Nat) :
    Covers v q ↔ ∃ c ∈ v, lo c ≤ q ∧ q < hi c := by
  unfold Covers
  constructor
  · rintro ⟨c, hc, h⟩; exact ⟨c, hc, ((hv c hc).hasLeaf q).1 h⟩
  · rintro ⟨c, hc, h⟩; exact ⟨c, hc, ((hv c hc).hasLeaf q).2 h⟩

/-- No four children of one cell. -/
def NoKids (v : List CellID) : Prop :=
  ∀ c, Valid c → lv c < 30 → ¬ ∀ i, i < 4 → kid c i ∈ v

theorem eq_of_toNat {a b : CellID} (h : a.id.toNat = b.id.toNat) : a = b := by
  have : a.id = b.id := BitVec.eq_of_toNat_eq h
  cases a; cases b; simp_all

theorem noSiblings_iff (v : List CellID) : NoSiblings v ↔ NoKids v := by
  unfold NoSiblings NoKids
  constructor
  · intro h c hc hl hk
    apply h
    refine ⟨lv c, px c, hc.isCell, hl, ?_⟩
    intro i hi4
    exact ⟨kid c i, hk i hi4, kid_num hc hl hi4⟩
  · rintro h ⟨k, p, hc, hk, hh⟩
    have hv := valid_mk hc
    have hl : lv (mk k p) < 30 := by rw [lv_mk hc]; exact hk
    apply h (mk k p) hv hl
    intro i hi4
    obtain ⟨c, hcm, e⟩ := hh i hi4
    have : c = kid (mk k p) i := by
      apply eq_of_toNat
      rw [e, kid_num hv hl hi4, lv_mk hc, px_mk hc]
    rw [← this]; exact hcm

theorem isUnion_iff (v : List CellID) : IsUnion v ↔ (∀ c ∈ v, Valid c) ∧ Asc v := by
  unfold IsUnion
  rw [allCells_iff]
  constructor
  · rintro ⟨a, b⟩; exact ⟨a, (ordered_iff a).1 b⟩
  · rintro ⟨a, b⟩; exact ⟨a, (ordered_iff a).2 b⟩

theorem normal_iff (v : List CellID) : Normal v ↔ (∀ c ∈ v, Valid c) ∧ Asc v ∧ NoKids v := by
  unfold Normal
  rw [isUnion_iff, noSiblings_iff, and_assoc]

/-- In an ordered union, two cells with overlapping ranges are equal. -/
theorem Asc.eq_of_overlap {v : List CellID} (hv : Asc v) {a b : CellID} (ha : a ∈ v) (hb : b ∈ v)
    (h1 : lo a < hi b) (h2 : lo b < hi a) : a = b := by
  induction v with
  | nil => simp at ha
  | cons x rest ih =>
    have hx := List.pairwise_cons.1 hv
    rcases List.mem_cons.1 ha with rfl | ha'
    · rcases List.mem_cons.1 hb with rfl | hb'
      · rfl
      · have := hx.1 b hb'; omega
    · rcases List.mem_cons.1 hb with rfl | hb'
      · have := hx.1 a ha'; omega
      · exact ih hx.2 ha' hb'

/-- A normalized union that covers all of a cell has an element containing that cell. -/
theorem exists_super {v : List CellID} (hv : ∀ c ∈ v, Valid c) (hs : NoKids v) :
    ∀ (n : Nat) (c : CellID), n = 30 - lv c → Valid c →
      (∀ q, lo c ≤ q → q < hi c → Covers v q) → ∃ a ∈ v, lo a ≤ lo c ∧ hi c ≤ hi a := by
  intro n
  induction n with
  | zero =>
    intro c hn hc hcov
    have hl : lv c = 30 := by have := hc.lv_le; omega
    have he : hi c = lo c + 1 := by rw [hi_eq, hl, E_30]
    obtain ⟨a, ha, h⟩ := (covers_iff hv _).1 (hcov (lo c) (by omega) (by omega))
    exact ⟨a, ha, by omega, by omega⟩
  | succ n ih =>
    intro c hn hc hcov
    have hl : lv c < 30 := by omega
    have e4 := hi_eq4 hl
    by_contra hno
    apply hs c hc hl
    intro i hi4
    have hkv := kid_valid hc hl hi4
    have hkl := lo_kid hc hl hi4
    have hkh := hi_kid hc hl hi4
    have hE := E_pos (lv c + 1)
    have hsub : lo c ≤ lo (kid c i) ∧ hi (kid c i) ≤ hi c := by
      have := Nat.mul_le_mul_right (E (lv c + 1)) (show i + 1 ≤ 4 from hi4)
      rw [hkl, hkh]; omega
    obtain ⟨a, ha, h1, h2⟩ := ih (kid c i) (by rw [lv_kid hc hl hi4]; omega) hkv
      (fun q a b => hcov q (by omega) (by omega))
    have hav := hv a ha
    have hlt := lo_lt_hi (kid c i)
    have hnot : ¬ (lo a ≤ lo c ∧ hi c ≤ hi a) := fun hh => hno ⟨a, ha, hh⟩
    rcases hav.lam hc with l | l | l | l
    · omega
    · omega
    · exact absurd l hnot
    · -- `a` lies strictly inside `c`: it is inside a child, hence the child itself
      have hne : c ≠ a := by
        rintro rfl; omega
      obtain ⟨_, j, hj, h3, h4⟩ := exists_kid hc hav l.1 l.2 hne
      have hjl := lo_kid hc hl hj
      have hjh := hi_kid hc hl hj
      have : i = j := by
        have hal := lo_lt_hi a
        rcases Nat.lt_trichotomy i j with g | g | g
        · have := Nat.mul_le_mul_right (E (lv c + 1)) (show i + 1 ≤ j from g)
          omega
        · exact g
        · have := Nat.mul_le_mul_right (E (lv c + 1)) (show j + 1 ≤ i from g)
          omega
      subst this
      have : kid c i = a := hkv.ext hav (by omega) (by omega)
      rw [this]; exact ha

theorem exists_super' {v : List CellID} (hv : ∀ c ∈ v, Valid c) (hs : NoKids v) {c : CellID}
    (hc : Valid c) (hcov : ∀ q, lo c ≤ q → q < hi c → Covers v q) :
    ∃ a ∈ v, lo a ≤ lo c ∧ hi c ≤ hi a := exists_super hv hs _ c rfl hc hcov

/-- Ordered unions with the same members are the same list. -/
theorem Asc.eq_of_mem {u v : List CellID} (hu : Asc u) (hv : Asc v) (h : ∀ c, c ∈ u ↔ c ∈ v) :
    u = v := by
  induction u generalizing v with
  | nil =>
    cases v with
    | nil => rfl
    | cons x rest => have := (h x).2 (by simp); simp at this
  | cons x rest ih =>
    cases v with
    | nil => have := (h x).1 (by simp); simp at this
    | cons y rest' =>
      have hx := List.pairwise_cons.1 hu
      have hy := List.pairwise_cons.1 hv
      have hxy : x = y := by
        rcases List.mem_cons.1 ((h x).1 (by simp)) with e | e
        · exact e
        · rcases List.mem_cons.1 ((h y).2 (by simp)) with e' | e'
          · exact e'.symm
          · have a := hy.1 x e
            have b := hx.1 y e'
            have := lo_lt_hi x
            have := lo_lt_hi y
            omega
      subst hxy
      congr 1
      apply ih hx.2 hy.2
      intro c
      constructor
      · intro hc
        rcases List.mem_cons.1 ((h c).1 (List.mem_cons_of_mem _ hc)) with e | e
        · subst e
          have := hx.1 c hc
          have := lo_lt_hi c
          omega
        · exact e
      · intro hc
        rcases List.mem_cons.1 ((h c).2 (List.mem_cons_of_mem _ hc)) with e | e
        · subst e
          have := hy.1 c hc
          have := lo_lt_hi c
          omega
        · exact e

/-- Normalized unions covering the same leaves are equal. -/
theorem normal_unique {u v : List CellID} (hu : Normal u) (hv : Normal v)
    (h : ∀ q, Covers u q ↔ Covers v q) : u = v := by
  rw [normal_iff] at hu hv
  obtain ⟨hu1, hu2, hu3⟩ := hu
  obtain ⟨hv1, hv2, hv3⟩ := hv
  have half : ∀ {u v : List CellID}, (∀ c ∈ u, Valid c) → Asc u → NoKids u →
      (∀ c ∈ v, Valid c) → NoKids v → (∀ q, Covers u q ↔ Covers v q) → ∀ c ∈ u, c ∈ v := by
    intro u v hu1 hu2 hu3 hv1 hv3 h c hc
    have hcv := hu1 c hc
    obtain ⟨b, hb, b1, b2⟩ := exists_super' hv1 hv3 hcv (fun q x y =>
      (h q).1 ((covers_iff hu1 q).2 ⟨c, hc, x, y⟩))
    obtain ⟨a, ha, a1, a2⟩ := exists_super' hu1 hu3 (hv1 b hb) (fun q x y =>
      (h q).2 ((covers_iff hv1 q).2 ⟨b, hb, x, y⟩))
    have hlt := lo_lt_hi c
    have hac : c = a := hu2.eq_of_overlap hc ha (by omega) (by omega)
    subst hac
    have : c = b := hcv.ext (hv1 b hb) (by omega) (by omega)
    rw [this]; exact hb
  apply hu2.eq_of_mem hv2
  intro c
  exact ⟨half hu1 hu2 hu3 hv1 hv3 h c, half hv1 hv2 hv3 hu1 hu3 (fun q => (h q).symm) c⟩

/-- A normalized union has the fewest cells among all lists covering the same leaves. -/
theorem normal_min {u z : List CellID} (hu : Normal u) (hz : ∀ c ∈ z, Valid c)
    (h : ∀ q, Covers u q ↔ Covers z q) : u.length ≤ z.length := by
  rw [normal_iff] at hu
  obtain ⟨hu1, hu2, hu3⟩ := hu
  -- every cell of `u` contains a cell of `z` that determines it
  have hex : ∀ c ∈ u, ∃ d ∈ z, lo c ≤ lo d ∧ hi d ≤ hi c := by
    intro c hc
    have hlt := lo_lt_hi c
    obtain ⟨d, hd, d1, d2⟩ := (covers_iff hz (lo c)).1
      ((h (lo c)).1 ((covers_iff hu1 _).2 ⟨c, hc, by omega, by omega⟩))
    obtain ⟨a, ha, a1, a2⟩ := exists_super' hu1 hu3 (hz d hd) (fun q x y =>
      (h q).2 ((covers_iff hz q).2 ⟨d, hd, x, y⟩))
    have hac : c = a := hu2.eq_of_overlap hc ha (by omega) (by omega)
    subst hac
    exact ⟨d, hd, a1, a2⟩
  clear h hu3
  induction u generalizing z with
  | nil => simp
  | cons c rest ih =>
    have hx := List.pairwise_cons.1 hu2
    obtain ⟨d, hd, d1, d2⟩ := hex c (by simp)
    have hdl := lo_lt_hi d
    obtain ⟨s, t, rfl⟩ := List.append_of_mem hd
    have := ih (z := s ++ t) (fun x hx => hz x (by simp at hx ⊢; tauto))
      (fun x hx => hu1 x (List.mem_cons_of_mem _ hx)) hx.2 ?_
    · simp at this ⊢; omega
    · intro c' hc'
      obtain ⟨d', hd', e1, e2⟩ := hex c' (List.mem_cons_of_mem _ hc')
      have hcc := hx.1 c' hc'
      refine ⟨d', ?_, e1, e2⟩
      simp at hd' ⊢
      rcases hd' with g | g | g
      · exact Or.inl g
      · subst g; omega
      · exact Or.inr g

end Verif
