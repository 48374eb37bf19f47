import Verif.Proofs.CellIDMore

/-!
# Properties C01-C13, C15, C16: cell identifiers

`Valid c` is the answer `true` of the modelled `is_valid`. The other notions (`IsCell`, `cellNum`,
`HasLeaf`, `iter`) come from `Verif/Spec.lean`, which does not mention the model.
-/

namespace Verif
open Rust Spec

/-- `is_valid()` returns `true`. -/
def Valid (c : CellID) : Prop := c.isValid = some true

theorem valid_mk {k p : Nat} (h : IsCell k p) : Valid (mk k p) := isValid_mk h

theorem Valid.cell {c : CellID} (h : Valid c) : ∃ k p, IsCell k p ∧ c = mk k p := cell_of_valid h

theorem toNat_mk_num {k p : Nat} (h : IsCell k p) : (mk k p).id.toNat = cellNum k p := by
  rw [toNat_mk h, cellNum_eq]

theorem hasLeaf_mk {k p q : Nat} (h : IsCell k p) :
    HasLeaf (mk k p).id.toNat q ↔ LeafIn q k p := by
  constructor
  · rintro ⟨k', p', h', e, hq⟩
    have : mk k p = mk k' p' := by
      have : (mk k p).id = (mk k' p').id := by
        apply BitVec.eq_of_toNat_eq
        rw [e, toNat_mk_num h']
      cases hx : mk k p; cases hy : mk k' p'; simp_all
    obtain ⟨rfl, rfl⟩ := mk_inj h h' this
    exact hq
  · intro hq
    exact ⟨k, p, h, toNat_mk_num h, hq⟩

/-- A number names at most one cell. -/
theorem cellNum_inj {k p k' p' : Nat} (h : IsCell k p) (h' : IsCell k' p')
    (e : cellNum k p = cellNum k' p') : k = k' ∧ p = p' :=
  mk_inj h h' (by rw [mk, mk, e])

/-! ## C01 -/

/-- C01: `is_valid` answers `true` exactly for the numbers of cells. -/
theorem c01_isValid_iff (c : CellID) :
    c.isValid = some true ↔ ∃ k p, IsCell k p ∧ c.id.toNat = cellNum k p := by
  rw [valid_iff_cell]
  constructor
  · rintro ⟨k, p, h, rfl⟩; exact ⟨k, p, h, toNat_mk_num h⟩
  · rintro ⟨k, p, h, e⟩
    refine ⟨k, p, h, ?_⟩
    obtain ⟨b⟩ := c
    rw [mk]
    congr 1
    apply BitVec.eq_of_toNat_eq
    rw [← toNat_mk_num h] at e
    exact e

/-- C01: `is_valid` panics (overflow checks on) for exactly one number, `1 << 63`. -/
theorem c01_isValid_panics_iff (c : CellID) : c.isValid = none ↔ c.id.toNat = 2 ^ 63 := by
  have h63 : c.id.toNat = 2 ^ 63 ↔ c.id = 0x8000000000000000#64 := by
    constructor
    · intro h; apply BitVec.eq_of_toNat_eq; rw [h]; rfl
    · intro h; rw [h]; rfl
  rw [h63, ← lsb_none_iff]
  unfold CellID.isValid
  by_cases hf : c.face < numFaces
  · rw [if_pos hf]
    cases hl : c.lsb with
    | none => simp
    | some l => simp
  · rw [if_neg hf]
    constructor
    · intro h; simp at h
    · intro h
      exfalso
      apply hf
      rw [lsb_none_iff] at h
      rw [CellID.face, h]
      decide

/-- C01: the level, face and leaf test of the cell `(k, p)`. -/
theorem c01_level_face {c : CellID} {k p : Nat} (h : IsCell k p) (e : c.id.toNat = cellNum k p) :
    c.level = some k ∧ c.face = p / 4 ^ k ∧ c.face < 6 ∧ (c.isLeaf = true ↔ k = 30) := by
  have : c = mk k p := by
    obtain ⟨b⟩ := c
    rw [mk]; congr 1
    apply BitVec.eq_of_toNat_eq
    rw [← toNat_mk_num h] at e
    exact e
  subst this
  refine ⟨level_mk h, face_mk h, ?_, ?_⟩
  · rw [face_mk h]; exact face_lt h
  · rw [isLeaf_mk h]; simp

/-- The 64-bit numbers of different cells differ. -/
theorem c01_num_injective {k p k' p' : Nat} (h : IsCell k p) (h' : IsCell k' p')
    (e : cellNum k p = cellNum k' p') : k = k' ∧ p = p' := cellNum_inj h h' e

-- A level-10 cell on face 3, and a valid identifier with it.
example : IsCell 10 (3 * 4 ^ 10 + 12345) := by decide +kernel
example : (CellID.mk 0x6060730000000000#64).isValid = some true := by decide +kernel
example : (CellID.mk 0x6060730000000000#64).id.toNat = cellNum 10 (3 * 4 ^ 10 + 12345) := by decide +kernel
example : (CellID.mk 0#64).isValid = some false := by decide +kernel

/-! ## C02 -/

/-- C02: a cell is the interval of leaves between `range_min` and `range_max`. -/
theorem c02_range {c : CellID} (h : Valid c) :
    ∃ lo hi, c.rangeMin = some lo ∧ c.rangeMax = some hi ∧
      Valid lo ∧ Valid hi ∧ lo.isLeaf = true ∧ hi.isLeaf = true ∧
      (∀ q, HasLeaf c.id.toNat q ↔ lo.id.toNat ≤ 2 * q + 1 ∧ 2 * q + 1 ≤ hi.id.toNat) ∧
      (∀ l k, Valid l → l.isLeaf = true → c.level = some k →
        ((lo.id ≤ l.id ∧ l.id ≤ hi.id) ↔ l.parent k = some c)) := by
  obtain ⟨k, p, hc, rfl⟩ := h.cell
  have hE := E_pos k
  refine ⟨_, _, rangeMin_mk hc, rangeMax_mk hc, valid_mk (rangeMin_isCell hc),
    valid_mk (rangeMax_isCell hc), ?_, ?_, ?_, ?_⟩
  · rw [isLeaf_mk (rangeMin_isCell hc)]; rfl
  · rw [isLeaf_mk (rangeMax_isCell hc)]; rfl
  · intro q
    rw [hasLeaf_mk hc, leafIn_iff, toNat_leaf (rangeMin_isCell hc), toNat_leaf (rangeMax_isCell hc)]
    omega
  · intro l k' hl hleaf hlev
    rw [level_mk hc] at hlev
    obtain rfl := Option.some.inj hlev
    obtain ⟨kl, q, hlc, rfl⟩ := hl.cell
    rw [isLeaf_mk hlc, decide_eq_true_eq] at hleaf
    subst hleaf
    rw [le_iff_mk (rangeMin_isCell hc) hlc, le_iff_mk hlc (rangeMax_isCell hc),
      parent_mk hlc hc.1, E_30]
    have := leafIn_iff (q := q) (k := k) (p := p)
    constructor
    · intro hh
      have : LeafIn q k p := this.2 (by omega)
      rw [LeafIn] at this
      rw [this]
    · intro hh
      have h2 := mk_inj (parent_isCell hlc hc.1) hc (Option.some.inj hh)
      have := this.1 h2.2
      omega

example : Valid (CellID.mk 0x6060730000000000#64) := by unfold Valid; decide +kernel
example : (CellID.mk 0x6060730000000000#64).rangeMin = some (CellID.mk 0x6060720000000001#64) := by
  decide +kernel

/-! ## C03, C04 -/

theorem leafIn_nonempty {k p : Nat} (_ : IsCell k p) : LeafIn (p * E k) k p := by
  have := E_pos k
  rw [leafIn_iff]; omega

theorem subset_iff {k p l q : Nat} :
    (∀ x, LeafIn x l q → LeafIn x k p) ↔ (p * E k ≤ q * E l ∧ q * E l + E l ≤ p * E k + E k) := by
  have hk := E_pos k
  have hl := E_pos l
  simp only [leafIn_iff]
  constructor
  · intro h
    have a := h (q * E l) (by omega)
    have b := h (q * E l + E l - 1) (by omega)
    omega
  · intro h x hx; omega

/-- C03: `contains` is inclusion of leaf sets, and agrees with the ancestor relation. -/
theorem c03_contains {a b : CellID} (ha : Valid a) (hb : Valid b) :
    ∃ r, a.contains b = some r ∧
      (r = true ↔ ∀ q, HasLeaf b.id.toNat q → HasLeaf a.id.toNat q) ∧
      (r = true ↔ ∃ ka kb, a.level = some ka ∧ b.level = some kb ∧ ka ≤ kb ∧ b.parent ka = some a) := by
  obtain ⟨k, p, hc, rfl⟩ := ha.cell
  obtain ⟨l, q, hd, rfl⟩ := hb.cell
  refine ⟨_, contains_mk hc hd, ?_, ?_⟩
  · simp only [hasLeaf_mk hc, hasLeaf_mk hd, subset_iff, decide_eq_true_eq]
  · have h1 := contains_mk_iff hc hd
    rw [contains_mk hc hd, Option.some.injEq] at h1
    rw [h1]
    constructor
    · rintro ⟨hkl, e⟩
      exact ⟨k, l, level_mk hc, level_mk hd, hkl, by rw [parent_mk hd hkl, e]⟩
    · rintro ⟨ka, kb, e1, e2, hle, e3⟩
      rw [level_mk hc] at e1
      rw [level_mk hd] at e2
      obtain rfl := Option.some.inj e1
      obtain rfl := Option.some.inj e2
      rw [parent_mk hd hle] at e3
      exact ⟨hle, (mk_inj (parent_isCell hd hle) hc (Option.some.inj e3)).2⟩

theorem c03_contains_iff {a b : CellID} (ha : Valid a) (hb : Valid b) :
    a.contains b = some true ↔ ∀ q, HasLeaf b.id.toNat q → HasLeaf a.id.toNat q := by
  obtain ⟨r, e, h, _⟩ := c03_contains ha hb
  rw [e, Option.some.injEq, h]

/-- C03: reflexive. -/
theorem c03_refl {a : CellID} (ha : Valid a) : a.contains a = some true :=
  (c03_contains_iff ha ha).2 fun _ h => h

/-- C03: transitive. -/
theorem c03_trans {a b c : CellID} (ha : Valid a) (hb : Valid b) (hc : Valid c)
    (h1 : a.contains b = some true) (h2 : b.contains c = some true) : a.contains c = some true :=
  (c03_contains_iff ha hc).2 fun q h =>
    (c03_contains_iff ha hb).1 h1 q ((c03_contains_iff hb hc).1 h2 q h)

/-- C03: antisymmetric. In particular a cell is determined by its set of leaves. -/
theorem c03_antisymm {a b : CellID} (ha : Valid a) (hb : Valid b)
    (h1 : a.contains b = some true) (h2 : b.contains a = some true) : a = b := by
  obtain ⟨k, p, hc, rfl⟩ := ha.cell
  obtain ⟨l, q, hd, rfl⟩ := hb.cell
  rw [contains_mk_iff hc hd] at h1
  rw [contains_mk_iff hd hc] at h2
  have : k = l := by omega
  subst this
  have := h1.2
  simp at this
  rw [this]

example : (CellID.mk 0x6060730000000000#64).contains (CellID.mk 0x6060740000000000#64) = some false := by
  decide +kernel
example : Valid (CellID.mk 0x6060724000000000#64) ∧
    (CellID.mk 0x6060730000000000#64).contains (CellID.mk 0x6060724000000000#64) = some true := by
  unfold Valid; decide +kernel

/-- C04: `intersects` is having a common leaf, and two cells with a common leaf are nested. -/
theorem c04_intersects {a b : CellID} (ha : Valid a) (hb : Valid b) :
    ∃ r, a.intersects b = some r ∧
      (r = true ↔ ∃ q, HasLeaf a.id.toNat q ∧ HasLeaf b.id.toNat q) ∧
      (r = true ↔ a.contains b = some true ∨ b.contains a = some true) := by
  obtain ⟨k, p, hc, rfl⟩ := ha.cell
  obtain ⟨l, q, hd, rfl⟩ := hb.cell
  have hk := E_pos k
  have hl := E_pos l
  refine ⟨_, intersects_mk hc hd, ?_, ?_⟩
  · simp only [hasLeaf_mk hc, hasLeaf_mk hd, leafIn_iff, decide_eq_true_eq]
    constructor
    · intro h
      refine ⟨max (p * E k) (q * E l), ?_, ?_⟩ <;> omega
    · rintro ⟨x, h1, h2⟩; omega
  · rw [contains_mk hc hd, contains_mk hd hc]
    simp only [Option.some.injEq, decide_eq_true_eq]
    rcases laminar p q hc.1 hd.1 with h | h | h | h <;> omega

example : (CellID.mk 0x6060724000000000#64).intersects (CellID.mk 0x6060730000000000#64) = some true := by
  decide +kernel

/-! ## C05 -/

/-- C05: `parent` is the unique cell of its level containing the cell. -/
theorem c05_parent {c : CellID} {k l : Nat} (h : Valid c) (hk : c.level = some k) (hl : l ≤ k) :
    ∃ a, c.parent l = some a ∧ Valid a ∧ a.level = some l ∧ a.contains c = some true ∧
      ∀ b, Valid b → b.level = some l → b.contains c = some true → b = a := by
  obtain ⟨k', p, hc, rfl⟩ := h.cell
  rw [level_mk hc] at hk
  obtain rfl := Option.some.inj hk
  have hpc := parent_isCell hc hl
  refine ⟨_, parent_mk hc hl, valid_mk hpc, level_mk hpc, ?_, ?_⟩
  · rw [contains_mk_iff hpc hc]; exact ⟨hl, rfl⟩
  · intro b hb hlev hcon
    obtain ⟨l', q, hd, rfl⟩ := hb.cell
    rw [level_mk hd] at hlev
    obtain rfl := Option.some.inj hlev
    rw [contains_mk_iff hd hc] at hcon
    rw [hcon.2]

/-- C05: parents compose; the parent at the own level is the cell. -/
theorem c05_parent_parent {c a : CellID} {k l m : Nat} (h : Valid c) (hk : c.level = some k)
    (hl : l ≤ k) (hm : m ≤ l) (ha : c.parent l = some a) :
    a.parent m = c.parent m ∧ c.parent k = some c := by
  obtain ⟨k', p, hc, rfl⟩ := h.cell
  rw [level_mk hc] at hk
  obtain rfl := Option.some.inj hk
  rw [parent_mk hc hl] at ha
  obtain rfl := Option.some.inj ha
  constructor
  · rw [parent_mk (parent_isCell hc hl) hm, parent_mk hc (by omega), Nat.div_div_eq_div_mul,
      ← Nat.pow_add]
    congr 4; omega
  · rw [parent_mk hc (Nat.le_refl _)]; simp

/-- C05: `immediate_parent` is the parent one level up. -/
theorem c05_immediateParent {c : CellID} {k : Nat} (h : Valid c) (hk : c.level = some (k + 1)) :
    c.immediateParent = c.parent k := by
  obtain ⟨k', p, hc, rfl⟩ := h.cell
  rw [level_mk hc] at hk
  obtain rfl := Option.some.inj hk
  rw [immediateParent_mk hc, parent_mk hc (by omega)]
  simp

/-- C05: `is_face` recognises the level-0 cells. -/
theorem c05_isFace {c : CellID} (h : Valid c) :
    ∃ b, c.isFace = some b ∧ (b = true ↔ c.level = some 0) := by
  obtain ⟨k', p, hc, rfl⟩ := h.cell
  refine ⟨_, isFace_mk hc, ?_⟩
  rw [level_mk hc]; simp

example : Valid (CellID.mk 0x6060724000000000#64) ∧
    (CellID.mk 0x6060724000000000#64).level = some 11 ∧
    (CellID.mk 0x6060724000000000#64).parent 10 = some (CellID.mk 0x6060730000000000#64) := by
  unfold Valid; decide +kernel

/-! ## C06, C07 -/

/-- C06: `children` are four cells one level down, in increasing order, that partition the cell. -/
theorem c06_children {c : CellID} {k : Nat} (h : Valid c) (hk : c.level = some k) (hk30 : k < 30) :
    ∃ xs, c.children = some xs ∧ xs.length = 4 ∧ xs.Pairwise (fun a b => a.id < b.id) ∧
      (∀ x, x ∈ xs ↔ Valid x ∧ x.level = some (k + 1) ∧ c.contains x = some true) ∧
      (∀ x ∈ xs, x.immediateParent = some c) ∧
      (∀ q, HasLeaf c.id.toNat q ↔ ∃ x ∈ xs, HasLeaf x.id.toNat q) ∧
      xs.Pairwise (fun a b => ∀ q, ¬ (HasLeaf a.id.toNat q ∧ HasLeaf b.id.toNat q)) := by
  obtain ⟨k', p, hc, rfl⟩ := h.cell
  rw [level_mk hc] at hk
  obtain rfl := Option.some.inj hk
  have hs := E_succ (show k' + 1 ≤ 30 by omega)
  have hE := E_pos (k' + 1)
  have h0 : IsCell (k' + 1) (4 * p) := child_isCell hc hk30 (show 0 < 4 by decide)
  have h1 := child_isCell hc hk30 (show 1 < 4 by decide)
  have h2 := child_isCell hc hk30 (show 2 < 4 by decide)
  have h3 := child_isCell hc hk30 (show 3 < 4 by decide)
  have e : p * E k' = 4 * (p * E (k' + 1)) := by rw [hs]; ring
  have e0 : 4 * p * E (k' + 1) = 4 * (p * E (k' + 1)) := by ring
  have e1 : (4 * p + 1) * E (k' + 1) = 4 * (p * E (k' + 1)) + E (k' + 1) := by ring
  have e2 : (4 * p + 2) * E (k' + 1) = 4 * (p * E (k' + 1)) + 2 * E (k' + 1) := by ring
  have e3 : (4 * p + 3) * E (k' + 1) = 4 * (p * E (k' + 1)) + 3 * E (k' + 1) := by ring
  refine ⟨_, children_mk hc hk30, rfl, ?_, ?_, ?_, ?_, ?_⟩
  · simp only [List.pairwise_cons, List.mem_cons, forall_eq_or_imp, lt_iff_mk h0 h1, lt_iff_mk h0 h2,
      lt_iff_mk h0 h3, lt_iff_mk h1 h2, lt_iff_mk h1 h3, lt_iff_mk h2 h3, e0, e1, e2, e3]
    simp; omega
  · intro x
    constructor
    · intro hx
      simp only [List.mem_cons, List.not_mem_nil, or_false] at hx
      rcases hx with rfl | rfl | rfl | rfl
      all_goals
        refine ⟨valid_mk ‹_›, level_mk ‹_›, ?_⟩
        rw [contains_mk_iff hc ‹_›]
        refine ⟨by omega, ?_⟩
        rw [show k' + 1 - k' = 1 by omega]; omega
    · rintro ⟨hv, hlev, hcon⟩
      obtain ⟨l, q, hd, rfl⟩ := hv.cell
      rw [level_mk hd] at hlev
      obtain rfl := Option.some.inj hlev
      rw [contains_mk_iff hc hd, show k' + 1 - k' = 1 by omega] at hcon
      have : q = 4 * p ∨ q = 4 * p + 1 ∨ q = 4 * p + 2 ∨ q = 4 * p + 3 := by omega
      rcases this with rfl | rfl | rfl | rfl <;> simp
  · intro x hx
    simp only [List.mem_cons, List.not_mem_nil, or_false] at hx
    rcases hx with rfl | rfl | rfl | rfl
    all_goals
      rw [immediateParent_mk ‹_›]
      congr 2; omega
  · intro q
    simp only [List.mem_cons, List.not_mem_nil, or_false, exists_eq_or_imp, exists_eq_left,
      hasLeaf_mk hc, hasLeaf_mk h0, hasLeaf_mk h1, hasLeaf_mk h2, hasLeaf_mk h3, leafIn_iff, e, e0,
      e1, e2, e3]
    omega
  · simp only [List.pairwise_cons, List.mem_cons, forall_eq_or_imp, hasLeaf_mk h0, hasLeaf_mk h1,
      hasLeaf_mk h2, hasLeaf_mk h3, leafIn_iff, e0, e1, e2, e3]
    refine ⟨⟨?_, ?_, ?_, by simp⟩, ⟨?_, ?_, by simp⟩, ⟨?_, by simp⟩, ?_⟩
    all_goals first | (intro q; omega) | simp

example : Valid (CellID.mk 0x6060730000000000#64) ∧
    (CellID.mk 0x6060730000000000#64).level = some 10 ∧
    (CellID.mk 0x6060730000000000#64).children = some [CellID.mk 0x6060724000000000#64,
      CellID.mk 0x606072c000000000#64, CellID.mk 0x6060734000000000#64,
      CellID.mk 0x606073c000000000#64] := by unfold Valid; decide +kernel

theorem mem_range_iff {a n x : Nat} : x ∈ List.range' a n ↔ a ≤ x ∧ x < a + n := by
  rw [List.mem_range'_1]

/-- C07: `child_iter_at_level` ends and yields each descendant of that level once, in order. -/
theorem c07_childIterAtLevel {c : CellID} {k l : Nat} (h : Valid c) (hk : c.level = some k)
    (hkl : k ≤ l) (hl : l ≤ 30) :
    ∃ it xs, c.childIterAtLevel l = some it ∧ it.collect = some xs ∧ xs.length = 4 ^ (l - k) ∧
      xs.Pairwise (fun a b => a.id < b.id) ∧
      ∀ x, x ∈ xs ↔ Valid x ∧ x.level = some l ∧ c.contains x = some true := by
  obtain ⟨k', p, hc, rfl⟩ := h.cell
  rw [level_mk hc] at hk
  obtain rfl := Option.some.inj hk
  have hbound : p * 4 ^ (l - k') + 4 ^ (l - k') ≤ 6 * 4 ^ l := by
    have h1 : (p + 1) * 4 ^ (l - k') ≤ 6 * 4 ^ k' * 4 ^ (l - k') := Nat.mul_le_mul_right _ hc.2
    have h2 : 6 * 4 ^ k' * 4 ^ (l - k') = 6 * 4 ^ l := by
      rw [Nat.mul_assoc, ← Nat.pow_add]; congr 2; omega
    rw [Nat.add_mul, Nat.one_mul] at h1
    omega
  refine ⟨_, _, ?_, collect_range hl (4 ^ (l - k')) (p * 4 ^ (l - k')) hbound, by simp, ?_, ?_⟩
  · simp only [CellID.childIterAtLevel, childBeginAtLevel_mk hc hkl hl, childEndAtLevel_mk hc hkl hl,
      Option.bind_eq_bind, Option.bind_some]
  · rw [List.pairwise_map]
    have hp : (List.range' (p * 4 ^ (l - k')) (4 ^ (l - k'))).Pairwise (· < ·) :=
      List.pairwise_lt_range'
    refine hp.imp_of_mem ?_
    intro a b ha hb hab
    rw [mem_range_iff] at ha hb
    rw [lt_iff_mk ⟨hl, by omega⟩ ⟨hl, by omega⟩]
    have := Nat.mul_le_mul_right (E l) (show a + 1 ≤ b from hab)
    rw [Nat.add_mul] at this
    have := E_pos l
    omega
  · intro x
    rw [List.mem_map]
    have h4 : 0 < 4 ^ (l - k') := Nat.pow_pos (by decide)
    constructor
    · rintro ⟨a, ha, rfl⟩
      rw [mem_range_iff] at ha
      have hac : IsCell l a := ⟨hl, by omega⟩
      refine ⟨valid_mk hac, level_mk hac, ?_⟩
      rw [contains_mk_iff hc hac]
      refine ⟨hkl, ?_⟩
      rw [Nat.div_eq_iff h4]; omega
    · rintro ⟨hv, hlev, hcon⟩
      obtain ⟨l', q, hd, rfl⟩ := hv.cell
      rw [level_mk hd] at hlev
      obtain rfl := Option.some.inj hlev
      rw [contains_mk_iff hc hd, Nat.div_eq_iff h4] at hcon
      exact ⟨q, by rw [mem_range_iff]; omega, rfl⟩

/-- C07: `child_iter` of a non-leaf cell yields its `children`. -/
theorem c07_childIter {c : CellID} {k : Nat} (h : Valid c) (hk : c.level = some k) (hk30 : k < 30) :
    ∃ it xs, c.childIter = some it ∧ it.collect = some xs ∧ c.children = some xs := by
  obtain ⟨k', p, hc, rfl⟩ := h.cell
  rw [level_mk hc] at hk
  obtain rfl := Option.some.inj hk
  have hp := hc.2
  refine ⟨_, _, ?_, collect_range (show k' + 1 ≤ 30 by omega) 4 (4 * p) ?_, ?_⟩
  · simp only [CellID.childIter, childBegin_mk hc hk30, childEnd_mk hc hk30,
      Option.bind_eq_bind, Option.bind_some]
  · rw [Nat.pow_succ]; omega
  · rw [children_mk hc hk30]; simp [List.range']

example : ∃ it, (CellID.mk 0x6060730000000000#64).childIterAtLevel 30 = some it :=
  Option.isSome_iff_exists.1 (by decide +kernel)

/-! ## C08 -/

theorem odd_mod {p t : Nat} (ht : t < 63) :
    ((2 * p + 1) * 2 ^ t) % 2 ^ 64 = (2 * (p % 2 ^ (63 - t)) + 1) * 2 ^ t := by
  have e : 2 ^ 64 = (2 * 2 ^ (63 - t)) * 2 ^ t := by
    rw [← Nat.pow_succ', ← Nat.pow_add]; congr 1; omega
  rw [e, Nat.mul_mod_mul_right]
  congr 1
  rw [Nat.mod_mul, Nat.mul_add_mod]
  have : (2 * p + 1) / 2 = p := by omega
  rw [this]; omega

theorem lsb_odd {p t : Nat} (ht : t < 63) :
    (CellID.mk (BitVec.ofNat 64 ((2 * p + 1) * 2 ^ t))).lsb = some (BitVec.ofNat 64 (2 ^ t)) := by
  have e : BitVec.ofNat 64 ((2 * p + 1) * 2 ^ t)
      = BitVec.ofNat 64 ((2 * (p % 2 ^ (63 - t)) + 1) * 2 ^ t) := by
    apply BitVec.eq_of_toNat_eq
    rw [BitVec.toNat_ofNat, BitVec.toNat_ofNat, odd_mod ht]
    rw [odd_mod ht]
    simp
  rw [e]
  have hlt : (2 * (p % 2 ^ (63 - t)) + 1) * 2 ^ t < 2 ^ 64 := by
    rw [← odd_mod ht]; exact Nat.mod_lt _ (by decide)
  simp only [CellID.lsb, negI64_ofNat hlt (odd_mul_ne ht), Option.bind_eq_bind, Option.bind_some]
  rw [Bits.and_neg_self hlt]

/-- C08: on all 64-bit numbers but `1 << 63`, `next` and `prev` undo each other, also when they
wrap around. -/
theorem c08_next_prev (c : CellID) (h : c.id.toNat ≠ 2 ^ 63) :
    (∃ n, c.next = some n ∧ n.prev = some c) ∧ (∃ n, c.prev = some n ∧ n.next = some c) := by
  obtain ⟨b⟩ := c
  rcases Nat.eq_zero_or_pos b.toNat with h0 | h0
  · have : b = 0#64 := BitVec.eq_of_toNat_eq h0
    subst this
    exact ⟨⟨_, rfl, rfl⟩, ⟨_, rfl, rfl⟩⟩
  · obtain ⟨p, t, e⟩ := exists_odd_mul _ h0
    have hb : b = BitVec.ofNat 64 ((2 * p + 1) * 2 ^ t) := by
      rw [← e]; simp
    have hlt := b.isLt
    have ht : t < 63 := by
      have h1 : 2 ^ t ≤ b.toNat := by rw [e]; exact Nat.le_mul_of_pos_left _ (by omega)
      have h2 : t < 64 := (Nat.pow_lt_pow_iff_right (a := 2) (by decide)).1 (by omega)
      rcases Nat.lt_or_ge t 63 with h3 | h3
      · exact h3
      · exfalso
        have : t = 63 := by omega
        subst this
        have : p = 0 := by omega
        subst this
        simp only at h
        omega
    subst hb
    have step : ∀ p, (CellID.mk (BitVec.ofNat 64 ((2 * p + 1) * 2 ^ t))).next
        = some (CellID.mk (BitVec.ofNat 64 ((2 * (p + 1) + 1) * 2 ^ t))) := by
      intro p
      simp only [CellID.next, lsb_odd ht, Option.bind_eq_bind, Option.bind_some]
      rw [shiftLeft_ofNat, ← BitVec.ofNat_add]
      congr 3; ring
    have back : ∀ p, (CellID.mk (BitVec.ofNat 64 ((2 * (p + 1) + 1) * 2 ^ t))).prev
        = some (CellID.mk (BitVec.ofNat 64 ((2 * p + 1) * 2 ^ t))) := by
      intro p
      simp only [CellID.prev, lsb_odd ht, Option.bind_eq_bind, Option.bind_some]
      rw [shiftLeft_ofNat]
      congr 2
      rw [BitVec.sub_eq_iff_eq_add, ← BitVec.ofNat_add]
      congr 1; ring
    refine ⟨⟨_, step p, back p⟩, ?_⟩
    -- shift by one full period to step down from `p`
    have per : BitVec.ofNat 64 ((2 * p + 1) * 2 ^ t)
        = BitVec.ofNat 64 ((2 * ((p + 2 ^ (63 - t) - 1) + 1) + 1) * 2 ^ t) := by
      have h1 : 0 < 2 ^ (63 - t) := Nat.two_pow_pos _
      have e : (2 * ((p + 2 ^ (63 - t) - 1) + 1) + 1) * 2 ^ t = (2 * p + 1) * 2 ^ t + 2 ^ 64 := by
        have e : 2 ^ 64 = (2 * 2 ^ (63 - t)) * 2 ^ t := by
          rw [← Nat.pow_succ', ← Nat.pow_add]; congr 1; omega
        rw [e, ← Nat.add_mul]; congr 1; omega
      rw [e, ofNat_wrap]
    rw [per]
    exact ⟨_, back _, step _⟩

/-- C08: the successor of a cell that is not the last of its level is the valid cell of the same
level whose range starts right after it. -/
theorem c08_next_adjacent {c hi : CellID} {k : Nat} (h : Valid c) (hk : c.level = some k)
    (hhi : c.rangeMax = some hi) :
    (hi.id.toNat = 12 * 4 ^ 30 - 1 ∧ ∃ n, c.next = some n ∧ ¬ Valid n) ∨
    (∃ n lo, c.next = some n ∧ Valid n ∧ n.level = some k ∧ n.rangeMin = some lo ∧
      lo.id.toNat = hi.id.toNat + 2) := by
  obtain ⟨k', p, hc, rfl⟩ := h.cell
  rw [level_mk hc] at hk
  obtain rfl := Option.some.inj hk
  rw [rangeMax_mk hc] at hhi
  obtain rfl := Option.some.inj hhi
  have hE := E_pos k'
  have hW := E_le_W k'
  rcases Nat.lt_or_ge (p + 1) (6 * 4 ^ k') with hlt | hge
  · right
    have hn : IsCell k' (p + 1) := ⟨hc.1, hlt⟩
    refine ⟨_, _, next_raw hc, valid_mk hn, level_mk hn, rangeMin_mk hn, ?_⟩
    rw [toNat_leaf (rangeMin_isCell hn), toNat_leaf (rangeMax_isCell hc), Nat.add_mul]
    omega
  · left
    have hp : p + 1 = 6 * 4 ^ k' := by have := hc.2; omega
    have e := last_num hc.1
    rw [← hp, Nat.add_mul] at e
    refine ⟨?_, _, next_raw hc, ?_⟩
    · rw [toNat_leaf (rangeMax_isCell hc), W_eq]; omega
    · intro hv
      rw [Valid, c01_isValid_iff] at hv
      obtain ⟨l, q, hd, e2⟩ := hv
      have := cellNum_lt hd
      rw [toNat_mk' hc.1 (by omega), Nat.add_mul] at e2
      omega

example : Valid (CellID.mk 0x6060730000000000#64) ∧
    (CellID.mk 0x6060730000000000#64).next = some (CellID.mk 0x6060750000000000#64) := by
  unfold Valid; decide +kernel

/-! ## C09, C10, C11 -/

theorem iter_nextWrap {k p : Nat} (h : IsCell k p) : ∀ n,
    iter CellID.nextWrap n (mk k p) = some (mk k ((p + n) % (6 * 4 ^ k))) := by
  intro n
  have hN : 0 < 6 * 4 ^ k := by have := Nat.pow_pos (n := k) (show 0 < 4 by decide); omega
  induction n generalizing p with
  | zero => simp only [iter, Nat.add_zero]; rw [Nat.mod_eq_of_lt h.2]
  | succ n ih =>
    simp only [iter, nextWrap_mk h, Option.bind_some]
    rw [ih ⟨h.1, Nat.mod_lt _ hN⟩]
    congr 2
    rw [Nat.mod_add_mod]; congr 1; omega

theorem iter_prevWrap {k p : Nat} (h : IsCell k p) : ∀ n,
    iter CellID.prevWrap n (mk k p) = some (mk k (((p : Int) - n) % (6 * 4 ^ k : Nat)).toNat) := by
  intro n
  have hN : 0 < 6 * 4 ^ k := by have := Nat.pow_pos (n := k) (show 0 < 4 by decide); omega
  have hp := h.2
  generalize hNN : 6 * 4 ^ k = N at *
  induction n generalizing p with
  | zero =>
    simp only [iter]
    rw [Int.emod_eq_of_lt (by simp) (by omega)]
    simp
  | succ n ih =>
    simp only [iter, prevWrap_mk h, Option.bind_some, hNN]
    have hm := Nat.mod_lt (p + N - 1) hN
    rw [ih ⟨h.1, by rw [hNN]; exact hm⟩ hm]
    congr 3
    push_cast
    have e : ((p + N - 1 : Nat) : Int) = (p : Int) - 1 + N := by omega
    rw [e]
    rw [Int.emod_sub_emod]
    rw [show (p : Int) - 1 + N - n = (p - (n + 1)) + N * 1 by ring, Int.add_mul_emod_self_left]

/-- C09: the wrapping steps stay valid, keep the level and undo each other. -/
theorem c09_wrap_inverse {c : CellID} {k : Nat} (h : Valid c) (hk : c.level = some k) :
    (∃ n, c.nextWrap = some n ∧ Valid n ∧ n.level = some k ∧ n.prevWrap = some c) ∧
    (∃ n, c.prevWrap = some n ∧ Valid n ∧ n.level = some k ∧ n.nextWrap = some c) := by
  obtain ⟨k', p, hc, rfl⟩ := h.cell
  rw [level_mk hc] at hk
  obtain rfl := Option.some.inj hk
  have hp := hc.2
  have hN : 0 < 6 * 4 ^ k' := by omega
  have h1 : IsCell k' ((p + 1) % (6 * 4 ^ k')) := ⟨hc.1, Nat.mod_lt _ hN⟩
  have h2 : IsCell k' ((p + 6 * 4 ^ k' - 1) % (6 * 4 ^ k')) := ⟨hc.1, Nat.mod_lt _ hN⟩
  refine ⟨⟨_, nextWrap_mk hc, valid_mk h1, level_mk h1, ?_⟩,
    ⟨_, prevWrap_mk hc, valid_mk h2, level_mk h2, ?_⟩⟩
  · rw [prevWrap_mk h1]
    congr 2
    generalize 6 * 4 ^ k' = N at *
    rcases Nat.lt_or_ge (p + 1) N with a | a
    · rw [Nat.mod_eq_of_lt a, show p + 1 + N - 1 = p + N by omega, Nat.add_mod_right,
        Nat.mod_eq_of_lt hp]
    · have : p + 1 = N := by omega
      rw [this, Nat.mod_self, Nat.zero_add, Nat.mod_eq_of_lt (by omega)]; omega
  · rw [nextWrap_mk h2]
    congr 2
    rw [Nat.mod_add_mod, show p + 6 * 4 ^ k' - 1 + 1 = p + 6 * 4 ^ k' by omega, Nat.add_mod_right,
      Nat.mod_eq_of_lt hp]

/-- C09: `n` wrapping steps come back to the start iff `n` is a multiple of `6·4^k`. -/
theorem c09_wrap_cycle {c : CellID} {k : Nat} (h : Valid c) (hk : c.level = some k) (n : Nat) :
    (iter CellID.nextWrap n c).isSome ∧ (iter CellID.nextWrap n c = some c ↔ 6 * 4 ^ k ∣ n) := by
  obtain ⟨k', p, hc, rfl⟩ := h.cell
  rw [level_mk hc] at hk
  obtain rfl := Option.some.inj hk
  have hp := hc.2
  have hN : 0 < 6 * 4 ^ k' := by omega
  rw [iter_nextWrap hc]
  refine ⟨rfl, ?_⟩
  constructor
  · intro e
    have := (mk_inj ⟨hc.1, Nat.mod_lt _ hN⟩ hc (Option.some.inj e)).2
    have h2 := Nat.div_add_mod (p + n) (6 * 4 ^ k')
    rw [this] at h2
    exact ⟨_, (show n = 6 * 4 ^ k' * ((p + n) / (6 * 4 ^ k')) by omega)⟩
  · rintro ⟨m, rfl⟩
    rw [Nat.add_mul_mod_self_left, Nat.mod_eq_of_lt hp]

/-- C10: `advance_wrap` is the iteration of the wrapping steps, for every `i64` count. -/
theorem c10_advanceWrap {c : CellID} (h : Valid c) {n : Int} (h1 : -2 ^ 63 ≤ n) (h2 : n < 2 ^ 63) :
    c.advanceWrap n = if 0 ≤ n then iter CellID.nextWrap n.toNat c
      else iter CellID.prevWrap (-n).toNat c := by
  obtain ⟨k, p, hc, rfl⟩ := h.cell
  rw [advanceWrap_mk hc n h1 h2]
  split
  · rw [iter_nextWrap hc]
    have e : (p : Int) + n = ((p + n.toNat : Nat) : Int) := by omega
    rw [e, ← Int.natCast_emod, Int.toNat_natCast]
  · rw [iter_prevWrap hc]
    congr 4; omega

/-- C10: two wrapping advances add up (as long as the sum is an `i64`). -/
theorem c10_advanceWrap_add {c : CellID} (h : Valid c) {m n : Int} (hm1 : -2 ^ 63 ≤ m)
    (hm2 : m < 2 ^ 63) (hn1 : -2 ^ 63 ≤ n) (hn2 : n < 2 ^ 63) (hs1 : -2 ^ 63 ≤ n + m)
    (hs2 : n + m < 2 ^ 63) :
    ∃ d, c.advanceWrap n = some d ∧ Valid d ∧ d.advanceWrap m = c.advanceWrap (n + m) := by
  obtain ⟨k, p, hc, rfl⟩ := h.cell
  have hp := hc.2
  have hN : (0:Int) < (6 * 4 ^ k : Nat) := by omega
  have hd : IsCell k (((p : Int) + n) % (6 * 4 ^ k : Nat)).toNat := by
    refine ⟨hc.1, ?_⟩
    have := Int.emod_lt_of_pos ((p : Int) + n) hN
    have := Int.emod_nonneg ((p : Int) + n) (show ((6 * 4 ^ k : Nat) : Int) ≠ 0 by omega)
    omega
  refine ⟨_, advanceWrap_mk hc n hn1 hn2, valid_mk hd, ?_⟩
  rw [advanceWrap_mk hd m hm1 hm2, advanceWrap_mk hc _ hs1 hs2]
  congr 3
  rw [Int.toNat_of_nonneg (Int.emod_nonneg _ (by omega)), Int.emod_add_emod, Int.add_assoc]

/-- C11: `distance_from_begin` is the position along the curve; `advance` clamps it to the curve
(the position `6·4^k` is the end marker). -/
theorem c11_advance {c : CellID} {k : Nat} (h : Valid c) (hk : c.level = some k) (n : Int) :
    ∃ (d : Nat) (r : CellID), c.distanceFromBegin = some (d : Int) ∧ d < 6 * 4 ^ k ∧
      c.id.toNat = cellNum k d ∧ c.advance n = some r ∧
      r.id.toNat = cellNum k (max 0 (min (6 * 4 ^ k) ((d : Int) + n))).toNat ∧
      (0 ≤ (d : Int) + n → (d : Int) + n < 6 * 4 ^ k →
        Valid r ∧ r.level = some k ∧ r.distanceFromBegin = some (d + n)) := by
  obtain ⟨k', p, hc, rfl⟩ := h.cell
  rw [level_mk hc] at hk
  obtain rfl := Option.some.inj hk
  have hp := hc.2
  have hcast : ((6 * 4 ^ k' : Nat) : Int) = 6 * 4 ^ k' := by push_cast; rfl
  refine ⟨p, _, distanceFromBegin_mk hc, hp, toNat_mk_num hc, advance_mk hc n, ?_, ?_⟩
  · rw [hcast, toNat_mk' hc.1, cellNum_eq]
    rw [← hcast]
    omega
  · intro h1 h2
    rw [← hcast] at h2
    have e : (max 0 (min ((6 * 4 ^ k' : Nat) : Int) ((p : Int) + n))) = (p : Int) + n := by omega
    rw [e]
    have hd : IsCell k' ((p : Int) + n).toNat := ⟨hc.1, by omega⟩
    refine ⟨valid_mk hd, level_mk hd, ?_⟩
    rw [distanceFromBegin_mk hd]
    congr 1; omega

example : (CellID.mk 0x6060730000000000#64).advanceWrap (-9223372036854775808) ≠ none := by decide +kernel
example : (CellID.mk 0x6060730000000000#64).advance 3 = some (CellID.mk 0x6060790000000000#64) := by
  decide +kernel

/-! ## C12, C13 -/

/-- C12: `common_ancestor_level` answers the levels at which the two cells share an ancestor. -/
theorem c12_commonAncestorLevel {a b : CellID} {k l : Nat} (ha : Valid a) (hb : Valid b)
    (hk : a.level = some k) (hl : b.level = some l) :
    ∃ r, a.commonAncestorLevel b = some r ∧ b.commonAncestorLevel a = some r ∧
      (r = none ↔ a.face ≠ b.face) ∧
      ∀ j, (∃ m, r = some m ∧ j ≤ m) ↔ (j ≤ k ∧ j ≤ l ∧ a.parent j = b.parent j) := by
  obtain ⟨k', p, hc, rfl⟩ := ha.cell
  obtain ⟨l', q, hd, rfl⟩ := hb.cell
  rw [level_mk hc] at hk
  obtain rfl := Option.some.inj hk
  rw [level_mk hd] at hl
  obtain rfl := Option.some.inj hl
  obtain ⟨r, e, hr⟩ := commonAncestorLevel_mk hc hd
  obtain ⟨r', e', hr'⟩ := commonAncestorLevel_mk hd hc
  have hrr : r = r' := by
    have same : ∀ j, (∃ m, r = some m ∧ j ≤ m) ↔ (∃ m, r' = some m ∧ j ≤ m) := by
      intro j
      rw [hr, hr']
      constructor
      · rintro ⟨a, b, c⟩; exact ⟨b, a, c.symm⟩
      · rintro ⟨a, b, c⟩; exact ⟨b, a, c.symm⟩
    cases r with
    | none =>
      cases r' with
      | none => rfl
      | some m => have := (same m).2 ⟨m, rfl, Nat.le_refl _⟩; simp at this
    | some m =>
      cases r' with
      | none => have := (same m).1 ⟨m, rfl, Nat.le_refl _⟩; simp at this
      | some m' =>
        have a := (same m).1 ⟨m, rfl, Nat.le_refl _⟩
        have b := (same m').2 ⟨m', rfl, Nat.le_refl _⟩
        simp at a b
        congr 1; omega
  subst hrr
  refine ⟨r, e, e', ?_, ?_⟩
  · have h0 := hr 0
    simp only [Nat.zero_le, true_and, Nat.sub_zero, and_true] at h0
    rw [face_mk hc, face_mk hd]
    cases r with
    | none => simp at h0; simp [h0]
    | some m => simp at h0; simp [h0]
  · intro j
    rw [hr j]
    constructor
    · rintro ⟨h1, h2, h3⟩
      refine ⟨h1, h2, ?_⟩
      rw [parent_mk hc h1, parent_mk hd h2, h3]
    · rintro ⟨h1, h2, h3⟩
      refine ⟨h1, h2, ?_⟩
      rw [parent_mk hc h1, parent_mk hd h2] at h3
      exact (mk_inj (parent_isCell hc h1) (parent_isCell hd h2) (Option.some.inj h3)).2

example : (CellID.mk 0x6060724000000000#64).commonAncestorLevel (CellID.mk 0x6060734000000000#64)
    = some (some 10) := by decide +kernel

/-- C13: `child_position(l)` is the index of the level-`l` ancestor among the children of the
level-`l-1` ancestor. -/
theorem c13_childPosition {c : CellID} {k l : Nat} (h : Valid c) (hk : c.level = some k)
    (hl : l + 1 ≤ k) :
    ∃ i par xs, c.childPosition (l + 1) = some i ∧ i.toNat < 4 ∧ c.parent l = some par ∧
      par.children = some xs ∧ xs[i.toNat]? = c.parent (l + 1) ∧ (c.parent (l + 1)).isSome := by
  obtain ⟨k', p, hc, rfl⟩ := h.cell
  rw [level_mk hc] at hk
  obtain rfl := Option.some.inj hk
  have hpc := parent_isCell hc (show l ≤ k' by omega)
  have hi : (BitVec.ofNat 64 (p / 4 ^ (k' - (l + 1)) % 4)).toNat = p / 4 ^ (k' - (l + 1)) % 4 :=
    Bits.ofNat_toNat_of_lt (by omega)
  refine ⟨_, _, _, childPosition_mk hc hl, ?_, parent_mk hc (by omega),
    children_mk hpc (by have := hc.1; omega), ?_, ?_⟩
  · rw [hi]; omega
  · rw [hi, parent_mk hc hl]
    have e : p / 4 ^ (k' - l) = p / 4 ^ (k' - (l + 1)) / 4 := by
      rw [Nat.div_div_eq_div_mul, ← Nat.pow_succ]; congr 2; omega
    rw [e]
    generalize p / 4 ^ (k' - (l + 1)) = x
    have : x % 4 = 0 ∨ x % 4 = 1 ∨ x % 4 = 2 ∨ x % 4 = 3 := by omega
    rcases this with h | h | h | h <;> rw [h] <;> simp <;> congr 1 <;> omega
  · rw [parent_mk hc hl]; rfl

theorem digits_det : ∀ (k a b : Nat), a / 4 ^ k = b / 4 ^ k →
    (∀ j, j < k → a / 4 ^ j % 4 = b / 4 ^ j % 4) → a = b := by
  intro k
  induction k with
  | zero => intro a b h _; simpa using h
  | succ k ih =>
    intro a b h hj
    apply ih a b ?_ (fun j hjk => hj j (by omega))
    have e : ∀ x : Nat, x / 4 ^ (k + 1) = x / 4 ^ k / 4 := by
      intro x; rw [Nat.pow_succ, Nat.div_div_eq_div_mul]
    rw [e, e] at h
    have := hj k (by omega)
    omega

/-- C13: level, face and child positions determine a cell. -/
theorem c13_positions_determine {a b : CellID} {k : Nat} (ha : Valid a) (hb : Valid b)
    (hka : a.level = some k) (hkb : b.level = some k) (hf : a.face = b.face)
    (hpos : ∀ l, 1 ≤ l → l ≤ k → a.childPosition l = b.childPosition l) : a = b := by
  obtain ⟨k', p, hc, rfl⟩ := ha.cell
  obtain ⟨l', q, hd, rfl⟩ := hb.cell
  rw [level_mk hc] at hka
  obtain rfl := Option.some.inj hka
  rw [level_mk hd] at hkb
  obtain rfl := Option.some.inj hkb
  rw [face_mk hc, face_mk hd] at hf
  congr 1
  apply digits_det l' p q hf
  intro j hj
  have := hpos (l' - j) (by omega) (by omega)
  rw [childPosition_mk hc (by omega), childPosition_mk hd (by omega),
    show l' - (l' - j) = j by omega] at this
  have := congrArg BitVec.toNat (Option.some.inj this)
  rwa [Bits.ofNat_toNat_of_lt (by omega), Bits.ofNat_toNat_of_lt (by omega)] at this

example : (CellID.mk 0x6060734000000000#64).childPosition 11 = some 2#64 := by decide +kernel

/-! ## C15 -/

theorem pos_eq (c : CellID) : c.pos.toNat = c.id.toNat % (2 * W₀) := by
  have h := Bits.and_mask_eq_mod c.id 61 (by decide)
  have e : (~~~ 0#64) >>> 3 = BitVec.ofNat 64 (2 ^ 61 - 1) := by decide
  rw [CellID.pos, e, h]

/-- C15: `from_face_pos_level` is the cell of that level containing the leaf `pos | 1` of the
face. -/
theorem c15_fromFacePosLevel {f pos : U64} {l : Nat} (hf : f.toNat < 6) (hpos : pos.toNat < 2 ^ 61)
    (hl : l ≤ 30) :
    ∃ c, CellID.fromFacePosLevel f pos l = some c ∧ Valid c ∧ c.level = some l ∧
      HasLeaf c.id.toNat (f.toNat * 4 ^ 30 + pos.toNat / 2) := by
  have hpos' : pos.toNat < 2 * W₀ := by omega
  have h := fromFacePosLevel_eq hf hpos' hl
  have e : BitVec.ofNat 64 f.toNat = f := by simp
  rw [e] at h
  refine ⟨_, h.1, valid_mk h.2, level_mk h.2, ?_⟩
  rw [hasLeaf_mk h.2, LeafIn, W_eq, show 4 ^ (30 - l) = E l from rfl]
  have hpow := pow_mul_E hl
  have hfw : f.toNat * W₀ = E l * (f.toNat * 4 ^ l) := by rw [← hpow]; ring
  rw [hfw, Nat.mul_add_div (E_pos l), Nat.div_div_eq_div_mul]

/-- C15: taking a cell apart and putting it together again gives the cell. -/
theorem c15_roundtrip {c : CellID} {k : Nat} (h : Valid c) (hk : c.level = some k) :
    CellID.fromFacePosLevel (BitVec.ofNat 64 c.face) c.pos k = some c := by
  obtain ⟨k', p, hc, rfl⟩ := h.cell
  rw [level_mk hc] at hk
  obtain rfl := Option.some.inj hk
  have hE := E_pos k'
  have hpow := pow_mul_E hc.1
  have hpos : (mk k' p).pos.toNat < 2 * W₀ := by
    rw [pos_eq]; exact Nat.mod_lt _ (by decide)
  rw [face_mk hc, (fromFacePosLevel_eq (face_lt hc) hpos hc.1).1]
  congr 2
  rw [pos_eq, toNat_mk hc]
  have hdm := Nat.div_add_mod p (4 ^ k')
  have hml := Nat.mod_lt p (show 0 < 4 ^ k' from Nat.pow_pos (by decide))
  generalize p / 4 ^ k' = a at *
  generalize hb : p % 4 ^ k' = b at *
  have e1 : 2 * (p * E k') + E k' = (2 * (b * E k') + E k') + (2 * W₀) * a := by
    rw [← hpow, ← hdm]; ring
  have hlt : 2 * (b * E k') + E k' < 2 * W₀ := by
    have := Nat.mul_le_mul_right (E k') (show b + 1 ≤ 4 ^ k' by omega)
    rw [Nat.add_mul, hpow] at this
    omega
  rw [e1, Nat.add_mul_mod_self_left, Nat.mod_eq_of_lt hlt]
  have : (2 * (b * E k') + E k') / (2 * E k') = b := by
    rw [Nat.div_eq_iff (by omega)]
    have : b * (2 * E k') = 2 * (b * E k') := by ring
    omega
  rw [this, ← hdm]; ring

/-- C15: `from_face` is the level-0 cell of the face. -/
theorem c15_fromFace {f : U64} (hf : f.toNat < 6) :
    ∃ c, CellID.fromFace f = some c ∧ Valid c ∧ c.level = some 0 ∧ c.face = f.toNat := by
  have hc : IsCell 0 f.toNat := ⟨by decide, by simpa using hf⟩
  have h := fromFace_eq hf
  have e : BitVec.ofNat 64 f.toNat = f := by simp
  rw [e] at h
  refine ⟨_, h, valid_mk hc, level_mk hc, ?_⟩
  rw [face_mk hc]; simp

example : CellID.fromFacePosLevel 3#64 0x00c20000000001#64 10 ≠ none := by decide +kernel

/-! ## C16 -/

/-- C16: `max_tile` ends; it returns `limit` if the cell does not start before `limit`, and
otherwise the largest cell that starts where the cell starts and ends before `limit` starts.
`limit` is a valid cell or the end marker of a level. -/
theorem c16_maxTile {c limit : CellID} {l q : Nat} (h : Valid c) (hl : l ≤ 30)
    (hq : q ≤ 6 * 4 ^ l) (hlim : limit.id.toNat = cellNum l q) :
    ∃ lo llo r, c.rangeMin = some lo ∧ limit.rangeMin = some llo ∧ c.maxTile limit = some r ∧
      (llo.id ≤ lo.id → r = limit) ∧
      (lo.id < llo.id → Valid r ∧ r.rangeMin = some lo ∧
        (∃ hi, r.rangeMax = some hi ∧ hi.id < llo.id) ∧
        ∀ r' hi', Valid r' → r'.rangeMin = some lo → r'.rangeMax = some hi' → hi'.id < llo.id →
          r.contains r' = some true) := by
  obtain ⟨k, p, hc, rfl⟩ := h.cell
  have hL : IsLim l q := ⟨hl, hq⟩
  have : limit = mk l q := by
    obtain ⟨b⟩ := limit
    rw [mk]; congr 1
    apply BitVec.eq_of_toNat_eq
    have h2 := toNat_lim hL
    rw [← cellNum_eq, ← hlim] at h2
    exact h2.symm
  subst this
  have hLb := lim_bound hL
  have hCb := lim_bound (IsLim.of_cell hc)
  have hcmp : (mk 30 (q * E l)).id ≤ (mk 30 (p * E k)).id ↔ q * E l ≤ p * E k := by
    rw [le_iff_lim (leaf_lim hLb) (leaf_lim hCb), E_30]; omega
  have hcmp' : (mk 30 (p * E k)).id < (mk 30 (q * E l)).id ↔ p * E k < q * E l := by
    rw [lt_iff_lim (leaf_lim hCb) (leaf_lim hLb), E_30]; omega
  rcases Nat.lt_or_ge (p * E k) (q * E l) with hlt | hge
  · obtain ⟨j, r, e, hr, hrS, hrT, hmax⟩ := maxTile_mk (IsLim.of_cell hc) hL hlt
    have hEj := E_pos j
    have hiLt : ∀ x, x + 1 ≤ q * E l → (mk 30 x).id < (mk 30 (q * E l)).id := by
      intro x hx
      rw [lt_iff_lim (leaf_lim (by omega)) (leaf_lim hLb), E_30]; omega
    refine ⟨_, _, _, rangeMin_mk hc, rangeMin_mk' hL, e, ?_, ?_⟩
    · intro hh; rw [hcmp] at hh; omega
    · intro _
      refine ⟨valid_mk hr, by rw [rangeMin_mk hr, hrS], ⟨_, rangeMax_mk hr, ?_⟩, ?_⟩
      · exact hiLt _ (by omega)
      · intro r' hi' hv' hlo' hhi' hlt'
        obtain ⟨j', s, hd, rfl⟩ := hv'.cell
        rw [rangeMin_mk hd] at hlo'
        rw [rangeMax_mk hd] at hhi'
        obtain rfl := Option.some.inj hhi'
        have e1 := (mk_inj (rangeMin_isCell hd) (rangeMin_isCell hc) (Option.some.inj hlo')).2
        have hEj' := E_pos j'
        rw [lt_iff_lim (IsLim.of_cell (rangeMax_isCell hd)) (leaf_lim hLb), E_30] at hlt'
        have := hmax j' s hd e1 (by omega)
        have := E_le_E this
        rw [contains_mk hr hd]
        simp only [Option.some.injEq, decide_eq_true_eq]
        omega
  · refine ⟨_, _, _, rangeMin_mk hc, rangeMin_mk' hL, maxTile_stop (IsLim.of_cell hc) hL hge,
      fun _ => rfl, ?_⟩
    intro hh; rw [hcmp'] at hh; omega

example : IsCell 10 (3 * 4 ^ 10 + 12345) ∧ IsCell 7 (4 * 4 ^ 7 + 17) ∧
    (12345 + 3 * 4 ^ 10) * 4 ^ 20 < (4 * 4 ^ 7 + 17) * 4 ^ 23 := by decide +kernel

end Verif
