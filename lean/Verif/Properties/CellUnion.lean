import Verif.Proofs.UnionMisc

/-!
# Properties C17 and C26 to C40: cell unions

The vocabulary (`AllCells`, `Covers`, `IsUnion`, `Normal`, `HasLeaf`) is that of `Verif.Spec` and
`Verif.SpecUnion`: leaf positions and sets of leaves, not the modelled operations.
-/

namespace Verif
open Rust Spec CellUnion

theorem union_cells {v : List CellID} (h : IsUnion v) : ∀ c ∈ v, Valid c := ((isUnion_iff v).1 h).1
theorem union_asc {v : List CellID} (h : IsUnion v) : Asc v := ((isUnion_iff v).1 h).2

/-! ## C39 -/

/-- C39: `is_valid` answers true exactly for ordered, non-overlapping lists of cells, and panics
only if the list contains `1 << 63`. -/
theorem c39_isValid (v : List CellID) :
    (CellUnion.isValid v = some true ↔ IsUnion v) ∧
    ((∀ c ∈ v, c.id.toNat ≠ 2 ^ 63) → ∃ b, CellUnion.isValid v = some b) := by
  obtain ⟨h1, h2⟩ := isValid_spec v
  refine ⟨by rw [h1, isUnion_iff], ?_⟩
  intro h
  cases e : CellUnion.isValid v with
  | none => exact absurd e (h2 h)
  | some b => exact ⟨b, rfl⟩

/-- C39: `is_normalized` answers true exactly for valid unions without four siblings. -/
theorem c39_isNormalized (v : List CellID) :
    (isNormalized v = some true ↔ Normal v) ∧
    ((∀ c ∈ v, c.id.toNat ≠ 2 ^ 63) → ∃ b, isNormalized v = some b) := by
  obtain ⟨h1, h2⟩ := isNormalized_spec v
  refine ⟨by rw [h1, normal_iff], ?_⟩
  intro h
  cases e : isNormalized v with
  | none => exact absurd e (h2 h)
  | some b => exact ⟨b, rfl⟩

/-- A normalized union used in the examples: a face, a level-1 cell and a level-10 cell. -/
def exU : List CellID := [⟨0x1000000000000000#64⟩, ⟨0x2400000000000000#64⟩, ⟨0x6060730000000000#64⟩]
/-- The four children of face 0, out of order, with a repetition and a leaf of face 2. -/
def exV : List CellID := [⟨0x1c00000000000000#64⟩, ⟨0x0400000000000000#64⟩, ⟨0x4000000000000001#64⟩,
  ⟨0x1400000000000000#64⟩, ⟨0x0c00000000000000#64⟩, ⟨0x0400000000000000#64⟩]

theorem exU_normal : Normal exU := (c39_isNormalized _).1.1 (by decide +kernel)
theorem exV_cells : AllCells exV := by
  rw [allCells_iff]; unfold Valid; decide +kernel

example : isNormalized [⟨0x0400000000000000#64⟩, ⟨0x0c00000000000000#64⟩, ⟨0x1400000000000000#64⟩,
    ⟨0x1c00000000000000#64⟩] = some false := by decide +kernel
example : CellUnion.isValid exV = some false := by decide +kernel

/-! ## C26, C27, C28 -/

/-- C26: `normalize` does not panic and keeps the set of covered leaves. -/
theorem c26_normalize_covers {v : List CellID} (hv : AllCells v) :
    ∃ u, normalize v = some u ∧ ∀ q, Covers u q ↔ Covers v q := by
  rw [allCells_iff] at hv
  obtain ⟨u, e, h1, _, _, h4⟩ := normalize_spec hv
  exact ⟨u, e, fun q => by rw [cov_iff h1, cov_iff hv, h4]⟩

/-- C27: the result of `normalize` is normalized, and `is_normalized` says so. -/
theorem c27_normalize_normal {v : List CellID} (hv : AllCells v) :
    ∃ u, normalize v = some u ∧ Normal u ∧ isNormalized u = some true ∧
      u.Pairwise (fun a b => a.id < b.id) := by
  rw [allCells_iff] at hv
  obtain ⟨u, e, h1, h2, h3, _⟩ := normalize_spec hv
  have hn : Normal u := (normal_iff u).2 ⟨h1, h2, h3⟩
  refine ⟨u, e, hn, (c39_isNormalized u).1.2 hn, ?_⟩
  refine h2.imp_of_mem ?_
  intro a b ha hb hab
  rw [id_lt_iff, (h1 a ha).toNat, (h1 b hb).toNat]
  have := lo_lt_hi a
  have := lo_lt_hi b
  omega

theorem normalize_of {v u : List CellID} (hv : AllCells v) (hu : Normal u)
    (h : ∀ q, Covers u q ↔ Covers v q) : normalize v = some u := by
  obtain ⟨u', e, g1⟩ := c26_normalize_covers hv
  obtain ⟨u'', e', g2, _⟩ := c27_normalize_normal hv
  rw [e] at e'
  injection e' with e'
  subst e'
  rw [e, normal_unique g2 hu (fun q => (g1 q).trans (h q).symm)]

/-- C28: lists covering the same leaves normalize to the same vector. -/
theorem c28_canonical {v w : List CellID} (hv : AllCells v) (hw : AllCells w)
    (h : ∀ q, Covers v q ↔ Covers w q) : normalize v = normalize w := by
  obtain ⟨u, e, g1⟩ := c26_normalize_covers hv
  obtain ⟨u', e', g2, _⟩ := c27_normalize_normal hv
  rw [e] at e'
  injection e' with e'
  subst e'
  rw [e, normalize_of hw g2 fun q => (g1 q).trans (h q)]

/-- C28: a normalized union is its own normal form (so `normalize` is idempotent). -/
theorem c28_fixed {u : List CellID} (hu : Normal u) : normalize u = some u :=
  normalize_of hu.1.1 hu fun _ => Iff.rfl

/-- C28: order and repetition do not matter. -/
theorem c28_order_irrelevant {v w : List CellID} (hv : AllCells v) (h : ∀ c, c ∈ v ↔ c ∈ w) :
    normalize v = normalize w := by
  have hw : AllCells w := fun c hc => hv c ((h c).2 hc)
  apply c28_canonical hv hw
  intro q
  unfold Covers
  simp only [h]

/-- C28: the normal form has the fewest cells among all lists covering the same leaves. -/
theorem c28_minimal {v w : List CellID} (hv : AllCells v) (hw : AllCells w)
    (h : ∀ q, Covers v q ↔ Covers w q) : ∃ u, normalize v = some u ∧ u.length ≤ w.length := by
  obtain ⟨u, e, g1⟩ := c26_normalize_covers hv
  obtain ⟨u', e', g2, _⟩ := c27_normalize_normal hv
  rw [e] at e'
  injection e' with e'
  subst e'
  exact ⟨u, e, normal_min g2 ((allCells_iff w).1 hw) fun q => (g1 q).trans (h q)⟩

example : AllCells exV ∧ exV.length = 6 := ⟨exV_cells, rfl⟩
/-- The example list normalizes to the face and the leaf. -/
example : normalizeLoop [] [⟨0x0400000000000000#64⟩, ⟨0x0400000000000000#64⟩, ⟨0x0c00000000000000#64⟩,
    ⟨0x1400000000000000#64⟩, ⟨0x1c00000000000000#64⟩, ⟨0x4000000000000001#64⟩]
    = some [⟨0x4000000000000001#64⟩, ⟨0x1000000000000000#64⟩] := by decide +kernel

/-! ## C29, C30, C31 -/

/-- C31: `search_lower_by` ends for every predicate, asks it only about indices below `len` and
returns an index at most `len` that is a boundary of the predicate. -/
theorem c31_search_total (len : Nat) (f : Nat → Option Bool) (h : ∀ m, m < len → ∃ b, f m = some b) :
    ∃ r, searchLowerBy len f = some r ∧ r ≤ len ∧ (r < len → f r = some true) ∧
      (0 < r → f (r - 1) = some false) := by
  have hf : ∀ m, m < len → f m = some ((f m).getD false) := by
    intro m hm
    obtain ⟨b, e⟩ := h m hm
    rw [e]; rfl
  obtain ⟨r, e, _, h2, h3, h4⟩ := searchLoop_spec f (fun m => (f m).getD false) _ 0 len rfl
    (by omega) (fun m _ hm => hf m hm)
  refine ⟨r, e, h2, ?_, ?_⟩
  · intro g; rw [hf r g, h3 g]
  · intro g; rw [hf (r - 1) (by omega), h4 g]

/-- C31: for a predicate that is false and then true, the result is the number of false positions. -/
theorem c31_search_partition (len n : Nat) (f : Nat → Bool) (hn : n ≤ len)
    (h : ∀ m, m < len → (f m = true ↔ n ≤ m)) : searchLowerBy len (fun m => some (f m)) = some n := by
  obtain ⟨r, e, h1, h2, h3⟩ := c31_search_total len (fun m => some (f m)) (fun m _ => ⟨_, rfl⟩)
  rw [e]
  congr 1
  rcases Nat.lt_trichotomy r n with g | g | g
  · have a := h2 (by omega)
    injection a with a
    have := (h r (by omega)).1 a
    omega
  · exact g
  · have a := h3 (by omega)
    injection a with a
    have := (h (r - 1) (by omega)).2 (by omega)
    rw [a] at this
    cases this

example : ∀ m, m < 10 → ((fun m => decide (7 ≤ m)) m = true ↔ 7 ≤ m) := by simp
example : searchLowerBy 10 (fun m => some (decide (7 ≤ m))) = some 7 :=
  c31_search_partition 10 7 _ (by decide) (by simp)

/-- C29: on a normalized union `contains_cellid` is inclusion of leaf sets. -/
theorem c29_containsCellID {u : List CellID} (hu : Normal u) {c : CellID} (hc : Valid c) :
    ∃ b, containsCellID u c = some b ∧
      (b = true ↔ ∀ q, HasLeaf c.id.toNat q → Covers u q) := by
  obtain ⟨hv, ha, hk⟩ := (normal_iff u).1 hu
  obtain ⟨b, e, p⟩ := containsCellID_spec hv ha hc
  refine ⟨b, e, ?_⟩
  rw [p]
  constructor
  · rintro ⟨x, hx, h1, h2⟩ q hq
    rw [hc.hasLeaf] at hq
    rw [cov_iff hv]
    exact ⟨x, hx, by omega⟩
  · intro h
    exact exists_super' hv hk hc (fun q a b => h q ((hc.hasLeaf q).2 ⟨a, b⟩))

/-- C29 without normalization: on any valid union `contains_cellid` tells whether a single
element contains the cell (so it is inclusion of leaf sets in one direction only). -/
theorem c29_containsCellID_union {u : List CellID} (hu : IsUnion u) {c : CellID} (hc : Valid c) :
    ∃ b, containsCellID u c = some b ∧
      (b = true ↔ ∃ x ∈ u, ∀ q, HasLeaf c.id.toNat q → HasLeaf x.id.toNat q) := by
  obtain ⟨hv, ha⟩ := (isUnion_iff u).1 hu
  obtain ⟨b, e, p⟩ := containsCellID_spec hv ha hc
  refine ⟨b, e, ?_⟩
  rw [p]
  have hcl := lo_lt_hi c
  constructor
  · rintro ⟨x, hx, h1, h2⟩
    refine ⟨x, hx, fun q hq => ?_⟩
    rw [hc.hasLeaf] at hq
    rw [(hv x hx).hasLeaf]; omega
  · rintro ⟨x, hx, h⟩
    have h1 := h (lo c) ((hc.hasLeaf _).2 (by omega))
    have h2 := h (hi c - 1) ((hc.hasLeaf _).2 (by omega))
    rw [(hv x hx).hasLeaf] at h1 h2
    exact ⟨x, hx, by omega, by omega⟩

/-- C30: `intersects_cellid` is having a common leaf. -/
theorem c30_intersectsCellID {u : List CellID} (hu : IsUnion u) {c : CellID} (hc : Valid c) :
    ∃ b, intersectsCellID u c = some b ∧
      (b = true ↔ ∃ q, HasLeaf c.id.toNat q ∧ Covers u q) := by
  obtain ⟨hv, ha⟩ := (isUnion_iff u).1 hu
  obtain ⟨b, e, p⟩ := intersectsCellID_spec hv ha hc
  refine ⟨b, e, ?_⟩
  rw [p]
  have hcl := lo_lt_hi c
  constructor
  · rintro ⟨x, hx, h1, h2⟩
    have hxl := lo_lt_hi x
    refine ⟨max (lo x) (lo c), (hc.hasLeaf _).2 (by omega), (cov_iff hv _).2 ⟨x, hx, by omega⟩⟩
  · rintro ⟨q, h1, h2⟩
    rw [hc.hasLeaf] at h1
    obtain ⟨x, hx, h⟩ := (cov_iff hv _).1 h2
    exact ⟨x, hx, by omega, by omega⟩

example : containsCellID exU ⟨0x0c00000000000000#64⟩ = some true := by decide +kernel
example : containsCellID exU ⟨0x3000000000000000#64⟩ = some false := by decide +kernel
example : intersectsCellID exU ⟨0x3000000000000000#64⟩ = some true := by decide +kernel
example : intersectsCellID exU ⟨0x9000000000000000#64⟩ = some false := by decide +kernel

/-! ## C32 -/

theorem covers_append {a b : List CellID} {q : Nat} : Covers (a ++ b) q ↔ Covers a q ∨ Covers b q := by
  unfold Covers
  constructor
  · rintro ⟨c, hc, h⟩
    rcases List.mem_append.1 hc with g | g
    · exact Or.inl ⟨c, g, h⟩
    · exact Or.inr ⟨c, g, h⟩
  · rintro (⟨c, hc, h⟩ | ⟨c, hc, h⟩)
    · exact ⟨c, List.mem_append_left _ hc, h⟩
    · exact ⟨c, List.mem_append_right _ hc, h⟩

theorem allCells_append {a b : List CellID} (ha : AllCells a) (hb : AllCells b) : AllCells (a ++ b) := by
  intro c hc
  rcases List.mem_append.1 hc with g | g
  · exact ha c g
  · exact hb c g

/-- C32: `merge` covers what any of the given unions covers and is normalized. -/
theorem c32_merge {us : List (List CellID)} (h : ∀ u ∈ us, AllCells u) :
    ∃ r, merge us = some r ∧ Normal r ∧ ∀ q, Covers r q ↔ ∃ u ∈ us, Covers u q := by
  have ha : AllCells us.flatten := by
    intro c hc
    obtain ⟨u, hu, hcu⟩ := List.mem_flatten.1 hc
    exact h u hu c hcu
  obtain ⟨r, e, g1⟩ := c26_normalize_covers ha
  obtain ⟨r', e', g2, _⟩ := c27_normalize_normal ha
  rw [e] at e'
  injection e' with e'
  subst e'
  refine ⟨r, e, g2, ?_⟩
  intro q
  rw [g1]
  unfold Covers
  constructor
  · rintro ⟨c, hc, hq⟩
    obtain ⟨u, hu, hcu⟩ := List.mem_flatten.1 hc
    exact ⟨u, hu, c, hcu, hq⟩
  · rintro ⟨u, hu, c, hc, hq⟩
    exact ⟨c, List.mem_flatten.2 ⟨u, hu, hc⟩, hq⟩

/-- C32: `union` of two lists of cells covers what either covers and is normalized. -/
theorem c32_union {a b : List CellID} (ha : AllCells a) (hb : AllCells b) :
    ∃ r, union a b = some r ∧ Normal r ∧ ∀ q, Covers r q ↔ Covers a q ∨ Covers b q := by
  obtain ⟨r, e, h1, h2⟩ := c32_merge (us := [a, b]) (by simp [ha, hb])
  exact ⟨r, e, h1, fun q => by rw [h2]; simp⟩

/-- C32: `union` is commutative. -/
theorem c32_union_comm {a b : List CellID} (ha : AllCells a) (hb : AllCells b) :
    union a b = union b a := by
  obtain ⟨r, e, h1, h2⟩ := c32_union ha hb
  obtain ⟨r', e', h1', h2'⟩ := c32_union hb ha
  rw [e, e', normal_unique h1 h1' fun q => by rw [h2, h2', or_comm]]

/-- C32: `union` is associative. -/
theorem c32_union_assoc {a b c : List CellID} (ha : AllCells a) (hb : AllCells b) (hc : AllCells c) :
    (union a b).bind (fun ab => union ab c) = (union b c).bind (fun bc => union a bc) := by
  obtain ⟨r, e, h1, h2⟩ := c32_union ha hb
  obtain ⟨s, e', h1', h2'⟩ := c32_union hb hc
  obtain ⟨t, e3, h3, h4⟩ := c32_union h1.1.1 hc
  obtain ⟨t', e3', h3', h4'⟩ := c32_union ha h1'.1.1
  rw [e, e', Option.bind_some, Option.bind_some, e3, e3',
    normal_unique h3 h3' fun q => by rw [h4, h4', h2, h2', or_assoc]]

/-- C32: on normalized input `union` is idempotent and the empty union is its identity. -/
theorem c32_union_idem {a : List CellID} (ha : Normal a) :
    union a a = some a ∧ union a [] = some a ∧ union [] a = some a := by
  have he : AllCells [] := by intro c hc; simp at hc
  have hcov : ∀ q, ¬ Covers [] q := by rintro q ⟨c, hc, _⟩; simp at hc
  refine ⟨?_, ?_, ?_⟩
  · obtain ⟨r, e, h1, h2⟩ := c32_union ha.1.1 ha.1.1
    rw [e, normal_unique h1 ha fun q => by rw [h2, or_self]]
  · obtain ⟨r, e, h1, h2⟩ := c32_union ha.1.1 he
    rw [e, normal_unique h1 ha fun q => by rw [h2]; simp [hcov]]
  · obtain ⟨r, e, h1, h2⟩ := c32_union he ha.1.1
    rw [e, normal_unique h1 ha fun q => by rw [h2]; simp [hcov]]

example : AllCells exU ∧ AllCells exV := ⟨exU_normal.1.1, exV_cells⟩

/-! ## C33, C34, C35, C36 -/

/-- C33: `intersection` of two valid unions ends without panic (including its debug assertions),
covers exactly the common leaves, is a valid union, and is normalized if both arguments are. -/
theorem c33_intersection {x y : List CellID} (hx : IsUnion x) (hy : IsUnion y) :
    ∃ r, intersection x y = some r ∧ IsUnion r ∧
      (∀ q, Covers r q ↔ Covers x q ∧ Covers y q) ∧ (Normal x → Normal y → Normal r) :=
  intersection_spec hx hy

/-- C34: `intersection_with_cell_id` covers exactly the common leaves, does not panic, and is
normalized if the union is. -/
theorem c34_intersectionWithCellID {x : List CellID} (hx : IsUnion x) {c : CellID} (hc : Valid c) :
    ∃ r, intersectionWithCellID x c = some r ∧ IsUnion r ∧
      (∀ q, Covers r q ↔ Covers x q ∧ HasLeaf c.id.toNat q) ∧ (Normal x → Normal r) := by
  obtain ⟨r, e, h1, h2, h3⟩ := intersectionWithCellID_spec hx hc
  refine ⟨r, e, h1, ?_, h3⟩
  intro q
  rw [h2]
  have : Covers [c] q ↔ HasLeaf c.id.toNat q := by simp [Covers]
  rw [this]

/-- C34: it agrees with `intersection` against the one-cell union. -/
theorem c34_agrees {x : List CellID} (hx : Normal x) {c : CellID} (hc : Valid c) :
    intersectionWithCellID x c = intersection x [c] := by
  obtain ⟨r, e, _, h2, h3⟩ := intersectionWithCellID_spec hx.1 hc
  obtain ⟨r', e', _, h2', h3'⟩ := intersection_spec hx.1 (normal_singleton hc).1
  rw [e, e', normal_unique (h3 hx) (h3' hx (normal_singleton hc)) fun q => by rw [h2, h2']]

/-- C35: `difference` of two valid unions ends without panic, covers exactly the leaves of the
first not in the second, is a valid union, and is normalized if the first is. -/
theorem c35_difference {x y : List CellID} (hx : IsUnion x) (hy : IsUnion y) :
    ∃ r, difference x y = some r ∧ IsUnion r ∧
      (∀ q, Covers r q ↔ Covers x q ∧ ¬ Covers y q) ∧ (Normal x → Normal r) :=
  difference_spec hx hy

/-- C36: `contains_cell_union` is inclusion of leaf sets. -/
theorem c36_containsCellUnion {a b : List CellID} (ha : Normal a) (hb : AllCells b) :
    ∃ r, containsCellUnion a b = some r ∧ (r = true ↔ ∀ q, Covers b q → Covers a q) := by
  obtain ⟨hv, hs, hk⟩ := (normal_iff a).1 ha
  have hbv := (allCells_iff b).1 hb
  obtain ⟨r, e, p⟩ := containsCellUnion_spec hv hs b hbv
  refine ⟨r, e, ?_⟩
  rw [p]
  constructor
  · intro h q hq
    obtain ⟨c, hc, g⟩ := (cov_iff hbv q).1 hq
    obtain ⟨x, hx, h1, h2⟩ := h c hc
    exact (cov_iff hv q).2 ⟨x, hx, by omega⟩
  · intro h c hc
    exact exists_super' hv hk (hbv c hc) fun q g1 g2 => h q ((cov_iff hbv q).2 ⟨c, hc, g1, g2⟩)

/-- C36: `intersects_cell_union` is having a common leaf. -/
theorem c36_intersectsCellUnion {a b : List CellID} (ha : AllCells a) (hb : IsUnion b) :
    ∃ r, intersectsCellUnion a b = some r ∧ (r = true ↔ ∃ q, Covers a q ∧ Covers b q) := by
  have hav := (allCells_iff a).1 ha
  obtain ⟨hv, hs⟩ := (isUnion_iff b).1 hb
  obtain ⟨r, e, p⟩ := intersectsCellUnion_spec hv hs a hav
  refine ⟨r, e, ?_⟩
  rw [p]
  constructor
  · rintro ⟨c, hc, x, hx, h1, h2⟩
    have := lo_lt_hi c
    have := lo_lt_hi x
    exact ⟨max (lo c) (lo x), (cov_iff hav _).2 ⟨c, hc, by omega⟩, (cov_iff hv _).2 ⟨x, hx, by omega⟩⟩
  · rintro ⟨q, h1, h2⟩
    obtain ⟨c, hc, g1⟩ := (cov_iff hav _).1 h1
    obtain ⟨x, hx, g2⟩ := (cov_iff hv _).1 h2
    exact ⟨c, hc, x, hx, by omega, by omega⟩

/-- A second normalized union for the examples: overlaps `exU` in part of face 0. -/
def exW : List CellID := [⟨0x0400000000000000#64⟩, ⟨0x3000000000000000#64⟩]
theorem exW_normal : Normal exW := (c39_isNormalized _).1.1 (by decide +kernel)

example : IsUnion exU ∧ IsUnion exW := ⟨exU_normal.1, exW_normal.1⟩
example : intersectsCellUnion exU exW = some true := by decide +kernel
example : containsCellUnion exU exW = some false := by decide +kernel
/-- The intersection of the examples is neither empty nor one of the arguments. -/
example : ∃ r, intersection exU exW = some r ∧ r ≠ [] ∧ r ≠ exU ∧ r ≠ exW := by
  obtain ⟨r, e, h1, h2, h3⟩ := c33_intersection exU_normal.1 exW_normal.1
  have v0 : Valid ⟨0x0400000000000000#64⟩ := by unfold Valid; decide +kernel
  have c1 : Covers exU 0 := ⟨⟨0x1000000000000000#64⟩, by simp [exU], 0, 0, by decide +kernel, by decide +kernel, by decide +kernel⟩
  have c2 : Covers exW 0 := ⟨⟨0x0400000000000000#64⟩, by simp [exW], 1, 0, by decide +kernel, by decide +kernel, by decide +kernel⟩
  refine ⟨r, e, ?_, ?_, ?_⟩
  · rintro rfl
    have := (h2 0).2 ⟨c1, c2⟩
    obtain ⟨c, hc, _⟩ := this
    simp at hc
  · rintro rfl
    have n := (c36_containsCellUnion exW_normal exU_normal.1.1)
    obtain ⟨b, eb, pb⟩ := n
    have : containsCellUnion exW exU = some false := by decide +kernel
    rw [this] at eb
    injection eb with eb
    rw [← eb] at pb
    exact absurd (pb.2 fun q hq => ((h2 q).1 hq).2) (by simp)
  · rintro rfl
    have n := (c36_containsCellUnion exU_normal exW_normal.1.1)
    obtain ⟨b, eb, pb⟩ := n
    have : containsCellUnion exU exW = some false := by decide +kernel
    rw [this] at eb
    injection eb with eb
    rw [← eb] at pb
    exact absurd (pb.2 fun q hq => ((h2 q).1 hq).1) (by simp)

/-! ## C37 -/

/-- C37: `denormalize` keeps the covered leaves; each result cell is a descendant, at the first
level satisfying the level rule, of an input cell, and all such descendants are present (in order,
without repetition, if the input is a valid union). This holds when `level_mod` divides 30 (or is 0,
which acts like 1); the interface documents level_mod for 1, 2 and 3. -/
theorem c37_denormalize {v : List CellID} {minLevel levelMod : Nat} (hv : AllCells v)
    (hm : minLevel ≤ 30) (hd : max 1 levelMod ∣ 30) :
    ∃ out, denormalize v minLevel levelMod = some out ∧ (∀ q, Covers out q ↔ Covers v q) ∧
      (IsUnion v → IsUnion out) ∧
      (∀ d ∈ out, ∃ l, d.level = some l ∧ minLevel ≤ l ∧ (max 1 levelMod ∣ l - minLevel ∨ l = 30)) ∧
      ∀ d, d ∈ out ↔ ∃ c ∈ v, ∃ k l, c.level = some k ∧ d.level = some l ∧ Valid d ∧
        (∀ q, HasLeaf d.id.toNat q → HasLeaf c.id.toNat q) ∧
        k ≤ l ∧ minLevel ≤ l ∧ l ≤ 30 ∧ (max 1 levelMod ∣ l - minLevel ∨ l = 30) ∧
        ∀ l', k ≤ l' → minLevel ≤ l' → max 1 levelMod ∣ l' - minLevel → l ≤ l' := by
  have hvv := (allCells_iff v).1 hv
  obtain ⟨out, e, p1, p2, p3, p4⟩ := denormalize_spec (md := levelMod) hm v hvv
  have iff : ∀ d, d ∈ out ↔ ∃ c ∈ v, ∃ k l, c.level = some k ∧ d.level = some l ∧ Valid d ∧
        (∀ q, HasLeaf d.id.toNat q → HasLeaf c.id.toNat q) ∧
        k ≤ l ∧ minLevel ≤ l ∧ l ≤ 30 ∧ (max 1 levelMod ∣ l - minLevel ∨ l = 30) ∧
        ∀ l', k ≤ l' → minLevel ≤ l' → max 1 levelMod ∣ l' - minLevel → l ≤ l' := by
    intro d
    rw [p4]
    constructor
    · rintro ⟨c, hc, vd, g1, g2, g3⟩
      obtain ⟨n, en, n1, n2, n3, n4⟩ := denormLevel_spec (md := levelMod) (hvv c hc).lv_le hm
      rw [g3] at en
      injection en with en
      subst en
      refine ⟨c, hc, lv c, lv d, (hvv c hc).level, vd.level, vd, ?_, n1, n2, n3, (n4 hd).1, (n4 hd).2⟩
      intro q hq
      rw [vd.hasLeaf] at hq
      rw [(hvv c hc).hasLeaf]; omega
    · rintro ⟨c, hc, k, l, ek, el, vd, hsub, l1, l2, l3, l4, l5⟩
      have vc := hvv c hc
      rw [vc.level] at ek
      rw [vd.level] at el
      injection ek with ek
      injection el with el
      subst ek el
      have hdl := lo_lt_hi d
      have h1 := hsub (lo d) ((vd.hasLeaf _).2 (by omega))
      have h2 := hsub (hi d - 1) ((vd.hasLeaf _).2 (by omega))
      rw [vc.hasLeaf] at h1 h2
      obtain ⟨n, en, n1, n2, n3, n4⟩ := denormLevel_spec (md := levelMod) vc.lv_le hm
      refine ⟨c, hc, vd, by omega, by omega, ?_⟩
      rw [en]
      congr 1
      obtain ⟨n5, n6⟩ := n4 hd
      rcases l4 with l4 | l4
      · have := n6 _ l1 l2 l4
        rcases n5 with n5 | n5
        · have := l5 _ n1 n2 n5; omega
        · omega
      · rcases n5 with n5 | n5
        · have := l5 _ n1 n2 n5; omega
        · omega
  refine ⟨out, e, ?_, ?_, ?_, iff⟩
  · intro q; rw [cov_iff p1, cov_iff hvv, p3]
  · intro hu
    rw [isUnion_iff] at hu ⊢
    exact ⟨p1, p2 hu.2⟩
  · intro d hdm
    obtain ⟨c, _, k, l, _, el, _, _, _, l2, _, l4, _⟩ := (iff d).1 hdm
    exact ⟨l, el, l2, l4⟩

/-- C37, every `level_mod`: the covered leaves and the lower level bound are kept. -/
theorem c37_denormalize_any {v : List CellID} {minLevel levelMod : Nat} (hv : AllCells v)
    (hm : minLevel ≤ 30) :
    ∃ out, denormalize v minLevel levelMod = some out ∧ (∀ q, Covers out q ↔ Covers v q) ∧
      (IsUnion v → IsUnion out) ∧ ∀ d ∈ out, ∃ l, d.level = some l ∧ minLevel ≤ l := by
  have hvv := (allCells_iff v).1 hv
  obtain ⟨out, e, p1, p2, p3, p4⟩ := denormalize_spec (md := levelMod) hm v hvv
  refine ⟨out, e, ?_, ?_, ?_⟩
  · intro q; rw [cov_iff p1, cov_iff hvv, p3]
  · intro hu
    rw [isUnion_iff] at hu ⊢
    exact ⟨p1, p2 hu.2⟩
  · intro d hd
    obtain ⟨c, hc, vd, _, _, g⟩ := (p4 d).1 hd
    obtain ⟨n, en, n1, n2, n3, _⟩ := denormLevel_spec (md := levelMod) (hvv c hc).lv_le hm
    rw [en] at g
    injection g with g
    exact ⟨lv d, vd.level, by omega⟩

example : max 1 3 ∣ 30 ∧ max 1 2 ∣ 30 ∧ max 1 0 ∣ 30 := by decide
/-- With `level_mod = 4` the documented rule fails: a face (level 0 = min_level, already
admissible) is sent to level 2, which is not a multiple of 4. -/
theorem c37_rule_fails_for_mod4 :
    denormLevel 0 0 4 = some 2 ∧ ¬ 4 ∣ 2 - 0 ∧ (2 : Nat) ≠ 30 := by decide

/-! ## C38 -/

/-- C38: `leaf_cell_covered` is the number of covered leaves; it never overflows. -/
theorem c38_leafCellCovered {v : List CellID} (hv : IsUnion v) :
    ∃ n, leafCellCovered v = some n ∧ n.toNat = {q | Covers v q}.ncard ∧ n.toNat ≤ 6 * 4 ^ 30 := by
  obtain ⟨h1, h2⟩ := (isUnion_iff v).1 hv
  obtain ⟨r, e, r1, _, r3⟩ := leafCount_spec v 0 0#64 h1 h2 (fun _ _ => Nat.zero_le _) (Nat.zero_le _)
    (by simp)
  refine ⟨r, e, ?_, by rw [W_eq]; exact r1⟩
  rw [r3]
  have : {q | Covers v q} = {q | Cov v q} := by
    ext q; exact cov_iff h1 q
  rw [this]
  simp

example : IsUnion exU := exU_normal.1
example : leafCellCovered exU = some 0x1400010000000000#64 := by decide +kernel

/-! ## C17 -/

/-- C17: `from_range` ends and returns the normalized union of exactly the leaves in
`[begin, end)`; `end` may be one past the last leaf. -/
theorem c17_fromRange {first last : CellID} {s t : Nat} (hst : s ≤ t) (ht : t ≤ 6 * 4 ^ 30)
    (hf : first.id.toNat = cellNum 30 s) (hl : last.id.toNat = cellNum 30 t) :
    ∃ u, fromRange first last = some u ∧ Normal u ∧ ∀ q, Covers u q ↔ s ≤ q ∧ q < t := by
  rw [W_eq] at ht
  have e1 : first = mk 30 s := by
    apply eq_of_toNat
    rw [hf, toNat_leaf' (by omega), cellNum_eq, E_30]; omega
  have e2 : last = mk 30 t := by
    apply eq_of_toNat
    rw [hl, toNat_leaf' (by omega), cellNum_eq, E_30]; omega
  rw [e1, e2]
  exact fromRange_spec hst ht

example : (CellID.mk 0x6060720000000001#64).id.toNat = cellNum 30 (0x6060720000000000 / 2) ∧
    (CellID.mk 0xc000000000000001#64).id.toNat = cellNum 30 (6 * 4 ^ 30) := by decide +kernel

/-! ## C40 -/

/-- The whole sphere covers every leaf. -/
theorem wholeSphere_spec :
    ∃ w, wholeSphere = some w ∧ Normal w ∧ ∀ q, Covers w q ↔ q < 6 * 4 ^ 30 := by
  refine ⟨[⟨0x1000000000000000#64⟩, ⟨0x3000000000000000#64⟩, ⟨0x5000000000000000#64⟩,
    ⟨0x7000000000000000#64⟩, ⟨0x9000000000000000#64⟩, ⟨0xb000000000000000#64⟩], by decide +kernel,
    (c39_isNormalized _).1.1 (by decide +kernel), ?_⟩
  have hf : ∀ f, f < 6 → IsCell 0 f := fun f h => ⟨by decide, by simpa using h⟩
  have e : ∀ f, f < 6 → CellID.mk (BitVec.ofNat 64 (f * 0x2000000000000000 + 0x1000000000000000))
      = mk 0 f := by
    intro f h
    apply eq_of_toNat
    rw [toNat_mk (hf f h), show E 0 = 4 ^ 30 from rfl, W_eq, Bits.ofNat_toNat_of_lt (by omega)]
    omega
  have e0 := e 0 (by decide)
  have e1 := e 1 (by decide)
  have e2 := e 2 (by decide)
  have e3 := e 3 (by decide)
  have e4 := e 4 (by decide)
  have e5 := e 5 (by decide)
  simp only [Nat.zero_mul, Nat.zero_add, Nat.one_mul, Nat.reduceMul, Nat.reduceAdd,
    BitVec.ofNat_eq_ofNat] at e0 e1 e2 e3 e4 e5
  rw [e0, e1, e2, e3, e4, e5]
  have hE0 : E 0 = W₀ := W_eq
  intro q
  rw [cov_iff (by
    intro c hc
    simp only [List.mem_cons, List.not_mem_nil, or_false] at hc
    rcases hc with rfl | rfl | rfl | rfl | rfl | rfl <;> exact valid_mk (hf _ (by decide)))]
  simp only [cov_cons, lo_mk (hf _ (show 0 < 6 by decide)), lo_mk (hf _ (show 1 < 6 by decide)),
    lo_mk (hf _ (show 2 < 6 by decide)), lo_mk (hf _ (show 3 < 6 by decide)),
    lo_mk (hf _ (show 4 < 6 by decide)), lo_mk (hf _ (show 5 < 6 by decide)),
    hi_mk (hf _ (show 0 < 6 by decide)), hi_mk (hf _ (show 1 < 6 by decide)),
    hi_mk (hf _ (show 2 < 6 by decide)), hi_mk (hf _ (show 3 < 6 by decide)),
    hi_mk (hf _ (show 4 < 6 by decide)), hi_mk (hf _ (show 5 < 6 by decide)), hE0]
  have hn : ¬ Cov [] q := by rintro ⟨c, hc, _⟩; simp at hc
  simp only [hn, or_false]
  rw [W_eq]
  omega

/-- C40: `x` is the disjoint union of `intersection(x, y)` and `difference(x, y)`. -/
theorem c40_split {x y : List CellID} (hx : Normal x) (hy : Normal y) :
    ∃ i d, intersection x y = some i ∧ difference x y = some d ∧ union i d = some x ∧
      intersection i d = some [] := by
  obtain ⟨i, ei, i1, i2, i3⟩ := c33_intersection hx.1 hy.1
  obtain ⟨d, ed, d1, d2, d3⟩ := c35_difference hx.1 hy.1
  refine ⟨i, d, ei, ed, ?_, ?_⟩
  · obtain ⟨r, e, h1, h2⟩ := c32_union i1.1 d1.1
    rw [e, normal_unique h1 hx fun q => by rw [h2, i2, d2]; tauto]
  · obtain ⟨r, e, h1, h2, h3⟩ := c33_intersection i1 d1
    have hn : Normal ([] : List CellID) := (c39_isNormalized _).1.1 rfl
    have he : ∀ q, ¬ Covers [] q := by rintro q ⟨c, hc, _⟩; simp at hc
    rw [e, normal_unique (h3 (i3 hx hy) (d3 hx)) hn fun q => by
      rw [h2, i2, d2]; simp only [he]; tauto]

/-- C40: absorption laws. -/
theorem c40_absorption {x y : List CellID} (hx : Normal x) (hy : Normal y) :
    (intersection x y).bind (fun i => union x i) = some x ∧
    (union x y).bind (fun u => intersection x u) = some x := by
  obtain ⟨i, ei, i1, i2, i3⟩ := c33_intersection hx.1 hy.1
  obtain ⟨u, eu, u1, u2⟩ := c32_union hx.1.1 hy.1.1
  constructor
  · obtain ⟨r, e, h1, h2⟩ := c32_union hx.1.1 i1.1
    rw [ei, Option.bind_some, e, normal_unique h1 hx fun q => by rw [h2, i2]; tauto]
  · obtain ⟨r, e, h1, h2, h3⟩ := c33_intersection hx.1 u1.1
    rw [eu, Option.bind_some, e, normal_unique (h3 hx u1) hx fun q => by rw [h2, u2]; tauto]

/-- C40: intersection is commutative and distributes over union. -/
theorem c40_distrib {x y z : List CellID} (hx : Normal x) (hy : Normal y) (hz : Normal z) :
    intersection x y = intersection y x ∧
    ∃ u i1 i2, union y z = some u ∧ intersection x y = some i1 ∧ intersection x z = some i2 ∧
      intersection x u = union i1 i2 := by
  obtain ⟨i, ei, a1, a2, a3⟩ := c33_intersection hx.1 hy.1
  obtain ⟨i', ei', b1, b2, b3⟩ := c33_intersection hy.1 hx.1
  obtain ⟨u, eu, u1, u2⟩ := c32_union hy.1.1 hz.1.1
  obtain ⟨j, ej, j1, j2, j3⟩ := c33_intersection hx.1 hz.1
  refine ⟨by rw [ei, ei', normal_unique (a3 hx hy) (b3 hy hx) fun q => by rw [a2, b2]; tauto],
    u, i, j, eu, ei, ej, ?_⟩
  obtain ⟨r, e, h1, h2, h3⟩ := c33_intersection hx.1 u1.1
  obtain ⟨s, e', k1, k2⟩ := c32_union a1.1 j1.1
  rw [e, e', normal_unique (h3 hx u1) k1 fun q => by rw [h2, k2, u2, a2, j2]; tauto]

/-- C40: De Morgan against the whole sphere, and double complement. -/
theorem c40_deMorgan {x y : List CellID} (hx : Normal x) (hy : Normal y) :
    ∃ w u i cx cy, wholeSphere = some w ∧ union x y = some u ∧ intersection x y = some i ∧
      difference w x = some cx ∧ difference w y = some cy ∧
      difference w u = intersection cx cy ∧ difference w i = union cx cy ∧
      difference w cx = some x := by
  obtain ⟨w, ew, w1, w2⟩ := wholeSphere_spec
  obtain ⟨u, eu, u1, u2⟩ := c32_union hx.1.1 hy.1.1
  obtain ⟨i, ei, i1, i2, i3⟩ := c33_intersection hx.1 hy.1
  obtain ⟨cx, ex, x1, x2, x3⟩ := c35_difference w1.1 hx.1
  obtain ⟨cy, ey, y1, y2, y3⟩ := c35_difference w1.1 hy.1
  refine ⟨w, u, i, cx, cy, ew, eu, ei, ex, ey, ?_, ?_, ?_⟩
  · obtain ⟨a, ea, a1, a2, a3⟩ := c35_difference w1.1 u1.1
    obtain ⟨b, eb, b1, b2, b3⟩ := c33_intersection x1 y1
    rw [ea, eb, normal_unique (a3 w1) (b3 (x3 w1) (y3 w1)) fun q => by rw [a2, b2, u2, x2, y2]; tauto]
  · obtain ⟨a, ea, a1, a2, a3⟩ := c35_difference w1.1 i1
    obtain ⟨b, eb, b1, b2⟩ := c32_union x1.1 y1.1
    rw [ea, eb, normal_unique (a3 w1) b1 fun q => by rw [a2, b2, i2, x2, y2]; tauto]
  · obtain ⟨a, ea, a1, a2, a3⟩ := c35_difference w1.1 x1
    have hsub : ∀ q, Covers x q → Covers w q := by
      intro q hq
      rw [w2]
      obtain ⟨c, hc, g⟩ := (cov_iff (union_cells hx.1) q).1 hq
      have := (union_cells hx.1 c hc).hi_le
      rw [W_eq]; omega
    rw [ea, normal_unique (a3 w1) hx fun q => by
      rw [a2, x2]
      have := hsub q
      tauto]

/-- C40: `contains_cell_union` is the order of the algebra: `a` contains `b` iff
`intersection(a, b)` is `b` iff `difference(b, a)` is empty. -/
theorem c40_order {a b : List CellID} (ha : Normal a) (hb : Normal b) :
    (containsCellUnion a b = some true ↔ intersection a b = some b) ∧
    (containsCellUnion a b = some true ↔ difference b a = some []) := by
  obtain ⟨r, er, pr⟩ := c36_containsCellUnion ha hb.1.1
  obtain ⟨i, ei, i1, i2, i3⟩ := c33_intersection ha.1 hb.1
  obtain ⟨d, ed, d1, d2, d3⟩ := c35_difference hb.1 ha.1
  have he : ∀ q, ¬ Covers [] q := by rintro q ⟨c, hc, _⟩; simp at hc
  have hn : Normal ([] : List CellID) := (c39_isNormalized _).1.1 rfl
  rw [er, ei, ed]
  simp only [Option.some.injEq]
  rw [pr]
  constructor
  · constructor
    · intro h
      exact normal_unique (i3 ha hb) hb fun q => by rw [i2]; have := h q; tauto
    · rintro rfl q hq
      exact ((i2 q).1 hq).1
  · constructor
    · intro h
      exact normal_unique (d3 hb) hn fun q => by rw [d2]; have := h q; have := he q; tauto
    · rintro rfl q hq
      by_contra g
      exact he q ((d2 q).2 ⟨hq, g⟩)

example : Normal exU ∧ Normal exW := ⟨exU_normal, exW_normal⟩

end Verif
