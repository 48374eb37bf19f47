import Verif.Proofs.CovererLoop

/-! # Properties of `RegionCoverer` (C42 to C47) -/

namespace Verif
open Rust Spec CellID CellUnion RegionCoverer

theorem clamp_min {rc : RegionCoverer} (hp : Params rc) : clamp rc.minLevel 0 maxLevel = rc.minLevel := by
  have h1 : ¬ rc.minLevel < 0 := Nat.not_lt_zero _
  have h2 : ¬ rc.minLevel > maxLevel := by unfold maxLevel; have := hp.min; omega
  unfold clamp
  rw [if_neg h1, if_neg h2]

theorem clamp_mod {rc : RegionCoverer} (hp : Params rc) : clamp rc.levelMod 1 3 = rc.levelMod := by
  have h1 : ¬ rc.levelMod < 1 := by have := hp.mod1; omega
  have h2 : ¬ rc.levelMod > 3 := by have := hp.mod3; omega
  unfold clamp
  rw [if_neg h1, if_neg h2]

/-- Everything about `covering` and `interior_covering` at once. -/
theorem covering_both {rc : RegionCoverer} (hp : Params rc) {r : Region} (int : Bool) {R : Nat → Prop}
    (hR : int = false → Sound r R) (pick : Nat → Nat) (hb : AllCells r.cellUnionBound)
    (hcov : int = false → ∀ q, R q → Covers r.cellUnionBound q) :
    ∃ out, (if int then interiorCovering rc r pick else covering rc r pick) = some out ∧ IsUnion out ∧
      (int = false → ∀ q, R q → Covers out q) ∧
      (∀ d ∈ out, ∃ l, d.level = some l ∧ rc.minLevel ≤ l ∧ (rc.minLevel ≤ rc.maxLevel → l ≤ rc.maxLevel) ∧ rc.levelMod ∣ l - rc.minLevel) ∧
      ((int = true ∨ rc.minLevel = 0) → out.length ≤ max rc.maxCells 6) ∧
      (∀ d ∈ out, ∃ x, Valid x ∧ d.contains x = some true ∧ r.intersectsCell x = true) ∧
      (int = true → ∀ q, Covers out q → ∃ x, Valid x ∧ r.containsCell x = true ∧ HasLeaf x.id.toNat q) := by
  rw [allCells_iff] at hb
  obtain ⟨res, e, r1, r2, r3⟩ := coveringInternal_spec hp int hR pick hb hcov
  obtain ⟨u, out, eu, eo, o1, o2, o3, o4, o5, o6⟩ := finish hp r1
  refine ⟨out, ?_, (isUnion_iff out).2 ⟨o1, o2⟩, ?_, ?_, ?_, ?_, ?_⟩
  · have key : ((cellUnion rc r int pick).bind fun cu =>
        CellUnion.denormalize cu (clamp rc.minLevel 0 maxLevel) (clamp rc.levelMod 1 3)) = some out := by
      unfold cellUnion
      simp only [Option.bind_eq_bind]
      rw [e, Option.bind_some, eu, Option.bind_some, clamp_min hp, clamp_mod hp, eo]
    cases int with
    | true => exact key
    | false => exact key
  · intro hint q hq
    exact (o3 q).2 (r2 hint q hq)
  · intro d hd
    exact ⟨lv d, (o1 d hd).level, o4 d hd⟩
  · intro h
    exact o5.trans (r3 h)
  · intro d hd
    obtain ⟨x, hx, hxd⟩ := o6 d hd
    exact ⟨x, (r1 x hx).valid, (within_iff (r1 x hx).valid (o1 d hd)).2 hxd, (r1 x hx).meets⟩
  · intro hint q hq
    obtain ⟨x, hx, hxq⟩ := (o3 q).1 hq
    exact ⟨x, (r1 x hx).valid, (r1 x hx).inside hint, hxq⟩

/-- **C42.** `R` is any set of leaves such that `intersects_cell` is true for every cell with a leaf of `R`, and
such that `cell_union_bound` covers `R`. Then `covering` returns a valid union that covers `R`. -/
theorem c42_covering_covers {rc : RegionCoverer} (hmin : rc.minLevel ≤ 30) (hmax : rc.maxLevel ≤ 30) (hm1 : 1 ≤ rc.levelMod)
    (hm3 : rc.levelMod ≤ 3) {r : Region} {R : Nat → Prop}
    (hR : ∀ c q, c.isValid = some true → R q → HasLeaf c.id.toNat q → r.intersectsCell c = true)
    (hb : AllCells r.cellUnionBound) (hcov : ∀ q, R q → Covers r.cellUnionBound q) (pick : Nat → Nat) :
    ∃ out, covering rc r pick = some out ∧ IsUnion out ∧ ∀ q, R q → Covers out q := by
  obtain ⟨out, e, h1, h2, _⟩ := covering_both ⟨hmin, hmax, hm1, hm3⟩ false (fun _ => hR) pick hb (fun _ => hcov)
  exact ⟨out, e, h1, h2 rfl⟩

/-- **C42.** A covering is not arbitrarily loose: every cell of it contains a cell for which `intersects_cell` is true. -/
theorem c42_covering_tight {rc : RegionCoverer} (hmin : rc.minLevel ≤ 30) (hmax : rc.maxLevel ≤ 30) (hm1 : 1 ≤ rc.levelMod)
    (hm3 : rc.levelMod ≤ 3) {r : Region} (hb : AllCells r.cellUnionBound) (pick : Nat → Nat) {out : List CellID}
    (ho : covering rc r pick = some out) :
    ∀ d ∈ out, ∃ x, x.isValid = some true ∧ d.contains x = some true ∧ r.intersectsCell x = true := by
  obtain ⟨out', e, _, _, _, _, h, _⟩ := covering_both ⟨hmin, hmax, hm1, hm3⟩ false (R := fun _ => False)
    (fun _ _ _ _ h => h.elim) pick hb (fun _ _ h => h.elim)
  rw [if_neg (by simp), ho] at e
  obtain rfl := Option.some.inj e
  exact h

/-- **C43.** The cells of `covering` and of `interior_covering` have permitted levels. -/
theorem c43_levels {rc : RegionCoverer} (hmin : rc.minLevel ≤ rc.maxLevel) (hmax : rc.maxLevel ≤ 30) (hm1 : 1 ≤ rc.levelMod)
    (hm3 : rc.levelMod ≤ 3) {r : Region} (hb : AllCells r.cellUnionBound) (pick : Nat → Nat) {out : List CellID}
    (ho : covering rc r pick = some out ∨ interiorCovering rc r pick = some out) :
    ∀ d ∈ out, ∃ l, d.level = some l ∧ rc.minLevel ≤ l ∧ l ≤ rc.maxLevel ∧ rc.levelMod ∣ l - rc.minLevel := by
  have key : ∀ int : Bool, (if int then interiorCovering rc r pick else covering rc r pick) = some out →
      ∀ d ∈ out, ∃ l, d.level = some l ∧ rc.minLevel ≤ l ∧ l ≤ rc.maxLevel ∧ rc.levelMod ∣ l - rc.minLevel := by
    intro int e
    obtain ⟨out', e', _, _, h, _⟩ := covering_both ⟨hmin.trans hmax, hmax, hm1, hm3⟩ int (R := fun _ => False)
      (fun _ _ _ _ h => h.elim) pick hb (fun _ _ h => h.elim)
    rw [e] at e'
    obtain rfl := Option.some.inj e'
    intro d hd
    obtain ⟨l, h1, h2, h3, h4⟩ := h d hd
    exact ⟨l, h1, h2, h3 hmin, h4⟩
  rcases ho with h | h
  · exact key false h
  · exact key true h

/-- **C44.** Every leaf of `interior_covering` lies in a cell for which `contains_cell` is true, and there are at most
`max(max_cells, 6)` cells. -/
theorem c44_interior {rc : RegionCoverer} (hmin : rc.minLevel ≤ 30) (hmax : rc.maxLevel ≤ 30) (hm1 : 1 ≤ rc.levelMod)
    (hm3 : rc.levelMod ≤ 3) {r : Region} (hb : AllCells r.cellUnionBound) (pick : Nat → Nat) :
    ∃ out, interiorCovering rc r pick = some out ∧ IsUnion out ∧ out.length ≤ max rc.maxCells 6 ∧
      ∀ q, Covers out q → ∃ x, x.isValid = some true ∧ r.containsCell x = true ∧ HasLeaf x.id.toNat q := by
  obtain ⟨out, e, h1, _, _, h2, _, h3⟩ := covering_both ⟨hmin, hmax, hm1, hm3⟩ true (R := fun _ => False)
    (fun _ _ _ _ h => h.elim) pick hb (fun _ _ h => h.elim)
  exact ⟨out, e, h1, h2 (Or.inl rfl), h3 rfl⟩

/-- **C45.** `covering` and `interior_covering` return, without panic, whatever the region answers. -/
theorem c45_terminates {rc : RegionCoverer} (hmin : rc.minLevel ≤ 30) (hmax : rc.maxLevel ≤ 30) (hm1 : 1 ≤ rc.levelMod)
    (hm3 : rc.levelMod ≤ 3) {r : Region} (hb : AllCells r.cellUnionBound) (pick : Nat → Nat) :
    (∃ out, covering rc r pick = some out) ∧ ∃ out, interiorCovering rc r pick = some out := by
  obtain ⟨out, e, _⟩ := covering_both ⟨hmin, hmax, hm1, hm3⟩ true (R := fun _ => False)
    (fun _ _ _ _ h => h.elim) pick hb (fun _ _ h => h.elim)
  obtain ⟨out', e', _⟩ := covering_both ⟨hmin, hmax, hm1, hm3⟩ false (R := fun _ => False)
    (fun _ _ _ _ h => h.elim) pick hb (fun _ _ h => h.elim)
  exact ⟨⟨out', e'⟩, ⟨out, e⟩⟩

/-- **C46.** `fast_covering` returns a valid union that covers `cell_union_bound`, without panic. -/
theorem c46_fastCovering_covers {rc : RegionCoverer} (hmin : rc.minLevel ≤ 30) {r : Region} (hb : AllCells r.cellUnionBound) :
    ∃ out, fastCovering rc r = some out ∧ IsUnion out ∧ ∀ q, Covers r.cellUnionBound q → Covers out q := by
  rw [allCells_iff] at hb
  obtain ⟨u, e, u1, u2, u3, _⟩ := normalizeCovering_spec hmin hb
  exact ⟨u, e, (isUnion_iff u).2 ⟨u1, u2⟩, u3⟩

/-- **C46.** The cells of `fast_covering` have permitted levels (`level_mod = 0` means 1). -/
theorem c46_fastCovering_levels {rc : RegionCoverer} (hmin : rc.minLevel ≤ rc.maxLevel) (hmax : rc.maxLevel ≤ 30)
    (hm3 : rc.levelMod ≤ 3) {r : Region} (hb : AllCells r.cellUnionBound) {out : List CellID} (ho : fastCovering rc r = some out) :
    ∀ d ∈ out, ∃ l, d.level = some l ∧ rc.minLevel ≤ l ∧ l ≤ rc.maxLevel ∧ max 1 rc.levelMod ∣ l - rc.minLevel := by
  rw [allCells_iff] at hb
  obtain ⟨u, e, u1, u2, u3, u4, u5, u6⟩ := normalizeCovering_spec (hmin.trans hmax) hb
  rw [fastCovering, e] at ho
  obtain rfl := Option.some.inj ho
  intro d hd
  exact ⟨lv d, (u1 d hd).level, u4 d hd, u5 hmin hm3 d hd⟩

/-- **C46.** With `min_level = 0` and `level_mod ≤ 1`, `fast_covering` is normalized and has at most `max_cells` cells, unless
no two of its cells are on the same face. -/
theorem c46_fastCovering_count {rc : RegionCoverer} (hmin : rc.minLevel = 0) (hm : rc.levelMod ≤ 1)
    {r : Region} (hb : AllCells r.cellUnionBound) {out : List CellID} (ho : fastCovering rc r = some out) :
    Normal out ∧ (out.length ≤ rc.maxCells ∨ out.Pairwise (fun a b => a.face < b.face) ∧ out.length ≤ 6) := by
  rw [allCells_iff] at hb
  obtain ⟨u, e, u1, u2, u3, u4, u5, u6⟩ := normalizeCovering_spec (rc := rc) (by omega) hb
  rw [fastCovering, e] at ho
  obtain rfl := Option.some.inj ho
  exact u6 hmin hm

/-- **C47.** With `min_level = 0`, `covering` has at most `max(max_cells, 6)` cells, for every `level_mod`. -/
theorem c47_count {rc : RegionCoverer} (hmin : rc.minLevel = 0) (hmax : rc.maxLevel ≤ 30) (hm1 : 1 ≤ rc.levelMod)
    (hm3 : rc.levelMod ≤ 3) {r : Region} (hb : AllCells r.cellUnionBound) (pick : Nat → Nat) {out : List CellID}
    (ho : covering rc r pick = some out) : out.length ≤ max rc.maxCells 6 := by
  obtain ⟨out', e, _, _, _, h, _⟩ := covering_both (rc := rc) ⟨by omega, hmax, hm1, hm3⟩ false (R := fun _ => False)
    (fun _ _ _ _ h => h.elim) pick hb (fun _ _ h => h.elim)
  rw [if_neg (by simp), ho] at e
  obtain rfl := Option.some.inj e
  exact h (Or.inr hmin)

/-! ## Examples -/

/-- A region made of two leaves of face 0; it contains one of them. -/
def exRegion : Region where
  intersectsCell c := decide (c.contains ⟨0x0000000000000001#64⟩ = some true ∨ c.contains ⟨0x1000000000000001#64⟩ = some true)
  containsCell c := decide (c = ⟨0x0000000000000001#64⟩)
  cellUnionBound := [⟨0x1000000000000000#64⟩]

theorem exRegion_bound : AllCells exRegion.cellUnionBound := by
  rw [allCells_iff]
  intro c hc
  obtain rfl : c = ⟨0x1000000000000000#64⟩ := by simpa [exRegion] using hc
  unfold Valid
  decide +kernel

example (pick : Nat → Nat) : ∃ out, covering ⟨3, 20, 2, 8⟩ exRegion pick = some out ∧ IsUnion out ∧
    ∀ q, (q = 0 ∨ q = 2 ^ 59) → Covers out q := by
  have v0 : Valid ⟨0x0000000000000001#64⟩ := by unfold Valid; decide +kernel
  have v1 : Valid ⟨0x1000000000000001#64⟩ := by unfold Valid; decide +kernel
  have vf : Valid ⟨0x1000000000000000#64⟩ := by unfold Valid; decide +kernel
  have leaf0 : ∀ q, HasLeaf (0x0000000000000001#64 : BitVec 64).toNat q ↔ q = 0 := by
    intro q; rw [v0.hasLeaf]
    have : lo ⟨0x0000000000000001#64⟩ = 0 ∧ hi ⟨0x0000000000000001#64⟩ = 1 := by decide +kernel
    omega
  have leaf1 : ∀ q, HasLeaf (0x1000000000000001#64 : BitVec 64).toNat q ↔ q = 2 ^ 59 := by
    intro q; rw [v1.hasLeaf]
    have : lo ⟨0x1000000000000001#64⟩ = 2 ^ 59 ∧ hi ⟨0x1000000000000001#64⟩ = 2 ^ 59 + 1 := by decide +kernel
    omega
  refine c42_covering_covers (by decide) (by decide) (by decide) (by decide) ?_ exRegion_bound ?_ pick
  · rintro c q hc hq h
    simp only [exRegion, decide_eq_true_eq]
    rcases hq with rfl | rfl
    · left
      rw [c03_contains_iff hc v0]
      intro q hq
      rw [leaf0] at hq; subst hq; exact h
    · right
      rw [c03_contains_iff hc v1]
      intro q hq
      rw [leaf1] at hq; subst hq; exact h
  · intro q hq
    refine ⟨⟨0x1000000000000000#64⟩, by simp [exRegion], ?_⟩
    rw [vf.hasLeaf]
    have : lo ⟨0x1000000000000000#64⟩ = 0 ∧ hi ⟨0x1000000000000000#64⟩ = 2 ^ 60 := by decide +kernel
    omega

/-! ## `level_mod = 0`

The documentation permits the value 0. It then yields cells of level `max_level + 1`. -/

/-- A region that meets face 0 and its first two children only. -/
def badRegion : Region where
  intersectsCell c := decide (c = ⟨0x1000000000000000#64⟩ ∨ c = ⟨0x0400000000000000#64⟩ ∨ c = ⟨0x0C00000000000000#64⟩)
  containsCell _ := false
  cellUnionBound := [⟨0x1000000000000000#64⟩]

theorem badRegion_fast : fastCovering ⟨0, 0, 1, 4⟩ badRegion = some [⟨0x1000000000000000#64⟩] := by
  have vf : Valid ⟨0x1000000000000000#64⟩ := by unfold Valid; decide +kernel
  have h1 : adjustAll ⟨0, 0, 1, 4⟩ [⟨0x1000000000000000#64⟩] = some [⟨0x1000000000000000#64⟩] := by decide +kernel
  have h2 : CellUnion.normalize [⟨0x1000000000000000#64⟩] = some [⟨0x1000000000000000#64⟩] := c28_fixed (normal_singleton vf)
  have h3 : mergeLoop ⟨0, 0, 1, 4⟩ [⟨0x1000000000000000#64⟩] = some [⟨0x1000000000000000#64⟩] := by
    rw [mergeLoop, if_neg (by simp)]
  unfold fastCovering normalizeCovering
  rw [if_pos (Or.inl (by decide))]
  simp only [Option.bind_eq_bind]
  show (adjustAll ⟨0, 0, 1, 4⟩ [⟨0x1000000000000000#64⟩]).bind _ = _
  rw [h1, Option.bind_some, h2, Option.bind_some, h3, Option.bind_some, if_neg (by simp)]

theorem badRegion_expand : expandChildren ⟨0, 0, 0, 4⟩ badRegion false ⟨0x1000000000000000#64⟩ 0 =
    some ([⟨⟨0x0400000000000000#64⟩, true, [], 0⟩, ⟨⟨0x0C00000000000000#64⟩, true, [], 0⟩], 2) := by
  have vf : Valid ⟨0x1000000000000000#64⟩ := by unfold Valid; decide +kernel
  have l : CellID.level ⟨0x1000000000000000#64⟩ = some 0 := by decide +kernel
  have ch : CellID.children ⟨0x1000000000000000#64⟩ = some [⟨0x0400000000000000#64⟩, ⟨0x0C00000000000000#64⟩,
    ⟨0x1400000000000000#64⟩, ⟨0x1C00000000000000#64⟩] := by decide +kernel
  obtain ⟨it, cs, e1, e2, e3⟩ := c07_childIter vf l (by decide)
  rw [ch] at e3
  obtain rfl := Option.some.inj e3
  have l1 : CellID.level ⟨0x0400000000000000#64⟩ = some 1 := by decide +kernel
  have l1' : CellID.level ⟨0x0C00000000000000#64⟩ = some 1 := by decide +kernel
  have p1 : pushChild ⟨0, 0, 0, 4⟩ badRegion false ⟨0x0400000000000000#64⟩ =
      some ([⟨⟨0x0400000000000000#64⟩, true, [], 0⟩], 1) := by
    unfold pushChild newCandidate
    rw [if_neg (by decide), l1]
    rfl
  have p1' : pushChild ⟨0, 0, 0, 4⟩ badRegion false ⟨0x0C00000000000000#64⟩ =
      some ([⟨⟨0x0C00000000000000#64⟩, true, [], 0⟩], 1) := by
    unfold pushChild newCandidate
    rw [if_neg (by decide), l1']
    rfl
  have p2 : ∀ c, c ∉ [(⟨0x1000000000000000#64⟩ : CellID), ⟨0x0400000000000000#64⟩, ⟨0x0C00000000000000#64⟩] →
      pushChild ⟨0, 0, 0, 4⟩ badRegion false c = some ([], 0) := by
    intro c hc
    have : badRegion.intersectsCell c = false := by simpa [badRegion] using hc
    unfold pushChild newCandidate
    rw [if_pos (by rw [this]; rfl)]
    rfl
  unfold expandChildren
  simp only [Option.bind_eq_bind]
  rw [e1, Option.bind_some, e2, Option.bind_some]
  have hn : ¬ ((0 : Int) - 1 > 0) := by decide
  simp only [hn, if_false, expandList, Option.bind_eq_bind]
  rw [p1, p1', p2 _ (by decide), p2 _ (by decide)]
  rfl

/-- **C43.** `level_mod = 0` is not treated as 1 by `covering`: cells of level 1 are returned although `max_level = 0`. -/
theorem c43_levelMod_zero (pick : Nat → Nat) :
    covering ⟨0, 0, 0, 4⟩ badRegion pick = some [⟨0x0400000000000000#64⟩, ⟨0x0C00000000000000#64⟩] ∧ CellID.level ⟨0x0400000000000000#64⟩ = some 1 := by
  refine ⟨?_, by decide +kernel⟩
  have nc : Normal [⟨0x0400000000000000#64⟩, ⟨0x0C00000000000000#64⟩] := by
    rw [normal_iff]
    refine ⟨?_, ?_, ?_⟩
    · intro c hc
      rcases List.mem_cons.1 hc with rfl | hc
      · unfold Valid; decide +kernel
      · rw [List.mem_singleton.1 hc]; unfold Valid; decide +kernel
    · unfold Asc; decide +kernel
    · intro z vz hl hk
      have inj : ∀ i j, i < 4 → j < 4 → kid z i = kid z j → i = j := fun i j hi hj e => (kid_inj vz hl vz hl hi hj e).2
      have h0 := hk 0 (by decide)
      have h1 := hk 1 (by decide)
      have h2 := hk 2 (by decide)
      simp only [List.mem_cons, List.not_mem_nil, or_false] at h0 h1 h2
      have n01 : kid z 0 = kid z 1 → False := fun e => absurd (inj 0 1 (by decide) (by decide) e) (by decide)
      have n02 : kid z 0 = kid z 2 → False := fun e => absurd (inj 0 2 (by decide) (by decide) e) (by decide)
      have n12 : kid z 1 = kid z 2 → False := fun e => absurd (inj 1 2 (by decide) (by decide) e) (by decide)
      rcases h0 with h0 | h0 <;> rcases h1 with h1 | h1 <;> rcases h2 with h2 | h2
      · exact n01 (h0.trans h1.symm)
      · exact n01 (h0.trans h1.symm)
      · exact n02 (h0.trans h2.symm)
      · exact n12 (h1.trans h2.symm)
      · exact n12 (h1.trans h2.symm)
      · exact n02 (h0.trans h2.symm)
      · exact n01 (h0.trans h1.symm)
      · exact n01 (h0.trans h1.symm)
  have h1 : initialCandidates ⟨0, 0, 0, 4⟩ badRegion false =
      some ⟨[], [⟨⟨0x1000000000000000#64⟩, false, [⟨⟨0x0400000000000000#64⟩, true, [], 0⟩, ⟨⟨0x0C00000000000000#64⟩, true, [], 0⟩], -4⟩]⟩ := by
    have a1 : adjustCellLevels ⟨0, 0, 0, 4⟩ [⟨0x1000000000000000#64⟩] = some [⟨0x1000000000000000#64⟩] := by decide +kernel
    have a2 : newCandidate ⟨0, 0, 0, 4⟩ badRegion false ⟨0x1000000000000000#64⟩ =
      some (some ⟨⟨0x1000000000000000#64⟩, false, [], 0⟩) := by
      have l : CellID.level ⟨0x1000000000000000#64⟩ = some 0 := by decide +kernel
      unfold newCandidate
      rw [if_neg (by decide), l]
      rfl
    have a3 : addCandidate ⟨0, 0, 0, 4⟩ badRegion false ⟨[], []⟩ ⟨⟨0x1000000000000000#64⟩, false, [], 0⟩ =
      some ⟨[], [⟨⟨0x1000000000000000#64⟩, false, [⟨⟨0x0400000000000000#64⟩, true, [], 0⟩, ⟨⟨0x0C00000000000000#64⟩, true, [], 0⟩], -4⟩]⟩ := by
      have l : CellID.level ⟨0x1000000000000000#64⟩ = some 0 := by decide +kernel
      unfold addCandidate
      rw [if_neg (by simp)]
      simp only [Option.bind_eq_bind]
      rw [l, Option.bind_some]
      show Option.bind (expandChildren ⟨0, 0, 0, 4⟩ badRegion false ⟨0x1000000000000000#64⟩ 0) _ = _
      rw [badRegion_expand, Option.bind_some]
      rfl
    have a4 : addInitial ⟨0, 0, 0, 4⟩ badRegion false ⟨[], []⟩ [⟨0x1000000000000000#64⟩] =
      some ⟨[], [⟨⟨0x1000000000000000#64⟩, false, [⟨⟨0x0400000000000000#64⟩, true, [], 0⟩, ⟨⟨0x0C00000000000000#64⟩, true, [], 0⟩], -4⟩]⟩ := by
      unfold addInitial
      simp only [Option.bind_eq_bind]
      rw [a2, Option.bind_some]
      simp only []
      rw [a3, Option.bind_some]
      rfl
    unfold initialCandidates
    simp only [Option.bind_eq_bind]
    show Option.bind (fastCovering ⟨0, 0, 1, 4⟩ badRegion) _ = _
    rw [badRegion_fast, Option.bind_some, a1, Option.bind_some, a4]
  have h2 : coverLoop ⟨0, 0, 0, 4⟩ badRegion false pick 0
      ⟨[], [⟨⟨0x1000000000000000#64⟩, false, [⟨⟨0x0400000000000000#64⟩, true, [], 0⟩, ⟨⟨0x0C00000000000000#64⟩, true, [], 0⟩], -4⟩]⟩ = some [⟨0x0400000000000000#64⟩, ⟨0x0C00000000000000#64⟩] := by
    have l : CellID.level ⟨0x1000000000000000#64⟩ = some 0 := by decide +kernel
    rw [coverLoop]
    simp only [List.isEmpty_cons, List.length_singleton, Nat.mod_one, List.getElem?_cons_zero, Option.bind_eq_bind,
      Option.bind_some, List.eraseIdx_cons_zero, Bool.not_false, Bool.true_or, Bool.not_true, Bool.false_eq_true, if_false, l]
    rw [if_pos (by simp)]
    have a : addChildren ⟨0, 0, 0, 4⟩ badRegion false ⟨[], []⟩ [⟨⟨0x0400000000000000#64⟩, true, [], 0⟩, ⟨⟨0x0C00000000000000#64⟩, true, [], 0⟩] =
      some ⟨[⟨0x0400000000000000#64⟩, ⟨0x0C00000000000000#64⟩], []⟩ := rfl
    rw [a, Option.bind_some, coverLoop, if_pos (by simp)]
  have h3 : CellUnion.normalize [⟨0x0400000000000000#64⟩, ⟨0x0C00000000000000#64⟩] = some [⟨0x0400000000000000#64⟩, ⟨0x0C00000000000000#64⟩] := c28_fixed nc
  unfold covering cellUnion coveringInternal
  simp only [Option.bind_eq_bind]
  rw [h1, Option.bind_some, h2, Option.bind_some, h3, Option.bind_some]
  have l : CellID.level ⟨0x0400000000000000#64⟩ = some 1 := by decide +kernel
  have l' : CellID.level ⟨0x0C00000000000000#64⟩ = some 1 := by decide +kernel
  unfold denormalize
  simp only [Option.bind_eq_bind]
  rw [l]
  unfold denormalize
  simp only [Option.bind_eq_bind]
  rw [l']
  rfl

end Verif
