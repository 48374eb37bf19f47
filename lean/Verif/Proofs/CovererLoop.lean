import Verif.Proofs.Coverer

/-! # The main loop of the coverer -/

namespace Verif
open Rust Spec CellID CellUnion RegionCoverer

theorem addChildren_spec {rc : RegionCoverer} (hp : Params rc) (r : Region) (int : Bool) {R : Nat → Prop}
    (hR : int = false → Sound r R) (l : Nat) : ∀ (cs : List Candidate) (st : CovererState),
    (∀ x ∈ cs, Fresh rc r int x ∧ l < lv x.cell) →
    ∃ a b, addChildren rc r int st cs = some ⟨st.result ++ a, st.pq ++ b⟩ ∧ a.length + b.length ≤ cs.length ∧
      (∀ c ∈ a, Done rc r int c) ∧ (∀ x ∈ b, Queued rc r int R x ∧ l < lv x.cell) ∧
      (int = true → (st.result ++ a).length ≤ max st.result.length rc.maxCells) ∧
      (int = false → ∀ q, R q → (∃ x ∈ cs, HasLeaf x.cell.id.toNat q) → Covers a q ∨ ∃ x ∈ b, HasLeaf x.cell.id.toNat q) := by
  intro cs
  induction cs with
  | nil =>
    intro st _
    exact ⟨[], [], by simp [addChildren], by simp, by simp, by simp, by intro _; simp, by simp⟩
  | cons d cs ih =>
    intro st h
    obtain ⟨hd, hdl⟩ := h d (by simp)
    have h' : ∀ x ∈ cs, Fresh rc r int x ∧ l < lv x.cell := fun x hx => h x (by simp [hx])
    by_cases hc : (!int || decide (st.result.length < rc.maxCells)) = true
    · obtain ⟨a, b, e, h1, h2, h3, h4⟩ := addCandidate_spec hp r int hR st hd
      obtain ⟨a', b', e', h1', h2', h3', h4', h5'⟩ := ih ⟨st.result ++ a, st.pq ++ b⟩ h'
      refine ⟨a ++ a', b ++ b', ?_, by simp; omega, ?_, ?_, ?_, ?_⟩
      · unfold addChildren
        rw [if_pos hc, e]
        simp only [Option.bind_eq_bind, Option.bind_some]
        rw [e']
        simp only [List.append_assoc]
      · intro c hc
        rcases List.mem_append.1 hc with hc | hc
        exacts [h2 c hc, h2' c hc]
      · intro x hx
        rcases List.mem_append.1 hx with hx | hx
        · exact ⟨(h3 x hx).1, by rw [(h3 x hx).2]; exact hdl⟩
        · exact h3' x hx
      · intro hint
        have := h4' hint
        have hlt : st.result.length < rc.maxCells := by
          rw [hint] at hc
          simpa using hc
        simp only [List.length_append] at this ⊢
        omega
      · rintro hint q hq ⟨x, hx, hxq⟩
        have : (Covers a q ∨ ∃ x ∈ b, HasLeaf x.cell.id.toNat q) ∨ (Covers a' q ∨ ∃ x ∈ b', HasLeaf x.cell.id.toNat q) := by
          rcases List.mem_cons.1 hx with rfl | hx
          · exact Or.inl (h4 hint q hq hxq)
          · exact Or.inr (h5' hint q hq ⟨x, hx, hxq⟩)
        rcases this with (h | ⟨y, hy, g⟩) | (h | ⟨y, hy, g⟩)
        · exact Or.inl (covers_append.2 (Or.inl h))
        · exact Or.inr ⟨y, List.mem_append_left _ hy, g⟩
        · exact Or.inl (covers_append.2 (Or.inr h))
        · exact Or.inr ⟨y, List.mem_append_right _ hy, g⟩
    · obtain ⟨a, b, e, h1, h2, h3, h4, h5⟩ := ih st h'
      refine ⟨a, b, ?_, by simp; omega, h2, h3, h4, ?_⟩
      · unfold addChildren
        rw [if_neg hc, e]
      · intro hint
        rw [hint] at hc
        simp at hc

theorem addInitial_spec {rc : RegionCoverer} (hp : Params rc) (r : Region) (int : Bool) {R : Nat → Prop}
    (hR : int = false → Sound r R) : ∀ (v : List CellID) (st : CovererState),
    (∀ c ∈ v, Valid c ∧ lv c ≤ rc.maxLevel ∧ LevelOK rc (lv c)) →
    ∃ a b, addInitial rc r int st v = some ⟨st.result ++ a, st.pq ++ b⟩ ∧ a.length + b.length ≤ v.length ∧
      (∀ c ∈ a, Done rc r int c) ∧ (∀ x ∈ b, Queued rc r int R x) ∧
      (int = false → ∀ q, R q → Covers v q → Covers a q ∨ ∃ x ∈ b, HasLeaf x.cell.id.toNat q) := by
  intro v
  induction v with
  | nil =>
    intro st _
    exact ⟨[], [], by simp [addInitial], by simp, by simp, by simp, by simp [Covers]⟩
  | cons c v ih =>
    intro st h
    obtain ⟨hc, hcm, hcl⟩ := h c (by simp)
    have h' : ∀ c ∈ v, Valid c ∧ lv c ≤ rc.maxLevel ∧ LevelOK rc (lv c) := fun x hx => h x (by simp [hx])
    obtain ⟨o, eo, o1, o2⟩ := newCandidate_spec hp r int hc
    cases o with
    | none =>
      obtain ⟨a, b, e, h1, h2, h3, h4⟩ := ih st h'
      refine ⟨a, b, ?_, by simp; omega, h2, h3, ?_⟩
      · simp only [addInitial, eo, Option.bind_eq_bind, Option.bind_some, e]
      · rintro hint q hq ⟨x, hx, hxq⟩
        rcases List.mem_cons.1 hx with rfl | hx
        · rcases o1 rfl with g | g
          · rw [hR hint _ _ hc hq hxq] at g; cases g
          · rw [hint] at g; cases g
        · exact h4 hint q hq ⟨x, hx, hxq⟩
    | some d =>
      obtain ⟨d1, d2, d3, d4, d5⟩ := o2 d rfl
      have hd : Fresh rc r int d := by
        unfold Fresh
        rw [d1]
        exact ⟨hc, eo, Or.inl hcm, hcl⟩
      obtain ⟨a, b, e, h1, h2, h3, h4⟩ := addCandidate_spec hp r int hR st hd
      obtain ⟨a', b', e', h1', h2', h3', h4'⟩ := ih ⟨st.result ++ a, st.pq ++ b⟩ h'
      refine ⟨a ++ a', b ++ b', ?_, by simp; omega, ?_, ?_, ?_⟩
      · simp only [addInitial, eo, Option.bind_eq_bind, Option.bind_some, e, e', List.append_assoc]
      · intro c hc
        rcases List.mem_append.1 hc with hc | hc
        exacts [h2 c hc, h2' c hc]
      · intro x hx
        rcases List.mem_append.1 hx with hx | hx
        exacts [(h3 x hx).1, h3' x hx]
      · rintro hint q hq ⟨x, hx, hxq⟩
        have : (Covers a q ∨ ∃ x ∈ b, HasLeaf x.cell.id.toNat q) ∨ (Covers a' q ∨ ∃ x ∈ b', HasLeaf x.cell.id.toNat q) := by
          rcases List.mem_cons.1 hx with rfl | hx
          · exact Or.inl (h4 hint q hq (by rw [d1]; exact hxq))
          · exact Or.inr (h4' hint q hq ⟨x, hx, hxq⟩)
        rcases this with (h | ⟨y, hy, g⟩) | (h | ⟨y, hy, g⟩)
        · exact Or.inl (covers_append.2 (Or.inl h))
        · exact Or.inr ⟨y, List.mem_append_left _ hy, g⟩
        · exact Or.inl (covers_append.2 (Or.inr h))
        · exact Or.inr ⟨y, List.mem_append_right _ hy, g⟩

/-! ## Termination -/

/-- The weight of a candidate is larger than that of 64 candidates of higher level. -/
def weight (x : Candidate) : Nat := 65 ^ (31 - lv x.cell)

def weights (pq : List Candidate) : Nat := (pq.map weight).sum

theorem weights_append (a b : List Candidate) : weights (a ++ b) = weights a + weights b := by
  simp [weights]

theorem weights_lt {l : Nat} (hl : l ≤ 30) {b : List Candidate} (h : ∀ x ∈ b, l < lv x.cell) (hb : b.length ≤ 64) :
    weights b < 65 ^ (31 - l) := by
  have h1 : weights b ≤ b.length * 65 ^ (30 - l) := by
    clear hb
    induction b with
    | nil => simp [weights]
    | cons x b ih =>
      have := ih fun y hy => h y (by simp [hy])
      have hx : weight x ≤ 65 ^ (30 - l) := Nat.pow_le_pow_right (by decide) (by have := h x (by simp); omega)
      have e : weights (x :: b) = weight x + weights b := by simp [weights]
      rw [e, List.length_cons, Nat.add_mul, Nat.one_mul]
      omega
  have h2 : 65 ^ (31 - l) = 65 * 65 ^ (30 - l) := by
    rw [show 31 - l = (30 - l) + 1 by omega, Nat.pow_succ, Nat.mul_comm]
  have h3 : b.length * 65 ^ (30 - l) ≤ 64 * 65 ^ (30 - l) := Nat.mul_le_mul_right _ hb
  have h4 : 0 < 65 ^ (30 - l) := Nat.pow_pos (by decide)
  rw [h2]
  generalize 65 ^ (30 - l) = A at *
  omega

theorem weights_erase : ∀ (pq : List Candidate) (i : Nat) (d : Candidate), pq[i]? = some d →
    weights (pq.eraseIdx i) + weight d = weights pq := by
  intro pq
  induction pq with
  | nil => intro i d h; simp at h
  | cons x pq ih =>
    intro i d h
    match i with
    | 0 =>
      obtain rfl : x = d := by simpa using h
      simp [weights]; omega
    | i + 1 =>
      have := ih i d (by simpa using h)
      simp [weights] at this ⊢
      omega

theorem coverLoop_spec {rc : RegionCoverer} (hp : Params rc) (r : Region) (int : Bool) {R : Nat → Prop}
    (hR : int = false → Sound r R) (pick : Nat → Nat) : ∀ (m k : Nat) (st : CovererState), weights st.pq ≤ m →
    (∀ c ∈ st.result, Done rc r int c) → (∀ x ∈ st.pq, Queued rc r int R x) →
    ∃ res, coverLoop rc r int pick k st = some res ∧ (∀ c ∈ res, Done rc r int c) ∧
      (int = false → ∀ q, R q → (Covers st.result q ∨ ∃ x ∈ st.pq, HasLeaf x.cell.id.toNat q) → Covers res q) ∧
      (int = true → res.length ≤ max st.result.length rc.maxCells) ∧
      (int = false → rc.minLevel = 0 → res.length ≤ max (st.result.length + st.pq.length) rc.maxCells) := by
  intro m
  induction m using Nat.strongRecOn with
  | _ m ih =>
    intro k st hm hd hq
    rw [coverLoop]
    cases hemp : st.pq.isEmpty with
    | true =>
      rw [if_pos rfl]
      have h0 := List.isEmpty_iff.1 hemp
      refine ⟨st.result, rfl, hd, ?_, by intro _; omega, by intro _ _; omega⟩
      rintro _ q _ (h | ⟨x, hx, _⟩)
      · exact h
      · rw [h0] at hx; simp at hx
    | false =>
      rw [if_neg (by simp)]
      have hlen : 0 < st.pq.length := by
        rcases Nat.eq_zero_or_pos st.pq.length with h | h
        · rw [List.length_eq_zero_iff.1 h] at hemp; simp at hemp
        · exact h
      have hi : pick k % st.pq.length < st.pq.length := Nat.mod_lt _ hlen
      generalize pick k % st.pq.length = i at hi
      obtain ⟨d, ed⟩ : ∃ d, st.pq[i]? = some d := ⟨_, List.getElem?_eq_getElem hi⟩
      have hdm := List.mem_of_getElem? ed
      have hQ := hq d hdm
      have hw := weights_erase _ _ _ ed
      have hle : (st.pq.eraseIdx i).length = st.pq.length - 1 := List.length_eraseIdx_of_lt hi
      have hq' : ∀ x ∈ st.pq.eraseIdx i, Queued rc r int R x := fun x hx => hq x (List.mem_of_mem_eraseIdx hx)
      have hsplit : ∀ x ∈ st.pq, x = d ∨ x ∈ st.pq.eraseIdx i := by
        intro x hx
        obtain ⟨j, hj⟩ := List.getElem?_of_mem hx
        by_cases hij : j = i
        · subst hij; rw [ed] at hj; exact Or.inl (Option.some.inj hj).symm
        · right
          rw [List.mem_eraseIdx_iff_getElem?]
          exact ⟨j, hij, hj⟩
      rw [ed]
      simp only [Option.bind_eq_bind, Option.bind_some]
      by_cases hstop : (!(!int || decide (st.result.length < rc.maxCells))) = true
      · rw [if_pos hstop]
        have hint : int = true := by
          cases int with
          | true => rfl
          | false => simp at hstop
        refine ⟨st.result, rfl, hd, ?_, by intro _; omega, ?_⟩ <;> rw [hint] <;> simp
      · rw [if_neg hstop, hQ.valid.level, Option.bind_some]
        by_cases hcase : (int || decide (lv d.cell < rc.minLevel) || decide (d.children.length = 1) ||
          decide (st.result.length + (st.pq.eraseIdx i).length + d.children.length ≤ rc.maxCells)) = true
        · rw [if_pos hcase]
          obtain ⟨a, b, e, h1, h2, h3, h4, h5⟩ := addChildren_spec hp r int hR (lv d.cell) d.children
            ⟨st.result, st.pq.eraseIdx i⟩ hQ.fresh
          rw [e, Option.bind_some]
          have hwb := weights_lt hQ.valid.lv_le (fun x hx => (h3 x hx).2) (by have := hQ.count; omega)
          have hwd : weight d = 65 ^ (31 - lv d.cell) := rfl
          rw [← hwd] at hwb
          obtain ⟨res, er, r1, r2, r3, r4⟩ := ih (weights (st.pq.eraseIdx i ++ b)) (by rw [weights_append]; omega) (k + 1)
            ⟨st.result ++ a, st.pq.eraseIdx i ++ b⟩ (le_refl _)
            (by
              intro c hc
              rcases List.mem_append.1 hc with hc | hc
              exacts [hd c hc, h2 c hc])
            (by
              intro x hx
              rcases List.mem_append.1 hx with hx | hx
              exacts [hq' x hx, (h3 x hx).1])
          refine ⟨res, er, r1, ?_, ?_, ?_⟩
          · rintro hint q hqR hcov
            apply r2 hint q hqR
            have fromd : HasLeaf d.cell.id.toNat q →
                Covers (st.result ++ a) q ∨ ∃ x ∈ st.pq.eraseIdx i ++ b, HasLeaf x.cell.id.toNat q := by
              intro g
              rcases h5 hint q hqR (hQ.covers hint q hqR g) with g | ⟨x, hx, g⟩
              · exact Or.inl (covers_append.2 (Or.inr g))
              · exact Or.inr ⟨x, List.mem_append_right _ hx, g⟩
            rcases hcov with g | ⟨x, hx, g⟩
            · exact Or.inl (covers_append.2 (Or.inl g))
            · rcases hsplit x hx with rfl | hx
              · exact fromd g
              · exact Or.inr ⟨x, List.mem_append_left _ hx, g⟩
          · intro hint
            have g1 := r3 hint
            have g2 := h4 hint
            dsimp only at g1 g2
            omega
          · intro hint h0
            have g1 := r4 hint h0
            simp only [List.length_append] at g1
            simp only [hint, h0, Bool.false_or, Nat.not_lt_zero, decide_false, Bool.or_eq_true, decide_eq_true_eq] at hcase
            omega
        · rw [if_neg hcase]
          simp only [Bool.or_eq_true, decide_eq_true_eq, not_or, Bool.not_eq_true] at hcase
          obtain ⟨⟨⟨c1, c2⟩, c3⟩, c4⟩ := hcase
          have hDone : Done rc r int d.cell := ⟨hQ.valid, by omega, fun h => by have := hQ.max; omega,
            levelOK_mod hp hQ.level (by omega), hQ.meets, by rw [c1]; simp⟩
          have e : addCandidate rc r int ⟨st.result, st.pq.eraseIdx i⟩ { d with terminal := true } =
              some ⟨st.result ++ [d.cell], st.pq.eraseIdx i⟩ := by
            unfold addCandidate
            rw [if_pos rfl]
          rw [e, Option.bind_some]
          have hpos : 0 < weight d := Nat.pow_pos (by decide)
          obtain ⟨res, er, r1, r2, r3, r4⟩ := ih (weights (st.pq.eraseIdx i)) (by omega) (k + 1)
            ⟨st.result ++ [d.cell], st.pq.eraseIdx i⟩ (le_refl _)
            (by
              intro c hc
              rcases List.mem_append.1 hc with hc | hc
              · exact hd c hc
              · rw [List.mem_singleton] at hc
                subst hc; exact hDone)
            hq'
          refine ⟨res, er, r1, ?_, by rw [c1]; simp, ?_⟩
          · rintro hint q hqR hcov
            apply r2 hint q hqR
            rcases hcov with g | ⟨x, hx, g⟩
            · exact Or.inl (covers_append.2 (Or.inl g))
            · rcases hsplit x hx with rfl | hx
              · exact Or.inl (covers_append.2 (Or.inr ⟨x.cell, by simp, g⟩))
              · exact Or.inr ⟨x, hx, g⟩
          · intro hint h0
            have g1 := r4 hint h0
            simp only [List.length_append, List.length_singleton] at g1
            omega

theorem coveringInternal_spec {rc : RegionCoverer} (hp : Params rc) {r : Region} (int : Bool) {R : Nat → Prop}
    (hR : int = false → Sound r R) (pick : Nat → Nat) (hb : ∀ c ∈ r.cellUnionBound, Valid c)
    (hcov : int = false → ∀ q, R q → Covers r.cellUnionBound q) :
    ∃ res, coveringInternal rc r int pick = some res ∧ (∀ c ∈ res, Done rc r int c) ∧
      (int = false → ∀ q, R q → Covers res q) ∧
      ((int = true ∨ rc.minLevel = 0) → res.length ≤ max rc.maxCells 6) := by
  obtain ⟨u, e, u1, u2, u3, u4, u5, u6⟩ := normalizeCovering_spec (rc := ⟨0, rc.maxLevel, 1, min rc.maxCells 4⟩) (Nat.zero_le _) hb
  obtain ⟨w, ew, w1, w2, w3⟩ := adjustCellLevels_spec rc u1 (fun c hc => (u5 (Nat.zero_le _) (by show 1 ≤ 3; omega) c hc).1)
  obtain ⟨a, b, ea, a1, a2, a3, a4⟩ := addInitial_spec hp r int hR w ⟨[], []⟩ w1
  obtain ⟨res, er, r1, r2, r3, r4⟩ := coverLoop_spec hp r int hR pick _ 0 ⟨[] ++ a, [] ++ b⟩ (le_refl _) (by simpa using a2) (by simpa using a3)
  refine ⟨res, ?_, r1, ?_, ?_⟩
  · unfold coveringInternal initialCandidates fastCovering
    simp only [Option.bind_eq_bind]
    rw [e, Option.bind_some, ew, Option.bind_some, ea, Option.bind_some, er]
  · intro hint q hq
    apply r2 hint q hq
    obtain ⟨x, hx, hxq⟩ := u3 q (hcov hint q hq)
    obtain ⟨y, hy, hxy⟩ := w3 x hx
    simpa using a4 hint q hq ⟨y, hy, within_leaf (u1 x hx) (w1 y hy).1 hxy q hxq⟩
  · have hu : u.length ≤ max rc.maxCells 6 := by
      rcases (u6 rfl (le_refl _)).2 with h | ⟨_, h⟩
      · dsimp only at h; omega
      · omega
    simp only [List.nil_append] at r3 r4
    intro h
    cases hint : int with
    | true => have := r3 hint; omega
    | false =>
      rw [hint] at h
      rcases h with h | h
      · cases h
      · have := r4 hint h; omega

/-- The last two steps of `covering`: normalize and denormalize. -/
theorem finish {rc : RegionCoverer} (hp : Params rc) {r : Region} {int : Bool} {res : List CellID} (h : ∀ c ∈ res, Done rc r int c) :
    ∃ u out, normalize res = some u ∧ denormalize u rc.minLevel rc.levelMod = some out ∧
      (∀ c ∈ out, Valid c) ∧ Asc out ∧ (∀ q, Covers out q ↔ Covers res q) ∧
      (∀ c ∈ out, rc.minLevel ≤ lv c ∧ (rc.minLevel ≤ rc.maxLevel → lv c ≤ rc.maxLevel) ∧ rc.levelMod ∣ lv c - rc.minLevel) ∧
      out.length ≤ res.length ∧ ∀ c ∈ out, ∃ x ∈ res, Within x c := by
  have hv : ∀ c ∈ res, Valid c := fun c hc => (h c hc).valid
  obtain ⟨u, e, u1, u2, u3, u4, u5, u6⟩ := normalize_facts hv
  obtain ⟨out, eo, o1, o2, o3, o4⟩ := denormalize_spec (md := rc.levelMod) hp.min u u1
  have hcov : ∀ q, Covers out q ↔ Covers res q := by
    intro q
    rw [cov_iff o1, o3, ← cov_iff u1, u4]
  -- every cell of the output contains a cell of `res`
  have key : ∀ d ∈ out, ∃ x ∈ res, Within x d ∧ rc.minLevel ≤ lv d ∧ rc.levelMod ∣ lv d - rc.minLevel := by
    intro d hd
    obtain ⟨c, hc, d1, d2, d3, d4⟩ := (o4 d).1 hd
    obtain ⟨n, en, n1, n2, n3, n4⟩ := denormLevel_spec (md := rc.levelMod) (u1 c hc).lv_le hp.min
    rw [d4] at en
    obtain rfl := Option.some.inj en
    obtain ⟨n5, n6⟩ := n4 (dvd30 hp.mod3)
    rw [Nat.max_eq_right hp.mod1] at n5 n6
    have hdl := lo_lt_hi d
    obtain ⟨x, hx, hxq⟩ := (hcov (lo d)).1 ⟨d, hd, ((o1 d hd).hasLeaf _).2 ⟨le_refl _, hdl⟩⟩
    have hxv := hv x hx
    rw [hxv.hasLeaf] at hxq
    obtain ⟨c', hc', hxc'⟩ := u5 x hx
    have hcc : c' = c := u2.eq_of_overlap hc' hc (by have := hxc'.1; omega) (by have := hxc'.2; omega)
    subst hcc
    have hlx := hxc'.lv_le hxv (u1 c' hc')
    have hD := h x hx
    have hle := n6 (lv x) hlx hD.min hD.mod
    have hxd : Within x d := by
      rcases hxv.lam d1 with g | g | g | g
      · omega
      · omega
      · have hle' := Within.lv_le d1 hxv g
        have : lv x = lv d := by omega
        have e1 := hi_eq x
        have e2 := hi_eq d
        rw [this] at e1
        unfold Within
        omega
      · exact g
    refine ⟨x, hx, hxd, n2, ?_⟩
    rcases n5 with g | g
    · exact g
    · have := hxv.lv_le
      have : lv d = lv x := by omega
      rw [this]; exact hD.mod
  refine ⟨u, out, e, eo, o1, o2 u2, hcov, ?_, ?_, ?_⟩
  · intro d hd
    obtain ⟨x, hx, hxd, g1, g2⟩ := key d hd
    have := hxd.lv_le (hv x hx) (o1 d hd)
    refine ⟨g1, fun hm => ?_, g2⟩
    have := (h x hx).max hm
    omega
  · exact asc_length (o2 u2) fun d hd => let ⟨x, hx, g, _⟩ := key d hd; ⟨x, hx, g⟩
  · exact fun d hd => let ⟨x, hx, g, _⟩ := key d hd; ⟨x, hx, g⟩

end Verif
