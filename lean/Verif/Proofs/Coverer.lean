import Verif.Proofs.CovererNorm
import Verif.Properties.CellUnion

/-! # The search of the coverer -/

namespace Verif
open Rust Spec CellID CellUnion RegionCoverer

theorem dvd30 {m : Nat} (h : m ≤ 3) : max 1 m ∣ 30 := by
  match m, h with
  | 0, _ => decide
  | 1, _ => decide
  | 2, _ => decide
  | 3, _ => decide

theorem normalizeCovering_spec {rc : RegionCoverer} (hmin : rc.minLevel ≤ 30) {v : List CellID} (hv : ∀ c ∈ v, Valid c) :
    ∃ u, normalizeCovering rc v = some u ∧ (∀ c ∈ u, Valid c) ∧ Asc u ∧ (∀ q, Covers v q → Covers u q) ∧
      (∀ c ∈ u, rc.minLevel ≤ lv c) ∧
      (rc.minLevel ≤ rc.maxLevel → rc.levelMod ≤ 3 → ∀ c ∈ u, lv c ≤ rc.maxLevel ∧ max 1 rc.levelMod ∣ lv c - rc.minLevel) ∧
      (rc.minLevel = 0 → rc.levelMod ≤ 1 → Normal u ∧ (u.length ≤ rc.maxCells ∨ u.Pairwise (fun a b => a.face < b.face) ∧ u.length ≤ 6)) := by
  -- the levels are reduced
  have step1 : ∃ w, (if rc.maxLevel < maxLevel ∨ rc.levelMod > 1 then adjustAll rc v else some v) = some w ∧
      (∀ c ∈ w, Valid c ∧ lv c ≤ rc.maxLevel ∧ LevelOK rc (lv c)) ∧ (∀ x ∈ v, ∃ c ∈ w, Within x c) := by
    split
    · exact adjustAll_spec rc v hv
    · rename_i h
      rw [not_or, not_lt, not_lt] at h
      refine ⟨v, rfl, fun c hc => ⟨hv c hc, ?_, Or.inr ?_⟩, fun x hx => ⟨x, hx, Within.refl x⟩⟩
      · have := (hv c hc).lv_le
        have := h.1
        unfold maxLevel at this
        omega
      · rw [Nat.max_eq_left h.2]; exact one_dvd _
  obtain ⟨w, e1, w1, w2⟩ := step1
  obtain ⟨x, e2, x1, x2, x3, x4, x5, x6⟩ := normalize_facts (fun c hc => (w1 c hc).1)
  obtain ⟨y, e3, y1, y2, y3, y4, y5, y6⟩ := mergeLoop_spec rc _ x (le_refl _) x1 x2 x3
  have under : ∀ c ∈ y, ∃ z, Valid z ∧ lv z ≤ rc.maxLevel ∧ LevelOK rc (lv z) ∧ Within z c := by
    intro c hc
    obtain ⟨z, hz, hzc⟩ := y5 c hc
    obtain ⟨t, ht, htz⟩ := x6 z hz
    obtain ⟨t1, t2, t3⟩ := w1 t ht
    exact ⟨t, t1, t2, t3, htz.trans hzc⟩
  have cov : ∀ q, Covers v q → Covers y q := by
    rintro q ⟨a, ha, hq⟩
    obtain ⟨b, hb, hab⟩ := w2 a ha
    obtain ⟨c, hc, hbc⟩ := x5 b hb
    obtain ⟨d, hd, hcd⟩ := y4 c hc
    exact ⟨d, hd, within_leaf (hv a ha) (y1 d hd) ((hab.trans hbc).trans hcd) q hq⟩
  have start : normalizeCovering rc v =
      if rc.minLevel > 0 ∨ rc.levelMod > 1 then CellUnion.denormalize y rc.minLevel rc.levelMod else some y := by
    unfold normalizeCovering
    rw [e1]
    simp only [Option.bind_eq_bind, Option.bind_some]
    rw [e2, Option.bind_some, e3, Option.bind_some]
  rw [start]
  by_cases hd : rc.minLevel > 0 ∨ rc.levelMod > 1
  · rw [if_pos hd]
    obtain ⟨out, eo, o1, o2, o3, o4⟩ := denormalize_spec (md := rc.levelMod) hmin y y1
    have lev : ∀ d ∈ out, ∃ c ∈ y, Valid d ∧ lo c ≤ lo d ∧ hi d ≤ hi c ∧ lv c ≤ lv d ∧ rc.minLevel ≤ lv d ∧ lv d ≤ 30 ∧
        (max 1 rc.levelMod ∣ 30 → (max 1 rc.levelMod ∣ lv d - rc.minLevel ∨ lv d = 30) ∧
          ∀ n', lv c ≤ n' → rc.minLevel ≤ n' → max 1 rc.levelMod ∣ n' - rc.minLevel → lv d ≤ n') := by
      intro d hdm
      obtain ⟨c, hc, d1, d2, d3, d4⟩ := (o4 d).1 hdm
      obtain ⟨n, en, n1, n2, n3, n4⟩ := denormLevel_spec (md := rc.levelMod) (y1 c hc).lv_le hmin
      rw [d4] at en
      obtain rfl := Option.some.inj en
      exact ⟨c, hc, d1, d2, d3, n1, n2, n3, n4⟩
    refine ⟨out, eo, o1, o2 y2, ?_, ?_, ?_, ?_⟩
    · intro q hq
      rw [cov_iff o1, o3, ← cov_iff y1]
      exact cov q hq
    · intro d hdm
      obtain ⟨c, _, _, _, _, _, h, _⟩ := lev d hdm
      exact h
    · intro hmm hmod d hdm
      obtain ⟨c, hc, d1, d2, d3, d4, d5, d6, d7⟩ := lev d hdm
      have h30 : max 1 rc.levelMod ∣ 30 := by
        exact dvd30 hmod
      obtain ⟨d8, d9⟩ := d7 h30
      obtain ⟨z, z1, z2, z3, z4⟩ := under c hc
      have hcz := z4.lv_le z1 (y1 c hc)
      rcases Nat.lt_or_ge (lv z) rc.minLevel with g | g
      · have := d9 rc.minLevel (by omega) (le_refl _) (by rw [Nat.sub_self]; exact dvd_zero _)
        have e : lv d = rc.minLevel := by omega
        exact ⟨by omega, by rw [e, Nat.sub_self]; exact dvd_zero _⟩
      · have z5 : max 1 rc.levelMod ∣ lv z - rc.minLevel := by
          rcases z3 with h | h
          · omega
          · exact h
        have := d9 (lv z) hcz g z5
        refine ⟨by omega, ?_⟩
        rcases d8 with h | h
        · exact h
        · have := z1.lv_le
          have : lv d = lv z := by omega
          rw [this]; exact z5
    · intro h0 h1
      omega
  · rw [if_neg hd]
    refine ⟨y, rfl, y1, y2, cov, by intro c _; omega, ?_, ?_⟩
    · intro _ _ c hc
      obtain ⟨z, z1, z2, z3, z4⟩ := under c hc
      have hcz := z4.lv_le z1 (y1 c hc)
      refine ⟨by omega, ?_⟩
      rw [Nat.max_eq_left (by omega)]; exact one_dvd _
    · intro h0 _
      refine ⟨(normal_iff y).2 ⟨y1, y2, y3⟩, ?_⟩
      rcases y6 with h | h
      · exact Or.inl h
      · exact Or.inr (stuck_faces h0 y1 y2 h)

/-! ## Candidates -/

/-- What the search needs of its parameters. -/
structure Params (rc : RegionCoverer) : Prop where
  min : rc.minLevel ≤ 30
  max : rc.maxLevel ≤ 30
  mod1 : 1 ≤ rc.levelMod
  mod3 : rc.levelMod ≤ 3

/-- What `new_candidate` makes of a valid cell. -/
theorem newCandidate_spec {rc : RegionCoverer} (hp : Params rc) (r : Region) (int : Bool) {c : CellID} (h : Valid c) :
    ∃ o, newCandidate rc r int c = some o ∧
      (o = none → r.intersectsCell c = false ∨ int = true) ∧
      ∀ d, o = some d → d.cell = c ∧ d.children = [] ∧ r.intersectsCell c = true ∧
        (d.terminal = true → rc.minLevel ≤ lv c ∧ (int = true → r.containsCell c = true)) ∧
        (d.terminal = false → lv c < rc.minLevel ∨ lv c + rc.levelMod ≤ rc.maxLevel) := by
  have hu : u8 (lv c + rc.levelMod) = some (lv c + rc.levelMod) := by
    unfold u8
    have := h.lv_le
    have := hp.mod3
    rw [if_pos (by omega)]
  unfold newCandidate
  cases hi : r.intersectsCell c with
  | false => exact ⟨none, rfl, fun _ => Or.inl rfl, by simp⟩
  | true =>
    simp only [Bool.not_true, Bool.false_eq_true, if_false, h.level, Option.bind_eq_bind, Option.bind_some, hu]
    by_cases h1 : lv c ≥ rc.minLevel
    · rw [if_pos h1]
      cases int with
      | true =>
        simp only [if_true]
        cases hc : r.containsCell c with
        | true =>
          refine ⟨_, if_pos rfl, by simp, ?_⟩
          rintro d hd
          obtain rfl := Option.some.inj hd
          exact ⟨rfl, rfl, by simp, fun _ => ⟨h1, fun _ => rfl⟩, by simp⟩
        | false =>
          rw [if_neg (by simp)]
          by_cases h2 : lv c + rc.levelMod > rc.maxLevel
          · rw [if_pos h2]; exact ⟨none, rfl, by simp, by simp⟩
          · rw [if_neg h2]
            refine ⟨_, rfl, by simp, ?_⟩
            intro d hd
            obtain rfl := Option.some.inj hd
            exact ⟨rfl, rfl, by simp, by simp, fun _ => Or.inr (by omega)⟩
      | false =>
        simp only [Bool.false_eq_true, if_false]
        refine ⟨_, rfl, by simp, ?_⟩
        intro d hd
        obtain rfl := Option.some.inj hd
        refine ⟨rfl, rfl, by simp, fun _ => ⟨h1, by simp⟩, ?_⟩
        intro ht
        simp only [Bool.or_eq_false_iff, decide_eq_false_iff_not] at ht
        right; omega
    · rw [if_neg h1]
      refine ⟨_, rfl, by simp, ?_⟩
      intro d hd
      obtain rfl := Option.some.inj hd
      exact ⟨rfl, rfl, by simp, by simp, fun _ => Or.inl (by omega)⟩

/-- A candidate as made by `new_candidate`, at a permitted level. -/
def Fresh (rc : RegionCoverer) (r : Region) (int : Bool) (d : Candidate) : Prop :=
  Valid d.cell ∧ newCandidate rc r int d.cell = some (some d) ∧ (lv d.cell ≤ rc.maxLevel ∨ lv d.cell ≤ rc.minLevel) ∧
    LevelOK rc (lv d.cell)

/-- `intersects_cell` is true for every cell with a leaf of `R`. -/
def Sound (r : Region) (R : Nat → Prop) : Prop :=
  ∀ c q, Valid c → R q → HasLeaf c.id.toNat q → r.intersectsCell c = true

theorem expandChildren_spec {rc : RegionCoverer} (hp : Params rc) (r : Region) (int : Bool) {R : Nat → Prop}
    (hR : int = false → Sound r R) : ∀ (m : Nat) (c : CellID), Valid c → lv c + (m + 1) ≤ 30 →
    ∃ cs t, expandChildren rc r int c ((m + 1 : Nat) : Int) = some (cs, t) ∧ t ≤ cs.length ∧ cs.length ≤ 4 ^ (m + 1) ∧
      (∀ d ∈ cs, Valid d.cell ∧ newCandidate rc r int d.cell = some (some d) ∧ lv d.cell = lv c + (m + 1)) ∧
      (int = false → ∀ q, R q → HasLeaf c.id.toNat q → ∃ d ∈ cs, HasLeaf d.cell.id.toNat q) := by
  intro m
  induction m with
  | zero =>
    intro c hc hl
    have key : ∀ xs : List CellID, (∀ x ∈ xs, Valid x ∧ lv x = lv c + 1) →
        ∃ cs t, expandList (fun c => rc.pushChild r int c) xs = some (cs, t) ∧
          t ≤ cs.length ∧ cs.length ≤ xs.length ∧
          (∀ d ∈ cs, Valid d.cell ∧ newCandidate rc r int d.cell = some (some d) ∧ lv d.cell = lv c + 1) ∧
          (int = false → ∀ q, R q → Covers xs q → ∃ d ∈ cs, HasLeaf d.cell.id.toNat q) := by
      intro xs
      induction xs with
      | nil => intro _; exact ⟨[], 0, rfl, by simp, by simp, by simp, by simp [Covers]⟩
      | cons x xs ih =>
        intro hx
        obtain ⟨hxv, hxl⟩ := hx x (by simp)
        obtain ⟨cs, t, e, h1, h2, h3, h4⟩ := ih fun y hy => hx y (by simp [hy])
        obtain ⟨o, eo, o1, o2⟩ := newCandidate_spec hp r int hxv
        cases o with
        | none =>
          refine ⟨cs, t, ?_, h1, by simp; omega, h3, ?_⟩
          · simp only [expandList, pushChild, eo, Option.bind_eq_bind, Option.bind_some] at e ⊢
            rw [e]
            simp
          · rintro hint q hq ⟨y, hy, hyq⟩
            rcases List.mem_cons.1 hy with rfl | hy
            · rcases o1 rfl with h | h
              · rw [hR hint _ _ hxv hq hyq] at h; cases h
              · rw [hint] at h; cases h
            · exact h4 hint q hq ⟨y, hy, hyq⟩
        | some d =>
          obtain ⟨d1, d2, d3, d4, d5⟩ := o2 d rfl
          refine ⟨d :: cs, (if d.terminal then 1 else 0) + t, ?_, ?_, by simp; omega, ?_, ?_⟩
          · simp only [expandList, pushChild, eo, Option.bind_eq_bind, Option.bind_some] at e ⊢
            rw [e]
            simp
          · simp only [List.length_cons]; split <;> omega
          · intro y hy
            rcases List.mem_cons.1 hy with rfl | hy
            · rw [d1]; exact ⟨hxv, eo, hxl⟩
            · exact h3 y hy
          · rintro hint q hq ⟨y, hy, hyq⟩
            rcases List.mem_cons.1 hy with rfl | hy
            · exact ⟨d, by simp, by rw [d1]; exact hyq⟩
            · obtain ⟨z, hz, hzq⟩ := h4 hint q hq ⟨y, hy, hyq⟩
              exact ⟨z, by simp [hz], hzq⟩
    obtain ⟨it, xs, e1, e2, e3⟩ := c07_childIter hc hc.level (by omega)
    obtain ⟨ys, f1, f2, _, f3, _, f4, _⟩ := c06_children hc hc.level (by omega)
    rw [e3] at f1
    obtain rfl := Option.some.inj f1
    have hxs : ∀ x ∈ xs, Valid x ∧ lv x = lv c + 1 := by
      intro x hx
      obtain ⟨g1, g2, _⟩ := (f3 x).1 hx
      rw [g1.level] at g2
      exact ⟨g1, Option.some.inj g2⟩
    obtain ⟨cs, t, e, h1, h2, h3, h4⟩ := key xs hxs
    refine ⟨cs, t, ?_, h1, by rw [f2] at h2; simpa using h2, by simpa using h3, ?_⟩
    · rw [expandChildren, e1]
      simp only [Option.bind_eq_bind, Option.bind_some, e2]
      have hz : ¬ ((((0 : Nat) + 1 : Nat) : Int) - 1 > 0) := by decide
      simp only [hz, if_false]
      exact e
    · intro hint q hq hcq
      exact h4 hint q hq ((f4 q).1 hcq)
  | succ m ihm =>
    intro c hc hl
    have key : ∀ xs : List CellID, (∀ x ∈ xs, Valid x ∧ lv x = lv c + 1) →
        ∃ cs t, expandList (fun c => 
            if r.intersectsCell c then expandChildren rc r int c ((m + 1 : Nat) : Int) else some ([], 0)) xs = some (cs, t) ∧
          t ≤ cs.length ∧ cs.length ≤ xs.length * 4 ^ (m + 1) ∧
          (∀ d ∈ cs, Valid d.cell ∧ newCandidate rc r int d.cell = some (some d) ∧ lv d.cell = lv c + (m + 1 + 1)) ∧
          (int = false → ∀ q, R q → Covers xs q → ∃ d ∈ cs, HasLeaf d.cell.id.toNat q) := by
      intro xs
      induction xs with
      | nil => intro _; exact ⟨[], 0, rfl, by simp, by simp, by simp, by simp [Covers]⟩
      | cons x xs ih =>
        intro hx
        obtain ⟨hxv, hxl⟩ := hx x (by simp)
        obtain ⟨cs, t, e, h1, h2, h3, h4⟩ := ih fun y hy => hx y (by simp [hy])
        have hlen : (x :: xs).length * 4 ^ (m + 1) = xs.length * 4 ^ (m + 1) + 4 ^ (m + 1) := by
          rw [List.length_cons, Nat.add_mul, Nat.one_mul]
        cases hi : r.intersectsCell x with
        | false =>
          refine ⟨cs, t, ?_, h1, hlen ▸ h2.trans (Nat.le_add_right _ _), h3, ?_⟩
          · simp only [expandList, hi, Bool.false_eq_true, if_false, Option.bind_eq_bind, Option.bind_some, e]
            simp
          · rintro hint q hq ⟨y, hy, hyq⟩
            rcases List.mem_cons.1 hy with rfl | hy
            · rw [hR hint _ _ hxv hq hyq] at hi; cases hi
            · exact h4 hint q hq ⟨y, hy, hyq⟩
        | true =>
          obtain ⟨cs', t', e', g1, g2, g3, g4⟩ := ihm x hxv (by omega)
          refine ⟨cs' ++ cs, t' + t, ?_, by simp; omega, ?_, ?_, ?_⟩
          · simp only [expandList, hi, if_true, Option.bind_eq_bind, Option.bind_some, e, e']
          · rw [hlen, List.length_append]
            generalize xs.length * 4 ^ (m + 1) = A at h2 ⊢
            generalize 4 ^ (m + 1) = B at g2 ⊢
            omega
          · intro y hy
            rcases List.mem_append.1 hy with hy | hy
            · obtain ⟨k1, k2, k3⟩ := g3 y hy
              exact ⟨k1, k2, by omega⟩
            · exact h3 y hy
          · rintro hint q hq ⟨y, hy, hyq⟩
            rcases List.mem_cons.1 hy with rfl | hy
            · obtain ⟨z, hz, hzq⟩ := g4 hint q hq hyq
              exact ⟨z, List.mem_append_left _ hz, hzq⟩
            · obtain ⟨z, hz, hzq⟩ := h4 hint q hq ⟨y, hy, hyq⟩
              exact ⟨z, List.mem_append_right _ hz, hzq⟩
    obtain ⟨it, xs, e1, e2, e3⟩ := c07_childIter hc hc.level (by omega)
    obtain ⟨ys, f1, f2, _, f3, _, f4, _⟩ := c06_children hc hc.level (by omega)
    rw [e3] at f1
    obtain rfl := Option.some.inj f1
    have hxs : ∀ x ∈ xs, Valid x ∧ lv x = lv c + 1 := by
      intro x hx
      obtain ⟨g1, g2, _⟩ := (f3 x).1 hx
      rw [g1.level] at g2
      exact ⟨g1, Option.some.inj g2⟩
    obtain ⟨cs, t, e, h1, h2, h3, h4⟩ := key xs hxs
    refine ⟨cs, t, ?_, h1, ?_, h3, ?_⟩
    · rw [expandChildren, e1]
      simp only [Option.bind_eq_bind, Option.bind_some, e2]
      have hz : ((m + 1 : Nat) : Int) > 0 := by omega
      have hz' : ((m + 1 + 1 : Nat) : Int) - 1 = ((m + 1 : Nat) : Int) := by omega
      simp only [hz', hz, if_true]
      exact e
    · rw [f2] at h2
      rw [Nat.pow_succ 4 (m + 1), Nat.mul_comm]; exact h2
    · intro hint q hq hcq
      exact h4 hint q hq ((f4 q).1 hcq)

theorem priority_some {level n t s : Nat} (h1 : level ≤ 30) (h2 : n ≤ 64) (h3 : t ≤ 64) (h4 : s ≤ 6) :
    ∃ p, priority level n t s = some p := by
  have hs : level <<< s ≤ 30 * 64 := by
    rw [Nat.shiftLeft_eq]
    exact Nat.mul_le_mul h1 (Nat.pow_le_pow_right (n := 2) (by decide) h4)
  have hs' : (level <<< s + n) <<< s ≤ (30 * 64 + 64) * 64 := by
    rw [Nat.shiftLeft_eq]
    exact Nat.mul_le_mul (by omega) (Nat.pow_le_pow_right (n := 2) (by decide) h4)
  unfold priority usizeShl usize
  rw [if_pos (show s < 64 by omega)]
  simp only [Option.bind_eq_bind, Option.bind_some]
  rw [Nat.mod_eq_of_lt (a := level <<< s) (by omega), if_pos (by omega), Option.bind_some, if_pos (by omega), Option.bind_some,
    Nat.mod_eq_of_lt (by omega), if_pos (by omega), Option.bind_some]
  refine ⟨-asIsize ((level <<< s + n) <<< s + t), ?_⟩
  generalize (level <<< s + n) <<< s = X at *
  unfold i64 asIsize
  rw [if_pos (by split <;> omega)]

/-- A cell of `result`. -/
structure Done (rc : RegionCoverer) (r : Region) (int : Bool) (c : CellID) : Prop where
  valid : Valid c
  min : rc.minLevel ≤ lv c
  max : rc.minLevel ≤ rc.maxLevel → lv c ≤ rc.maxLevel
  mod : rc.levelMod ∣ lv c - rc.minLevel
  meets : r.intersectsCell c = true
  inside : int = true → r.containsCell c = true

/-- A candidate in the queue. -/
structure Queued (rc : RegionCoverer) (r : Region) (int : Bool) (R : Nat → Prop) (d : Candidate) : Prop where
  valid : Valid d.cell
  max : lv d.cell ≤ rc.maxLevel ∨ lv d.cell ≤ rc.minLevel
  level : LevelOK rc (lv d.cell)
  meets : r.intersectsCell d.cell = true
  count : d.children.length ≤ 64
  fresh : ∀ x ∈ d.children, Fresh rc r int x ∧ lv d.cell < lv x.cell
  covers : int = false → ∀ q, R q → HasLeaf d.cell.id.toNat q → ∃ x ∈ d.children, HasLeaf x.cell.id.toNat q

theorem levelOK_mod {rc : RegionCoverer} (hp : Params rc) {l : Nat} (h : LevelOK rc l) (hl : rc.minLevel ≤ l) :
    rc.levelMod ∣ l - rc.minLevel := by
  rcases h with h | h
  · omega
  · rwa [Nat.max_eq_right hp.mod1] at h

theorem addCandidate_spec {rc : RegionCoverer} (hp : Params rc) (r : Region) (int : Bool) {R : Nat → Prop}
    (hR : int = false → Sound r R) (st : CovererState) {d : Candidate} (hd : Fresh rc r int d) :
    ∃ a b, addCandidate rc r int st d = some ⟨st.result ++ a, st.pq ++ b⟩ ∧ a.length + b.length ≤ 1 ∧
      (∀ c ∈ a, Done rc r int c) ∧ (∀ x ∈ b, Queued rc r int R x ∧ x.cell = d.cell) ∧
      (int = false → ∀ q, R q → HasLeaf d.cell.id.toNat q → Covers a q ∨ ∃ x ∈ b, HasLeaf x.cell.id.toNat q) := by
  obtain ⟨hv, hn, hmx, hlo⟩ := hd
  obtain ⟨o, eo, _, ho⟩ := newCandidate_spec hp r int hv
  rw [hn] at eo
  obtain ⟨-, hch, hmeet, hterm, hnt⟩ := ho d (Option.some.inj eo).symm
  have push : (rc.minLevel ≤ lv d.cell) → (int = true → r.containsCell d.cell = true) → 
      ∃ a b, (some { st with result := st.result ++ [d.cell] } : Option CovererState) = some ⟨st.result ++ a, st.pq ++ b⟩ ∧
      a.length + b.length ≤ 1 ∧
      (∀ c ∈ a, Done rc r int c) ∧ (∀ x ∈ b, Queued rc r int R x ∧ x.cell = d.cell) ∧
      (int = false → ∀ q, R q → HasLeaf d.cell.id.toNat q → Covers a q ∨ ∃ x ∈ b, HasLeaf x.cell.id.toNat q) := by
    intro h1 h2
    refine ⟨[d.cell], [], by simp, by simp, ?_, by simp, ?_⟩
    · intro c hc
      rw [List.mem_singleton] at hc
      subst hc
      exact ⟨hv, h1, fun h => by omega, levelOK_mod hp hlo h1, hmeet, h2⟩
    · intro _ q _ hq
      exact Or.inl ⟨d.cell, by simp, hq⟩
  unfold addCandidate
  cases ht : d.terminal with
  | true =>
    rw [if_pos rfl]
    obtain ⟨t1, t2⟩ := hterm ht
    exact push t1 t2
  | false =>
    rw [if_neg (by simp)]
    have hnt := hnt ht
    have h1 := hp.min
    have h2 := hp.max
    have h3 := hp.mod1
    have h4 := hp.mod3
    -- the number of levels to expand
    obtain ⟨m, em, hm3, hml, hmlev⟩ : ∃ m : Nat, (if lv d.cell < rc.minLevel then 1 else rc.levelMod) = m + 1 ∧ m + 1 ≤ 3 ∧
        lv d.cell + (m + 1) ≤ 30 ∧ ((lv d.cell + (m + 1) ≤ rc.maxLevel ∨ lv d.cell + (m + 1) ≤ rc.minLevel) ∧
          LevelOK rc (lv d.cell + (m + 1))) := by
      split
      · rename_i g
        refine ⟨0, rfl, by omega, by omega, by omega, ?_⟩
        rcases Nat.lt_or_ge (lv d.cell + 1) rc.minLevel with g' | g'
        · exact Or.inl g'
        · right
          have : lv d.cell + (0 + 1) - rc.minLevel = 0 := by omega
          rw [this]; exact dvd_zero _
      · rename_i g
        refine ⟨rc.levelMod - 1, by omega, by omega, by omega, by omega, Or.inr ?_⟩
        have : lv d.cell + (rc.levelMod - 1 + 1) - rc.minLevel = (lv d.cell - rc.minLevel) + rc.levelMod := by omega
        rw [this, Nat.max_eq_right h3]
        exact Nat.dvd_add (levelOK_mod hp hlo (by omega)) (dvd_refl _)
    obtain ⟨cs, t, e, c1, c2, c3, c4⟩ := expandChildren_spec hp r int hR m d.cell hv hml
    have hlen : cs.length ≤ 64 := c2.trans (Nat.pow_le_pow_right (n := 4) (j := 3) (by decide) hm3)
    have hu : u8 (rc.levelMod * 2) = some (rc.levelMod * 2) := by
      unfold u8; rw [if_pos (by omega)]
    rw [hv.level]
    simp only [Option.bind_eq_bind, Option.bind_some]
    rw [em, e]
    simp only [Option.bind_some, hu, hch, List.nil_append]
    cases hemp : cs.isEmpty with
    | true =>
      rw [if_pos rfl]
      refine ⟨[], [], by simp, by simp, by simp, by simp, ?_⟩
      intro hint q hq hdq
      obtain ⟨x, hx, _⟩ := c4 hint q hq hdq
      rw [List.isEmpty_iff.1 hemp] at hx
      simp at hx
    | false =>
      rw [if_neg (by simp)]
      have hfull : ∃ b, (if int = true then some false else
          (usizeShl 1 (rc.levelMod * 2)).bind fun n => some (decide (t = n) && decide (lv d.cell ≥ rc.minLevel))) = some b ∧
          (b = true → int = false ∧ rc.minLevel ≤ lv d.cell) := by
        cases int with
        | true => exact ⟨false, by simp, by simp⟩
        | false =>
          have : usizeShl 1 (rc.levelMod * 2) = some (1 <<< (rc.levelMod * 2) % 2 ^ 64) := by
            unfold usizeShl; rw [if_pos (by omega)]
          simp only [Bool.false_eq_true, if_false, this, Option.bind_some]
          refine ⟨_, rfl, ?_⟩
          intro hb
          simp only [Bool.and_eq_true, decide_eq_true_eq] at hb
          exact ⟨by simp, hb.2⟩
      obtain ⟨b, eb, hb⟩ := hfull
      rw [eb]
      simp only [Option.bind_some]
      cases b with
      | true =>
        rw [if_pos rfl]
        obtain ⟨b1, b2⟩ := hb rfl
        exact push b2 (by rw [b1]; simp)
      | false =>
        rw [if_neg (by simp)]
        obtain ⟨p, ep⟩ := priority_some (level := lv d.cell) (n := cs.length) (t := t) (s := rc.levelMod * 2) (by omega) hlen (by omega) (by omega)
        rw [ep, Option.bind_some]
        refine ⟨[], [⟨d.cell, false, cs, p⟩], by simp, by simp, by simp, ?_, ?_⟩
        · intro x hx
          rw [List.mem_singleton] at hx
          subst hx
          refine ⟨⟨hv, hmx, hlo, hmeet, hlen, ?_, c4⟩, rfl⟩
          intro x hx
          obtain ⟨g1, g2, g3⟩ := c3 x hx
          exact ⟨⟨g1, g2, by rw [g3]; exact hmlev.1, by rw [g3]; exact hmlev.2⟩, by show lv d.cell < lv x.cell; omega⟩
        · intro _ q _ hq
          exact Or.inr ⟨⟨d.cell, false, cs, p⟩, by simp, hq⟩

end Verif
