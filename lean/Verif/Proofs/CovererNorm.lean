import Verif.Model.Coverer
import Verif.Properties.CellID
import Verif.Proofs.Normalize
import Verif.Proofs.UnionMisc

/-! # Facts about `normalize_covering` and `adjust_cell_levels` -/

namespace Verif
open Rust Spec CellID CellUnion RegionCoverer

/-- The leaves of `d` are among the leaves of `c`. -/
def Within (d c : CellID) : Prop := lo c ≤ lo d ∧ hi d ≤ hi c

theorem Within.refl (c : CellID) : Within c c := ⟨le_refl _, le_refl _⟩
theorem Within.trans {a b c : CellID} (h : Within a b) (h' : Within b c) : Within a c :=
  ⟨h'.1.trans h.1, h.2.trans h'.2⟩

theorem Within.lv_le {d c : CellID} (hd : Valid d) (hc : Valid c) (h : Within d c) : lv c ≤ lv d := by
  rw [← E_lt_iff hc.lv_le hd.lv_le]
  have h1 := hi_eq c
  have h2 := hi_eq d
  have := h.1
  have := h.2
  omega

theorem within_iff {d c : CellID} (hd : Valid d) (hc : Valid c) : c.contains d = some true ↔ Within d c := by
  rw [hc.contains hd]
  simp [Within]

theorem within_leaf {d c : CellID} (hd : Valid d) (hc : Valid c) (h : Within d c) (q : Nat) (hq : HasLeaf d.id.toNat q) :
    HasLeaf c.id.toNat q := (c03_contains_iff hc hd).1 ((within_iff hd hc).2 h) q hq

theorem parent_within {c : CellID} (h : Valid c) {l : Nat} (hl : l ≤ lv c) :
    ∃ P, c.parent l = some P ∧ Valid P ∧ lv P = l ∧ Within c P := by
  obtain ⟨P, e, h1, h2, h3, _⟩ := c05_parent h h.level hl
  refine ⟨P, e, h1, ?_, (within_iff h h1).1 h3⟩
  rw [h1.level] at h2
  exact Option.some.inj h2

theorem asc_length {u z : List CellID} (hu : Asc u) (h : ∀ c ∈ u, ∃ d ∈ z, Within d c) : u.length ≤ z.length := by
  induction u generalizing z with
  | nil => simp
  | cons c rest ih =>
    have hx := List.pairwise_cons.1 hu
    obtain ⟨d, hd, d1, d2⟩ := h c (by simp)
    have hdl := lo_lt_hi d
    obtain ⟨s, t, rfl⟩ := List.append_of_mem hd
    have := ih (z := s ++ t) hx.2 ?_
    · simp at this ⊢; omega
    · intro c' hc'
      obtain ⟨d', hd', e1, e2⟩ := h c' (List.mem_cons_of_mem _ hc')
      refine ⟨d', ?_, e1, e2⟩
      have hne : d' ≠ d := by
        rintro rfl
        have := hx.1 c' hc'
        omega
      simp only [List.mem_append, List.mem_cons] at hd' ⊢
      tauto

/-- `normalize` in terms of ranges. -/
theorem normalize_facts {v : List CellID} (hv : ∀ c ∈ v, Valid c) :
    ∃ u, normalize v = some u ∧ (∀ c ∈ u, Valid c) ∧ Asc u ∧ NoKids u ∧ (∀ q, Covers u q ↔ Covers v q) ∧
      (∀ x ∈ v, ∃ c ∈ u, Within x c) ∧ ∀ c ∈ u, ∃ x ∈ v, Within x c := by
  obtain ⟨u, e, h1, h2, h3, h4⟩ := normalize_spec hv
  have h : ∀ q, Covers u q ↔ Covers v q := fun q => by rw [cov_iff h1, cov_iff hv, h4]
  have hsup : ∀ x ∈ v, ∃ c ∈ u, Within x c := fun x hx => exists_super' h1 h3 (hv x hx) (fun q a b =>
    (h q).2 ((covers_iff hv q).2 ⟨x, hx, a, b⟩))
  refine ⟨u, e, h1, h2, h3, h, hsup, ?_⟩
  intro c hc
  have hlt := lo_lt_hi c
  obtain ⟨d, hd, d1, d2⟩ := (covers_iff hv (lo c)).1
    ((h (lo c)).1 ((covers_iff h1 _).2 ⟨c, hc, by omega, by omega⟩))
  obtain ⟨a, ha, a1, a2⟩ := hsup d hd
  have hac : c = a := h2.eq_of_overlap hc ha (by omega) (by omega)
  subst hac
  exact ⟨d, hd, a1, a2⟩

/-! ## Levels -/

theorem adjustLevel_le (rc : RegionCoverer) (l : Nat) : rc.adjustLevel l ≤ l := by
  unfold adjustLevel; split <;> omega

theorem adjustLevel_min {rc : RegionCoverer} {l : Nat} (h : rc.minLevel ≤ l) : rc.minLevel ≤ rc.adjustLevel l := by
  unfold adjustLevel; split
  · have := Nat.mod_le (l - rc.minLevel) rc.levelMod
    omega
  · exact h

/-- Smaller than `min_level`, or a permitted level. -/
def LevelOK (rc : RegionCoverer) (l : Nat) : Prop := l < rc.minLevel ∨ max 1 rc.levelMod ∣ l - rc.minLevel

theorem adjustLevel_ok (rc : RegionCoverer) (l : Nat) : LevelOK rc (rc.adjustLevel l) := by
  unfold adjustLevel; split
  · rename_i h
    right
    rw [Nat.max_eq_right (by omega)]
    have : l - (l - rc.minLevel) % rc.levelMod - rc.minLevel = (l - rc.minLevel) - (l - rc.minLevel) % rc.levelMod := by omega
    rw [this]
    exact Nat.dvd_sub_mod _
  · rename_i h
    rcases Nat.lt_or_ge l rc.minLevel with g | g
    · exact Or.inl g
    · right
      rcases Nat.lt_or_ge 1 rc.levelMod with g' | g'
      · have : l = rc.minLevel := by omega
        rw [this, Nat.sub_self]; exact dvd_zero _
      · rw [Nat.max_eq_left g']; exact one_dvd _

theorem replaceLevel_spec {c : CellID} (h : Valid c) {l : Nat} (hl : l ≤ lv c) :
    ∃ P, replaceLevel c (lv c) l = some P ∧ Valid P ∧ lv P = l ∧ Within c P := by
  unfold replaceLevel
  split
  · exact parent_within h hl
  · rename_i e
    exact ⟨c, rfl, h, (not_not.1 e).symm, Within.refl c⟩

theorem adjustAll_spec (rc : RegionCoverer) : ∀ v : List CellID, (∀ c ∈ v, Valid c) →
    ∃ w, adjustAll rc v = some w ∧ (∀ c ∈ w, Valid c ∧ lv c ≤ rc.maxLevel ∧ LevelOK rc (lv c)) ∧
      (∀ x ∈ v, ∃ c ∈ w, Within x c) := by
  intro v
  induction v with
  | nil => intro _; exact ⟨[], rfl, by simp, by simp⟩
  | cons a v ih =>
    intro hv
    have ha := hv a (by simp)
    obtain ⟨w, e, h1, h2⟩ := ih fun c hc => hv c (by simp [hc])
    have hle := adjustLevel_le rc (min (lv a) rc.maxLevel)
    obtain ⟨P, eP, p1, p2, p3⟩ := replaceLevel_spec ha (l := rc.adjustLevel (min (lv a) rc.maxLevel)) (by omega)
    refine ⟨P :: w, ?_, ?_, ?_⟩
    · simp only [adjustAll, ha.level, Option.bind_eq_bind, Option.bind_some, eP, e]
    · intro c hc
      rcases List.mem_cons.1 hc with rfl | hc
      · exact ⟨p1, by rw [p2]; omega, by rw [p2]; exact adjustLevel_ok _ _⟩
      · exact h1 c hc
    · intro x hx
      rcases List.mem_cons.1 hx with rfl | hx
      · exact ⟨P, by simp, p3⟩
      · obtain ⟨c, hc, h⟩ := h2 x hx
        exact ⟨c, by simp [hc], h⟩

theorem adjustLoop_spec (rc : RegionCoverer) : ∀ (v out : List CellID), (∀ c ∈ v, Valid c) → (∀ c ∈ out, Valid c) →
    ∃ w, adjustLoop rc out v = some w ∧ (∀ c ∈ w, Valid c) ∧ w.length ≤ out.length + v.length ∧
      (∀ x ∈ v, ∃ c ∈ w, Within x c) ∧ (∀ x ∈ out, ∃ c ∈ w, Within x c) ∧
      ∀ P : Nat → Prop, (∀ c ∈ out, P (lv c)) → (∀ c ∈ v, P (rc.adjustLevel (lv c))) → ∀ c ∈ w, P (lv c) := by
  intro v
  induction v with
  | nil =>
    intro out _ ho
    exact ⟨out, rfl, ho, by simp, by simp, fun x hx => ⟨x, hx, Within.refl x⟩, fun _ h _ => h⟩
  | cons a v ih =>
    intro out hv ho
    have ha := hv a (by simp)
    have hv' : ∀ c ∈ v, Valid c := fun c hc => hv c (by simp [hc])
    obtain ⟨X, eX, x1, x2, x3⟩ := replaceLevel_spec ha (adjustLevel_le rc (lv a))
    match out, ho with
    | [], ho =>
      obtain ⟨w, e, h1, h2, h3, h4, h5⟩ := ih [X] hv' (by simpa using x1)
      refine ⟨w, ?_, h1, by simp at h2 ⊢; omega, ?_, by simp, ?_⟩
      · simp only [adjustLoop, ha.level, Option.bind_eq_bind, Option.bind_some, eX, e]
      · intro x hx
        rcases List.mem_cons.1 hx with rfl | hx
        · obtain ⟨c, hc, h⟩ := h4 X (by simp)
          exact ⟨c, hc, x3.trans h⟩
        · exact h3 x hx
      · intro P _ g2
        exact h5 P (by simp only [List.mem_singleton, forall_eq]; rw [x2]; exact g2 a (by simp))
          (fun c hc => g2 c (by simp [hc]))
    | last :: out', ho =>
      have hl := ho last (by simp)
      by_cases hb : Within X last
      · obtain ⟨w, e, h1, h2, h3, h4, h5⟩ := ih (last :: out') hv' ho
        refine ⟨w, ?_, h1, by simp at h2 ⊢; omega, ?_, h4, ?_⟩
        · simp only [adjustLoop, ha.level, Option.bind_eq_bind, Option.bind_some, eX, (within_iff x1 hl).2 hb, if_true, e]
        · intro x hx
          rcases List.mem_cons.1 hx with rfl | hx
          · obtain ⟨c, hc, h⟩ := h4 last (by simp)
            exact ⟨c, hc, (x3.trans hb).trans h⟩
          · exact h3 x hx
        · intro P g1 g2
          exact h5 P g1 fun c hc => g2 c (by simp [hc])
      · have hb' : last.contains X = some false := by
          rw [hl.contains x1]; simpa [Within] using hb
        by_cases hp : Within last X
        · have ho' : ∀ c ∈ X :: out', Valid c := by
            intro c hc
            rcases List.mem_cons.1 hc with rfl | hc
            exacts [x1, ho c (by simp [hc])]
          obtain ⟨w, e, h1, h2, h3, h4, h5⟩ := ih (X :: out') hv' ho'
          refine ⟨w, ?_, h1, by simp at h2 ⊢; omega, ?_, ?_, ?_⟩
          · simp only [adjustLoop, ha.level, Option.bind_eq_bind, Option.bind_some, eX, hb', (within_iff hl x1).2 hp, if_true, e,
              Bool.false_eq_true, if_false]
          · intro x hx
            rcases List.mem_cons.1 hx with rfl | hx
            · obtain ⟨c, hc, h⟩ := h4 X (by simp)
              exact ⟨c, hc, x3.trans h⟩
            · exact h3 x hx
          · intro x hx
            rcases List.mem_cons.1 hx with rfl | hx
            · obtain ⟨c, hc, h⟩ := h4 X (by simp)
              exact ⟨c, hc, hp.trans h⟩
            · exact h4 x (by simp [hx])
          · intro P g1 g2
            refine h5 P ?_ fun c hc => g2 c (by simp [hc])
            intro c hc
            rcases List.mem_cons.1 hc with rfl | hc
            · rw [x2]; exact g2 a (by simp)
            · exact g1 c (by simp [hc])
        · have hp' : X.contains last = some false := by
            rw [x1.contains hl]; simpa [Within] using hp
          have ho' : ∀ c ∈ X :: last :: out', Valid c := by
            intro c hc
            rcases List.mem_cons.1 hc with rfl | hc
            exacts [x1, ho c hc]
          obtain ⟨w, e, h1, h2, h3, h4, h5⟩ := ih (X :: last :: out') hv' ho'
          refine ⟨w, ?_, h1, by simp at h2 ⊢; omega, ?_, ?_, ?_⟩
          · simp only [adjustLoop, ha.level, Option.bind_eq_bind, Option.bind_some, eX, hb', hp', e,
              Bool.false_eq_true, if_false]
          · intro x hx
            rcases List.mem_cons.1 hx with rfl | hx
            · obtain ⟨c, hc, h⟩ := h4 X (by simp)
              exact ⟨c, hc, x3.trans h⟩
            · exact h3 x hx
          · intro x hx
            exact h4 x (by simp [hx])
          · intro P g1 g2
            refine h5 P ?_ fun c hc => g2 c (by simp [hc])
            intro c hc
            rcases List.mem_cons.1 hc with rfl | hc
            · rw [x2]; exact g2 a (by simp)
            · exact g1 c hc

theorem adjustCellLevels_spec (rc : RegionCoverer) {v : List CellID} (hv : ∀ c ∈ v, Valid c)
    (hm : ∀ c ∈ v, lv c ≤ rc.maxLevel) :
    ∃ w, adjustCellLevels rc v = some w ∧ (∀ c ∈ w, Valid c ∧ lv c ≤ rc.maxLevel ∧ LevelOK rc (lv c)) ∧
      w.length ≤ v.length ∧ (∀ x ∈ v, ∃ c ∈ w, Within x c) := by
  unfold adjustCellLevels
  split
  · rename_i h1
    refine ⟨v, rfl, fun c hc => ⟨hv c hc, hm c hc, Or.inr ?_⟩, le_refl _, fun x hx => ⟨x, hx, Within.refl x⟩⟩
    rw [h1]; exact one_dvd _
  · obtain ⟨w, e, h1, h2, h3, h4, h5⟩ := adjustLoop_spec rc v [] hv (by simp)
    refine ⟨w.reverse, by rw [e]; rfl, ?_, by simpa using h2, by simpa using h3⟩
    intro c hc
    rw [List.mem_reverse] at hc
    obtain ⟨g1, g2⟩ := h5 (fun l => l ≤ rc.maxLevel ∧ LevelOK rc l) (by simp)
      (fun c hc => ⟨(adjustLevel_le rc _).trans (hm c hc), adjustLevel_ok rc _⟩) c hc
    exact ⟨h1 c hc, g1, g2⟩

/-! ## The merge loop -/

theorem bestPair_spec (rc : RegionCoverer) : ∀ (v : List CellID) (i : Nat) (bl bi : Int), (∀ c ∈ v, Valid c) →
    ∃ bl' bi', bestPair rc i bl bi v = some (bl', bi') ∧ bl ≤ bl' ∧
      ((bl' = bl ∧ bi' = bi) ∨ ∃ j a b l, v[j]? = some a ∧ v[j + 1]? = some b ∧ a.commonAncestorLevel b = some (some l) ∧
        bi' = ((i + j : Nat) : Int) ∧ bl' = rc.adjustLevel l) ∧
      ∀ j a b l, v[j]? = some a → v[j + 1]? = some b → a.commonAncestorLevel b = some (some l) → (rc.adjustLevel l : Int) ≤ bl' := by
  intro v
  induction v with
  | nil => intro i bl bi _; exact ⟨bl, bi, rfl, le_refl _, Or.inl ⟨rfl, rfl⟩, by simp⟩
  | cons x v ih =>
    intro i bl bi hv
    match v, hv, ih with
    | [], hv, _ =>
      exact ⟨bl, bi, rfl, le_refl _, Or.inl ⟨rfl, rfl⟩, by intro j a b l _ h; simp at h⟩
    | y :: v, hv, ih =>
      have hx := hv x (by simp)
      have hy := hv y (by simp)
      have hv' : ∀ c ∈ y :: v, Valid c := fun c hc => hv c (by simp only [List.mem_cons] at hc ⊢; tauto)
      obtain ⟨r, er, _⟩ := c12_commonAncestorLevel hx hy hx.level hy.level
      -- the statement for the rest, shifted by one
      have lift : ∀ bl0 bi0 bl' bi', bestPair rc i bl bi (x :: y :: v) = bestPair rc (i + 1) bl0 bi0 (y :: v) →
          bl ≤ bl0 → ((bl0 = bl ∧ bi0 = bi) ∨ ∃ l, r = some l ∧ bi0 = (i : Int) ∧ bl0 = rc.adjustLevel l) →
          (∀ l, r = some l → (rc.adjustLevel l : Int) ≤ bl0) →
          bestPair rc (i + 1) bl0 bi0 (y :: v) = some (bl', bi') → bl0 ≤ bl' →
          ((bl' = bl0 ∧ bi' = bi0) ∨ ∃ j a b l, (y :: v)[j]? = some a ∧ (y :: v)[j + 1]? = some b ∧
            a.commonAncestorLevel b = some (some l) ∧ bi' = ((i + 1 + j : Nat) : Int) ∧ bl' = rc.adjustLevel l) →
          (∀ j a b l, (y :: v)[j]? = some a → (y :: v)[j + 1]? = some b → a.commonAncestorLevel b = some (some l) →
            (rc.adjustLevel l : Int) ≤ bl') →
          ∃ bl' bi', bestPair rc i bl bi (x :: y :: v) = some (bl', bi') ∧ bl ≤ bl' ∧
            ((bl' = bl ∧ bi' = bi) ∨ ∃ j a b l, (x :: y :: v)[j]? = some a ∧ (x :: y :: v)[j + 1]? = some b ∧
              a.commonAncestorLevel b = some (some l) ∧ bi' = ((i + j : Nat) : Int) ∧ bl' = rc.adjustLevel l) ∧
            ∀ j a b l, (x :: y :: v)[j]? = some a → (x :: y :: v)[j + 1]? = some b →
              a.commonAncestorLevel b = some (some l) → (rc.adjustLevel l : Int) ≤ bl' := by
        intro bl0 bi0 bl' bi' e1 e2 e3 e4 e5 e6 e7 e8
        refine ⟨bl', bi', by rw [e1, e5], by omega, ?_, ?_⟩
        · rcases e7 with ⟨g1, g2⟩ | ⟨j, a, b, l, g1, g2, g3, g4, g5⟩
          · rcases e3 with ⟨k1, k2⟩ | ⟨l, k1, k2, k3⟩
            · exact Or.inl ⟨by omega, by omega⟩
            · exact Or.inr ⟨0, x, y, l, rfl, rfl, by rw [er, k1], by rw [g2, k2]; rfl, by rw [g1, k3]⟩
          · exact Or.inr ⟨j + 1, a, b, l, g1, g2, g3, by rw [g4]; congr 1; omega, g5⟩
        · intro j a b l g1 g2 g3
          match j with
          | 0 =>
            have : a = x := by simpa using g1.symm
            subst this
            have : b = y := by simpa using g2.symm
            subst this
            rw [er] at g3
            have := e4 l (Option.some.inj g3)
            omega
          | j + 1 => exact e8 j a b l g1 g2 g3
      cases r with
      | none =>
        obtain ⟨bl', bi', e, h1, h2, h3⟩ := ih (i + 1) bl bi hv'
        exact lift bl bi bl' bi' (by simp only [bestPair, er, Option.bind_eq_bind, Option.bind_some]) (le_refl _)
          (Or.inl ⟨rfl, rfl⟩) (by simp) e h1 h2 h3
      | some l =>
        by_cases hg : (rc.adjustLevel l : Int) > bl
        · obtain ⟨bl', bi', e, h1, h2, h3⟩ := ih (i + 1) (rc.adjustLevel l) i hv'
          exact lift _ _ bl' bi' (by simp only [bestPair, er, Option.bind_eq_bind, Option.bind_some, if_pos hg]) (by omega)
            (Or.inr ⟨l, rfl, rfl, rfl⟩) (by intro l' h; obtain rfl := Option.some.inj h; exact le_refl _) e h1 h2 h3
        · obtain ⟨bl', bi', e, h1, h2, h3⟩ := ih (i + 1) bl bi hv'
          exact lift bl bi bl' bi' (by simp only [bestPair, er, Option.bind_eq_bind, Option.bind_some, if_neg hg]) (le_refl _)
            (Or.inl ⟨rfl, rfl⟩) (by intro l' h; obtain rfl := Option.some.inj h; omega) e h1 h2 h3

/-- No two adjacent cells have a permitted common ancestor of level at least `min_level`. -/
def Stuck (rc : RegionCoverer) (u : List CellID) : Prop :=
  ∀ j a b l, u[j]? = some a → u[j + 1]? = some b → a.commonAncestorLevel b = some (some l) → rc.adjustLevel l < rc.minLevel

theorem mergeLoop_spec (rc : RegionCoverer) : ∀ (n : Nat) (v : List CellID), v.length ≤ n → (∀ c ∈ v, Valid c) → Asc v → NoKids v →
    ∃ u, mergeLoop rc v = some u ∧ (∀ c ∈ u, Valid c) ∧ Asc u ∧ NoKids u ∧ (∀ x ∈ v, ∃ c ∈ u, Within x c) ∧
      (∀ c ∈ u, ∃ x ∈ v, Within x c) ∧ (u.length ≤ rc.maxCells ∨ Stuck rc u) := by
  intro n
  induction n with
  | zero =>
    intro v hn h1 h2 h3
    obtain rfl := List.length_eq_zero_iff.1 (Nat.le_zero.1 hn)
    exact ⟨[], by rw [mergeLoop]; simp, by simp, h2, h3, by simp, by simp, Or.inl (by simp)⟩
  | succ n ih =>
    intro v hn h1 h2 h3
    rw [mergeLoop]
    by_cases hlen : v.length > rc.maxCells
    · rw [if_pos hlen]
      obtain ⟨bl, bi, e, b1, b2, b3⟩ := bestPair_spec rc v 0 (-1) (-1) h1
      rw [e]
      simp only [Option.bind_eq_bind, Option.bind_some]
      by_cases hb : bl < rc.minLevel
      · rw [if_pos hb]
        refine ⟨v, rfl, h1, h2, h3, fun x hx => ⟨x, hx, Within.refl x⟩, fun x hx => ⟨x, hx, Within.refl x⟩, Or.inr ?_⟩
        intro j a b l g1 g2 g3
        have := b3 j a b l g1 g2 g3
        omega
      · rw [if_neg hb]
        rcases b2 with ⟨g1, g2⟩ | ⟨j, a, b, l, g1, g2, g3, g4, g5⟩
        · omega
        · have ej : bi.toNat = j := by omega
          have el : bl.toNat = rc.adjustLevel l := by omega
          rw [ej, el, g1]
          simp only [Option.bind_some]
          have hav := h1 a (List.mem_of_getElem? g1)
          have hbv := h1 b (List.mem_of_getElem? g2)
          obtain ⟨r, er, _, _, hr⟩ := c12_commonAncestorLevel hav hbv hav.level hbv.level
          rw [g3] at er
          obtain rfl := Option.some.inj er
          obtain ⟨k1, k2, k3⟩ := (hr (rc.adjustLevel l)).1 ⟨l, rfl, adjustLevel_le rc l⟩
          obtain ⟨P, eP, p1, p2, p3⟩ := parent_within hav k1
          obtain ⟨P', eP', _, _, p3'⟩ := parent_within hbv k2
          rw [← k3, eP] at eP'
          obtain rfl := Option.some.inj eP'
          rw [eP, Option.bind_some]
          have hsv : ∀ c ∈ v.set j P, Valid c := by
            intro c hc
            rcases List.mem_or_eq_of_mem_set hc with h | rfl
            exacts [h1 c h, p1]
          obtain ⟨w, ew, w1, w2, w3, w4, w5, w6⟩ := normalize_facts hsv
          rw [ew, Option.bind_some]
          have hjl : j + 1 < v.length := by
            have := List.getElem?_eq_some_iff.1 g2
            exact this.1
          have hjP : P ∈ v.set j P := List.mem_set (by omega) P
          -- the merged list has fewer cells
          have hw : w.length ≤ n := by
            have : w.length ≤ ((v.set j P).eraseIdx (j + 1)).length := by
              apply asc_length w2
              have hsub : ∀ x ∈ v.set j P, x ≠ b → x ∈ (v.set j P).eraseIdx (j + 1) := by
                intro x hx hne
                rw [List.mem_eraseIdx_iff_getElem?]
                obtain ⟨i, hi⟩ := List.getElem?_of_mem hx
                refine ⟨i, ?_, hi⟩
                rintro rfl
                rw [List.getElem?_set_ne (by omega), g2] at hi
                exact hne (Option.some.inj hi).symm
              intro c hc
              obtain ⟨x, hx, hxc⟩ := w6 c hc
              by_cases hxb : x = b
              · subst hxb
                -- then `P` is inside `c`
                obtain ⟨c', hc', hPc'⟩ := w5 P hjP
                have hbc := p3'.trans hPc'
                have hlt := lo_lt_hi x
                have : c = c' := w2.eq_of_overlap hc hc' (by have := hxc.1; have := hxc.2; have := hbc.1; have := hbc.2; omega)
                  (by have := hxc.1; have := hxc.2; have := hbc.1; have := hbc.2; omega)
                subst this
                by_cases hPx : P = x
                · subst hPx
                  -- `a` would be inside `x`, which comes after it
                  have hja : v[j]? = some a := g1
                  have := List.pairwise_iff_getElem.1 h2 j (j + 1) (by omega) hjl (by omega)
                  rw [List.getElem?_eq_some_iff] at g1 g2
                  obtain ⟨_, g1⟩ := g1
                  obtain ⟨_, g2⟩ := g2
                  rw [g1, g2] at this
                  have := p3.1
                  have := p3.2
                  have := lo_lt_hi a
                  omega
                · exact ⟨P, hsub P hjP hPx, hPc'⟩
              · exact ⟨x, hsub x hx hxb, hxc⟩
            rw [List.length_eraseIdx_of_lt (by simpa using hjl), List.length_set] at this
            omega
          obtain ⟨u, eu, u1, u2, u3, u4, u5, u6⟩ := ih w hw w1 w2 w3
          refine ⟨u, eu, u1, u2, u3, ?_, ?_, u6⟩
          · intro x hx
            have : ∃ y ∈ v.set j P, Within x y := by
              obtain ⟨i, hi⟩ := List.getElem?_of_mem hx
              by_cases hij : i = j
              · subst hij
                rw [g1] at hi
                obtain rfl := Option.some.inj hi
                exact ⟨P, hjP, p3⟩
              · refine ⟨x, ?_, Within.refl x⟩
                apply List.mem_of_getElem? (i := i)
                rw [List.getElem?_set_ne (by omega)]; exact hi
            obtain ⟨y, hy, hxy⟩ := this
            obtain ⟨z, hz, hyz⟩ := w5 y hy
            obtain ⟨c, hc, hzc⟩ := u4 z hz
            exact ⟨c, hc, (hxy.trans hyz).trans hzc⟩
          · intro c hc
            obtain ⟨z, hz, hzc⟩ := u5 c hc
            obtain ⟨y, hy, hyz⟩ := w6 z hz
            rcases List.mem_or_eq_of_mem_set hy with h | rfl
            · exact ⟨y, h, hyz.trans hzc⟩
            · exact ⟨a, List.mem_of_getElem? g1, (p3.trans hyz).trans hzc⟩
    · rw [if_neg hlen]
      exact ⟨v, rfl, h1, h2, h3, fun x hx => ⟨x, hx, Within.refl x⟩, fun x hx => ⟨x, hx, Within.refl x⟩, Or.inl (by omega)⟩

theorem Valid.face_eq {c : CellID} (h : Valid c) : c.face = lo c / W₀ := by
  obtain ⟨k, p, hc, rfl⟩ := h.cell
  rw [face_mk hc, lo_mk hc, ← W_eq, E]
  have : (4:Nat) ^ 30 = 4 ^ (30 - k) * 4 ^ k := by rw [← Nat.pow_add]; congr 1; have := hc.1; omega
  rw [this, Nat.mul_comm p, Nat.mul_div_mul_left _ _ (Nat.pow_pos (by decide))]

/-- With `min_level = 0` a stuck list has at most one cell on each face. -/
theorem stuck_faces {rc : RegionCoverer} (h0 : rc.minLevel = 0) {u : List CellID} (h1 : ∀ c ∈ u, Valid c) (h2 : Asc u)
    (h : Stuck rc u) : u.Pairwise (fun a b => a.face < b.face) ∧ u.length ≤ 6 := by
  have hp : u.Pairwise (fun a b => a.face < b.face) := by
    have : IsTrans CellID (fun a b => a.face < b.face) := ⟨fun a b c => Nat.lt_trans⟩
    rw [← List.isChain_iff_pairwise, List.isChain_iff_getElem]
    intro j hj
    have ha := h1 u[j] (List.getElem_mem _)
    have hb := h1 u[j + 1] (List.getElem_mem _)
    have hab := List.pairwise_iff_getElem.1 h2 j (j + 1) (by omega) (by omega) (by omega)
    obtain ⟨r, er, _, hn, _⟩ := c12_commonAncestorLevel ha hb ha.level hb.level
    have : r = none := by
      cases r with
      | none => rfl
      | some l =>
        have := h j _ _ l (List.getElem?_eq_getElem (by omega)) (List.getElem?_eq_getElem hj) er
        omega
    have hne := hn.1 this
    have hle : u[j].face ≤ u[j + 1].face := by
      rw [ha.face_eq, hb.face_eq]
      apply Nat.div_le_div_right
      have := lo_lt_hi u[j]
      omega
    omega
  refine ⟨hp, ?_⟩
  have hnd : (u.map CellID.face).Nodup := by
    rw [List.Nodup, List.pairwise_map]
    exact hp.imp (fun h => Nat.ne_of_lt h)
  have hsub : (u.map CellID.face) ⊆ List.range 6 := by
    intro f hf
    obtain ⟨c, hc, rfl⟩ := List.mem_map.1 hf
    rw [List.mem_range, (h1 c hc).face_eq]
    apply Nat.div_lt_of_lt_mul
    have := (h1 c hc).hi_le
    have := lo_lt_hi c
    omega
  have := (hnd.subperm hsub).length_le
  simpa using this

end Verif
