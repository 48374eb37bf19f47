import Verif.Proofs.Normalize

/-! Helper lemmas: binary search, membership tests and deciders of cell unions. -/

namespace Verif
open Rust Spec CellUnion

/-- The binary search ends at a boundary of the predicate and looks only at indices in range. -/
theorem searchLoop_spec (f : Nat → Option Bool) (p : Nat → Bool) : ∀ (n i j : Nat), n = j - i → i ≤ j →
    (∀ m, i ≤ m → m < j → f m = some (p m)) →
    ∃ r, searchLoop f i j = some r ∧ i ≤ r ∧ r ≤ j ∧ (r < j → p r = true) ∧
      (i < r → p (r - 1) = false) := by
  intro n
  induction n using Nat.strongRecOn with
  | _ n ih =>
    intro i j hn hij hf
    rw [searchLoop]
    by_cases h : i < j
    · rw [dif_pos h]
      have hm : i + (j - i) / 2 < j := by omega
      rw [hf _ (by omega) hm, Option.bind_some]
      generalize hM : i + (j - i) / 2 = m at *
      cases hp : p m with
      | false =>
        obtain ⟨r, e, h1, h2, h3, h4⟩ := ih (j - (m + 1)) (by omega) (m + 1) j rfl (by omega)
          (fun m' a b => hf m' (by omega) b)
        refine ⟨r, by simpa using e, by omega, h2, h3, ?_⟩
        intro hr
        rcases Nat.eq_or_lt_of_le h1 with g | g
        · have : r - 1 = m := by omega
          rw [this]; exact hp
        · exact h4 g
      | true =>
        obtain ⟨r, e, h1, h2, h3, h4⟩ := ih (m - i) (by omega) i m rfl (by omega)
          (fun m' a b => hf m' a (by omega))
        refine ⟨r, by simpa using e, h1, by omega, ?_, h4⟩
        intro hr
        rcases Nat.eq_or_lt_of_le h2 with g | g
        · rw [g]; exact hp
        · exact h3 g
    · rw [dif_neg h]
      exact ⟨i, rfl, Nat.le_refl _, hij, fun hr => by omega, fun hr => by omega⟩

/-- Partition point for a monotone predicate. -/
theorem searchLowerBy_mono (len : Nat) (f : Nat → Option Bool) (p : Nat → Bool)
    (hf : ∀ m, m < len → f m = some (p m))
    (hm : ∀ a b, a ≤ b → b < len → p a = true → p b = true) :
    ∃ r, searchLowerBy len f = some r ∧ r ≤ len ∧ (∀ m, m < r → p m = false) ∧
      ∀ m, r ≤ m → m < len → p m = true := by
  obtain ⟨r, e, _, h2, h3, h4⟩ := searchLoop_spec f p _ 0 len rfl (by omega) (fun m _ h => hf m h)
  refine ⟨r, e, h2, ?_, ?_⟩
  · intro m hm'
    have h := h4 (by omega)
    cases hpm : p m with
    | false => rfl
    | true =>
      rw [hm m (r - 1) (by omega) (by omega) hpm] at h
      exact absurd h (by simp)
  · intro m a b
    exact hm r m a b (h3 (by omega))

theorem Asc.get {v : List CellID} (h : Asc v) {i j : Nat} {a b : CellID} (hij : i < j)
    (hi' : v[i]? = some a) (hj : v[j]? = some b) : hi a ≤ lo b := by
  obtain ⟨h1, e1⟩ := List.getElem?_eq_some_iff.1 hi'
  obtain ⟨h2, e2⟩ := List.getElem?_eq_some_iff.1 hj
  have := List.pairwise_iff_getElem.1 h i j h1 h2 hij
  rw [e1, e2] at this
  exact this

theorem mem_of_get {v : List CellID} {i : Nat} {a : CellID} (h : v[i]? = some a) : a ∈ v :=
  List.mem_of_getElem? h

theorem get_of_lt {v : List CellID} {i : Nat} (h : i < v.length) : ∃ a, v[i]? = some a :=
  ⟨v[i], List.getElem?_eq_getElem h⟩

theorem lt_of_get {v : List CellID} {i : Nat} {a : CellID} (h : v[i]? = some a) : i < v.length :=
  (List.getElem?_eq_some_iff.1 h).1

/-- The search used by the membership tests. -/
theorem search_spec {v : List CellID} (hv : ∀ c ∈ v, Valid c) (ha : Asc v) {c : CellID}
    (hc : Valid c) :
    ∃ r, searchLowerBy v.length (fun i => (v[i]?).map fun x => decide (c.id < x.id)) = some r ∧
      r ≤ v.length ∧ (∀ (m : Nat) a, m < r → v[m]? = some a → lo a + hi a ≤ lo c + hi c) ∧
      ∀ (m : Nat) a, r ≤ m → v[m]? = some a → lo c + hi c < lo a + hi a := by
  have key : ∀ (m : Nat) a, v[m]? = some a → (c.id < a.id ↔ lo c + hi c < lo a + hi a) := by
    intro m a h
    rw [id_lt_iff, hc.toNat, (hv a (mem_of_get h)).toNat]
  obtain ⟨r, e, h1, h2, h3⟩ := searchLowerBy_mono v.length
    (fun i => (v[i]?).map fun x => decide (c.id < x.id))
    (fun i => ((v[i]?).map fun x => decide (c.id < x.id)).getD false)
    (by
      intro m hm
      obtain ⟨a, e⟩ := get_of_lt hm
      simp [e])
    (by
      intro m n hmn hn hp
      obtain ⟨a, ea⟩ := get_of_lt (show m < v.length by omega)
      obtain ⟨b, eb⟩ := get_of_lt hn
      simp only [ea, eb, Option.map_some, Option.getD_some, decide_eq_true_eq] at hp ⊢
      rw [key m a ea] at hp
      rw [key n b eb]
      rcases Nat.eq_or_lt_of_le hmn with g | g
      · subst g; rw [ea] at eb; cases eb; exact hp
      · have := ha.get g ea eb
        have := lo_lt_hi a
        have := lo_lt_hi b
        omega)
  refine ⟨r, e, h1, ?_, ?_⟩
  · intro m a hm e'
    have := h2 m hm
    simp only [e', Option.map_some, Option.getD_some, decide_eq_false_iff_not] at this
    rw [key m a e'] at this
    omega
  · intro m a hm e'
    have := h3 m hm (lt_of_get e')
    simp only [e', Option.map_some, Option.getD_some, decide_eq_true_eq] at this
    rw [key m a e'] at this
    exact this

/-- Membership in a list by index. -/
theorem mem_iff_get {v : List CellID} {a : CellID} : a ∈ v ↔ ∃ i : Nat, v[i]? = some a :=
  List.mem_iff_getElem?

/-- `intersects_cellid`: some element overlaps the cell. -/
theorem intersectsCellID_spec {v : List CellID} (hv : ∀ c ∈ v, Valid c) (ha : Asc v) {c : CellID}
    (hc : Valid c) :
    ∃ b, intersectsCellID v c = some b ∧ (b = true ↔ ∃ x ∈ v, lo x < hi c ∧ lo c < hi x) := by
  obtain ⟨r, e, h1, h2, h3⟩ := search_spec hv ha hc
  have hcl := lo_lt_hi c
  have second : ∃ b, (if r ≠ 0 then do
      let x ← v[r - 1]?
      let hi ← x.rangeMax
      let lo ← c.rangeMin
      some (decide (lo.id ≤ hi.id)) else some false) = some b ∧
      (b = true ↔ ∃ (m : Nat) (x : CellID), m < r ∧ v[m]? = some x ∧ lo x < hi c ∧ lo c < hi x) := by
    by_cases hr : r = 0
    · refine ⟨false, by simp [hr], by simp [hr]⟩
    · obtain ⟨y, ey⟩ := get_of_lt (show r - 1 < v.length by omega)
      have vy := hv y (mem_of_get ey)
      have hid := h2 (r - 1) y (by omega) ey
      have hyl := lo_lt_hi y
      refine ⟨decide (lo c < hi y), ?_, ?_⟩
      · simp only [ne_eq, hr, not_false_eq_true, if_true, ey, Option.bind_eq_bind, Option.bind_some,
          vy.rangeMax, hc.rangeMin, id_le_iff, hc.toNat_lo, vy.toNat_hi]
        congr 1
        rw [decide_eq_decide]
        omega
      · rw [decide_eq_true_eq]
        constructor
        · intro g
          exact ⟨r - 1, y, by omega, ey, by omega, g⟩
        · rintro ⟨m, x, hm, ex, g1, g2⟩
          rcases Nat.eq_or_lt_of_le (show m ≤ r - 1 by omega) with g | g
          · subst g; rw [ex] at ey; cases ey; exact g2
          · have := ha.get g ex ey; omega
  have first : ∃ b, (if r ≠ v.length then do
      let x ← v[r]?
      let lo ← x.rangeMin
      let hi ← c.rangeMax
      some (decide (lo.id ≤ hi.id)) else some false) = some b ∧
      (b = true ↔ ∃ (m : Nat) (x : CellID), r ≤ m ∧ v[m]? = some x ∧ lo x < hi c ∧ lo c < hi x) := by
    by_cases hr : r = v.length
    · refine ⟨false, by simp [hr], ?_⟩
      simp only [Bool.false_eq_true, false_iff]
      rintro ⟨m, x, g1, g2, _⟩
      have := lt_of_get g2
      omega
    · obtain ⟨y, ey⟩ := get_of_lt (show r < v.length by omega)
      have vy := hv y (mem_of_get ey)
      have hid := h3 r y (Nat.le_refl _) ey
      have hyl := lo_lt_hi y
      refine ⟨decide (lo y < hi c), ?_, ?_⟩
      · simp only [ne_eq, hr, not_false_eq_true, if_true, ey, Option.bind_eq_bind, Option.bind_some,
          vy.rangeMin, hc.rangeMax, id_le_iff, hc.toNat_hi, vy.toNat_lo]
        congr 1
        rw [decide_eq_decide]
        omega
      · rw [decide_eq_true_eq]
        constructor
        · intro g
          exact ⟨r, y, Nat.le_refl _, ey, g, by omega⟩
        · rintro ⟨m, x, hm, ex, g1, g2⟩
          rcases Nat.eq_or_lt_of_le hm with g | g
          · subst g; rw [ex] at ey; cases ey; exact g1
          · have := ha.get g ey ex; omega
  obtain ⟨b1, e1, p1⟩ := first
  obtain ⟨b2, e2, p2⟩ := second
  have all : (∃ x ∈ v, lo x < hi c ∧ lo c < hi x) ↔
      (∃ (m : Nat) (x : CellID), r ≤ m ∧ v[m]? = some x ∧ lo x < hi c ∧ lo c < hi x) ∨
      (∃ (m : Nat) (x : CellID), m < r ∧ v[m]? = some x ∧ lo x < hi c ∧ lo c < hi x) := by
    constructor
    · rintro ⟨x, hx, g⟩
      obtain ⟨m, em⟩ := mem_iff_get.1 hx
      rcases Nat.lt_or_ge m r with g' | g'
      · exact Or.inr ⟨m, x, g', em, g⟩
      · exact Or.inl ⟨m, x, g', em, g⟩
    · rintro (⟨m, x, _, ex, g⟩ | ⟨m, x, _, ex, g⟩) <;> exact ⟨x, mem_of_get ex, g⟩
  refine ⟨b1 || b2, ?_, ?_⟩
  · rw [intersectsCellID, e, Option.bind_eq_bind, Option.bind_some, e1, Option.bind_eq_bind, Option.bind_some, e2]
    cases b1 <;> simp
  · rw [all, ← p1, ← p2, Bool.or_eq_true]

/-- The middle of a cell is a boundary of every cell strictly inside it. -/
theorem mid_split {c x : CellID} (hc : Valid c) (hx : Valid x) (h1 : lo c ≤ lo x) (h2 : hi x ≤ hi c)
    (hne : c ≠ x) : lo c + hi c ≤ 2 * lo x ∨ 2 * hi x ≤ lo c + hi c := by
  obtain ⟨hl, i, hi4, g1, g2⟩ := exists_kid hc hx h1 h2 hne
  have e4 := hi_eq4 hl
  rw [lo_kid hc hl hi4] at g1
  rw [hi_kid hc hl hi4] at g2
  have : i = 0 ∨ i = 1 ∨ i = 2 ∨ i = 3 := by omega
  rcases this with rfl | rfl | rfl | rfl <;> omega

/-- `contains_cellid`: some element contains the cell. -/
theorem containsCellID_spec {v : List CellID} (hv : ∀ c ∈ v, Valid c) (ha : Asc v) {c : CellID}
    (hc : Valid c) :
    ∃ b, containsCellID v c = some b ∧ (b = true ↔ ∃ x ∈ v, lo x ≤ lo c ∧ hi c ≤ hi x) := by
  obtain ⟨r, e, h1, h2, h3⟩ := search_spec hv ha hc
  have hcl := lo_lt_hi c
  have second : ∃ b, (if r ≠ 0 then do
      let x ← v[r - 1]?
      let hi ← x.rangeMax
      some (decide (c.id ≤ hi.id)) else some false) = some b ∧
      (b = true ↔ ∃ (m : Nat) (x : CellID), m < r ∧ v[m]? = some x ∧ lo x ≤ lo c ∧ hi c ≤ hi x) := by
    by_cases hr : r = 0
    · refine ⟨false, by simp [hr], by simp [hr]⟩
    · obtain ⟨y, ey⟩ := get_of_lt (show r - 1 < v.length by omega)
      have vy := hv y (mem_of_get ey)
      have hid := h2 (r - 1) y (by omega) ey
      have hyl := lo_lt_hi y
      refine ⟨decide (lo c + hi c ≤ 2 * hi y - 1), ?_, ?_⟩
      · simp only [ne_eq, hr, not_false_eq_true, if_true, ey, Option.bind_eq_bind, Option.bind_some,
          vy.rangeMax, id_le_iff, hc.toNat, vy.toNat_hi]
      · rw [decide_eq_true_eq]
        constructor
        · intro g
          refine ⟨r - 1, y, by omega, ey, ?_⟩
          rcases vy.lam hc with l | l | l | l
          · omega
          · omega
          · exact l
          · by_cases hne : c = y
            · subst hne; exact ⟨Nat.le_refl _, Nat.le_refl _⟩
            · have := mid_split hc vy l.1 l.2 hne
              omega
        · rintro ⟨m, x, hm, ex, g1, g2⟩
          rcases Nat.eq_or_lt_of_le (show m ≤ r - 1 by omega) with g | g
          · subst g; rw [ex] at ey; cases ey; omega
          · have := ha.get g ex ey; omega
  have first : ∃ b, (if r ≠ v.length then do
      let x ← v[r]?
      let lo ← x.rangeMin
      some (decide (lo.id ≤ c.id)) else some false) = some b ∧
      (b = true ↔ ∃ (m : Nat) (x : CellID), r ≤ m ∧ v[m]? = some x ∧ lo x ≤ lo c ∧ hi c ≤ hi x) := by
    by_cases hr : r = v.length
    · refine ⟨false, by simp [hr], ?_⟩
      simp only [Bool.false_eq_true, false_iff]
      rintro ⟨m, x, g1, g2, _⟩
      have := lt_of_get g2
      omega
    · obtain ⟨y, ey⟩ := get_of_lt (show r < v.length by omega)
      have vy := hv y (mem_of_get ey)
      have hid := h3 r y (Nat.le_refl _) ey
      have hyl := lo_lt_hi y
      refine ⟨decide (2 * lo y + 1 ≤ lo c + hi c), ?_, ?_⟩
      · simp only [ne_eq, hr, not_false_eq_true, if_true, ey, Option.bind_eq_bind, Option.bind_some,
          vy.rangeMin, id_le_iff, hc.toNat, vy.toNat_lo]
      · rw [decide_eq_true_eq]
        constructor
        · intro g
          refine ⟨r, y, Nat.le_refl _, ey, ?_⟩
          rcases vy.lam hc with l | l | l | l
          · omega
          · omega
          · exact l
          · by_cases hne : c = y
            · subst hne; exact ⟨Nat.le_refl _, Nat.le_refl _⟩
            · have := mid_split hc vy l.1 l.2 hne
              omega
        · rintro ⟨m, x, hm, ex, g1, g2⟩
          rcases Nat.eq_or_lt_of_le hm with g | g
          · subst g; rw [ex] at ey; cases ey; omega
          · have := ha.get g ey ex; omega
  obtain ⟨b1, e1, p1⟩ := first
  obtain ⟨b2, e2, p2⟩ := second
  have all : (∃ x ∈ v, lo x ≤ lo c ∧ hi c ≤ hi x) ↔
      (∃ (m : Nat) (x : CellID), r ≤ m ∧ v[m]? = some x ∧ lo x ≤ lo c ∧ hi c ≤ hi x) ∨
      (∃ (m : Nat) (x : CellID), m < r ∧ v[m]? = some x ∧ lo x ≤ lo c ∧ hi c ≤ hi x) := by
    constructor
    · rintro ⟨x, hx, g⟩
      obtain ⟨m, em⟩ := mem_iff_get.1 hx
      rcases Nat.lt_or_ge m r with g' | g'
      · exact Or.inr ⟨m, x, g', em, g⟩
      · exact Or.inl ⟨m, x, g', em, g⟩
    · rintro (⟨m, x, _, ex, g⟩ | ⟨m, x, _, ex, g⟩) <;> exact ⟨x, mem_of_get ex, g⟩
  refine ⟨b1 || b2, ?_, ?_⟩
  · rw [containsCellID, e, Option.bind_eq_bind, Option.bind_some, e1, Option.bind_eq_bind, Option.bind_some, e2]
    cases b1 <;> simp
  · rw [all, ← p1, ← p2, Bool.or_eq_true]

/-! ### The linear search -/

theorem lowerBound_spec (v : List CellID) (c : CellID) : ∀ (n first last : Nat), n = last - first →
    first ≤ last → last ≤ v.length →
    ∃ r, lowerBound v first last c = some r ∧ first ≤ r ∧ r ≤ last ∧
      (∀ m a, first ≤ m → m < r → v[m]? = some a → a.id.toNat < c.id.toNat) ∧
      ∀ a, r < last → v[r]? = some a → c.id.toNat ≤ a.id.toNat := by
  intro n
  induction n with
  | zero =>
    intro first last hn h1 h2
    rw [lowerBound, dif_neg (by omega)]
    exact ⟨last, rfl, h1, Nat.le_refl _, fun m a _ _ => by omega, fun a _ => by omega⟩
  | succ n ih =>
    intro first last hn h1 h2
    rw [lowerBound, dif_pos (by omega)]
    obtain ⟨x, ex⟩ := get_of_lt (show first < v.length by omega)
    rw [ex, Option.bind_some]
    by_cases hx : c.id ≤ x.id
    · rw [if_pos hx]
      refine ⟨first, rfl, Nat.le_refl _, h1, fun m a _ _ => by omega, ?_⟩
      intro a _ e
      rw [ex] at e; cases e
      exact (id_le_iff _ _).1 hx
    · rw [if_neg hx]
      obtain ⟨r, e, g1, g2, g3, g4⟩ := ih (first + 1) last (by omega) (by omega) h2
      refine ⟨r, e, by omega, g2, ?_, g4⟩
      intro m a hm hr ea
      rcases Nat.eq_or_lt_of_le hm with g | g
      · subst g; rw [ex] at ea; cases ea
        rw [id_le_iff] at hx; omega
      · exact g3 m a g hr ea

/-! ### Deciders -/

theorem areSiblings_spec {f0 f1 f2 c : CellID} (v0 : Valid f0) (v1 : Valid f1) (v2 : Valid f2)
    (vc : Valid c) (o1 : hi f0 ≤ lo f1) (o2 : hi f1 ≤ lo f2) (o3 : hi f2 ≤ lo c) :
    ∃ b, areSiblings f0 f1 f2 c = some b ∧ (b = true ↔ FourKids f0 f1 f2 c) := by
  rw [← sibling_test v0 v1 v2 vc o1 o2 o3]
  have hx : f0.id ^^^ f1.id ^^^ f2.id ^^^ c.id = 0#64 ↔ f0.id ^^^ f1.id ^^^ f2.id = c.id :=
    BitVec.xor_eq_zero_iff
  rw [areSiblings, hx]
  by_cases h1 : f0.id ^^^ f1.id ^^^ f2.id = c.id
  · rw [if_neg (by simpa using h1)]
    simp only [vc.siblingMask, Option.bind_eq_bind, Option.bind_some, vc.isFace, h1, true_and]
    split
    · rename_i h2
      refine ⟨_, rfl, ?_⟩
      simp [h2]
    · rename_i h2
      refine ⟨_, rfl, ?_⟩
      simp only [Bool.false_eq_true, false_iff]
      tauto
  · rw [if_pos h1]
    exact ⟨false, rfl, by simp [h1]⟩

theorem isValid_ne_none {c : CellID} (h : c.id.toNat ≠ 2 ^ 63) : ∃ b, c.isValid = some b := by
  cases e : c.isValid with
  | some b => exact ⟨b, rfl⟩
  | none =>
    exfalso
    apply h
    exact (c01_isValid_panics_iff c).1 e

theorem Valid.ne_top {c : CellID} (h : Valid c) : c.id.toNat ≠ 2 ^ 63 := by
  intro e
  have := (c01_isValid_panics_iff c).2 e
  rw [Valid, this] at h
  cases h

theorem overlap_test {p c : CellID} (hp : Valid p) (hc : Valid c) :
    (do let hi ← p.rangeMax
        let lo ← c.rangeMin
        some (decide (lo.id ≤ hi.id))) = some (decide (lo c < hi p)) := by
  simp only [hp.rangeMax, hc.rangeMin, Option.bind_eq_bind, Option.bind_some, id_le_iff,
    hc.toNat_lo, hp.toNat_hi]
  congr 1
  rw [decide_eq_decide]
  omega

theorem isValidLoop_spec : ∀ (rest : List CellID) (prev : Option CellID),
    (∀ p, prev = some p → Valid p) →
    (isValidLoop prev rest = some true ↔
      (∀ c ∈ rest, Valid c) ∧ Asc (prev.toList ++ rest)) ∧
    ((∀ c ∈ rest, c.id.toNat ≠ 2 ^ 63) → isValidLoop prev rest ≠ none) := by
  intro rest
  induction rest with
  | nil =>
    intro prev _
    refine ⟨?_, by simp [isValidLoop]⟩
    cases prev <;> simp [isValidLoop, Asc]
  | cons c rest ih =>
    intro prev hp
    cases hcv : c.isValid with
    | none =>
      refine ⟨?_, ?_⟩
      · simp only [isValidLoop, hcv, Option.bind_eq_bind, Option.bind_none]
        simp only [reduceCtorEq, false_iff]
        rintro ⟨h, _⟩
        have := h c (by simp)
        rw [Valid, hcv] at this; cases this
      · intro h
        exact absurd ((c01_isValid_panics_iff c).1 hcv) (h c (by simp))
    | some b =>
      cases b with
      | false =>
        refine ⟨?_, by simp [isValidLoop, hcv]⟩
        simp only [isValidLoop, hcv, Option.bind_eq_bind, Option.bind_some]
        simp only [Bool.not_false, if_true, Option.some.injEq, Bool.false_eq_true, false_iff]
        rintro ⟨h, _⟩
        have := h c (by simp)
        rw [Valid, hcv] at this; cases this
      | true =>
        have vc : Valid c := hcv
        obtain ⟨i1, i2⟩ := ih (some c) (by rintro p h; cases h; exact vc)
        cases prev with
        | none =>
          simp only [isValidLoop, hcv, Option.bind_eq_bind, Option.bind_some, Bool.not_true,
            Bool.false_eq_true, if_false]
          refine ⟨?_, fun h => i2 fun d hd => h d (by simp [hd])⟩
          rw [i1]
          simp [vc]
        | some p =>
          have vp := hp p rfl
          simp only [isValidLoop, hcv, Option.bind_eq_bind, Option.bind_some, Bool.not_true,
            Bool.false_eq_true, if_false]
          have ot := overlap_test vp vc
          simp only [Option.bind_eq_bind] at ot
          rw [ot, Option.bind_some]
          by_cases ho : lo c < hi p
          · rw [if_pos (by simpa using ho)]
            refine ⟨?_, by simp⟩
            simp only [Option.some.injEq, Bool.false_eq_true, false_iff]
            rintro ⟨_, h⟩
            have := (List.pairwise_cons.1 h).1 c (by simp)
            omega
          · rw [if_neg (by simpa using ho)]
            refine ⟨?_, fun h => i2 fun d hd => h d (by simp [hd])⟩
            rw [i1]
            constructor
            · rintro ⟨h1, h2⟩
              refine ⟨by simpa [vc] using h1, ?_⟩
              refine List.pairwise_cons.2 ⟨?_, h2⟩
              intro d hd
              rcases List.mem_cons.1 hd with rfl | hd'
              · omega
              · have := (List.pairwise_cons.1 h2).1 d hd'
                have := lo_lt_hi c
                omega
            · rintro ⟨h1, h2⟩
              exact ⟨fun d hd => h1 d (by simp [hd]), (List.pairwise_cons.1 h2).2⟩

/-- Dropping elements keeps a union free of complete families. -/
theorem NoKids.mono {u v : List CellID} (h : NoKids v) (hs : ∀ c ∈ u, c ∈ v) : NoKids u :=
  fun c vc hl hk => h c vc hl fun i hi4 => hs _ (hk i hi4)

theorem isNormalizedLoop_spec : ∀ (rest seen : List CellID),
    (∀ c ∈ seen, Valid c) → Desc seen → NoKids seen →
    (isNormalizedLoop seen rest = some true ↔
      (∀ c ∈ rest, Valid c) ∧ Asc (seen.reverse ++ rest) ∧ NoKids (seen.reverse ++ rest)) ∧
    ((∀ c ∈ rest, c.id.toNat ≠ 2 ^ 63) → isNormalizedLoop seen rest ≠ none) := by
  intro rest
  induction rest with
  | nil =>
    intro seen h1 h2 h3
    refine ⟨?_, by simp [isNormalizedLoop]⟩
    simp only [isNormalizedLoop, true_iff, List.append_nil]
    exact ⟨by simp, desc_reverse.2 h2, h3.mono (by simp)⟩
  | cons c rest ih =>
    intro seen h1 h2 h3
    cases hcv : c.isValid with
    | none =>
      refine ⟨?_, ?_⟩
      · simp only [isNormalizedLoop, hcv, Option.bind_eq_bind, Option.bind_none]
        simp only [reduceCtorEq, false_iff]
        rintro ⟨h, _⟩
        have := h c (by simp)
        rw [Valid, hcv] at this; cases this
      · intro h
        exact absurd ((c01_isValid_panics_iff c).1 hcv) (h c (by simp))
    | some b =>
      cases b with
      | false =>
        refine ⟨?_, by simp [isNormalizedLoop, hcv]⟩
        simp only [isNormalizedLoop, hcv, Option.bind_eq_bind, Option.bind_some]
        simp only [Bool.not_false, if_true, Option.some.injEq, Bool.false_eq_true, false_iff]
        rintro ⟨h, _⟩
        have := h c (by simp)
        rw [Valid, hcv] at this; cases this
      | true =>
        have vc : Valid c := hcv
        -- the overlap test against the previous element
        have over : ∃ b, overlapsPrev seen c = some b ∧ (b = false ↔ Desc (c :: seen)) := by
          cases seen with
          | nil => exact ⟨false, rfl, by simp [Desc]⟩
          | cons p tl =>
            have vp := h1 p (by simp)
            refine ⟨_, overlap_test vp vc, ?_⟩
            rw [decide_eq_false_iff_not]
            constructor
            · intro g
              refine List.pairwise_cons.2 ⟨?_, h2⟩
              intro d hd
              rcases List.mem_cons.1 hd with rfl | hd'
              · omega
              · have := (List.pairwise_cons.1 h2).1 d hd'
                have := lo_lt_hi p
                omega
            · intro g
              have := (List.pairwise_cons.1 g).1 p (by simp)
              omega
        obtain ⟨b, eb, pb⟩ := over
        have e_app : (c :: seen).reverse ++ rest = seen.reverse ++ (c :: rest) := by simp
        cases b with
        | true =>
          have nd : ¬ Desc (c :: seen) := by rw [← pb]; simp
          refine ⟨?_, ?_⟩
          · rw [isNormalizedLoop, hcv, Option.bind_eq_bind, Option.bind_some]
            simp only [Bool.not_true, Bool.false_eq_true, if_false]
            rw [eb, Option.bind_some, if_pos rfl]
            simp only [Option.some.injEq, Bool.false_eq_true, false_iff]
            rintro ⟨_, h, _⟩
            apply nd
            rw [← e_app] at h
            exact desc_reverse.1 (List.pairwise_append.1 h).1
          · intro _
            rw [isNormalizedLoop, hcv, Option.bind_eq_bind, Option.bind_some]
            simp only [Bool.not_true, Bool.false_eq_true, if_false]
            rw [eb, Option.bind_some, if_pos rfl]
            simp
        | false =>
          have hd : Desc (c :: seen) := pb.1 rfl
          have hd1 := List.pairwise_cons.1 hd
          have vs : ∀ d ∈ c :: seen, Valid d := by
            intro d hd
            rcases List.mem_cons.1 hd with rfl | hd
            · exact vc
            · exact h1 d hd
          have sib : ∃ b, siblingsPrev seen c = some b ∧ (b = false ↔ NoKids (c :: seen)) := by
            by_cases hs : ∃ p1 p2 p3 tl, seen = p1 :: p2 :: p3 :: tl
            · obtain ⟨p1, p2, p3, tl, rfl⟩ := hs
              have g2 := List.pairwise_cons.1 hd1.2
              have g3 := List.pairwise_cons.1 g2.2
              obtain ⟨b, e, hb⟩ := areSiblings_spec (h1 p3 (by simp)) (h1 p2 (by simp))
                (h1 p1 (by simp)) vc (g3.1 p3 (by simp)) (g2.1 p2 (by simp)) (hd1.1 p1 (by simp))
              refine ⟨b, e, ?_⟩
              rw [← Bool.not_eq_true, hb]
              constructor
              · intro nf x vx hl hk
                obtain ⟨e1, rest', e2⟩ := fourKids_of_push hd h3 vx hl hk
                injection e2 with a1 a2
                injection a2 with a2 a3
                injection a3 with a3 _
                exact nf ⟨x, vx, hl, a3, a2, a1, e1⟩
              · rintro nk ⟨x, vx, hl, rfl, rfl, rfl, rfl⟩
                apply nk x vx hl
                intro i hi4
                have : i = 0 ∨ i = 1 ∨ i = 2 ∨ i = 3 := by omega
                rcases this with rfl | rfl | rfl | rfl <;> simp
            · refine ⟨false, ?_, ?_⟩
              · match seen, hs with
                | [], _ => rfl
                | [_], _ => rfl
                | [_, _], _ => rfl
                | p1 :: p2 :: p3 :: tl, hs => exact absurd ⟨p1, p2, p3, tl, rfl⟩ hs
              · simp only [true_iff]
                intro x vx hl hk
                obtain ⟨e1, rest', e2⟩ := fourKids_of_push hd h3 vx hl hk
                exact hs ⟨_, _, _, _, e2⟩
          obtain ⟨b', eb', pb'⟩ := sib
          have step : isNormalizedLoop seen (c :: rest) =
              if b' then some false else isNormalizedLoop (c :: seen) rest := by
            rw [isNormalizedLoop, hcv, Option.bind_eq_bind, Option.bind_some]
            simp only [Bool.not_true, Bool.false_eq_true, if_false]
            rw [eb, Option.bind_some, if_neg (by simp), eb',
              Option.bind_some]
          rw [step]
          cases b' with
          | true =>
            have nn : ¬ NoKids (c :: seen) := by rw [← pb']; simp
            refine ⟨?_, by simp⟩
            simp only [if_true, Option.some.injEq, Bool.false_eq_true, false_iff]
            rintro ⟨_, _, h⟩
            apply nn
            rw [← e_app] at h
            exact h.mono (by intro d hd; simp at hd ⊢; tauto)
          | false =>
            obtain ⟨i1, i2⟩ := ih (c :: seen) vs hd (pb'.1 rfl)
            simp only [Bool.false_eq_true, if_false]
            refine ⟨?_, fun h => i2 fun d hd => h d (by simp [hd])⟩
            rw [i1, e_app]
            simp [vc]

theorem isValid_spec (v : List CellID) :
    (CellUnion.isValid v = some true ↔ (∀ c ∈ v, Valid c) ∧ Asc v) ∧
    ((∀ c ∈ v, c.id.toNat ≠ 2 ^ 63) → CellUnion.isValid v ≠ none) := by
  have := isValidLoop_spec v none (by simp)
  simpa [CellUnion.isValid] using this

theorem isNormalized_spec (v : List CellID) :
    (isNormalized v = some true ↔ (∀ c ∈ v, Valid c) ∧ Asc v ∧ NoKids v) ∧
    ((∀ c ∈ v, c.id.toNat ≠ 2 ^ 63) → isNormalized v ≠ none) := by
  have := isNormalizedLoop_spec v [] (by simp) List.Pairwise.nil
    (fun c _ _ hk => by simpa using hk 0 (by decide))
  simpa [isNormalized] using this

theorem isNormalized_total {v : List CellID} (h : ∀ c ∈ v, Valid c) : ∃ b, isNormalized v = some b := by
  have := (isNormalized_spec v).2 (fun c hc => (h c hc).ne_top)
  cases e : isNormalized v with
  | none => exact absurd e this
  | some b => exact ⟨b, rfl⟩

/-- The debug assertion passes if the result is normalized whenever all inputs are. -/
theorem assertNormalized_ok {out : List CellID} {ins : List (List CellID)}
    (ho : ∀ c ∈ out, Valid c) (hi : ∀ x ∈ ins, ∀ c ∈ x, Valid c)
    (h : (∀ x ∈ ins, Normal x) → Normal out) : assertNormalized out ins = some () := by
  obtain ⟨b, eb⟩ := isNormalized_total ho
  cases b with
  | true => simp [assertNormalized, eb]
  | false =>
    simp only [assertNormalized, eb, Option.bind_eq_bind, Option.bind_some]
    have hex : ∃ x ∈ ins, ¬ Normal x := by
      by_contra hh
      have hall : ∀ x ∈ ins, Normal x := by
        intro x hx
        by_contra g
        exact hh ⟨x, hx, g⟩
      have := (isNormalized_spec out).1.2 ((normal_iff out).1 (h hall))
      rw [eb] at this; cases this
    simp only [Bool.false_eq_true, if_false]
    clear h eb
    induction ins with
    | nil => obtain ⟨x, hx, _⟩ := hex; simp at hx
    | cons x rest ih =>
      obtain ⟨b, e⟩ := isNormalized_total (hi x (by simp))
      rw [assertNormalized.go, e, Option.bind_eq_bind, Option.bind_some]
      cases b with
      | false => simp
      | true =>
        simp only [if_true]
        apply ih (fun y hy => hi y (by simp [hy]))
        obtain ⟨y, hy, ny⟩ := hex
        rcases List.mem_cons.1 hy with rfl | hy
        · exact absurd ((normal_iff y).2 ((isNormalized_spec y).1.1 e)) ny
        · exact ⟨y, hy, ny⟩

theorem isSorted_iff (v : List CellID) : isSorted v = true ↔ v.Pairwise fun a b => a.id ≤ b.id := by
  induction v with
  | nil => simp [isSorted]
  | cons a rest ih =>
    cases rest with
    | nil => simp [isSorted]
    | cons b rest =>
      rw [isSorted, Bool.and_eq_true, ih, decide_eq_true_eq, List.pairwise_cons (a := a)]
      constructor
      · rintro ⟨h1, h2⟩
        refine ⟨?_, h2⟩
        intro d hd
        rcases List.mem_cons.1 hd with rfl | hd
        · exact h1
        · have := (List.pairwise_cons.1 h2).1 d hd
          rw [id_le_iff] at *; omega
      · rintro ⟨h1, h2⟩
        exact ⟨h1 b (by simp), h2⟩

theorem Asc.isSorted {v : List CellID} (hv : ∀ c ∈ v, Valid c) (h : Asc v) : isSorted v = true := by
  rw [isSorted_iff]
  refine h.imp_of_mem ?_
  intro a b ha hb hab
  rw [id_le_iff, (hv a ha).toNat, (hv b hb).toNat]
  have := lo_lt_hi a
  have := lo_lt_hi b
  omega

end Verif
