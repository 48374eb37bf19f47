import Verif.Model.Expand
import Verif.Properties.Neighbors
import Verif.Properties.CellUnion

/-! # `expand_at_level` (C41) -/

namespace Verif
open Rust Spec CellID CellUnion

/-- `X` is the cell `x`, or the ancestor of `x` at level `l` if `x` is smaller than that. -/
def Enlarged (x : CellID) (l : Nat) (X : CellID) : Prop :=
  X.isValid = some true ∧ X.contains x = some true ∧ ∃ k, x.level = some k ∧ X.level = some (min l k)

/-- Leaf `q` lies in `X` or in a cell of level `l` that touches `X`. -/
def InRim (X : CellID) (l q : Nat) : Prop :=
  HasLeaf X.id.toNat q ∨ ∃ Y, Y.isValid = some true ∧ Y.level = some l ∧ Touch X Y ∧ HasLeaf Y.id.toNat q

theorem Enlarged.unique {x X Y : CellID} {l : Nat} (hx : Valid x) (h : Enlarged x l X) (h' : Enlarged x l Y) : X = Y := by
  obtain ⟨hX, hc, k, hk, hl⟩ := h
  obtain ⟨hY, hc', k', hk', hl'⟩ := h'
  rw [hk] at hk'
  obtain rfl := Option.some.inj hk'
  obtain ⟨a, _, _, _, _, hu⟩ := c05_parent hx hk (Nat.min_le_right l k)
  rw [hu X hX hl hc, hu Y hY hl' hc']

theorem lsb_lt_iff {k l : Nat} (hk : k ≤ 30) (hl : l ≤ 30) :
    (BitVec.ofNat 64 (E k) < BitVec.ofNat 64 (E l)) ↔ l < k := by
  interval_cases k <;> interval_cases l <;> decide +kernel

theorem popContained_drop {id : CellID} (h : Valid id) : ∀ (rest : List CellID), (∀ c ∈ rest, Valid c) →
    ∃ pre rest', popContained rest id = some rest' ∧ rest = pre ++ rest' ∧ ∀ c ∈ pre, id.contains c = some true := by
  intro rest
  induction rest with
  | nil => intro _; exact ⟨[], [], rfl, rfl, by simp⟩
  | cons a rest ih =>
    intro hv
    obtain ⟨r, e, _⟩ := c03_contains h (hv a (by simp))
    cases r with
    | false => exact ⟨[], a :: rest, by simp [popContained, e], rfl, by simp⟩
    | true =>
      obtain ⟨pre, rest', e1, e2, e3⟩ := ih fun c hc => hv c (by simp [hc])
      refine ⟨a :: pre, rest', by simp [popContained, e, e1], by rw [e2]; rfl, ?_⟩
      intro c hc
      rcases List.mem_cons.1 hc with rfl | hc
      · exact e
      · exact e3 c hc

/-- One cell together with its neighbours covers the rim. -/
theorem rim_covers {fl : ℚ → ℚ} (hfl : Rounding fl) {X : CellID} {k l : Nat} (h : Valid X) (hk : X.level = some k) (hkl : k ≤ l)
    (hl : l ≤ 30) : ∃ ns, X.allNeighbors fl l = some ns ∧ (∀ c ∈ ns, Valid c) ∧
      ∀ q, Covers (X :: ns) q ↔ InRim X l q := by
  obtain ⟨ns, e, hn⟩ := c25_all_neighbors hfl h hk hkl hl
  refine ⟨ns, e, fun c hc => ((hn c).1 hc).1, ?_⟩
  intro q
  constructor
  · rintro ⟨c, hc, hq⟩
    rcases List.mem_cons.1 hc with rfl | hc
    · exact Or.inl hq
    · obtain ⟨h1, h2, h3, _⟩ := (hn c).1 hc
      exact Or.inr ⟨c, h1, h2, h3, hq⟩
  · rintro (hq | ⟨Y, h1, h2, h3, hq⟩)
    · exact ⟨X, by simp, hq⟩
    · obtain ⟨r, e, e1, e2⟩ := c04_intersects h h1
      cases r with
      | false => exact ⟨Y, List.mem_cons_of_mem _ ((hn Y).2 ⟨h1, h2, h3, e⟩), hq⟩
      | true =>
        rcases e2.1 rfl with hc | hc
        · exact ⟨X, by simp, (c03_contains_iff h h1).1 hc q hq⟩
        · obtain ⟨r, e3, _, e4⟩ := c03_contains h1 h
          rw [hc] at e3
          obtain rfl := Option.some.inj e3
          obtain ⟨ka, kb, l1, l2, l3, l4⟩ := e4.1 rfl
          rw [h2] at l1
          rw [hk] at l2
          obtain rfl := Option.some.inj l1
          obtain rfl := Option.some.inj l2
          have : k = l := by omega
          subst this
          rw [(c05_parent_parent h hk (le_refl k) (le_refl k) l4).2] at l4
          obtain rfl := Option.some.inj l4
          exact ⟨X, by simp, hq⟩

theorem expandLoop_spec {fl : ℚ → ℚ} (hfl : Rounding fl) {l : Nat} (hl : l ≤ 30) : ∀ (m : Nat) (todo : List CellID), todo.length ≤ m →
    (∀ c ∈ todo, Valid c) → ∃ out, expandLoop fl l (BitVec.ofNat 64 (E l)) todo = some out ∧ (∀ c ∈ out, Valid c) ∧
      ∀ q, Covers out q ↔ ∃ x ∈ todo, ∃ X, Enlarged x l X ∧ InRim X l q := by
  intro m
  induction m with
  | zero =>
    intro todo hm _
    obtain rfl := List.length_eq_zero_iff.1 (Nat.le_zero.1 hm)
    exact ⟨[], by rw [expandLoop], by simp, by simp [Covers]⟩
  | succ m ih =>
    intro todo hm hv
    match todo, hm, hv with
    | [], _, _ => exact ⟨[], by rw [expandLoop], by simp, by simp [Covers]⟩
    | i :: rest, hm, hv =>
      have hid := hv i (by simp)
      have hrest : ∀ c ∈ rest, Valid c := fun c hc => hv c (by simp [hc])
      have hlv := hid.lv_le
      have cat : ∀ (a b : List CellID) q, Covers (a ++ b) q ↔ Covers a q ∨ Covers b q := by
        intro a b q
        unfold Covers
        constructor
        · rintro ⟨c, hc, hq⟩
          rcases List.mem_append.1 hc with h | h
          · exact Or.inl ⟨c, h, hq⟩
          · exact Or.inr ⟨c, h, hq⟩
        · rintro (⟨c, hc, hq⟩ | ⟨c, hc, hq⟩)
          · exact ⟨c, List.mem_append_left _ hc, hq⟩
          · exact ⟨c, List.mem_append_right _ hc, hq⟩
      by_cases hlt : l < lv i
      · obtain ⟨X, hX, hXv, hXl, hXc, hXu⟩ := c05_parent hid hid.level hlt.le
        obtain ⟨pre, rest', ep, er, hpre⟩ := popContained_drop hXv rest hrest
        obtain ⟨ns, en, hnv, hns⟩ := rim_covers hfl hXv hXl (le_refl l) hl
        have hr' : ∀ c ∈ rest', Valid c := fun c hc => hrest c (by rw [er]; simp [hc])
        obtain ⟨out, eo, hov, ho⟩ := ih rest' (by rw [er] at hm; simp at hm; omega) hr'
        refine ⟨X :: ns ++ out, ?_, ?_, ?_⟩
        · rw [expandLoop]
          simp only [Option.bind_eq_bind]
          rw [hid.lsb, Option.bind_some, if_pos ((lsb_lt_iff hlv hl).2 hlt), hX, Option.bind_some, ep, Option.bind_some, Option.bind_some]
          dsimp only
          rw [en, Option.bind_some, eo, Option.bind_some]
        · intro c hc
          simp only [List.cons_append, List.mem_cons, List.mem_append] at hc
          rcases hc with rfl | hc | hc
          exacts [hXv, hnv c hc, hov c hc]
        · intro q
          rw [cat, hns, ho]
          have hE : Enlarged i l X := ⟨hXv, hXc, _, hid.level, by rw [Nat.min_eq_left hlt.le]; exact hXl⟩
          constructor
          · rintro (h | ⟨x, hx, h⟩)
            · exact ⟨i, by simp, X, hE, h⟩
            · exact ⟨x, by rw [er]; simp [hx], h⟩
          · rintro ⟨x, hx, Y, hY, hq⟩
            rcases List.mem_cons.1 hx with rfl | hx
            · rw [hE.unique hid hY]; exact Or.inl hq
            · rw [er] at hx
              rcases List.mem_append.1 hx with hx | hx
              · left
                have hxv := hrest x (by rw [er]; simp [hx])
                have hc := hpre x hx
                obtain ⟨r, e3, _, e4⟩ := c03_contains hXv hxv
                rw [hc] at e3
                obtain rfl := Option.some.inj e3
                obtain ⟨ka, kb, l1, l2, l3, l4⟩ := e4.1 rfl
                rw [hXl] at l1
                obtain rfl := Option.some.inj l1
                have : Enlarged x l X := ⟨hXv, hc, kb, l2, by rw [Nat.min_eq_left l3]; exact hXl⟩
                rw [this.unique hxv hY]; exact hq
              · exact Or.inr ⟨x, hx, Y, hY, hq⟩
      · obtain ⟨ns, en, hnv, hns⟩ := rim_covers hfl hid hid.level (show lv i ≤ l by omega) hl
        obtain ⟨out, eo, hov, ho⟩ := ih rest (by simp at hm; omega) hrest
        refine ⟨i :: ns ++ out, ?_, ?_, ?_⟩
        · rw [expandLoop]
          simp only [Option.bind_eq_bind]
          rw [hid.lsb, Option.bind_some, if_neg (fun h => hlt ((lsb_lt_iff hlv hl).1 h)), Option.bind_some]
          dsimp only
          rw [en, Option.bind_some, eo, Option.bind_some]
        · intro c hc
          simp only [List.cons_append, List.mem_cons, List.mem_append] at hc
          rcases hc with rfl | hc | hc
          exacts [hid, hnv c hc, hov c hc]
        · intro q
          rw [cat, hns, ho]
          have hE : Enlarged i l i := ⟨hid, c03_refl hid, _, hid.level, by rw [Nat.min_eq_right (by omega)]; exact hid.level⟩
          constructor
          · rintro (h | ⟨x, hx, h⟩)
            · exact ⟨i, by simp, i, hE, h⟩
            · exact ⟨x, by simp [hx], h⟩
          · rintro ⟨x, hx, Y, hY, hq⟩
            rcases List.mem_cons.1 hx with rfl | hx
            · rw [hE.unique hid hY]; exact Or.inl hq
            · exact Or.inr ⟨x, hx, Y, hY, hq⟩

/-- **C41.** `expand_at_level(l)` of a list of valid cells gives a normalized union. It covers exactly the
leaves that lie in a cell of the list, enlarged to level `l` if it is smaller, or in a cell of level `l` that
touches such a cell. -/
theorem c41_expand_exact {fl : ℚ → ℚ} (hfl : Rounding fl) {v : List CellID} {l : Nat} (hv : AllCells v) (hl : l ≤ 30) :
    ∃ u, expandAtLevel fl v l = some u ∧ Normal u ∧
      ∀ q, Covers u q ↔ ∃ x ∈ v, ∃ X, Enlarged x l X ∧ InRim X l q := by
  rw [allCells_iff] at hv
  obtain ⟨out, e, hov, ho⟩ := expandLoop_spec hfl hl _ v.reverse (le_refl _) (by simpa using hv)
  have hout : AllCells out := (allCells_iff out).2 hov
  obtain ⟨u, e1, h1⟩ := c26_normalize_covers hout
  obtain ⟨u', e2, h2, _⟩ := c27_normalize_normal hout
  rw [e1] at e2
  obtain rfl := Option.some.inj e2
  refine ⟨u, ?_, h2, ?_⟩
  · unfold expandAtLevel
    rw [lsbForLevel_eq hl]
    simp only [Option.bind_eq_bind, Option.bind_some, e, e1]
  · intro q
    rw [h1, ho]
    simp

/-- **C41.** Nothing is lost, and every cell of level `l` that touches a cell of the list is covered. -/
theorem c41_expand_covers {fl : ℚ → ℚ} (hfl : Rounding fl) {v u : List CellID} {l : Nat} (hv : AllCells v) (hl : l ≤ 30)
    (hu : expandAtLevel fl v l = some u) :
    (∀ q, Covers v q → Covers u q) ∧
      ∀ x ∈ v, ∀ k, x.level = some k → k ≤ l → ∀ Y, Y.isValid = some true → Y.level = some l → Touch x Y →
        ∀ q, HasLeaf Y.id.toNat q → Covers u q := by
  obtain ⟨u', e, _, h⟩ := c41_expand_exact hfl hv hl
  rw [hu] at e
  obtain rfl := Option.some.inj e
  rw [allCells_iff] at hv
  constructor
  · rintro q ⟨x, hx, hq⟩
    have hxv := hv x hx
    obtain ⟨X, _, hXv, hXl, hXc, _⟩ := c05_parent hxv hxv.level (Nat.min_le_right l (lv x))
    exact (h q).2 ⟨x, hx, X, ⟨hXv, hXc, _, hxv.level, hXl⟩, Or.inl ((c03_contains_iff hXv hxv).1 hXc q hq)⟩
  · intro x hx k hk hkl Y hY hYl ht q hq
    have hxv := hv x hx
    exact (h q).2 ⟨x, hx, x, ⟨hxv, c03_refl hxv, k, hk, by rw [Nat.min_eq_right hkl]; exact hk⟩, Or.inr ⟨Y, hY, hYl, ht, hq⟩⟩

example : AllCells [⟨0x7b37fda650000000#64⟩, ⟨0x7b37fda670000000#64⟩] := by
  rw [allCells_iff]
  simp only [List.forall_mem_cons, Valid]
  exact ⟨by decide +kernel, by decide +kernel, by simp⟩

end Verif
