import Mathlib.Data.Set.Card
import Mathlib.Order.Interval.Finset.Nat
import Mathlib.Order.Interval.Set.Basic
import Verif.Proofs.UnionOps

/-! Helper lemmas: denormalization, leaf counts and union-level tests. -/

namespace Verif
open Rust Spec CellUnion

/-- The descendants of a cell at a level, in order. -/
def descend (c : CellID) (n : Nat) : List CellID :=
  (List.range' (px c * 4 ^ (n - lv c)) (4 ^ (n - lv c))).map (mk n)

theorem descend_cell {c : CellID} (hc : Valid c) {n : Nat} (h1 : lv c ≤ n) (h2 : n ≤ 30) {r : Nat}
    (hr : r < px c * 4 ^ (n - lv c) + 4 ^ (n - lv c)) : IsCell n r := by
  refine ⟨h2, ?_⟩
  have hp := hc.isCell.2
  have : px c * 4 ^ (n - lv c) + 4 ^ (n - lv c) ≤ 6 * 4 ^ lv c * 4 ^ (n - lv c) := by
    have := Nat.mul_le_mul_right (4 ^ (n - lv c)) (show px c + 1 ≤ 6 * 4 ^ lv c from hp)
    rw [Nat.add_mul, Nat.one_mul] at this
    exact this
  rw [Nat.mul_assoc, ← Nat.pow_add, show lv c + (n - lv c) = n by omega] at this
  omega

theorem mem_descend {c : CellID} (hc : Valid c) {n : Nat} (h1 : lv c ≤ n) (h2 : n ≤ 30) (d : CellID) :
    d ∈ descend c n ↔ Valid d ∧ lv d = n ∧ lo c ≤ lo d ∧ hi d ≤ hi c := by
  have hs := E_split h1 h2
  have hE := E_pos n
  have hlo : lo c = px c * 4 ^ (n - lv c) * E n := by rw [lo, hs, Nat.mul_assoc]
  have hhi : hi c = (px c * 4 ^ (n - lv c) + 4 ^ (n - lv c)) * E n := by
    rw [hi_eq, hlo, hs, Nat.add_mul]
  simp only [descend, List.mem_map, List.mem_range'_1]
  constructor
  · rintro ⟨r, ⟨g1, g2⟩, rfl⟩
    have hcell := descend_cell hc h1 h2 g2
    refine ⟨valid_mk hcell, lv_mk hcell, ?_, ?_⟩
    · rw [lo_mk hcell, hlo]; exact Nat.mul_le_mul_right _ g1
    · rw [hi_mk hcell, hhi]
      have := Nat.mul_le_mul_right (E n) (show r + 1 ≤ _ from g2)
      rw [Nat.add_mul, Nat.one_mul] at this
      exact this
  · rintro ⟨vd, hl, g1, g2⟩
    refine ⟨px d, ?_, ?_⟩
    · rw [hlo, lo, hl] at g1
      rw [hhi, hi, hl] at g2
      refine ⟨Nat.le_of_mul_le_mul_right g1 hE, ?_⟩
      exact Nat.lt_of_mul_lt_mul_right (a := E n) (by omega)
    · rw [← hl]; exact vd.eq.symm

theorem descend_asc {c : CellID} (hc : Valid c) {n : Nat} (h1 : lv c ≤ n) (h2 : n ≤ 30) :
    Asc (descend c n) := by
  unfold Asc descend
  rw [List.pairwise_map]
  refine (List.pairwise_lt_range' (step := 1) (by decide)).imp_of_mem ?_
  intro a b ha hb hab
  rw [List.mem_range'_1] at ha hb
  rw [hi_mk (descend_cell hc h1 h2 ha.2), lo_mk (descend_cell hc h1 h2 hb.2)]
  have := Nat.mul_le_mul_right (E n) (show a + 1 ≤ b from hab)
  rw [Nat.add_mul] at this
  omega

theorem descend_cov {c : CellID} (hc : Valid c) {n : Nat} (h1 : lv c ≤ n) (h2 : n ≤ 30) (q : Nat) :
    Cov (descend c n) q ↔ lo c ≤ q ∧ q < hi c := by
  constructor
  · rintro ⟨d, hd, g⟩
    have := (mem_descend hc h1 h2 d).1 hd
    omega
  · intro h
    have hs := E_split h1 h2
    have hE := E_pos n
    have hlo : lo c = px c * 4 ^ (n - lv c) * E n := by rw [lo, hs, Nat.mul_assoc]
    have hhi : hi c = (px c * 4 ^ (n - lv c) + 4 ^ (n - lv c)) * E n := by
      rw [hi_eq, hlo, hs, Nat.add_mul]
    have g2 : q / E n < px c * 4 ^ (n - lv c) + 4 ^ (n - lv c) := by
      rw [Nat.div_lt_iff_lt_mul hE]; omega
    have g1 : px c * 4 ^ (n - lv c) ≤ q / E n := by
      rw [Nat.le_div_iff_mul_le hE]; omega
    have hcell := descend_cell hc h1 h2 g2
    refine ⟨mk n (q / E n), ?_, ?_⟩
    · simp only [descend, List.mem_map, List.mem_range'_1]
      exact ⟨_, ⟨g1, g2⟩, rfl⟩
    · rw [lo_mk hcell, hi_mk hcell]
      have := Nat.div_add_mod q (E n)
      have := Nat.mod_lt q hE
      have := Nat.mul_comm (q / E n) (E n)
      omega

theorem childIterAtLevel_collect {c : CellID} (hc : Valid c) {n : Nat} (h1 : lv c ≤ n) (h2 : n ≤ 30) :
    (c.childIterAtLevel n).bind CellID.Iter.collect = some (descend c n) := by
  have hcc := hc.isCell
  have e : c.childIterAtLevel n = some ⟨mk n (px c * 4 ^ (n - lv c)),
      mk n (px c * 4 ^ (n - lv c) + 4 ^ (n - lv c))⟩ := by
    conv_lhs => rw [hc.eq]
    simp only [CellID.childIterAtLevel, childBeginAtLevel_mk hcc h1 h2, childEndAtLevel_mk hcc h1 h2,
      Option.bind_eq_bind, Option.bind_some]
    try rw [Nat.add_mul, Nat.one_mul]
  rw [e, Option.bind_some, collect_range h2]
  · rfl
  · have h4 : 0 < 4 ^ (n - lv c) := Nat.pow_pos (by decide)
    have := (descend_cell hc h1 h2 (r := px c * 4 ^ (n - lv c) + 4 ^ (n - lv c) - 1) (by omega)).2
    omega

theorem denormLevel_spec {level m md : Nat} (h1 : level ≤ 30) (h2 : m ≤ 30) :
    ∃ n, denormLevel level m md = some n ∧ level ≤ n ∧ m ≤ n ∧ n ≤ 30 ∧
      (max 1 md ∣ 30 → (max 1 md ∣ n - m ∨ n = 30) ∧
        ∀ n', level ≤ n' → m ≤ n' → max 1 md ∣ n' - m → n ≤ n') := by
  unfold denormLevel
  have hnl : (if level < m then m else level) = max level m := by
    split <;> omega
  simp only [hnl, show maxLevel = 30 from rfl]
  by_cases hmd : md > 1
  · rw [if_pos hmd, natSub_some (by omega), Option.bind_eq_bind, Option.bind_some,
      natSub_some (by omega), Option.bind_some]
    refine ⟨_, rfl, by split <;> omega, by split <;> omega, by split <;> omega, ?_⟩
    intro hd
    rw [show max 1 md = md by omega] at *
    have hr := Nat.mod_lt (30 - (max level m - m)) (show 0 < md by omega)
    have hdm := Nat.div_add_mod (30 - (max level m - m)) md
    generalize (30 - (max level m - m)) % md = r at *
    have hdvd : md ∣ max level m - m + r := by
      have h3 : max level m - m + r + md * ((30 - (max level m - m)) / md) = 30 := by omega
      have h4 : md ∣ max level m - m + r + md * ((30 - (max level m - m)) / md) := by rw [h3]; exact hd
      exact (Nat.dvd_add_left (Nat.dvd_mul_right _ _)).1 h4
    refine ⟨?_, ?_⟩
    · split
      · exact Or.inr rfl
      · left
        rw [show max level m + r - m = max level m - m + r by omega]; exact hdvd
    · intro n' g1 g2 g3
      have key : max level m + r ≤ n' := by
        by_contra g
        have h5 := Nat.dvd_sub hdvd g3
        have := Nat.le_of_dvd (by omega) h5
        omega
      split <;> omega
  · rw [if_neg hmd]
    refine ⟨_, rfl, by omega, by omega, by omega, ?_⟩
    intro _
    have : max 1 md = 1 := by omega
    rw [this]
    exact ⟨Or.inl (Nat.one_dvd _), fun n' a b _ => by omega⟩

theorem denormalize_spec {m md : Nat} (hm : m ≤ 30) : ∀ v : List CellID, (∀ c ∈ v, Valid c) →
    ∃ out, denormalize v m md = some out ∧ (∀ c ∈ out, Valid c) ∧ (Asc v → Asc out) ∧
      (∀ q, Cov out q ↔ Cov v q) ∧
      ∀ d, d ∈ out ↔ ∃ c ∈ v, Valid d ∧ lo c ≤ lo d ∧ hi d ≤ hi c ∧
        denormLevel (lv c) m md = some (lv d) := by
  intro v
  induction v with
  | nil => intro _; exact ⟨[], rfl, by simp, fun h => h, fun q => Iff.rfl, by simp⟩
  | cons c rest ih =>
    intro hv
    have vc := hv c (by simp)
    obtain ⟨o, e, p1, p2, p3, p4⟩ := ih (fun d hd => hv d (by simp [hd]))
    obtain ⟨n, en, n1, n2, n3, _⟩ := denormLevel_spec (md := md) vc.lv_le hm
    have here : (if n = lv c then some [c] else (c.childIterAtLevel n).bind CellID.Iter.collect)
        = some (descend c n) := by
      by_cases g : n = lv c
      · rw [if_pos g]
        subst g
        simp only [descend, Nat.sub_self, Nat.pow_zero, Nat.mul_one]
        simp only [List.range'_one, List.map_cons, List.map_nil]
        rw [← vc.eq]
      · rw [if_neg g, childIterAtLevel_collect vc n1 n3]
    have md' := mem_descend vc n1 n3
    refine ⟨descend c n ++ o, ?_, ?_, ?_, ?_, ?_⟩
    · rw [denormalize, vc.level, Option.bind_eq_bind, Option.bind_some, en, Option.bind_some]
      simp only [Option.bind_eq_bind]
      rw [here, Option.bind_some, e, Option.bind_some]
    · intro d hd
      rcases List.mem_append.1 hd with h | h
      · exact ((md' d).1 h).1
      · exact p1 d h
    · intro ha
      have ha1 := List.pairwise_cons.1 ha
      apply asc_append (descend_asc vc n1 n3) (p2 ha1.2) (m := hi c)
      · intro d hd; exact ((md' d).1 hd).2.2.2
      · intro d hd
        obtain ⟨c', hc', _, g, _⟩ := (p4 d).1 hd
        have := ha1.1 c' hc'
        omega
    · intro q
      rw [cov_append, p3, cov_cons, descend_cov vc n1 n3]
    · intro d
      rw [List.mem_append, md', p4]
      constructor
      · rintro (⟨a, b, g1, g2⟩ | ⟨c', hc', h⟩)
        · exact ⟨c, by simp, a, g1, g2, by rw [en, b]⟩
        · exact ⟨c', by simp [hc'], h⟩
      · rintro ⟨c', hc', a, g1, g2, g3⟩
        rcases List.mem_cons.1 hc' with rfl | hc'
        · rw [en] at g3
          injection g3 with g3
          exact Or.inl ⟨a, g3.symm, g1, g2⟩
        · exact Or.inr ⟨c', hc', a, g1, g2, g3⟩

/-! ### Counting -/

theorem leafCount_spec : ∀ (v : List CellID) (s : Nat) (acc : U64), (∀ c ∈ v, Valid c) → Asc v →
    (∀ c ∈ v, s ≤ lo c) → s ≤ 6 * W₀ → acc.toNat ≤ s →
    ∃ r, leafCellCoveredFrom acc v = some r ∧ r.toNat ≤ 6 * W₀ ∧
      {q | Cov v q}.Finite ∧ r.toNat = acc.toNat + {q | Cov v q}.ncard := by
  intro v
  induction v with
  | nil =>
    intro s acc _ _ _ hs ha
    refine ⟨acc, rfl, by omega, ?_, ?_⟩ <;> simp [Cov]
  | cons c rest ih =>
    intro s acc hv hasc hlo hs hacc
    have vc := hv c (by simp)
    have h1 := List.pairwise_cons.1 hasc
    have hEW := E_le_W (lv c)
    have hs1 := hlo c (by simp)
    have hh := vc.hi_le
    have hhe : hi c = lo c + E (lv c) := rfl
    have hshl : shl 1#64 ((maxLevel - lv c) <<< 1) = some (BitVec.ofNat 64 (E (lv c))) := by
      have e : (maxLevel - lv c) <<< 1 = 2 * (30 - lv c) := by
        rw [Nat.shiftLeft_eq, show maxLevel = 30 from rfl]; omega
      rw [e, shl_some (by omega), show (1#64) = BitVec.ofNat 64 1 from rfl, shiftLeft_ofNat, E_eq,
        Nat.one_mul]
    have hEn : (BitVec.ofNat 64 (E (lv c))).toNat = E (lv c) := Bits.ofNat_toNat_of_lt (by omega)
    have hadd : add acc (BitVec.ofNat 64 (E (lv c))) = some (acc + BitVec.ofNat 64 (E (lv c))) :=
      add_some (by rw [hEn]; omega)
    have hacc' : (acc + BitVec.ofNat 64 (E (lv c))).toNat = acc.toNat + E (lv c) := by
      rw [BitVec.toNat_add, hEn, Nat.mod_eq_of_lt (by omega)]
    obtain ⟨r, e, r1, r2, r3⟩ := ih (hi c) (acc + BitVec.ofNat 64 (E (lv c)))
      (fun d hd => hv d (by simp [hd])) h1.2 h1.1 hh (by omega)
    have hset : {q | Cov (c :: rest) q} = Set.Ico (lo c) (hi c) ∪ {q | Cov rest q} := by
      ext q; simp [cov_cons]
    have hdisj : Disjoint (Set.Ico (lo c) (hi c)) {q | Cov rest q} := by
      rw [Set.disjoint_left]
      rintro q ⟨_, hq⟩ ⟨d, hd, g⟩
      have := h1.1 d hd
      omega
    refine ⟨r, ?_, r1, ?_, ?_⟩
    · rw [leafCellCoveredFrom, vc.level, Option.bind_eq_bind, Option.bind_some,
        natSub_some (show lv c ≤ maxLevel from vc.lv_le), Option.bind_some]
      simp only [Option.bind_eq_bind]
      rw [hshl, Option.bind_some, hadd, Option.bind_some, e]
    · rw [hset]; exact (Set.finite_Ico _ _).union r2
    · rw [hset, Set.ncard_union_eq hdisj (Set.finite_Ico _ _) r2, r3, hacc']
      have : (Set.Ico (lo c) (hi c)).ncard = E (lv c) := by
        rw [← Finset.coe_Ico, Set.ncard_coe_finset, Nat.card_Ico]; omega
      rw [this]; omega

/-! ### Union-level tests -/

theorem containsCellUnion_spec {v : List CellID} (hv : ∀ c ∈ v, Valid c) (ha : Asc v) :
    ∀ w : List CellID, (∀ c ∈ w, Valid c) →
      ∃ b, containsCellUnion v w = some b ∧
        (b = true ↔ ∀ c ∈ w, ∃ x ∈ v, lo x ≤ lo c ∧ hi c ≤ hi x) := by
  intro w
  induction w with
  | nil => intro _; exact ⟨true, rfl, by simp⟩
  | cons c rest ih =>
    intro hw
    obtain ⟨b, e, p⟩ := ih (fun d hd => hw d (by simp [hd]))
    obtain ⟨b', e', p'⟩ := containsCellID_spec hv ha (hw c (by simp))
    rw [containsCellUnion, e', Option.bind_eq_bind, Option.bind_some]
    cases b' with
    | false =>
      refine ⟨false, by simp, ?_⟩
      simp only [List.mem_cons, forall_eq_or_imp, ← p', false_and, Bool.false_eq_true]
    | true =>
      refine ⟨b, by simp [e], ?_⟩
      simp only [List.mem_cons, forall_eq_or_imp, ← p', true_and, p]

theorem intersectsCellUnion_spec {w : List CellID} (hw : ∀ c ∈ w, Valid c) (ha : Asc w) :
    ∀ v : List CellID, (∀ c ∈ v, Valid c) →
      ∃ b, intersectsCellUnion v w = some b ∧
        (b = true ↔ ∃ c ∈ v, ∃ x ∈ w, lo x < hi c ∧ lo c < hi x) := by
  intro v
  induction v with
  | nil => intro _; exact ⟨false, rfl, by simp⟩
  | cons c rest ih =>
    intro hv
    obtain ⟨b, e, p⟩ := ih (fun d hd => hv d (by simp [hd]))
    obtain ⟨b', e', p'⟩ := intersectsCellID_spec hw ha (hv c (by simp))
    rw [intersectsCellUnion, e', Option.bind_eq_bind, Option.bind_some]
    cases b' with
    | true =>
      refine ⟨true, by simp, ?_⟩
      simp only [List.mem_cons, exists_eq_or_imp, ← p', true_or]
    | false =>
      refine ⟨b, by simp [e], ?_⟩
      simp only [List.mem_cons, exists_eq_or_imp, ← p', Bool.false_eq_true, false_or, p]

end Verif
