import Mathlib.Tactic.Ring
import Verif.Proofs.Ranges
import Verif.Model.CellUnion

/-! Helper lemmas: the sibling test and `normalize`. -/

namespace Verif
open Rust Spec CellUnion

theorem Valid.lsb {c : CellID} (h : Valid c) : c.lsb = some (BitVec.ofNat 64 (E (lv c))) := by
  obtain ⟨k, p, hc, rfl⟩ := h.cell
  rw [lsb_mk hc, lv_mk hc]

theorem Valid.isFace {c : CellID} (h : Valid c) : c.isFace = some (decide (lv c = 0)) := by
  obtain ⟨k, p, hc, rfl⟩ := h.cell
  rw [isFace_mk hc, lv_mk hc]

theorem Valid.siblingMask {c : CellID} (h : Valid c) :
    siblingMask c = some (~~~ (BitVec.ofNat 64 (6 * E (lv c)))) := by
  have := E_le_W (lv c)
  simp only [CellUnion.siblingMask, h.lsb, Option.bind_eq_bind, Option.bind_some]
  rw [shiftLeft_ofNat, shiftLeft_ofNat, add_ofNat (by omega)]
  simp only [Option.bind_some]
  congr 3; omega

theorem getLsbD_mask {t i : Nat} (ht : t ≤ 60) :
    (BitVec.ofNat 64 (6 * 2 ^ t)).getLsbD i = (decide (i = t + 1) || decide (i = t + 2)) := by
  rw [BitVec.getLsbD_ofNat, Nat.mul_comm, Nat.testBit_two_pow_mul]
  by_cases h : t ≤ i
  · obtain ⟨j, rfl⟩ := Nat.exists_eq_add_of_le h
    rw [Nat.add_sub_cancel_left]
    match j with
    | 0 => simp
    | 1 =>
      have : Nat.testBit 6 1 = true := by decide
      simp [this]; omega
    | 2 =>
      have : Nat.testBit 6 2 = true := by decide
      simp [this]; omega
    | j + 3 =>
      have : Nat.testBit 6 (j + 3) = false := by
        rw [Nat.testBit_succ, Nat.testBit_succ, Nat.testBit_succ]; simp
      simp [this]
  · simp [h]; omega

theorem testBit_mk {k p i : Nat} (h : IsCell k p) :
    (mk k p).id.getLsbD i
      = (decide (2 * (30 - k) ≤ i) && (decide (i = 2 * (30 - k)) || p.testBit (i - 2 * (30 - k) - 1))) := by
  have hb := cellNum_lt h
  rw [mk, BitVec.getLsbD, Bits.ofNat_toNat_of_lt (by omega), cellNum_pow, Bits.testBit_odd_mul]

/-- Equality outside the two child-position bits: same level and same parent. -/
theorem mask_agree {k p l q : Nat} (h : IsCell k p) (h' : IsCell l q) :
    (mk l q).id &&& ~~~ (BitVec.ofNat 64 (6 * E k)) = (mk k p).id &&& ~~~ (BitVec.ofNat 64 (6 * E k))
      ↔ l = k ∧ q / 4 = p / 4 := by
  have hk := h.1
  have hl := h'.1
  have bits : (mk l q).id &&& ~~~ (BitVec.ofNat 64 (6 * E k))
        = (mk k p).id &&& ~~~ (BitVec.ofNat 64 (6 * E k)) ↔
      ∀ i, i < 64 → i ≠ 2 * (30 - k) + 1 → i ≠ 2 * (30 - k) + 2 →
        (mk l q).id.getLsbD i = (mk k p).id.getLsbD i := by
    constructor
    · intro e i hi h1 h2
      have := congrArg (fun x => BitVec.getLsbD x i) e
      simp only [BitVec.getLsbD_and, BitVec.getLsbD_not, E_eq k, getLsbD_mask
        (show 2 * (30 - k) ≤ 60 by omega)] at this
      simpa [hi, h1, h2] using this
    · intro e
      apply BitVec.eq_of_getLsbD_eq
      intro i hi
      simp only [BitVec.getLsbD_and, BitVec.getLsbD_not, E_eq k, getLsbD_mask
        (show 2 * (30 - k) ≤ 60 by omega)]
      by_cases h1 : i = 2 * (30 - k) + 1
      · simp [h1]
      · by_cases h2 : i = 2 * (30 - k) + 2
        · simp [h2]
        · rw [e i hi h1 h2]
  rw [bits]
  simp only [testBit_mk h, testBit_mk h']
  constructor
  · intro e
    have hlk : l = k := by
      have a := e (2 * (30 - k)) (by omega) (by omega) (by omega)
      simp at a
      rcases Nat.lt_trichotomy l k with g | g | g
      · omega
      · exact g
      · -- the lowest bit of the smaller cell would be set in the larger
        exfalso
        have b := e (2 * (30 - l)) (by omega) (by omega) (by omega)
        simp at b
        omega
    refine ⟨hlk, ?_⟩
    subst hlk
    apply Nat.eq_of_testBit_eq
    intro j
    rw [show (4:Nat) = 2 ^ 2 by rfl, Nat.testBit_div_two_pow, Nat.testBit_div_two_pow]
    have hbig : ∀ x, IsCell l x → 64 ≤ 2 * (30 - l) + 1 + (j + 2) → x.testBit (j + 2) = false := by
      intro x hx hj
      apply Nat.testBit_lt_two_pow
      have h1 := hx.2
      have h3 : 4 ^ l = 2 ^ (2 * l) := by rw [show (4:Nat) = 2 ^ 2 by rfl, ← Nat.pow_mul]
      have h4 : 6 * 2 ^ (2 * l) ≤ 2 ^ (2 * l + 3) := by rw [Nat.pow_add]; omega
      have h5 : 2 ^ (2 * l + 3) ≤ 2 ^ (j + 2) := Nat.pow_le_pow_right (by decide) (by omega)
      omega
    rcases Nat.lt_or_ge (2 * (30 - l) + 1 + (j + 2)) 64 with g | g
    · have a := e (2 * (30 - l) + 1 + (j + 2)) g (by omega) (by omega)
      have e1 : 2 * (30 - l) ≤ 2 * (30 - l) + 1 + (j + 2) := by omega
      have e2 : ¬ (2 * (30 - l) + 1 + (j + 2) = 2 * (30 - l)) := by omega
      have e3 : 2 * (30 - l) + 1 + (j + 2) - 2 * (30 - l) - 1 = j + 2 := by omega
      rw [e3] at a
      simpa [e1, e2] using a
    · rw [hbig q h' g, hbig p h g]
  · rintro ⟨rfl, e⟩ i hi h1 h2
    rcases Nat.lt_or_ge i (2 * (30 - l)) with g0 | g0
    · have : ¬ (2 * (30 - l) ≤ i) := by omega
      simp [this]
    · congr 1
      rcases Nat.lt_or_ge i (2 * (30 - l) + 3) with g | g
      · have g3 : i = 2 * (30 - l) := by omega
        simp [g3]
      · obtain ⟨j, hj⟩ := Nat.exists_eq_add_of_le g
        have : i - 2 * (30 - l) - 1 = j + 2 := by omega
        rw [this]
        have := congrArg (fun n => n.testBit j) e
        simp only [show (4:Nat) = 2 ^ 2 by rfl, Nat.testBit_div_two_pow] at this
        rw [this]

theorem xor_kids {k p : Nat} (h : IsCell k p) (hk : k < 30) :
    (mk (k + 1) (4 * p)).id ^^^ (mk (k + 1) (4 * p + 1)).id ^^^ (mk (k + 1) (4 * p + 2)).id
      = (mk (k + 1) (4 * p + 3)).id := by
  have h0 : IsCell (k + 1) (4 * p) := child_isCell h hk (show 0 < 4 by decide)
  have h1 := child_isCell h hk (show 1 < 4 by decide)
  have h2 := child_isCell h hk (show 2 < 4 by decide)
  have h3 := child_isCell h hk (show 3 < 4 by decide)
  apply BitVec.eq_of_getLsbD_eq
  intro i _
  simp only [BitVec.getLsbD_xor, testBit_mk h0, testBit_mk h1, testBit_mk h2, testBit_mk h3]
  generalize i - 2 * (30 - (k + 1)) - 1 = j
  generalize decide (i = 2 * (30 - (k + 1))) = u
  generalize decide (2 * (30 - (k + 1)) ≤ i) = w
  have e : ∀ j, j ≥ 2 → ∀ a, a < 4 → (4 * p + a).testBit j = p.testBit (j - 2) := by
    intro j hj a ha
    obtain ⟨m, rfl⟩ := Nat.exists_eq_add_of_le hj
    rw [show 2 + m = m + 1 + 1 by omega, Nat.testBit_succ, Nat.testBit_succ]
    congr 1
    omega
  match j with
  | 0 =>
    have a0 : (4 * p).testBit 0 = false := by rw [Nat.testBit_zero]; simp; omega
    have a1 : (4 * p + 1).testBit 0 = true := by rw [Nat.testBit_zero]; simp; omega
    have a2 : (4 * p + 2).testBit 0 = false := by rw [Nat.testBit_zero]; simp; omega
    have a3 : (4 * p + 3).testBit 0 = true := by rw [Nat.testBit_zero]; simp; omega
    rw [a0, a1, a2, a3]
    cases u <;> cases w <;> rfl
  | 1 =>
    have a0 : (4 * p).testBit 1 = false := by rw [Nat.testBit_succ, Nat.testBit_zero]; simp; omega
    have a1 : (4 * p + 1).testBit 1 = false := by rw [Nat.testBit_succ, Nat.testBit_zero]; simp; omega
    have a2 : (4 * p + 2).testBit 1 = true := by rw [Nat.testBit_succ, Nat.testBit_zero]; simp; omega
    have a3 : (4 * p + 3).testBit 1 = true := by rw [Nat.testBit_succ, Nat.testBit_zero]; simp; omega
    rw [a0, a1, a2, a3]
    cases u <;> cases w <;> rfl
  | j + 2 =>
    have e0 := e (j + 2) (by omega) 0 (by decide)
    rw [Nat.add_zero] at e0
    rw [e0, e (j + 2) (by omega) 1 (by decide), e (j + 2) (by omega) 2 (by decide),
      e (j + 2) (by omega) 3 (by decide)]
    simp

theorem kid_zero (c : CellID) : kid c 0 = mk (lv c + 1) (4 * px c) := rfl

/-- The three stored cells and the candidate are the four children of one cell. -/
def FourKids (f0 f1 f2 c : CellID) : Prop :=
  ∃ x, Valid x ∧ lv x < 30 ∧ f0 = kid x 0 ∧ f1 = kid x 1 ∧ f2 = kid x 2 ∧ c = kid x 3

/-- The bit test recognises four ordered siblings. -/
theorem sibling_test {f0 f1 f2 c : CellID} (v0 : Valid f0) (v1 : Valid f1) (v2 : Valid f2)
    (vc : Valid c) (o1 : hi f0 ≤ lo f1) (o2 : hi f1 ≤ lo f2) (o3 : hi f2 ≤ lo c) :
    (f0.id ^^^ f1.id ^^^ f2.id ^^^ c.id = 0#64 ∧
      (f0.id &&& ~~~ (BitVec.ofNat 64 (6 * E (lv c))) = c.id &&& ~~~ (BitVec.ofNat 64 (6 * E (lv c))) ∧
       f1.id &&& ~~~ (BitVec.ofNat 64 (6 * E (lv c))) = c.id &&& ~~~ (BitVec.ofNat 64 (6 * E (lv c))) ∧
       f2.id &&& ~~~ (BitVec.ofNat 64 (6 * E (lv c))) = c.id &&& ~~~ (BitVec.ofNat 64 (6 * E (lv c)))) ∧
      ¬ lv c = 0) ↔ FourKids f0 f1 f2 c := by
  constructor
  · rintro ⟨_, ⟨m0, m1, m2⟩, hl⟩
    have agree : ∀ {f : CellID}, Valid f →
        f.id &&& ~~~ (BitVec.ofNat 64 (6 * E (lv c))) = c.id &&& ~~~ (BitVec.ofNat 64 (6 * E (lv c))) →
        lv f = lv c ∧ px f / 4 = px c / 4 := by
      intro f vf hm
      rw [vf.eq] at hm
      conv at hm => rhs; rw [vc.eq]
      have e : lv (mk (lv c) (px c)) = lv c := lv_mk vc.isCell
      have := (mask_agree vc.isCell vf.isCell).1 (by simpa [e] using hm)
      exact this
    obtain ⟨l0, q0⟩ := agree v0 m0
    obtain ⟨l1, q1⟩ := agree v1 m1
    obtain ⟨l2, q2⟩ := agree v2 m2
    have hE := E_pos (lv c)
    have step : ∀ {a b : CellID}, lv a = lv c → lv b = lv c → hi a ≤ lo b → px a < px b := by
      intro a b ha hb hab
      rw [hi, lo, ha, hb] at hab
      have : px a * E (lv c) < px b * E (lv c) := by omega
      exact Nat.lt_of_mul_lt_mul_right this
    have s0 := step l0 l1 o1
    have s1 := step l1 l2 o2
    have s2 := step l2 rfl o3
    obtain ⟨k, hk⟩ := Nat.exists_eq_succ_of_ne_zero hl
    have hcc := vc.isCell
    have hpar : IsCell k (px c / 4) := by
      rw [hk] at hcc
      have := parent_isCell hcc (show k ≤ k + 1 by omega)
      simpa using this
    have hk30 : k < 30 := by have := hcc.1; omega
    refine ⟨mk k (px c / 4), valid_mk hpar, by rw [lv_mk hpar]; exact hk30, ?_, ?_, ?_, ?_⟩
    · rw [v0.eq, kid, lv_mk hpar, px_mk hpar, l0, hk]; congr 1; omega
    · rw [v1.eq, kid, lv_mk hpar, px_mk hpar, l1, hk]; congr 1; omega
    · rw [v2.eq, kid, lv_mk hpar, px_mk hpar, l2, hk]; congr 1; omega
    · conv_lhs => rw [vc.eq]
      rw [kid, lv_mk hpar, px_mk hpar, hk]; congr 1; omega
  · rintro ⟨x, vx, hl, rfl, rfl, rfl, rfl⟩
    have c3 := child_isCell vx.isCell hl (show 3 < 4 by decide)
    have e3 : lv (kid x 3) = lv x + 1 := lv_kid vx hl (by decide)
    refine ⟨?_, ⟨?_, ?_, ?_⟩, by omega⟩
    · have := xor_kids vx.isCell hl
      rw [kid_zero, kid, kid, kid, this, BitVec.xor_self]
    all_goals
      rw [e3]
      simp only [kid]
      refine (mask_agree c3 ?_).2 ⟨rfl, by omega⟩
      first
        | exact child_isCell vx.isCell hl (show 0 < 4 by decide)
        | exact child_isCell vx.isCell hl (show 1 < 4 by decide)
        | exact child_isCell vx.isCell hl (show 2 < 4 by decide)

theorem immediateParent_kid {x : CellID} (vx : Valid x) (hl : lv x < 30) {i : Nat} (h : i < 4) :
    (kid x i).immediateParent = some x := by
  rw [kid, immediateParent_mk (child_isCell vx.isCell hl h)]
  conv_rhs => rw [vx.eq]
  congr 2; omega

/-- Stack order: the top is the last range. -/
def Desc (v : List CellID) : Prop := v.Pairwise fun a b => hi b ≤ lo a

theorem desc_reverse {v : List CellID} : Asc v.reverse ↔ Desc v := by
  unfold Asc Desc; rw [List.pairwise_reverse]

theorem Desc.head_eq {a b : CellID} {out : List CellID} (h : Desc (a :: out)) (hb : b ∈ out)
    (he : hi b = lo a) : ∃ tl, out = b :: tl := by
  have h1 := List.pairwise_cons.1 h
  cases out with
  | nil => simp at hb
  | cons f tl =>
    rcases List.mem_cons.1 hb with rfl | hb'
    · exact ⟨tl, rfl⟩
    · have h2 := List.pairwise_cons.1 h1.2
      have a1 := h2.1 b hb'
      have a2 := h1.1 f (by simp)
      have := lo_lt_hi f
      omega

theorem kid_chain {x : CellID} (vx : Valid x) (hl : lv x < 30) {i : Nat} (h : i + 1 < 4) :
    hi (kid x i) = lo (kid x (i + 1)) := by
  rw [hi_kid vx hl (by omega), lo_kid vx hl h]

theorem kid_inj {x y : CellID} {i j : Nat} (vx : Valid x) (hx : lv x < 30) (vy : Valid y)
    (hy : lv y < 30) (hi4 : i < 4) (hj4 : j < 4) (e : kid x i = kid y j) : x = y ∧ i = j := by
  have := mk_inj (child_isCell vx.isCell hx hi4) (child_isCell vy.isCell hy hj4) e
  have h1 : lv x = lv y := by omega
  have h2 : px x = px y := by omega
  refine ⟨?_, by omega⟩
  rw [vx.eq, vy.eq, h1, h2]

/-- If a stack gains four siblings by a push, they are on top. -/
theorem fourKids_of_push {out : List CellID} {ci x : CellID} (hd : Desc (ci :: out))
    (hno : NoKids out) (vx : Valid x) (hl : lv x < 30) (hk : ∀ i, i < 4 → kid x i ∈ ci :: out) :
    ci = kid x 3 ∧ ∃ rest, out = kid x 2 :: kid x 1 :: kid x 0 :: rest := by
  have h1 := List.pairwise_cons.1 hd
  have hE := E_pos (lv x + 1)
  have hc3 : ci = kid x 3 := by
    by_contra hne
    -- then `kid x 3` is in `out`, hence before `ci`; no child can be `ci`
    have h3 : kid x 3 ∈ out := by
      rcases List.mem_cons.1 (hk 3 (by decide)) with e | e
      · exact absurd e.symm hne
      · exact e
    apply hno x vx hl
    intro i hi4
    rcases List.mem_cons.1 (hk i hi4) with e | e
    · exfalso
      have := h1.1 _ h3
      rw [← e, hi_kid vx hl (by decide), lo_kid vx hl hi4] at this
      have := Nat.mul_le_mul_right (E (lv x + 1)) (show i ≤ 3 by omega)
      omega
    · exact e
  subst hc3
  refine ⟨rfl, ?_⟩
  have mem : ∀ i, i < 3 → kid x i ∈ out := by
    intro i hi3
    rcases List.mem_cons.1 (hk i (by omega)) with e | e
    · exfalso
      have := (kid_inj vx hl vx hl (by omega) (by omega) e).2
      omega
    · exact e
  obtain ⟨t2, rfl⟩ := hd.head_eq (mem 2 (by decide)) (kid_chain vx hl (by decide))
  have d2 := h1.2
  have m1 : kid x 1 ∈ t2 := by
    rcases List.mem_cons.1 (mem 1 (by decide)) with e | e
    · have := (kid_inj vx hl vx hl (by omega) (by omega) e).2; omega
    · exact e
  obtain ⟨t1, rfl⟩ := Desc.head_eq d2 m1 (kid_chain vx hl (by decide))
  have d1 := (List.pairwise_cons.1 d2).2
  have m0 : kid x 0 ∈ t1 := by
    rcases List.mem_cons.1 (mem 0 (by decide)) with e | e
    · have := (kid_inj vx hl vx hl (by omega) (by omega) e).2; omega
    · rcases List.mem_cons.1 e with e | e
      · have := (kid_inj vx hl vx hl (by omega) (by omega) e).2; omega
      · exact e
  obtain ⟨t0, rfl⟩ := Desc.head_eq d1 m0 (kid_chain vx hl (by decide))
  exact ⟨t0, rfl⟩

/-- One round of the collapsing loop when the top four are siblings. -/
theorem collapse_yes {x : CellID} {rest : List CellID} (vx : Valid x) (hl : lv x < 30) :
    collapse (kid x 2 :: kid x 1 :: kid x 0 :: rest) (kid x 3) = collapse rest x := by
  have v0 := kid_valid vx hl (show 0 < 4 by decide)
  have v1 := kid_valid vx hl (show 1 < 4 by decide)
  have v2 := kid_valid vx hl (show 2 < 4 by decide)
  have v3 := kid_valid vx hl (show 3 < 4 by decide)
  obtain ⟨t1, ⟨t2, t3, t4⟩, t5⟩ := (sibling_test v0 v1 v2 v3 (Nat.le_of_eq (kid_chain vx hl (by decide)))
    (Nat.le_of_eq (kid_chain vx hl (by decide))) (Nat.le_of_eq (kid_chain vx hl (by decide)))).2
    ⟨x, vx, hl, rfl, rfl, rfl, rfl⟩
  rw [collapse]
  simp only [t1, ne_eq, not_true_eq_false, if_false, v3.siblingMask, Option.bind_eq_bind,
    Option.bind_some, t2, t3, t4, or_self, v3.isFace, t5, decide_false,
    immediateParent_kid vx hl (show 3 < 4 by decide)]
  simp

/-- The collapsing loop stops when the top four are not siblings. -/
theorem collapse_no {out : List CellID} {ci : CellID} (hv : ∀ c ∈ out, Valid c) (vc : Valid ci)
    (hd : Desc (ci :: out))
    (hno : ¬ ∃ x rest, Valid x ∧ lv x < 30 ∧ ci = kid x 3 ∧ out = kid x 2 :: kid x 1 :: kid x 0 :: rest) :
    collapse out ci = some (ci :: out) := by
  match out with
  | [] => simp [collapse]
  | [_] => simp [collapse]
  | [_, _] => simp [collapse]
  | f2 :: f1 :: f0 :: rest =>
    have h1 := List.pairwise_cons.1 hd
    have h2 := List.pairwise_cons.1 h1.2
    have h3 := List.pairwise_cons.1 h2.2
    have v0 := hv f0 (by simp)
    have v1 := hv f1 (by simp)
    have v2 := hv f2 (by simp)
    have T := sibling_test v0 v1 v2 vc (h3.1 f0 (by simp)) (h2.1 f1 (by simp)) (h1.1 f2 (by simp))
    have nT : ¬ FourKids f0 f1 f2 ci := by
      rintro ⟨x, vx, hl, rfl, rfl, rfl, rfl⟩
      exact hno ⟨x, rest, vx, hl, rfl, rfl⟩
    rw [← T] at nT
    rw [collapse]
    by_cases c1 : f0.id ^^^ f1.id ^^^ f2.id ^^^ ci.id = 0#64
    · simp only [c1, ne_eq, not_true_eq_false, if_false, vc.siblingMask, Option.bind_eq_bind,
        Option.bind_some, vc.isFace]
      by_cases c2 : f0.id &&& ~~~ (BitVec.ofNat 64 (6 * E (lv ci))) = ci.id &&& ~~~ (BitVec.ofNat 64 (6 * E (lv ci))) ∧
       f1.id &&& ~~~ (BitVec.ofNat 64 (6 * E (lv ci))) = ci.id &&& ~~~ (BitVec.ofNat 64 (6 * E (lv ci))) ∧
       f2.id &&& ~~~ (BitVec.ofNat 64 (6 * E (lv ci))) = ci.id &&& ~~~ (BitVec.ofNat 64 (6 * E (lv ci)))
      · have c3 : lv ci = 0 := by
          by_contra g; exact nT ⟨c1, c2, g⟩
        rw [if_neg (by tauto), if_pos (by simpa using c3)]
      · rw [if_pos (by tauto)]
    · rw [if_pos c1]

theorem covers_kids {x : CellID} (vx : Valid x) (hl : lv x < 30) (q : Nat) :
    (lo x ≤ q ∧ q < hi x) ↔ ∃ i, i < 4 ∧ lo (kid x i) ≤ q ∧ q < hi (kid x i) := by
  have e4 := hi_eq4 hl
  have hE := E_pos (lv x + 1)
  have f : ∀ i, i < 4 → lo (kid x i) = lo x + i * E (lv x + 1) ∧
      hi (kid x i) = lo x + (i + 1) * E (lv x + 1) := fun i h => ⟨lo_kid vx hl h, hi_kid vx hl h⟩
  have f0 := f 0 (by decide)
  have f1 := f 1 (by decide)
  have f2 := f 2 (by decide)
  have f3 := f 3 (by decide)
  constructor
  · intro h
    rcases Nat.lt_or_ge q (lo x + E (lv x + 1)) with g | g
    · exact ⟨0, by decide, by omega⟩
    · rcases Nat.lt_or_ge q (lo x + 2 * E (lv x + 1)) with g | g
      · exact ⟨1, by decide, by omega⟩
      · rcases Nat.lt_or_ge q (lo x + 3 * E (lv x + 1)) with g | g
        · exact ⟨2, by decide, by omega⟩
        · exact ⟨3, by decide, by omega⟩
  · rintro ⟨i, hi4, h⟩
    have : i = 0 ∨ i = 1 ∨ i = 2 ∨ i = 3 := by omega
    rcases this with rfl | rfl | rfl | rfl <;> omega

/-- Leaves covered by a list, through ranges. -/
def Cov (v : List CellID) (q : Nat) : Prop := ∃ c ∈ v, lo c ≤ q ∧ q < hi c

theorem cov_cons {c : CellID} {v : List CellID} {q : Nat} :
    Cov (c :: v) q ↔ (lo c ≤ q ∧ q < hi c) ∨ Cov v q := by
  simp [Cov]

theorem collapse_spec : ∀ (n : Nat) (out : List CellID) (ci : CellID), out.length = n →
    (∀ c ∈ out, Valid c) → Valid ci → Desc (ci :: out) → NoKids out →
    ∃ out', collapse out ci = some out' ∧ (∀ c ∈ out', Valid c) ∧ Desc out' ∧ NoKids out' ∧
      (∀ q, Cov out' q ↔ Cov (ci :: out) q) ∧
      ∀ M, (∀ c ∈ ci :: out, lo c + hi c ≤ M) → ∀ c ∈ out', lo c + hi c ≤ M := by
  intro n
  induction n using Nat.strongRecOn with
  | _ n ih =>
    intro out ci hn hv vc hd hno
    by_cases hs : ∃ x rest, Valid x ∧ lv x < 30 ∧ ci = kid x 3 ∧
        out = kid x 2 :: kid x 1 :: kid x 0 :: rest
    · obtain ⟨x, rest, vx, hl, rfl, rfl⟩ := hs
      rw [collapse_yes vx hl]
      have h1 := List.pairwise_cons.1 hd
      have h2 := List.pairwise_cons.1 h1.2
      have h3 := List.pairwise_cons.1 h2.2
      have h4 := List.pairwise_cons.1 h3.2
      have l0 := lo_kid vx hl (show 0 < 4 by decide)
      rw [Nat.zero_mul, Nat.add_zero] at l0
      have l3 := hi_kid vx hl (show 3 < 4 by decide)
      have l3' := lo_kid vx hl (show 3 < 4 by decide)
      have e4 := hi_eq4 hl
      have hE := E_pos (lv x + 1)
      obtain ⟨out', e, p1, p2, p3, p4, p5⟩ := ih rest.length (by simp at hn; omega) rest x rfl
        (fun c hc => hv c (by simp [hc])) vx
        (List.pairwise_cons.2 ⟨fun c hc => by rw [← l0]; exact h4.1 c hc, h4.2⟩)
        (fun c vc hc hk => hno c vc hc fun i hi4 => by simp [hk i hi4])
      refine ⟨out', e, p1, p2, p3, ?_, ?_⟩
      · intro q
        rw [p4 q, cov_cons, covers_kids vx hl, cov_cons, cov_cons, cov_cons, cov_cons]
        constructor
        · rintro (⟨i, hi4, h⟩ | h)
          · have : i = 0 ∨ i = 1 ∨ i = 2 ∨ i = 3 := by omega
            rcases this with rfl | rfl | rfl | rfl <;> tauto
          · tauto
        · rintro (h | h | h | h | h)
          · exact Or.inl ⟨3, by decide, h⟩
          · exact Or.inl ⟨2, by decide, h⟩
          · exact Or.inl ⟨1, by decide, h⟩
          · exact Or.inl ⟨0, by decide, h⟩
          · exact Or.inr h
      · intro M hM
        apply p5 M
        intro c hc
        rcases List.mem_cons.1 hc with rfl | hc
        · have := hM (kid c 3) (by simp)
          omega
        · exact hM c (by simp [hc])
    · refine ⟨_, collapse_no hv vc hd hs, ?_, hd, ?_, fun q => Iff.rfl, fun M hM => hM⟩
      · intro c hc
        rcases List.mem_cons.1 hc with rfl | hc
        · exact vc
        · exact hv c hc
      · intro x vx hl hk
        obtain ⟨e1, rest, e2⟩ := fourKids_of_push hd hno vx hl hk
        exact hs ⟨x, rest, vx, hl, e1, e2⟩

theorem popContained_spec {ci : CellID} (vc : Valid ci) : ∀ (out : List CellID),
    (∀ c ∈ out, Valid c) → Desc out → (∀ c ∈ out, lo c + hi c ≤ lo ci + hi ci) →
    (∀ c ∈ out, ¬ (lo c ≤ lo ci ∧ hi ci ≤ hi c)) →
    ∃ pre out', popContained out ci = some out' ∧ out = pre ++ out' ∧
      (∀ c ∈ pre, lo ci ≤ lo c ∧ hi c ≤ hi ci) ∧ ∀ c ∈ out', hi c ≤ lo ci := by
  intro out
  induction out with
  | nil => intro _ _ _ _; exact ⟨[], [], rfl, rfl, by simp, by simp⟩
  | cons a rest ih =>
    intro hv hd hid hnc
    have va := hv a (by simp)
    have h1 := List.pairwise_cons.1 hd
    simp only [popContained, vc.contains va, Option.bind_eq_bind, Option.bind_some]
    by_cases hc : lo ci ≤ lo a ∧ hi a ≤ hi ci
    · rw [if_pos (by simpa using hc)]
      obtain ⟨pre, out', e, h2, h3, h4⟩ := ih (fun c hc => hv c (by simp [hc])) h1.2
        (fun c hc => hid c (by simp [hc])) (fun c hc => hnc c (by simp [hc]))
      refine ⟨a :: pre, out', e, by simp [h2], ?_, h4⟩
      intro c hc'
      rcases List.mem_cons.1 hc' with rfl | hc'
      · exact hc
      · exact h3 c hc'
    · rw [if_neg (by simpa using hc)]
      refine ⟨[], a :: rest, rfl, rfl, by simp, ?_⟩
      have hla : hi a ≤ lo ci := by
        have := hid a (by simp)
        have n1 := hnc a (by simp)
        have := lo_lt_hi a
        have := lo_lt_hi ci
        rcases va.lam vc with l | l | l | l <;> omega
      intro c hc'
      rcases List.mem_cons.1 hc' with rfl | hc'
      · exact hla
      · have := h1.1 c hc'
        have := lo_lt_hi a
        omega

theorem normalizeStep_spec {ci : CellID} (vc : Valid ci) {out : List CellID}
    (hv : ∀ c ∈ out, Valid c) (hd : Desc out) (hno : NoKids out)
    (hid : ∀ c ∈ out, lo c + hi c ≤ lo ci + hi ci) :
    ∃ out', normalizeStep out ci = some out' ∧ (∀ c ∈ out', Valid c) ∧ Desc out' ∧ NoKids out' ∧
      (∀ q, Cov out' q ↔ Cov (ci :: out) q) ∧ ∀ c ∈ out', lo c + hi c ≤ lo ci + hi ci := by
  -- the head contains `ci` or no element does
  by_cases hskip : ∃ last rest, out = last :: rest ∧ lo last ≤ lo ci ∧ hi ci ≤ hi last
  · obtain ⟨last, rest, rfl, g1, g2⟩ := hskip
    have vl := hv last (by simp)
    refine ⟨last :: rest, ?_, hv, hd, hno, ?_, hid⟩
    · simp only [normalizeStep, vl.contains vc, Option.bind_eq_bind, Option.bind_some, g1, g2,
        and_self, decide_true, if_true]
    · intro q
      rw [cov_cons, cov_cons, cov_cons]
      constructor
      · intro h; exact Or.inr h
      · rintro (h | h)
        · exact Or.inl (by omega)
        · exact h
  · have hnc : ∀ c ∈ out, ¬ (lo c ≤ lo ci ∧ hi ci ≤ hi c) := by
      intro c hc hcc
      cases out with
      | nil => simp at hc
      | cons last rest =>
        rcases List.mem_cons.1 hc with rfl | hc'
        · exact hskip ⟨_, _, rfl, hcc⟩
        · have h1 := (List.pairwise_cons.1 hd).1 c hc'
          have h2 := hid last (by simp)
          have := lo_lt_hi last
          have := lo_lt_hi ci
          omega
    obtain ⟨pre, out1, e1, h1, h2, h3⟩ := popContained_spec vc out hv hd hid hnc
    have hno1 : NoKids out1 := fun c vc hc hk => hno c vc hc fun i hi4 => by
      rw [h1]; exact List.mem_append_right _ (hk i hi4)
    have hd1 : Desc (ci :: out1) := by
      refine List.pairwise_cons.2 ⟨h3, ?_⟩
      rw [h1] at hd
      exact (List.pairwise_append.1 hd).2.1
    obtain ⟨out', e, p1, p2, p3, p4, p5⟩ := collapse_spec _ out1 ci rfl
      (fun c hc => hv c (by rw [h1]; exact List.mem_append_right _ hc)) vc hd1 hno1
    refine ⟨out', ?_, p1, p2, p3, ?_, ?_⟩
    · cases out with
      | nil =>
        simp only [normalizeStep, Option.bind_eq_bind, Option.bind_some, e1, e]
        simp
      | cons last rest =>
        have := hnc last (by simp)
        simp only [normalizeStep, (hv last (by simp)).contains vc, this, decide_false,
          Option.bind_eq_bind, Option.bind_some, e1, e]
        simp
    · intro q
      rw [p4 q, cov_cons, cov_cons, h1]
      constructor
      · rintro (h | ⟨c, hc, h⟩)
        · exact Or.inl h
        · exact Or.inr ⟨c, List.mem_append_right _ hc, h⟩
      · rintro (h | ⟨c, hc, h⟩)
        · exact Or.inl h
        · rcases List.mem_append.1 hc with hc | hc
          · have := h2 c hc
            exact Or.inl (by omega)
          · exact Or.inr ⟨c, hc, h⟩
    · apply p5
      intro c hc
      rcases List.mem_cons.1 hc with rfl | hc
      · omega
      · exact hid c (by rw [h1]; exact List.mem_append_right _ hc)

theorem normalizeLoop_spec : ∀ (rest out : List CellID),
    (∀ c ∈ rest, Valid c) → rest.Pairwise (fun a b => a.id.toNat ≤ b.id.toNat) →
    (∀ c ∈ out, Valid c) → Desc out → NoKids out →
    (∀ c ∈ out, ∀ d ∈ rest, lo c + hi c ≤ lo d + hi d) →
    ∃ out', normalizeLoop out rest = some out' ∧ (∀ c ∈ out', Valid c) ∧ Desc out' ∧ NoKids out' ∧
      ∀ q, Cov out' q ↔ Cov rest q ∨ Cov out q := by
  intro rest
  induction rest with
  | nil =>
    intro out _ _ hv hd hno _
    exact ⟨out, rfl, hv, hd, hno, fun q => by simp [Cov]⟩
  | cons ci rest ih =>
    intro out hr hs hv hd hno hid
    have vc := hr ci (by simp)
    obtain ⟨o1, e1, p1, p2, p3, p4, p5⟩ := normalizeStep_spec vc hv hd hno
      (fun c hc => hid c hc ci (by simp))
    have hs1 := List.pairwise_cons.1 hs
    obtain ⟨o2, e2, q1, q2, q3, q4⟩ := ih o1 (fun c hc => hr c (by simp [hc])) hs1.2 p1 p2 p3
      (fun c hc d hd => by
        have a := p5 c hc
        have b := hs1.1 d hd
        rw [vc.toNat, (hr d (by simp [hd])).toNat] at b
        omega)
    refine ⟨o2, ?_, q1, q2, q3, ?_⟩
    · simp only [normalizeLoop, e1, Option.bind_eq_bind, Option.bind_some, e2]
    · intro q
      rw [q4, p4, cov_cons, cov_cons]; tauto

theorem normalize_spec {v : List CellID} (hv : ∀ c ∈ v, Valid c) :
    ∃ u, normalize v = some u ∧ (∀ c ∈ u, Valid c) ∧ Asc u ∧ NoKids u ∧ ∀ q, Cov u q ↔ Cov v q := by
  have perm := List.mergeSort_perm v (fun a b => decide (a.id ≤ b.id))
  have sorted : (v.mergeSort (fun a b => decide (a.id ≤ b.id))).Pairwise
      (fun a b => decide (a.id ≤ b.id)) := by
    apply List.pairwise_mergeSort
    · intro a b c h1 h2
      simp only [decide_eq_true_eq, BitVec.le_def] at *
      omega
    · intro a b
      simp only [Bool.or_eq_true, decide_eq_true_eq, BitVec.le_def]
      omega
  obtain ⟨o, e, p1, p2, p3, p4⟩ := normalizeLoop_spec _ [] (fun c hc => hv c (perm.mem_iff.1 hc))
    (sorted.imp (by intro a b h; simpa [BitVec.le_def] using h)) (by simp) List.Pairwise.nil
    (fun c _ _ hk => by simpa using hk 0 (by decide)) (by simp)
  refine ⟨o.reverse, ?_, ?_, desc_reverse.2 p2, ?_, ?_⟩
  · simp only [normalize, e, Option.bind_eq_bind, Option.bind_some]
  · intro c hc; exact p1 c (by simpa using hc)
  · intro c vc hl hk; exact p3 c vc hl fun i hi4 => by simpa using hk i hi4
  · intro q
    have h1 : Cov o.reverse q ↔ Cov o q := by simp [Cov]
    rw [h1, p4]
    have h2 : Cov (v.mergeSort (fun a b => decide (a.id ≤ b.id))) q ↔ Cov v q := by
      simp only [Cov, perm.mem_iff]
    rw [h2]
    simp [Cov]

theorem cov_iff {v : List CellID} (hv : ∀ c ∈ v, Valid c) (q : Nat) : Covers v q ↔ Cov v q :=
  covers_iff hv q

end Verif
