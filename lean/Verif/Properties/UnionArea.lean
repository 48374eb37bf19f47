import Verif.Properties.UnionRegion
import Verif.Properties.CellAreaBound
import Verif.Properties.RectCell

/-!
# C107: the areas of cell unions

Exact arithmetic over the reals.
-/

namespace Verif
open Spec CellID CellUnion S2 MeasureTheory

namespace Spec

/-- The points (directions) of the cells of a list. -/
def InUnion (v : List CellID) (p : Vec ℝ) : Prop := ∃ x ∈ v, ∃ C, Cell.fromCellID _root_.id x = some C ∧ InCell C p

end Spec

/-! ## Cells without a common leaf have no area in common -/

theorem line_mono {a b : Int} (h : a ≤ b) : uvLine (_root_.id : ℝ → ℝ) a ≤ uvLine (_root_.id : ℝ → ℝ) b := by
  refine c59_stToUV_strictMono.monotone ?_
  show (a : ℝ) / 2 ^ 30 ≤ (b : ℝ) / 2 ^ 30
  have : (a : ℝ) ≤ b := by exact_mod_cast h
  gcongr

/-- The squares of two cells of one face without a common leaf are apart. -/
theorem squares_apart {x y : CellID} (hx : Valid x) (hy : Valid y) (hd : ∀ q, HasLeaf x.id.toNat q → ¬ HasLeaf y.id.toNat q) {f : Nat}
    {i j s i' j' s' : Int} (h : Square x f i j s) (h' : Square y f i' j' s') : i + s ≤ i' ∨ i' + s' ≤ i ∨ j + s ≤ j' ∨ j' + s' ≤ j := by
  by_contra hn
  have := h.i_lo; have := h.j_lo; have := h.i_hi; have := h.j_hi; have := h.pos
  have := h'.i_lo; have := h'.j_lo; have := h'.i_hi; have := h'.j_hi; have := h'.pos
  obtain ⟨a, ha⟩ : ∃ a, a = max i i' := ⟨_, rfl⟩
  obtain ⟨b, hb⟩ : ∃ b, b = max j j' := ⟨_, rfl⟩
  unfold side at *
  obtain ⟨l, hl, hlev, hat⟩ := valid_leaf_exists (i := a.toNat) (j := b.toNat) h.face (by omega) (by omega)
  rw [Int.toNat_of_nonneg (by omega), Int.toNat_of_nonneg (by omega)] at hat
  obtain ⟨q, hq⟩ := leaf_exists hl hlev
  exact hd q ((contains_leaf hx hl hlev hq).1 ((h.leaves l f a b hl hlev hat).2 ⟨rfl, by omega, by omega, by omega, by omega⟩))
    ((contains_leaf hy hl hlev hq).1 ((h'.leaves l f a b hl hlev hat).2 ⟨rfl, by omega, by omega, by omega, by omega⟩))

/-- On its own face a point has its greatest coordinate along the normal. -/
theorem inCell_normal {x : CellID} {C : Cell ℝ} (hx : Valid x) (hC : Cell.fromCellID _root_.id x = some C) {p : Vec ℝ} (h : InCell C p) {f : Nat} {n m : Vec ℝ}
    (hn : uvwAxis C.face 2 = some n) (hf : f < 6) (hm : uvwAxis f 2 = some m) : dot m p ≤ dot n p := by
  obtain ⟨u, v, w, t, ⟨⟨h1, h2⟩, h3, h4⟩, hw, ht, rfl⟩ := h
  have b : -1 ≤ u ∧ u ≤ 1 ∧ -1 ≤ v ∧ v ≤ 1 := by
    obtain ⟨-, -, e⟩ := cell_rect hx hC
    rw [e] at h1 h2 h3 h4
    have sq := hx.square
    have z0 : uvLine (_root_.id : ℝ → ℝ) 0 = -1 := by unfold uvLine stToUV; norm_num
    have z1 : uvLine (_root_.id : ℝ → ℝ) side = 1 := by unfold uvLine stToUV side; norm_num
    exact ⟨z0.symm.le.trans ((line_mono sq.i_lo).trans h1), h2.trans ((line_mono sq.i_hi).trans z1.le), z0.symm.le.trans ((line_mono sq.j_lo).trans h3),
      h4.trans ((line_mono sq.j_hi).trans z1.le)⟩
  have hF := (cell_parts hx hC).1
  obtain ⟨b1, b2, b3, b4⟩ := b
  clear hC h1 h2 h3 h4
  have k1 : -t ≤ t * u := by nlinarith
  have k2 : t * u ≤ t := by nlinarith
  have k3 : -t ≤ t * v := by nlinarith
  have k4 : t * v ≤ t := by nlinarith
  generalize C.face = F at *
  interval_cases F <;> obtain rfl := Option.some.inj hn <;> obtain rfl := Option.some.inj hw <;> interval_cases f <;> obtain rfl := Option.some.inj hm <;>
    simp only [dot, smul] <;> linarith

/-- The common points of two cells without a common leaf are in one plane. -/
theorem overlap_plane {x y : CellID} {C D : Cell ℝ} (hx : Valid x) (hy : Valid y) (hC : Cell.fromCellID _root_.id x = some C)
    (hD : Cell.fromCellID _root_.id y = some D) (hd : ∀ q, HasLeaf x.id.toNat q → ¬ HasLeaf y.id.toNat q) :
    ∃ n, ¬ IsZero n ∧ ∀ p, InCell C p → InCell D p → dot n p = 0 := by
  obtain ⟨c1, -, c3⟩ := cell_rect hx hC
  obtain ⟨d1, -, d3⟩ := cell_rect hy hD
  have fC := (cell_parts hx hC).1
  have fD := (cell_parts hy hD).1
  by_cases hf : C.face = D.face
  · obtain ⟨a, b, n, -, -, -, ha, hb, hn, hab, hbn, han, hcr, huv, -⟩ := c73_frame (K := ℝ) fC
    have cc := inCell_coords (C := C) ha hb hn hab hbn han hcr huv
    rw [hf] at huv
    have cd := inCell_coords (C := D) ha hb hn hab hbn han hcr huv
    have sqx := hx.square
    have sqy := hy.square
    rw [← c1, hf] at sqx
    rw [← d1] at sqy
    have key := squares_apart hx hy hd sqx sqy
    rw [c3] at cc
    rw [d3] at cd
    have nz : ∀ (e : Vec ℝ) (k : ℝ), dot e e = 1 → dot e n = 0 → ¬ IsZero (lin 1 e (-k) n) := by
      rintro e k he hen ⟨z1, z2, z3⟩
      have : dot e (lin 1 e (-k) n) = 1 := by
        rw [show dot e (lin 1 e (-k) n) = dot e e - k * dot e n by simp only [dot, lin]; ring, he, hen]; ring
      simp only [dot, z1, z2, z3] at this
      norm_num at this
    have lc : ∀ (e p : Vec ℝ) (k : ℝ), dot (lin 1 e (-k) n) p = dot e p - k * dot n p := by
      intro e p k
      simp only [dot, lin]; ring
    rcases key with g | g | g | g
    · refine ⟨lin 1 a (-uvLine _root_.id (((sr y).1 * ss y : Nat) : Int)) n, nz a _ ha han, fun p h1 h2 => ?_⟩
      obtain ⟨t, -, k, -⟩ := (cc p).1 h1
      obtain ⟨-, k', -⟩ := (cd p).1 h2
      rw [lc]
      have := mul_le_mul_of_nonneg_right (line_mono g) t.le
      dsimp only [uvRect] at k k'
      linarith
    · refine ⟨lin 1 a (-uvLine _root_.id (((sr x).1 * ss x : Nat) : Int)) n, nz a _ ha han, fun p h1 h2 => ?_⟩
      obtain ⟨t, k, -⟩ := (cc p).1 h1
      obtain ⟨-, -, k', -⟩ := (cd p).1 h2
      rw [lc]
      have := mul_le_mul_of_nonneg_right (line_mono g) t.le
      dsimp only [uvRect] at k k'
      linarith
    · refine ⟨lin 1 b (-uvLine _root_.id (((sr y).2.1 * ss y : Nat) : Int)) n, nz b _ hb hbn, fun p h1 h2 => ?_⟩
      obtain ⟨t, -, -, -, k⟩ := (cc p).1 h1
      obtain ⟨-, -, -, k', -⟩ := (cd p).1 h2
      rw [lc]
      have := mul_le_mul_of_nonneg_right (line_mono g) t.le
      dsimp only [uvRect] at k k'
      linarith
    · refine ⟨lin 1 b (-uvLine _root_.id (((sr x).2.1 * ss x : Nat) : Int)) n, nz b _ hb hbn, fun p h1 h2 => ?_⟩
      obtain ⟨t, -, -, k, -⟩ := (cc p).1 h1
      obtain ⟨-, -, -, -, k'⟩ := (cd p).1 h2
      rw [lc]
      have := mul_le_mul_of_nonneg_right (line_mono g) t.le
      dsimp only [uvRect] at k k'
      linarith
  · obtain ⟨-, -, n, -, -, hn, -⟩ := c73_frame (K := ℝ) fC
    obtain ⟨-, -, m, -, -, hm, -⟩ := c73_frame (K := ℝ) fD
    refine ⟨lin 1 n (-1) m, ?_, fun p h1 h2 => ?_⟩
    · clear hC hD c1 c3 d1 d3
      generalize C.face = F at *
      generalize D.face = G at *
      interval_cases F <;> obtain rfl := Option.some.inj hn <;> interval_cases G <;> obtain rfl := Option.some.inj hm <;>
        first
        | exact absurd rfl hf
        | norm_num [IsZero, lin]
    · have k1 := inCell_normal hx hC h1 hn fD hm
      have k2 := inCell_normal hy hD h2 hm fC hn
      rw [show dot (lin 1 n (-1) m) p = dot n p - dot m p by simp only [dot, lin]; ring]
      linarith

theorem measurable_inCell {C : Cell ℝ} (hf : C.face < 6) : MeasurableSet {v | InCell C (vecOf v)} := by
  obtain ⟨a, b, n, -, -, -, ha, hb, hn, hab, hbn, han, hcr, huv, -⟩ := c73_frame (K := ℝ) hf
  have cc := inCell_coords ha hb hn hab hbn han hcr huv
  have e : {v | InCell C (vecOf v)} = {v | 0 < dot n (vecOf v) ∧ C.uv.x.lo * dot n (vecOf v) ≤ dot a (vecOf v) ∧ dot a (vecOf v) ≤ C.uv.x.hi * dot n (vecOf v) ∧
      C.uv.y.lo * dot n (vecOf v) ≤ dot b (vecOf v) ∧ dot b (vecOf v) ≤ C.uv.y.hi * dot n (vecOf v)} := Set.ext fun v => cc (vecOf v)
  rw [e]
  have m := measurable_dot
  exact (measurableSet_lt measurable_const (m n)).inter ((measurableSet_le ((m n).const_mul _) (m a)).inter ((measurableSet_le (m a) ((m n).const_mul _)).inter
    ((measurableSet_le ((m n).const_mul _) (m b)).inter (measurableSet_le (m b) ((m n).const_mul _)))))

theorem union_null {x : CellID} {C : Cell ℝ} (hx : Valid x) (hC : Cell.fromCellID _root_.id x = some C) : ∀ (v : List CellID), (∀ y ∈ v, Valid y) →
    (∀ y ∈ v, ∀ q, HasLeaf x.id.toNat q → ¬ HasLeaf y.id.toNat q) → volume (solid (InCell C) ∩ solid (InUnion v)) = 0 := by
  intro v
  induction v with
  | nil =>
    intro _ _
    rw [show solid (InCell C) ∩ solid (InUnion []) = ∅ from Set.eq_empty_of_forall_notMem fun p hp => by obtain ⟨_, ⟨y, hy, -⟩, -⟩ := hp; exact absurd hy (by simp)]
    exact measure_empty
  | cons y v ih =>
    intro h1 h2
    have hy := h1 y (by simp)
    obtain ⟨D, hD⟩ := cell_exists hy
    obtain ⟨n, hn, key⟩ := overlap_plane hx hy hC hD (h2 y (by simp))
    refine measure_mono_null (t := {v | dot n (vecOf v) = 0} ∪ (solid (InCell C) ∩ solid (InUnion v))) ?_
      (measure_union_null (volume_plane hn) (ih (fun z hz => h1 z (by simp [hz])) fun z hz => h2 z (by simp [hz])))
    rintro p ⟨⟨a1, a2⟩, ⟨z, hz, E, hE, a3⟩, -⟩
    rcases List.mem_cons.1 hz with rfl | hz
    · rw [hD] at hE
      obtain rfl := Option.some.inj hE
      exact Or.inl (key _ a1 a3)
    · exact Or.inr ⟨⟨a1, a2⟩, ⟨z, hz, E, hE, a3⟩, a2⟩

/-- The area of a union is the sum of the areas. -/
theorem union_area_cons {x : CellID} {C : Cell ℝ} {v : List CellID} (h : IsUnion (x :: v)) (hC : Cell.fromCellID _root_.id x = some C) :
    sphereArea (InUnion (x :: v)) = sphereArea (InCell C) + sphereArea (InUnion v) := by
  have hv := (allCells_iff _).1 h.1
  have hx := hv x (by simp)
  have hord := (List.pairwise_cons.1 h.2).1
  have e : solid (InUnion (x :: v)) = solid (InCell C) ∪ solid (InUnion v) := by
    ext p
    constructor
    · rintro ⟨⟨z, hz, E, hE, a3⟩, a2⟩
      rcases List.mem_cons.1 hz with rfl | hz
      · rw [hC] at hE
        obtain rfl := Option.some.inj hE
        exact Or.inl ⟨a3, a2⟩
      · exact Or.inr ⟨⟨z, hz, E, hE, a3⟩, a2⟩
    · rintro (⟨a1, a2⟩ | ⟨⟨z, hz, E, hE, a3⟩, a2⟩)
      · exact ⟨⟨x, by simp, C, hC, a1⟩, a2⟩
      · exact ⟨⟨z, by simp [hz], E, hE, a3⟩, a2⟩
  unfold sphereArea
  rw [e, measure_union₀' (measurable_solid (measurable_inCell (cell_parts hx hC).1)).nullMeasurableSet
    (union_null hx hC v (fun z hz => hv z (by simp [hz])) fun z hz q h1 h2 => lt_irrefl _ (hord z hz q q h1 h2)),
    ENNReal.toReal_add (solid_finite _) (solid_finite _), mul_add]

theorem sumOf_add (f : CellID → Option ℝ) : ∀ (v : List CellID) (s t : ℝ), (∀ r, sumOf _root_.id f v s = some r → sumOf _root_.id f v (s + t) = some (r + t)) := by
  intro v
  induction v with
  | nil =>
    intro s t r h
    obtain rfl := Option.some.inj h
    rfl
  | cons x v ih =>
    intro s t r h
    rw [sumOf] at h ⊢
    rcases hf : f x with - | a
    · rw [hf] at h; exact absurd h (by simp)
    · rw [hf] at h
      have := ih (s + a) t r h
      rw [show s + a + t = s + t + a by ring] at this
      exact this

/-- **C107.** In exact arithmetic `exact_area` of a valid union is the area of the set of its points. -/
theorem c107_exactArea {atan2 : ℝ → ℝ → ℝ} (hat : IsAtan2 atan2) : ∀ {v : List CellID}, IsUnion v →
    CellUnion.exactArea _root_.id Real.sqrt atan2 Real.tan Real.arctan v = some (sphereArea (InUnion v)) := by
  intro v
  unfold CellUnion.exactArea
  induction v with
  | nil =>
    intro _
    have : solid (InUnion []) = ∅ := Set.eq_empty_of_forall_notMem fun p hp => by obtain ⟨⟨y, hy, -⟩, -⟩ := hp; exact absurd hy (by simp)
    unfold sphereArea
    rw [this, measure_empty]
    simp [sumOf]
  | cons x v ih =>
    intro h
    obtain ⟨C, hC⟩ := cell_exists ((allCells_iff _).1 h.1 x (by simp))
    have hv : IsUnion v := ⟨(allCells_iff _).2 fun z hz => (allCells_iff _).1 h.1 z (by simp [hz]), (List.pairwise_cons.1 h.2).2⟩
    rw [sumOf, hC, Option.bind_some, c101_exactArea ((allCells_iff _).1 h.1 x (by simp)) hC hat, union_area_cons h hC, add_comm (sphereArea _)]
    have := sumOf_add _ v 0 (sphereArea (InCell C)) _ (ih hv)
    exact this

/-! ## The area depends only on the leaves -/

/-- The area of a leaf. -/
noncomputable def leafArea (q : Nat) : ℝ := sphereArea (InUnion [mk 30 q])

theorem area_single {x : CellID} {C : Cell ℝ} (hC : Cell.fromCellID _root_.id x = some C) : sphereArea (InUnion [x]) = sphereArea (InCell C) := by
  refine congrArg sphereArea (funext fun p => propext ⟨?_, fun h => ⟨x, by simp, C, hC, h⟩⟩)
  rintro ⟨y, hy, D, hD, h⟩
  obtain rfl := List.mem_singleton.1 hy
  rw [hC] at hD
  obtain rfl := Option.some.inj hD
  exact h

/-- The area of a cell is the sum of the areas of its leaves. -/
theorem cell_leafArea : ∀ (n : Nat) {x : CellID} {C : Cell ℝ}, Valid x → n = 30 - lv x → Cell.fromCellID _root_.id x = some C →
    sphereArea (InCell C) = ∑ q ∈ Finset.Ico (lo x) (hi x), leafArea q := by
  intro n
  induction n with
  | zero =>
    intro x C hx hn hC
    have h30 : lv x = 30 := by have := hx.lv_le; omega
    have E1 : E 30 = 1 := by unfold E; rw [Nat.sub_self, pow_zero]
    have e : hi x = lo x + 1 := by rw [show hi x = lo x + E (lv x) from rfl, h30, E1]
    have hm : mk 30 (lo x) = x := by
      obtain ⟨k, p, hc, rfl⟩ := hx.cell
      rw [lv_mk hc] at h30
      subst h30
      rw [lo_mk hc, E1, mul_one]
    rw [e, Finset.sum_Ico_succ_top le_rfl, Finset.Ico_self, Finset.sum_empty, zero_add]
    unfold leafArea
    rw [hm, area_single hC]
  | succ n ih =>
    intro x C hx hn hC
    have hl : lv x < 30 := by omega
    have ex : ∀ d, ∃ D : Cell ℝ, d < 4 → Cell.fromCellID _root_.id (kid x d) = some D := by
      intro d
      by_cases hd : d < 4
      · obtain ⟨D, hD⟩ := cell_exists (kid_valid hx hl hd)
        exact ⟨D, fun _ => hD⟩
      · exact ⟨C, fun h => absurd h hd⟩
    choose D hD using ex
    have k : ∀ d, d < 4 → sphereArea (InCell (D d)) = ∑ q ∈ Finset.Ico (lo x + d * E (lv x + 1)) (lo x + (d + 1) * E (lv x + 1)), leafArea q := by
      intro d hd
      rw [← lo_kid hx hl hd, ← hi_kid hx hl hd]
      exact ih (kid_valid hx hl hd) (by rw [lv_kid hx hl hd]; omega) (hD d hd)
    have e4 := hi_eq4 hl
    have m : ∀ a b : Nat, a ≤ b → lo x + a * E (lv x + 1) ≤ lo x + b * E (lv x + 1) := fun a b h => by gcongr
    rw [c102_children hx hl hC hD, k 0 (by norm_num), k 1 (by norm_num), k 2 (by norm_num), k 3 (by norm_num),
      Finset.sum_Ico_consecutive _ (m 0 1 (by norm_num)) (m 1 2 (by norm_num)), Finset.sum_Ico_consecutive _ (m 0 2 (by norm_num)) (m 2 3 (by norm_num)),
      Finset.sum_Ico_consecutive _ (m 0 3 (by norm_num)) (m 3 4 (by norm_num))]
    rw [show lo x + 0 * E (lv x + 1) = lo x by omega, show lo x + (3 + 1) * E (lv x + 1) = hi x by omega]

theorem covers_cons_set {x : CellID} {v : List CellID} (h : IsUnion (x :: v)) : {q | Covers (x :: v) q} = Set.Ico (lo x) (hi x) ∪ {q | Covers v q} ∧
    Disjoint (Set.Ico (lo x) (hi x)) {q | Covers v q} := by
  have hx := (allCells_iff _).1 h.1 x (by simp)
  have hord := (List.pairwise_cons.1 h.2).1
  constructor
  · ext q
    constructor
    · rintro ⟨y, hy, hq⟩
      rcases List.mem_cons.1 hy with rfl | hy
      · exact Or.inl ((hx.hasLeaf q).1 hq)
      · exact Or.inr ⟨y, hy, hq⟩
    · rintro (hq | ⟨y, hy, hq⟩)
      · exact ⟨x, by simp, (hx.hasLeaf q).2 hq⟩
      · exact ⟨y, by simp [hy], hq⟩
  · rw [Set.disjoint_left]
    rintro q hq ⟨y, hy, hq'⟩
    exact lt_irrefl _ (hord y hy q q ((hx.hasLeaf q).2 hq) hq')

theorem isUnion_tail {x : CellID} {v : List CellID} (h : IsUnion (x :: v)) : IsUnion v :=
  ⟨(allCells_iff _).2 fun z hz => (allCells_iff _).1 h.1 z (by simp [hz]), (List.pairwise_cons.1 h.2).2⟩

theorem covers_nil : {q | Covers [] q} = ∅ := Set.eq_empty_of_forall_notMem fun q hq => by obtain ⟨y, hy, -⟩ := hq; exact absurd hy (by simp)

theorem union_leafArea : ∀ {v : List CellID}, IsUnion v → {q | Covers v q}.Finite ∧ sphereArea (InUnion v) = ∑ᶠ q ∈ {q | Covers v q}, leafArea q := by
  intro v
  induction v with
  | nil =>
    intro _
    have : solid (InUnion []) = ∅ := Set.eq_empty_of_forall_notMem fun p hp => by obtain ⟨⟨y, hy, -⟩, -⟩ := hp; exact absurd hy (by simp)
    rw [covers_nil, finsum_mem_empty]
    unfold sphereArea
    rw [this, measure_empty]
    simp
  | cons x v ih =>
    intro h
    obtain ⟨f, e⟩ := ih (isUnion_tail h)
    have hx := (allCells_iff _).1 h.1 x (by simp)
    obtain ⟨C, hC⟩ := cell_exists hx
    obtain ⟨k1, k2⟩ := covers_cons_set h
    rw [k1, finsum_mem_union k2 (Set.finite_Ico _ _) f, ← Finset.coe_Ico, finsum_mem_coe_finset, union_area_cons h hC, cell_leafArea _ hx rfl hC, e]
    exact ⟨(Finset.finite_toSet _).union f, rfl⟩

/-- **C107.** `exact_area` depends only on the leaves covered: normalizing or denormalizing a union does not change it. -/
theorem c107_same {atan2 : ℝ → ℝ → ℝ} (hat : IsAtan2 atan2) {v w : List CellID} (hv : IsUnion v) (hw : IsUnion w) (h : ∀ q, Covers v q ↔ Covers w q) :
    CellUnion.exactArea _root_.id Real.sqrt atan2 Real.tan Real.arctan v = CellUnion.exactArea _root_.id Real.sqrt atan2 Real.tan Real.arctan w := by
  rw [c107_exactArea hat hv, c107_exactArea hat hw, (union_leafArea hv).2, (union_leafArea hw).2, show {q | Covers v q} = {q | Covers w q} from Set.ext h]

/-- **C107.** A union that covers everything has the area of the sphere. -/
theorem c107_whole {atan2 : ℝ → ℝ → ℝ} (hat : IsAtan2 atan2) {v : List CellID} (hv : IsUnion v) (h : ∀ q, q < 6 * 4 ^ 30 → Covers v q) :
    CellUnion.exactArea _root_.id Real.sqrt atan2 Real.tan Real.arctan v = some (4 * Real.pi) := by
  rw [c107_exactArea hat hv, ← area_total]
  congr 1
  refine area_congr_one (n := ⟨1, 0, 0⟩) (by simp [IsZero]) fun p hp => iff_of_true ?_ trivial
  have hpos : 0 < dot p p := by
    have : p.x ≠ 0 := by simpa [dot] using hp
    have := mul_self_pos.2 this
    have := mul_self_nonneg p.y
    have := mul_self_nonneg p.z
    unfold dot
    linarith
  obtain ⟨m, k, k0, ek⟩ := normalize_pos hpos
  obtain ⟨l, _, _, _, _, _, _, _, e1, e2, e3, -⟩ := point_lines m
  obtain ⟨q, hq⟩ := leaf_exists e2 e3
  have hq6 : q < 6 * 4 ^ 30 := by
    rw [W_eq]
    exact lt_of_lt_of_le ((e2.hasLeaf q).1 hq).2 e2.hi_le
  obtain ⟨x, hx, hxq⟩ := h q hq6
  have vx := (allCells_iff _).1 hv.1 x hx
  obtain ⟨C, hC⟩ := cell_exists vx
  have hin := fromPoint_inCell m e1 vx ((contains_leaf vx e2 e3 hq).2 hxq) hC
  rw [ek] at hin
  exact ⟨x, hx, C, hC, inCell_smul k0 hin⟩

/-! ## The average area -/

theorem ncard_cons {x : CellID} {v : List CellID} (h : IsUnion (x :: v)) : {q | Covers (x :: v) q}.ncard = E (lv x) + {q | Covers v q}.ncard := by
  obtain ⟨k1, k2⟩ := covers_cons_set h
  rw [k1, Set.ncard_union_eq k2 (Set.finite_Ico _ _) (union_leafArea (isUnion_tail h)).1, ← Finset.coe_Ico, Set.ncard_coe_finset, Nat.card_Ico,
    show hi x = lo x + E (lv x) from rfl]
  omega

/-- **C107.** `average_area` is the part of the sphere's area that corresponds to the number of leaves. -/
theorem c107_average_leaves {v : List CellID} (hv : IsUnion v) :
    CellUnion.averageArea _root_.id Real.pi v = some (4 * Real.pi * ({q | Covers v q}.ncard / (6 * 4 ^ 30))) := by
  obtain ⟨n, e, h, -⟩ := c38_leafCellCovered hv
  unfold CellUnion.averageArea
  rw [e, Option.bind_eq_bind, Option.bind_some, ← h]
  congr 1
  show _ * (n.toNat : ℝ) = _
  rw [value_area _ rfl]
  show 4 * Real.pi / 6 * ((2 ^ maxLevel)⁻¹ * (2 ^ maxLevel)⁻¹) * (n.toNat : ℝ) = _
  rw [show (4 : ℝ) ^ 30 = 2 ^ maxLevel * 2 ^ maxLevel by unfold maxLevel; norm_num]
  have : (2 : ℝ) ^ maxLevel ≠ 0 := by positivity
  field_simp

/-- **C107.** `average_area` is within a factor of 1.7 of the area. -/
theorem c107_average {atan2 : ℝ → ℝ → ℝ} (hat : IsAtan2 atan2) : ∀ {v : List CellID}, IsUnion v →
    ∃ A B, CellUnion.averageArea _root_.id Real.pi v = some A ∧ CellUnion.exactArea _root_.id Real.sqrt atan2 Real.tan Real.arctan v = some B ∧
      A ≤ 1.7 * B ∧ B ≤ 1.7 * A := by
  intro v hv
  refine ⟨_, _, c107_average_leaves hv, c107_exactArea hat hv, ?_⟩
  induction v with
  | nil =>
    rw [(union_leafArea hv).2, covers_nil, finsum_mem_empty, Set.ncard_empty]
    norm_num
  | cons x v ih =>
    have hx := (allCells_iff _).1 hv.1 x (by simp)
    obtain ⟨C, hC⟩ := cell_exists hx
    obtain ⟨A, e, h1, h2⟩ := c102_average hx hC hat
    rw [c101_exactArea hx hC hat] at e
    obtain rfl := Option.some.inj e
    obtain ⟨i1, i2⟩ := ih (isUnion_tail hv)
    rw [union_area_cons hv hC, ncard_cons hv]
    have ea : C.averageArea _root_.id Real.pi = 4 * Real.pi * (E (lv x) / (6 * 4 ^ 30)) := by
      unfold Cell.averageArea
      rw [value_area _ rfl, (cell_off hx hC).1]
      show 4 * Real.pi / 6 * _ = _
      have : (4 : ℝ) ^ 30 = 4 ^ lv x * E (lv x) := by
        unfold E
        push_cast
        rw [← pow_add, Nat.add_sub_cancel' hx.lv_le]
      rw [this, show (4 : ℝ) ^ lv x = 2 ^ lv x * 2 ^ lv x by rw [← mul_pow]; norm_num]
      have : (E (lv x) : ℝ) ≠ 0 := by exact_mod_cast (E_pos _).ne'
      field_simp
    rw [ea] at h1 h2
    push_cast
    rw [add_div, mul_add]
    constructor <;> linarith

-- a union of cells of three levels on two faces
example {atan2 : ℝ → ℝ → ℝ} (hat : IsAtan2 atan2) : ∃ A B, CellUnion.averageArea _root_.id Real.pi exU = some A ∧
    CellUnion.exactArea _root_.id Real.sqrt atan2 Real.tan Real.arctan exU = some B ∧ A ≤ 1.7 * B ∧ B ≤ 1.7 * A := c107_average hat exU_normal.1

-- a face and its four children
example {atan2 : ℝ → ℝ → ℝ} (hat : IsAtan2 atan2) :
    CellUnion.exactArea _root_.id Real.sqrt atan2 Real.tan Real.arctan [⟨0x1000000000000000#64⟩] =
    CellUnion.exactArea _root_.id Real.sqrt atan2 Real.tan Real.arctan [⟨0x0400000000000000#64⟩, ⟨0x0c00000000000000#64⟩, ⟨0x1400000000000000#64⟩, ⟨0x1c00000000000000#64⟩] := by
  have v0 : Valid ⟨0x1000000000000000#64⟩ := by unfold Valid; decide +kernel
  have w0 : Valid ⟨0x0400000000000000#64⟩ := by unfold Valid; decide +kernel
  have w1 : Valid ⟨0x0c00000000000000#64⟩ := by unfold Valid; decide +kernel
  have w2 : Valid ⟨0x1400000000000000#64⟩ := by unfold Valid; decide +kernel
  have w3 : Valid ⟨0x1c00000000000000#64⟩ := by unfold Valid; decide +kernel
  have e : lo ⟨0x1000000000000000#64⟩ = 0 ∧ hi ⟨0x1000000000000000#64⟩ = 4 ^ 30 ∧ lo ⟨0x0400000000000000#64⟩ = 0 ∧ hi ⟨0x0400000000000000#64⟩ = 4 ^ 29 ∧
      lo ⟨0x0c00000000000000#64⟩ = 4 ^ 29 ∧ hi ⟨0x0c00000000000000#64⟩ = 2 * 4 ^ 29 ∧ lo ⟨0x1400000000000000#64⟩ = 2 * 4 ^ 29 ∧ hi ⟨0x1400000000000000#64⟩ = 3 * 4 ^ 29 ∧
      lo ⟨0x1c00000000000000#64⟩ = 3 * 4 ^ 29 ∧ hi ⟨0x1c00000000000000#64⟩ = 4 ^ 30 := by decide +kernel
  refine c107_same hat ((isUnion_iff _).2 ⟨by simpa using v0, by simp [Asc]⟩) ((isUnion_iff _).2 ⟨by simp [w0, w1, w2, w3], by simp [Asc, e]⟩) fun q => ?_
  simp only [Covers, List.mem_cons, List.not_mem_nil, or_false, exists_eq_or_imp, exists_eq_left, v0.hasLeaf, w0.hasLeaf, w1.hasLeaf, w2.hasLeaf, w3.hasLeaf, e]
  omega

-- the six faces
example {atan2 : ℝ → ℝ → ℝ} (hat : IsAtan2 atan2) :
    CellUnion.exactArea _root_.id Real.sqrt atan2 Real.tan Real.arctan [⟨0x1000000000000000#64⟩, ⟨0x3000000000000000#64⟩, ⟨0x5000000000000000#64⟩,
      ⟨0x7000000000000000#64⟩, ⟨0x9000000000000000#64⟩, ⟨0xb000000000000000#64⟩] = some (4 * Real.pi) := by
  have v0 : Valid ⟨0x1000000000000000#64⟩ := by unfold Valid; decide +kernel
  have v1 : Valid ⟨0x3000000000000000#64⟩ := by unfold Valid; decide +kernel
  have v2 : Valid ⟨0x5000000000000000#64⟩ := by unfold Valid; decide +kernel
  have v3 : Valid ⟨0x7000000000000000#64⟩ := by unfold Valid; decide +kernel
  have v4 : Valid ⟨0x9000000000000000#64⟩ := by unfold Valid; decide +kernel
  have v5 : Valid ⟨0xb000000000000000#64⟩ := by unfold Valid; decide +kernel
  have e : lo ⟨0x1000000000000000#64⟩ = 0 ∧ hi ⟨0x1000000000000000#64⟩ = 4 ^ 30 ∧ lo ⟨0x3000000000000000#64⟩ = 4 ^ 30 ∧ hi ⟨0x3000000000000000#64⟩ = 2 * 4 ^ 30 ∧
      lo ⟨0x5000000000000000#64⟩ = 2 * 4 ^ 30 ∧ hi ⟨0x5000000000000000#64⟩ = 3 * 4 ^ 30 ∧ lo ⟨0x7000000000000000#64⟩ = 3 * 4 ^ 30 ∧ hi ⟨0x7000000000000000#64⟩ = 4 * 4 ^ 30 ∧
      lo ⟨0x9000000000000000#64⟩ = 4 * 4 ^ 30 ∧ hi ⟨0x9000000000000000#64⟩ = 5 * 4 ^ 30 ∧ lo ⟨0xb000000000000000#64⟩ = 5 * 4 ^ 30 ∧ hi ⟨0xb000000000000000#64⟩ = 6 * 4 ^ 30 := by
    decide +kernel
  refine c107_whole hat ((isUnion_iff _).2 ⟨by simp [v0, v1, v2, v3, v4, v5], by simp [Asc, e]⟩) fun q hq => ?_
  simp only [Covers, List.mem_cons, List.not_mem_nil, or_false, exists_eq_or_imp, exists_eq_left, v0.hasLeaf, v1.hasLeaf, v2.hasLeaf, v3.hasLeaf, v4.hasLeaf, v5.hasLeaf, e]
  omega

end Verif
