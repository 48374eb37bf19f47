import Verif.Proofs.CapCell
import Verif.Properties.CapExact

/-!
# C97: which cells a cap intersects and contains

Exact arithmetic over the reals. `eps` is the margin of `Cell::contains_point`, any number of at least zero.
-/

namespace Verif
open Spec CellID

theorem inCap_dot {c : Cap ℝ} {p : Vec ℝ} (hc : UnitV c.center) (hp : UnitV p) : InCap c p ↔ 1 - c.radius / 2 ≤ dot p c.center := by
  unfold InCap
  have e : dot (diff p c.center) (diff p c.center) = dot p p + dot c.center c.center - 2 * dot p c.center := by simp only [dot, diff]; ring
  rw [e, show dot p p = 1 from hp, show dot c.center c.center = 1 from hc]
  constructor <;> intro h <;> linarith

/-- The points of a cell are in the cell with its margin. -/
theorem inCell_containsPoint {c : CellID} {C : Cell ℝ} (hc : Valid c) (hC : Cell.fromCellID _root_.id c = some C) {eps : ℝ} (he : 0 ≤ eps) {p : Vec ℝ}
    (hp : InCell C p) : C.containsPoint _root_.id eps p = some true := by
  obtain ⟨b, h1, h2⟩ := c75_containsPoint he hc hC p
  obtain ⟨u, v, w, t, ⟨⟨a1, a2⟩, a3, a4⟩, hw, ht, e⟩ := hp
  dsimp only at a1 a2 a3 a4
  rw [h1, Option.some.injEq, h2]
  exact ⟨u, v, w, t, hw, ht, e, by linarith, by linarith, by linarith, by linarith⟩

/-- The condition that the closest point of the great circle of an edge is inside the edge. -/
def GoodEdge (c : Vec ℝ) (V E : Nat → Vec ℝ) (k : Nat) : Prop :=
  dot c (E k) ≤ 0 ∧ dot (cross (E k) c) (V k) < 0 ∧ 0 < dot (cross (E k) c) (V ((k + 1) % 4))

theorem loop_step {cap : Cap ℝ} {C : Cell ℝ} {V E : Nat → Vec ℝ} (h : CellEdges C V E) (s2 : ℝ) (n : Nat) {k : Nat} (hk : k < 4) :
    Cap.edgeLoop _root_.id Real.sqrt cap C [V 0, V 1, V 2, V 3] s2 (n + 1) k =
      if 0 < dot cap.center (E k) then Cap.edgeLoop _root_.id Real.sqrt cap C [V 0, V 1, V 2, V 3] s2 n (k + 1)
      else if s2 < dot cap.center (E k) * dot cap.center (E k) then some false
      else if dot (cross (E k) cap.center) (V k) < 0 ∧ 0 < dot (cross (E k) cap.center) (V ((k + 1) % 4)) then some true
      else Cap.edgeLoop _root_.id Real.sqrt cap C [V 0, V 1, V 2, V 3] s2 n (k + 1) := by
  obtain ⟨e1, e2, -, -⟩ := h.edge k hk
  have d1 : Vec.dot _root_.id cap.center (E k) = dot cap.center (E k) := rfl
  have d2 : Vec.norm2 _root_.id (E k) = 1 := e2
  have d3 : ∀ x, Vec.dot _root_.id (Vec.cross _root_.id (E k) cap.center) x = dot (cross (E k) cap.center) x := fun _ => rfl
  have g1 : [V 0, V 1, V 2, V 3][k]? = some (V k) := by interval_cases k <;> rfl
  have g2 : [V 0, V 1, V 2, V 3][(k + 1) &&& 3]? = some (V ((k + 1) % 4)) := by interval_cases k <;> rfl
  conv_lhs => unfold Cap.edgeLoop
  rw [e1, Option.bind_eq_bind, Option.bind_some]
  dsimp only
  rw [d1, d2, g1, g2]
  simp only [Option.bind_eq_bind, Option.bind_some, d3, gt_iff_lt, mul_one, _root_.id]

theorem loop_true {cap : Cap ℝ} {C : Cell ℝ} {V E : Nat → Vec ℝ} (h : CellEdges C V E) {s2 : ℝ}
    (hs : ∀ k, k < 4 → dot cap.center (E k) ≤ 0 → dot cap.center (E k) * dot cap.center (E k) ≤ s2) :
    ∀ n k, k + n = 4 → (∃ j, k ≤ j ∧ j < 4 ∧ GoodEdge cap.center V E j) →
      Cap.edgeLoop _root_.id Real.sqrt cap C [V 0, V 1, V 2, V 3] s2 n k = some true := by
  intro n
  induction n with
  | zero => intro k hk ⟨j, h1, h2, _⟩; omega
  | succ n ih =>
    intro k hk ⟨j, h1, h2, h3⟩
    have hk4 : k < 4 := by omega
    rw [loop_step h s2 n hk4]
    by_cases hjk : j = k
    · subst hjk
      obtain ⟨a1, a2, a3⟩ := h3
      rw [if_neg (not_lt.2 a1), if_neg (not_lt.2 (hs j hk4 a1)), if_pos ⟨a2, a3⟩]
    · have := ih (k + 1) (by omega) ⟨j, by omega, h2, h3⟩
      split_ifs with b1 b2 b3
      · exact this
      · exact absurd (hs k hk4 (not_lt.1 b1)) (not_le.2 b2)
      · rfl
      · exact this

theorem loop_sound {cap : Cap ℝ} {C : Cell ℝ} {V E : Nat → Vec ℝ} (h : CellEdges C V E) (s2 : ℝ) :
    ∀ n k, k + n = 4 → ∃ b, Cap.edgeLoop _root_.id Real.sqrt cap C [V 0, V 1, V 2, V 3] s2 n k = some b ∧
      (b = true → ∃ j, j < 4 ∧ dot cap.center (E j) * dot cap.center (E j) ≤ s2 ∧ GoodEdge cap.center V E j) := by
  intro n
  induction n with
  | zero => intro k hk; exact ⟨false, rfl, by simp⟩
  | succ n ih =>
    intro k hk
    have hk4 : k < 4 := by omega
    rw [loop_step h s2 n hk4]
    have := ih (k + 1) (by omega)
    split_ifs with b1 b2 b3
    · exact this
    · exact ⟨false, rfl, by simp⟩
    · exact ⟨true, rfl, fun _ => ⟨k, hk4, not_lt.1 b2, not_lt.1 b1, b3.1, b3.2⟩⟩
    · exact this

theorem sin2_exact (r : ℝ) : ChordAngle.sin2 _root_.id r = 1 - (1 - r / 2) ^ 2 := by
  unfold ChordAngle.sin2
  simp only [_root_.id]
  ring

theorem exists_of_any {V : Nat → Vec ℝ} {P : Vec ℝ → Bool} (h : [V 0, V 1, V 2, V 3].any P = true) : ∃ k, k < 4 ∧ P (V k) = true := by
  rw [List.any_eq_true] at h
  obtain ⟨x, hx, hp⟩ := h
  simp only [List.mem_cons, List.not_mem_nil, or_false] at hx
  rcases hx with rfl | rfl | rfl | rfl
  · exact ⟨0, by norm_num, hp⟩
  · exact ⟨1, by norm_num, hp⟩
  · exact ⟨2, by norm_num, hp⟩
  · exact ⟨3, by norm_num, hp⟩

theorem vertex_mem (V : Nat → Vec ℝ) {k : Nat} (hk : k < 4) : V k ∈ [V 0, V 1, V 2, V 3] := by
  interval_cases k <;> simp

/-- The vertices are points of the cell. -/
theorem CellEdges.mem {C : Cell ℝ} {V E : Nat → Vec ℝ} (h : CellEdges C V E) (hx : C.uv.x.lo < C.uv.x.hi) (hy : C.uv.y.lo < C.uv.y.hi) {k : Nat} (hk : k < 4) : InCell C (V k) := by
  obtain ⟨-, w, t, hw, ht, e⟩ := h.vert k hk
  refine ⟨_, _, w, t, ?_, hw, ht, e⟩
  interval_cases k <;> simp only [corner] <;> exact ⟨⟨by linarith, by linarith⟩, by linarith, by linarith⟩

section cell
variable {id : CellID} {C : Cell ℝ} (hid : Valid id) (hC : Cell.fromCellID _root_.id id = some C) {eps : ℝ} (he : 0 ≤ eps)
include hid hC he

/-- `intersects_cell_vertices` sees a point of the cell in the cap that is nearer than all vertices. -/
theorem vertices_test {c : Cap ℝ} (hc : UnitV c.center) {V E : Nat → Vec ℝ} (hVE : CellEdges C V E) {p : Vec ℝ} (hp : InCell C p) (up : UnitV p)
    (h1 : ∀ k, k < 4 → dot (V k) c.center ≤ 1 - c.radius / 2 ∧ dot (V k) c.center < dot p c.center) (h2 : 1 - c.radius / 2 ≤ dot p c.center) :
    c.intersectsCellVertices _root_.id Real.sqrt eps C [V 0, V 1, V 2, V 3] = some true := by
  obtain ⟨hf, hx, hy⟩ := cell_parts hid hC
  have p1 := (dot_le_one up hc).2
  have hr0 : 0 ≤ c.radius := by linarith
  have hr : c.radius < 2 := by
    by_contra hr
    rw [not_lt] at hr
    have k1 := cell_dot hf hx hy hVE.vert hp up (x := smul (-1) c.center) (D := c.radius / 2 - 1) (by linarith) (by
      intro k hk
      have : dot (V k) (smul (-1) c.center) = -dot (V k) c.center := by simp only [dot, smul]; ring
      rw [this]; linarith [(h1 k hk).1])
    have e : dot p (smul (-1) c.center) = -dot p c.center := by simp only [dot, smul]; ring
    rw [e] at k1
    have eq : dot p c.center = 1 - c.radius / 2 := by linarith
    obtain ⟨a0, a1, a2, a3, q0, q1, q2, q3, key⟩ := cell_combo hf hx hy hVE.vert hp
    have m0 := h1 0 (by norm_num)
    have m1 := h1 1 (by norm_num)
    have m2 := h1 2 (by norm_num)
    have m3 := h1 3 (by norm_num)
    obtain ⟨D, d0, d1, d2, d3, d4⟩ : ∃ D, D < dot p c.center ∧ dot (V 0) c.center ≤ D ∧ dot (V 1) c.center ≤ D ∧ dot (V 2) c.center ≤ D ∧ dot (V 3) c.center ≤ D :=
      ⟨max (max (dot (V 0) c.center) (dot (V 1) c.center)) (max (dot (V 2) c.center) (dot (V 3) c.center)),
        max_lt (max_lt m0.2 m1.2) (max_lt m2.2 m3.2), by simp, by simp, by simp, by simp⟩
    have k2 := cell_dot hf hx hy hVE.vert hp up (x := smul (-1) c.center) (D := -D) (by linarith) (by
      intro k hk
      have : dot (V k) (smul (-1) c.center) = -dot (V k) c.center := by simp only [dot, smul]; ring
      rw [this]
      interval_cases k <;> linarith)
    rw [e] at k2
    linarith
  unfold Cap.intersectsCellVertices
  rw [if_neg, if_neg]
  · obtain ⟨b, e1, e2⟩ := c75_containsPoint he hid hC c.center
    rw [e1, Option.bind_eq_bind, Option.bind_some]
    by_cases hb : b = true
    · rw [if_pos hb]
    rw [if_neg hb]
    have hci : ¬ InCell C c.center := by
      intro h
      have := inCell_containsPoint hid hC he h
      rw [e1] at this
      exact hb (Option.some.inj this)
    have hk0 : 0 < 1 - c.radius / 2 := by linarith
    obtain ⟨q, hq, uq, hmax⟩ := cell_max hf hx hy c.center
    have hqp := hmax p hp up
    have hq0 : 0 < dot q c.center := by linarith
    obtain ⟨k, l, a, b', hk, hl, ha, hb', eq, ec⟩ := nearest_edge hf hx hy hVE hq uq hq0 (fun x hx' => cell_polar hf hq uq hmax hq0 hx')
      (fun k hk => (h1 k hk).2.trans_le hqp) hci
    obtain ⟨-, uE, ⟨r, hr', hcr⟩, hE⟩ := hVE.edge k hk
    refine loop_true hVE ?_ 4 0 rfl ⟨k, Nat.zero_le _, hk, ?_⟩
    · intro j hj hd
      rw [sin2_exact]
      exact plane_reach up hc (hVE.edge j hj).2.1 hk0.le h2 ((hVE.edge j hj).2.2.2 p hp) hd
    · unfold GoodEdge
      generalize V k = P at *
      generalize V ((k + 1) % 4) = Q at *
      generalize E k = N at *
      simp only [cross, smul, Vec.mk.injEq] at hcr
      obtain ⟨n1, n2, n3⟩ := hcr
      have uN : N.x * N.x + N.y * N.y + N.z * N.z = 1 := uE
      have NP : dot N P = 0 := by
        have : r * dot N P = 0 := by simp only [dot]; linear_combination (-P.x) * n1 - P.y * n2 - P.z * n3
        rcases mul_eq_zero.1 this with k | k
        · linarith
        · exact k
      have NQ : dot N Q = 0 := by
        have : r * dot N Q = 0 := by simp only [dot]; linear_combination (-Q.x) * n1 - Q.y * n2 - Q.z * n3
        rcases mul_eq_zero.1 this with k | k
        · linarith
        · exact k
      have cN : dot c.center N = l := by
        have : dot c.center N = dot q c.center * (a * dot N P + b' * dot N Q) + l * dot N N := by
          conv_lhs => rw [ec]
          rw [eq]
          simp only [dot, lin]; ring
        rw [this, NP, NQ, show dot N N = 1 from uE]; ring
      have cx : ∀ x, dot (cross N c.center) x = dot q c.center * dot (cross N q) x := by
        intro x
        have e1 := congrArg Vec.x ec
        have e2 := congrArg Vec.y ec
        have e3 := congrArg Vec.z ec
        generalize dot q c.center = m at *
        simp only [lin] at e1 e2 e3
        simp only [dot, cross]
        rw [e1, e2, e3]
        ring
      have t1 : dot (cross N q) P = -(b' * r) := by
        rw [eq]
        simp only [dot, cross, lin]
        linear_combination b' * (-N.x * n1 - N.y * n2 - N.z * n3) - b' * r * uN
      have t2 : dot (cross N q) Q = a * r := by
        rw [eq]
        simp only [dot, cross, lin]
        linear_combination a * (N.x * n1 + N.y * n2 + N.z * n3) + a * r * uN
      refine ⟨by rw [cN]; exact hl, ?_, ?_⟩
      · rw [cx, t1]
        have := mul_pos hq0 (mul_pos hb' hr')
        linarith
      · rw [cx, t2]
        positivity
  · rw [empty_iff]; linarith
  · simp only [ChordAngle.right, ge_iff_le, not_le]
    exact hr

/-- A result `true` of `intersects_cell_vertices` comes from a point. -/
theorem vertices_sound {c : Cap ℝ} (hc : UnitV c.center) {V E : Nat → Vec ℝ} (hVE : CellEdges C V E) :
    ∃ b, c.intersectsCellVertices _root_.id Real.sqrt eps C [V 0, V 1, V 2, V 3] = some b ∧
      (b = true → ∃ p, UnitV p ∧ InCap c p ∧ C.containsPoint _root_.id eps p = some true) := by
  obtain ⟨hf, hx, hy⟩ := cell_parts hid hC
  unfold Cap.intersectsCellVertices
  split_ifs with h1 h2
  · exact ⟨false, rfl, by simp⟩
  · exact ⟨false, rfl, by simp⟩
  rw [empty_iff, not_lt] at h2
  simp only [ChordAngle.right, ge_iff_le, not_le] at h1
  obtain ⟨b, e1, e2⟩ := c75_containsPoint he hid hC c.center
  rw [e1, Option.bind_eq_bind, Option.bind_some]
  by_cases hb : b = true
  · rw [if_pos hb]
    refine ⟨true, rfl, fun _ => ⟨c.center, hc, ?_, by rw [e1, hb]⟩⟩
    rw [inCap_dot hc hc, show dot c.center c.center = 1 from hc]
    linarith
  rw [if_neg hb]
  obtain ⟨b', l1, l2⟩ := loop_sound (cap := c) hVE (ChordAngle.sin2 _root_.id c.radius) 4 0 rfl
  refine ⟨b', l1, fun hb' => ?_⟩
  obtain ⟨k, hk, hs, g1, g2, g3⟩ := l2 hb'
  rw [sin2_exact] at hs
  obtain ⟨-, uE, ⟨r, hr', hcr⟩, hE⟩ := hVE.edge k hk
  have k0 : 0 < 1 - c.radius / 2 := by linarith
  have iP := hVE.mem hx hy hk
  have iQ := hVE.mem hx hy (k := (k + 1) % 4) (Nat.mod_lt _ (by norm_num))
  generalize V k = P at *
  generalize V ((k + 1) % 4) = Q at *
  generalize E k = N at *
  have uN : N.x * N.x + N.y * N.y + N.z * N.z = 1 := uE
  obtain ⟨d, hd⟩ : ∃ d, d = dot c.center N := ⟨_, rfl⟩
  rw [← hd] at hs g1
  -- the projection of the centre
  obtain ⟨α, hα⟩ : ∃ α, α = dot (cross N c.center) Q / r := ⟨_, rfl⟩
  obtain ⟨β, hβ⟩ : ∃ β, β = -dot (cross N c.center) P / r := ⟨_, rfl⟩
  have pα : 0 < α := by rw [hα]; positivity
  have pβ : 0 < β := by rw [hβ]; exact div_pos (by linarith) hr'
  have hm : InCell C (lin α P β Q) := by
    have := inCell_add hf (inCell_scale iP pα) iQ pβ
    have e : lin 1 (smul α P) β Q = lin α P β Q := by simp only [lin, smul, one_mul]
    rwa [e] at this
  have hproj : lin α P β Q = diff c.center (smul d N) := by
    have hα' : r * α = dot (cross N c.center) Q := by rw [hα]; field_simp
    have hβ' : r * β = -dot (cross N c.center) P := by rw [hβ]; field_simp
    simp only [cross, smul, Vec.mk.injEq] at hcr
    obtain ⟨n1, n2, n3⟩ := hcr
    have d1 : dot (cross P Q) N = r := by
      simp only [dot, cross]
      linear_combination N.x * n1 + N.y * n2 + N.z * n3 + r * uN
    have d2 : dot (cross P Q) c.center = r * d := by
      rw [hd]
      simp only [dot, cross]
      linear_combination c.center.x * n1 + c.center.y * n2 + c.center.z * n3
    simp only [dot, cross] at d1 d2 hα' hβ'
    have r0 := hr'.ne'
    refine vec_ext' ?_ ?_ ?_ <;> apply mul_left_cancel₀ r0 <;> simp only [lin, diff, smul]
    · linear_combination P.x * hα' + Q.x * hβ' - N.x * d2 + c.center.x * d1
    · linear_combination P.y * hα' + Q.y * hβ' - N.y * d2 + c.center.y * d1
    · linear_combination P.z * hα' + Q.z * hβ' - N.z * d2 + c.center.z * d1
  have n2 : dot (lin α P β Q) (lin α P β Q) = 1 - d ^ 2 := by
    rw [hproj]
    have : dot (diff c.center (smul d N)) (diff c.center (smul d N)) = dot c.center c.center - 2 * d * dot c.center N + d ^ 2 * dot N N := by simp only [dot, diff, smul]; ring
    rw [this, show dot N N = 1 from uE, show dot c.center c.center = 1 from hc, ← hd]; ring
  have nc : dot (lin α P β Q) c.center = 1 - d ^ 2 := by
    rw [hproj]
    have : dot (diff c.center (smul d N)) c.center = dot c.center c.center - d * dot c.center N := by simp only [dot, diff, smul]; ring
    rw [this, show dot c.center c.center = 1 from hc, ← hd]; ring
  have pos : 0 < 1 - d ^ 2 := by nlinarith
  obtain ⟨s, hs0⟩ : ∃ s, s = Real.sqrt (1 - d ^ 2) := ⟨_, rfl⟩
  have s0 : 0 < s := by rw [hs0]; exact Real.sqrt_pos.2 pos
  have s2 : s * s = 1 - d ^ 2 := by rw [hs0]; exact Real.mul_self_sqrt pos.le
  have hi := inCell_scale hm (inv_pos.2 s0)
  refine ⟨smul s⁻¹ (lin α P β Q), ?_, ?_, inCell_containsPoint hid hC he hi⟩
  · show dot (smul s⁻¹ (lin α P β Q)) (smul s⁻¹ (lin α P β Q)) = 1
    have : dot (smul s⁻¹ (lin α P β Q)) (smul s⁻¹ (lin α P β Q)) = s⁻¹ * s⁻¹ * dot (lin α P β Q) (lin α P β Q) := by simp only [dot, smul]; ring
    rw [this, n2, ← s2]; field_simp
  · have u : UnitV (smul s⁻¹ (lin α P β Q)) := by
      show dot (smul s⁻¹ (lin α P β Q)) (smul s⁻¹ (lin α P β Q)) = 1
      have : dot (smul s⁻¹ (lin α P β Q)) (smul s⁻¹ (lin α P β Q)) = s⁻¹ * s⁻¹ * dot (lin α P β Q) (lin α P β Q) := by simp only [dot, smul]; ring
      rw [this, n2, ← s2]; field_simp
    rw [inCap_dot hc u]
    have : dot (smul s⁻¹ (lin α P β Q)) c.center = s⁻¹ * dot (lin α P β Q) c.center := by simp only [dot, smul]; ring
    rw [this, nc, ← s2, ← mul_assoc, inv_mul_cancel₀ s0.ne', one_mul]
    nlinarith

/-- **C97.** `intersects_cell` is `true` when a point of the cell is in the cap. -/
theorem c97_intersects_complete {c : Cap ℝ} (hc : UnitV c.center) {p : Vec ℝ} (up : UnitV p) (hp : InCell C p) (hcap : InCap c p) :
    c.intersectsCell _root_.id Real.sqrt eps C = some true := by
  obtain ⟨V, E, hVE, hv⟩ := cellEdges_exist hid hC
  unfold Cap.intersectsCell
  rw [hv, Option.bind_eq_bind, Option.bind_some]
  split_ifs with h1
  · rfl
  · have h2 : ∀ k, k < 4 → dot (V k) c.center < 1 - c.radius / 2 := by
      intro k hk
      by_contra h
      apply h1
      rw [List.any_eq_true]
      refine ⟨V k, vertex_mem V hk, ?_⟩
      rw [(c64_containsPoint hc (hVE.vert k hk).1).1, inCap_dot hc (hVE.vert k hk).1]
      exact not_lt.1 h
    rw [inCap_dot hc up] at hcap
    exact vertices_test hid hC he hc hVE hp up (fun k hk => ⟨(h2 k hk).le, (h2 k hk).trans_le hcap⟩) hcap

/-- **C97.** `intersects_cell` always answers, and `true` is backed by a point of the cap that `Cell::contains_point` accepts. -/
theorem c97_intersects_sound {c : Cap ℝ} (hc : UnitV c.center) :
    ∃ b, c.intersectsCell _root_.id Real.sqrt eps C = some b ∧
      (b = true → ∃ p, UnitV p ∧ InCap c p ∧ C.containsPoint _root_.id eps p = some true) := by
  obtain ⟨V, E, hVE, hv⟩ := cellEdges_exist hid hC
  obtain ⟨hf, hx, hy⟩ := cell_parts hid hC
  unfold Cap.intersectsCell
  rw [hv, Option.bind_eq_bind, Option.bind_some]
  split_ifs with h1
  · refine ⟨true, rfl, fun _ => ?_⟩
    obtain ⟨k, hk, hP⟩ := exists_of_any h1
    exact ⟨V k, (hVE.vert k hk).1, (c64_containsPoint hc (hVE.vert k hk).1).1.1 hP, inCell_containsPoint hid hC he (hVE.mem hx hy hk)⟩
  · exact vertices_sound hid hC he hc hVE

/-- **C97.** `contains_cell` always answers; `true` means that all points of the cell are in the cap, and `false` that a point which
`Cell::contains_point` accepts is not inside the cap. -/
theorem c97_contains {c : Cap ℝ} (hc : UnitV c.center) (h4 : c.radius ≤ 4) :
    ∃ b, c.containsCell _root_.id Real.sqrt eps C = some b ∧
      (b = true → ∀ p, UnitV p → InCell C p → InCap c p) ∧
      (b = false → ∃ p, UnitV p ∧ ¬ InsideCap c p ∧ C.containsPoint _root_.id eps p = some true) := by
  obtain ⟨V, E, hVE, hv⟩ := cellEdges_exist hid hC
  obtain ⟨hf, hx, hy⟩ := cell_parts hid hC
  obtain ⟨hk1, hk2, hk3⟩ := c64_complement hc h4
  unfold Cap.containsCell
  rw [hv, Option.bind_eq_bind, Option.bind_some]
  split_ifs with h1
  · obtain ⟨b, e1, e2⟩ := vertices_sound hid hC he hk1 hVE
    rw [e1, Option.bind_eq_bind, Option.bind_some]
    refine ⟨!b, rfl, ?_, ?_⟩
    · intro hb p up hp
      have hb' : b = false := by simpa using hb
      by_contra hn
      have hV : ∀ k, k < 4 → InCap c (V k) := fun k hk =>
        (c64_containsPoint hc (hVE.vert k hk).1).1.1 (List.all_eq_true.1 h1 _ (vertex_mem V hk))
      have hr0 : 0 ≤ c.radius := (dot_self_nonneg _).trans (hV 0 (by norm_num))
      have hr4 : c.radius ≠ 4 := fun h => hn (inCap_full hc h up)
      have ecen : (c.complement _root_.id Real.sqrt).center = c.center.scale _root_.id (-1) ∧ (c.complement _root_.id Real.sqrt).radius = 4 - c.radius := by
        unfold Cap.complement
        rw [if_neg (by rw [full_iff]; exact hr4), if_neg (by rw [empty_iff]; linarith)]
        refine ⟨rfl, ?_⟩
        obtain ⟨σ, c0, c1, c2⟩ := exists_rho hr0 h4
        show ChordAngle.sub _root_.id Real.sqrt ChordAngle.straight c.radius = _
        unfold ChordAngle.straight
        rw [← c2, ← chordOf_pi, c63_sub_exact Real.pi_pos.le le_rfl c0 c1, max_eq_left (by linarith)]
        unfold chordOf
        rw [sub_div, Real.sin_pi_div_two_sub]
        simp only [Real.sin_pi_div_two]
        linear_combination 4 * Real.sin_sq_add_cos_sq (σ / 2)
      have dn : ∀ x, dot x (c.complement _root_.id Real.sqrt).center = -dot x c.center := by
        intro x
        rw [ecen.1]
        simp only [dot, Vec.scale, _root_.id]; ring
      have := vertices_test hid hC he hk1 hVE hp up (by
        intro k hk
        rw [dn, dn, ecen.2]
        have h := (inCap_dot hc (hVE.vert k hk).1).1 (hV k hk)
        rw [inCap_dot hc up] at hn
        constructor <;> linarith) (by
        rw [dn, ecen.2]
        rw [inCap_dot hc up] at hn
        linarith)
      rw [e1, hb'] at this
      simp at this
    · intro hb
      have hb' : b = true := by simpa using hb
      obtain ⟨p, up, hp, hcp⟩ := e2 hb'
      exact ⟨p, up, (hk3 p up).1 hp, hcp⟩
  · refine ⟨false, rfl, by simp, fun _ => ?_⟩
    rw [Bool.not_eq_true, List.all_eq_false] at h1
    obtain ⟨x, hx', hP⟩ := h1
    obtain ⟨k, hk, rfl⟩ : ∃ k, k < 4 ∧ x = V k := by
      simp only [List.mem_cons, List.not_mem_nil, or_false] at hx'
      rcases hx' with rfl | rfl | rfl | rfl
      · exact ⟨0, by norm_num, rfl⟩
      · exact ⟨1, by norm_num, rfl⟩
      · exact ⟨2, by norm_num, rfl⟩
      · exact ⟨3, by norm_num, rfl⟩
    have uV := (hVE.vert k hk).1
    refine ⟨V k, uV, ?_, inCell_containsPoint hid hC he (hVE.mem hx hy hk)⟩
    rw [(c64_containsPoint hc uV).1] at hP
    rintro (h | h)
    · exact hP (inCap_full hc h uV)
    · exact hP h.le

end cell

-- a cell of level 10: the cap of radius zero at its vertex 2 intersects it, and the full cap around it contains it
example : ∃ C V, Cell.fromCellID (_root_.id : ℝ → ℝ) ⟨0x6060730000000000#64⟩ = some C ∧ C.vertex _root_.id Real.sqrt 2 = some V ∧
    (⟨V, 0⟩ : Cap ℝ).intersectsCell _root_.id Real.sqrt (1 / 2 ^ 53) C = some true ∧
    (⟨V, 4⟩ : Cap ℝ).containsCell _root_.id Real.sqrt (1 / 2 ^ 53) C = some true := by
  have h := (c68_from (_root_.id : ℝ → ℝ) exCell.1 exCell.2.1 exCell.1.square exCell.1.faceIJ).1
  obtain ⟨V, h1, h2, h3⟩ := vertex_inCell exCell.1 h (k := 2) (by norm_num)
  refine ⟨_, V, h, h1, ?_, ?_⟩
  · refine c97_intersects_complete exCell.1 h (by positivity) (c := ⟨V, 0⟩) h3 h3 h2 ?_
    rw [inCap_dot h3 h3]
    show 1 - 0 / 2 ≤ dot V V
    rw [show dot V V = 1 from h3]; norm_num
  · obtain ⟨b, e1, -, e2⟩ := c97_contains exCell.1 h (eps := 1 / 2 ^ 53) (by positivity) (c := ⟨V, 4⟩) h3 le_rfl
    rw [e1]
    cases b
    · obtain ⟨p, -, hp, -⟩ := e2 rfl
      exact absurd (Or.inl rfl) hp
    · rfl

end Verif
