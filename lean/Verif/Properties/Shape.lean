import Verif.Model.Shape
import Verif.Properties.R2

/-!
# Edges and shapes: C84
-/

namespace Verif
open Shape

theorem cmpInt_iff (a b : Int) : (cmpInt a b = .lt ↔ a < b) ∧ (cmpInt a b = .eq ↔ a = b) ∧ (cmpInt a b = .gt ↔ b < a) := by
  unfold cmpInt
  refine ⟨?_, ?_, ?_⟩ <;> split_ifs <;> simp <;> omega

/-- **C84.** Shape edge identifiers are ordered by shape, then by edge. -/
theorem c84_shapeEdgeID (a b : ShapeEdgeID) :
    (a.cmp b = .lt ↔ a.shapeId < b.shapeId ∨ a.shapeId = b.shapeId ∧ a.edgeId < b.edgeId) ∧
    (a.cmp b = .eq ↔ a = b) ∧ (a.cmp b = .gt ↔ b.cmp a = .lt) := by
  have lt : ∀ a b : ShapeEdgeID, a.cmp b = .lt ↔ a.shapeId < b.shapeId ∨ a.shapeId = b.shapeId ∧ a.edgeId < b.edgeId := by
    intro a b
    unfold ShapeEdgeID.cmp
    obtain ⟨h1, h2, h3⟩ := cmpInt_iff a.shapeId b.shapeId
    obtain ⟨k1, k2, k3⟩ := cmpInt_iff a.edgeId b.edgeId
    rcases h : cmpInt a.shapeId b.shapeId with _ | _ | _ <;> rw [h] at h1 h2 h3 <;> grind
  refine ⟨lt a b, ?_, ?_⟩
  · obtain ⟨x, y⟩ := a
    obtain ⟨z, w⟩ := b
    unfold ShapeEdgeID.cmp
    obtain ⟨h1, h2, h3⟩ := cmpInt_iff x z
    obtain ⟨k1, k2, k3⟩ := cmpInt_iff y w
    rcases h : cmpInt x z with _ | _ | _ <;> rw [h] at h1 h2 h3 <;> grind
  · rw [lt]
    unfold ShapeEdgeID.cmp
    obtain ⟨h1, h2, h3⟩ := cmpInt_iff a.shapeId b.shapeId
    obtain ⟨k1, k2, k3⟩ := cmpInt_iff a.edgeId b.edgeId
    rcases h : cmpInt a.shapeId b.shapeId with _ | _ | _ <;> rw [h] at h1 h2 h3 <;> grind

/-- **C84.** No shape is both empty and full; a shape with edges is neither; one without edges is one of them if the numbers are not negative. -/
theorem c84_emptyFull (e c d : Int) :
    ¬ (isEmpty e c d = true ∧ isFull e c d = true) ∧ (e ≠ 0 → isEmpty e c d = false ∧ isFull e c d = false) ∧
    (e = 0 → 0 ≤ c → isEmpty e c d = true ∨ isFull e c d = true) := by
  unfold isEmpty isFull
  simp only [Bool.and_eq_true, Bool.or_eq_true, decide_eq_true_eq, Bool.and_eq_false_iff, decide_eq_false_iff_not]
  refine ⟨?_, ?_, ?_⟩ <;> omega

example : isFull 0 1 2 = true ∧ isEmpty 0 0 2 = true := by decide

/-- **C84.** The order of edges is wrong. An edge equals itself only if its ends are the same; of two edges with the same first end each is less
than the other when both second ends are greater; and an edge that ends where it begins equals every edge with that first end, from one side. -/
theorem c84_edge_defect {K : Type} [LinearOrder K] (e f : Edge K) :
    (e.eq e = true ↔ e.v0 = e.v1) ∧
    (e.v0 = f.v0 → e.v0.cmp e.v1 = .lt → f.v0.cmp f.v1 = .lt → e.cmp f = .lt ∧ f.cmp e = .lt) ∧
    (e.v0 = f.v0 → f.v0 = f.v1 → e.eq f = true) := by
  have self : ∀ p : R2.Point K, p.cmp p = .eq := fun p => (R2.c66_cmp p p).2.2.1.2 rfl
  unfold Edge.eq Edge.cmp
  refine ⟨?_, ?_, ?_⟩
  · rw [decide_eq_true_eq]
    simp only [self, ne_eq, not_true_eq_false, if_false]
    exact (R2.c66_cmp _ _).2.2.1
  · intro h h1 h2
    simp only [h] at h1 ⊢
    simp only [self, ne_eq, not_true_eq_false, if_false]
    exact ⟨h2, h1⟩
  · intro h h1
    rw [decide_eq_true_eq]
    simp only [h, ← h1]
    simp only [self, ne_eq, not_true_eq_false, if_false]

/-- Two edges from the origin, each less than the other, neither equal to itself. -/
example : (⟨⟨0, 0⟩, ⟨1, 0⟩⟩ : Edge ℚ).cmp ⟨⟨0, 0⟩, ⟨0, 1⟩⟩ = .lt ∧ (⟨⟨0, 0⟩, ⟨0, 1⟩⟩ : Edge ℚ).cmp ⟨⟨0, 0⟩, ⟨1, 0⟩⟩ = .lt ∧
    (⟨⟨0, 0⟩, ⟨1, 0⟩⟩ : Edge ℚ).eq ⟨⟨0, 0⟩, ⟨1, 0⟩⟩ = false := by decide +kernel

end Verif
