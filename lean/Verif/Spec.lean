/-!
# Specification of cells, independent of the model

A cell of level `k ≤ 30` is the `p`-th cell of its level along the curve, `p < 6·4^k`. Level-30
cells are the leaves, numbered `q < 6·4^30`. The cell `(k, p)` consists of the leaves `q` with
`q / 4^(30-k) = p`. Its 64-bit identifier is `(2p+1)·4^(30-k)`.
-/

namespace Verif.Spec

/-- `(k, p)` names a cell. -/
def IsCell (k p : Nat) : Prop := k ≤ 30 ∧ p < 6 * 4 ^ k

/-- The 64-bit number of the cell `(k, p)`. -/
def cellNum (k p : Nat) : Nat := (2 * p + 1) * 4 ^ (30 - k)

/-- Leaf `q` lies in the cell `(k, p)`. -/
def LeafIn (q k p : Nat) : Prop := q / 4 ^ (30 - k) = p

/-- A leaf index. -/
def IsLeafIx (q : Nat) : Prop := q < 6 * 4 ^ 30

/-- `n` is the 64-bit number of a cell that contains leaf `q`. -/
def HasLeaf (n q : Nat) : Prop := ∃ k p, IsCell k p ∧ n = cellNum k p ∧ LeafIn q k p

/-- `n`-fold iteration of a step that may fail. -/
def iter {α : Type} (f : α → Option α) : Nat → α → Option α
  | 0, a => some a
  | n + 1, a => (f a).bind (iter f n)

instance (k p : Nat) : Decidable (IsCell k p) := inferInstanceAs (Decidable (_ ∧ _))
instance (q k p : Nat) : Decidable (LeafIn q k p) := inferInstanceAs (Decidable (_ = _))

end Verif.Spec
