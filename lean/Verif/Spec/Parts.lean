import Verif.Spec.Arrowhead

/-! # Specification vocabulary: parts of a system of equations which are not coupled with the rest -/

namespace Ctldl

/-- Two unknowns are coupled by an entry of the lower triangle of the pattern of a symmetric matrix. -/
def Sparsity.Coupled (s : Sparsity) (i j : Nat) : Prop := s.Has (max i j) (min i j)

/-- The unknowns `S` of one matrix are not coupled with other unknowns of it. Another matrix has the same coupled unknowns
under the numbers `e`; they are not coupled with others there either, and eliminated in the same order. -/
structure SamePart (s : Sparsity) (p : List Nat) (s' : Sparsity) (p' : List Nat) (S : Nat → Prop) (e : Nat → Nat) : Prop where
  inside : ∀ i, S i → i < s.numRows ∧ e i < s'.numRows
  coupled : ∀ i j, S i → S j → i ≠ j → (s'.Coupled (e i) (e j) ↔ s.Coupled i j)
  separate : ∀ i j, S i → j < s.numRows → s.Coupled i j → S j
  separate' : ∀ i k, S i → k < s'.numRows → s'.Coupled (e i) k → ∃ j, S j ∧ e j = k
  order : ∀ i j, S i → S j → p.idxOf i < p.idxOf j → p'.idxOf (e i) < p'.idxOf (e j)

/-- The first `r` rows in the order of elimination have the same coupled unknowns in both matrices. -/
def SameLeading (s : Sparsity) (p : List Nat) (s' : Sparsity) (p' : List Nat) (r : Nat) : Prop :=
  r ≤ s.numRows ∧ r ≤ s'.numRows ∧
    ∀ i < r, ∀ j < i, s.Coupled (permAt p i) (permAt p j) ↔ s'.Coupled (permAt p' i) (permAt p' j)

/-- The block is the first one or one of the first `M + 1` repeated ones. -/
def Blk.EarlyIn (M : Nat) : Blk → Prop
  | .start => True
  | .tridiag t => t ≤ M
  | .link => False
  | .outer => False

end Ctldl
