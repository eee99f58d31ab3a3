import Verif.Spec.Assembled

/-! # Specification vocabulary: assembled matrices with fewer entries than the factor of the repeating block matrix -/

namespace Ctldl

/-- The matrix which is assembled is declared as one matrix with the same order of elimination, and only couples unknowns
which are coupled in the repeating block matrix. -/
structure CoupledAsIn (S : Sparsity) (P : List Nat) (s : ArrowheadSparsity) (T : ArrowheadTypes) (d : Dims) (N : Nat) : Prop where
  size : S.numRows = d.total N
  order : ∀ k ∈ positions d N, permAt P (d.place N k) = d.place N ⟨k.1, permAt (s.perm k.1) k.2⟩
  coupled : ∀ k ∈ positions d N, ∀ l ∈ positions d N, LowerPermuted S P (d.place N k) (d.place N l) →
    T.Has N k.1 k.2 l.1 l.2

end Ctldl
