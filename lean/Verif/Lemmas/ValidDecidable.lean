import Verif.Spec.Arrowhead

/-! # Validity of concrete structures can be checked -/

namespace Ctldl

instance (s : Sparsity) (r c : Nat) : Decidable (s.OfDims r c) := by
  unfold Sparsity.OfDims Sparsity.InRange
  infer_instance

instance (p : List Nat) (n : Nat) : Decidable (IsPerm p n) := by
  unfold IsPerm
  infer_instance

instance (s : ArrowheadSparsity) (d : Dims) : Decidable (s.Valid d) :=
  decidable_of_iff
    (s.start.diag.OfDims d.start d.start ∧ s.start.next.OfDims d.tridiag d.start ∧
      s.start.outer.OfDims d.outer d.start ∧ s.tridiag.diag.OfDims d.tridiag d.tridiag ∧
      s.tridiag.subdiag.OfDims d.tridiag d.tridiag ∧ s.link.prev.OfDims d.link d.tridiag ∧
      s.link.diag.OfDims d.link d.link ∧ s.link.next.OfDims d.outer d.link ∧
      s.outer.subdiag.OfDims d.outer d.tridiag ∧ s.outer.diag.OfDims d.outer d.outer ∧
      IsPerm s.start.permutation d.start ∧ IsPerm s.tridiag.permutation d.tridiag ∧
      IsPerm s.link.permutation d.link ∧ IsPerm s.outer.permutation d.outer ∧
      d.start + d.tridiag + d.outer ≤ noParent ∧ 2 * d.tridiag ≤ noParent ∧ d.tridiag + d.link + d.outer ≤ noParent)
    ⟨fun ⟨h1, h2, h3, h4, h5, h6, h7, h8, h9, h10, h11, h12, h13, h14, h15, h16, h17⟩ =>
      ⟨h1, h2, h3, h4, h5, h6, h7, h8, h9, h10, h11, h12, h13, h14, h15, h16, h17⟩,
    fun ⟨h1, h2, h3, h4, h5, h6, h7, h8, h9, h10, h11, h12, h13, h14, h15, h16, h17⟩ =>
      ⟨h1, h2, h3, h4, h5, h6, h7, h8, h9, h10, h11, h12, h13, h14, h15, h16, h17⟩⟩

end Ctldl
