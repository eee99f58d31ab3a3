import Verif.Model.Sparsity

/-! # Specification vocabulary: sparsity patterns -/

namespace Ctldl

/-- All entries lie within the dimensions. -/
def Sparsity.InRange (s : Sparsity) : Prop := ∀ e ∈ s.entries, e.row < s.numRows ∧ e.col < s.numCols

/-- `(i, j)` belongs to the pattern. -/
def Sparsity.Has (s : Sparsity) (i j : Nat) : Prop := (⟨i, j⟩ : Entry) ∈ s.entries

instance (s : Sparsity) (i j : Nat) : Decidable (s.Has i j) := by unfold Sparsity.Has; infer_instance

/-- Strict row-major order: by row, then by column. -/
def rowMajorLt (a b : Entry) : Prop := a.row < b.row ∨ a.row = b.row ∧ a.col < b.col

instance (a b : Entry) : Decidable (rowMajorLt a b) := by unfold rowMajorLt; infer_instance

/-- The entries are in strictly increasing row-major order (in particular without duplicates). -/
def Sparsity.Sorted (s : Sparsity) : Prop := s.entries.Pairwise rowMajorLt

/-- What a contribution to `(i, j)` below the limit is: an entry of row `i` of `below` and an entry of row `j`
of `sparsity` in the same column. -/
def IsContribution (sparsity below : Csr) (i j limit : Nat) (c : Contribution) : Prop :=
  c.k < limit ∧ below.entries[c.ik]? = some ⟨i, c.k⟩ ∧ sparsity.entries[c.jk]? = some ⟨j, c.k⟩

/-- Element `(i, j)` of a sparse matrix: the value of the first stored entry at that position, zero if there is
none. -/
def MatIn.elem {K : Type _} [Zero K] (m : MatIn K) (i j : Nat) : K :=
  if m.sparsity.Has i j then m.values.getD (m.sparsity.entries.idxOf ⟨i, j⟩) 0 else 0

/-- A matrix provides one value for each entry of its pattern. -/
def MatIn.Sized {K : Type _} (m : MatIn K) : Prop := m.values.length = m.sparsity.entries.length

end Ctldl
