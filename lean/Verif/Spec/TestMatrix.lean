import Verif.Spec.Tridiagonal
import Verif.Model.TestMatrix
import Mathlib.Algebra.BigOperators.Group.Finset.Basic

/-! # Specification vocabulary: the random numbers of the tests -/

namespace Ctldl

/-- The multiplier of the linear congruential generator. -/
def multiplier : Nat := 6364136223846793005

/-- State of the linear congruential generator with the given seed after `k` numbers; the `k`-th number itself. -/
def generatorState (seed k : Nat) : Nat :=
  if k = 0 then seed
  else (multiplier ^ k * seed + ∑ i ∈ Finset.range k, multiplier ^ i) % 2 ^ 64

/-- The `k`-th number is in the lower half of the range. -/
def Lower (seed k : Nat) : Prop := generatorState seed k < 2 ^ 63

instance (seed k : Nat) : Decidable (Lower seed k) := by unfold Lower; infer_instance

/-- The patterns and permutations as template argument of the class. -/
def RandomArrowhead.sparsity (r : RandomArrowhead) : ArrowheadSparsity :=
  ⟨⟨r.startDiag, r.startNext, r.startOuter, r.permutationStart⟩, ⟨r.tridiagDiag, r.tridiagSubdiag, r.permutationTridiag⟩,
    ⟨r.linkPrev, r.linkDiag, r.linkNext, r.permutationLink⟩, ⟨r.outerSubdiag, r.outerDiag, r.permutationOuter⟩⟩

/-- A lower triangle with a full diagonal, without repeated entries. -/
def Sparsity.LowerFull (s : Sparsity) (n : Nat) : Prop :=
  s.OfDims n n ∧ s.entries.Nodup ∧ (∀ e ∈ s.entries, e.col ≤ e.row) ∧ ∀ i < n, s.Has i i

/-- The matrix of the second differences of the numbers at equidistant points, with two on the diagonal. -/
def laplace {K : Type} [Ring K] (g h : Nat) : K := if g = h then 2 else if g = h + 1 ∨ h = g + 1 then -1 else 0

end Ctldl
