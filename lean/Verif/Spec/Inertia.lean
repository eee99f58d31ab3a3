import Mathlib.LinearAlgebra.Matrix.Determinant.Basic
import Mathlib.LinearAlgebra.Dimension.Finrank
import Mathlib.Algebra.Order.Field.Basic
import Mathlib.Data.Finset.Sigma

/-! # Specification vocabulary: determinant and inertia of a symmetric matrix -/

namespace Ctldl

variable {ι K : Type}

/-- The determinant of the matrix `A` over the indices `s`. -/
def detOn [CommRing K] [DecidableEq ι] (s : Finset ι) (A : ι → ι → K) : K :=
  Matrix.det (Matrix.of fun i j : s => A i j)

/-- The value `xᵀ A x` of the quadratic form of the matrix `A` over the indices `s`. -/
def quadratic [CommRing K] (s : Finset ι) (A : ι → ι → K) (x : s → K) : K := ∑ i : s, ∑ j : s, x i * A i j * x j

/-- The largest dimension of a space of vectors on which the quadratic form of `A` is negative (except at zero). -/
def NegativeIndex [Field K] [LinearOrder K] (s : Finset ι) (A : ι → ι → K) (k : Nat) : Prop :=
  IsGreatest {n | ∃ V : Submodule K (s → K), (∀ x ∈ V, x ≠ 0 → quadratic s A x < 0) ∧ Module.finrank K V = n} k

/-- The largest dimension of a space of vectors on which the quadratic form of `A` is positive (except at zero). -/
def PositiveIndex [Field K] [LinearOrder K] (s : Finset ι) (A : ι → ι → K) (k : Nat) : Prop :=
  IsGreatest {n | ∃ V : Submodule K (s → K), (∀ x ∈ V, x ≠ 0 → 0 < quadratic s A x) ∧ Module.finrank K V = n} k

end Ctldl
