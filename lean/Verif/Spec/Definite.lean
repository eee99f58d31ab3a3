import Verif.Spec.Arrowhead
import Mathlib.Algebra.Order.Field.Basic
import Mathlib.Algebra.Order.BigOperators.Group.Finset
import Mathlib.Data.Finset.Sigma

/-! # Specification vocabulary: definite and quasidefinite matrices, leading principal submatrices -/

namespace Ctldl

open Finset

section

variable {ι K : Type}

/-- The symmetric matrix `A - μ I` over the indices `s` is positive definite. -/
def PosDef [Field K] [LinearOrder K] (s : Finset ι) (μ : K) (A : ι → ι → K) : Prop :=
  ∀ x : ι → K, (∃ i ∈ s, x i ≠ 0) → μ * ∑ i ∈ s, x i ^ 2 < ∑ i ∈ s, ∑ j ∈ s, x i * A i j * x j

/-- The symmetric matrix `A` over the indices `s` is quasidefinite, with margin `μ`: the diagonal block of the indices
`S`, minus `μ I`, is positive definite, and the diagonal block of the other ones, plus `μ I`, is negative definite.
Nothing is required of the blocks which couple both. -/
def QuasiDef [Field K] [LinearOrder K] (s : Finset ι) (S : ι → Prop) (μ : K) (A : ι → ι → K) : Prop :=
  (∀ x : ι → K, (∃ i ∈ s, x i ≠ 0) → (∀ i ∈ s, ¬ S i → x i = 0) →
    μ * ∑ i ∈ s, x i ^ 2 < ∑ i ∈ s, ∑ j ∈ s, x i * A i j * x j) ∧
  ∀ x : ι → K, (∃ i ∈ s, x i ≠ 0) → (∀ i ∈ s, S i → x i = 0) →
    ∑ i ∈ s, ∑ j ∈ s, x i * A i j * x j < -(μ * ∑ i ∈ s, x i ^ 2)

/-- The leading principal submatrix of `A` up to the index `k` is regular, for an order of the indices: only the zero
vector has zeros after `k` and a product with zeros up to `k`. -/
def LeadingNonsingular [Field K] (s : Finset ι) (before : ι → ι → Prop) (A : ι → ι → K) (k : ι) : Prop :=
  ∀ x : ι → K, (∀ j ∈ s, before k j → x j = 0) → (∀ i ∈ s, ¬ before k i → ∑ j ∈ s, A i j * x j = 0) →
    ∀ i ∈ s, x i = 0

end

/-- The rows of an assembled repeating block matrix: block and row of the block. -/
def positions (d : Dims) (numRepetitions : Nat) : Finset (Σ _ : Blk, Nat) :=
  (blocks numRepetitions).sigma fun a => range (d.of a)

end Ctldl
