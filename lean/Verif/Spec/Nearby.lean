import Mathlib.Algebra.Order.Field.Basic
import Mathlib.Algebra.BigOperators.Group.Finset.Basic

/-! # Systems of equations close to a given one

Specification for C82. -/

namespace Ctldl

open Finset

variable {ι F : Type} [Field F] [LinearOrder F]

/-- The vector `x` is a solution of the system with matrix `A` and right hand side `b` over the indices `s`. -/
def Solves (s : Finset ι) (A : ι → ι → F) (b x : ι → F) : Prop := ∀ i ∈ s, ∑ j ∈ s, A i j * x j = b i

/-- The vector `x` is exactly a solution of a system, each entry of the matrix of which differs from that of `A` by at most
`Δ`, and each element of the right hand side of which differs from that of `b` by at most `δ`. -/
def SolvesNearby (s : Finset ι) (A : ι → ι → F) (b x : ι → F) (Δ : ι → ι → F) (δ : ι → F) : Prop :=
  ∃ (A' : ι → ι → F) (b' : ι → F), (∀ i ∈ s, ∀ j ∈ s, |A' i j - A i j| ≤ Δ i j) ∧ (∀ i ∈ s, |b' i - b i| ≤ δ i) ∧
    Solves s A' b' x

end Ctldl
