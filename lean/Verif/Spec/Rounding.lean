import Verif.Spec.Arrowhead
import Verif.Model.Mixed
import Mathlib.Algebra.Order.Field.Basic
import Mathlib.Algebra.Order.Group.Abs

/-! # Specification vocabulary: arithmetic with rounding

The standard model of floating point arithmetic: `K` is the number type of the program, of which some values are
finite and stand for an element of the ordered field `F`. Results which are finite are those of the exact operation up
to a relative error of at most `u` and, for products and quotients, an absolute error of at most `η` (underflow).
Results which are not finite are never turned into finite ones, except by dividing by them.

A compiler may contract `a - b * c` into a fused multiply-add, which does not round the product. Therefore products can be
numbers which are not rounded (not `stored`) until they are multiplied, and then the difference has the underflow error
instead of the product. -/

namespace Ctldl

open Finset

/-- Arithmetic with rounding. -/
structure Rounding (K F : Type) [Zero K] [Sub K] [Mul K] [Div K] [Field F] [LinearOrder F] [IsStrictOrderedRing F]
    where
  /-- The number is finite. -/
  fin : K → Prop
  /-- The number for which a finite value of the number type stands. -/
  v : K → F
  /-- Unit roundoff. -/
  u : F
  /-- Bound of the error of quotients, and of products and their subtraction together, in case of underflow. -/
  η : F
  /-- Bound of the error of products in case of underflow. -/
  μ : F
  /-- Bound of the error of differences in case of underflow. -/
  σ : F
  /-- The number can be kept in memory: it is not the intermediate product of a fused multiply-add. -/
  stored : K → Prop
  u_nonneg : 0 ≤ u
  u_lt_one : u < 1
  η_nonneg : 0 ≤ η
  σ_nonneg : 0 ≤ σ
  μ_add_σ : μ + σ ≤ η
  fin_zero : fin 0
  v_zero : v 0 = 0
  stored_div : ∀ a b : K, stored (a / b)
  sub : ∀ {a b : K}, fin (a - b) →
    fin a ∧ fin b ∧ ∃ δ e, |δ| ≤ u ∧ |e| ≤ σ ∧ v (a - b) = (v a - v b) * (1 + δ) + e
  fin_mul : ∀ {a b : K}, fin (a * b) → fin a ∧ fin b
  mul : ∀ {a b : K}, stored a → fin (a * b) → ∃ δ e, |δ| ≤ u ∧ |e| ≤ μ ∧ v (a * b) = v a * v b * (1 + δ) + e
  mul_mul : ∀ {a b c : K}, stored a → fin (a * b * c) → ∃ δ e δ' e', |δ| ≤ u ∧ |e| ≤ μ ∧ |δ'| ≤ u ∧ |e'| ≤ η ∧
    v (a * b * c) = (v a * v b * (1 + δ') + e') * v c * (1 + δ) + e
  div : ∀ {a b : K}, fin b → fin (a / b) →
    fin a ∧ stored a ∧ v b ≠ 0 ∧ ∃ δ e, |δ| ≤ u ∧ |e| ≤ η ∧ v (a / b) = v a / v b * (1 + δ) + e

variable {K F : Type}

section

variable [Zero K] [Sub K] [Mul K] [Div K] [Field F] [LinearOrder F] [IsStrictOrderedRing F]

/-- Bound of the factor by which `n` rounding errors can change a number. -/
def Rounding.growth (R : Rounding K F) (n : Nat) : F := 1 / (1 - R.u) ^ n

/-- Bound of the relative error due to `n` rounding errors. -/
def Rounding.gamma (R : Rounding K F) (n : Nat) : F := R.growth n - 1

end

/-- Every stored entry of the lower triangular matrix of a diagonal block has the property `P`. -/
def DiagFactor.Entries {K : Type} [Zero K] (f : DiagFactor K) (P : K → Prop) : Prop :=
  ∀ i j, f.sparsity.toSparsity.Has i j → P (f.lower i j)

/-- Every stored entry of an off-diagonal block has the property `P`. -/
def SubFactor.Entries {K : Type} [Zero K] (f : SubFactor K) (P : K → Prop) : Prop :=
  ∀ i j, f.sparsity.toSparsity.Has i j → P (f.entry i j)

/-- Every stored entry of the assembled lower triangular matrix has the property `P`. -/
structure ArrowheadFactor.Entries {K : Type} [Zero K] (f : ArrowheadFactor K) (P : K → Prop) : Prop where
  startDiag : f.startDiag.Entries P
  startNext : f.startNext.Entries P
  startOuter : f.startOuter.Entries P
  tridiagDiag : ∀ g ∈ f.tridiagDiag, g.Entries P
  tridiagSubdiag : ∀ g ∈ f.tridiagSubdiag, g.Entries P
  linkPrev : f.linkPrev.Entries P
  linkDiag : f.linkDiag.Entries P
  linkNext : f.linkNext.Entries P
  outerSubdiag : ∀ g ∈ f.outerSubdiag, g.Entries P
  outerDiag : f.outerDiag.Entries P

/-- Number of stored entries in row `i`. -/
def Csr.rowEntries (c : Csr) (i : Nat) : Nat := (c.entries.filter (·.row == i)).length

/-- Number of stored entries in row `i` of block row `a` of the factor. -/
def ArrowheadTypes.rowEntries (T : ArrowheadTypes) (numRepetitions : Nat) (a : Blk) (i : Nat) : Nat :=
  (T.diagBlock a).rowEntries i +
    ∑ b ∈ blocks numRepetitions, (T.lowerBlock numRepetitions a b).elim 0 (fun c => c.rowEntries i)

/-- Number of stored entries in column `j`. -/
def Csr.colEntries (c : Csr) (j : Nat) : Nat := (c.entries.filter (·.col == j)).length

/-- Number of stored entries in column `j` of block column `b` of the factor. -/
def ArrowheadTypes.colEntries (T : ArrowheadTypes) (numRepetitions : Nat) (b : Blk) (j : Nat) : Nat :=
  (T.diagBlock b).colEntries j +
    ∑ a ∈ blocks numRepetitions, (T.lowerBlock numRepetitions a b).elim 0 (fun c => c.colEntries j)

end Ctldl
