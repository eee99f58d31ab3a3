import Verif.Spec.Range

/-! # Specification vocabulary: errors of solutions

Bounds for factors with at most `r` entries in a row and less than `c` entries in a column, of matrices with at most `k`
entries in a row and diagonal elements up to `α`. Underflow changes the elements of the product of the factors by multiples of
`ε`. -/

namespace Ctldl

variable {K F : Type} [Zero K] [Sub K] [Mul K] [Div K] [Field F] [LinearOrder F] [IsStrictOrderedRing F]

/-- Bound of the elements of `|L| |D| |Lᵀ|`. -/
def Rounding.absBound (R : Rounding K F) (r : Nat) (α ε : F) : F :=
  (α + R.growth (r + 2) * ((r + 1) * ε)) / (1 - R.gamma (r + 2))

/-- Bound of the residual, relative to the sum of the absolute values of the solution. -/
def Rounding.relError (R : Rounding K F) (r c k : Nat) (α ε : F) : F :=
  R.gamma (k + 1) * α + (R.gamma (r + c + 2) + R.gamma (r + 2)) * R.absBound r α ε + R.growth (r + 2) * ((r + 1) * ε)

/-- Bound of the part of the residual due to underflow, for `m` unknowns. -/
def Rounding.absError (R : Rounding K F) (r c k m : Nat) (α ε : F) : F :=
  (R.growth (k + 1) * k + R.growth (r + c + 2) * (r + c * (m * R.absBound r α ε))) * R.η

/-- Bound of the elements of the product with a vector whose absolute values add up to `X`. -/
def Rounding.productBound (R : Rounding K F) (k : Nat) (α X : F) : F := R.growth (k + 1) * (α * X + k * R.η)

end Ctldl
