import Verif.Spec.Range

/-! # Specification vocabulary: precision and range for quasidefinite matrices -/

namespace Ctldl

variable {K F : Type} [Zero K] [Sub K] [Mul K] [Div K] [Field F] [LinearOrder F] [IsStrictOrderedRing F]

/-- Bound of the errors by underflow in one element of the matrix, for factors with at most `n` entries in a row. -/
def Rounding.slip (R : Rounding K F) (n : Nat) (ε : F) : F := R.growth (n + 2) * ((n + 1) * ε)

/-- Bound of the sums of the absolute values in the rows of the product of the absolute values of the factors. -/
def quasiGrowth (n c : Nat) (μ β : F) : F := (n + 1) * β * (c * (β / μ))

/-- Precision and range suffice for factors with at most `n` entries in a row and less than `c` entries in a column, of
quasidefinite matrices with `dim` rows, in which the sums of the absolute values are at most `ρ`: `μ` bounds the pivots from
below, `β` the pivots and the products of entries and pivots from above, `ε` the errors by underflow, and results up to `Ω`
do not overflow. -/
structure Rounding.AmpleQuasi (R : Rounding K F) (n c dim : Nat) (Ω ρ μ β ε : F) : Prop where
  range : R.Range Ω
  pos : 0 < μ
  bound : 6 * ρ ^ 2 ≤ β * μ
  small : R.η * (1 + 2 * β) ≤ ε
  gamma : 2 * R.gamma (n + 2) ≤ 1
  accuracy : R.gamma (n + 2) * quasiGrowth n c μ β + dim * R.slip n ε ≤ μ
  max : 2 * (ρ + (n + 1) * (β * (β / μ))) ≤ Ω
  max_div : 2 * (ρ + (n + 1) * (β * (β / μ))) ≤ μ * Ω

/-- Precision and range suffice for solving systems with such factors: the numbers in the right hand side are at most `B`,
those after the forward substitution at most `Y` and those in the solution at most `X`; `q` is at least the root of the number
of rows. -/
structure Rounding.AmpleQuasiSolve (R : Rounding K F) (n c dim : Nat) (Ω μ β q B Y X : F) : Prop where
  gamma : 3 * R.gamma (n + c + 2) ≤ 1
  nonneg : 0 ≤ q
  root : (dim : F) ≤ q ^ 2
  condition : 2 * (q * ((n + 1) * c) * R.gamma (n + c + 2) * (β / μ) ^ 2) ≤ 1
  forward : 2 * q * (β / μ) * (B + R.underflow n c) ≤ Y
  backward : 2 * q * (n + 1) * (β / μ) * (2 * (Y / μ) + 2 * R.underflow n c) ≤ X
  max : 2 * (B + 2 * ((n + 1) * (β / μ * Y)) + R.underflow n c) ≤ Ω
  max_back : 2 * (2 * (Y / μ) + 2 * (c * (β / μ * X)) + 2 * R.underflow n c) ≤ Ω

/-- Bound of the residual of solutions with entries up to `ξ`, for quasidefinite matrices with `dim` rows. -/
def Rounding.quasiResidual (R : Rounding K F) (n c dim : Nat) (μ β ε ξ : F) : F :=
  ((R.gamma (n + c + 2) + R.gamma (n + 2)) * quasiGrowth n c μ β + dim * R.slip n ε) * ξ +
    R.growth (n + c + 2) * (R.η * (n + c * ((n + 1) * β)))

end Ctldl
