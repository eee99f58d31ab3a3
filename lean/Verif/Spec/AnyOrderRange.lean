import Verif.Spec.RangeAdd
import Verif.Spec.QuasiRange

/-! # Specification vocabulary: range of arithmetic for sums in any order -/

namespace Ctldl

variable {K F : Type} [Zero K] [Add K] [Sub K] [Mul K] [Div K] [Field F] [LinearOrder F] [IsStrictOrderedRing F]

/-- Precision and range suffice for the factorization of quasidefinite matrices with `n` rows by formulas which are evaluated in
any order, with `h` and `q` as in `LeftOver` and `m` rounding errors of each term. Factors have at most `r` entries in a row and
less than `c` entries in a column, rows of the matrix have absolute sums up to `ρ`, `μ` bounds the pivots from below, `β` the
pivots and their products with entries of the factor from above, `ε` the errors by underflow, and results up to `Ω` do not
overflow. -/
structure RoundingAdd.AmpleAny (R : RoundingAdd K F) (m n h q r c : Nat) (Ω ρ μ β ε : F) : Prop where
  range : R.Range Ω
  stored : ∀ a, R.stored a
  pos : 0 < μ
  bound : 6 * ρ ^ 2 ≤ β * μ
  unit : R.η ≤ 1
  sub : R.σ ≤ R.η
  small : R.η * ((1 + β) * (1 + β / μ)) ≤ ε
  gamma : 2 * R.gamma (h + m) ≤ 1
  accuracy : R.gamma (h + m) * quasiGrowth r c μ β + n * (R.growth (h + m) * ((q + 1) * ε)) ≤ μ
  max : 4 * ((1 + β) * (1 + β / μ) ^ 2) ≤ Ω
  max_sum : 4 * (ρ + q * (β * (β / μ)) + μ) ≤ Ω
  max_div : 8 * (ρ + q * (β * (β / μ)) + μ) ≤ μ * Ω

/-- Precision and range suffice for solving systems with such factors by formulas which are evaluated in any order, with `h₁` and
`q₁` (`h₂` and `q₂`) as in `LeftOver` for the forward (backward) substitution: the numbers in the right hand side are at most `B`,
those after the forward substitution at most `Y`, those after division by the pivots at most `Z` and those in the solution at most
`X`; `s` is at least the root of the number of rows. -/
structure RoundingAdd.AmpleAnySolve (R : RoundingAdd K F) (n h₁ q₁ h₂ q₂ r c : Nat) (Ω μ β s B Y Z X : F) : Prop where
  nonneg : 0 ≤ s
  root : (n : F) ≤ s ^ 2
  gamma_forward : 2 * R.gamma (h₁ + 1) ≤ 1
  gamma_backward : 2 * R.gamma (h₂ + 1) ≤ 1
  condition_forward : 2 * (s * (r + 1) * R.gamma (h₁ + 1) * (β / μ) ^ 2) ≤ 1
  condition_backward : 2 * (s * ((r + 1) * c) * R.gamma (h₂ + 1) * (β / μ) ^ 2) ≤ 1
  forward : 2 * s * (β / μ) * (B + 2 * (q₁ * R.η)) ≤ Y
  diagonal : 2 * (Y / μ) + 3 * R.η ≤ Z
  backward : 2 * s * (r + 1) * (β / μ) * (Z + 2 * (q₂ * R.η)) ≤ X
  max_forward : 2 * (B + (q₁ + 1) * (2 * (β / μ * Y) + R.η)) ≤ Ω
  divide : 2 * Y ≤ μ * Ω
  max_backward : 2 * (Z + (q₂ + 1) * (2 * (β / μ * X) + R.η)) ≤ Ω

/-- Bound of the residual of solutions with entries up to `X` when all formulas are evaluated in any order and quotients have `m`
rounding errors. -/
def RoundingAdd.anyResidual (R : RoundingAdd K F) (m n h q h₁ q₁ h₂ q₂ r c : Nat) (μ β ε X : F) : F :=
  (R.gamma (h + (m + 1)) + R.gamma (h₁ + h₂ + m + 2)) * (quasiGrowth r c μ β * X) +
    (R.growth (h₁ + h₂ + m + 2) * (q₁ * R.η + (r + 1) * β * ((q₂ + 1) * R.η)) +
      n * (R.growth (h + (m + 1)) * ((q + 1) * ε)) * X)

end Ctldl
