import Verif.Spec.Rounding

/-! # Specification vocabulary: range of arithmetic with rounding -/

namespace Ctldl

variable {K F : Type} [Zero K] [Sub K] [Mul K] [Div K] [Field F] [LinearOrder F] [IsStrictOrderedRing F]

/-- Operations on finite numbers do not overflow if their exact result is not larger than `Ω`. -/
structure Rounding.Range (R : Rounding K F) (Ω : F) : Prop where
  stored_sub : ∀ a b : K, R.stored (a - b)
  fin_sub : ∀ {a b : K}, R.stored a → R.fin a → R.fin b → |R.v a - R.v b| ≤ Ω → R.fin (a - b)
  fin_mul : ∀ {a b : K}, R.stored a → R.stored b → R.fin a → R.fin b → |R.v a * R.v b| ≤ Ω → R.fin (a * b)
  fin_mul_mul : ∀ {a b c : K}, R.stored a → R.stored b → R.stored c → R.fin a → R.fin b → R.fin c →
    |R.v a * R.v b| ≤ Ω → (|R.v a * R.v b| * (1 + R.u) + R.η) * |R.v c| ≤ Ω → R.fin (a * b * c)
  fin_div : ∀ {a b : K}, R.stored a → R.stored b → R.fin a → R.fin b → R.v b ≠ 0 → |R.v a / R.v b| ≤ Ω → R.fin (a / b)

/-- Precision and range suffice for factors with at most `n` entries in a row and less than `c` entries in a column, of
matrices with diagonal elements up to `α`: `μ` bounds the pivots from below, `Λ` the entries of the factor, `ε` the errors
by underflow, and results up to `Ω` do not overflow. -/
structure Rounding.Ample (R : Rounding K F) (n c : Nat) (Ω α μ Λ ε : F) : Prop where
  range : R.Range Ω
  alpha : 0 ≤ α
  pos : 0 < μ
  nonneg : 0 ≤ Λ
  entry : α ≤ μ * Λ ^ 2
  small : R.η * (1 + 3 * α * (1 + Λ)) ≤ ε
  gamma : (2 * c + 1) * R.gamma (n + 2) ≤ 1
  max : 4 * α ≤ Ω
  max_div : 4 * α ≤ μ * Ω

/-- Precision and range suffice for solving systems with such factors, where `β` bounds the right hand side. -/
structure Rounding.AmpleSolve (R : Rounding K F) (n c : Nat) (Ω α μ Λ β : F) : Prop where
  gamma : 3 * R.gamma (n + c + 2) ≤ 1
  condition : 24 * (c * α * R.gamma (n + c + 2) ^ 2) ≤ μ
  nonneg : 0 ≤ β
  max : 8 * (1 + Λ) * β ≤ Ω
  max_div : 24 * (1 + c * Λ) * β ≤ μ * Ω

/-- Bound of the errors by underflow in one row when solving. -/
def Rounding.underflow (R : Rounding K F) (n c : Nat) : F := 2 * (n + c) * R.η

end Ctldl
