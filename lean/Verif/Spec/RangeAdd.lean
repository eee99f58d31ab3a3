import Verif.Spec.Range
import Verif.Spec.RoundingAdd

/-! # Specification vocabulary: range of arithmetic with rounding and sums -/

namespace Ctldl

variable {K F : Type} [Zero K] [Add K] [Sub K] [Mul K] [Div K] [Field F] [LinearOrder F] [IsStrictOrderedRing F]

/-- Operations on finite numbers do not overflow if their exact result is not larger than `Ω`, including sums. -/
structure RoundingAdd.Range (R : RoundingAdd K F) (Ω : F) : Prop extends R.toRounding.Range Ω where
  stored_zero : R.stored 0
  stored_add : ∀ a b : K, R.stored (a + b)
  fin_add : ∀ {a b : K}, R.stored a → R.fin a → R.fin b → |R.v a + R.v b| ≤ Ω → R.fin (a + b)

end Ctldl
