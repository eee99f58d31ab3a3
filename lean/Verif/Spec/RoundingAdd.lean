import Verif.Spec.Rounding
import Verif.Spec.Contracted
import Verif.Spec.Oblivious

/-! # Specification vocabulary: sums with rounding -/

namespace Ctldl

/-- Arithmetic with rounding, with sums like differences. -/
structure RoundingAdd (K F : Type) [Zero K] [Add K] [Sub K] [Mul K] [Div K] [Field F] [LinearOrder F]
    [IsStrictOrderedRing F] extends Rounding K F where
  add : ∀ {a b : K}, fin (a + b) →
    fin a ∧ fin b ∧ ∃ δ e, |δ| ≤ u ∧ |e| ≤ σ ∧ v (a + b) = (v a + v b) * (1 + δ) + e

namespace Binary

variable {fmt : Format}

theorem represents_neg {x : ℚ} (h : fmt.Represents x) : fmt.Represents (-x) := by
  obtain ⟨⟨k, e, h1, h2, h3⟩, h4⟩ := h
  exact ⟨⟨-k, e, by rwa [abs_neg], h2, by rw [h3]; push_cast; ring⟩, by rwa [abs_neg]⟩

/-- Change of sign. -/
def neg : Binary fmt → Binary fmt
  | .zero s => .zero !s
  | .num x hx hr => .num (-x) (neg_ne_zero.mpr hx) (represents_neg hr)
  | .inf s => .inf !s
  | .nan => .nan

/-- Addition. In IEEE arithmetic it is the same as subtracting the number with the other sign. -/
instance : Add (Binary fmt) := ⟨fun a b => a - b.neg⟩

end Binary

namespace Contracted

variable {fmt : Format} {C : Contraction}

/-- Addition: of a product which was not rounded with a fused multiply-add. Sums have the same tags as differences. -/
instance : Add (Contracted fmt C) where
  add
  | .val t a, .val s b => .val (C.sub t s) (a + b)
  | .val t a, .prod s b c => .val (C.sub t s) (a.fusedSub b.neg c)
  | .prod t _ _, b => .val (C.sub t b.tag) .nan

end Contracted

end Ctldl
