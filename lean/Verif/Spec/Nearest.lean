import Verif.Spec.Binary

/-! # Specification vocabulary: correct rounding

What IEEE 754 demands of the result of an operation with the exact result `q`, rounded to nearest, ties to even. -/

namespace Ctldl

/-- The magnitude from which results are infinite: half a unit beyond the largest number of the format. -/
def Format.overflow (fmt : Format) : ℚ := 2 ^ fmt.maxExp - 2 ^ (fmt.maxExp - fmt.precision - 1)

/-- No number of the format is nearer to `q` than `v`; if another one is as near, then `v` is an even multiple of the
distance between the two. -/
structure Format.Nearest (fmt : Format) (q v : ℚ) : Prop where
  represents : fmt.Represents v
  nearest : ∀ y, fmt.Represents y → |v - q| ≤ |y - q|
  even : ∀ y, fmt.Represents y → y ≠ v → |y - q| = |v - q| → ∃ k : Int, v = 2 * k * |y - v|

/-- The value is the correctly rounded `q`. -/
def Binary.Correct {fmt : Format} (q : ℚ) : Binary fmt → Prop
  | .inf s => fmt.overflow ≤ |q| ∧ s = decide (q < 0)
  | .nan => False
  | z => |q| < fmt.overflow ∧ fmt.Nearest q z.toRat

/-- The format has numbers with all its digits. -/
def Format.Proper (fmt : Format) : Prop := fmt.minExp + fmt.precision ≤ fmt.maxExp

end Ctldl
