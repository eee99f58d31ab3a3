import Verif.Spec.Binary

/-! # Specification vocabulary: scaling by powers of two, and exceptions

`Scaled w a b` says that `b` is exactly `2 ^ w` times `a`. `Tracked` adds to each floating point value whether the range
of exponents had an influence on it. -/

namespace Ctldl

/-- The nearest number with the precision of the format, as if the range of exponents were not bounded. -/
def Format.roundUnbounded (fmt : Format) (x : ℚ) : ℚ :=
  roundEven (x / 2 ^ (Int.log 2 |x| - (fmt.precision - 1))) * 2 ^ (Int.log 2 |x| - (fmt.precision - 1))

/-- The range of exponents has an influence on the result of an operation with the exact result `x`: overflow, or
inexact result because of underflow. -/
def Format.LeavesRange (fmt : Format) (x : ℚ) : Prop :=
  fmt.round x ≠ fmt.roundUnbounded x ∨ (2 : ℚ) ^ fmt.maxExp ≤ |fmt.round x|

instance (fmt : Format) (x : ℚ) : Decidable (fmt.LeavesRange x) := inferInstanceAs (Decidable (_ ∨ _))

/-- The second value is the first one times `2 ^ w`. -/
inductive Scaled {fmt : Format} (w : Int) : Binary fmt → Binary fmt → Prop where
  | zero (s : Bool) : Scaled w (.zero s) (.zero s)
  | num {x y : ℚ} (hx : x ≠ 0) (hr : fmt.Represents x) (hy : y ≠ 0) (hs : fmt.Represents y) (h : y = 2 ^ w * x) :
    Scaled w (.num x hx hr) (.num y hy hs)
  | inf (s : Bool) : Scaled w (.inf s) (.inf s)
  | nan : Scaled w .nan .nan

/-- Whether the second value is the first one times `2 ^ w` can be computed. -/
def Scaled.decide {fmt : Format} (w : Int) (a b : Binary fmt) : Decidable (Scaled w a b) :=
  match a, b with
  | .zero s, .zero t => if h : s = t then .isTrue (h ▸ .zero s) else .isFalse (by rintro ⟨⟩; exact h rfl)
  | .num x hx hr, .num y hy hs =>
    if h : y = 2 ^ w * x then .isTrue (.num hx hr hy hs h)
    else .isFalse (by rintro ⟨⟩; next h' => exact h h')
  | .inf s, .inf t => if h : s = t then .isTrue (h ▸ .inf s) else .isFalse (by rintro ⟨⟩; exact h rfl)
  | .nan, .nan => .isTrue .nan
  | .zero _, .num .. => .isFalse (by rintro ⟨⟩)
  | .zero _, .inf _ => .isFalse (by rintro ⟨⟩)
  | .zero _, .nan => .isFalse (by rintro ⟨⟩)
  | .num .., .zero _ => .isFalse (by rintro ⟨⟩)
  | .num .., .inf _ => .isFalse (by rintro ⟨⟩)
  | .num .., .nan => .isFalse (by rintro ⟨⟩)
  | .inf _, .zero _ => .isFalse (by rintro ⟨⟩)
  | .inf _, .num .. => .isFalse (by rintro ⟨⟩)
  | .inf _, .nan => .isFalse (by rintro ⟨⟩)
  | .nan, .zero _ => .isFalse (by rintro ⟨⟩)
  | .nan, .num .. => .isFalse (by rintro ⟨⟩)
  | .nan, .inf _ => .isFalse (by rintro ⟨⟩)

instance {fmt : Format} (w : Int) (a b : Binary fmt) : Decidable (Scaled w a b) := Scaled.decide w a b

/-- A value, and whether the range of exponents had an influence on an operation contributing to it. -/
structure Tracked (fmt : Format) where
  value : Binary fmt
  raised : Bool

namespace Tracked

variable {fmt : Format}

/-- A given value. -/
def given (a : Binary fmt) : Tracked fmt := ⟨a, false⟩

instance : Zero (Tracked fmt) := ⟨given 0⟩

/-- Results which are not numbers, and divisions by zero, are not counted: the range of exponents is not the cause. -/
instance : Sub (Tracked fmt) where
  sub a b := ⟨a.value - b.value, a.raised || b.raised || fmt.LeavesRange (a.value.toRat - b.value.toRat)⟩

instance : Mul (Tracked fmt) where
  mul a b := ⟨a.value * b.value, a.raised || b.raised || fmt.LeavesRange (a.value.toRat * b.value.toRat)⟩

instance : Div (Tracked fmt) where
  div a b := ⟨a.value / b.value, a.raised || b.raised || fmt.LeavesRange (a.value.toRat / b.value.toRat)⟩

/-- Regularization of a value. -/
def lift (reg : Binary fmt → Nat → Binary fmt) (a : Tracked fmt) (i : Nat) : Tracked fmt := ⟨reg a.value i, a.raised⟩

end Tracked

/-- If the range of exponents had no influence on either of the two values, then the second one is the first one times
`2 ^ w`. -/
def TrackedScaled {fmt : Format} (w : Int) (a : Tracked fmt × Tracked fmt) : Prop :=
  a.1.raised = false → a.2.raised = false → Scaled w a.1.value a.2.value

end Ctldl
