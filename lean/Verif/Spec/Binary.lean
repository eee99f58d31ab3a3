import Mathlib.Data.Int.Log
import Mathlib.Data.Rat.Floor
import Mathlib.Algebra.Order.Field.Rat
import Mathlib.Tactic.Linarith
import Mathlib.Tactic.Ring
import Mathlib.Tactic.Positivity

/-! # Specification vocabulary: binary floating point arithmetic

The values of a binary floating point format of IEEE 754 (with signed zeros, signed infinities, and a single value
which is not a number) and its subtraction, multiplication and division, which round to nearest, ties to even, with
gradual underflow. -/

namespace Ctldl

/-- A binary format: precision in bits, exponent of the least significant bit of the smallest number, and exponent of
the first power of two which is too large. -/
structure Format where
  precision : Nat
  minExp : Int
  maxExp : Int
  precision_pos : 0 < precision

/-- The format of `double`. -/
def Format.binary64 : Format := ⟨53, -1074, 1024, by decide⟩

/-- The format of `float`. -/
def Format.binary32 : Format := ⟨24, -149, 128, by decide⟩

/-- The number has at most as many significant bits as the format, and is in its range. -/
def Format.Represents (fmt : Format) (x : ℚ) : Prop :=
  (∃ m e : Int, |m| < 2 ^ fmt.precision ∧ fmt.minExp ≤ e ∧ x = m * (2 : ℚ) ^ e) ∧ |x| < (2 : ℚ) ^ fmt.maxExp

/-- The nearest integer, the even one if there are two. -/
def roundEven (q : ℚ) : Int :=
  if q - ⌊q⌋ < 1 / 2 then ⌊q⌋ else if 1 / 2 < q - ⌊q⌋ then ⌊q⌋ + 1 else if ⌊q⌋ % 2 = 0 then ⌊q⌋ else ⌊q⌋ + 1

/-- Exponent of the least significant bit of the numbers of the format close to `x`. -/
def Format.unit (fmt : Format) (x : ℚ) : Int := max (Int.log 2 |x| - (fmt.precision - 1)) fmt.minExp

/-- The nearest number with the precision of the format, as if the range of exponents were not bounded above. -/
def Format.round (fmt : Format) (x : ℚ) : ℚ := roundEven (x / 2 ^ fmt.unit x) * 2 ^ fmt.unit x

theorem roundEven_err (q : ℚ) : |(roundEven q : ℚ) - q| ≤ 1 / 2 := by
  have h1 := Int.floor_le q
  have h2 := Int.lt_floor_add_one q
  unfold roundEven
  split
  · rw [abs_le]; constructor <;> linarith
  · split
    · rw [abs_le]; push_cast; constructor <;> linarith
    · split <;> rw [abs_le] <;> push_cast <;> constructor <;> linarith

theorem roundEven_int (k : Int) : roundEven k = k := by
  unfold roundEven
  rw [Int.floor_intCast, sub_self, if_pos (by norm_num)]

/-- Integers bound the rounded number as well. -/
theorem roundEven_abs_le {q : ℚ} {k : Nat} (h : |q| < k) : |roundEven q| ≤ k := by
  obtain ⟨h1, h2⟩ := abs_lt.mp h
  have e := abs_le.mp (roundEven_err q)
  have h3 : (roundEven q : ℚ) < k + 1 := by linarith [e.2]
  have h4 : -((k : ℚ) + 1) < roundEven q := by linarith [e.1]
  rw [abs_le]
  have h5 : roundEven q < k + 1 := by exact_mod_cast h3
  have h6 : -((k : Int) + 1) < roundEven q := by exact_mod_cast h4
  constructor <;> omega

theorem Format.div_unit_lt (fmt : Format) (x : ℚ) : |x / 2 ^ fmt.unit x| < ((2 ^ fmt.precision : Nat) : ℚ) := by
  have hpos : (0 : ℚ) < 2 ^ fmt.unit x := zpow_pos (by norm_num) _
  rw [abs_div, abs_of_pos hpos, div_lt_iff₀ hpos]
  have h := Int.lt_zpow_succ_log_self (b := 2) (by decide) |x|
  refine h.trans_le ?_
  push_cast
  rw [← zpow_natCast, ← zpow_add₀ (by norm_num)]
  refine zpow_le_zpow_right₀ (by norm_num) ?_
  have : Int.log 2 |x| - (fmt.precision - 1) ≤ fmt.unit x := le_max_left _ _
  omega

/-- Rounding gives a number with the precision of the format. -/
theorem Format.represents_round (fmt : Format) {x : ℚ} (h : |fmt.round x| < (2 : ℚ) ^ fmt.maxExp) :
    fmt.Represents (fmt.round x) := by
  refine ⟨?_, h⟩
  have hle := roundEven_abs_le (fmt.div_unit_lt x)
  have hmin : fmt.minExp ≤ fmt.unit x := le_max_right _ _
  rcases lt_or_eq_of_le hle with hlt | heq
  · exact ⟨_, _, by exact_mod_cast hlt, hmin, rfl⟩
  · obtain ⟨p, hp⟩ : ∃ p, fmt.precision = p + 1 := ⟨fmt.precision - 1, by have := fmt.precision_pos; omega⟩
    have h2 : (2 : ℚ) ^ (fmt.unit x + 1) = 2 ^ fmt.unit x * 2 := by rw [zpow_add₀ (by norm_num), zpow_one]
    have hlt : (2 : Int) ^ p < 2 ^ fmt.precision := by
      rw [hp, pow_succ]
      have : (0 : Int) < 2 ^ p := by positivity
      omega
    rcases abs_eq (by positivity) |>.mp heq with h' | h'
    · refine ⟨2 ^ p, fmt.unit x + 1, by rw [abs_of_pos (by positivity)]; exact hlt, by omega, ?_⟩
      rw [Format.round, h', h2, hp]
      push_cast
      ring
    · refine ⟨-2 ^ p, fmt.unit x + 1, by rw [abs_neg, abs_of_pos (by positivity)]; exact hlt, by omega, ?_⟩
      rw [Format.round, h', h2, hp]
      push_cast
      ring

/-- Values of a format. -/
inductive Binary (fmt : Format) where
  /-- A zero with its sign. -/
  | zero (negative : Bool)
  /-- Another number. -/
  | num (x : ℚ) (hx : x ≠ 0) (hr : fmt.Represents x)
  | inf (negative : Bool)
  | nan

namespace Binary

variable {fmt : Format}

/-- The value is a number. -/
def Finite : Binary fmt → Prop
  | .zero _ => True
  | .num _ _ _ => True
  | .inf _ => False
  | .nan => False

/-- The number for which the value stands. -/
def toRat : Binary fmt → ℚ
  | .zero _ => 0
  | .num x _ _ => x
  | .inf _ => 0
  | .nan => 0

/-- The sign bit. -/
def negative : Binary fmt → Bool
  | .zero s => s
  | .num x _ _ => x < 0
  | .inf s => s
  | .nan => false

/-- The value for an exact result `x`: rounded, infinite if too large, with sign `s` if zero. -/
def ofRat (fmt : Format) (s : Bool) (x : ℚ) : Binary fmt :=
  if h : fmt.round x = 0 then .zero s
  else if hr : |fmt.round x| < (2 : ℚ) ^ fmt.maxExp then .num (fmt.round x) h (fmt.represents_round hr)
  else .inf (x < 0)

instance : Zero (Binary fmt) := ⟨.zero false⟩

/-- Subtraction. A zero result of operands which are not both zero is positive. -/
instance : Sub (Binary fmt) where
  sub
  | .nan, _ => .nan
  | _, .nan => .nan
  | .inf s, .inf t => if s = t then .nan else .inf s
  | .inf s, _ => .inf s
  | _, .inf t => .inf !t
  | .zero s, .zero t => .zero (s && !t)
  | a, b => ofRat fmt false (a.toRat - b.toRat)

/-- Multiplication. -/
instance : Mul (Binary fmt) where
  mul
  | .nan, _ => .nan
  | _, .nan => .nan
  | .inf _, .zero _ => .nan
  | .zero _, .inf _ => .nan
  | .inf s, b => .inf (s ^^ b.negative)
  | a, .inf t => .inf (a.negative ^^ t)
  | a, b => ofRat fmt (a.negative ^^ b.negative) (a.toRat * b.toRat)

/-- Division. -/
instance : Div (Binary fmt) where
  div
  | .nan, _ => .nan
  | _, .nan => .nan
  | .inf _, .inf _ => .nan
  | .inf s, b => .inf (s ^^ b.negative)
  | a, .inf t => .zero (a.negative ^^ t)
  | .zero _, .zero _ => .nan
  | a, .zero t => .inf (a.negative ^^ t)
  | a, b => ofRat fmt (a.negative ^^ b.negative) (a.toRat / b.toRat)

end Binary

end Ctldl
