import Verif.Spec.Binary

/-! # Specification vocabulary: floating point environments

Binary floating point arithmetic in the four rounding directions of IEEE 754, which a program can choose (`fesetround`),
and with subnormal numbers replaced by zero, as processors do if they are told so (compilers do so at the start of a
program if options like `-ffast-math` are given). -/

namespace Ctldl

/-- Rounding direction. -/
inductive Direction where
  | nearest
  | zero
  | up
  | down
  deriving DecidableEq

/-- Floating point environment. -/
structure Environment where
  direction : Direction
  /-- Subnormal operands and results are replaced by zero. -/
  flush : Bool

/-- The integer to which a number is rounded. -/
def Direction.integer : Direction → ℚ → Int
  | .nearest, q => roundEven q
  | .zero, q => if 0 ≤ q then ⌊q⌋ else ⌈q⌉
  | .up, q => ⌈q⌉
  | .down, q => ⌊q⌋

/-- A number too large becomes infinite, and not the largest finite one. -/
def Direction.infinite : Direction → (negative : Bool) → Bool
  | .nearest, _ => true
  | .zero, _ => false
  | .up, negative => !negative
  | .down, negative => negative

/-- The number with the precision of the format to which `x` is rounded, as if the range of exponents were not bounded
above. -/
def Format.roundIn (fmt : Format) (dir : Direction) (x : ℚ) : ℚ := dir.integer (x / 2 ^ fmt.unit x) * 2 ^ fmt.unit x

/-- Smallest positive number which is not subnormal. -/
def Format.smallestNormal (fmt : Format) : ℚ := 2 ^ (fmt.minExp + (fmt.precision - 1))

/-- Largest finite number. -/
def Format.largest (fmt : Format) : ℚ := (2 ^ fmt.precision - 1) * 2 ^ (fmt.maxExp - fmt.precision)

theorem Direction.integer_err (dir : Direction) (q : ℚ) : |(dir.integer q : ℚ) - q| ≤ 1 := by
  have h1 := Int.floor_le q
  have h2 := Int.lt_floor_add_one q
  have h3 := Int.le_ceil q
  have h4 := Int.ceil_lt_add_one q
  cases dir with
  | nearest => exact (roundEven_err q).trans (by norm_num)
  | zero =>
    simp only [integer]
    split <;> rw [abs_le] <;> constructor <;> linarith
  | up => rw [abs_le]; constructor <;> simp only [integer] <;> linarith
  | down => rw [abs_le]; constructor <;> simp only [integer] <;> linarith

theorem Direction.integer_le (dir : Direction) {q : ℚ} {k : Int} (h : q ≤ k) : dir.integer q ≤ k := by
  have hf : ⌊q⌋ ≤ k := by exact_mod_cast (Int.floor_le q).trans h
  have hc : ⌈q⌉ ≤ k := Int.ceil_le.mpr h
  cases dir with
  | nearest =>
    have := (abs_le.mp (roundEven_err q)).2
    have h' : (roundEven q : ℚ) < k + 1 := by linarith
    have : roundEven q < k + 1 := by exact_mod_cast h'
    exact Int.lt_add_one_iff.mp this
  | zero =>
    simp only [integer]
    split <;> assumption
  | up => exact hc
  | down => exact hf

theorem Direction.le_integer (dir : Direction) {q : ℚ} {k : Int} (h : (k : ℚ) ≤ q) : k ≤ dir.integer q := by
  have hf : k ≤ ⌊q⌋ := Int.le_floor.mpr h
  have hc : k ≤ ⌈q⌉ := by exact_mod_cast h.trans (Int.le_ceil q)
  cases dir with
  | nearest =>
    have := (abs_le.mp (roundEven_err q)).1
    have h' : (k : ℚ) - 1 < roundEven q := by linarith
    have : k - 1 < roundEven q := by exact_mod_cast h'
    show k ≤ roundEven q
    omega
  | zero =>
    simp only [integer]
    split <;> assumption
  | up => exact hc
  | down => exact hf

theorem Direction.integer_abs_le (dir : Direction) {q : ℚ} {k : Nat} (h : |q| ≤ k) : |dir.integer q| ≤ k := by
  obtain ⟨h1, h2⟩ := abs_le.mp h
  rw [abs_le]
  exact ⟨dir.le_integer (k := -k) (by push_cast; exact h1), dir.integer_le (k := k) (by push_cast; exact h2)⟩

/-- Rounding gives a number with the precision of the format. -/
theorem Format.represents_roundIn (fmt : Format) {dir : Direction} {x : ℚ} (h : |fmt.roundIn dir x| < (2 : ℚ) ^ fmt.maxExp) :
    fmt.Represents (fmt.roundIn dir x) := by
  refine ⟨?_, h⟩
  have hle := dir.integer_abs_le (fmt.div_unit_lt x).le
  have hmin : fmt.minExp ≤ fmt.unit x := le_max_right _ _
  rcases lt_or_eq_of_le hle with hlt | heq
  · exact ⟨_, _, by exact_mod_cast hlt, hmin, rfl⟩
  · obtain ⟨p, hp⟩ : ∃ p, fmt.precision = p + 1 := ⟨fmt.precision - 1, by have := fmt.precision_pos; omega⟩
    have h2 : (2 : ℚ) ^ (fmt.unit x + 1) = 2 ^ fmt.unit x * 2 := by rw [zpow_add₀ (by norm_num), zpow_one]
    have hlt : (2 : Int) ^ p < 2 ^ fmt.precision := by
      rw [hp, pow_succ]
      have : (0 : Int) < 2 ^ p := by positivity
      omega
    rcases abs_eq (by positivity) |>.mp heq with h' | h'
    · refine ⟨2 ^ p, fmt.unit x + 1, by rw [abs_of_pos (by positivity)]; exact hlt, by omega, ?_⟩
      rw [Format.roundIn, h', h2, hp]
      push_cast
      ring
    · refine ⟨-2 ^ p, fmt.unit x + 1, by rw [abs_neg, abs_of_pos (by positivity)]; exact hlt, by omega, ?_⟩
      rw [Format.roundIn, h', h2, hp]
      push_cast
      ring

theorem Format.two_le_pow (fmt : Format) : (2 : Int) ≤ 2 ^ fmt.precision := by
  obtain ⟨p, hp⟩ : ∃ p, fmt.precision = p + 1 := ⟨fmt.precision - 1, by have := fmt.precision_pos; omega⟩
  rw [hp, pow_succ]
  have : (0 : Int) < 2 ^ p := by positivity
  omega

theorem Format.largest_pos (fmt : Format) : 0 < fmt.largest := by
  have h : (2 : ℚ) ≤ 2 ^ fmt.precision := by exact_mod_cast fmt.two_le_pow
  exact mul_pos (by linarith) (zpow_pos (by norm_num) _)

theorem Format.represents_largest (fmt : Format) (h : fmt.minExp ≤ fmt.maxExp - fmt.precision) (negative : Bool) :
    fmt.Represents (if negative then -fmt.largest else fmt.largest) := by
  have hp := fmt.two_le_pow
  have hq : (2 : ℚ) ≤ 2 ^ fmt.precision := by exact_mod_cast hp
  have hpos : (0 : ℚ) < 2 ^ (fmt.maxExp - fmt.precision) := zpow_pos (by norm_num) _
  have hlt : |(2 : Int) ^ fmt.precision - 1| < 2 ^ fmt.precision := by rw [abs_of_nonneg (by omega)]; omega
  have hl : |fmt.largest| < (2 : ℚ) ^ fmt.maxExp := by
    rw [abs_of_pos fmt.largest_pos]
    have e : (2 : ℚ) ^ fmt.maxExp = 2 ^ fmt.precision * 2 ^ (fmt.maxExp - fmt.precision) := by
      rw [← zpow_natCast, ← zpow_add₀ (by norm_num)]
      congr 1
      ring
    rw [e]
    exact mul_lt_mul_of_pos_right (by linarith) hpos
  cases negative with
  | true =>
    refine ⟨⟨-(2 ^ fmt.precision - 1), _, by rw [abs_neg]; exact hlt, h, ?_⟩, by simpa using hl⟩
    simp only [if_true, Format.largest]
    push_cast
    ring
  | false =>
    refine ⟨⟨2 ^ fmt.precision - 1, _, hlt, h, ?_⟩, by simpa using hl⟩
    simp only [Format.largest, Bool.false_eq_true, if_false]
    push_cast
    ring

namespace Environment

/-- Bound of the error of a single operation in case of underflow. -/
def tiny (e : Environment) (fmt : Format) : ℚ := if e.flush then fmt.smallestNormal else 2 ^ fmt.minExp

variable {fmt : Format}

/-- The value of an operand. -/
def operand (e : Environment) : Binary fmt → Binary fmt
  | .num x hx hr => if e.flush ∧ |x| < fmt.smallestNormal then .zero (x < 0) else .num x hx hr
  | a => a

/-- The value if the exact result is too large. -/
def tooLarge (e : Environment) (fmt : Format) (negative : Bool) : Binary fmt :=
  if h : fmt.minExp ≤ fmt.maxExp - fmt.precision ∧ e.direction.infinite negative = false then
    .num (if negative then -fmt.largest else fmt.largest)
      (by have := fmt.largest_pos; cases negative <;> simp [this.ne']) (fmt.represents_largest h.1 negative)
  else .inf negative

/-- The value for an exact result `x`, with sign `s` if it is zero; and whether it is too large. -/
def result (e : Environment) (fmt : Format) (s : Bool) (x : ℚ) : Binary fmt × Bool :=
  if x = 0 then (.zero s, false)
  else if h : fmt.roundIn e.direction x = 0 then (.zero (x < 0), false)
  else if e.flush ∧ |fmt.roundIn e.direction x| < fmt.smallestNormal then (.zero (x < 0), false)
  else if hr : |fmt.roundIn e.direction x| < (2 : ℚ) ^ fmt.maxExp then
    (.num (fmt.roundIn e.direction x) h (fmt.represents_roundIn hr), false)
  else (e.tooLarge fmt (x < 0), true)

/-- Subtraction, and whether the result is too large. The sign of a zero difference depends on the direction. -/
def sub (e : Environment) (a b : Binary fmt) : Binary fmt × Bool :=
  match e.operand a, e.operand b with
  | .nan, _ => (.nan, false)
  | _, .nan => (.nan, false)
  | .inf s, .inf t => (if s = t then .nan else .inf s, false)
  | .inf s, _ => (.inf s, false)
  | _, .inf t => (.inf !t, false)
  | .zero s, .zero t => (.zero (if s = !t then s else e.direction = .down), false)
  | a, b => e.result fmt (e.direction = .down) (a.toRat - b.toRat)

/-- Multiplication, and whether the result is too large. -/
def mul (e : Environment) (a b : Binary fmt) : Binary fmt × Bool :=
  match e.operand a, e.operand b with
  | .nan, _ => (.nan, false)
  | _, .nan => (.nan, false)
  | .inf _, .zero _ => (.nan, false)
  | .zero _, .inf _ => (.nan, false)
  | .inf s, b => (.inf (s ^^ b.negative), false)
  | a, .inf t => (.inf (a.negative ^^ t), false)
  | a, b => e.result fmt (a.negative ^^ b.negative) (a.toRat * b.toRat)

/-- Division, and whether the result is too large. -/
def div (e : Environment) (a b : Binary fmt) : Binary fmt × Bool :=
  match e.operand a, e.operand b with
  | .nan, _ => (.nan, false)
  | _, .nan => (.nan, false)
  | .inf _, .inf _ => (.nan, false)
  | .inf s, b => (.inf (s ^^ b.negative), false)
  | a, .inf t => (.zero (a.negative ^^ t), false)
  | .zero _, .zero _ => (.nan, false)
  | a, .zero t => (.inf (a.negative ^^ t), false)
  | a, b => e.result fmt (a.negative ^^ b.negative) (a.toRat / b.toRat)

end Environment

/-- Numbers of a program in an environment. -/
structure Directed (fmt : Format) (e : Environment) where
  value : Binary fmt

namespace Directed

variable {fmt : Format} {e : Environment}

/-- The number for which the value stands. -/
def toRat (a : Directed fmt e) : ℚ := (e.operand a.value).toRat

instance : Zero (Directed fmt e) := ⟨⟨0⟩⟩
instance : Sub (Directed fmt e) := ⟨fun a b => ⟨(e.sub a.value b.value).1⟩⟩
instance : Mul (Directed fmt e) := ⟨fun a b => ⟨(e.mul a.value b.value).1⟩⟩
instance : Div (Directed fmt e) := ⟨fun a b => ⟨(e.div a.value b.value).1⟩⟩

end Directed

/-- Numbers of a program in an environment, with the information whether a result which contributed to them was too
large. (The direction may have replaced it by a finite number.) -/
structure Flagged (fmt : Format) (e : Environment) where
  value : Directed fmt e
  overflow : Bool

namespace Flagged

variable {fmt : Format} {e : Environment}

/-- A given number. -/
def given (a : Directed fmt e) : Flagged fmt e := ⟨a, false⟩

instance : Zero (Flagged fmt e) := ⟨given 0⟩
instance : Sub (Flagged fmt e) :=
  ⟨fun a b => ⟨a.value - b.value, a.overflow || b.overflow || (e.sub a.value.value b.value.value).2⟩⟩
instance : Mul (Flagged fmt e) :=
  ⟨fun a b => ⟨a.value * b.value, a.overflow || b.overflow || (e.mul a.value.value b.value.value).2⟩⟩
instance : Div (Flagged fmt e) :=
  ⟨fun a b => ⟨a.value / b.value, a.overflow || b.overflow || (e.div a.value.value b.value.value).2⟩⟩

/-- Regularization of a number. -/
def lift (reg : Directed fmt e → Nat → Directed fmt e) (a : Flagged fmt e) (i : Nat) : Flagged fmt e :=
  ⟨reg a.value i, a.overflow⟩

/-- The number is finite, and not because the direction replaced a number which is too large. -/
def Finite (a : Flagged fmt e) : Prop := a.value.value.Finite ∧ a.overflow = false

/-- The number for which the value stands. -/
def toRat (a : Flagged fmt e) : ℚ := a.value.toRat

end Flagged

end Ctldl
