import Verif.Lemmas.Environment
import Verif.Lemmas.ScalingArrowhead
import Verif.Lemmas.ScalingSingle
import Verif.Props.RangeSolve

/-! # C81: floating point environments

The bounds of rounding errors and the absence of overflow hold in all rounding directions, and if subnormal numbers are
replaced by zero, with twice the unit roundoff and a larger bound of errors in case of underflow. -/

namespace Ctldl

open Finset

variable {fmt : Format} {e : Environment}

/-! ### The arithmetic -/

private theorem toward {dir : Direction} {x : ℚ} (h : x ≠ 0) : match dir with
    | .nearest => True
    | .zero => |fmt.roundIn dir x| ≤ |x|
    | .up => x ≤ fmt.roundIn dir x
    | .down => fmt.roundIn dir x ≤ x := by
  have hpos := two_zpow_pos (fmt.unit x)
  have hx : x = x / 2 ^ fmt.unit x * 2 ^ fmt.unit x := (div_mul_cancel₀ _ hpos.ne').symm
  cases dir with
  | nearest => trivial
  | up =>
    show x ≤ ⌈x / 2 ^ fmt.unit x⌉ * 2 ^ fmt.unit x
    conv_lhs => rw [hx]
    exact mul_le_mul_of_nonneg_right (Int.le_ceil _) hpos.le
  | down =>
    show ⌊x / 2 ^ fmt.unit x⌋ * 2 ^ fmt.unit x ≤ x
    conv_rhs => rw [hx]
    exact mul_le_mul_of_nonneg_right (Int.floor_le _) hpos.le
  | zero =>
    show |((if 0 ≤ x / 2 ^ fmt.unit x then ⌊x / 2 ^ fmt.unit x⌋ else ⌈x / 2 ^ fmt.unit x⌉ : Int) : ℚ) * 2 ^ fmt.unit x| ≤ |x|
    conv_rhs => rw [hx]
    rw [abs_mul, abs_mul]
    refine mul_le_mul_of_nonneg_right ?_ (abs_nonneg _)
    split
    · next h0 =>
      rw [abs_of_nonneg h0, abs_of_nonneg (by exact_mod_cast Int.floor_nonneg.mpr h0)]
      exact Int.floor_le _
    · next h0 =>
      have h0 := (not_le.mp h0).le
      rw [abs_of_nonpos h0, abs_of_nonpos (by exact_mod_cast Int.ceil_le.mpr (by exact_mod_cast h0))]
      linarith [Int.le_ceil (x / 2 ^ fmt.unit x)]

/-- C81: rounding in a direction gives a number of the format not on the wrong side, with an error of at most one unit
in the last place. -/
theorem C81_direction (fmt : Format) (dir : Direction) (x : ℚ) (hx : x ≠ 0)
    (hr : |fmt.roundIn dir x| < (2 : ℚ) ^ fmt.maxExp) :
    fmt.Represents (fmt.roundIn dir x) ∧ |fmt.roundIn dir x - x| ≤ 2 ^ fmt.unit x ∧ match dir with
      | .nearest => fmt.roundIn dir x = fmt.round x
      | .zero => |fmt.roundIn dir x| ≤ |x|
      | .up => x ≤ fmt.roundIn dir x
      | .down => fmt.roundIn dir x ≤ x := by
  refine ⟨fmt.represents_roundIn hr, fmt.roundIn_err dir x, ?_⟩
  have := toward (fmt := fmt) (dir := dir) hx
  cases dir with
  | nearest => rfl
  | _ => exact this

/-- The value is a number which is at most `x`, or minus infinity. -/
def Binary.AtMost : Binary fmt → ℚ → Prop
  | .inf negative, _ => negative = true
  | .nan, _ => False
  | a, x => a.toRat ≤ x

/-- The value is a number which is at least `x`, or plus infinity. -/
def Binary.AtLeast : Binary fmt → ℚ → Prop
  | .inf negative, _ => negative = false
  | .nan, _ => False
  | a, x => x ≤ a.toRat

private theorem largest_lt (fmt : Format) : fmt.largest < 2 ^ fmt.maxExp := by
  have e : (2 : ℚ) ^ fmt.maxExp = 2 ^ fmt.precision * 2 ^ (fmt.maxExp - fmt.precision) := by
    rw [← zpow_natCast, ← zpow_add₀ (by norm_num)]
    congr 1
    ring
  rw [e]
  exact mul_lt_mul_of_pos_right (by linarith) (two_zpow_pos _)

private theorem roundIn_nonneg (fmt : Format) (dir : Direction) {x : ℚ} (h : 0 ≤ x) : 0 ≤ fmt.roundIn dir x := by
  have h' : (0 : Int) ≤ dir.integer (x / 2 ^ fmt.unit x) :=
    dir.le_integer (by push_cast; exact div_nonneg h (two_zpow_pos _).le)
  exact mul_nonneg (by exact_mod_cast h') (two_zpow_pos _).le

private theorem roundIn_nonpos (fmt : Format) (dir : Direction) {x : ℚ} (h : x ≤ 0) : fmt.roundIn dir x ≤ 0 := by
  have h' : dir.integer (x / 2 ^ fmt.unit x) ≤ (0 : Int) :=
    dir.integer_le (by push_cast; exact div_nonpos_of_nonpos_of_nonneg h (two_zpow_pos _).le)
  exact mul_nonpos_of_nonpos_of_nonneg (by exact_mod_cast h') (two_zpow_pos _).le

private theorem result_cases (dir : Direction) (fmt : Format) (s : Bool) {x : ℚ} (hx : x ≠ 0)
    {P : Binary fmt → Prop}
    (h0 : fmt.roundIn dir x = 0 → P (.zero (x < 0)))
    (h1 : ∀ hn hr, P (.num (fmt.roundIn dir x) hn hr))
    (h2 : 2 ^ fmt.maxExp ≤ |fmt.roundIn dir x| → P ((⟨dir, false⟩ : Environment).tooLarge fmt (x < 0))) :
    P ((⟨dir, false⟩ : Environment).result fmt s x).1 := by
  unfold Environment.result
  rw [if_neg hx]
  split
  · next h => exact h0 h
  rw [if_neg (by simp)]
  split
  · exact h1 _ _
  · next h => exact h2 (not_lt.mp h)

private theorem tooLarge_cases (dir : Direction) (fmt : Format) (hf : fmt.minExp ≤ fmt.maxExp - fmt.precision)
    (negative : Bool) {P : Binary fmt → Prop}
    (h1 : dir.infinite negative = false → ∀ hn hr, P (.num (if negative then -fmt.largest else fmt.largest) hn hr))
    (h2 : dir.infinite negative = true → P (.inf negative)) :
    P ((⟨dir, false⟩ : Environment).tooLarge fmt negative) := by
  unfold Environment.tooLarge
  split
  · next h => exact h1 h.2 _ _
  · next h =>
    apply h2
    by_contra hn
    exact h ⟨hf, Bool.eq_false_iff.mpr hn⟩

/-- C81: values of exact results `x`, also of those which are too large: never above `x` when rounding downwards, never
below it when rounding upwards, and never of larger magnitude when rounding towards zero, and then never infinite. -/
theorem C81_enclosed (fmt : Format) (hf : fmt.minExp ≤ fmt.maxExp - fmt.precision) (s : Bool) (x : ℚ) :
    ((⟨.down, false⟩ : Environment).result fmt s x).1.AtMost x ∧
    ((⟨.up, false⟩ : Environment).result fmt s x).1.AtLeast x ∧
    (((⟨.zero, false⟩ : Environment).result fmt s x).1.Finite ∧
      |((⟨.zero, false⟩ : Environment).result fmt s x).1.toRat| ≤ |x|) := by
  have hl := largest_lt fmt
  have hl0 := fmt.largest_pos
  by_cases hx : x = 0
  · subst hx
    simp [Environment.result, Binary.AtMost, Binary.AtLeast, Binary.toRat, Binary.Finite]
  refine ⟨?_, ?_, ?_⟩
  · have ht : fmt.roundIn .down x ≤ x := toward (fmt := fmt) (dir := .down) hx
    refine result_cases .down fmt s hx (P := fun b => b.AtMost x) (fun h => ?_) (fun _ _ => ht) fun h => ?_
    · rw [h] at ht
      exact ht
    · refine tooLarge_cases .down fmt hf _ (P := fun b => b.AtMost x) (fun h' _ _ => ?_) fun h' => h'
      have hn : decide (x < 0) = false := h'
      have h0 := roundIn_nonneg fmt .down (not_lt.mp (of_decide_eq_false hn))
      rw [abs_of_nonneg h0] at h
      show (if decide (x < 0) = true then -fmt.largest else fmt.largest) ≤ x
      rw [hn]
      simp only [Bool.false_eq_true, if_false]
      linarith
  · have ht : x ≤ fmt.roundIn .up x := toward (fmt := fmt) (dir := .up) hx
    refine result_cases .up fmt s hx (P := fun b => b.AtLeast x) (fun h => ?_) (fun _ _ => ht) fun h => ?_
    · rw [h] at ht
      exact ht
    · refine tooLarge_cases .up fmt hf _ (P := fun b => b.AtLeast x) (fun h' _ _ => ?_) fun h' => ?_
      · have hn : decide (x < 0) = true := by simpa [Direction.infinite] using h'
        have h0 := roundIn_nonpos fmt .up (of_decide_eq_true hn).le
        rw [abs_of_nonpos h0] at h
        show x ≤ (if decide (x < 0) = true then -fmt.largest else fmt.largest)
        rw [hn]
        simp only [if_true]
        linarith
      · show decide (x < 0) = false
        simpa [Direction.infinite] using h'
  · have ht : |fmt.roundIn .zero x| ≤ |x| := toward (fmt := fmt) (dir := .zero) hx
    refine result_cases .zero fmt s hx (P := fun b => b.Finite ∧ |b.toRat| ≤ |x|) (fun h => ?_)
      (fun _ _ => ⟨trivial, ht⟩) fun h => ?_
    · rw [h] at ht
      exact ⟨trivial, ht⟩
    · refine tooLarge_cases .zero fmt hf _ (P := fun b => b.Finite ∧ |b.toRat| ≤ |x|) (fun _ _ _ => ⟨trivial, ?_⟩)
        fun h' => by simp [Direction.infinite] at h'
      show |(if decide (x < 0) = true then -fmt.largest else fmt.largest)| ≤ |x|
      split
      · rw [abs_neg, abs_of_pos hl0]; linarith
      · rw [abs_of_pos hl0]; linarith

example : ((⟨.up, false⟩ : Environment).result .binary32 false (-2 ^ 200)).1.Finite ∧
    ¬((⟨.up, false⟩ : Environment).result .binary32 false (2 ^ 200)).1.Finite := by
  decide +kernel

private theorem operand_default (d : Direction) (a : Binary fmt) : (⟨d, false⟩ : Environment).operand a = a := by
  cases a with
  | num x hx hr =>
    simp only [Environment.operand]
    rw [if_neg (by simp)]
  | _ => rfl

private theorem result_default {s : Bool} {x : ℚ} (h0 : x = 0 ∨ fmt.round x ≠ 0 ∨ s = decide (x < 0)) :
    ((⟨.nearest, false⟩ : Environment).result fmt s x).1 = Binary.ofRat fmt s x := by
  have hz : fmt.round 0 = 0 := by
    rw [Format.round, zero_div, show (0 : ℚ) = ((0 : Int) : ℚ) from rfl, roundEven_int]
    simp
  have er : fmt.roundIn .nearest x = fmt.round x := rfl
  unfold Environment.result Binary.ofRat
  by_cases hx : x = 0
  · subst hx
    rw [if_pos rfl, dif_pos hz]
  · rw [if_neg hx]
    by_cases hr : fmt.round x = 0
    · rw [dif_pos (show fmt.roundIn (⟨.nearest, false⟩ : Environment).direction x = 0 from hr), dif_pos hr]
      rcases h0 with h0 | h0 | h0
      · exact absurd h0 hx
      · exact absurd hr h0
      · rw [h0]
    · rw [dif_neg (show ¬ fmt.roundIn (⟨.nearest, false⟩ : Environment).direction x = 0 from hr), dif_neg hr, if_neg (by simp)]
      by_cases hm : |fmt.round x| < (2 : ℚ) ^ fmt.maxExp
      · rw [dif_pos (show |fmt.roundIn (⟨.nearest, false⟩ : Environment).direction x| < _ from hm), dif_pos hm]
        rfl
      · rw [dif_neg (show ¬ |fmt.roundIn (⟨.nearest, false⟩ : Environment).direction x| < _ from hm), dif_neg hm]
        simp [Environment.tooLarge, Direction.infinite]

private theorem xor_mul {x y : ℚ} (hx : x ≠ 0) (hy : y ≠ 0) : (decide (x < 0) ^^ decide (y < 0)) = decide (x * y < 0) := by
  rcases lt_or_gt_of_ne hx with h | h <;> rcases lt_or_gt_of_ne hy with h' | h' <;>
    simp [h, h', h.not_gt, h'.not_gt, mul_neg_iff]

private theorem xor_div {x y : ℚ} (hx : x ≠ 0) (hy : y ≠ 0) : (decide (x < 0) ^^ decide (y < 0)) = decide (x / y < 0) := by
  rcases lt_or_gt_of_ne hx with h | h <;> rcases lt_or_gt_of_ne hy with h' | h' <;>
    simp [h, h', h.not_gt, h'.not_gt, div_neg_iff]

/-- C81: in the default environment, the arithmetic is that of the other properties. -/
theorem C81_default (a b : Binary fmt) :
    ((⟨.nearest, false⟩ : Environment).sub a b).1 = a - b ∧ ((⟨.nearest, false⟩ : Environment).mul a b).1 = a * b ∧
      ((⟨.nearest, false⟩ : Environment).div a b).1 = a / b := by
  refine ⟨?_, ?_, ?_⟩
  · unfold Environment.sub
    rw [operand_default, operand_default]
    have key : ∀ {a b : Binary fmt}, (a.toRat - b.toRat = 0 ∨ fmt.round (a.toRat - b.toRat) ≠ 0 ∨
        false = decide (a.toRat - b.toRat < 0)) := by
      intro a b
      by_cases h : a.toRat - b.toRat = 0
      · exact Or.inl h
      · refine Or.inr (Or.inl fun hz => ?_)
        obtain ⟨k, hk⟩ := a.multiple
        obtain ⟨l, hl⟩ := b.multiple
        have h1 := fmt.round_multiple (x := a.toRat - b.toRat) ⟨k - l, by rw [hk, hl]; push_cast; ring⟩
        rw [hz, zero_sub, abs_neg] at h1
        have h2 : (2 : ℚ) ^ (-fmt.precision : Int) < 1 := (Binary.rounding fmt).u_lt_one
        have h3 := abs_pos.mpr h
        nlinarith
    cases a <;> cases b <;> first
      | rfl
      | exact result_default key
      | (rename_i s t; cases s <;> cases t <;> rfl)
  · unfold Environment.mul
    rw [operand_default, operand_default]
    cases a <;> cases b <;> first
      | rfl
      | (refine result_default ?_
         first
          | (left; simp [Binary.toRat]; done)
          | (rename_i x hx _ y hy _; exact Or.inr (Or.inr (xor_mul hx hy))))
  · unfold Environment.div
    rw [operand_default, operand_default]
    cases a <;> cases b <;> first
      | rfl
      | (refine result_default ?_
         first
          | (left; simp [Binary.toRat]; done)
          | (rename_i x hx _ y hy _; exact Or.inr (Or.inr (xor_div hx hy))))

/-- C81: differences, products and quotients of finite numbers. Rounding downwards and upwards encloses the exact
result, also if it is too large; and whether it was too large is reported in every environment. -/
theorem C81_operations (fmt : Format) (hf : fmt.minExp ≤ fmt.maxExp - fmt.precision) (a b : Binary fmt) (ha : a.Finite)
    (hb : b.Finite) :
    (((⟨.down, false⟩ : Environment).sub a b).1.AtMost (a.toRat - b.toRat) ∧
      ((⟨.up, false⟩ : Environment).sub a b).1.AtLeast (a.toRat - b.toRat)) ∧
    (((⟨.down, false⟩ : Environment).mul a b).1.AtMost (a.toRat * b.toRat) ∧
      ((⟨.up, false⟩ : Environment).mul a b).1.AtLeast (a.toRat * b.toRat)) ∧
    (b.toRat ≠ 0 → ((⟨.down, false⟩ : Environment).div a b).1.AtMost (a.toRat / b.toRat) ∧
      ((⟨.up, false⟩ : Environment).div a b).1.AtLeast (a.toRat / b.toRat)) := by
  refine ⟨?_, ?_, ?_⟩
  · unfold Environment.sub
    rw [operand_default, operand_default, operand_default, operand_default]
    cases a <;> cases b <;> first
      | exact ha.elim
      | exact hb.elim
      | exact ⟨(C81_enclosed fmt hf _ _).1, (C81_enclosed fmt hf _ _).2.1⟩
      | simp [Binary.AtMost, Binary.AtLeast, Binary.toRat]
  · unfold Environment.mul
    rw [operand_default, operand_default, operand_default, operand_default]
    cases a <;> cases b <;> first
      | exact ha.elim
      | exact hb.elim
      | exact ⟨(C81_enclosed fmt hf _ _).1, (C81_enclosed fmt hf _ _).2.1⟩
  · intro h0
    unfold Environment.div
    rw [operand_default, operand_default, operand_default, operand_default]
    cases a <;> cases b <;> first
      | exact ha.elim
      | exact hb.elim
      | exact absurd rfl h0
      | exact ⟨(C81_enclosed fmt hf _ _).1, (C81_enclosed fmt hf _ _).2.1⟩

private theorem result_flag (e : Environment) (s : Bool) (x : ℚ) :
    (e.result fmt s x).2 = true ↔ 2 ^ fmt.maxExp ≤ |fmt.roundIn e.direction x| ∧
      (e.flush = true → fmt.smallestNormal ≤ |fmt.roundIn e.direction x|) := by
  have hp := two_zpow_pos fmt.maxExp
  have hz : fmt.roundIn e.direction 0 = 0 := by
    have h1 := roundIn_nonneg fmt e.direction (x := 0) le_rfl
    have h2 := roundIn_nonpos fmt e.direction (x := 0) le_rfl
    linarith
  unfold Environment.result
  split
  · next h =>
    subst h
    rw [hz]
    simp
    intro h
    linarith
  split
  · next h =>
    rw [h]
    simp
    intro h
    linarith
  split
  · next h =>
    simp only [Bool.false_eq_true, false_iff, not_and]
    exact fun _ h' => absurd (h' h.1) (not_le.mpr h.2)
  · next h =>
    split
    · next h' =>
      simp only [Bool.false_eq_true, false_iff, not_and]
      exact fun h'' => absurd h' (not_lt.mpr h'')
    · next h' =>
      simp only [true_iff]
      refine ⟨not_lt.mp h', fun hf => ?_⟩
      by_contra hn
      exact h ⟨hf, not_le.mp hn⟩

/-- C81: an operation with finite numbers is reported as too large exactly if the rounded exact result is, for the values
for which the operands stand. -/
theorem C81_flag (fmt : Format) (hf : fmt.minExp + fmt.precision ≤ fmt.maxExp) (e : Environment) (a b : Binary fmt)
    (ha : a.Finite) (hb : b.Finite) :
    ((e.sub a b).2 = true ↔ 2 ^ fmt.maxExp ≤ |fmt.roundIn e.direction ((e.operand a).toRat - (e.operand b).toRat)|) ∧
    ((e.mul a b).2 = true ↔ 2 ^ fmt.maxExp ≤ |fmt.roundIn e.direction ((e.operand a).toRat * (e.operand b).toRat)|) ∧
    ((e.operand b).toRat ≠ 0 →
      ((e.div a b).2 = true ↔ 2 ^ fmt.maxExp ≤ |fmt.roundIn e.direction ((e.operand a).toRat / (e.operand b).toRat)|)) := by
  have hs : fmt.smallestNormal ≤ 2 ^ fmt.maxExp := by
    unfold Format.smallestNormal
    exact zpow_le_zpow_right₀ (by norm_num) (by omega)
  have key : ∀ s x, (e.result fmt s x).2 = true ↔ 2 ^ fmt.maxExp ≤ |fmt.roundIn e.direction x| := fun s x => by
    rw [result_flag]
    exact ⟨fun h => h.1, fun h => ⟨h, fun _ => hs.trans h⟩⟩
  have hz : ¬ (2 : ℚ) ^ fmt.maxExp ≤ |fmt.roundIn e.direction 0| := by
    have := key false 0
    simp [Environment.result] at this ⊢
    exact this
  have ho : ∀ a : Binary fmt, a.Finite → (e.operand a).Finite := by
    intro a h
    cases a with
    | num x hx hr => simp only [Environment.operand]; split <;> trivial
    | _ => exact h
  have ha' := ho a ha
  have hb' := ho b hb
  refine ⟨?_, ?_, ?_⟩
  · unfold Environment.sub
    cases h : e.operand a <;> cases h' : e.operand b <;> rw [h] at ha' <;> rw [h'] at hb' <;> first
      | exact ha'.elim
      | exact hb'.elim
      | exact key _ _
      | simpa [Binary.toRat] using hz
  · unfold Environment.mul
    cases h : e.operand a <;> cases h' : e.operand b <;> rw [h] at ha' <;> rw [h'] at hb' <;> first
      | exact ha'.elim
      | exact hb'.elim
      | exact key _ _
  · intro h0
    unfold Environment.div
    cases h : e.operand a <;> cases h' : e.operand b <;> rw [h] at ha' <;> rw [h'] at hb' h0 <;> first
      | exact ha'.elim
      | exact hb'.elim
      | exact absurd rfl h0
      | exact key _ _

/-- C81: infinite operands and undefined results are treated alike in all environments, up to replacing subnormal
operands by zero. -/
theorem C81_special (e : Environment) (a b : Binary fmt) :
    (¬ (a.Finite ∧ b.Finite) →
      e.sub a b = (e.operand a - e.operand b, false) ∧ e.mul a b = (e.operand a * e.operand b, false) ∧
        e.div a b = (e.operand a / e.operand b, false)) ∧
    ((e.operand b).toRat = 0 → b.Finite → e.div a b = (e.operand a / e.operand b, false)) := by
  constructor
  · intro h
    have e1 : ∀ s, e.operand (.inf s : Binary fmt) = .inf s := fun _ => rfl
    have e2 : ∀ s, e.operand (.zero s : Binary fmt) = .zero s := fun _ => rfl
    have e3 : e.operand (.nan : Binary fmt) = .nan := rfl
    have ho : ¬((e.operand a).Finite ∧ (e.operand b).Finite) := by
      have key : ∀ a : Binary fmt, (e.operand a).Finite → a.Finite := by
        intro a h
        cases a with
        | num x hx hr => trivial
        | _ => exact h
      exact fun h' => h ⟨key a h'.1, key b h'.2⟩
    unfold Environment.sub Environment.mul Environment.div
    generalize e.operand a = a' at ho ⊢
    generalize e.operand b = b' at ho ⊢
    cases a' <;> cases b' <;> simp only [Binary.Finite, and_self, not_true, and_false, and_true] at ho <;>
      refine ⟨?_, ?_, ?_⟩ <;> rfl
  · intro h0 hb
    unfold Environment.div
    cases h : e.operand a <;> cases h' : e.operand b <;> first
      | rfl
      | (rw [h'] at h0; exact absurd h0 ‹_›)

private theorem normal_le_largest (h : fmt.minExp ≤ fmt.maxExp - fmt.precision) : fmt.smallestNormal ≤ fmt.largest := by
  obtain ⟨p, hp⟩ : ∃ p, fmt.precision = p + 1 := ⟨fmt.precision - 1, by have := fmt.precision_pos; omega⟩
  unfold Format.smallestNormal Format.largest
  have e : (2 : ℚ) ^ (fmt.minExp + ((fmt.precision : Int) - 1)) = 2 ^ p * 2 ^ fmt.minExp := by
    rw [hp, ← zpow_natCast, ← zpow_add₀ (by norm_num)]
    congr 1
    push_cast
    ring
  rw [e]
  have h1 : (2 : ℚ) ^ p ≤ 2 ^ fmt.precision - 1 := by
    rw [hp, pow_succ]
    have : (1 : ℚ) ≤ 2 ^ p := one_le_pow₀ (by norm_num)
    linarith
  exact mul_le_mul h1 (zpow_le_zpow_right₀ (by norm_num) h) (two_zpow_pos _).le (le_trans (by positivity) h1)

/-- C81: with subnormal results replaced by zero, every result is what it is otherwise, but for those: they become zeros
of the same sign. -/
theorem C81_flush (fmt : Format) (hf : fmt.minExp ≤ fmt.maxExp - fmt.precision) (dir : Direction) (s : Bool) (x : ℚ) :
    (⟨dir, true⟩ : Environment).result fmt s x =
      if ((⟨dir, false⟩ : Environment).result fmt s x).1.toRat ≠ 0 ∧
          |((⟨dir, false⟩ : Environment).result fmt s x).1.toRat| < fmt.smallestNormal then
        (.zero ((⟨dir, false⟩ : Environment).result fmt s x).1.negative, false)
      else (⟨dir, false⟩ : Environment).result fmt s x := by
  have hs : 0 < fmt.smallestNormal := two_zpow_pos _
  by_cases hx : x = 0
  · simp [Environment.result, hx, Binary.toRat]
  by_cases h0 : fmt.roundIn dir x = 0
  · simp [Environment.result, hx, h0, Binary.toRat]
  have hsign : decide (fmt.roundIn dir x < 0) = decide (x < 0) := by
    rcases lt_or_gt_of_ne hx with h | h
    · have := lt_of_le_of_ne (roundIn_nonpos fmt dir h.le) h0
      simp [h, this]
    · have := lt_of_le_of_ne (roundIn_nonneg fmt dir h.le) (Ne.symm h0)
      simp [h.not_gt, this.not_gt]
  by_cases hr : |fmt.roundIn dir x| < (2 : ℚ) ^ fmt.maxExp
  · by_cases hn : |fmt.roundIn dir x| < fmt.smallestNormal
    · simp [Environment.result, hx, h0, hr, hn, Binary.toRat, Binary.negative, hsign]
    · simp [Environment.result, hx, h0, hr, hn, Binary.toRat]
  · by_cases hn : |fmt.roundIn dir x| < fmt.smallestNormal
    · have := normal_le_largest hf
      have := largest_lt fmt
      exact absurd hn (not_lt.mpr (by linarith [not_lt.mp hr]))
    · have hl : ¬ (((⟨dir, false⟩ : Environment).tooLarge fmt (decide (x < 0))).toRat ≠ 0 ∧
          |((⟨dir, false⟩ : Environment).tooLarge fmt (decide (x < 0))).toRat| < fmt.smallestNormal) := by
        unfold Environment.tooLarge
        split
        · next h =>
          have := normal_le_largest h.1
          rintro ⟨-, h'⟩
          change |(if decide (x < 0) = true then -fmt.largest else fmt.largest)| < _ at h'
          split at h'
          · rw [abs_neg, abs_of_pos fmt.largest_pos] at h'
            linarith
          · rw [abs_of_pos fmt.largest_pos] at h'
            linarith
        · simp [Binary.toRat]
      have e1 : (⟨dir, true⟩ : Environment).tooLarge fmt (decide (x < 0)) =
          (⟨dir, false⟩ : Environment).tooLarge fmt (decide (x < 0)) := rfl
      simp only [Environment.result, hx, h0, hr, hn, if_false, dif_neg, not_false_eq_true, and_false, e1]
      rw [if_neg hl]

example : (⟨.up, true⟩ : Environment).result .binary32 false (-2 ^ (-130 : Int)) = (.zero true, false) ∧
    ((⟨.up, false⟩ : Environment).result .binary32 false (-2 ^ (-130 : Int))).1.toRat = -2 ^ (-130 : Int) := by
  constructor
  · have h := C81_flush .binary32 (by decide) .up false (-2 ^ (-130 : Int))
    rw [if_pos (by decide +kernel)] at h
    rw [h]
    have : ((⟨.up, false⟩ : Environment).result .binary32 false (-2 ^ (-130 : Int))).1.negative = true := by decide +kernel
    rw [this]
  · decide +kernel

/-! ### The program -/

private theorem flagged_hom : Hom (Flagged.value (fmt := fmt) (e := e)) :=
  ⟨rfl, fun _ _ => rfl, fun _ _ => rfl, fun _ _ => rfl⟩

theorem flagged_factorize {d : Dims} {f : ArrowheadFactor (Directed fmt e)} {m : ArrowheadMatrix (Directed fmt e)}
    {reg : Directed fmt e → Nat → Directed fmt e} {method : Method} {t : ArrowheadFactor (Flagged fmt e)}
    (h : (f.map Flagged.given).factorize d.tridiag d.link d.outer (m.map Flagged.given) (Flagged.lift reg) method = .ok t) :
    f.factorize d.tridiag d.link d.outer m reg method = .ok (t.map Flagged.value) := by
  have h0 := ArrowheadFactor.factorize_hom (reg := Flagged.lift reg) (reg' := reg) flagged_hom (fun _ _ => rfl) d.tridiag
    d.link d.outer (f.map Flagged.given) (m.map Flagged.given) method
  have h1 : (f.map Flagged.given).map Flagged.value = f := by
    rw [ArrowheadFactor.map_map]
    simp [ArrowheadFactor.map, DiagFactor.map, SubFactor.map, Flagged.given]
  have h2 : (m.map Flagged.given).map Flagged.value = m := by
    rw [ArrowheadMatrix.map_map]
    simp [ArrowheadMatrix.map, MatIn.map, Flagged.given]
  rw [h1, h2, h] at h0
  exact h0

theorem flagged_solve {t : ArrowheadFactor (Flagged fmt e)} {b : ArrowheadVector (Directed fmt e)}
    {y : ArrowheadVector (Flagged fmt e)} (h : t.solveInPlace (b.map Flagged.given) = .ok y) :
    (t.map Flagged.value).solveInPlace b = .ok (y.map Flagged.value) := by
  have h0 := ArrowheadFactor.solveInPlace_hom flagged_hom t (b.map Flagged.given)
  have h1 : (b.map Flagged.given).map Flagged.value = b := by
    rw [ArrowheadVector.map_map]
    simp [ArrowheadVector.map, Flagged.given]
  rw [h1, h] at h0
  exact h0

theorem ofSize_map {K L : Type} {b : ArrowheadVector K} {d : Dims} {N : Nat} (g : K → L) (hb : b.OfSize d N) :
    (b.map g).OfSize d N :=
  ⟨by simp [ArrowheadVector.map, hb.num], by simp [ArrowheadVector.map, hb.start], by
    intro l hl
    obtain ⟨l', hl', rfl⟩ := List.mem_map.mp hl
    rw [List.length_map]
    exact hb.tridiag l' hl', by simp [ArrowheadVector.map, hb.link], by simp [ArrowheadVector.map, hb.outer]⟩

/-- C81: residual after factorizing and solving, in any environment. The executions with flags `t`, `y` compute the
numbers of the program, and tell which of them depend on a result which was too large. If the pivots and the solution
are finite and do not, then the residual is at most `(gamma (n + m + 3) + gamma (n + 2)) |L| |D| |Lᵀ| |x|` up to underflow
errors, where `gamma k = 1 / (1 - 2 ^ (1 - p)) ^ k - 1` for the precision `p`. -/
theorem C81_residual (fmt : Format) (hp : 2 ≤ fmt.precision) (e : Environment) (s : ArrowheadSparsity) (d : Dims)
    (hs : s.Valid d) (T : ArrowheadTypes) (N : Nat) (f : ArrowheadFactor (Directed fmt e)) (hf : f.Declared s T d N)
    (A : ArrowheadMatrix (Directed fmt e)) (hA : A.Fits s T d N) (method : Method) (b : ArrowheadVector (Directed fmt e))
    (hb : b.OfSize d N) (n : Nat) (hn : ∀ a ∈ blocks N, ∀ i < d.of a, T.rowEntries N a i ≤ n)
    (m : Nat) (hm : ∀ a ∈ blocks N, ∀ i < d.of a, T.colEntries N a i ≤ m) :
    ∃ (t : ArrowheadFactor (Flagged fmt e)) (y : ArrowheadVector (Flagged fmt e)),
      (f.map Flagged.given).factorize d.tridiag d.link d.outer (A.map Flagged.given) regularizationNone method = .ok t ∧
      t.solveInPlace (b.map Flagged.given) = .ok y ∧
      f.factorize d.tridiag d.link d.outer A regularizationNone method = .ok (t.map Flagged.value) ∧
      (t.map Flagged.value).solveInPlace b = .ok (y.map Flagged.value) ∧
      let growth (k : Nat) : ℚ := 1 / (1 - 2 ^ (1 - fmt.precision : Int)) ^ k
      ((∀ a ∈ blocks N, ∀ i < d.of a, (t.pivotAt a i).Finite) → (∀ a ∈ blocks N, ∀ i < d.of a, (y.at a i).Finite) →
        ∀ ε : ℚ, 0 ≤ ε →
        (∀ a ∈ blocks N, ∀ b ∈ blocks N, ∀ i j, T.Has N a i b j →
          2 * e.tiny fmt * (1 + |(t.pivotAt b j).toRat| * (1 + |(t.map Flagged.toRat).lowerElement N a b i j|)) ≤ ε) →
        ∀ a ∈ blocks N, ∀ i < d.of a,
          |(b.at a (permAt (s.perm a) i)).toRat - ∑ c ∈ blocks N, ∑ j ∈ range (d.of c),
              (A.map Directed.toRat).symElement N a c (permAt (s.perm a) i) j * (y.at c j).toRat| ≤
            ((growth (n + m + 3) - 1) + (growth (n + 2) - 1)) * ∑ c ∈ blocks N, ∑ j ∈ range (d.of c),
              (t.map (fun y => |y.toRat|)).ldlt d N a c i j * |(y.at c (permAt (s.perm c) j)).toRat| +
            (growth (n + m + 3) * (n * (2 * e.tiny fmt) + ∑ c ∈ blocks N, ∑ j ∈ range (d.of c),
              (t.map (fun y => |y.toRat|)).lowerElement N a c i j *
                (|(t.pivotAt c j).toRat| * ((m + 1) * (2 * e.tiny fmt)))) +
            growth (n + 2) * ((n + 1) * ε) * ∑ c ∈ blocks N, ∑ j ∈ range (d.of c),
              |(y.at c (permAt (s.perm c) j)).toRat|)) := by
  obtain ⟨t, h1, hd⟩ := C21_factorize_total s d hs T N (f.map Flagged.given) (hf.map _) (A.map Flagged.given) (hA.map _)
    regularizationNone method
  obtain ⟨⟨y, h2, -⟩, -⟩ := C35_solve_total s d hs T N t hd (b.map Flagged.given) (ofSize_map _ hb)
  refine ⟨t, y, h1, h2, flagged_factorize h1, flagged_solve h2, ?_⟩
  intro growth hpiv hfin ε h0 hε a ha i hi
  obtain ⟨w, hw, hr⟩ := C47_residual (Flagged.rounding fmt e hp) s d hs T N _ (hf.map _) (A.map Flagged.given)
    (hA.map _) regularizationNone method t h1
    (fun a ha i hi => ⟨hpiv a ha i hi, fun y hy => (show t.pivotAt a i = y from hy) ▸ hpiv a ha i hi⟩) ε h0 hε
    _ (ofSize_map _ hb) y h2 hfin n hn m hm
  have h3 := hr a ha i hi
  rw [← show t.pivotAt a i = w a i from hw a ha i hi] at h3
  simp only [sub_self, ite_self, add_zero] at h3
  rw [add_mul, ← sum_congr rfl fun c _ => sum_perm (valid_perm hs c)
    (fun j => (A.map Directed.toRat).symElement N a c (permAt (s.perm a) i) j * (y.at c j).toRat)]
  rw [ArrowheadVector.at_map (g := Flagged.given) rfl, ArrowheadMatrix.map_map] at h3
  exact h3

/-- C81: a repeating block matrix which is positive definite by a margin is factorized, and systems with it are solved,
without overflow and accurately in any environment. All conditions are on the matrix, the right hand side and the
arithmetic, as in C57 and C58; the unit roundoff is `2 ^ (1 - p)` for the precision `p`, and the errors by underflow are
at most `2 * e.tiny fmt`. -/
theorem C81_definite (fmt : Format) (hp : 2 ≤ fmt.precision) (e : Environment) (s : ArrowheadSparsity) (d : Dims)
    (hs : s.Valid d) (T : ArrowheadTypes) (N : Nat) (f : ArrowheadFactor (Directed fmt e)) (hf : f.Declared s T d N)
    (m : ArrowheadMatrix (Directed fmt e)) (hm : m.Fits s T d N) (method : Method)
    (n : Nat) (hn : ∀ a ∈ blocks N, ∀ i < d.of a, T.rowEntries N a i ≤ n)
    (c : Nat) (hc : ∀ a ∈ blocks N, ∀ j < d.of a, T.colEntries N a j < c)
    (Ω α μ Λ ε β : ℚ) (hR : (Flagged.rounding fmt e hp).Ample n c Ω α μ Λ ε)
    (hS : (Flagged.rounding fmt e hp).AmpleSolve n c Ω α μ Λ β)
    (hfin : ∀ k ∈ positions d N, ∀ l ∈ positions d N, (m.assembled N k l).value.Finite)
    (hα : ∀ k ∈ positions d N, (m.map Directed.toRat).assembled N k k ≤ α)
    (hpd : PosDef (positions d N) μ fun k l => (m.map Directed.toRat).assembled N k l -
      if k = l then (Flagged.rounding fmt e hp).margin n c (positions d N).card ε
        ((m.map Directed.toRat).assembled N k k) else 0)
    (reg : Directed fmt e → Nat → Directed fmt e)
    (hreg : ∀ x i, x.value.Finite → μ < x.toRat → reg x i = x) :
    ∃ f', f.factorize d.tridiag d.link d.outer m reg method = .ok f' ∧
      (∀ a ∈ blocks N, ∀ i < d.of a,
        (f'.pivotAt a i).value.Finite ∧ μ < (f'.pivotAt a i).toRat ∧ (f'.pivotAt a i).toRat ≤ 3 * α) ∧
      ∀ b : ArrowheadVector (Directed fmt e), b.OfSize d N →
        (∀ a ∈ blocks N, ∀ i < d.of a, (b.at a i).value.Finite) →
        ∑ k ∈ positions d N, (b.at k.1 k.2).toRat ^ 2 +
          (positions d N).card * ((2 + 2 * α * μ) * (2 * (n + c) * (2 * e.tiny fmt)) ^ 2) ≤ β ^ 2 →
        ∃ x, f'.solveInPlace b = .ok x ∧ x.OfSize d N ∧ (∀ a ∈ blocks N, ∀ i < d.of a, (x.at a i).value.Finite) ∧
          μ ^ 2 * ∑ k ∈ positions d N, (x.at k.1 k.2).toRat ^ 2 ≤ (9 * β) ^ 2 ∧
          let growth (k : Nat) : ℚ := 1 / (1 - 2 ^ (1 - fmt.precision : Int)) ^ k
          let A := (m.map Directed.toRat).assembled N
          let e' := growth (n + 2) * ((n + 1) * ε)
          let B := fun k l => ((A k k + A l l) / 2 + e') / (1 - (growth (n + 2) - 1))
          ∀ k ∈ positions d N, |(b.at k.1 k.2).toRat - ∑ l ∈ positions d N, A k l * (x.at l.1 l.2).toRat| ≤
            ((growth (n + c + 2) - 1) + (growth (n + 2) - 1)) * ∑ l ∈ positions d N, B k l * |(x.at l.1 l.2).toRat| +
            (growth (n + c + 2) * (2 * e.tiny fmt) * (n + c * ∑ l ∈ positions d N, B k l) +
              e' * ∑ l ∈ positions d N, |(x.at l.1 l.2).toRat|) := by
  have hmv : (m.map Flagged.given).map (Flagged.rounding fmt e hp).v = m.map Directed.toRat := by
    rw [ArrowheadMatrix.map_map]
    rfl
  have hfin' : ∀ k ∈ positions d N, ∀ l ∈ positions d N, (Flagged.rounding fmt e hp).fin
      ((m.map Flagged.given).assembled N k l) ∧ (Flagged.rounding fmt e hp).stored ((m.map Flagged.given).assembled N k l) :=
    fun k hk l hl => ⟨by
      rw [ArrowheadMatrix.assembled, matrix_symElement_map (g := Flagged.given) rfl]
      exact ⟨hfin k hk l hl, rfl⟩, trivial⟩
  have hreg' : ∀ x i, (Flagged.rounding fmt e hp).fin x → μ < (Flagged.rounding fmt e hp).v x → Flagged.lift reg x i = x :=
    fun x i h1 h2 => by
      have h3 := hreg x.value i h1.1 h2
      rw [Flagged.lift, h3]
  rw [← hmv] at hα hpd
  obtain ⟨t, h1, h2, -⟩ := C57_repeating (Flagged.rounding fmt e hp) s d hs T N _ (hf.map _) (m.map Flagged.given)
    (hm.map _) method n hn c hc Ω α μ Λ ε hR hfin' hα hpd (Flagged.lift reg) hreg'
  obtain ⟨t', h1', h3⟩ := C58_repeating (Flagged.rounding fmt e hp) s d hs T N _ (hf.map _) (m.map Flagged.given)
    (hm.map _) method n hn c hc Ω α μ Λ ε β hR hS hfin' hα hpd (Flagged.lift reg) hreg'
  rw [h1] at h1'
  cases h1'
  refine ⟨t.map Flagged.value, flagged_factorize h1, fun a ha i hi => ?_, fun b hb hbf hβ => ?_⟩
  · rw [pivotAt_map (g := Flagged.value) rfl]
    exact ⟨(h2 a ha i hi).1.1, (h2 a ha i hi).2⟩
  have hat : ∀ a i, (b.map Flagged.given).at a i = Flagged.given (b.at a i) := fun a i =>
    ArrowheadVector.at_map (g := Flagged.given) rfl b a i
  obtain ⟨x, hx, x1, x2, x3, x4⟩ := h3 (b.map Flagged.given) (ofSize_map _ hb)
    (fun a ha i hi => ⟨by rw [hat]; exact ⟨hbf a ha i hi, rfl⟩, trivial⟩) (by
      simp only [hat]
      exact hβ)
  have hat' : ∀ a i, (x.map Flagged.value).at a i = (x.at a i).value := fun a i =>
    ArrowheadVector.at_map (g := Flagged.value) rfl x a i
  refine ⟨x.map Flagged.value, flagged_solve hx, ofSize_map _ x1, fun a ha i hi => ?_, ?_, ?_⟩
  · rw [hat']
    exact (x2 a ha i hi).1
  · simp only [hat']
    exact x3
  · intro growth A e' B k hk
    have h5 := x4 k hk
    rw [hmv] at h5
    simp only [hat'] at h5 ⊢
    rw [hat] at h5
    exact h5

/-! ### Single matrices -/

theorem flagged_factorize_single {f : DiagFactor (Directed fmt e)} {m : MatIn (Directed fmt e)}
    {reg : Directed fmt e → Nat → Directed fmt e} {method : Method} {t : DiagFactor (Flagged fmt e)}
    (h : (f.map Flagged.given).factorize (m.map Flagged.given) (Flagged.lift reg) method = .ok t) :
    f.factorize m reg method = .ok (t.map Flagged.value) := by
  have h0 := DiagFactor.factorize_hom (reg := Flagged.lift reg) (reg' := reg) flagged_hom (fun _ _ => rfl)
    (f.map Flagged.given) (m.map Flagged.given) method
  have hi : (Flagged.value ∘ Flagged.given : Directed fmt e → Directed fmt e) = id := rfl
  have h1 : (f.map Flagged.given).map Flagged.value = f := by
    simp [DiagFactor.map, hi]
  have h2 : (m.map Flagged.given).map Flagged.value = m := by
    simp [MatIn.map, hi]
  rw [h1, h2, h] at h0
  exact h0

theorem flagged_solve_single {t : DiagFactor (Flagged fmt e)} {b : List (Directed fmt e)} {y : List (Flagged fmt e)}
    (h : t.solveInPlace (b.map Flagged.given) = .ok y) :
    (t.map Flagged.value).solveInPlace b = .ok (y.map Flagged.value) := by
  have h0 := DiagFactor.solveInPlace_hom flagged_hom t (b.map Flagged.given)
  have hi : (Flagged.value ∘ Flagged.given : Directed fmt e → Directed fmt e) = id := rfl
  rw [h, List.map_map, hi, List.map_id] at h0
  exact h0

private theorem getD_map {K F : Type} [Zero K] [Zero F] {g : K → F} (hg : g 0 = 0) (l : List K) (i : Nat) :
    (l.map g).getD i 0 = g (l.getD i 0) := by
  simp only [List.getD_eq_getElem?_getD, List.getElem?_map]
  cases l[i]? <;> simp [hg]

theorem getD_given (b : List (Directed fmt e)) (i : Nat) :
    (b.map Flagged.given).getD i 0 = Flagged.given (b.getD i 0) :=
  getD_map rfl b i

theorem getD_value (b : List (Flagged fmt e)) (i : Nat) : (b.map Flagged.value).getD i 0 = (b.getD i 0).value :=
  getD_map rfl b i

/-- C81: the same for single matrices. -/
theorem C81_definite_single (fmt : Format) (hp : 2 ≤ fmt.precision) (e : Environment) (s : Sparsity) (p : List Nat)
    (hv : ValidSparsity s p) (f : DiagFactor (Directed fmt e)) (hf : f.Declared s p) (m : MatIn (Directed fmt e))
    (hm : m.Fits s p) (method : Method)
    (n : Nat) (hn : ∀ i < s.numRows, f.sparsity.rowEntries i ≤ n)
    (c : Nat) (hc : ∀ j < s.numRows, f.sparsity.colEntries j < c)
    (Ω α μ Λ ε β : ℚ) (hR : (Flagged.rounding fmt e hp).Ample n c Ω α μ Λ ε)
    (hS : (Flagged.rounding fmt e hp).AmpleSolve n c Ω α μ Λ β)
    (hfin : ∀ i < s.numRows, ∀ j < s.numRows, (m.sym i j).value.Finite)
    (hα : ∀ i < s.numRows, (m.sym i i).toRat ≤ α)
    (hpd : PosDef (range s.numRows) μ fun i j => (m.sym i j).toRat -
      if i = j then (Flagged.rounding fmt e hp).margin n c s.numRows ε (m.sym i i).toRat else 0)
    (reg : Directed fmt e → Nat → Directed fmt e)
    (hreg : ∀ x i, x.value.Finite → μ < x.toRat → reg x i = x) :
    ∃ f', f.factorize m reg method = .ok f' ∧
      (∀ i < s.numRows, (f'.pivot i).value.Finite ∧ μ < (f'.pivot i).toRat ∧ (f'.pivot i).toRat ≤ 3 * α) ∧
      ∀ b : List (Directed fmt e), b.length = s.numRows → (∀ i < s.numRows, (b.getD i 0).value.Finite) →
        ∑ i ∈ range s.numRows, (b.getD i 0).toRat ^ 2 +
          s.numRows * ((2 + 2 * α * μ) * (2 * (n + c) * (2 * e.tiny fmt)) ^ 2) ≤ β ^ 2 →
        ∃ x, f'.solveInPlace b = .ok x ∧ x.length = s.numRows ∧ (∀ i < s.numRows, (x.getD i 0).value.Finite) ∧
          μ ^ 2 * ∑ i ∈ range s.numRows, (x.getD i 0).toRat ^ 2 ≤ (9 * β) ^ 2 ∧
          let growth (k : Nat) : ℚ := 1 / (1 - 2 ^ (1 - fmt.precision : Int)) ^ k
          let A := fun i j => (m.sym i j).toRat
          let e' := growth (n + 2) * ((n + 1) * ε)
          let B := fun i j => ((A i i + A j j) / 2 + e') / (1 - (growth (n + 2) - 1))
          ∀ i < s.numRows, |(b.getD i 0).toRat - ∑ j ∈ range s.numRows, A i j * (x.getD j 0).toRat| ≤
            ((growth (n + c + 2) - 1) + (growth (n + 2) - 1)) * ∑ j ∈ range s.numRows, B i j * |(x.getD j 0).toRat| +
            (growth (n + c + 2) * (2 * e.tiny fmt) * (n + c * ∑ j ∈ range s.numRows, B i j) +
              e' * ∑ j ∈ range s.numRows, |(x.getD j 0).toRat|) := by
  have hsym : ∀ i j, (m.map Flagged.given).sym i j = Flagged.given (m.sym i j) := fun i j => sym_map rfl m i j
  have hfin' : ∀ i < s.numRows, ∀ j < s.numRows, (Flagged.rounding fmt e hp).fin ((m.map Flagged.given).sym i j) ∧
      (Flagged.rounding fmt e hp).stored ((m.map Flagged.given).sym i j) := fun i hi j hj => ⟨by
      rw [hsym]
      exact ⟨hfin i hi j hj, rfl⟩, trivial⟩
  have hα' : ∀ i < s.numRows, (Flagged.rounding fmt e hp).v ((m.map Flagged.given).sym i i) ≤ α := fun i hi => by
    rw [hsym]
    exact hα i hi
  have hreg' : ∀ x i, (Flagged.rounding fmt e hp).fin x → μ < (Flagged.rounding fmt e hp).v x → Flagged.lift reg x i = x :=
    fun x i h1 h2 => by
      have h3 := hreg x.value i h1.1 h2
      rw [Flagged.lift, h3]
  have hpd' : PosDef (range s.numRows) μ fun i j => (Flagged.rounding fmt e hp).v ((m.map Flagged.given).sym i j) -
      if i = j then (Flagged.rounding fmt e hp).margin n c s.numRows ε
        ((Flagged.rounding fmt e hp).v ((m.map Flagged.given).sym i i)) else 0 := by
    simp only [hsym]
    exact hpd
  have hd : (f.map Flagged.given).Declared s p := hf.map' _
  obtain ⟨t, h1, h2, -⟩ := C57_single (Flagged.rounding fmt e hp) s p hv _ hd (m.map Flagged.given)
    (hm.map' _) method n hn c hc Ω α μ Λ ε hR hfin' hα' hpd' (Flagged.lift reg) hreg'
  obtain ⟨t', h1', h3⟩ := C58_single (Flagged.rounding fmt e hp) s p hv _ hd (m.map Flagged.given)
    (hm.map' _) method n hn c hc Ω α μ Λ ε β hR hS hfin' hα' hpd' (Flagged.lift reg) hreg'
  rw [h1] at h1'
  cases h1'
  refine ⟨t.map Flagged.value, flagged_factorize_single h1, fun i hi => ?_, fun b hb hbf hβ => ?_⟩
  · rw [show (t.map Flagged.value).pivot i = (t.pivot i).value from getD_map rfl t.D i]
    exact ⟨(h2 i hi).1.1, (h2 i hi).2⟩
  obtain ⟨x, hx, x1, x2, x3, x4⟩ := h3 (b.map Flagged.given) (by rw [List.length_map, hb])
    (fun i hi => ⟨by rw [getD_given]; exact ⟨hbf i hi, rfl⟩, trivial⟩) (by
      simp only [getD_given]
      exact hβ)
  refine ⟨x.map Flagged.value, flagged_solve_single hx, by rw [List.length_map, x1], fun i hi => ?_, ?_, ?_⟩
  · rw [getD_value]
    exact (x2 i hi).1
  · simp only [getD_value]
    exact x3
  · intro growth A e' B k hk
    have h5 := x4 k hk
    simp only [hsym, getD_given] at h5
    simp only [getD_value]
    exact h5

/-! ### Overflow may go unnoticed

When results which are too large are rounded towards zero, they become the largest finite number, and nothing in the
solution shows that it is wrong. So the flags in `C81_residual` cannot be replaced by the solution being finite. -/

/-- A matrix with the single entry `2 ^ (-1000)`. -/
def tinyM (e : Environment) : MatIn (Directed .binary64 e) :=
  ⟨⟨1, 1, [⟨0, 0⟩]⟩, [⟨Binary.ofRat .binary64 false (2 ^ (-1000 : Int))⟩]⟩

/-- The right hand side `2 ^ 1000`. -/
def hugeB (e : Environment) : List (Directed .binary64 e) := [⟨Binary.ofRat .binary64 false (2 ^ (1000 : Int))⟩]

/-- C81: a counterexample. When rounding towards zero, the solution of this system is finite and no operation is invalid,
but its residual is more than half of the right hand side. The flag tells. -/
theorem C81_overflow_unnoticed :
    let e : Environment := ⟨.zero, false⟩
    let f : DiagFactor (Directed .binary64 e) := ⟨csrOf ⟨1, 1, []⟩, [0], [], [0]⟩
    ∃ f' x, f.factorize (tinyM e) regularizationNone .upLooking = .ok f' ∧ f'.solveInPlace (hugeB e) = .ok x ∧
      (x.getD 0 0).value.Finite ∧
      ((hugeB e).getD 0 0).toRat < 2 * (((hugeB e).getD 0 0).toRat - ((tinyM e).sym 0 0).toRat * (x.getD 0 0).toRat) ∧
      ∃ t y, (f.map Flagged.given).factorize ((tinyM e).map Flagged.given) regularizationNone .upLooking = .ok t ∧
        t.solveInPlace ((hugeB e).map Flagged.given) = .ok y ∧ (y.getD 0 0).overflow = true := by
  intro e f
  have h1 : (do
      let f' ← f.factorize (tinyM e) regularizationNone .upLooking
      let x ← f'.solveInPlace (hugeB e)
      return decide ((x.getD 0 0).value.Finite ∧
        ((hugeB e).getD 0 0).toRat < 2 * (((hugeB e).getD 0 0).toRat - ((tinyM e).sym 0 0).toRat * (x.getD 0 0).toRat))) =
      (.ok true : Res Bool) := by decide +kernel
  have h2 : (do
      let t ← (f.map Flagged.given).factorize ((tinyM e).map Flagged.given) regularizationNone .upLooking
      let y ← t.solveInPlace ((hugeB e).map Flagged.given)
      return (y.getD 0 0).overflow) = (.ok true : Res Bool) := by decide +kernel
  obtain ⟨f', h3, h1⟩ := bind_eq_ok.mp h1
  obtain ⟨x, h4, h1⟩ := bind_eq_ok.mp h1
  obtain ⟨t, h5, h2⟩ := bind_eq_ok.mp h2
  obtain ⟨y, h6, h2⟩ := bind_eq_ok.mp h2
  obtain ⟨h7, h8⟩ := of_decide_eq_true (Except.ok.inj h1)
  exact ⟨f', x, h3, h4, h7, h8, t, y, h5, h6, Except.ok.inj h2⟩

/-! ### Cases meeting the hypotheses: doubles, rounded upwards, with subnormal numbers flushed to zero -/

/-- Rounding upwards, and flushing subnormal numbers to zero. -/
def upwards : Environment := ⟨.up, true⟩

/-- Doubles in this environment. -/
abbrev upwardsR : Rounding (Flagged .binary64 upwards) ℚ := Flagged.rounding .binary64 upwards (by decide)

private theorem upwards_ample : upwardsR.Ample 2 3 (2 ^ (1023 : Int)) 5 (1 / 2) 4 (2 ^ (-1000 : Int)) where
  range := Flagged.range (fmt := .binary64) (by decide) (by decide)
  alpha := by norm_num
  pos := by norm_num
  nonneg := by norm_num
  entry := by norm_num
  small := by decide +kernel
  gamma := by decide +kernel
  max := by decide +kernel
  max_div := by decide +kernel

private theorem upwards_ampleSolve : upwardsR.AmpleSolve 2 3 (2 ^ (1023 : Int)) 5 (1 / 2) 4 hugeNorm where
  gamma := by decide +kernel
  condition := by decide +kernel
  nonneg := by decide +kernel
  max := by decide +kernel
  max_div := by decide +kernel

/-- A matrix of doubles in this environment. -/
def upwardsM : MatIn (Directed .binary64 upwards) := definiteDoubleM.map (⟨·⟩)

example : ∃ f', (witnessF.map (fun x => (⟨Binary.ofRat .binary64 false x⟩ : Directed .binary64 upwards))).factorize upwardsM
      regularizationNone .upLooking = .ok f' ∧
    (∀ i < 3, (f'.pivot i).value.Finite ∧ 1 / 2 < (f'.pivot i).toRat ∧ (f'.pivot i).toRat ≤ 3 * 5) ∧
    ∀ b : List (Directed .binary64 upwards), b.length = 3 →
      (∀ i < 3, (b.getD i 0).value.Finite ∧ |(b.getD i 0).toRat| ≤ hugeRat) →
      ∃ x, f'.solveInPlace b = .ok x ∧ ∀ i < 3, (x.getD i 0).value.Finite := by
  have hc : ∀ i < 3, witnessF.sparsity.rowEntries i ≤ 2 ∧ witnessF.sparsity.colEntries i < 3 := by decide
  obtain ⟨f', h1, h2, h3⟩ := C81_definite_single .binary64 (by decide) upwards witnessS [0, 2, 1] witness_valid _
    (show (witnessF.map (fun x => (⟨Binary.ofRat .binary64 false x⟩ : Directed .binary64 upwards))).Declared witnessS
      [0, 2, 1] from ⟨witness_declared.pattern, rfl, rfl, rfl⟩) upwardsM
    ⟨rfl, witness_valid.inRange, rfl, rfl, fun i j h => .base h h.1⟩ .upLooking 2 (fun i hi => (hc i hi).1) 3
    (fun i hi => (hc i hi).2) _ 5 (1 / 2) 4 _ hugeNorm upwards_ample upwards_ampleSolve
    (by
      have : ∀ i < 3, ∀ j < 3, (upwardsM.sym i j).value.Finite := by decide +kernel
      exact this)
    (by
      have : ∀ i < 3, (upwardsM.sym i i).toRat ≤ 5 := by decide +kernel
      exact this)
    (reducedM_posDef.mono (fun i hi j hj hij => by
      rw [if_neg hij, sub_zero]
      have : ∀ i < 3, ∀ j < 3, i ≠ j → reducedM.sym i j = (upwardsM.sym i j).toRat := by decide +kernel
      exact this i (mem_range.mp hi) j (mem_range.mp hj) hij) fun i hi => by
      rw [if_pos rfl]
      have : ∀ i < 3, reducedM.sym i i ≤ (upwardsM.sym i i).toRat -
        upwardsR.margin 2 3 3 (2 ^ (-1000 : Int)) (upwardsM.sym i i).toRat := by decide +kernel
      exact this i (mem_range.mp hi)) regularizationNone (fun _ _ _ _ => rfl)
  refine ⟨f', h1, h2, fun b hb hbf => ?_⟩
  obtain ⟨x, hx, -, h3, -⟩ := h3 b hb (fun i hi => (hbf i hi).1) (by
    have h4 := sum_sq_le (s := range 3) fun i hi => (hbf i (mem_range.mp hi)).2
    rw [card_range] at h4
    have h5 : (3 : Nat) * hugeRat ^ 2 + (3 : Nat) * ((2 + 2 * 5 * (1 / 2)) *
        (2 * ((2 : Nat) + (3 : Nat)) * (2 * upwards.tiny .binary64)) ^ 2) ≤ hugeNorm ^ 2 := by
      decide +kernel
    exact (add_le_add_left h4 _).trans h5)
  exact ⟨x, hx, h3⟩

private theorem upwards_ample' : upwardsR.Ample 5 4 (2 ^ (1023 : Int)) 7 (1 / 20) 12 (2 ^ (-1000 : Int)) where
  range := Flagged.range (fmt := .binary64) (by decide) (by decide)
  alpha := by norm_num
  pos := by norm_num
  nonneg := by norm_num
  entry := by norm_num
  small := by decide +kernel
  gamma := by decide +kernel
  max := by decide +kernel
  max_div := by decide +kernel

private theorem upwards_ampleSolve' : upwardsR.AmpleSolve 5 4 (2 ^ (1023 : Int)) 7 (1 / 20) 12 hugeNorm where
  gamma := by decide +kernel
  condition := by decide +kernel
  nonneg := by decide +kernel
  max := by decide +kernel
  max_div := by decide +kernel

/-- A repeating block matrix of doubles in this environment. -/
def upwardsArrow : ArrowheadMatrix (Directed .binary64 upwards) :=
  arrowM.map fun x => ⟨Binary.ofRat .binary64 false x⟩

private theorem upwardsArrow_posDef : PosDef (positions arrowD 1) (1 / 20) fun k l =>
    (upwardsArrow.map Directed.toRat).assembled 1 k l - if k = l then
      upwardsR.margin 5 4 (positions arrowD 1).card (2 ^ (-1000 : Int)) ((upwardsArrow.map Directed.toRat).assembled 1 k k)
    else 0 := by
  have hpd : PosDef (positions arrowD 1) (0 + 1 / 20) fun k l =>
      (upwardsArrow.map Directed.toRat).assembled 1 k l - if k = l then
        upwardsR.margin 5 4 (positions arrowD 1).card (2 ^ (-1000 : Int)) ((upwardsArrow.map Directed.toRat).assembled 1 k k)
      else 0 := by
    refine reducedArrow_posDef.shift (fun k hk l hl hne => ?_) fun k hk => ?_
    · rw [if_neg hne, sub_zero]
      have : ∀ k ∈ positions arrowD 1, ∀ l ∈ positions arrowD 1, k ≠ l →
          reducedArrowM.assembled 1 k l = (upwardsArrow.map Directed.toRat).assembled 1 k l := by decide +kernel
      exact this k hk l hl hne
    · rw [if_pos rfl]
      have : ∀ k ∈ positions arrowD 1, reducedArrowM.assembled 1 k k + 1 / 20 ≤
          (upwardsArrow.map Directed.toRat).assembled 1 k k - upwardsR.margin 5 4 (positions arrowD 1).card (2 ^ (-1000 : Int))
            ((upwardsArrow.map Directed.toRat).assembled 1 k k) := by decide +kernel
      exact this k hk
  rw [zero_add] at hpd
  exact hpd

example : ∃ T f, arrowheadTypes arrowS = .ok T ∧
    (freshFactor arrowS T arrowD 1 (0 : Directed .binary64 upwards)).factorize 2 1 1 upwardsArrow regularizationNone
      .upLooking = .ok f ∧
    ∀ b : ArrowheadVector (Directed .binary64 upwards), b.OfSize arrowD 1 →
      (∀ a ∈ blocks 1, ∀ i < arrowD.of a, (b.at a i).value.Finite ∧ |(b.at a i).toRat| ≤ hugeRat) →
      ∃ x, f.solveInPlace b = .ok x ∧ ∀ a ∈ blocks 1, ∀ i < arrowD.of a, (x.at a i).value.Finite := by
  obtain ⟨T, hT, hc⟩ : ∃ T, arrowheadTypes arrowS = .ok T ∧
      ∀ a ∈ blocks 1, ∀ i < arrowD.of a, T.rowEntries 1 a i ≤ 5 ∧ T.colEntries 1 a i < 4 := by
    have h : (do
        let T ← arrowheadTypes arrowS
        return decide (∀ a ∈ blocks 1, ∀ i < arrowD.of a, T.rowEntries 1 a i ≤ 5 ∧ T.colEntries 1 a i < 4)) =
        (.ok true : Res Bool) := by decide +kernel
    obtain ⟨T, hT, h⟩ := bind_eq_ok.mp h
    exact ⟨T, hT, of_decide_eq_true (Except.ok.inj h)⟩
  obtain ⟨f, h1, -, h2⟩ := C81_definite .binary64 (by decide) upwards arrowS arrowD arrowS_valid T 1 _
    (C21_constructible arrowS arrowD T hT 1 0)
    upwardsArrow ((arrowM_fits hT).map _) .upLooking 5 (fun a ha i hi => (hc a ha i hi).1) 4 (fun a ha i hi => (hc a ha i hi).2)
    _ 7 (1 / 20) 12 _ hugeNorm upwards_ample' upwards_ampleSolve'
    (by decide +kernel) (by decide +kernel) upwardsArrow_posDef regularizationNone (fun _ _ _ _ => rfl)
  refine ⟨T, f, hT, h1, fun b hb hbf => ?_⟩
  obtain ⟨x, hx, -, h3, -⟩ := h2 b hb (fun a ha i hi => (hbf a ha i hi).1) (by
    have h4 := sum_sq_le (s := positions arrowD 1) fun k hk => (hbf _ (mem_positions.mp hk).1 _ (mem_positions.mp hk).2).2
    have h5 : (positions arrowD 1).card * hugeRat ^ 2 + (positions arrowD 1).card * ((2 + 2 * 7 * (1 / 20)) *
        (2 * ((5 : Nat) + (4 : Nat)) * (2 * upwards.tiny .binary64)) ^ 2) ≤ hugeNorm ^ 2 := by
      decide +kernel
    exact (add_le_add_left h4 _).trans h5)
  exact ⟨x, hx, h3⟩

instance Flagged.decidableFinite (a : Flagged fmt e) : Decidable a.Finite := inferInstanceAs (Decidable (_ ∧ _))

/-- The run with flags. -/
def upwardsRun : Res (ArrowheadTypes × ArrowheadFactor (Flagged .binary64 upwards) ×
    ArrowheadVector (Flagged .binary64 upwards)) := do
  let T ← arrowheadTypes arrowS
  let t ← ((freshFactor arrowS T arrowD 1 (0 : Directed .binary64 upwards)).map Flagged.given).factorize 2 1 1
    (upwardsArrow.map Flagged.given) regularizationNone .upLooking
  let y ← t.solveInPlace ((doubleB.map fun x => (⟨x⟩ : Directed .binary64 upwards)).map Flagged.given)
  return (T, t, y)

/-- The hypotheses of `C81_residual`: no flag is raised. -/
example : ∃ T t y, upwardsRun = .ok (T, t, y) ∧ ∀ a ∈ blocks 1, ∀ i < arrowD.of a,
    (t.pivotAt a i).Finite ∧ (y.at a i).Finite ∧ T.rowEntries 1 a i ≤ 5 ∧ T.colEntries 1 a i ≤ 3 := by
  have h : (do
      let (T, t, y) ← upwardsRun
      return decide (∀ a ∈ blocks 1, ∀ i < arrowD.of a,
        (t.pivotAt a i).Finite ∧ (y.at a i).Finite ∧ T.rowEntries 1 a i ≤ 5 ∧ T.colEntries 1 a i ≤ 3)) =
      (.ok true : Res Bool) := by decide +kernel
  obtain ⟨⟨T, t, y⟩, h1, h⟩ := bind_eq_ok.mp h
  exact ⟨T, t, y, h1, of_decide_eq_true (Except.ok.inj h)⟩

end Ctldl
