import Verif.Model.Numeral
import Verif.Lemmas.Nearest
import Verif.Lemmas.Conversion
import Verif.Spec.RoundingAdd
import Verif.Props.Scan

/-! # C72: numerals and operations are rounded correctly -/

namespace Ctldl

variable {fmt : Format}

/-! ### Operations -/

/-- C72: the model of floating point arithmetic conforms to IEEE 754: differences, products, quotients, sums and fused
multiply-adds of finite numbers are the exact results rounded to nearest, ties to even, and infinite from the right
magnitude on. -/
theorem C72_operations (hp : fmt.Proper) (a b c : Binary fmt) (ha : a.Finite) (hb : b.Finite) (hc : c.Finite) :
    (a - b).Correct (a.toRat - b.toRat) ∧ (a * b).Correct (a.toRat * b.toRat) ∧
    (b.toRat ≠ 0 → (a / b).Correct (a.toRat / b.toRat)) ∧ (a + b).Correct (a.toRat + b.toRat) ∧
    (a.fusedSub b c).Correct (a.toRat - b.toRat * c.toRat) := by
  have hz : ∀ s, (Binary.zero s : Binary fmt).Correct 0 := by
    intro s
    have h := Binary.ofRat_correct hp s 0
    rwa [show Binary.ofRat fmt s 0 = .zero s from dif_pos fmt.round_zero] at h
  have hsub : ∀ a b : Binary fmt, a.Finite → b.Finite → (a - b).Correct (a.toRat - b.toRat) := by
    intro a b ha hb
    cases a <;> cases b <;> first | exact ha.elim | exact hb.elim | skip
    · rw [show ∀ s t, ((Binary.zero s : Binary fmt) - .zero t) = .zero (s && !t) from fun _ _ => rfl]
      simpa [Binary.toRat] using hz _
    all_goals exact Binary.ofRat_correct hp _ _
  refine ⟨hsub a b ha hb, ?_, ?_, ?_, ?_⟩
  · cases a <;> cases b <;> first | exact ha.elim | exact hb.elim | skip
    all_goals exact Binary.ofRat_correct hp _ _
  · intro h0
    cases a <;> cases b <;> first | exact ha.elim | exact hb.elim | exact (h0 rfl).elim | skip
    all_goals exact Binary.ofRat_correct hp _ _
  · have hn : b.neg.Finite ∧ b.neg.toRat = -b.toRat := by
      cases b <;> first | exact hb.elim | exact ⟨trivial, by simp [Binary.neg, Binary.toRat]⟩
    have := hsub a b.neg ha hn.1
    rwa [hn.2, sub_neg_eq_add] at this
  · cases a with
    | nan => exact ha.elim
    | inf s => exact ha.elim
    | num x h1 h2 =>
      have hcase : (Binary.num x h1 h2).fusedSub b c =
          Binary.ofRat fmt (x - b.toRat * c.toRat < 0) (x - b.toRat * c.toRat) := by
        cases b <;> cases c <;> first | exact hb.elim | exact hc.elim | rfl
      rw [hcase]
      exact Binary.ofRat_correct hp _ _
    | zero s =>
      have hcase : (Binary.zero s).fusedSub b c =
          if b.toRat * c.toRat = 0 then .zero (s && !(b.negative ^^ c.negative))
          else Binary.ofRat fmt (0 - b.toRat * c.toRat < 0) (0 - b.toRat * c.toRat) := by
        cases b <;> cases c <;> first | exact hb.elim | exact hc.elim | rfl
      rw [hcase]
      split
      · rename_i h
        rw [h]
        simpa [Binary.toRat] using hz _
      · exact Binary.ofRat_correct hp _ _

example : Format.binary64.Proper ∧ Format.binary32.Proper := by
  unfold Format.Proper Format.binary64 Format.binary32; decide

/-- The sign of rounded numbers. -/
private theorem ofRat_negative {s : Bool} {x : ℚ} (h : x ≠ 0 → s = decide (x < 0)) : (Binary.ofRat fmt s x).negative = s := by
  by_cases hx : x = 0
  · rw [show Binary.ofRat fmt s x = .zero s from dif_pos (by rw [hx]; exact fmt.round_zero)]
    rfl
  · unfold Binary.ofRat
    split
    · rfl
    · rename_i h0
      split
      · rw [h hx]
        have hn := fmt.round_nearest x (m := 0) (e := fmt.minExp) (by positivity) le_rfl
        rw [Int.cast_zero, zero_mul, zero_sub, abs_neg] at hn
        refine decide_eq_decide.mpr ⟨fun h1 => ?_, fun h1 => ?_⟩
        · by_contra h2
          rw [abs_of_nonneg (not_lt.mp h2), abs_of_nonpos (by linarith)] at hn
          linarith
        · by_contra h2
          have h3 := lt_of_le_of_ne (not_lt.mp h2) (Ne.symm h0)
          rw [abs_of_neg h1, abs_of_nonneg (by linarith)] at hn
          linarith
      · exact (h hx).symm

private theorem zero_of_eq {a : Binary fmt} (ha : a.Finite) (h : a.toRat = 0) : a = .zero a.negative := by
  cases a with
  | zero s => rfl
  | num x hx _ => exact (hx h).elim
  | inf => exact ha.elim
  | nan => exact ha.elim

private theorem negative_eq {a : Binary fmt} (ha : a.Finite) (h : a.toRat ≠ 0) : a.negative = decide (a.toRat < 0) := by
  cases a with
  | zero s => exact (h rfl).elim
  | num x hx _ => rfl
  | inf => exact ha.elim
  | nan => exact ha.elim

private theorem xor_eq {a b x : ℚ} (ha : a ≠ 0) (hb : b ≠ 0) (hx : x < 0 ↔ (a < 0 ∧ 0 < b ∨ 0 < a ∧ b < 0)) :
    (decide (a < 0) ^^ decide (b < 0)) = decide (x < 0) := by
  rcases lt_or_gt_of_ne ha with h1 | h1 <;> rcases lt_or_gt_of_ne hb with h2 | h2 <;>
    simp [hx, h1, h2, h1.not_gt, h2.not_gt]

/-- C72: signs. Products and quotients are negative if exactly one of the operands is; an exact zero is a negative
difference only of a negative zero and a positive zero, and a negative sum only of two negative zeros. -/
theorem C72_signs (a b : Binary fmt) (ha : a.Finite) (hb : b.Finite) :
    (a * b).negative = (a.negative ^^ b.negative) ∧
    (b.toRat ≠ 0 → (a / b).negative = (a.negative ^^ b.negative)) ∧
    (a.toRat - b.toRat = 0 → (a - b).negative = (a.toRat == 0 && a.negative && !b.negative)) ∧
    (a.toRat + b.toRat = 0 → (a + b).negative = (a.toRat == 0 && a.negative && b.negative)) := by
  have hsub : ∀ a b : Binary fmt, a.Finite → b.Finite → a.toRat - b.toRat = 0 →
      (a - b).negative = (a.toRat == 0 && a.negative && !b.negative) := by
    intro a b ha hb h
    by_cases h0 : a.toRat = 0
    · rw [h0, zero_sub, neg_eq_zero] at h
      rw [zero_of_eq ha h0, zero_of_eq hb h]
      change (a.negative && !b.negative) = (((0 : ℚ) == 0) && a.negative && !b.negative)
      simp
    · have h1 : b.toRat ≠ 0 := by rwa [← sub_eq_zero.mp h]
      rw [beq_false_of_ne h0, Bool.false_and, Bool.false_and]
      have : a - b = Binary.ofRat fmt false (a.toRat - b.toRat) := by
        cases a <;> cases b <;> first | exact ha.elim | exact hb.elim | exact (h0 rfl).elim | exact (h1 rfl).elim | rfl
      rw [this]
      exact ofRat_negative fun hn => (hn h).elim
  refine ⟨?_, ?_, hsub a b ha hb, ?_⟩
  · have : a * b = Binary.ofRat fmt (a.negative ^^ b.negative) (a.toRat * b.toRat) := by
      cases a <;> cases b <;> first | exact ha.elim | exact hb.elim | rfl
    rw [this]
    refine ofRat_negative fun h => ?_
    have h1 := left_ne_zero_of_mul h
    have h2 := right_ne_zero_of_mul h
    rw [negative_eq ha h1, negative_eq hb h2]
    exact xor_eq h1 h2 (by rw [mul_neg_iff, or_comm])
  · intro h2
    have : a / b = Binary.ofRat fmt (a.negative ^^ b.negative) (a.toRat / b.toRat) := by
      cases a <;> cases b <;> first | exact ha.elim | exact hb.elim | exact (h2 rfl).elim | rfl
    rw [this]
    refine ofRat_negative fun h => ?_
    have h1 : a.toRat ≠ 0 := fun h0 => h (by rw [h0, zero_div])
    rw [negative_eq ha h1, negative_eq hb h2]
    exact xor_eq h1 h2 (by rw [div_neg_iff, or_comm])
  · intro h
    have hn : b.neg.Finite ∧ b.neg.toRat = -b.toRat := by
      cases b <;> first | exact hb.elim | exact ⟨trivial, by simp [Binary.neg, Binary.toRat]⟩
    have := hsub a b.neg ha hn.1 (by rw [hn.2, sub_neg_eq_add, h])
    refine this.trans ?_
    by_cases h0 : a.toRat = 0
    · rw [h0, zero_add] at h
      have h1 : b.neg.negative = !b.negative := by rw [zero_of_eq hb h]; rfl
      rw [h1, Bool.not_not]
    · rw [beq_false_of_ne h0, Bool.false_and, Bool.false_and, Bool.false_and]

/-- No operation of the rounding yields not a number. -/
private theorem ofRat_ne_nan (s : Bool) (q : ℚ) : Binary.ofRat fmt s q ≠ .nan := by
  unfold Binary.ofRat
  split
  · nofun
  · split <;> nofun

/-- C72: operations yield not a number exactly if an operand is not a number or they are invalid in IEEE 754: infinity
minus infinity, zero times infinity, infinity divided by infinity and zero divided by zero. -/
theorem C72_invalid (a b : Binary fmt) :
    (a - b = .nan ↔ a = .nan ∨ b = .nan ∨ ∃ s, a = .inf s ∧ b = .inf s) ∧
    (a + b = .nan ↔ a = .nan ∨ b = .nan ∨ ∃ s, a = .inf s ∧ b = .inf !s) ∧
    (a * b = .nan ↔ a = .nan ∨ b = .nan ∨ (∃ s t, a = .inf s ∧ b = .zero t) ∨ ∃ s t, a = .zero s ∧ b = .inf t) ∧
    (a / b = .nan ↔ a = .nan ∨ b = .nan ∨ (∃ s t, a = .inf s ∧ b = .inf t) ∨ ∃ s t, a = .zero s ∧ b = .zero t) := by
  have hsub : ∀ a b : Binary fmt, a - b = .nan ↔ a = .nan ∨ b = .nan ∨ ∃ s, a = .inf s ∧ b = .inf s := by
    intro a b
    cases a <;> cases b <;>
      first
      | (rename_i s t
         rw [show (Binary.inf s : Binary fmt) - .inf t = if s = t then .nan else .inf s from rfl]
         cases s <;> cases t <;> simp)
      | exact iff_of_false (ofRat_ne_nan _ _) (by simp)
      | exact iff_of_true rfl (by simp)
      | exact iff_of_false nofun (by simp)
  refine ⟨hsub a b, ?_, ?_, ?_⟩
  · refine (hsub a b.neg).trans ?_
    cases a <;> cases b <;>
      first
      | (rename_i s t
         cases s <;> cases t <;> simp [Binary.neg])
      | simp [Binary.neg]
  · cases a <;> cases b <;>
      first
      | exact iff_of_false (ofRat_ne_nan _ _) (by simp)
      | exact iff_of_true rfl (by simp)
      | exact iff_of_false nofun (by simp)
  · cases a <;> cases b <;>
      first
      | exact iff_of_false (ofRat_ne_nan _ _) (by simp)
      | exact iff_of_true rfl (by simp)
      | exact iff_of_false nofun (by simp)

/-- C72: operations with an infinite operand, and divisions by zero, which are not invalid yield the infinity or zero with
the sign demanded by IEEE 754. -/
theorem C72_infinite (s t : Bool) (b : Binary fmt) (hb : b ≠ .nan) :
    (b ≠ .inf s → .inf s - b = .inf s ∧ b - .inf s = .inf !s) ∧
    (b ≠ .inf !s → .inf s + b = .inf s ∧ b + .inf s = .inf s) ∧
    ((∀ t, b ≠ .zero t) → .inf s * b = .inf (s ^^ b.negative) ∧ b * .inf s = .inf (b.negative ^^ s)) ∧
    ((∀ t, b ≠ .inf t) → .inf s / b = .inf (s ^^ b.negative) ∧ b / .inf s = .zero (b.negative ^^ s)) ∧
    ((∀ t, b ≠ .zero t) → b / .zero t = .inf (b.negative ^^ t)) := by
  refine ⟨fun h => ?_, fun h => ?_, fun h => ?_, fun h => ?_, fun h => ?_⟩
  · cases b <;> first | exact (hb rfl).elim | exact ⟨rfl, rfl⟩ | skip
    cases s <;> rename_i r <;> cases r <;> first | exact ⟨rfl, rfl⟩ | exact (h rfl).elim
  · cases b <;> first | exact (hb rfl).elim | (cases s <;> exact ⟨rfl, rfl⟩) | skip
    cases s <;> rename_i r <;> cases r <;> first | exact ⟨rfl, rfl⟩ | exact (h rfl).elim
  · cases b <;> first | exact (hb rfl).elim | exact (h _ rfl).elim | exact ⟨rfl, rfl⟩
  · cases b <;> first | exact (hb rfl).elim | exact (h _ rfl).elim | exact ⟨rfl, rfl⟩
  · cases b <;> first | exact (hb rfl).elim | exact (h _ rfl).elim | rfl

/-- C72: fused multiply-adds are as the two operations if a factor is not finite, and leave other infinite minuends
unchanged. If the exact result is zero, it is a negative zero exactly if the minuend is a negative zero and the product
is a positive zero; another result which is rounded to zero keeps its sign. -/
theorem C72_fused (a b c : Binary fmt) :
    (¬ b.Finite ∨ ¬ c.Finite → a.fusedSub b c = a - b * c) ∧
    (b.Finite → c.Finite → ¬ a.Finite → a.fusedSub b c = a) ∧
    (a.Finite → b.Finite → c.Finite → (a.fusedSub b c).negative =
      if a.toRat - b.toRat * c.toRat = 0 then a.toRat == 0 && a.negative && !(b.negative ^^ c.negative)
      else decide (a.toRat - b.toRat * c.toRat < 0)) := by
  refine ⟨fun h => ?_, fun hb hc ha => ?_, fun ha hb hc => ?_⟩
  · cases b <;> cases c <;> first | rfl | (exact (h.elim (· trivial) (· trivial)).elim)
  · cases a <;> cases b <;> cases c <;> first | exact hb.elim | exact hc.elim | exact (ha trivial).elim | rfl
  · cases a with
    | nan => exact ha.elim
    | inf s => exact ha.elim
    | num x h1 h2 =>
      have hcase : (Binary.num x h1 h2).fusedSub b c =
          Binary.ofRat fmt (x - b.toRat * c.toRat < 0) (x - b.toRat * c.toRat) := by
        cases b <;> cases c <;> first | exact hb.elim | exact hc.elim | rfl
      rw [hcase, ofRat_negative fun _ => rfl]
      change decide (x - b.toRat * c.toRat < 0) = if x - b.toRat * c.toRat = 0 then x == 0 && _ && _ else _
      split
      · rename_i h
        rw [h, beq_false_of_ne h1]
        rfl
      · rfl
    | zero s =>
      have hcase : (Binary.zero s).fusedSub b c =
          if b.toRat * c.toRat = 0 then .zero (s && !(b.negative ^^ c.negative))
          else Binary.ofRat fmt (0 - b.toRat * c.toRat < 0) (0 - b.toRat * c.toRat) := by
        cases b <;> cases c <;> first | exact hb.elim | exact hc.elim | rfl
      rw [hcase]
      change _ = if 0 - b.toRat * c.toRat = 0 then ((0 : ℚ) == 0) && s && _ else decide (0 - b.toRat * c.toRat < 0)
      by_cases h : b.toRat * c.toRat = 0
      · rw [if_pos h, if_pos (by rw [h, sub_zero])]
        simp [Binary.negative]
      · rw [if_neg h, if_neg (by rwa [zero_sub, neg_eq_zero]), ofRat_negative fun _ => rfl]

example : (Binary.inf true : Binary Format.binary64) ≠ .nan ∧ ∀ t, (Binary.inf true : Binary Format.binary64) ≠ .zero t :=
  ⟨nofun, nofun⟩

/-- C72: the correctly rounded value is unique, up to the sign of zero. -/
theorem C72_unique (q : ℚ) (a b : Binary fmt) (ha : a.Correct q) (hb : b.Correct q)
    (h0 : a.toRat = 0 → b.toRat = 0 → a.negative = b.negative) : a = b := by
  obtain ⟨h1, h2, h3⟩ := ha.unique hb
  by_cases hfa : a.Finite
  · have hfb := h1.mp hfa
    by_cases hz : a.toRat = 0
    · rw [zero_of_eq hfa hz, zero_of_eq hfb (h2 ▸ hz), h0 hz (h2 ▸ hz)]
    · cases a <;> cases b <;> first | exact hfa.elim | exact hfb.elim | exact (hz rfl).elim | exact (hz h2).elim | skip
      simp only [Binary.toRat] at h2
      subst h2
      rfl
  · exact h3 hfa

/-! ### Numerals -/

private theorem sign_ne {n : Bool} {m : Nat} {w : ℚ} (hw : 0 < w)
    (h : (if n then (-1 : ℚ) else 1) * m * w ≠ 0) : n = decide ((if n then (-1 : ℚ) else 1) * m * w < 0) := by
  have hm : (0 : ℚ) < m * w := by
    refine lt_of_le_of_ne (by positivity) fun h0 => h ?_
    rw [mul_assoc, ← h0, mul_zero]
  rw [mul_assoc]
  cases n
  · simp [hm.le]
  · simp [hm]

/-- C72: a numeral is read as the number of the text, rounded correctly; it has the sign of the text, even if it is
zero. -/
theorem C72_numeral (hp : fmt.Proper) (x : FloatLiteral) (q : ℚ) (h : x.toRat = some q) :
    (x.toBinary fmt).Correct q ∧ (x.toBinary fmt).negative = x.negative := by
  obtain ⟨n, m⟩ := x
  cases m with
  | decimal m e =>
    cases h
    exact ⟨Binary.ofRat_correct hp _ _, ofRat_negative fun h => sign_ne (zpow_pos (by norm_num) e) h⟩
  | hexadecimal m e =>
    cases h
    exact ⟨Binary.ofRat_correct hp _ _, ofRat_negative fun h => sign_ne (zpow_pos (by norm_num) e) h⟩
  | infinity => cases h
  | nan => cases h

/-- C72: words are read as an infinity with the sign of the text or as not a number, other numerals never. -/
theorem C72_words (x : FloatLiteral) : (x.toRat = none ↔ x.numeral = .infinity ∨ x.numeral = .nan) ∧
    (x.numeral = .infinity → x.toBinary fmt = .inf x.negative) ∧ (x.toBinary fmt = .nan ↔ x.numeral = .nan) := by
  have hn : ∀ s q, Binary.ofRat fmt s q ≠ .nan := by
    intro s q
    unfold Binary.ofRat
    split
    · nofun
    · split <;> nofun
  obtain ⟨n, m⟩ := x
  cases m with
  | decimal m e => exact ⟨by simp [FloatLiteral.toRat], nofun, ⟨fun h => (hn _ _ h).elim, nofun⟩⟩
  | hexadecimal m e => exact ⟨by simp [FloatLiteral.toRat], nofun, ⟨fun h => (hn _ _ h).elim, nofun⟩⟩
  | infinity => exact ⟨by simp [FloatLiteral.toRat], fun _ => rfl, ⟨nofun, nofun⟩⟩
  | nan => exact ⟨by simp [FloatLiteral.toRat], nofun, ⟨fun _ => rfl, fun _ => rfl⟩⟩

/-- C72: numerals of numbers of the format are read exactly. -/
theorem C72_exact (hp : fmt.Proper) (x : FloatLiteral) (q : ℚ) (h : x.toRat = some q) (hq : fmt.Represents q) :
    (x.toBinary fmt).Finite ∧ (x.toBinary fmt).toRat = q := by
  have hc := (C72_numeral hp x q h).1
  obtain ⟨⟨m, e, h1, h2, h3⟩, h4⟩ := hq
  have hr : fmt.round q = q := fmt.round_self h1 h2 h3
  have hlt := (fmt.round_lt_iff hp q).mp (by rw [hr]; exact h4)
  have hfin : (x.toBinary fmt).Finite := by
    cases hb : x.toBinary fmt with
    | zero s => trivial
    | num y h5 h6 => trivial
    | inf s => rw [hb] at hc; exact absurd hlt (not_lt.mpr hc.1)
    | nan => rw [hb] at hc; exact hc.elim
  refine ⟨hfin, ?_⟩
  obtain ⟨n, k⟩ := x
  cases k with
  | decimal m e => cases h; exact (Binary.ofRat_finite hfin).trans hr
  | hexadecimal m e => cases h; exact (Binary.ofRat_finite hfin).trans hr
  | infinity => cases h
  | nan => cases h

/-! A numeral between two numbers of the format, a tie, an underflow to a negative zero, and an overflow. -/

example : ((⟨false, .decimal 1 (-1)⟩ : FloatLiteral).toBinary .binary64).toRat = 3602879701896397 / 2 ^ 55 ∧
    ((⟨true, .decimal 16777217 0⟩ : FloatLiteral).toBinary .binary32).toRat = -16777216 ∧
    ((⟨false, .hexadecimal 16777219 (-3)⟩ : FloatLiteral).toBinary .binary32).toRat = 2097152.5 ∧
    ((⟨true, .decimal 1 (-400)⟩ : FloatLiteral).toBinary .binary64).toRat = 0 ∧
    ((⟨true, .decimal 1 (-400)⟩ : FloatLiteral).toBinary .binary64).negative = true := by decide +kernel

example : ¬ ((⟨false, .decimal 2 308⟩ : FloatLiteral).toBinary .binary64).Finite := by
  rw [show (⟨false, .decimal 2 308⟩ : FloatLiteral).toBinary .binary64 = .inf false from
    (dif_neg (by decide +kernel)).trans ((dif_neg (by decide +kernel)).trans (congrArg Binary.inf (by decide +kernel)))]
  exact id

end Ctldl
