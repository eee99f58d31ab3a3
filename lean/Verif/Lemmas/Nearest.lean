import Verif.Spec.Nearest
import Verif.Lemmas.Conversion
import Mathlib.Tactic.LinearCombination

/-! # Rounding is correct -/

namespace Ctldl

variable {fmt : Format}

theorem roundEven_tie {q : ℚ} {k : Int} (hne : k ≠ roundEven q) (h : |(k : ℚ) - q| = |(roundEven q : ℚ) - q|) :
    |k - roundEven q| = 1 ∧ roundEven q % 2 = 0 := by
  have h1 := roundEven_err q
  have h2 : (1 : ℚ) ≤ |(k : ℚ) - roundEven q| := by
    have : 1 ≤ |k - roundEven q| := Int.one_le_abs (sub_ne_zero.mpr hne)
    exact_mod_cast this
  have h3 : |(k : ℚ) - roundEven q| ≤ |(k : ℚ) - q| + |(roundEven q : ℚ) - q| := by
    rw [show (k : ℚ) - roundEven q = (k - q) - (roundEven q - q) by ring]
    exact abs_sub _ _
  have h4 : |(k : ℚ) - roundEven q| = 1 := by linarith
  have h5 : |(roundEven q : ℚ) - q| = 1 / 2 := by linarith
  refine ⟨by exact_mod_cast h4, ?_⟩
  unfold roundEven at h5 ⊢
  have f1 := Int.floor_le q
  have f2 := Int.lt_floor_add_one q
  split_ifs at h5 ⊢ with c1 c2 c3
  · rw [abs_of_nonpos (by linarith)] at h5; linarith
  · push_cast at h5
    rw [abs_of_pos (by linarith)] at h5; linarith
  · exact c3
  · omega

/-- If another number of the format is as near as the rounded one, then the latter is an even multiple of the distance
between the two. -/
theorem Format.round_even (x : ℚ) {m e : Int} (hm : |m| < 2 ^ fmt.precision) (he : fmt.minExp ≤ e)
    (hne : m * (2 : ℚ) ^ e ≠ fmt.round x) (h : |m * (2 : ℚ) ^ e - x| = |fmt.round x - x|) :
    ∃ k : Int, fmt.round x = 2 * k * |m * (2 : ℚ) ^ e - fmt.round x| := by
  by_cases hu : fmt.unit x ≤ e
  · obtain ⟨k, hk⟩ : ∃ k : Nat, e = fmt.unit x + k := ⟨(e - fmt.unit x).toNat, by omega⟩
    have hp := two_zpow_pos (fmt.unit x)
    have hy : m * (2 : ℚ) ^ e = ((m * 2 ^ k : Int) : ℚ) * 2 ^ fmt.unit x := by
      rw [hk, zpow_add₀ (by norm_num), zpow_natCast]
      push_cast
      ring
    rw [hy] at hne h ⊢
    have e' : ∀ t : ℚ, t * 2 ^ fmt.unit x - x = (t - x / 2 ^ fmt.unit x) * 2 ^ fmt.unit x := by
      intro t
      rw [sub_mul, div_mul_cancel₀ _ hp.ne']
    unfold Format.round at hne h ⊢
    rw [e', e', abs_mul, abs_mul] at h
    have h' := mul_right_cancel₀ (abs_pos.mpr hp.ne').ne' h
    obtain ⟨t1, t2⟩ := roundEven_tie (fun hc => hne (by rw [hc])) h'
    refine ⟨roundEven (x / 2 ^ fmt.unit x) / 2, ?_⟩
    rw [← sub_mul, abs_mul, abs_of_pos hp, ← Int.cast_sub, ← Int.cast_abs, t1, Int.cast_one, one_mul]
    have : roundEven (x / 2 ^ fmt.unit x) = 2 * (roundEven (x / 2 ^ fmt.unit x) / 2) := by omega
    congr 1
    exact_mod_cast this
  · exfalso
    by_cases h0 : x = 0
    · rw [h0, Format.round_zero, sub_zero, sub_zero, abs_zero, abs_eq_zero] at h
      exact hne (by rw [h0, Format.round_zero, h])
    have hu' : fmt.unit x = Int.log 2 |x| - (fmt.precision - 1) := by
      unfold Format.unit at hu ⊢
      omega
    have hl : (2 : ℚ) ^ Int.log 2 |x| ≤ |x| := Int.zpow_log_le_self (by decide) (abs_pos.mpr h0)
    have hy : |m * (2 : ℚ) ^ e| < (2 : ℚ) ^ Int.log 2 |x| := by
      rw [abs_mul, abs_of_pos (two_zpow_pos e)]
      have h1 : |(m : ℚ)| < (2 : ℚ) ^ (fmt.precision : Int) := by
        rw [zpow_natCast]
        exact_mod_cast hm
      refine (mul_lt_mul_of_pos_right h1 (two_zpow_pos e)).trans_le ?_
      rw [← zpow_add₀ (by norm_num)]
      refine zpow_le_zpow_right₀ (by norm_num) ?_
      omega
    have hk : ∀ s : Int, |fmt.round x - x| ≤ |(s : ℚ) * 2 ^ Int.log 2 |x| - x| := by
      intro s
      have := fmt.round_nearest_multiple x (s * 2 ^ (fmt.precision - 1))
      convert this using 3
      push_cast
      rw [mul_assoc, ← zpow_natCast, ← zpow_add₀ (by norm_num), hu']
      congr 2
      have := fmt.precision_pos
      omega
    generalize (2 : ℚ) ^ Int.log 2 |x| = t at hl hy hk
    rw [← h] at hk
    obtain ⟨hy1, hy2⟩ := abs_lt.mp hy
    rcases le_total 0 x with hx | hx
    · have := hk 1
      rw [abs_of_nonneg hx] at hl
      rw [Int.cast_one, one_mul, abs_of_nonpos (by linarith), abs_of_nonpos (by linarith)] at this
      linarith
    · have := hk (-1)
      rw [abs_of_nonpos hx] at hl
      push_cast at this
      rw [abs_of_nonneg (by linarith), abs_of_nonneg (by linarith)] at this
      linarith

/-- The largest number of the format. -/
theorem Format.Represents.le {v : ℚ} (h : fmt.Represents v) :
    |v| ≤ 2 ^ fmt.maxExp - 2 ^ (fmt.maxExp - fmt.precision) := by
  obtain ⟨⟨m, e, h1, -, h3⟩, h4⟩ := h
  have hp : (2 : ℚ) ^ fmt.maxExp = 2 ^ fmt.precision * 2 ^ (fmt.maxExp - fmt.precision) := by
    rw [← zpow_natCast, ← zpow_add₀ (by norm_num)]
    congr 1
    omega
  have hpos := two_zpow_pos (fmt.maxExp - fmt.precision)
  have key : ∀ k : Int, |k| < 2 ^ fmt.precision → |(k : ℚ)| * 2 ^ (fmt.maxExp - fmt.precision) ≤
      2 ^ fmt.maxExp - 2 ^ (fmt.maxExp - fmt.precision) := by
    intro k hk
    have : |(k : ℚ)| ≤ 2 ^ fmt.precision - 1 := by
      have : |k| ≤ 2 ^ fmt.precision - 1 := by omega
      exact_mod_cast this
    rw [hp]
    calc |(k : ℚ)| * 2 ^ (fmt.maxExp - fmt.precision) ≤ (2 ^ fmt.precision - 1) * 2 ^ (fmt.maxExp - fmt.precision) :=
        mul_le_mul_of_nonneg_right this hpos.le
      _ = _ := by ring
  by_cases he : e ≤ fmt.maxExp - fmt.precision
  · refine le_trans ?_ (key m h1)
    rw [h3, abs_mul, abs_of_pos (two_zpow_pos e)]
    exact mul_le_mul_of_nonneg_left (zpow_le_zpow_right₀ (by norm_num) he) (abs_nonneg _)
  · obtain ⟨k, hk⟩ : ∃ k : Nat, e = fmt.maxExp - fmt.precision + k := ⟨(e - (fmt.maxExp - fmt.precision)).toNat, by omega⟩
    have hv : |v| = |((m * 2 ^ k : Int) : ℚ)| * 2 ^ (fmt.maxExp - fmt.precision) := by
      rw [h3, abs_mul, abs_of_pos (two_zpow_pos e), hk, zpow_add₀ (by norm_num), zpow_natCast]
      push_cast
      rw [abs_mul, abs_of_pos (pow_pos (by norm_num : (0 : ℚ) < 2) k)]
      ring
    rw [hv]
    refine key _ ?_
    rw [hv, hp] at h4
    have := lt_of_mul_lt_mul_right h4 hpos.le
    exact_mod_cast this

theorem Format.overflow_eq (fmt : Format) : fmt.overflow = 2 ^ fmt.maxExp - 2 ^ (fmt.maxExp - fmt.precision) / 2 := by
  rw [Format.overflow, zpow_sub_one₀ (by norm_num)]
  ring

theorem Format.overflow_pos (fmt : Format) : 0 < fmt.overflow := by
  rw [Format.overflow, sub_pos]
  exact zpow_lt_zpow_right₀ (by norm_num) (by omega)

/-- Rounding overflows from the given magnitude. -/
theorem Format.round_lt_iff (hp : fmt.Proper) (q : ℚ) : |fmt.round q| < 2 ^ fmt.maxExp ↔ |q| < fmt.overflow := by
  have hpow : (2 : ℚ) ^ fmt.maxExp = 2 ^ fmt.precision * 2 ^ (fmt.maxExp - fmt.precision) := by
    rw [← zpow_natCast, ← zpow_add₀ (by norm_num)]
    congr 1
    omega
  have hpos := two_zpow_pos (fmt.maxExp - fmt.precision)
  have hpos' := two_zpow_pos fmt.maxExp
  have hlt : (2 : ℚ) ^ (fmt.maxExp - fmt.precision) < 2 ^ fmt.maxExp :=
    zpow_lt_zpow_right₀ (by norm_num) (by have := fmt.precision_pos; omega)
  have hM : ∀ σ : Int, |σ| = 1 → |fmt.round q - q| ≤
      |σ * ((2 : ℚ) ^ fmt.maxExp - 2 ^ (fmt.maxExp - fmt.precision)) - q| := by
    intro σ hσ
    have := fmt.round_nearest q (m := σ * (2 ^ fmt.precision - 1)) (e := fmt.maxExp - fmt.precision)
      (by
        have : (0 : Int) < 2 ^ fmt.precision := by positivity
        rw [abs_mul, hσ, one_mul, abs_of_nonneg (by omega)]; omega)
      (by unfold Format.Proper at hp; omega)
    convert this using 2
    rw [hpow]
    push_cast
    ring
  have h2 : ∀ σ : Int, |σ| = 1 → |fmt.round q - q| ≤ |σ * (2 : ℚ) ^ fmt.maxExp - q| := by
    intro σ hσ
    refine fmt.round_nearest q ?_ (by unfold Format.Proper at hp; omega)
    rw [hσ]
    exact one_lt_pow₀ (by norm_num) fmt.precision_pos.ne'
  rw [fmt.overflow_eq]
  constructor
  · intro h
    have hr := (fmt.represents_round h).le
    by_contra hc
    rw [not_lt] at hc
    -- the sign of `q`
    obtain ⟨σ, hσ, hq⟩ : ∃ σ : Int, |σ| = 1 ∧ |q| = σ * q := by
      rcases le_total 0 q with hq | hq
      · exact ⟨1, rfl, by rw [abs_of_nonneg hq]; push_cast; ring⟩
      · exact ⟨-1, rfl, by rw [abs_of_nonpos hq]; push_cast; ring⟩
    have hσ2 : (σ : ℚ) * σ = 1 := by
      have : σ * σ = 1 := by rw [← abs_mul_abs_self, hσ]; rfl
      exact_mod_cast this
    have hσ1 : |(σ : ℚ)| = 1 := by exact_mod_cast hσ
    have scale : ∀ z : ℚ, |z| = |σ * z| := fun z => by rw [abs_mul, hσ1, one_mul]
    have h3 := h2 σ hσ
    rw [scale (fmt.round q - q), scale (_ - q), mul_sub, mul_sub, ← mul_assoc, hσ2, one_mul, ← hq] at h3
    have h4 : σ * fmt.round q ≤ 2 ^ fmt.maxExp - 2 ^ (fmt.maxExp - fmt.precision) :=
      (le_abs_self _).trans (by rw [← scale]; exact hr)
    rw [abs_of_neg (by linarith)] at h3
    have hq2 : |q| < 2 ^ fmt.maxExp := by
      by_contra hc2
      rw [not_lt] at hc2
      rw [abs_of_nonpos (a := 2 ^ fmt.maxExp - |q|) (by linarith)] at h3
      linarith
    rw [abs_of_pos (a := 2 ^ fmt.maxExp - |q|) (by linarith)] at h3
    have e1 : σ * fmt.round q = 2 ^ fmt.maxExp - 2 ^ (fmt.maxExp - fmt.precision) := by linarith
    have e2 : |q| = 2 ^ fmt.maxExp - 2 ^ (fmt.maxExp - fmt.precision) / 2 := by linarith
    have e3 : fmt.round q = σ * (2 ^ fmt.maxExp - 2 ^ (fmt.maxExp - fmt.precision)) := by
      rw [← e1, ← mul_assoc, hσ2, one_mul]
    obtain ⟨k, hk⟩ := fmt.round_even q (m := σ) (e := fmt.maxExp)
      (by rw [hσ]; exact one_lt_pow₀ (by norm_num) fmt.precision_pos.ne') (by unfold Format.Proper at hp; omega)
      (by
        rw [e3]
        intro hc
        have := mul_left_cancel₀ (by rintro h0; rw [h0] at hσ1; simp at hσ1) hc
        linarith)
      (by
        rw [scale (_ - q), scale (fmt.round q - q), mul_sub, mul_sub, ← mul_assoc, hσ2, one_mul, ← hq, e1, e2,
          abs_of_pos (by linarith), abs_of_neg (by linarith)]
        ring)
    rw [scale (_ - fmt.round q), mul_sub, ← mul_assoc, hσ2, one_mul, e1, e3,
      abs_of_pos (by linarith), sub_sub_cancel, hpow] at hk
    have e4 : (σ : ℚ) * (2 ^ fmt.precision - 1) = 2 * k := by
      refine mul_right_cancel₀ hpos.ne' ?_
      rw [← hk]
      ring
    have e5 : σ * (2 ^ fmt.precision - 1) = 2 * k := by exact_mod_cast e4
    obtain ⟨p, hp'⟩ : ∃ p, fmt.precision = p + 1 := ⟨fmt.precision - 1, by have := fmt.precision_pos; omega⟩
    rw [hp', pow_succ] at e5
    rcases abs_eq (by norm_num) |>.mp hσ with rfl | rfl <;> omega
  · intro h
    by_contra hc
    rw [not_lt] at hc
    obtain ⟨σ, hσ, hq⟩ : ∃ σ : Int, |σ| = 1 ∧ |fmt.round q| = σ * fmt.round q := by
      rcases le_total 0 (fmt.round q) with hq | hq
      · exact ⟨1, rfl, by rw [abs_of_nonneg hq]; push_cast; ring⟩
      · exact ⟨-1, rfl, by rw [abs_of_nonpos hq]; push_cast; ring⟩
    have hσ2 : (σ : ℚ) * σ = 1 := by
      have : σ * σ = 1 := by rw [← abs_mul_abs_self, hσ]; rfl
      exact_mod_cast this
    have hσ1 : |(σ : ℚ)| = 1 := by exact_mod_cast hσ
    have scale : ∀ z : ℚ, |z| = |σ * z| := fun z => by rw [abs_mul, hσ1, one_mul]
    have h3 := hM σ hσ
    rw [scale (fmt.round q - q), scale (_ - q), mul_sub, mul_sub, ← mul_assoc, hσ2, one_mul, ← hq] at h3
    have h5 : σ * q ≤ |q| := (le_abs_self _).trans (by rw [← scale])
    rw [abs_of_pos (by linarith)] at h3
    rcases le_total (σ * q) (2 ^ fmt.maxExp - 2 ^ (fmt.maxExp - fmt.precision)) with h6 | h6
    · rw [abs_of_nonneg (a := 2 ^ fmt.maxExp - 2 ^ (fmt.maxExp - fmt.precision) - σ * q) (by linarith)] at h3
      linarith
    · rw [abs_of_nonpos (a := 2 ^ fmt.maxExp - 2 ^ (fmt.maxExp - fmt.precision) - σ * q) (by linarith)] at h3
      linarith

namespace Binary

/-- Rounding is correct. -/
theorem ofRat_correct (hp : fmt.Proper) (s : Bool) (q : ℚ) : (ofRat fmt s q).Correct q := by
  have near : |fmt.round q| < 2 ^ fmt.maxExp → fmt.Nearest q (fmt.round q) := fun h =>
    { represents := fmt.represents_round h
      nearest := by
        rintro y ⟨⟨m, e, h1, h2, rfl⟩, -⟩
        exact fmt.round_nearest q h1 h2
      even := by
        rintro y ⟨⟨m, e, h1, h2, rfl⟩, -⟩ hne h
        exact fmt.round_even q h1 h2 hne h }
  unfold ofRat
  split
  · rename_i h
    have h' : |fmt.round q| < 2 ^ fmt.maxExp := by
      rw [h, abs_zero]
      exact two_zpow_pos _
    refine ⟨(fmt.round_lt_iff hp q).mp h', ?_⟩
    have := near h'
    rw [h] at this
    exact this
  · split
    · rename_i h h'
      exact ⟨(fmt.round_lt_iff hp q).mp h', near h'⟩
    · rename_i h h'
      exact ⟨not_lt.mp fun hc => h' ((fmt.round_lt_iff hp q).mpr hc), rfl⟩

/-- The correctly rounded number is unique, except for the sign of zero. -/
theorem Correct.unique {q : ℚ} {a b : Binary fmt} (ha : a.Correct q) (hb : b.Correct q) :
    (a.Finite ↔ b.Finite) ∧ a.toRat = b.toRat ∧ (¬ a.Finite → a = b) := by
  have key : ∀ {v w : ℚ}, fmt.Nearest q v → fmt.Nearest q w → v = w := by
    intro v w hv hw
    by_contra hne
    have h1 := le_antisymm (hv.nearest w hw.represents) (hw.nearest v hv.represents)
    obtain ⟨k, hk⟩ := hv.even w hw.represents (Ne.symm hne) h1.symm
    obtain ⟨l, hl⟩ := hw.even v hv.represents hne h1
    rw [abs_sub_comm v w] at hl
    have hpos : 0 < |w - v| := abs_pos.mpr (sub_ne_zero.mpr (Ne.symm hne))
    have h2 : |(2 * l - 2 * k : ℚ)| = 1 := by
      refine mul_right_cancel₀ hpos.ne' ?_
      have h : (2 * l - 2 * k : ℚ) * |w - v| = w - v := by linear_combination hk - hl
      have h' := congrArg abs h
      rw [abs_mul, abs_abs] at h'
      rw [h', one_mul]
    have h3 : |2 * l - 2 * k| = 1 := by exact_mod_cast h2
    rcases abs_eq (by norm_num) |>.mp h3 with h | h <;> omega
  cases a <;> cases b <;>
    simp only [Correct, Finite, toRat, not_true_eq_false, not_false_eq_true, false_implies, true_implies, iff_true,
      iff_false, and_true, true_and, reduceCtorEq] at ha hb ⊢
  all_goals first
    | exact key ha.2 hb.2
    | (exfalso; exact absurd ha.1 (not_lt.mpr hb.1))
    | (exfalso; exact absurd hb.1 (not_lt.mpr ha.1))
    | rw [ha.2, hb.2]
    | skip

end Binary

end Ctldl
