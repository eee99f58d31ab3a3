import Verif.Lemmas.Binary
import Verif.Spec.Mixed

/-! # Conversion between binary formats -/

namespace Ctldl

variable {fmt fmt' : Format}

theorem Format.round_zero : fmt.round 0 = 0 := by
  have : roundEven 0 = 0 := roundEven_int 0
  rw [Format.round, zero_div, this, Int.cast_zero, zero_mul]

/-- Rounding does not change numbers of the format. -/
theorem Format.round_self {x : ℚ} {m e : Int} (hm : |m| < 2 ^ fmt.precision) (he : fmt.minExp ≤ e)
    (hx : x = m * (2 : ℚ) ^ e) : fmt.round x = x := by
  by_cases h0 : x = 0
  · rw [h0, Format.round_zero]
  have hu : fmt.unit x ≤ e := by
    refine max_le ?_ he
    have h1 : |x| < (2 : ℚ) ^ (fmt.precision + e) := by
      rw [hx, abs_mul, abs_of_pos (two_zpow_pos e), zpow_add₀ (by norm_num), zpow_natCast]
      exact mul_lt_mul_of_pos_right (by exact_mod_cast hm) (two_zpow_pos e)
    have := (Int.lt_zpow_iff_log_lt (b := 2) (by decide) (abs_pos.mpr h0)).mp (by exact_mod_cast h1)
    omega
  obtain ⟨k, hk⟩ : ∃ k : Nat, e = fmt.unit x + k := ⟨(e - fmt.unit x).toNat, by omega⟩
  have h2 : x / 2 ^ fmt.unit x = ((m * 2 ^ k : Int) : ℚ) := by
    rw [div_eq_iff (two_zpow_pos _).ne']
    generalize fmt.unit x = w at hk ⊢
    rw [hx, hk, zpow_add₀ (by norm_num), zpow_natCast]
    push_cast
    ring
  unfold Format.round
  rw [h2, roundEven_int, ← h2, div_mul_cancel₀ _ (two_zpow_pos _).ne']

theorem roundEven_nearest (q : ℚ) (k : Int) : |(roundEven q : ℚ) - q| ≤ |(k : ℚ) - q| := by
  by_cases h : k = roundEven q
  · rw [h]
  · have h1 := roundEven_err q
    have h2 : (1 : ℚ) ≤ |(k : ℚ) - roundEven q| := by
      have : 1 ≤ |k - roundEven q| := Int.one_le_abs (sub_ne_zero.mpr h)
      exact_mod_cast this
    have h3 : |(k : ℚ) - roundEven q| ≤ |(k : ℚ) - q| + |(roundEven q : ℚ) - q| := by
      rw [show (k : ℚ) - roundEven q = (k - q) - (roundEven q - q) by ring]
      exact abs_sub _ _
    linarith

/-- The rounded number is nearest to the given one among the multiples of the unit. -/
theorem Format.round_nearest_multiple (x : ℚ) (k : Int) :
    |fmt.round x - x| ≤ |(k : ℚ) * 2 ^ fmt.unit x - x| := by
  have hp := two_zpow_pos (fmt.unit x)
  have e : ∀ t : ℚ, t * 2 ^ fmt.unit x - x = (t - x / 2 ^ fmt.unit x) * 2 ^ fmt.unit x := by
    intro t
    rw [sub_mul, div_mul_cancel₀ _ hp.ne']
  unfold Format.round
  rw [e, e, abs_mul, abs_mul]
  exact mul_le_mul_of_nonneg_right (roundEven_nearest _ _) (abs_nonneg _)

/-- The rounded number is nearest to the given one among the numbers of the format. -/
theorem Format.round_nearest (x : ℚ) {m e : Int} (hm : |m| < 2 ^ fmt.precision) (he : fmt.minExp ≤ e) :
    |fmt.round x - x| ≤ |m * (2 : ℚ) ^ e - x| := by
  by_cases hu : fmt.unit x ≤ e
  · obtain ⟨k, hk⟩ : ∃ k : Nat, e = fmt.unit x + k := ⟨(e - fmt.unit x).toNat, by omega⟩
    have := fmt.round_nearest_multiple x (m * 2 ^ k)
    convert this using 3
    rw [hk, zpow_add₀ (by norm_num), zpow_natCast]
    push_cast
    ring
  · by_cases h0 : x = 0
    · rw [h0, Format.round_zero, sub_zero, abs_zero]
      exact abs_nonneg _
    have hu' : fmt.unit x = Int.log 2 |x| - (fmt.precision - 1) := by
      unfold Format.unit at hu ⊢
      omega
    have hl : (2 : ℚ) ^ Int.log 2 |x| ≤ |x| := Int.zpow_log_le_self (by decide) (abs_pos.mpr h0)
    have hy : |m * (2 : ℚ) ^ e| ≤ (2 : ℚ) ^ Int.log 2 |x| := by
      rw [abs_mul, abs_of_pos (two_zpow_pos e)]
      have h1 : |(m : ℚ)| ≤ (2 : ℚ) ^ (fmt.precision : Int) := by
        rw [zpow_natCast]
        exact_mod_cast hm.le
      refine (mul_le_mul_of_nonneg_right h1 (two_zpow_pos e).le).trans ?_
      rw [← zpow_add₀ (by norm_num)]
      refine zpow_le_zpow_right₀ (by norm_num) ?_
      omega
    have hk : ∀ s : Int, |fmt.round x - x| ≤ |(s : ℚ) * 2 ^ Int.log 2 |x| - x| := by
      intro s
      have := fmt.round_nearest_multiple x (s * 2 ^ (fmt.precision - 1))
      convert this using 3
      push_cast
      rw [mul_assoc, ← zpow_natCast, ← zpow_add₀ (by norm_num), hu']
      congr 2
      have := fmt.precision_pos
      omega
    generalize (2 : ℚ) ^ Int.log 2 |x| = t at hl hy hk
    obtain ⟨hy1, hy2⟩ := abs_le.mp hy
    rcases le_total 0 x with hx | hx
    · refine (hk 1).trans ?_
      rw [abs_of_nonneg hx] at hl
      rw [Int.cast_one, one_mul, abs_of_nonpos (by linarith), abs_of_nonpos (by linarith)]
      linarith
    · refine (hk (-1)).trans ?_
      rw [abs_of_nonpos hx] at hl
      push_cast
      rw [abs_of_nonneg (by linarith), abs_of_nonneg (by linarith)]
      linarith

namespace Binary

/-- Conversion to another format is a conversion in the sense of the specification. -/
theorem conversion (fmt fmt' : Format) :
    Conversion (rounding fmt') (toRat : Binary fmt → ℚ) (Binary.convert fmt') where
  zero := rfl
  v_zero := rfl
  err := by
    intro x hx
    cases x with
    | zero s => exact ⟨0, 0, by rw [abs_zero]; exact (rounding fmt').u_nonneg,
        by rw [abs_zero]; exact (rounding fmt').η_nonneg, by simp [rounding, convert, toRat]⟩
    | num x h0 hr =>
      obtain ⟨δ, e, h1, h2, h3⟩ := fmt'.round_rel x
      exact ⟨δ, e, h1, h2, (ofRat_finite hx).trans h3⟩
    | inf s => exact absurd hx id
    | nan => exact absurd hx id

/-- Conversion to a wider format is exact. -/
theorem convert_wider (h : fmt.Wider fmt') (x : Binary fmt) :
    ((x.convert fmt').Finite ↔ x.Finite) ∧ (x.convert fmt').toRat = x.toRat := by
  cases x with
  | zero s => exact ⟨Iff.rfl, rfl⟩
  | inf s => exact ⟨Iff.rfl, rfl⟩
  | nan => exact ⟨Iff.rfl, rfl⟩
  | num x h0 hr =>
    obtain ⟨⟨m, e, hm, he, hx⟩, hlt⟩ := hr
    have hr' : fmt'.round x = x := Format.round_self
      (hm.trans_le (pow_le_pow_right₀ (by norm_num) h.precision)) (h.minExp.trans he) hx
    have hlt' : |x| < (2 : ℚ) ^ fmt'.maxExp := hlt.trans_le (zpow_le_zpow_right₀ (by norm_num) h.maxExp)
    have hfin : (ofRat fmt' (x < 0) x).Finite := by
      unfold ofRat
      rw [dif_neg (by rwa [hr']), dif_pos (by rwa [hr'])]
      trivial
    exact ⟨⟨fun _ => trivial, fun _ => hfin⟩, (ofRat_finite hfin).trans hr'⟩

end Binary

theorem Format.float_double : Format.binary32.Wider Format.binary64 := ⟨by decide, by decide, by decide⟩

end Ctldl
