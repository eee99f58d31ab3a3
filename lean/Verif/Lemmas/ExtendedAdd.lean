import Verif.Lemmas.Extended
import Verif.Lemmas.RangeAdd
import Verif.Spec.AnyOrder
import Verif.Spec.ExtendedAdd

/-! # Sums and reciprocals with extended precision of intermediate results -/

namespace Ctldl

/-- Rounding without underflow. -/
theorem Format.round_normal (fmt : Format) {x : ℚ} (hx : (2 : ℚ) ^ (fmt.minExp + fmt.precision - 1) ≤ |x|) :
    ∃ δ : ℚ, |δ| ≤ 2 ^ (-fmt.precision : Int) ∧ fmt.round x = x * (1 + δ) := by
  have hx0 : 0 < |x| := (two_zpow_pos _).trans_le hx
  have hlog : fmt.minExp + fmt.precision - 1 ≤ Int.log 2 |x| :=
    (Int.zpow_le_iff_le_log (by decide) hx0).mp (by exact_mod_cast hx)
  have herr : |fmt.round x - x| ≤ 2 ^ (-fmt.precision : Int) * |x| := by
    have h1 := fmt.round_err x
    rw [Format.unit, max_eq_left (by omega)] at h1
    have h2 : (2 : ℚ) ^ Int.log 2 |x| ≤ |x| := by
      have := Int.zpow_log_le_self (b := 2) (by decide) hx0
      exact_mod_cast this
    refine h1.trans (le_trans (le_of_eq ?_) (mul_le_mul_of_nonneg_left h2 (two_zpow_pos _).le))
    rw [← zpow_add₀ (by norm_num)]
    congr 1
    ring
  exact rel_of_err herr (two_zpow_pos _).le

namespace Extended

variable {fmt ext : Format} {C : Excess}

theorem add_rel (hw : fmt.Wider ext) {a b : Extended fmt ext C} (h : (a + b).Finite) : a.Finite ∧ b.Finite ∧
    ∃ δ e : ℚ, |δ| ≤ roundoff fmt ext ∧ |e| ≤ 2 ^ (fmt.minExp - 1) ∧
      (a + b).toRat = (a.toRat + b.toRat) * (1 + δ) + e := by
  obtain ⟨h1, δ', e', hδ', he', h2⟩ := store_rel hw h
  obtain ⟨ha, hb, δ, hδ, h3⟩ := Binary.add_rel h1
  obtain ⟨δ1, e1, h4, h5, h6⟩ := twice (η := 0) (e := 0) hδ (by rw [abs_zero]) (by rw [add_zero]; exact h3) hδ' he' h2
  exact ⟨ha, hb, δ1, e1, h4, by rwa [zero_mul, zero_add] at h5, h6⟩

/-- Arithmetic with rounding, whatever results are kept, with sums. -/
def roundingAdd (fmt ext : Format) (C : Excess) (hw : fmt.Wider ext) (hp : 2 ≤ fmt.precision) :
    RoundingAdd (Extended fmt ext C) ℚ where
  __ := rounding fmt ext C hw hp
  add := add_rel hw

theorem fin_add (hw : fmt.Wider ext) (h : fmt.minExp < fmt.maxExp) {a b : Extended fmt ext C} (ha : a.Finite) (hb : b.Finite)
    (hx : |a.toRat + b.toRat| ≤ 2 ^ (fmt.maxExp - 1)) : (a + b).Finite := by
  have hx' : |a.value.toRat - b.value.neg.toRat| ≤ 2 ^ (fmt.maxExp - 1) := by
    rw [Binary.toRat_neg, sub_neg_eq_add]
    exact hx
  have h1 := Binary.fin_sub (wide hw h) ha (Binary.finite_neg.mpr hb) (wide_bound hw hx')
  refine store_fin hw h (x := a.value + b.value) h1 ?_
  refine le_of_eq_of_le (congrArg abs (Binary.finite_sub h1).2.2) ?_
  exact round_bound (by have := hw.minExp; omega) hx'

/-- The range is that of the type. -/
theorem rangeAdd (hw : fmt.Wider ext) (hp : 2 ≤ fmt.precision) (h : fmt.minExp < fmt.maxExp) :
    (roundingAdd fmt ext C hw hp).Range (2 ^ (fmt.maxExp - 1)) where
  __ := range hw hp h
  stored_zero := trivial
  stored_add := fun _ _ => trivial
  fin_add := fun _ ha hb hx => fin_add hw h ha hb hx

/-- A lower bound which is a power of two is kept when rounding. -/
theorem le_round {z : Int} (h : ext.minExp ≤ z) {x : ℚ} (hx : (2 : ℚ) ^ z ≤ |x|) : 2 ^ z ≤ |ext.round x| := by
  rcases le_abs.mp hx with h1 | h1
  · refine le_trans ?_ (le_abs_self _)
    rw [← round_pow h]
    exact ext.round_mono h1
  · have h2 := ext.round_mono (show x ≤ -2 ^ z by linarith)
    rw [round_neg_pow h] at h2
    refine le_trans ?_ (neg_le_abs _)
    linarith

/-- A result which is rounded or not, without underflow. -/
theorem store_normal (hw : fmt.Wider ext) {keep : Bool} {x : Binary ext} (h : (store fmt keep x).Finite)
    (hx : (2 : ℚ) ^ (fmt.minExp + fmt.precision - 1) ≤ |x.toRat|) :
    ∃ δ : ℚ, |δ| ≤ 2 ^ (-fmt.precision : Int) ∧ (store fmt keep x).toRat = x.toRat * (1 + δ) := by
  unfold store at h ⊢
  split
  · exact ⟨0, by rw [abs_zero]; exact (two_zpow_pos _).le, by ring⟩
  · next hk =>
    rw [if_neg hk] at h
    have h1 := (Binary.convert_wider hw _).1.mp h
    rw [(Binary.convert_wider hw _).2]
    cases x with
    | num x h0 hr =>
      obtain ⟨δ, h2, h3⟩ := fmt.round_normal hx
      exact ⟨δ, h2, (Binary.ofRat_finite h1).trans h3⟩
    | zero s =>
      have : (2 : ℚ) ^ (fmt.minExp + fmt.precision - 1) ≤ |0| := hx
      rw [abs_zero] at this
      exact absurd (two_zpow_pos _) (not_lt.mpr this)
    | inf s => exact absurd h1 id
    | nan => exact absurd h1 id

/-- Reciprocals are accurate. -/
theorem accurateReciprocal (hw : fmt.Wider ext) (hp : 2 ≤ fmt.precision) {one d : Extended fmt ext C} (hone : one.toRat = 1)
    (hd : d.Finite) (h : |d.toRat| ≤ 2 ^ (1 - fmt.minExp - fmt.precision)) (h' : |d.toRat| ≤ 2 ^ (1 - ext.minExp - ext.precision)) :
    (roundingAdd fmt ext C hw hp).AccurateReciprocal one d := by
  intro hf
  have hx : ∀ f : Format, d.toRat ≠ 0 → |d.toRat| ≤ 2 ^ (1 - f.minExp - f.precision) →
      (2 : ℚ) ^ (f.minExp + f.precision - 1) ≤ |1 / d.toRat| := fun f h0 h => by
    rw [abs_div, abs_one, le_div_iff₀ (abs_pos.mpr h0)]
    refine (mul_le_mul_of_nonneg_left h (two_zpow_pos _).le).trans_eq ?_
    rw [← zpow_add₀ (by norm_num), show f.minExp + f.precision - 1 + (1 - f.minExp - f.precision) = 0 by ring, zpow_zero]
  have h1 := (store_rel hw hf).1
  obtain ⟨-, h0, hv⟩ := Binary.finite_div (a := one.value) (b := d.value) hd h1
  change d.toRat ≠ 0 at h0
  change (one.value / d.value).toRat = ext.round (one.toRat / d.toRat) at hv
  rw [hone] at hv
  obtain ⟨δ, hδ, h2⟩ := ext.round_normal (hx ext h0 h')
  have h3 : (2 : ℚ) ^ (fmt.minExp + fmt.precision - 1) ≤ |(one.value / d.value).toRat| := by
    rw [hv]
    exact le_round (by have := hw.minExp; omega) (hx fmt h0 h)
  obtain ⟨δ', hδ', h4⟩ := store_normal hw hf h3
  obtain ⟨δ1, e1, h5, h6, h7⟩ := twice (η := 0) (e := 0) (η' := 0) (e' := 0) hδ (by rw [abs_zero])
    ((hv.trans h2).trans (add_zero _).symm) hδ' (by rw [abs_zero]) (h4.trans (add_zero _).symm)
  have he : e1 = 0 := by
    rw [zero_mul, zero_add] at h6
    exact abs_nonpos_iff.mp h6
  refine ⟨δ1, h5, ?_⟩
  show (one / d).toRat * d.toRat = _
  have h8 : (one / d).toRat = 1 / d.toRat * (1 + δ1) + e1 := h7
  rw [h8, he]
  field_simp
  ring

end Extended

end Ctldl
