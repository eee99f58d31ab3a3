import Verif.Spec.Binary
import Verif.Spec.Rounding

/-! # Binary floating point arithmetic is arithmetic with rounding -/

namespace Ctldl

variable {fmt : Format}

theorem two_zpow_pos (e : Int) : (0 : ℚ) < 2 ^ e := zpow_pos (by norm_num) _

theorem Format.round_err (fmt : Format) (x : ℚ) : |fmt.round x - x| ≤ 2 ^ (fmt.unit x - 1) := by
  have hpos := two_zpow_pos (fmt.unit x)
  have h := roundEven_err (x / 2 ^ fmt.unit x)
  have e : fmt.round x - x = (roundEven (x / 2 ^ fmt.unit x) - x / 2 ^ fmt.unit x) * 2 ^ fmt.unit x := by
    rw [Format.round, sub_mul, div_mul_cancel₀ _ hpos.ne']
  rw [e, abs_mul, abs_of_pos hpos, zpow_sub_one₀ (by norm_num)]
  calc _ ≤ 1 / 2 * (2 : ℚ) ^ fmt.unit x := mul_le_mul_of_nonneg_right h hpos.le
    _ = _ := by ring

/-- Rounding is exact, has a small relative error, or a small absolute one. -/
theorem Format.round_cases (fmt : Format) (x : ℚ) :
    |fmt.round x - x| ≤ 2 ^ (-fmt.precision : Int) * |x| ∨ (fmt.unit x = fmt.minExp ∧
      |fmt.round x - x| ≤ 2 ^ (fmt.minExp - 1)) := by
  have h := fmt.round_err x
  rcases le_total fmt.minExp (Int.log 2 |x| - (fmt.precision - 1)) with hle | hle
  · left
    have hu : fmt.unit x = Int.log 2 |x| - (fmt.precision - 1) := max_eq_left hle
    by_cases hx : x = 0
    · subst hx
      rw [Format.round, zero_div, abs_zero, mul_zero, show (0 : ℚ) = ((0 : Int) : ℚ) from rfl, roundEven_int]
      simp
    · refine h.trans ?_
      have := Int.zpow_log_le_self (b := 2) (by decide) (abs_pos.mpr hx)
      rw [hu, show Int.log 2 |x| - ((fmt.precision : Int) - 1) - 1 = -fmt.precision + Int.log 2 |x| by ring,
        zpow_add₀ (by norm_num)]
      exact mul_le_mul_of_nonneg_left (by exact_mod_cast this) (two_zpow_pos _).le
  · right
    have hu : fmt.unit x = fmt.minExp := max_eq_right hle
    exact ⟨hu, hu ▸ h⟩

/-- Multiples of the smallest number. -/
theorem Format.Represents.multiple {x : ℚ} (h : fmt.Represents x) : ∃ k : Int, x = k * 2 ^ fmt.minExp := by
  obtain ⟨⟨m, e, -, he, rfl⟩, -⟩ := h
  obtain ⟨n, hn⟩ := Int.eq_ofNat_of_zero_le (show 0 ≤ e - fmt.minExp by omega)
  refine ⟨m * 2 ^ n, ?_⟩
  have : e = n + fmt.minExp := by omega
  rw [this, zpow_add₀ (by norm_num), zpow_natCast]
  push_cast
  ring

theorem Binary.multiple (a : Binary fmt) : ∃ k : Int, a.toRat = k * 2 ^ fmt.minExp := by
  cases a with
  | num x hx hr => exact hr.multiple
  | zero s => exact ⟨0, by simp [toRat]⟩
  | inf s => exact ⟨0, by simp [toRat]⟩
  | nan => exact ⟨0, by simp [toRat]⟩

theorem Binary.ofRat_finite {s : Bool} {x : ℚ} (h : (ofRat fmt s x).Finite) : (ofRat fmt s x).toRat = fmt.round x := by
  unfold ofRat at h ⊢
  split
  · next h' => exact h'.symm
  · next h' =>
    rw [dif_neg h'] at h
    split
    · rfl
    · next h'' =>
      rw [dif_neg h''] at h
      exact h.elim

/-- Errors of sums have only a relative part. -/
theorem Format.round_multiple (fmt : Format) {x : ℚ} (h : ∃ k : Int, x = k * 2 ^ fmt.minExp) :
    |fmt.round x - x| ≤ 2 ^ (-fmt.precision : Int) * |x| := by
  rcases fmt.round_cases x with h' | ⟨hu, -⟩
  · exact h'
  · obtain ⟨k, rfl⟩ := h
    rw [Format.round, hu, mul_div_cancel_right₀ _ (two_zpow_pos _).ne', roundEven_int, sub_self, abs_zero]
    exact mul_nonneg (two_zpow_pos _).le (abs_nonneg _)

theorem rel_of_err {x y u : ℚ} (h : |y - x| ≤ u * |x|) (hu : 0 ≤ u) : ∃ δ, |δ| ≤ u ∧ y = x * (1 + δ) := by
  by_cases hx : x = 0
  · subst hx
    refine ⟨0, by rwa [abs_zero], ?_⟩
    rw [abs_zero, mul_zero, sub_zero] at h
    rw [zero_mul]
    exact abs_eq_zero.mp (le_antisymm h (abs_nonneg _))
  · refine ⟨(y - x) / x, ?_, by field_simp; ring⟩
    rw [abs_div, div_le_iff₀ (abs_pos.mpr hx)]
    exact h

theorem Format.round_rel (fmt : Format) (x : ℚ) : ∃ δ e, |δ| ≤ (2 : ℚ) ^ (-fmt.precision : Int) ∧
    |e| ≤ (2 : ℚ) ^ (fmt.minExp - 1) ∧ fmt.round x = x * (1 + δ) + e := by
  rcases fmt.round_cases x with h | ⟨-, h⟩
  · obtain ⟨δ, h1, h2⟩ := rel_of_err h (two_zpow_pos _).le
    exact ⟨δ, 0, h1, by rw [abs_zero]; exact (two_zpow_pos _).le, by rw [h2, add_zero]⟩
  · exact ⟨0, _, by rw [abs_zero]; exact (two_zpow_pos _).le, h, by ring⟩

namespace Binary

theorem finite_sub {a b : Binary fmt} (h : (a - b).Finite) : a.Finite ∧ b.Finite ∧
    (a - b).toRat = fmt.round (a.toRat - b.toRat) := by
  have h0 : fmt.round 0 = 0 := by
    rw [Format.round, zero_div, show (0 : ℚ) = ((0 : Int) : ℚ) from rfl, roundEven_int]
    simp
  cases a <;> cases b <;> first
    | exact h.elim
    | exact ⟨trivial, trivial, ofRat_finite h⟩
    | skip
  · exact ⟨trivial, trivial, by show (0 : ℚ) = _; rw [toRat, toRat, sub_zero, h0]⟩
  · rename_i s t
    have : (Binary.inf s - Binary.inf t : Binary fmt) = if s = t then .nan else .inf s := rfl
    rw [this] at h
    split at h <;> exact h.elim

theorem finite_mul {a b : Binary fmt} (h : (a * b).Finite) : a.Finite ∧ b.Finite ∧
    (a * b).toRat = fmt.round (a.toRat * b.toRat) := by
  cases a <;> cases b <;> first
    | exact h.elim
    | exact ⟨trivial, trivial, ofRat_finite h⟩

theorem finite_div {a b : Binary fmt} (hb : b.Finite) (h : (a / b).Finite) : a.Finite ∧ b.toRat ≠ 0 ∧
    (a / b).toRat = fmt.round (a.toRat / b.toRat) := by
  cases a <;> cases b <;> first
    | exact h.elim
    | exact hb.elim
    | (rename_i hx _; exact ⟨trivial, hx, ofRat_finite h⟩)

theorem sub_rel {a b : Binary fmt} (h : (a - b).Finite) : a.Finite ∧ b.Finite ∧
    ∃ δ : ℚ, |δ| ≤ 2 ^ (-fmt.precision : Int) ∧ (a - b).toRat = (a.toRat - b.toRat) * (1 + δ) := by
  obtain ⟨h1, h2, h3⟩ := finite_sub h
  refine ⟨h1, h2, ?_⟩
  rw [h3]
  refine rel_of_err (fmt.round_multiple ?_) (two_zpow_pos _).le
  obtain ⟨k, hk⟩ := a.multiple
  obtain ⟨l, hl⟩ := b.multiple
  exact ⟨k - l, by rw [hk, hl]; push_cast; ring⟩

theorem mul_rel {a b : Binary fmt} (h : (a * b).Finite) :
    ∃ δ e : ℚ, |δ| ≤ 2 ^ (-fmt.precision : Int) ∧ |e| ≤ 2 ^ (fmt.minExp - 1) ∧
      (a * b).toRat = a.toRat * b.toRat * (1 + δ) + e := by
  rw [(finite_mul h).2.2]
  exact fmt.round_rel _

/-- Arithmetic with rounding: the unit roundoff and the error in case of underflow are halves of the distance of one
to the next number, and of the smallest number. -/
def rounding (fmt : Format) : Rounding (Binary fmt) ℚ where
  fin := Finite
  v := toRat
  u := 2 ^ (-fmt.precision : Int)
  η := 2 ^ (fmt.minExp - 1)
  μ := 2 ^ (fmt.minExp - 1)
  σ := 0
  stored := fun _ => True
  u_nonneg := (two_zpow_pos _).le
  u_lt_one := by
    have : (2 : ℚ) ^ (-fmt.precision : Int) < 2 ^ (0 : Int) :=
      zpow_lt_zpow_right₀ (by norm_num) (by have := fmt.precision_pos; omega)
    rwa [zpow_zero] at this
  η_nonneg := (two_zpow_pos _).le
  σ_nonneg := le_rfl
  μ_add_σ := (add_zero _).le
  fin_zero := trivial
  v_zero := rfl
  stored_div := fun _ _ => trivial
  sub := by
    intro a b h
    obtain ⟨h1, h2, δ, hδ, h3⟩ := sub_rel h
    exact ⟨h1, h2, δ, 0, hδ, by rw [abs_zero], by rw [h3, add_zero]⟩
  fin_mul := fun h => ⟨(finite_mul h).1, (finite_mul h).2.1⟩
  mul := fun _ h => mul_rel h
  mul_mul := by
    intro a b c _ h
    obtain ⟨δ, e, hδ, he, h1⟩ := mul_rel h
    obtain ⟨δ', e', hδ', he', h2⟩ := mul_rel (finite_mul h).1
    exact ⟨δ, e, δ', e', hδ, he, hδ', he', by rw [h1, h2]⟩
  div := by
    intro a b hb h
    obtain ⟨h1, h2, h3⟩ := finite_div hb h
    refine ⟨h1, trivial, h2, ?_⟩
    rw [h3]
    exact fmt.round_rel _

end Binary

end Ctldl
