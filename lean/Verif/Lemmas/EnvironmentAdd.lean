import Verif.Lemmas.Environment
import Verif.Lemmas.RangeAdd
import Verif.Spec.AnyOrder
import Verif.Spec.EnvironmentAdd

/-! # Sums and reciprocals in any floating point environment -/

namespace Ctldl

variable {fmt : Format} {e : Environment}

/-- Rounding without underflow, in any direction. -/
theorem Format.roundIn_normal (fmt : Format) (dir : Direction) {x : ℚ} (hx : fmt.smallestNormal ≤ |x|) :
    ∃ δ : ℚ, |δ| ≤ 2 ^ (1 - fmt.precision : Int) ∧ fmt.roundIn dir x = x * (1 + δ) := by
  have hx0 : 0 < |x| := (two_zpow_pos _).trans_le hx
  have hlog : fmt.minExp + (fmt.precision - 1) ≤ Int.log 2 |x| :=
    (Int.zpow_le_iff_le_log (by decide) hx0).mp (by exact_mod_cast hx)
  have hu : fmt.unit x = Int.log 2 |x| - (fmt.precision - 1) := max_eq_left (by omega)
  have herr : |fmt.roundIn dir x - x| ≤ (2 : ℚ) ^ (1 - fmt.precision : Int) * |x| := by
    refine (fmt.roundIn_err dir x).trans ?_
    have := Int.zpow_log_le_self (b := 2) (by decide) hx0
    rw [hu, show Int.log 2 |x| - ((fmt.precision : Int) - 1) = 1 - fmt.precision + Int.log 2 |x| by ring,
      zpow_add₀ (by norm_num)]
    exact mul_le_mul_of_nonneg_left (by exact_mod_cast this) (two_zpow_pos _).le
  exact rel_of_err herr (two_zpow_pos _).le

namespace Environment

theorem operand_neg (a : Binary fmt) : (e.operand a.neg).toRat = -(e.operand a).toRat := by
  cases a with
  | num x hx hr =>
    simp only [Binary.neg, operand, abs_neg]
    split <;> simp [Binary.toRat]
  | _ => simp [Binary.neg, operand, Binary.toRat]

/-- Results which are neither too large nor subnormal have a small relative error. -/
theorem result_normal {s : Bool} {x : ℚ} (h : (e.result fmt s x).2 = false) (hx : fmt.smallestNormal ≤ |x|) :
    ∃ δ : ℚ, |δ| ≤ 2 ^ (1 - fmt.precision : Int) ∧ (e.operand (e.result fmt s x).1).toRat = x * (1 + δ) := by
  have hn : 0 < fmt.smallestNormal := two_zpow_pos _
  have hr := fmt.le_roundIn e.direction hx
  have h0 : x ≠ 0 := abs_pos.mp (hn.trans_le hx)
  have h1 : fmt.roundIn e.direction x ≠ 0 := abs_pos.mp (hn.trans_le hr)
  have h2 : ¬ (e.flush ∧ |fmt.roundIn e.direction x| < fmt.smallestNormal) := fun h => absurd h.2 (not_lt.mpr hr)
  unfold result at h ⊢
  rw [if_neg h0, dif_neg h1, if_neg h2] at h ⊢
  split
  · simp only [operand, if_neg h2]
    exact fmt.roundIn_normal e.direction hx
  · next h3 =>
    rw [dif_neg h3] at h
    cases h

end Environment

namespace Flagged

open Environment

/-- The number with the other sign. -/
private def neg (a : Flagged fmt e) : Flagged fmt e := ⟨⟨a.value.value.neg⟩, a.overflow⟩

private theorem neg_toRat (a : Flagged fmt e) : (neg a).toRat = -a.toRat := operand_neg _

private theorem neg_finite {a : Flagged fmt e} : (neg a).Finite ↔ a.Finite := and_congr_left' Binary.finite_neg

private theorem add_eq (a b : Flagged fmt e) : a + b = a - neg b := rfl

theorem add_rel {a b : Flagged fmt e} (h : (a + b).Finite) : a.Finite ∧ b.Finite ∧
    ∃ δ t : ℚ, |δ| ≤ 2 ^ (1 - fmt.precision : Int) ∧ |t| ≤ e.tiny fmt ∧
      (a + b).toRat = (a.toRat + b.toRat) * (1 + δ) + t := by
  rw [add_eq] at h ⊢
  obtain ⟨h1, h2, h3⟩ := sub_rel h
  rw [neg_toRat, sub_neg_eq_add] at h3
  exact ⟨h1, neg_finite.mp h2, h3⟩

theorem fin_add (h : fmt.minExp < fmt.maxExp) {a b : Flagged fmt e} (ha : a.Finite) (hb : b.Finite)
    (hx : |a.toRat + b.toRat| ≤ 2 ^ (fmt.maxExp - 1)) : (a + b).Finite := by
  rw [add_eq]
  exact fin_sub h ha (neg_finite.mpr hb) (by rwa [neg_toRat, sub_neg_eq_add])

/-- Arithmetic with rounding, in any environment, with sums. -/
def roundingAdd (fmt : Format) (e : Environment) (hp : 2 ≤ fmt.precision) : RoundingAdd (Flagged fmt e) ℚ where
  __ := rounding fmt e hp
  add := add_rel

/-- The range in any environment, with sums. -/
theorem rangeAdd (hp : 2 ≤ fmt.precision) (h : fmt.minExp < fmt.maxExp) :
    (roundingAdd fmt e hp).Range (2 ^ (fmt.maxExp - 1)) where
  __ := range hp h
  stored_zero := trivial
  stored_add := fun _ _ => trivial
  fin_add := fun _ ha hb hx => fin_add h ha hb hx

/-- Quotients which are not subnormal have a small relative error. -/
theorem div_normal {a b : Flagged fmt e} (hb : b.Finite) (h : (a / b).Finite)
    (hx : b.toRat ≠ 0 → fmt.smallestNormal ≤ |a.toRat / b.toRat|) :
    b.toRat ≠ 0 ∧ ∃ δ : ℚ, |δ| ≤ 2 ^ (1 - fmt.precision : Int) ∧ (a / b).toRat = a.toRat / b.toRat * (1 + δ) := by
  have h0 := (div_rel hb h).2.1
  replace hx := hx h0
  refine ⟨h0, ?_⟩
  have ha := (div_rel hb h).1.1
  have h2 := (Bool.or_eq_false_iff.mp h.2).2
  have hb := hb.1
  rw [← operand_finite (e := e)] at ha hb
  change ∃ δ : ℚ, _ ∧ (e.operand (e.div a.value.value b.value.value).1).toRat = (toRat a / toRat b) * (1 + δ)
  unfold toRat Directed.toRat at hx h0 ⊢
  unfold Environment.div at h2 ⊢
  generalize e.operand a.value.value = x at ha h2 hx ⊢
  generalize e.operand b.value.value = y at hb h0 h2 hx ⊢
  cases x <;> cases y <;> first
    | exact ha.elim
    | exact hb.elim
    | exact (h0 rfl).elim
    | exact result_normal h2 hx

/-- Reciprocals are accurate. -/
theorem accurateReciprocal (hp : 2 ≤ fmt.precision) {one d : Flagged fmt e} (hone : one.toRat = 1)
    (hd : d.Finite) (h : |d.toRat| * fmt.smallestNormal ≤ 1) : (roundingAdd fmt e hp).AccurateReciprocal one d := by
  intro hf
  obtain ⟨h0, δ, hδ, hv⟩ := div_normal hd hf fun h0 => by
    rw [hone, abs_div, abs_one, le_div_iff₀ (abs_pos.mpr h0), mul_comm]
    exact h
  refine ⟨δ, hδ, ?_⟩
  show (one / d).toRat * d.toRat = _
  rw [hv, hone]
  field_simp

end Flagged

end Ctldl
