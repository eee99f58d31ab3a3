import Verif.Spec.Range
import Verif.Lemmas.Contracted

/-! # The range of binary floating point arithmetic -/

namespace Ctldl

variable {fmt : Format} {C : Contraction}

theorem Format.round_lt (h : fmt.minExp < fmt.maxExp) {x : ℚ} (hx : |x| ≤ 2 ^ (fmt.maxExp - 1)) :
    |fmt.round x| < 2 ^ fmt.maxExp := by
  have e : (2 : ℚ) ^ fmt.maxExp = 2 * 2 ^ (fmt.maxExp - 1) := by
    rw [zpow_sub_one₀ (by norm_num)]
    ring
  have hpos := two_zpow_pos (fmt.maxExp - 1)
  have key : |fmt.round x - x| ≤ 1 / 2 * 2 ^ (fmt.maxExp - 1) := by
    rcases fmt.round_cases x with h' | ⟨-, h'⟩
    · refine h'.trans (mul_le_mul ?_ hx (abs_nonneg _) (by norm_num))
      have : (2 : ℚ) ^ (-fmt.precision : Int) ≤ 2 ^ (-1 : Int) :=
        zpow_le_zpow_right₀ (by norm_num) (by have := fmt.precision_pos; omega)
      rw [zpow_neg_one] at this
      linarith
    · refine h'.trans ?_
      have : (2 : ℚ) ^ (fmt.minExp - 1) ≤ 2 ^ (fmt.maxExp - 1 - 1) := zpow_le_zpow_right₀ (by norm_num) (by omega)
      rw [zpow_sub_one₀ (by norm_num) (fmt.maxExp - 1)] at this
      linarith
  have := abs_add_le (fmt.round x - x) x
  rw [sub_add_cancel] at this
  rw [e]
  linarith

namespace Binary

theorem ofRat_fin (h : fmt.minExp < fmt.maxExp) {s : Bool} {x : ℚ} (hx : |x| ≤ 2 ^ (fmt.maxExp - 1)) :
    (ofRat fmt s x).Finite := by
  unfold ofRat
  split
  · trivial
  · rw [dif_pos (Format.round_lt h hx)]
    trivial

theorem fin_sub (h : fmt.minExp < fmt.maxExp) {a b : Binary fmt} (ha : a.Finite) (hb : b.Finite)
    (hx : |a.toRat - b.toRat| ≤ 2 ^ (fmt.maxExp - 1)) : (a - b).Finite := by
  cases a <;> cases b <;> first
    | exact ha.elim
    | exact hb.elim
    | exact ofRat_fin h hx
    | trivial

theorem fin_mul (h : fmt.minExp < fmt.maxExp) {a b : Binary fmt} (ha : a.Finite) (hb : b.Finite)
    (hx : |a.toRat * b.toRat| ≤ 2 ^ (fmt.maxExp - 1)) : (a * b).Finite := by
  cases a <;> cases b <;> first
    | exact ha.elim
    | exact hb.elim
    | exact ofRat_fin h hx

theorem fin_div (h : fmt.minExp < fmt.maxExp) {a b : Binary fmt} (ha : a.Finite) (hb : b.Finite) (hb0 : b.toRat ≠ 0)
    (hx : |a.toRat / b.toRat| ≤ 2 ^ (fmt.maxExp - 1)) : (a / b).Finite := by
  cases a <;> cases b <;> first
    | exact ha.elim
    | exact hb.elim
    | exact (hb0 rfl).elim
    | exact ofRat_fin h hx

theorem fin_fusedSub (h : fmt.minExp < fmt.maxExp) {a b c : Binary fmt} (ha : a.Finite) (hb : b.Finite) (hc : c.Finite)
    (hx : |a.toRat - b.toRat * c.toRat| ≤ 2 ^ (fmt.maxExp - 1)) : (a.fusedSub b c).Finite := by
  have e : a.fusedSub b c = match (motive := Binary fmt → Binary fmt) a with
      | .nan => .nan
      | .inf s => .inf s
      | .num x _ _ => ofRat fmt (x - b.toRat * c.toRat < 0) (x - b.toRat * c.toRat)
      | .zero s =>
        if b.toRat * c.toRat = 0 then .zero (s && !(b.negative ^^ c.negative))
        else ofRat fmt (0 - b.toRat * c.toRat < 0) (0 - b.toRat * c.toRat) := by
    cases b <;> cases c <;> first | exact hb.elim | exact hc.elim | (cases a <;> rfl)
  rw [e]
  cases a with
  | nan => exact ha.elim
  | inf s => exact ha.elim
  | num x hx' hr => exact ofRat_fin h hx
  | zero s =>
    simp only
    split
    · trivial
    · exact ofRat_fin h hx

theorem mul_bound {a b : Binary fmt} (h : (a * b).Finite) :
    |(a * b).toRat| ≤ |a.toRat * b.toRat| * (1 + 2 ^ (-fmt.precision : Int)) + 2 ^ (fmt.minExp - 1) := by
  obtain ⟨δ, e, hδ, he, hv⟩ := mul_rel h
  rw [hv]
  refine (abs_add_le _ _).trans (add_le_add ?_ he)
  rw [abs_mul]
  refine mul_le_mul_of_nonneg_left ?_ (abs_nonneg _)
  refine (abs_add_le _ _).trans ?_
  rw [abs_one]
  linarith

/-- Half of the first power of two which is too large is in the range. -/
theorem range (h : fmt.minExp < fmt.maxExp) : (rounding fmt).Range (2 ^ (fmt.maxExp - 1)) where
  stored_sub := fun _ _ => trivial
  fin_sub := fun _ ha hb hx => fin_sub h ha hb hx
  fin_mul := fun _ _ ha hb hx => fin_mul h ha hb hx
  fin_mul_mul := by
    intro a b c _ _ _ ha hb hc h1 h2
    have h3 := fin_mul h ha hb h1
    refine fin_mul h h3 hc (le_trans ?_ h2)
    rw [abs_mul]
    exact mul_le_mul_of_nonneg_right (mul_bound h3) (abs_nonneg _)
  fin_div := fun _ _ ha hb hb0 hx => fin_div h ha hb hb0 hx

end Binary

namespace Contracted

theorem fin_times (h : fmt.minExp < fmt.maxExp) {t s : C.Tag} {a b : Binary fmt} (ha : a.Finite) (hb : b.Finite)
    (hx : |a.toRat * b.toRat| ≤ 2 ^ (fmt.maxExp - 1)) : (times t s a b).Finite := by
  unfold times
  split
  · exact ⟨ha, hb⟩
  · exact Binary.fin_mul h ha hb hx

/-- The range with contracted expressions. -/
theorem range (h : fmt.minExp < fmt.maxExp) : (rounding fmt C).Range (2 ^ (fmt.maxExp - 1)) where
  stored_sub := by
    intro a b
    cases a <;> cases b <;> trivial
  fin_sub := by
    intro a b sa ha hb hx
    cases a with
    | prod t x y => exact sa.elim
    | val t a =>
      cases b with
      | val s b => exact Binary.fin_sub h ha hb hx
      | prod s b c => exact Binary.fin_fusedSub h ha hb.1 hb.2 hx
  fin_mul := by
    intro a b sa sb ha hb hx
    cases a with
    | prod t x y => exact sa.elim
    | val t a =>
      cases b with
      | prod s b c => exact sb.elim
      | val s b => exact fin_times h ha hb hx
  fin_mul_mul := by
    intro a b c sa sb sc ha hb hc h1 h2
    cases a with
    | prod t x y => exact sa.elim
    | val t a =>
      cases b with
      | prod s b c => exact sb.elim
      | val s b =>
        cases c with
        | prod r x y => exact sc.elim
        | val r c =>
          change ((times t s a b) * val r c).Finite
          have e : (times t s a b) * val r c = times (C.mul t s) r (a * b) c := by
            unfold times
            split <;> rfl
          rw [e]
          have h3 := Binary.fin_mul h ha hb h1
          refine fin_times h h3 hc (le_trans ?_ h2)
          rw [abs_mul]
          refine mul_le_mul_of_nonneg_right ((Binary.mul_bound h3).trans ?_) (abs_nonneg _)
          refine add_le_add_right ?_ _
          exact zpow_le_zpow_right₀ (by norm_num) (by omega)
  fin_div := by
    intro a b sa sb ha hb hb0 hx
    cases a with
    | prod t x y => exact sa.elim
    | val t a =>
      cases b with
      | prod s b c => exact sb.elim
      | val s b => exact Binary.fin_div h ha hb hb0 hx

end Contracted

end Ctldl
