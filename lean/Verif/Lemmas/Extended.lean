import Verif.Spec.Extended
import Verif.Lemmas.Conversion
import Verif.Lemmas.Comparison
import Verif.Lemmas.Range

/-! # Binary floating point arithmetic with extended precision of intermediate results is arithmetic with rounding -/

namespace Ctldl

namespace Extended

variable {fmt ext : Format} {C : Excess}

/-- Unit roundoff of results which are rounded twice. -/
def roundoff (fmt ext : Format) : ℚ :=
  2 ^ (-ext.precision : Int) + 2 ^ (-fmt.precision : Int) + 2 ^ (-ext.precision : Int) * 2 ^ (-fmt.precision : Int)

/-- A result which is rounded or not is close to the one before. -/
theorem store_rel (hw : fmt.Wider ext) {keep : Bool} {x : Binary ext} (h : (store fmt keep x).Finite) :
    x.Finite ∧ ∃ δ e : ℚ, |δ| ≤ 2 ^ (-fmt.precision : Int) ∧ |e| ≤ 2 ^ (fmt.minExp - 1) ∧
      (store fmt keep x).toRat = x.toRat * (1 + δ) + e := by
  unfold store at h ⊢
  split
  · next hk =>
    rw [if_pos hk] at h
    exact ⟨h, 0, 0, by rw [abs_zero]; exact (two_zpow_pos _).le, by rw [abs_zero]; exact (two_zpow_pos _).le, by ring⟩
  · next hk =>
    rw [if_neg hk] at h
    have h1 := (Binary.convert_wider hw _).1.mp h
    refine ⟨?_, ?_⟩
    · cases x <;> first | exact trivial | exact h1.elim
    · rw [(Binary.convert_wider hw _).2]
      exact (Binary.conversion ext fmt).err h1

theorem twice {x y z u w δ e δ' e' η η' : ℚ} (hδ : |δ| ≤ w) (he : |e| ≤ η) (h : y = x * (1 + δ) + e)
    (hδ' : |δ'| ≤ u) (he' : |e'| ≤ η') (h' : z = y * (1 + δ') + e') :
    ∃ δ e : ℚ, |δ| ≤ w + u + w * u ∧ |e| ≤ η * (1 + u) + η' ∧ z = x * (1 + δ) + e := by
  have hw : 0 ≤ w := (abs_nonneg _).trans hδ
  have hη : 0 ≤ η := (abs_nonneg _).trans he
  have h1 : |1 + δ'| ≤ 1 + u := (abs_add_le _ _).trans (by rw [abs_one]; exact add_le_add le_rfl hδ')
  refine ⟨δ + δ' + δ * δ', e * (1 + δ') + e', ?_, ?_, ?_⟩
  · refine (abs_add_le _ _).trans (add_le_add ((abs_add_le _ _).trans (add_le_add hδ hδ')) ?_)
    rw [abs_mul]
    exact mul_le_mul hδ hδ' (abs_nonneg _) hw
  · refine (abs_add_le _ _).trans (add_le_add ?_ he')
    rw [abs_mul]
    exact mul_le_mul he h1 (abs_nonneg _) hη
  · rw [h', h]
    ring

private theorem half (hp : 2 ≤ fmt.precision) : (2 : ℚ) ^ (-fmt.precision : Int) ≤ 1 / 4 := by
  have : (2 : ℚ) ^ (-fmt.precision : Int) ≤ 2 ^ (-2 : Int) := zpow_le_zpow_right₀ (by norm_num) (by omega)
  norm_num at this ⊢
  exact this

private theorem under (hw : fmt.Wider ext) (hp : 2 ≤ fmt.precision) :
    (2 : ℚ) ^ (ext.minExp - 1) * (1 + 2 ^ (-fmt.precision : Int)) + 2 ^ (fmt.minExp - 1) ≤ 3 * 2 ^ (fmt.minExp - 1) := by
  have h1 : (2 : ℚ) ^ (ext.minExp - 1) ≤ 2 ^ (fmt.minExp - 1) :=
    zpow_le_zpow_right₀ (by norm_num) (by have := hw.minExp; omega)
  have h2 := half hp
  have h3 := two_zpow_pos (fmt.minExp - 1)
  have h4 : (2 : ℚ) ^ (ext.minExp - 1) * (1 + 2 ^ (-fmt.precision : Int)) ≤ 2 ^ (fmt.minExp - 1) * 2 :=
    mul_le_mul h1 (by linarith) (by linarith [two_zpow_pos (-fmt.precision : Int)]) h3.le
  linarith

theorem sub_rel (hw : fmt.Wider ext) {a b : Extended fmt ext C} (h : (a - b).Finite) : a.Finite ∧ b.Finite ∧
    ∃ δ e : ℚ, |δ| ≤ roundoff fmt ext ∧ |e| ≤ 2 ^ (fmt.minExp - 1) ∧
      (a - b).toRat = (a.toRat - b.toRat) * (1 + δ) + e := by
  obtain ⟨h1, δ', e', hδ', he', h2⟩ := store_rel hw h
  obtain ⟨ha, hb, δ, hδ, h3⟩ := Binary.sub_rel h1
  obtain ⟨δ1, e1, h4, h5, h6⟩ := twice (η := 0) (e := 0) hδ (by rw [abs_zero]) (by rw [add_zero]; exact h3) hδ' he' h2
  exact ⟨ha, hb, δ1, e1, h4, by rwa [zero_mul, zero_add] at h5, h6⟩

theorem mul_rel (hw : fmt.Wider ext) (hp : 2 ≤ fmt.precision) {a b : Extended fmt ext C} (h : (a * b).Finite) :
    a.Finite ∧ b.Finite ∧ ∃ δ e : ℚ, |δ| ≤ roundoff fmt ext ∧ |e| ≤ 3 * 2 ^ (fmt.minExp - 1) ∧
      (a * b).toRat = a.toRat * b.toRat * (1 + δ) + e := by
  obtain ⟨h1, δ', e', hδ', he', h2⟩ := store_rel hw h
  obtain ⟨ha, hb, -⟩ := Binary.finite_mul h1
  obtain ⟨δ, e, hδ, he, h3⟩ := Binary.mul_rel h1
  obtain ⟨δ1, e1, h4, h5, h6⟩ := twice hδ he h3 hδ' he' h2
  exact ⟨ha, hb, δ1, e1, h4, h5.trans (under hw hp), h6⟩

theorem div_rel (hw : fmt.Wider ext) (hp : 2 ≤ fmt.precision) {a b : Extended fmt ext C} (hb : b.Finite)
    (h : (a / b).Finite) : a.Finite ∧ b.toRat ≠ 0 ∧ ∃ δ e : ℚ, |δ| ≤ roundoff fmt ext ∧ |e| ≤ 3 * 2 ^ (fmt.minExp - 1) ∧
      (a / b).toRat = a.toRat / b.toRat * (1 + δ) + e := by
  obtain ⟨h1, δ', e', hδ', he', h2⟩ := store_rel hw h
  obtain ⟨ha, hb0, δ, e, hδ, he, h3⟩ : _ ∧ _ ∧ _ := by
    have := (Binary.rounding ext).div hb h1
    exact ⟨this.1, this.2.2.1, this.2.2.2⟩
  obtain ⟨δ1, e1, h4, h5, h6⟩ := twice hδ he h3 hδ' he' h2
  exact ⟨ha, hb0, δ1, e1, h4, h5.trans (under hw hp), h6⟩

private theorem quadruple (z : Int) : (2 : ℚ) ^ (z + 1) = 4 * 2 ^ (z - 1) := by
  rw [show z + 1 = (z - 1) + 2 by ring, zpow_add₀ (by norm_num)]
  norm_num
  ring

/-- Arithmetic with rounding, whatever results are kept. -/
def rounding (fmt ext : Format) (C : Excess) (hw : fmt.Wider ext) (hp : 2 ≤ fmt.precision) :
    Rounding (Extended fmt ext C) ℚ where
  fin := Finite
  v := toRat
  u := roundoff fmt ext
  η := 2 ^ (fmt.minExp + 1)
  μ := 3 * 2 ^ (fmt.minExp - 1)
  σ := 2 ^ (fmt.minExp - 1)
  stored := fun _ => True
  u_nonneg := by
    have h1 := two_zpow_pos (-fmt.precision : Int)
    have h2 := two_zpow_pos (-ext.precision : Int)
    unfold roundoff
    positivity
  u_lt_one := by
    have h1 := half hp
    have h2 := half (hp.trans hw.precision)
    have h3 := two_zpow_pos (-fmt.precision : Int)
    have h4 := two_zpow_pos (-ext.precision : Int)
    unfold roundoff
    nlinarith
  η_nonneg := (two_zpow_pos _).le
  σ_nonneg := (two_zpow_pos _).le
  μ_add_σ := by
    rw [quadruple]
    linarith
  fin_zero := trivial
  v_zero := rfl
  stored_div := fun _ _ => trivial
  sub := sub_rel hw
  fin_mul := fun h => ⟨(mul_rel hw hp h).1, (mul_rel hw hp h).2.1⟩
  mul := fun _ h => (mul_rel hw hp h).2.2
  mul_mul := by
    intro a b c _ h
    obtain ⟨h0, -, δ, t, hδ, ht, h1⟩ := mul_rel hw hp h
    obtain ⟨-, -, δ', t', hδ', ht', h2⟩ := mul_rel hw hp h0
    exact ⟨δ, t, δ', t', hδ, ht, hδ', ht'.trans (by rw [quadruple]; linarith [two_zpow_pos (fmt.minExp - 1)]),
      by rw [h1, h2]⟩
  div := by
    intro a b hb h
    obtain ⟨h1, h2, δ, t, hδ, ht, h3⟩ := div_rel hw hp hb h
    exact ⟨h1, trivial, h2, δ, t, hδ, ht.trans (by rw [quadruple]; linarith [two_zpow_pos (fmt.minExp - 1)]), h3⟩

/-! ### Range -/

theorem round_pow {z : Int} (h : ext.minExp ≤ z) : ext.round (2 ^ z) = 2 ^ z :=
  Format.round_self (m := 1) (e := z) (by rw [abs_one]; exact one_lt_pow₀ (by norm_num) ext.precision_pos.ne') h (by simp)

theorem round_neg_pow {z : Int} (h : ext.minExp ≤ z) : ext.round (-2 ^ z) = -2 ^ z :=
  Format.round_self (m := -1) (e := z) (by rw [abs_neg, abs_one]; exact one_lt_pow₀ (by norm_num) ext.precision_pos.ne') h
    (by simp)

theorem round_bound {z : Int} (h : ext.minExp ≤ z) {x : ℚ} (hx : |x| ≤ 2 ^ z) : |ext.round x| ≤ 2 ^ z := by
  obtain ⟨h1, h2⟩ := abs_le.mp hx
  rw [abs_le]
  exact ⟨by rw [← round_neg_pow h]; exact ext.round_mono h1, by rw [← round_pow h]; exact ext.round_mono h2⟩

theorem store_fin (hw : fmt.Wider ext) (h : fmt.minExp < fmt.maxExp) {keep : Bool} {x : Binary ext} (hx : x.Finite)
    (hb : |x.toRat| ≤ 2 ^ (fmt.maxExp - 1)) : (store fmt keep x).Finite := by
  unfold store
  split
  · exact hx
  · rw [(Binary.convert_wider hw _).1]
    cases x with
    | zero s => trivial
    | num x h0 hr => exact Binary.ofRat_fin h hb
    | inf s => exact hx.elim
    | nan => exact hx.elim

theorem wide (hw : fmt.Wider ext) (h : fmt.minExp < fmt.maxExp) : ext.minExp < ext.maxExp :=
  lt_of_le_of_lt hw.minExp (h.trans_le hw.maxExp)

theorem wide_bound (hw : fmt.Wider ext) {x : ℚ} (hx : |x| ≤ 2 ^ (fmt.maxExp - 1)) : |x| ≤ 2 ^ (ext.maxExp - 1) :=
  hx.trans (zpow_le_zpow_right₀ (by norm_num) (by have := hw.maxExp; omega))

theorem fin_sub (hw : fmt.Wider ext) (h : fmt.minExp < fmt.maxExp) {a b : Extended fmt ext C} (ha : a.Finite) (hb : b.Finite)
    (hx : |a.toRat - b.toRat| ≤ 2 ^ (fmt.maxExp - 1)) : (a - b).Finite := by
  have h1 := Binary.fin_sub (wide hw h) ha hb (wide_bound hw hx)
  refine store_fin hw h h1 ?_
  rw [(Binary.finite_sub h1).2.2]
  exact round_bound (by have := hw.minExp; omega) hx

theorem fin_mul (hw : fmt.Wider ext) (h : fmt.minExp < fmt.maxExp) {a b : Extended fmt ext C} (ha : a.Finite) (hb : b.Finite)
    (hx : |a.toRat * b.toRat| ≤ 2 ^ (fmt.maxExp - 1)) : (a * b).Finite := by
  have h1 := Binary.fin_mul (wide hw h) ha hb (wide_bound hw hx)
  refine store_fin hw h h1 ?_
  rw [(Binary.finite_mul h1).2.2]
  exact round_bound (by have := hw.minExp; omega) hx

theorem fin_div (hw : fmt.Wider ext) (h : fmt.minExp < fmt.maxExp) {a b : Extended fmt ext C} (ha : a.Finite) (hb : b.Finite)
    (hb0 : b.toRat ≠ 0) (hx : |a.toRat / b.toRat| ≤ 2 ^ (fmt.maxExp - 1)) : (a / b).Finite := by
  have h1 := Binary.fin_div (wide hw h) ha hb hb0 (wide_bound hw hx)
  refine store_fin hw h h1 ?_
  rw [(Binary.finite_div hb h1).2.2]
  exact round_bound (by have := hw.minExp; omega) hx

/-- The range is that of the type. -/
theorem range (hw : fmt.Wider ext) (hp : 2 ≤ fmt.precision) (h : fmt.minExp < fmt.maxExp) :
    (rounding fmt ext C hw hp).Range (2 ^ (fmt.maxExp - 1)) where
  stored_sub := fun _ _ => trivial
  fin_sub := fun _ ha hb hx => fin_sub hw h ha hb hx
  fin_mul := fun _ _ ha hb hx => fin_mul hw h ha hb hx
  fin_mul_mul := by
    intro a b c _ _ _ ha hb hc h1 h2
    have h3 := fin_mul hw h ha hb h1
    refine fin_mul hw h h3 hc (le_trans ?_ h2)
    rw [abs_mul]
    refine mul_le_mul_of_nonneg_right ?_ (abs_nonneg _)
    obtain ⟨-, -, δ, t, hδ, ht, hv⟩ := mul_rel hw hp h3
    rw [hv]
    refine (abs_add_le _ _).trans (add_le_add ?_ (ht.trans ?_))
    · rw [abs_mul]
      refine mul_le_mul_of_nonneg_left ?_ (abs_nonneg _)
      refine (abs_add_le _ _).trans ?_
      rw [abs_one]
      exact add_le_add le_rfl hδ
    · change 3 * (2 : ℚ) ^ (fmt.minExp - 1) ≤ 2 ^ (fmt.minExp + 1)
      rw [quadruple]
      linarith [two_zpow_pos (fmt.minExp - 1)]
  fin_div := fun _ _ ha hb hb0 hx => fin_div hw h ha hb hb0 hx

end Extended

end Ctldl
