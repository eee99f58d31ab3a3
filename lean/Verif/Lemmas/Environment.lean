import Verif.Spec.Environment
import Verif.Spec.Range
import Verif.Lemmas.Binary

/-! # Binary floating point arithmetic in any environment is arithmetic with rounding -/

namespace Ctldl

variable {fmt : Format} {e : Environment}

namespace Format

theorem roundIn_err (fmt : Format) (dir : Direction) (x : ℚ) : |fmt.roundIn dir x - x| ≤ 2 ^ fmt.unit x := by
  have hpos := two_zpow_pos (fmt.unit x)
  have h := dir.integer_err (x / 2 ^ fmt.unit x)
  have e : fmt.roundIn dir x - x = (dir.integer (x / 2 ^ fmt.unit x) - x / 2 ^ fmt.unit x) * 2 ^ fmt.unit x := by
    rw [Format.roundIn, sub_mul, div_mul_cancel₀ _ hpos.ne']
  rw [e, abs_mul, abs_of_pos hpos]
  calc _ ≤ 1 * (2 : ℚ) ^ fmt.unit x := mul_le_mul_of_nonneg_right h hpos.le
    _ = _ := one_mul _

/-- Rounding has a small relative error, or a small absolute one. -/
theorem roundIn_rel (fmt : Format) (dir : Direction) {x : ℚ} (hx : x ≠ 0) :
    ∃ δ e, |δ| ≤ (2 : ℚ) ^ (1 - fmt.precision : Int) ∧ |e| ≤ (2 : ℚ) ^ fmt.minExp ∧
      fmt.roundIn dir x = x * (1 + δ) + e := by
  have h := fmt.roundIn_err dir x
  rcases le_total fmt.minExp (Int.log 2 |x| - (fmt.precision - 1)) with hle | hle
  · have hu : fmt.unit x = Int.log 2 |x| - (fmt.precision - 1) := max_eq_left hle
    have h' : |fmt.roundIn dir x - x| ≤ (2 : ℚ) ^ (1 - fmt.precision : Int) * |x| := by
      refine h.trans ?_
      have := Int.zpow_log_le_self (b := 2) (by decide) (abs_pos.mpr hx)
      rw [hu, show Int.log 2 |x| - ((fmt.precision : Int) - 1) = 1 - fmt.precision + Int.log 2 |x| by ring,
        zpow_add₀ (by norm_num)]
      exact mul_le_mul_of_nonneg_left (by exact_mod_cast this) (two_zpow_pos _).le
    obtain ⟨δ, h1, h2⟩ := rel_of_err h' (two_zpow_pos _).le
    exact ⟨δ, 0, h1, by rw [abs_zero]; exact (two_zpow_pos _).le, by rw [h2, add_zero]⟩
  · have hu : fmt.unit x = fmt.minExp := max_eq_right hle
    exact ⟨0, _, by rw [abs_zero]; exact (two_zpow_pos _).le, hu ▸ h, by ring⟩

/-- Numbers which are not subnormal stay so. -/
theorem le_roundIn (fmt : Format) (dir : Direction) {x : ℚ} (h : fmt.smallestNormal ≤ |x|) :
    fmt.smallestNormal ≤ |fmt.roundIn dir x| := by
  have hpos := two_zpow_pos (fmt.unit x)
  have hx : 0 < |x| := (two_zpow_pos _).trans_le h
  have hlog : fmt.minExp + (fmt.precision - 1) ≤ Int.log 2 |x| :=
    (Int.zpow_le_iff_le_log (by decide) hx).mp (by exact_mod_cast h)
  have hu : fmt.unit x = Int.log 2 |x| - (fmt.precision - 1) := max_eq_left (by omega)
  have hp := fmt.precision_pos
  have hk : (((2 ^ (fmt.precision - 1) : Nat) : Int) : ℚ) ≤ |x / 2 ^ fmt.unit x| := by
    rw [abs_div, abs_of_pos hpos, le_div_iff₀ hpos]
    have := Int.zpow_log_le_self (b := 2) (by decide) hx
    refine le_trans (le_of_eq ?_) (show ((2 : ℚ) ^ Int.log 2 |x| ≤ |x|) by exact_mod_cast this)
    push_cast
    rw [← zpow_natCast, ← zpow_add₀ (by norm_num)]
    congr 1
    rw [hu]
    omega
  have key : ((2 ^ (fmt.precision - 1) : Nat) : Int) ≤ |dir.integer (x / 2 ^ fmt.unit x)| := by
    rcases le_abs.mp hk with h' | h'
    · exact (dir.le_integer h').trans (le_abs_self _)
    · refine le_trans ?_ (neg_le_abs _)
      have := dir.integer_le (k := -((2 ^ (fmt.precision - 1) : Nat) : Int))
        (q := x / 2 ^ fmt.unit x) (by rw [Int.cast_neg]; linarith)
      omega
  rw [roundIn, abs_mul, abs_of_pos hpos]
  have key' : ((2 ^ (fmt.precision - 1) : Nat) : ℚ) ≤ |((dir.integer (x / 2 ^ fmt.unit x) : Int) : ℚ)| := by
    exact_mod_cast key
  refine le_trans ?_ (mul_le_mul_of_nonneg_right key' hpos.le)
  push_cast
  rw [smallestNormal, ← zpow_natCast, ← zpow_add₀ (by norm_num)]
  exact zpow_le_zpow_right₀ (by norm_num) (by omega)

/-- Results in the lower half of the range are not too large. -/
theorem roundIn_lt (h : fmt.minExp < fmt.maxExp) (dir : Direction) {x : ℚ} (hx : |x| ≤ 2 ^ (fmt.maxExp - 1)) :
    |fmt.roundIn dir x| < 2 ^ fmt.maxExp := by
  have hpos := two_zpow_pos (fmt.unit x)
  by_cases h0 : x = 0
  · have h1 : dir.integer 0 = 0 :=
      le_antisymm (dir.integer_le (k := 0) (by norm_num)) (dir.le_integer (k := 0) (by norm_num))
    rw [h0, roundIn, zero_div, h1, Int.cast_zero, zero_mul, abs_zero]
    exact two_zpow_pos _
  have hu : fmt.unit x ≤ fmt.maxExp - 1 := by
    refine max_le ?_ (by omega)
    have hp := fmt.precision_pos
    have h1 := Int.log_mono_right (b := 2) (abs_pos.mpr h0) hx
    have e : Int.log 2 ((2 : ℚ) ^ (fmt.maxExp - 1)) = fmt.maxExp - 1 := by
      have := Int.log_zpow (R := ℚ) (b := 2) (by decide) (fmt.maxExp - 1)
      exact_mod_cast this
    omega
  obtain ⟨n, hn⟩ := Int.eq_ofNat_of_zero_le (show 0 ≤ fmt.maxExp - 1 - fmt.unit x by omega)
  have hk : |x / 2 ^ fmt.unit x| ≤ ((2 ^ n : Nat) : ℚ) := by
    rw [abs_div, abs_of_pos hpos, div_le_iff₀ hpos]
    refine hx.trans (le_of_eq ?_)
    push_cast
    rw [← zpow_natCast, ← zpow_add₀ (by norm_num)]
    congr 1
    omega
  have := dir.integer_abs_le hk
  have key : |((dir.integer (x / 2 ^ fmt.unit x) : Int) : ℚ)| ≤ ((2 ^ n : Nat) : ℚ) := by exact_mod_cast this
  rw [roundIn, abs_mul, abs_of_pos hpos]
  refine (mul_le_mul_of_nonneg_right key hpos.le).trans_lt ?_
  push_cast
  rw [← zpow_natCast, ← zpow_add₀ (by norm_num)]
  exact zpow_lt_zpow_right₀ (by norm_num) (by omega)

end Format

namespace Environment

theorem tiny_pos (e : Environment) (fmt : Format) : 0 < e.tiny fmt := by
  unfold tiny Format.smallestNormal
  split <;> exact two_zpow_pos _

theorem le_tiny (e : Environment) (fmt : Format) : 2 ^ fmt.minExp ≤ e.tiny fmt := by
  unfold tiny Format.smallestNormal
  have := fmt.precision_pos
  split
  · exact zpow_le_zpow_right₀ (by norm_num) (by omega)
  · exact le_rfl

theorem operand_finite {a : Binary fmt} : (e.operand a).Finite ↔ a.Finite := by
  cases a with
  | num x hx hr =>
    simp only [operand]
    split <;> exact Iff.rfl
  | _ => exact Iff.rfl

/-- Results which are not too large are close to the exact ones. -/
theorem result_rel {s : Bool} {x : ℚ} (h : (e.result fmt s x).2 = false) :
    (e.result fmt s x).1.Finite ∧ ∃ δ t, |δ| ≤ (2 : ℚ) ^ (1 - fmt.precision : Int) ∧ |t| ≤ e.tiny fmt ∧
      (e.operand (e.result fmt s x).1).toRat = x * (1 + δ) + t := by
  have hu := (two_zpow_pos (1 - fmt.precision : Int)).le
  have ht := (e.tiny_pos fmt).le
  unfold result at h ⊢
  split
  · next h0 => exact ⟨trivial, 0, 0, by rwa [abs_zero], by rwa [abs_zero], by rw [h0]; simp [operand, Binary.toRat]⟩
  · next h0 =>
    rw [if_neg h0] at h
    obtain ⟨δ, t, h1, h2, h3⟩ := fmt.roundIn_rel e.direction h0
    split
    · next h4 => exact ⟨trivial, δ, t, h1, h2.trans (e.le_tiny fmt), by rw [← h3, h4]; rfl⟩
    · next h4 =>
      rw [dif_neg h4] at h
      split
      · next h5 =>
        refine ⟨trivial, 0, -x, by rwa [abs_zero], ?_, by simp [operand, Binary.toRat]⟩
        rw [abs_neg, tiny, if_pos h5.1]
        by_contra hc
        exact absurd h5.2 (not_lt.mpr (fmt.le_roundIn e.direction (not_le.mp hc).le))
      · next h5 =>
        rw [if_neg h5] at h
        split
        · next h6 =>
          refine ⟨trivial, δ, t, h1, h2.trans (e.le_tiny fmt), ?_⟩
          simp only [operand, if_neg h5]
          exact h3
        · next h6 =>
          rw [dif_neg h6] at h
          cases h

theorem result_fin (h : fmt.minExp < fmt.maxExp) {s : Bool} {x : ℚ} (hx : |x| ≤ 2 ^ (fmt.maxExp - 1)) :
    (e.result fmt s x).2 = false := by
  unfold result
  split
  · rfl
  · split
    · rfl
    · split
      · rfl
      · rw [dif_pos (Format.roundIn_lt h e.direction hx)]

end Environment

namespace Flagged

open Environment

private theorem or3 {a b c : Bool} (h : (a || b || c) = false) : a = false ∧ b = false ∧ c = false := by
  cases a <;> cases b <;> cases c <;> simp_all

theorem sub_rel {a b : Flagged fmt e} (h : (a - b).Finite) : a.Finite ∧ b.Finite ∧
    ∃ δ t : ℚ, |δ| ≤ 2 ^ (1 - fmt.precision : Int) ∧ |t| ≤ e.tiny fmt ∧
      (a - b).toRat = (a.toRat - b.toRat) * (1 + δ) + t := by
  obtain ⟨h1, h2⟩ := h
  obtain ⟨ha, hb, h2⟩ := or3 h2
  have hu := (two_zpow_pos (1 - fmt.precision : Int)).le
  have ht := (e.tiny_pos fmt).le
  change (e.sub a.value.value b.value.value).1.Finite at h1
  unfold Finite
  rw [← operand_finite (e := e) (a := a.value.value), ← operand_finite (e := e) (a := b.value.value), ha, hb]
  change _ ∧ _ ∧ ∃ δ t : ℚ, _ ∧ _ ∧ (e.operand (e.sub a.value.value b.value.value).1).toRat = (toRat a - toRat b) * (1 + δ) + t
  unfold toRat Directed.toRat
  unfold Environment.sub at h1 h2 ⊢
  generalize e.operand a.value.value = x at h1 h2 ⊢
  generalize e.operand b.value.value = y at h1 h2 ⊢
  cases x <;> cases y <;> first
    | exact h1.elim
    | exact ⟨⟨trivial, rfl⟩, ⟨trivial, rfl⟩, (result_rel h2).2⟩
    | exact ⟨⟨trivial, rfl⟩, ⟨trivial, rfl⟩, 0, 0, by rwa [abs_zero], by rwa [abs_zero], by simp [operand, Binary.toRat]⟩
    | (dsimp only at h1; split at h1 <;> exact h1.elim)

theorem mul_rel {a b : Flagged fmt e} (h : (a * b).Finite) : a.Finite ∧ b.Finite ∧
    ∃ δ t : ℚ, |δ| ≤ 2 ^ (1 - fmt.precision : Int) ∧ |t| ≤ e.tiny fmt ∧
      (a * b).toRat = a.toRat * b.toRat * (1 + δ) + t := by
  obtain ⟨h1, h2⟩ := h
  obtain ⟨ha, hb, h2⟩ := or3 h2
  change (e.mul a.value.value b.value.value).1.Finite at h1
  unfold Finite
  rw [← operand_finite (e := e) (a := a.value.value), ← operand_finite (e := e) (a := b.value.value), ha, hb]
  change _ ∧ _ ∧ ∃ δ t : ℚ, _ ∧ _ ∧ (e.operand (e.mul a.value.value b.value.value).1).toRat = (toRat a * toRat b) * (1 + δ) + t
  unfold toRat Directed.toRat
  unfold Environment.mul at h1 h2 ⊢
  generalize e.operand a.value.value = x at h1 h2 ⊢
  generalize e.operand b.value.value = y at h1 h2 ⊢
  cases x <;> cases y <;> first
    | exact h1.elim
    | exact ⟨⟨trivial, rfl⟩, ⟨trivial, rfl⟩, (result_rel h2).2⟩

theorem div_rel {a b : Flagged fmt e} (hb : b.Finite) (h : (a / b).Finite) : a.Finite ∧ b.toRat ≠ 0 ∧
    ∃ δ t : ℚ, |δ| ≤ 2 ^ (1 - fmt.precision : Int) ∧ |t| ≤ e.tiny fmt ∧
      (a / b).toRat = a.toRat / b.toRat * (1 + δ) + t := by
  obtain ⟨h1, h2⟩ := h
  obtain ⟨ha, -, h2⟩ := or3 h2
  have hb := hb.1
  change (e.div a.value.value b.value.value).1.Finite at h1
  unfold Finite
  rw [← operand_finite (e := e)] at hb ⊢
  rw [ha]
  change _ ∧ _ ∧ ∃ δ t : ℚ, _ ∧ _ ∧ (e.operand (e.div a.value.value b.value.value).1).toRat = (toRat a / toRat b) * (1 + δ) + t
  unfold toRat Directed.toRat
  unfold Environment.div at h1 h2 ⊢
  generalize e.operand a.value.value = x at h1 h2 ⊢
  generalize e.operand b.value.value = y at h1 h2 hb ⊢
  cases x <;> cases y <;> first
    | exact h1.elim
    | exact hb.elim
    | (rename_i hx _; exact ⟨⟨trivial, rfl⟩, hx, (result_rel h2).2⟩)

/-- Arithmetic with rounding, in any environment. -/
def rounding (fmt : Format) (e : Environment) (hp : 2 ≤ fmt.precision) : Rounding (Flagged fmt e) ℚ where
  fin := Finite
  v := toRat
  u := 2 ^ (1 - fmt.precision : Int)
  η := 2 * e.tiny fmt
  μ := e.tiny fmt
  σ := e.tiny fmt
  stored := fun _ => True
  u_nonneg := (two_zpow_pos _).le
  u_lt_one := by
    have : (2 : ℚ) ^ (1 - fmt.precision : Int) < 2 ^ (0 : Int) := zpow_lt_zpow_right₀ (by norm_num) (by omega)
    rwa [zpow_zero] at this
  η_nonneg := by linarith [e.tiny_pos fmt]
  σ_nonneg := (e.tiny_pos fmt).le
  μ_add_σ := by linarith
  fin_zero := ⟨trivial, rfl⟩
  v_zero := rfl
  stored_div := fun _ _ => trivial
  sub := sub_rel
  fin_mul := fun h => ⟨(mul_rel h).1, (mul_rel h).2.1⟩
  mul := fun _ h => (mul_rel h).2.2
  mul_mul := by
    intro a b c _ h
    obtain ⟨h0, -, δ, t, hδ, ht, h1⟩ := mul_rel h
    obtain ⟨-, -, δ', t', hδ', ht', h2⟩ := mul_rel h0
    exact ⟨δ, t, δ', t', hδ, ht, hδ', ht'.trans (by linarith [e.tiny_pos fmt]), by rw [h1, h2]⟩
  div := by
    intro a b hb h
    obtain ⟨h1, h2, δ, t, hδ, ht, h3⟩ := div_rel hb h
    exact ⟨h1, trivial, h2, δ, t, hδ, ht.trans (by linarith [e.tiny_pos fmt]), h3⟩

theorem fin_sub (h : fmt.minExp < fmt.maxExp) {a b : Flagged fmt e} (ha : a.Finite) (hb : b.Finite)
    (hx : |a.toRat - b.toRat| ≤ 2 ^ (fmt.maxExp - 1)) : (a - b).Finite := by
  obtain ⟨ha, fa⟩ := ha
  obtain ⟨hb, fb⟩ := hb
  rw [← operand_finite (e := e)] at ha hb
  change (e.sub a.value.value b.value.value).1.Finite ∧ (a.overflow || b.overflow || (e.sub a.value.value b.value.value).2) = false
  rw [fa, fb]
  unfold toRat Directed.toRat at hx
  unfold Environment.sub
  generalize e.operand a.value.value = x at ha hx ⊢
  generalize e.operand b.value.value = y at hb hx ⊢
  cases x <;> cases y <;> first
    | exact ha.elim
    | exact hb.elim
    | exact ⟨(result_rel (result_fin h hx)).1, result_fin h hx⟩
    | exact ⟨trivial, rfl⟩

theorem fin_mul (h : fmt.minExp < fmt.maxExp) {a b : Flagged fmt e} (ha : a.Finite) (hb : b.Finite)
    (hx : |a.toRat * b.toRat| ≤ 2 ^ (fmt.maxExp - 1)) : (a * b).Finite := by
  obtain ⟨ha, fa⟩ := ha
  obtain ⟨hb, fb⟩ := hb
  rw [← operand_finite (e := e)] at ha hb
  change (e.mul a.value.value b.value.value).1.Finite ∧ (a.overflow || b.overflow || (e.mul a.value.value b.value.value).2) = false
  rw [fa, fb]
  unfold toRat Directed.toRat at hx
  unfold Environment.mul
  generalize e.operand a.value.value = x at ha hx ⊢
  generalize e.operand b.value.value = y at hb hx ⊢
  cases x <;> cases y <;> first
    | exact ha.elim
    | exact hb.elim
    | exact ⟨(result_rel (result_fin h hx)).1, result_fin h hx⟩

theorem fin_div (h : fmt.minExp < fmt.maxExp) {a b : Flagged fmt e} (ha : a.Finite) (hb : b.Finite) (hb0 : b.toRat ≠ 0)
    (hx : |a.toRat / b.toRat| ≤ 2 ^ (fmt.maxExp - 1)) : (a / b).Finite := by
  obtain ⟨ha, fa⟩ := ha
  obtain ⟨hb, fb⟩ := hb
  rw [← operand_finite (e := e)] at ha hb
  change (e.div a.value.value b.value.value).1.Finite ∧ (a.overflow || b.overflow || (e.div a.value.value b.value.value).2) = false
  rw [fa, fb]
  unfold toRat Directed.toRat at hx hb0
  unfold Environment.div
  generalize e.operand a.value.value = x at ha hx ⊢
  generalize e.operand b.value.value = y at hb hb0 hx ⊢
  cases x <;> cases y <;> first
    | exact ha.elim
    | exact hb.elim
    | exact (hb0 rfl).elim
    | exact ⟨(result_rel (result_fin h hx)).1, result_fin h hx⟩

/-- The range in any environment. -/
theorem range (hp : 2 ≤ fmt.precision) (h : fmt.minExp < fmt.maxExp) :
    (rounding fmt e hp).Range (2 ^ (fmt.maxExp - 1)) where
  stored_sub := fun _ _ => trivial
  fin_sub := fun _ ha hb hx => fin_sub h ha hb hx
  fin_mul := fun _ _ ha hb hx => fin_mul h ha hb hx
  fin_mul_mul := by
    intro a b c _ _ _ ha hb hc h1 h2
    have h3 := fin_mul h ha hb h1
    refine fin_mul h h3 hc (le_trans ?_ h2)
    rw [abs_mul]
    refine mul_le_mul_of_nonneg_right ?_ (abs_nonneg _)
    obtain ⟨-, -, δ, t, hδ, ht, hv⟩ := mul_rel h3
    rw [hv]
    refine (abs_add_le _ _).trans (add_le_add ?_ (ht.trans (show e.tiny fmt ≤ 2 * e.tiny fmt by linarith [e.tiny_pos fmt])))
    rw [abs_mul]
    refine mul_le_mul_of_nonneg_left ?_ (abs_nonneg _)
    refine (abs_add_le _ _).trans ?_
    rw [abs_one]
    exact add_le_add le_rfl hδ
  fin_div := fun _ _ ha hb hb0 hx => fin_div h ha hb hb0 hx

end Flagged

end Ctldl
