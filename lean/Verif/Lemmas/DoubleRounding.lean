import Verif.Spec.DoubleRounding
import Verif.Lemmas.Conversion
import Verif.Lemmas.Comparison
import Verif.Lemmas.Range

/-! # Rounding twice is rounding once, if the intermediate format is wide enough -/

namespace Ctldl

variable {fmt ext : Format}

private theorem roundEven_eq {q : ℚ} {k : Int} (h1 : (k : ℚ) - 1 / 2 < q) (h2 : q < k + 1 / 2) : roundEven q = k := by
  have e := abs_le.mp (roundEven_err q)
  have h3 : (roundEven q : ℚ) < k + 1 := by linarith [e.2]
  have h4 : (k : ℚ) - 1 < roundEven q := by linarith [e.1]
  have h5 : roundEven q < k + 1 := by exact_mod_cast h3
  have h6 : k - 1 < roundEven q := by exact_mod_cast h4
  omega

private theorem lt_zpow_unit (fmt : Format) (x : ℚ) : |x| < 2 ^ (fmt.unit x + fmt.precision) := by
  have hpos := two_zpow_pos (fmt.unit x)
  have h := fmt.div_unit_lt x
  rw [abs_div, abs_of_pos hpos, div_lt_iff₀ hpos] at h
  rw [add_comm, zpow_add₀ (by norm_num), zpow_natCast]
  exact_mod_cast h

/-- Rounding in terms of the unit of another number. -/
private theorem round_unit {y : ℚ} {U : Int} (hU : fmt.minExp ≤ U) (hy : |y| ≤ 2 ^ (U + fmt.precision))
    (h : U = fmt.minExp ∨ 2 ^ (U + fmt.precision - 1) ≤ |y|) : fmt.round y = roundEven (y / 2 ^ U) * 2 ^ U := by
  have hpos := two_zpow_pos U
  have hp := fmt.precision_pos
  by_cases h0 : y = 0
  · have : roundEven 0 = 0 := roundEven_int 0
    rw [h0, Format.round_zero, zero_div, this, Int.cast_zero, zero_mul]
  rcases hy.lt_or_eq with hlt | heq
  · have hl := (Int.lt_zpow_iff_log_lt (b := 2) (by decide) (abs_pos.mpr h0)).mp
      (show |y| < ((2 : Nat) : ℚ) ^ (U + fmt.precision) by exact_mod_cast hlt)
    have hu : fmt.unit y = U := by
      unfold Format.unit
      rcases h with rfl | h
      · exact max_eq_right (by omega)
      · have := (Int.zpow_le_iff_le_log (b := 2) (by decide) (abs_pos.mpr h0)).mp
          (show ((2 : Nat) : ℚ) ^ (U + fmt.precision - 1) ≤ |y| by exact_mod_cast h)
        rw [max_eq_left (by omega)]
        omega
    rw [Format.round, hu]
  · obtain ⟨s, hs, hs'⟩ : ∃ s : Int, |s| = 1 ∧ y = s * 2 ^ (U + fmt.precision : Int) := by
      rcases abs_eq (two_zpow_pos _).le |>.mp heq with h | h
      · exact ⟨1, by simp, by rw [h]; simp⟩
      · exact ⟨-1, by simp, by rw [h]; simp⟩
    rw [Format.round_self (m := s) (by rw [hs]; exact one_lt_pow₀ (by norm_num) hp.ne') (by omega) hs']
    have : y / 2 ^ U = ((s * 2 ^ fmt.precision : Int) : ℚ) := by
      rw [hs', add_comm, zpow_add₀ (by norm_num), zpow_natCast]
      push_cast
      field_simp
    rw [this, roundEven_int, ← this, div_mul_cancel₀ _ hpos.ne']

/-- Bounds by numbers of the format are kept by rounding. -/
private theorem round_between {x : ℚ} {m e : Int} (hm : |m| < 2 ^ ext.precision) (he : ext.minExp ≤ e) :
    (x ≤ m * 2 ^ e → ext.round x ≤ m * 2 ^ e) ∧ (m * 2 ^ e ≤ x → m * 2 ^ e ≤ ext.round x) := by
  have h : ext.round (m * 2 ^ e) = m * 2 ^ e := Format.round_self hm he rfl
  exact ⟨fun hx => by rw [← h]; exact ext.round_mono hx, fun hx => by rw [← h]; exact ext.round_mono hx⟩

private theorem abs_round_le {x : ℚ} {z : Int} (h : ext.minExp ≤ z) (hx : |x| ≤ 2 ^ z) : |ext.round x| ≤ 2 ^ z := by
  have h1 : |(1 : Int)| < 2 ^ ext.precision := by rw [abs_one]; exact one_lt_pow₀ (by norm_num) ext.precision_pos.ne'
  have h2 : |(-1 : Int)| < 2 ^ ext.precision := by rw [abs_neg]; exact h1
  obtain ⟨hx1, hx2⟩ := abs_le.mp hx
  rw [abs_le]
  refine ⟨?_, ?_⟩
  · have := (round_between (x := x) h2 h).2 (by push_cast; linarith)
    push_cast at this
    linarith
  · have := (round_between (x := x) h1 h).1 (by push_cast; linarith)
    push_cast at this
    linarith

private theorem le_abs_round {x : ℚ} {z : Int} (h : ext.minExp ≤ z) (hx : 2 ^ z ≤ |x|) : 2 ^ z ≤ |ext.round x| := by
  have h1 : |(1 : Int)| < 2 ^ ext.precision := by rw [abs_one]; exact one_lt_pow₀ (by norm_num) ext.precision_pos.ne'
  have h2 : |(-1 : Int)| < 2 ^ ext.precision := by rw [abs_neg]; exact h1
  rw [le_abs] at hx ⊢
  rcases hx with hx | hx
  · left
    have := (round_between (x := x) h1 h).2 (by push_cast; linarith)
    push_cast at this
    linarith
  · right
    have := (round_between (x := x) h2 h).1 (by push_cast; linarith)
    push_cast at this
    linarith

private theorem half_unit (U : Int) (t : ℚ) : t * 2 ^ (U - 1) = t / 2 * 2 ^ U := by
  rw [zpow_sub_one₀ (by norm_num)]
  ring

private theorem roundEven_half {a b : ℚ} (up : b ≤ roundEven a + 1 / 2) (low : roundEven a - 1 / 2 ≤ b)
    (heq : ∀ j : Int, b = j + 1 / 2 → a = b) : roundEven b = roundEven a := by
  rcases up.lt_or_eq with h1 | h1
  · rcases low.lt_or_eq with h2 | h2
    · exact roundEven_eq h2 h1
    · rw [heq (roundEven a - 1) (by push_cast; linarith)]
  · rw [← heq _ h1]

private theorem middle_bound (hp : fmt.precision + 2 ≤ ext.precision) {j : Int} (hj : |j| ≤ 2 ^ fmt.precision) :
    |2 * j + 1| < 2 ^ ext.precision ∧ |2 * j - 1| < 2 ^ ext.precision := by
  have h1 : (2 : Int) ^ (fmt.precision + 2) ≤ 2 ^ ext.precision := pow_le_pow_right₀ (by norm_num) hp
  have h2 : (2 : Int) ^ 1 ≤ 2 ^ fmt.precision := pow_le_pow_right₀ (by norm_num) fmt.precision_pos
  rw [pow_add] at h1
  rw [abs_le] at hj
  rw [abs_lt, abs_lt]
  omega

private theorem round_round_unit (hp : fmt.precision + 2 ≤ ext.precision) {x : ℚ} {U : Int} (hU : ext.minExp ≤ U - 1)
    (hx : |x / 2 ^ U| < ((2 ^ fmt.precision : Nat) : ℚ))
    (hmid : ∀ k : Int, ext.round x = (2 * k + 1) * 2 ^ (U - 1) → x = (2 * k + 1) * 2 ^ (U - 1)) :
    roundEven (ext.round x / 2 ^ U) = roundEven (x / 2 ^ U) := by
  have hpos := two_zpow_pos U
  have hk := roundEven_abs_le hx
  push_cast at hk
  obtain ⟨hb1, hb2⟩ := middle_bound hp hk
  have e := abs_le.mp (roundEven_err (x / 2 ^ U))
  have up := (round_between (ext := ext) (x := x) hb1 hU).1
  have low := (round_between (ext := ext) (x := x) hb2 hU).2
  rw [half_unit] at up low
  push_cast at up low
  refine roundEven_half ?_ ?_ fun j hj => ?_
  · rw [div_le_iff₀ hpos]
    refine (up ?_).trans (le_of_eq (by ring))
    rw [← div_le_iff₀ hpos]
    linarith [e.1]
  · rw [le_div_iff₀ hpos]
    refine le_trans (le_of_eq (by ring)) (low ?_)
    rw [← le_div_iff₀ hpos]
    linarith [e.2]
  · rw [div_eq_iff hpos.ne'] at hj
    have h1 := hmid j (by rw [half_unit, hj]; ring)
    rw [half_unit] at h1
    rw [hj, ← h1.trans (show _ = ((j : ℚ) + 1 / 2) * 2 ^ U by ring)]

/-- Rounding twice is rounding once, unless the intermediate result is in the middle between two numbers although the exact
one is not. -/
theorem Format.round_round (hp : fmt.precision + 2 ≤ ext.precision) (he : ext.minExp ≤ fmt.minExp - 1) (x : ℚ)
    (hmid : ∀ k : Int, ext.round x = (2 * k + 1) * 2 ^ (fmt.unit x - 1) → x = (2 * k + 1) * 2 ^ (fmt.unit x - 1)) :
    fmt.round (ext.round x) = fmt.round x := by
  by_cases hx0 : x = 0
  · rw [hx0, Format.round_zero]
  have hmin : fmt.minExp ≤ fmt.unit x := le_max_right _ _
  rw [round_unit (U := fmt.unit x) hmin (abs_round_le (by omega) (lt_zpow_unit fmt x).le),
    round_round_unit hp (by omega) (fmt.div_unit_lt x) hmid, Format.round]
  by_cases h0 : fmt.unit x = fmt.minExp
  · exact Or.inl h0
  right
  have hu : fmt.unit x = Int.log 2 |x| - (fmt.precision - 1) := by
    unfold Format.unit at h0 ⊢
    omega
  have hp := fmt.precision_pos
  refine le_abs_round (by omega) ?_
  have := Int.zpow_log_le_self (b := 2) (by decide) (abs_pos.mpr hx0)
  rw [hu]
  refine le_trans (le_of_eq ?_) this
  push_cast
  congr 1
  ring

/-! ### Exact results -/

/-- Bound of the error of the intermediate result in terms of the exponent of the exact one. -/
private theorem ext_err {x : ℚ} (h : ext.minExp ≤ Int.log 2 |x| - (ext.precision - 1)) :
    |ext.round x - x| ≤ 2 ^ (Int.log 2 |x| - ext.precision) := by
  have := ext.round_err x
  rw [Format.unit, max_eq_left h] at this
  refine this.trans (le_of_eq ?_)
  congr 1
  ring

/-- Multiples of powers of two which are not zero are not smaller. -/
private theorem le_multiple {y : ℚ} {z : Int} (h : ∃ k : Int, y = k * 2 ^ z) (h0 : y ≠ 0) : 2 ^ z ≤ |y| := by
  obtain ⟨k, rfl⟩ := h
  rw [abs_mul, abs_of_pos (two_zpow_pos z)]
  have : 1 ≤ |k| := Int.one_le_abs (by rintro rfl; simp at h0)
  have : (1 : ℚ) ≤ |(k : ℚ)| := by exact_mod_cast this
  nlinarith [two_zpow_pos z]

private theorem multiple_of_le {m e z : Int} (h : z ≤ e) : ∃ k : Int, (m : ℚ) * 2 ^ e = k * 2 ^ z := by
  obtain ⟨n, hn⟩ : ∃ n : Nat, e = z + n := ⟨(e - z).toNat, by omega⟩
  refine ⟨m * 2 ^ n, ?_⟩
  rw [hn, zpow_add₀ (by norm_num), zpow_natCast]
  push_cast
  ring

private theorem abs_lt_of_repr {m e : Int} {p : Nat} (hm : |m| < 2 ^ p) : |(m : ℚ) * 2 ^ e| < 2 ^ (e + p) := by
  rw [abs_mul, abs_of_pos (two_zpow_pos e), zpow_add₀ (by norm_num), zpow_natCast, mul_comm]
  refine mul_lt_mul_of_pos_left ?_ (two_zpow_pos e)
  exact_mod_cast hm

/-- Products are exact in the wider format. -/
theorem Format.TwiceAsWide.round_mul (h : fmt.TwiceAsWide ext) {x y : ℚ} (hx : fmt.Represents x) (hy : fmt.Represents y) :
    ext.round (x * y) = x * y := by
  obtain ⟨⟨m, e, hm, he, rfl⟩, -⟩ := hx
  obtain ⟨⟨n, f, hn, hf, rfl⟩, -⟩ := hy
  refine Format.round_self (m := m * n) (e := e + f) ?_ (by have := h.small_mul; omega) ?_
  · rw [abs_mul]
    refine (mul_lt_mul'' hm hn (abs_nonneg _) (abs_nonneg _)).trans_le ?_
    rw [← pow_add]
    exact pow_le_pow_right₀ (by norm_num) (by have := h.precision; omega)
  · rw [zpow_add₀ (by norm_num)]
    push_cast
    ring

private theorem round_of_multiple {x : ℚ} (h : ∃ k : Int, x = k * 2 ^ ext.unit x) : ext.round x = x := by
  obtain ⟨k, hk⟩ := h
  have hpos := two_zpow_pos (ext.unit x)
  have : x / 2 ^ ext.unit x = k := by rw [div_eq_iff hpos.ne']; exact hk
  rw [Format.round, this, roundEven_int]
  exact hk.symm

private theorem odd_ne_zero (k z : Int) : ((2 * k + 1 : ℚ)) * 2 ^ z ≠ 0 := by
  refine mul_ne_zero ?_ (two_zpow_pos z).ne'
  have : (2 * k + 1 : Int) ≠ 0 := by omega
  exact_mod_cast this

/-- If one of the terms is very small, then the sum is not close to the middle between two numbers. -/
private theorem far {x s t : ℚ} {ms es mt et k : Int} (hq : 2 * fmt.precision + 2 ≤ ext.precision) (hx0 : x ≠ 0)
    (hx : x = s + t) (hs : s = ms * 2 ^ es) (ht : t = mt * 2 ^ et) (hms : |ms| < 2 ^ fmt.precision)
    (hmt : |mt| < 2 ^ fmt.precision) (hsmall : et ≤ Int.log 2 |x| - ext.precision)
    (hw : |(2 * k + 1) * 2 ^ (Int.log 2 |x| - fmt.precision) - x| ≤ 2 ^ (Int.log 2 |x| - ext.precision)) : False := by
  have hL : (2 : ℚ) ^ Int.log 2 |x| ≤ |x| := Int.zpow_log_le_self (by decide) (abs_pos.mpr hx0)
  generalize Int.log 2 |x| = L at hsmall hw hL
  have hc := two_zpow_pos (L - fmt.precision - 2)
  have e1 : (2 : ℚ) ^ (L - fmt.precision) = 4 * 2 ^ (L - fmt.precision - 2) := by
    rw [show L - fmt.precision = (L - fmt.precision - 2) + 2 by ring, zpow_add₀ (by norm_num)]
    norm_num
    ring
  have e2 : (2 : ℚ) ^ L = 2 ^ fmt.precision * 2 ^ (L - fmt.precision) := by
    rw [← zpow_natCast, ← zpow_add₀ (by norm_num)]
    congr 1
    ring
  have h1 : |t| < 2 ^ (L - fmt.precision - 2) := by
    rw [ht]
    exact (abs_lt_of_repr hmt).trans_le (zpow_le_zpow_right₀ (by norm_num) (by omega))
  have h2 : |(2 * k + 1) * 2 ^ (L - fmt.precision) - x| ≤ 2 ^ (L - fmt.precision - 2) :=
    hw.trans (zpow_le_zpow_right₀ (by norm_num) (by omega))
  have hp1 : (1 : ℚ) ≤ 2 ^ fmt.precision := one_le_pow₀ (by norm_num)
  have h3 : |x| ≤ |s| + |t| := by
    rw [hx]
    exact abs_add_le _ _
  have h4 : L - fmt.precision ≤ es := by
    by_contra hlt
    have h5 : |s| < 2 ^ (L - 1) := by
      rw [hs]
      exact (abs_lt_of_repr hms).trans_le (zpow_le_zpow_right₀ (by norm_num) (by omega))
    have h6 : (2 : ℚ) ^ L = 2 * 2 ^ (L - 1) := by
      rw [zpow_sub_one₀ (by norm_num)]
      ring
    have h7 : (2 : ℚ) ^ (L - fmt.precision - 2) ≤ 2 ^ (L - 1) := zpow_le_zpow_right₀ (by norm_num) (by omega)
    linarith
  obtain ⟨n, hn⟩ : ∃ n : Nat, es = L - fmt.precision + n := ⟨(es - (L - fmt.precision)).toNat, by omega⟩
  have hs' : s = ((ms * 2 ^ n : Int) : ℚ) * 2 ^ (L - fmt.precision) := by
    rw [hs, hn, zpow_add₀ (by norm_num), zpow_natCast]
    push_cast
    ring
  have hsw : ms * 2 ^ n = 2 * k + 1 := by
    by_contra hne
    have h5 := le_multiple (y := (2 * k + 1) * 2 ^ (L - fmt.precision) - s) (z := L - fmt.precision)
      ⟨2 * k + 1 - ms * 2 ^ n, by rw [hs']; push_cast; ring⟩ (by
        rw [hs', ← sub_mul]
        refine mul_ne_zero ?_ (two_zpow_pos _).ne'
        have : (2 * k + 1 - ms * 2 ^ n : Int) ≠ 0 := by omega
        exact_mod_cast this)
    have h6 : |(2 * k + 1) * 2 ^ (L - fmt.precision) - s| ≤ |(2 * k + 1) * 2 ^ (L - fmt.precision) - x| + |t| := by
      rw [show (2 * k + 1) * 2 ^ (L - fmt.precision) - s = ((2 * k + 1) * 2 ^ (L - fmt.precision) - x) + t by rw [hx]; ring]
      exact abs_add_le _ _
    linarith
  have hn0 : n = 0 := by
    rcases n with _ | n
    · rfl
    · rw [pow_succ] at hsw
      have : (ms * (2 ^ n * 2)) % 2 = 0 := by rw [← mul_assoc, Int.mul_emod_left]
      omega
  rw [hn0, pow_zero, mul_one] at hs'
  have h8 : |s| ≤ (2 ^ fmt.precision - 1) * 2 ^ (L - fmt.precision) := by
    rw [hs', abs_mul, abs_of_pos (two_zpow_pos _)]
    refine mul_le_mul_of_nonneg_right ?_ (two_zpow_pos _).le
    have : |ms| ≤ 2 ^ fmt.precision - 1 := by omega
    exact_mod_cast this
  rw [e2] at hL
  linarith

/-- Sums of numbers of the format are rounded once. -/
private theorem round_round_add (h : fmt.TwiceAsWide ext) {s t : ℚ} {ms es mt et : Int} (hs : s = ms * 2 ^ es)
    (ht : t = mt * 2 ^ et) (hms : |ms| < 2 ^ fmt.precision) (hmt : |mt| < 2 ^ fmt.precision) (hes : fmt.minExp ≤ es)
    (het : fmt.minExp ≤ et) : fmt.round (ext.round (s + t)) = fmt.round (s + t) := by
  have hq := h.precision
  have hmin := h.small
  refine Format.round_round (by omega) hmin _ fun k hk => ?_
  by_contra hne
  have hx0 : s + t ≠ 0 := by
    intro h0
    rw [h0, Format.round_zero] at hk
    exact odd_ne_zero _ _ hk.symm
  have hsmall : es ≤ Int.log 2 |s + t| - ext.precision ∨ et ≤ Int.log 2 |s + t| - ext.precision := by
    by_contra hc
    rw [not_or, not_le, not_le] at hc
    have hu : ext.unit (s + t) ≤ es ∧ ext.unit (s + t) ≤ et := by
      unfold Format.unit
      omega
    obtain ⟨k1, h1⟩ := multiple_of_le (m := ms) hu.1
    obtain ⟨k2, h2⟩ := multiple_of_le (m := mt) hu.2
    refine hne ?_
    rw [← hk]
    refine (round_of_multiple ⟨k1 + k2, ?_⟩).symm
    push_cast
    rw [add_mul, ← h1, ← h2, hs, ht]
  have hu : fmt.unit (s + t) - 1 = Int.log 2 |s + t| - fmt.precision := by
    unfold Format.unit
    omega
  have herr := ext_err (ext := ext) (x := s + t) (by omega)
  rw [hk, hu] at herr
  rcases hsmall with h1 | h1
  · exact far hq hx0 (add_comm s t) ht hs hmt hms h1 herr
  · exact far hq hx0 rfl hs ht hms hmt h1 herr

/-- Differences are rounded once. -/
theorem Format.TwiceAsWide.round_sub (h : fmt.TwiceAsWide ext) {x y : ℚ} (hx : fmt.Represents x) (hy : fmt.Represents y) :
    fmt.round (ext.round (x - y)) = fmt.round (x - y) := by
  obtain ⟨⟨m, e, hm, he, hx⟩, -⟩ := hx
  obtain ⟨⟨n, f, hn, hf, hy⟩, -⟩ := hy
  rw [sub_eq_add_neg]
  exact round_round_add h hx (show -y = ((-n : Int) : ℚ) * 2 ^ f by rw [hy]; push_cast; ring) hm (by rwa [abs_neg]) he hf

/-- Quotients are rounded once. -/
theorem Format.TwiceAsWide.round_div (h : fmt.TwiceAsWide ext) {x y : ℚ} (hx : fmt.Represents x) (hy : fmt.Represents y)
    (hy0 : y ≠ 0) : fmt.round (ext.round (x / y)) = fmt.round (x / y) := by
  have hq := h.precision
  have hmin := h.small
  have hdiv := h.small_div
  by_cases hx0 : x = 0
  · rw [hx0, zero_div, Format.round_zero, Format.round_zero]
  refine Format.round_round (by omega) hmin _ fun k hk => ?_
  by_contra hne
  have hxy : x / y ≠ 0 := div_ne_zero hx0 hy0
  obtain ⟨⟨m, e, hm, he, hx⟩, hxM⟩ := hx
  obtain ⟨⟨n, f, hn, hf, hy⟩, hyM⟩ := hy
  have hL : (2 : ℚ) ^ Int.log 2 |x / y| ≤ |x / y| := Int.zpow_log_le_self (by decide) (abs_pos.mpr hxy)
  have hyp : 0 < |y| := abs_pos.mpr hy0
  have hlog : fmt.minExp - fmt.maxExp ≤ Int.log 2 |x / y| := by
    refine (Int.zpow_le_iff_le_log (b := 2) (by decide) (abs_pos.mpr hxy)).mp ?_
    rw [abs_div, le_div_iff₀ hyp]
    have h1 : (2 : ℚ) ^ fmt.minExp ≤ |x| := by
      obtain ⟨k, hk⟩ := multiple_of_le (m := m) he
      exact le_multiple ⟨k, by rw [hx, hk]⟩ hx0
    push_cast
    rw [zpow_sub₀ (by norm_num), div_mul_eq_mul_div, div_le_iff₀ (two_zpow_pos _)]
    exact mul_le_mul h1 hyM.le hyp.le (abs_nonneg _)
  have herr := ext_err (ext := ext) (x := x / y) (by omega)
  have hU : Int.log 2 |x / y| - (fmt.precision - 1) ≤ fmt.unit (x / y) := le_max_left _ _
  rw [hk] at herr
  generalize fmt.unit (x / y) = U at hk hne herr hU
  generalize Int.log 2 |x / y| = L at hL hlog herr hU
  -- the remainder
  have hr : |(2 * k + 1) * 2 ^ (U - 1) * y - x| ≤ 2 ^ (L - ext.precision) * |y| := by
    have : (2 * k + 1) * 2 ^ (U - 1) * y - x = ((2 * k + 1) * 2 ^ (U - 1) - x / y) * y := by
      rw [sub_mul, div_mul_cancel₀ _ hy0]
    rw [this, abs_mul]
    exact mul_le_mul_of_nonneg_right herr (abs_nonneg _)
  have hr0 : (2 * k + 1) * 2 ^ (U - 1) * y - x ≠ 0 := by
    intro h0
    exact hne (by rw [div_eq_iff hy0]; linarith)
  have hexp : (2 * k + 1) * 2 ^ (U - 1) * y = (((2 * k + 1) * n : Int) : ℚ) * 2 ^ (U - 1 + f) := by
    rw [hy, zpow_add₀ (by norm_num)]
    push_cast
    ring
  rcases le_total (U - 1 + f) e with hc | hc
  · obtain ⟨j, hj⟩ := multiple_of_le (m := m) hc
    have h1 := le_multiple (z := U - 1 + f) ⟨(2 * k + 1) * n - j, by rw [hexp, hx, hj]; push_cast; ring⟩ hr0
    have h2 : |y| < 2 ^ (f + fmt.precision) := by
      rw [hy]
      exact abs_lt_of_repr hn
    have h3 : (2 : ℚ) ^ (L - ext.precision) * |y| < 2 ^ (L - ext.precision) * 2 ^ (f + fmt.precision) :=
      mul_lt_mul_of_pos_left h2 (two_zpow_pos _)
    rw [← zpow_add₀ (by norm_num)] at h3
    have h4 := (zpow_lt_zpow_iff_right₀ (by norm_num : (1 : ℚ) < 2)).mp ((h1.trans hr).trans_lt h3)
    omega
  · obtain ⟨j, hj⟩ := multiple_of_le (m := (2 * k + 1) * n) hc
    have h1 := le_multiple (z := e) ⟨j - m, by rw [hexp, hx, hj]; push_cast; ring⟩ hr0
    have h2 : |x| < 2 ^ (e + fmt.precision) := by
      rw [hx]
      exact abs_lt_of_repr hm
    have h3 : (2 : ℚ) ^ L * |y| ≤ |x| := by
      rw [abs_div, le_div_iff₀ hyp] at hL
      exact hL
    have h4 : (2 : ℚ) ^ (L - ext.precision) * |y| < 2 ^ (e + fmt.precision - ext.precision) := by
      rw [zpow_sub₀ (by norm_num), zpow_sub₀ (by norm_num), div_mul_eq_mul_div]
      exact div_lt_div_of_pos_right (h3.trans_lt h2) (two_zpow_pos _)
    have h5 := (zpow_lt_zpow_iff_right₀ (by norm_num : (1 : ℚ) < 2)).mp ((h1.trans hr).trans_lt h4)
    omega

/-! ### Operations -/

theorem Format.TwiceAsWide.wider (h : fmt.TwiceAsWide ext) : fmt.Wider ext where
  precision := by have := h.precision; omega
  minExp := by have := h.small; omega
  maxExp := by have := h.large; omega

private theorem Format.Represents.wider {x : ℚ} (hx : fmt.Represents x) (h : fmt.Wider ext) : ext.Represents x := by
  obtain ⟨⟨m, e, hm, he, hx⟩, hM⟩ := hx
  exact ⟨⟨m, e, hm.trans_le (pow_le_pow_right₀ (by norm_num) h.precision), h.minExp.trans he, hx⟩,
    hM.trans_le (zpow_le_zpow_right₀ (by norm_num) h.maxExp)⟩

private theorem convert_num (h : fmt.Wider ext) {x : ℚ} {h0 : x ≠ 0} {hr : fmt.Represents x} :
    (Binary.num x h0 hr).convert ext = .num x h0 (hr.wider h) := by
  obtain ⟨⟨m, e, hm, he, hx⟩, hM⟩ := hr.wider h
  have hround : ext.round x = x := Format.round_self hm he hx
  simp only [Binary.convert]
  unfold Binary.ofRat
  rw [dif_neg (by rwa [hround]), dif_pos (by rwa [hround])]
  simp only [hround]

private theorem round_sign {x : ℚ} (h : ext.round x ≠ 0) : (ext.round x < 0) ↔ x < 0 := by
  constructor
  · intro h1
    by_contra h2
    have := ext.round_mono (not_lt.mp h2)
    rw [Format.round_zero] at this
    linarith
  · intro h1
    have := ext.round_mono h1.le
    rw [Format.round_zero] at this
    exact lt_of_le_of_ne this h

/-- Rounding of results with their signs. -/
private theorem ofRat_convert {x : ℚ} {s : Bool} (hround : fmt.round (ext.round x) = fmt.round x)
    (hx : |ext.round x| < 2 ^ ext.maxExp) (hs : s = decide (x < 0) ∨ (fmt.round x = 0 → x = 0)) :
    (Binary.ofRat ext s x).convert fmt = Binary.ofRat fmt s x := by
  by_cases h0 : ext.round x = 0
  · have h1 : fmt.round x = 0 := by rw [← hround, h0, Format.round_zero]
    rw [Binary.ofRat, dif_pos h0, Binary.ofRat, dif_pos h1]
    rfl
  rw [Binary.ofRat, dif_neg h0, dif_pos hx]
  simp only [Binary.convert]
  unfold Binary.ofRat
  by_cases h1 : fmt.round x = 0
  · rw [dif_pos (by rwa [hround]), dif_pos h1]
    rcases hs with hs | hs
    · rw [hs]
      congr 1
      exact decide_eq_decide.mpr (round_sign h0)
    · rw [hs h1, Format.round_zero] at h0
      exact (h0 rfl).elim
  · rw [dif_neg (by rwa [hround]), dif_neg h1]
    by_cases h2 : |fmt.round x| < 2 ^ fmt.maxExp
    · rw [dif_pos (by rwa [hround]), dif_pos h2]
      simp only [hround]
    · rw [dif_neg (by rwa [hround]), dif_neg h2]
      congr 1
      exact decide_eq_decide.mpr (round_sign h0)

private theorem in_range {x : ℚ} {z : Int} (hz : z + 1 ≤ ext.maxExp) (hz' : ext.minExp ≤ z) (hx : |x| ≤ 2 ^ z) :
    |ext.round x| < 2 ^ ext.maxExp :=
  (abs_round_le hz' hx).trans_lt (zpow_lt_zpow_right₀ (by norm_num) (by omega))

private theorem represents_zero : fmt.Represents 0 :=
  ⟨⟨0, fmt.minExp, by rw [abs_zero]; positivity, le_rfl, by simp⟩, by rw [abs_zero]; exact two_zpow_pos _⟩

private theorem le_represented {x : ℚ} (h0 : x ≠ 0) (hx : fmt.Represents x) : 2 ^ fmt.minExp ≤ |x| :=
  le_multiple hx.multiple h0

private theorem exp_lt {x : ℚ} (h0 : x ≠ 0) (hx : fmt.Represents x) : fmt.minExp < fmt.maxExp :=
  (zpow_lt_zpow_iff_right₀ (by norm_num : (1 : ℚ) < 2)).mp ((le_represented h0 hx).trans_lt hx.2)

private theorem ofRat_sub (h : fmt.TwiceAsWide ext) (hE : fmt.minExp < fmt.maxExp) {x y : ℚ} (hx : fmt.Represents x)
    (hy : fmt.Represents y) : (Binary.ofRat ext false (x - y)).convert fmt = Binary.ofRat fmt false (x - y) := by
  have h1 := h.small
  have h2 := h.large
  refine ofRat_convert (h.round_sub hx hy) (in_range (z := fmt.maxExp + 1) (by omega) (by omega) ?_) (Or.inr fun h0 => ?_)
  · rw [zpow_add₀ (by norm_num), zpow_one]
    refine (abs_sub _ _).trans ?_
    linarith [hx.2, hy.2]
  · by_contra hne
    obtain ⟨k, hk⟩ := hx.multiple
    obtain ⟨l, hl⟩ := hy.multiple
    have h3 := le_abs_round (ext := fmt) le_rfl (le_multiple ⟨k - l, by rw [hk, hl]; push_cast; ring⟩ hne)
    rw [h0, abs_zero] at h3
    exact absurd h3 (not_le.mpr (two_zpow_pos _))

private theorem ofRat_mul (h : fmt.TwiceAsWide ext) (hE : fmt.minExp < fmt.maxExp) {x y : ℚ} (hx : fmt.Represents x)
    (hy : fmt.Represents y) {s : Bool} (hs : s = decide (x * y < 0) ∨ x * y = 0) :
    (Binary.ofRat ext s (x * y)).convert fmt = Binary.ofRat fmt s (x * y) := by
  have h1 := h.small_mul
  have h2 := h.large_mul
  refine ofRat_convert (by rw [h.round_mul hx hy]) (in_range (z := 2 * fmt.maxExp) (by omega) (by omega) ?_)
    (hs.imp_right fun h0 _ => h0)
  rw [two_mul, zpow_add₀ (by norm_num), abs_mul]
  exact mul_le_mul hx.2.le hy.2.le (abs_nonneg _) (two_zpow_pos _).le

private theorem ofRat_div (h : fmt.TwiceAsWide ext) (hE : fmt.minExp < fmt.maxExp) {x y : ℚ} (hx : fmt.Represents x)
    (hy : fmt.Represents y) (hy0 : y ≠ 0) {s : Bool} (hs : s = decide (x / y < 0) ∨ x / y = 0) :
    (Binary.ofRat ext s (x / y)).convert fmt = Binary.ofRat fmt s (x / y) := by
  have h1 := h.small_div
  have h2 := h.large_div
  have h3 := h.small
  have h4 := h.precision
  refine ofRat_convert (h.round_div hx hy hy0) (in_range (z := fmt.maxExp - fmt.minExp) (by omega) (by omega) ?_)
    (hs.imp_right fun h0 _ => h0)
  rw [zpow_sub₀ (by norm_num), abs_div]
  exact div_le_div₀ (two_zpow_pos _).le hx.2.le (two_zpow_pos _) (le_represented hy0 hy)

/-- Subtraction in the wider format with rounding of the result is subtraction. -/
theorem Binary.sub_twice (h : fmt.TwiceAsWide ext) (a b : Binary fmt) :
    (a.convert ext - b.convert ext).convert fmt = a - b := by
  have hw := h.wider
  cases a with
  | zero s =>
    cases b with
    | num y hy ry =>
      rw [convert_num hw]
      exact ofRat_sub h (exp_lt hy ry) represents_zero ry
    | _ => rfl
  | num x hx rx =>
    rw [convert_num hw]
    cases b with
    | num y hy ry =>
      rw [convert_num hw]
      exact ofRat_sub h (exp_lt hy ry) rx ry
    | zero s => exact ofRat_sub h (exp_lt hx rx) rx represents_zero
    | _ => rfl
  | inf s =>
    cases b with
    | num y hy ry =>
      rw [convert_num hw]
      rfl
    | inf t =>
      change (if s = t then (.nan : Binary ext) else .inf s).convert fmt = if s = t then .nan else .inf s
      split <;> rfl
    | _ => rfl
  | nan => cases b <;> rfl

private theorem mul_sign {x y : ℚ} (hx : x ≠ 0) (hy : y ≠ 0) : (decide (x < 0) ^^ decide (y < 0)) = decide (x * y < 0) := by
  rcases lt_or_gt_of_ne hx with h1 | h1 <;> rcases lt_or_gt_of_ne hy with h2 | h2
  · rw [decide_eq_true h1, decide_eq_true h2, decide_eq_false (not_lt.mpr (mul_pos_of_neg_of_neg h1 h2).le)]
    rfl
  · rw [decide_eq_true h1, decide_eq_false (not_lt.mpr h2.le), decide_eq_true (mul_neg_of_neg_of_pos h1 h2)]
    rfl
  · rw [decide_eq_false (not_lt.mpr h1.le), decide_eq_true h2, decide_eq_true (mul_neg_of_pos_of_neg h1 h2)]
    rfl
  · rw [decide_eq_false (not_lt.mpr h1.le), decide_eq_false (not_lt.mpr h2.le), decide_eq_false (not_lt.mpr (mul_pos h1 h2).le)]
    rfl

private theorem div_sign {x y : ℚ} (hx : x ≠ 0) (hy : y ≠ 0) : (decide (x < 0) ^^ decide (y < 0)) = decide (x / y < 0) := by
  rcases lt_or_gt_of_ne hx with h1 | h1 <;> rcases lt_or_gt_of_ne hy with h2 | h2
  · rw [decide_eq_true h1, decide_eq_true h2, decide_eq_false (not_lt.mpr (div_pos_of_neg_of_neg h1 h2).le)]
    rfl
  · rw [decide_eq_true h1, decide_eq_false (not_lt.mpr h2.le), decide_eq_true (div_neg_of_neg_of_pos h1 h2)]
    rfl
  · rw [decide_eq_false (not_lt.mpr h1.le), decide_eq_true h2, decide_eq_true (div_neg_of_pos_of_neg h1 h2)]
    rfl
  · rw [decide_eq_false (not_lt.mpr h1.le), decide_eq_false (not_lt.mpr h2.le), decide_eq_false (not_lt.mpr (div_pos h1 h2).le)]
    rfl

/-- Multiplication in the wider format with rounding of the result is multiplication. -/
theorem Binary.mul_twice (h : fmt.TwiceAsWide ext) (a b : Binary fmt) :
    (a.convert ext * b.convert ext).convert fmt = a * b := by
  have hw := h.wider
  have hz : ∀ {fmt : Format} {s : Bool}, Binary.ofRat fmt s 0 = .zero s := by
    intro fmt s
    rw [Binary.ofRat, dif_pos Format.round_zero]
  cases a with
  | zero s =>
    cases b with
    | num y hy ry =>
      rw [convert_num hw]
      exact ofRat_mul h (exp_lt hy ry) represents_zero ry (Or.inr (zero_mul _))
    | zero t =>
      change (Binary.ofRat ext _ (0 * 0)).convert fmt = Binary.ofRat fmt _ (0 * 0)
      rw [zero_mul, hz, hz]
      rfl
    | _ => rfl
  | num x hx rx =>
    rw [convert_num hw]
    cases b with
    | num y hy ry =>
      rw [convert_num hw]
      exact ofRat_mul h (exp_lt hy ry) rx ry (Or.inl (mul_sign hx hy))
    | zero s => exact ofRat_mul h (exp_lt hx rx) rx represents_zero (Or.inr (mul_zero _))
    | _ => rfl
  | inf s =>
    cases b with
    | num y hy ry =>
      rw [convert_num hw]
      rfl
    | _ => rfl
  | nan => cases b <;> rfl

/-- Division in the wider format with rounding of the result is division. -/
theorem Binary.div_twice (h : fmt.TwiceAsWide ext) (a b : Binary fmt) :
    (a.convert ext / b.convert ext).convert fmt = a / b := by
  have hw := h.wider
  cases a with
  | zero s =>
    cases b with
    | num y hy ry =>
      rw [convert_num hw]
      exact ofRat_div h (exp_lt hy ry) represents_zero ry hy (Or.inr (zero_div _))
    | _ => rfl
  | num x hx rx =>
    rw [convert_num hw]
    cases b with
    | num y hy ry =>
      rw [convert_num hw]
      exact ofRat_div h (exp_lt hy ry) rx ry hy (Or.inl (div_sign hx hy))
    | _ => rfl
  | inf s =>
    cases b with
    | num y hy ry =>
      rw [convert_num hw]
      rfl
    | _ => rfl
  | nan => cases b <;> rfl

/-- Conversion to the wider format and back changes nothing. -/
theorem Binary.convert_back (h : fmt.Wider ext) (a : Binary fmt) : (a.convert ext).convert fmt = a := by
  cases a with
  | num x hx rx =>
    rw [convert_num h]
    obtain ⟨⟨m, e, hm, he, hx'⟩, hM⟩ := rx
    have hround : fmt.round x = x := Format.round_self hm he hx'
    simp only [Binary.convert]
    unfold Binary.ofRat
    rw [dif_neg (by rwa [hround]), dif_pos (by rwa [hround])]
    simp only [hround]
  | _ => rfl

end Ctldl
