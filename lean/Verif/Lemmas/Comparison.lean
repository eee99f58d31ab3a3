import Verif.Spec.BinaryOrder
import Verif.Spec.Textbook
import Verif.Lemmas.SignChange
import Verif.Lemmas.Binary
import Verif.Lemmas.Conversion

/-! # Comparison of rounded results -/

namespace Ctldl

/-! ### Rounding is monotone -/

theorem roundEven_mono {x y : ℚ} (h : x ≤ y) : roundEven x ≤ roundEven y := by
  have hf := Int.floor_mono h
  have lo : ∀ q : ℚ, ⌊q⌋ ≤ roundEven q := fun q => by
    unfold roundEven
    split_ifs <;> omega
  have hi : ∀ q : ℚ, roundEven q ≤ ⌊q⌋ + 1 := fun q => by
    unfold roundEven
    split_ifs <;> omega
  rcases lt_or_eq_of_le hf with hlt | heq
  · exact (hi x).trans ((by omega : ⌊x⌋ + 1 ≤ ⌊y⌋).trans (lo y))
  · unfold roundEven
    rw [← heq]
    split_ifs <;> first | omega | (exfalso; linarith)

variable {fmt : Format}

private theorem round_mono_pos {x y : ℚ} (hx : 0 < x) (h : x ≤ y) : fmt.round x ≤ fmt.round y := by
  have hy := hx.trans_le h
  have hlog : Int.log 2 |x| ≤ Int.log 2 |y| := by
    rw [abs_of_pos hx, abs_of_pos hy]
    exact Int.log_mono_right hx h
  have hu : fmt.unit x ≤ fmt.unit y := by
    unfold Format.unit
    omega
  rcases eq_or_lt_of_le hu with heq | hlt
  · unfold Format.round
    rw [heq]
    have hpos := two_zpow_pos (fmt.unit y)
    refine mul_le_mul_of_nonneg_right ?_ hpos.le
    exact_mod_cast roundEven_mono (div_le_div_of_nonneg_right h hpos.le)
  · have hp := fmt.precision_pos
    have hv : fmt.unit y = Int.log 2 |y| - (fmt.precision - 1) := by
      unfold Format.unit at hlt ⊢
      omega
    have hlog' : Int.log 2 |x| + 1 ≤ Int.log 2 |y| := by
      unfold Format.unit at hlt
      omega
    have key : ∀ u : Int, u ≤ Int.log 2 |y| → ∃ k : Int, (2 : ℚ) ^ Int.log 2 |y| = k * 2 ^ u := fun u hu => by
      refine ⟨2 ^ (Int.log 2 |y| - u).toNat, ?_⟩
      push_cast
      rw [← zpow_natCast, ← zpow_add₀ (by norm_num)]
      congr 1
      omega
    have h1 : x ≤ 2 ^ Int.log 2 |y| := by
      have := Int.lt_zpow_succ_log_self (b := 2) (by decide) |x|
      rw [abs_of_pos hx] at this hlog'
      exact this.le.trans (zpow_le_zpow_right₀ (by norm_num) hlog')
    have h2 : 2 ^ Int.log 2 |y| ≤ y := by
      have := Int.zpow_log_le_self (b := 2) (by decide) (abs_pos.mpr hy.ne')
      rw [abs_of_pos hy] at this ⊢
      exact_mod_cast this
    refine le_trans (b := 2 ^ Int.log 2 |y|) ?_ ?_
    · obtain ⟨k, hk⟩ := key (fmt.unit x) (by omega)
      unfold Format.round
      have hpos := two_zpow_pos (fmt.unit x)
      rw [hk] at h1 ⊢
      refine mul_le_mul_of_nonneg_right ?_ hpos.le
      have := roundEven_mono ((div_le_iff₀ hpos).mpr h1)
      rw [roundEven_int] at this
      exact_mod_cast this
    · obtain ⟨k, hk⟩ := key (fmt.unit y) (by omega)
      unfold Format.round
      have hpos := two_zpow_pos (fmt.unit y)
      rw [hk] at h2 ⊢
      refine mul_le_mul_of_nonneg_right ?_ hpos.le
      have := roundEven_mono ((le_div_iff₀ hpos).mpr h2)
      rw [roundEven_int] at this
      exact_mod_cast this

private theorem round_nonneg {x : ℚ} (hx : 0 ≤ x) : 0 ≤ fmt.round x := by
  unfold Format.round
  have hpos := two_zpow_pos (fmt.unit x)
  refine mul_nonneg ?_ hpos.le
  have := roundEven_mono (div_nonneg hx hpos.le)
  have h0 := roundEven_int 0
  rw [Int.cast_zero] at h0
  rw [h0] at this
  exact_mod_cast this

theorem Format.round_mono (fmt : Format) {x y : ℚ} (h : x ≤ y) : fmt.round x ≤ fmt.round y := by
  rcases lt_trichotomy x 0 with hx | rfl | hx
  · rcases lt_or_ge y 0 with hy | hy
    · have := round_mono_pos (fmt := fmt) (neg_pos.mpr hy) (neg_le_neg h)
      rw [fmt.round_neg, fmt.round_neg] at this
      linarith
    · have := round_nonneg (fmt := fmt) (neg_pos.mpr hx).le
      rw [fmt.round_neg] at this
      linarith [round_nonneg (fmt := fmt) hy]
  · rw [Format.round_zero]
    exact round_nonneg h
  · exact round_mono_pos hx h

namespace Binary

/-- Where the value is on the line, infinities being beyond all numbers of the format. -/
def key : Binary fmt → ℚ
  | .zero _ => 0
  | .num x _ _ => x
  | .inf s => if s then -2 ^ fmt.maxExp else 2 ^ fmt.maxExp
  | .nan => 0

/-- The place of a rounded result. -/
private def clamp (fmt : Format) (x : ℚ) : ℚ := max (-2 ^ fmt.maxExp) (min (2 ^ fmt.maxExp) (fmt.round x))

private theorem clamp_mono {x y : ℚ} (h : x ≤ y) : clamp fmt x ≤ clamp fmt y :=
  max_le_max le_rfl (min_le_min le_rfl (fmt.round_mono h))

private theorem clamp_zero : clamp fmt 0 = 0 := by
  have h : (0 : ℚ) < 2 ^ fmt.maxExp := two_zpow_pos _
  unfold clamp
  rw [Format.round_zero, min_eq_right h.le, max_eq_right (by linarith)]

theorem abs_key_le (a : Binary fmt) : |a.key| ≤ 2 ^ fmt.maxExp := by
  have h : (0 : ℚ) < 2 ^ fmt.maxExp := two_zpow_pos _
  cases a with
  | zero s => simpa [key] using h.le
  | num x hx hr => exact hr.2.le
  | inf s => cases s <;> simp [key, abs_of_pos h]
  | nan => simpa [key] using h.le

private theorem key_ofRat (s : Bool) (x : ℚ) : (ofRat fmt s x).key = clamp fmt x ∧ ofRat fmt s x ≠ .nan := by
  have h : (0 : ℚ) < 2 ^ fmt.maxExp := two_zpow_pos _
  unfold ofRat clamp
  split
  · next h0 =>
    rw [h0, min_eq_right h.le, max_eq_right (by linarith)]
    exact ⟨rfl, by simp⟩
  · split
    · next hr =>
      rw [abs_lt] at hr
      rw [min_eq_right hr.2.le, max_eq_right hr.1.le]
      exact ⟨rfl, by simp⟩
    · next h0 hr =>
      refine ⟨?_, by simp⟩
      rw [not_lt, le_abs] at hr
      by_cases hx : x < 0
      · have hr' : fmt.round x ≤ 0 := by
          have := fmt.round_mono hx.le
          rwa [Format.round_zero] at this
        rw [min_eq_right (by linarith), max_eq_left (by rcases hr with hr | hr <;> linarith)]
        simp [key, hx]
      · have hr' : 0 ≤ fmt.round x := by
          have := fmt.round_mono (not_lt.mp hx)
          rwa [Format.round_zero] at this
        rw [min_eq_left (by rcases hr with hr | hr <;> linarith), max_eq_right (by linarith)]
        simp [key, hx]

theorem key_eq {a : Binary fmt} (h : a.Finite) : a.key = a.toRat ∧ |a.toRat| < 2 ^ fmt.maxExp := by
  cases a with
  | zero s => exact ⟨rfl, by simpa [toRat] using two_zpow_pos _⟩
  | num x hx hr => exact ⟨rfl, hr.2⟩
  | inf s => exact h.elim
  | nan => exact h.elim

/-- Comparison is comparison of places. -/
theorem lt_iff_key {a b : Binary fmt} : a < b ↔ a ≠ .nan ∧ b ≠ .nan ∧ a.key < b.key := by
  have hM : (0 : ℚ) < 2 ^ fmt.maxExp := two_zpow_pos _
  change lt a b = true ↔ _
  cases a with
  | nan => simp [lt]
  | inf s =>
    cases b with
    | nan => simp [lt]
    | inf t =>
      cases s <;> cases t <;> simp [lt, key] <;> linarith
    | zero t => cases s <;> simp [lt, key] <;> linarith
    | num y hy hr =>
      have := abs_lt.mp hr.2
      cases s
      · simpa [lt, key] using this.2.le
      · simpa [lt, key] using this.1
  | zero s =>
    cases b with
    | nan => simp [lt]
    | inf t => cases t <;> simp [lt, key] <;> linarith
    | zero t => simp [lt, key, toRat]
    | num y hy hr => 
      simp only [lt, key, toRat, ne_eq, reduceCtorEq, not_false_eq_true, true_and]
      exact decide_eq_true_iff
  | num x hx hr =>
    have := abs_lt.mp hr.2
    cases b with
    | nan => simp [lt]
    | inf t =>
      cases t
      · simpa [lt, key] using this.2
      · simpa [lt, key] using this.1.le
    | zero t => 
      simp only [lt, key, toRat, ne_eq, reduceCtorEq, not_false_eq_true, true_and]
      exact decide_eq_true_iff
    | num y hy hr => 
      simp only [lt, key, toRat, ne_eq, reduceCtorEq, not_false_eq_true, true_and]
      exact decide_eq_true_iff

/-- The value is not greater than the other one, or one of them is not a number. -/
def Le (a b : Binary fmt) : Prop := ¬ b < a

theorem le_iff {a b : Binary fmt} : a.Le b ↔ (a ≠ .nan → b ≠ .nan → a.key ≤ b.key) := by
  unfold Le
  rw [lt_iff_key]
  constructor
  · intro h ha hb
    by_contra hc
    exact h ⟨hb, ha, not_le.mp hc⟩
  · rintro h ⟨hb, ha, hlt⟩
    exact absurd (h ha hb) (not_le.mpr hlt)

private theorem tri {a : Binary fmt} (h : a ≠ .nan) : a.Finite ∨ a = .inf true ∨ a = .inf false := by
  cases a with
  | zero s => exact .inl trivial
  | num x hx hr => exact .inl trivial
  | inf s => cases s <;> simp
  | nan => exact absurd rfl h

private theorem key_top (a : Binary fmt) : a.key ≤ (.inf false : Binary fmt).key := (abs_le.mp a.abs_key_le).2

private theorem key_bot (a : Binary fmt) : (.inf true : Binary fmt).key ≤ a.key := (abs_le.mp a.abs_key_le).1

private theorem top_pos : 0 < (.inf false : Binary fmt).key := two_zpow_pos _

private theorem bot_neg : (.inf true : Binary fmt).key < 0 := neg_neg_of_pos (two_zpow_pos fmt.maxExp)

private theorem fin_lt {a : Binary fmt} (h : a.Finite) :
    (.inf true : Binary fmt).key < a.key ∧ a.key < (.inf false : Binary fmt).key := by
  obtain ⟨h1, h2⟩ := key_eq h
  rw [h1]
  exact abs_lt.mp h2

private theorem eq_top {a : Binary fmt} (ha : a ≠ .nan) (h : (.inf false : Binary fmt).key ≤ a.key) : a = .inf false := by
  rcases tri ha with h' | rfl | rfl
  · exact absurd h (not_le.mpr (fin_lt h').2)
  · exact absurd h (not_le.mpr (bot_neg.trans top_pos))
  · rfl

private theorem eq_bot {a : Binary fmt} (ha : a ≠ .nan) (h : a.key ≤ (.inf true : Binary fmt).key) : a = .inf true := by
  rcases tri ha with h' | rfl | rfl
  · exact absurd h (not_le.mpr (fin_lt h').1)
  · rfl
  · exact absurd h (not_le.mpr (bot_neg.trans top_pos))

private theorem sub_nan {a b : Binary fmt} (h : a - b ≠ .nan) : a ≠ .nan ∧ b ≠ .nan := by
  constructor
  · rintro rfl
    exact h rfl
  · rintro rfl
    exact h (by cases a <;> rfl)

private theorem mul_nan {a b : Binary fmt} (h : a * b ≠ .nan) : a ≠ .nan ∧ b ≠ .nan := by
  constructor
  · rintro rfl
    exact h rfl
  · rintro rfl
    exact h (by cases a <;> rfl)

private theorem div_nan {a b : Binary fmt} (h : a / b ≠ .nan) : a ≠ .nan ∧ b ≠ .nan := by
  constructor
  · rintro rfl
    exact h rfl
  · rintro rfl
    exact h (by cases a <;> rfl)

private theorem inf_sub {s : Bool} {b : Binary fmt} (h : .inf s - b ≠ .nan) : .inf s - b = .inf s := by
  cases b with
  | zero t => rfl
  | num x hx hr => rfl
  | nan => exact absurd rfl h
  | inf t =>
    change (if s = t then (.nan : Binary fmt) else .inf s) ≠ .nan at h
    change (if s = t then (.nan : Binary fmt) else .inf s) = _
    split at h
    · exact absurd rfl h
    · next hst => rw [if_neg hst]

private theorem sub_inf {t : Bool} {a : Binary fmt} (h : a - .inf t ≠ .nan) : a - .inf t = .inf !t := by
  cases a with
  | zero s => rfl
  | num x hx hr => rfl
  | nan => exact absurd rfl h
  | inf s =>
    change (if s = t then (.nan : Binary fmt) else .inf s) ≠ .nan at h
    change (if s = t then (.nan : Binary fmt) else .inf s) = _
    split at h
    · exact absurd rfl h
    · next hst =>
      rw [if_neg hst]
      cases s <;> cases t <;> simp_all

private theorem key_sub {a b : Binary fmt} (ha : a.Finite) (hb : b.Finite) : (a - b).key = clamp fmt (a.toRat - b.toRat) := by
  cases a with
  | zero s =>
    cases b with
    | zero t =>
      rw [show (Binary.zero s - Binary.zero t : Binary fmt).key = 0 from rfl, toRat, toRat, sub_zero, clamp_zero]
    | num y hy hr => exact (key_ofRat _ _).1
    | inf t => exact hb.elim
    | nan => exact hb.elim
  | num x hx hr =>
    cases b with
    | zero t => exact (key_ofRat _ _).1
    | num y hy hr => exact (key_ofRat _ _).1
    | inf t => exact hb.elim
    | nan => exact hb.elim
  | inf t => exact ha.elim
  | nan => exact ha.elim

private theorem key_mul {a b : Binary fmt} (ha : a.Finite) (hb : b.Finite) : (a * b).key = clamp fmt (a.toRat * b.toRat) := by
  cases a with
  | zero s =>
    cases b with
    | zero t => exact (key_ofRat _ _).1
    | num y hy hr => exact (key_ofRat _ _).1
    | inf t => exact hb.elim
    | nan => exact hb.elim
  | num x hx hr =>
    cases b with
    | zero t => exact (key_ofRat _ _).1
    | num y hy hr => exact (key_ofRat _ _).1
    | inf t => exact hb.elim
    | nan => exact hb.elim
  | inf t => exact ha.elim
  | nan => exact ha.elim

private theorem key_div {a b : Binary fmt} (ha : a.Finite) (hb : b.Finite) (hpos : 0 < b.key) :
    (a / b).key = clamp fmt (a.toRat / b.toRat) := by
  cases b with
  | zero t => exact absurd hpos (lt_irrefl _)
  | num y hy hr =>
    cases a with
    | zero t => exact (key_ofRat _ _).1
    | num y hy hr => exact (key_ofRat _ _).1
    | inf t => exact ha.elim
    | nan => exact ha.elim
  | inf t => exact hb.elim
  | nan => exact hb.elim

private theorem fin_div_inf {a : Binary fmt} (ha : a.Finite) (t : Bool) : (a / .inf t).key = 0 := by
  cases a with
  | zero t => rfl
  | num y hy hr => rfl
  | inf t => exact ha.elim
  | nan => exact ha.elim

private theorem inf_div_inf (s t : Bool) : (.inf s / .inf t : Binary fmt) = .nan := rfl

private theorem inf_div {s : Bool} {b : Binary fmt} (hb : b.Finite) (hpos : 0 < b.key) : .inf s / b = .inf s := by
  cases b with
  | zero t => exact absurd hpos (lt_irrefl _)
  | num y hy hr =>
    change Binary.inf (s ^^ decide (y < 0)) = _
    rw [decide_eq_false (not_lt.mpr (le_of_lt (show 0 < y from hpos))), Bool.xor_false]
  | inf t => exact hb.elim
  | nan => exact hb.elim

private theorem inf_mul {s : Bool} {b : Binary fmt} (h : .inf s * b ≠ .nan) :
    (b.key < 0 ∧ .inf s * b = .inf !s) ∨ (0 < b.key ∧ .inf s * b = .inf s) := by
  cases b with
  | zero t => exact absurd rfl h
  | num y hy hr =>
    rcases lt_or_gt_of_ne hy with hlt | hlt
    · refine .inl ⟨hlt, ?_⟩
      change Binary.inf (s ^^ decide (y < 0)) = _
      rw [decide_eq_true hlt, Bool.xor_true]
    · refine .inr ⟨hlt, ?_⟩
      change Binary.inf (s ^^ decide (y < 0)) = _
      rw [decide_eq_false (not_lt.mpr hlt.le), Bool.xor_false]
  | inf t =>
    cases t
    · refine .inr ⟨top_pos, ?_⟩
      change Binary.inf (s ^^ false) = _
      rw [Bool.xor_false]
    · refine .inl ⟨bot_neg, ?_⟩
      change Binary.inf (s ^^ true) = _
      rw [Bool.xor_true]
  | nan => exact absurd rfl h

private theorem mul_inf {s : Bool} {b : Binary fmt} (h : b * .inf s ≠ .nan) :
    (b.key < 0 ∧ b * .inf s = .inf !s) ∨ (0 < b.key ∧ b * .inf s = .inf s) := by
  cases b with
  | zero t => exact absurd rfl h
  | num y hy hr =>
    rcases lt_or_gt_of_ne hy with hlt | hlt
    · refine .inl ⟨hlt, ?_⟩
      change Binary.inf (decide (y < 0) ^^ s) = _
      rw [decide_eq_true hlt, Bool.true_xor]
    · refine .inr ⟨hlt, ?_⟩
      change Binary.inf (decide (y < 0) ^^ s) = _
      rw [decide_eq_false (not_lt.mpr hlt.le), Bool.false_xor]
  | inf t =>
    cases t
    · refine .inr ⟨top_pos, ?_⟩
      change Binary.inf (false ^^ s) = _
      rw [Bool.false_xor]
    · refine .inl ⟨bot_neg, ?_⟩
      change Binary.inf (true ^^ s) = _
      rw [Bool.true_xor]
  | nan => exact absurd rfl h

variable {a a' b b' d d' : Binary fmt}

theorem Le.sub (h : a.Le a') (h' : b'.Le b) : (a - b).Le (a' - b') := by
  rw [le_iff] at *
  intro hn hn'
  obtain ⟨n1, n2⟩ := sub_nan hn
  obtain ⟨n3, n4⟩ := sub_nan hn'
  replace h := h n1 n3
  replace h' := h' n4 n2
  rcases tri n1 with f1 | rfl | rfl
  · rcases tri n2 with f2 | rfl | rfl
    · rcases tri n3 with f3 | rfl | rfl
      · rcases tri n4 with f4 | rfl | rfl
        · rw [key_sub f1 f2, key_sub f3 f4]
          rw [(key_eq f1).1, (key_eq f3).1] at h
          rw [(key_eq f2).1, (key_eq f4).1] at h'
          exact clamp_mono (by linarith)
        · rw [sub_inf hn']
          exact key_top _
        · exact absurd h' (not_le.mpr (fin_lt f2).2)
      · exact absurd h (not_le.mpr (fin_lt f1).1)
      · rw [inf_sub hn']
        exact key_top _
    · obtain rfl := eq_bot n4 h'
      rw [sub_inf hn']
      exact key_top _
    · rw [sub_inf hn]
      exact key_bot _
  · rw [inf_sub hn]
    exact key_bot _
  · obtain rfl := eq_top n3 h
    rw [inf_sub hn']
    exact key_top _

private theorem zero_ne : (0 : Binary fmt) ≠ .nan := nofun

private theorem np_iff : a.Le 0 ↔ (a ≠ .nan → a.key ≤ 0) := by
  rw [le_iff]
  exact ⟨fun h ha => h ha zero_ne, fun h ha _ => h ha⟩

private theorem nn_iff : (0 : Binary fmt).Le a ↔ (a ≠ .nan → 0 ≤ a.key) := by
  rw [le_iff]
  exact ⟨fun h ha => h zero_ne ha, fun h _ ha => h ha⟩

/-- Products of numbers which are not positive. -/
theorem Le.mulDown (h1 : a.Le 0) (h2 : a'.Le 0) (h3 : b.Le 0) (h4 : b'.Le 0) (h : a.Le a') (h' : b.Le b') :
    (a' * b').Le (a * b) := by
  rw [np_iff] at h1 h2 h3 h4
  rw [le_iff] at *
  intro hn' hn
  obtain ⟨n1, n2⟩ := mul_nan hn
  obtain ⟨n3, n4⟩ := mul_nan hn'
  replace h := h n1 n3
  replace h' := h' n2 n4
  replace h1 := h1 n1
  replace h2 := h2 n3
  replace h3 := h3 n2
  replace h4 := h4 n4
  rcases tri n1 with f1 | rfl | rfl
  · rcases tri n2 with f2 | rfl | rfl
    · rcases tri n3 with f3 | rfl | rfl
      · rcases tri n4 with f4 | rfl | rfl
        · rw [key_mul f1 f2, key_mul f3 f4]
          simp only [(key_eq f1).1, (key_eq f2).1, (key_eq f3).1, (key_eq f4).1] at *
          exact clamp_mono (by nlinarith)
        · exact absurd h' (not_le.mpr (fin_lt f2).1)
        · exact absurd h4 (not_le.mpr top_pos)
      · exact absurd h (not_le.mpr (fin_lt f1).1)
      · exact absurd h2 (not_le.mpr top_pos)
    · rcases mul_inf hn with ⟨-, e⟩ | ⟨e, -⟩
      · rw [e]
        exact key_top _
      · exact absurd h1 (not_le.mpr e)
    · exact absurd h3 (not_le.mpr top_pos)
  · rcases inf_mul hn with ⟨-, e⟩ | ⟨e, -⟩
    · rw [e]
      exact key_top _
    · exact absurd h3 (not_le.mpr e)
  · exact absurd h1 (not_le.mpr top_pos)

/-- Products of numbers which are not positive, and numbers which are not negative. -/
theorem Le.mulUp (h1 : a.Le 0) (h2 : a'.Le 0) (h3 : (0 : Binary fmt).Le b) (h4 : (0 : Binary fmt).Le b') (h : a.Le a')
    (h' : b'.Le b) : (a * b).Le (a' * b') := by
  rw [np_iff] at h1 h2
  rw [nn_iff] at h3 h4
  rw [le_iff] at *
  intro hn hn'
  obtain ⟨n1, n2⟩ := mul_nan hn
  obtain ⟨n3, n4⟩ := mul_nan hn'
  replace h := h n1 n3
  replace h' := h' n4 n2
  replace h1 := h1 n1
  replace h2 := h2 n3
  replace h3 := h3 n2
  replace h4 := h4 n4
  rcases tri n1 with f1 | rfl | rfl
  · rcases tri n2 with f2 | rfl | rfl
    · rcases tri n3 with f3 | rfl | rfl
      · rcases tri n4 with f4 | rfl | rfl
        · rw [key_mul f1 f2, key_mul f3 f4]
          simp only [(key_eq f1).1, (key_eq f2).1, (key_eq f3).1, (key_eq f4).1] at *
          exact clamp_mono (by nlinarith)
        · exact absurd h4 (not_le.mpr bot_neg)
        · exact absurd h' (not_le.mpr (fin_lt f2).2)
      · exact absurd h (not_le.mpr (fin_lt f1).1)
      · exact absurd h2 (not_le.mpr top_pos)
    · exact absurd h3 (not_le.mpr bot_neg)
    · rcases mul_inf hn with ⟨-, e⟩ | ⟨e, -⟩
      · rw [e]
        exact key_bot _
      · exact absurd h1 (not_le.mpr e)
  · rcases inf_mul hn with ⟨e, -⟩ | ⟨-, e⟩
    · exact absurd h3 (not_le.mpr e)
    · rw [e]
      exact key_bot _
  · exact absurd h1 (not_le.mpr top_pos)

/-- Products with a number which is not positive. -/
theorem Le.mulFixed (h1 : a.Le 0) (h : b.Le b') : (a * b').Le (a * b) := by
  rw [np_iff] at h1
  rw [le_iff] at *
  intro hn' hn
  obtain ⟨n1, n2⟩ := mul_nan hn
  obtain ⟨-, n3⟩ := mul_nan hn'
  replace h := h n2 n3
  replace h1 := h1 n1
  rcases tri n1 with f1 | rfl | rfl
  · rcases tri n2 with f2 | rfl | rfl
    · rcases tri n3 with f3 | rfl | rfl
      · rw [key_mul f1 f2, key_mul f1 f3]
        simp only [(key_eq f1).1, (key_eq f2).1, (key_eq f3).1] at *
        exact clamp_mono (by nlinarith)
      · exact absurd h (not_le.mpr (fin_lt f2).1)
      · rcases mul_inf hn' with ⟨-, e⟩ | ⟨e, -⟩
        · rw [e]
          exact key_bot _
        · exact absurd h1 (not_le.mpr e)
    · rcases mul_inf hn with ⟨-, e⟩ | ⟨e, -⟩
      · rw [e]
        exact key_top _
      · exact absurd h1 (not_le.mpr e)
    · obtain rfl := eq_top n3 h
      exact le_rfl
  · rcases inf_mul hn with ⟨-, e⟩ | ⟨e, e'⟩
    · rw [e]
      exact key_top _
    · rcases inf_mul hn' with ⟨e2, -⟩ | ⟨-, e2⟩
      · exact absurd (e.trans_le h) (not_lt.mpr e2.le)
      · rw [e', e2]
  · exact absurd h1 (not_le.mpr top_pos)

/-- Positive, or not a number. -/
def NotBelow (d : Binary fmt) : Prop := d ≠ .nan → 0 < d.key

private theorem nb_cases (h : d.NotBelow) (hn : d ≠ .nan) : (d.Finite ∧ 0 < d.key) ∨ d = .inf false := by
  rcases tri hn with f | rfl | rfl
  · exact .inl ⟨f, h hn⟩
  · exact absurd (h hn) (not_lt.mpr bot_neg.le)
  · exact .inr rfl

/-- Quotients of numbers which are not positive. -/
theorem Le.divDown (h1 : a.Le 0) (h2 : a'.Le 0) (h : a.Le a') (hd : d.NotBelow) (hd' : d'.NotBelow) (h' : d.Le d') :
    (a / d).Le (a' / d') := by
  rw [np_iff] at h1 h2
  rw [le_iff] at *
  intro hn hn'
  obtain ⟨n1, n2⟩ := div_nan hn
  obtain ⟨n3, n4⟩ := div_nan hn'
  replace h := h n1 n3
  replace h' := h' n2 n4
  replace h1 := h1 n1
  replace h2 := h2 n3
  rcases nb_cases hd n2 with ⟨f2, p2⟩ | rfl
  · rcases tri n1 with f1 | rfl | rfl
    · rcases tri n3 with f3 | rfl | rfl
      · rw [key_div f1 f2 p2]
        rcases nb_cases hd' n4 with ⟨f4, p4⟩ | rfl
        · rw [key_div f3 f4 p4]
          simp only [(key_eq f1).1, (key_eq f2).1, (key_eq f3).1, (key_eq f4).1] at *
          refine clamp_mono ((div_le_div_of_nonneg_right h p2.le).trans ?_)
          rw [div_le_div_iff₀ p2 p4]
          nlinarith
        · rw [fin_div_inf f3, ← clamp_zero (fmt := fmt)]
          simp only [(key_eq f1).1, (key_eq f2).1] at *
          exact clamp_mono (div_nonpos_of_nonpos_of_nonneg h1 p2.le)
      · exact absurd h (not_le.mpr (fin_lt f1).1)
      · exact absurd h2 (not_le.mpr top_pos)
    · rw [inf_div f2 p2]
      exact key_bot _
    · exact absurd h1 (not_le.mpr top_pos)
  · obtain rfl := eq_top n4 h'
    rcases tri n1 with f1 | rfl | rfl
    · rcases tri n3 with f3 | rfl | rfl
      · rw [fin_div_inf f1, fin_div_inf f3]
      · exact absurd rfl hn'
      · exact absurd rfl hn'
    · exact absurd rfl hn
    · exact absurd rfl hn

/-- Quotients of numbers which are not negative. -/
theorem Le.divUp (h1 : (0 : Binary fmt).Le a) (h2 : (0 : Binary fmt).Le a') (h : a'.Le a) (hd : d.NotBelow) (hd' : d'.NotBelow)
    (h' : d.Le d') : (a' / d').Le (a / d) := by
  rw [nn_iff] at h1 h2
  rw [le_iff] at *
  intro hn' hn
  obtain ⟨n1, n2⟩ := div_nan hn
  obtain ⟨n3, n4⟩ := div_nan hn'
  replace h := h n3 n1
  replace h' := h' n2 n4
  replace h1 := h1 n1
  replace h2 := h2 n3
  rcases nb_cases hd n2 with ⟨f2, p2⟩ | rfl
  · rcases tri n1 with f1 | rfl | rfl
    · rcases tri n3 with f3 | rfl | rfl
      · rw [key_div f1 f2 p2]
        rcases nb_cases hd' n4 with ⟨f4, p4⟩ | rfl
        · rw [key_div f3 f4 p4]
          simp only [(key_eq f1).1, (key_eq f2).1, (key_eq f3).1, (key_eq f4).1] at *
          refine clamp_mono (le_trans ?_ (div_le_div_of_nonneg_right h p2.le))
          rw [div_le_div_iff₀ p4 p2]
          nlinarith
        · rw [fin_div_inf f3, ← clamp_zero (fmt := fmt)]
          simp only [(key_eq f1).1, (key_eq f2).1] at *
          exact clamp_mono (div_nonneg h1 p2.le)
      · exact absurd h2 (not_le.mpr bot_neg)
      · exact absurd h (not_le.mpr (fin_lt f1).2)
    · exact absurd h1 (not_le.mpr bot_neg)
    · rw [inf_div f2 p2]
      exact key_top _
  · obtain rfl := eq_top n4 h'
    rcases tri n1 with f1 | rfl | rfl
    · rcases tri n3 with f3 | rfl | rfl
      · rw [fin_div_inf f1, fin_div_inf f3]
      · exact absurd rfl hn'
      · exact absurd rfl hn'
    · exact absurd rfl hn
    · exact absurd rfl hn

/-- Quotients by the same number. -/
theorem Le.divFixed (hd : d.NotBelow) (h : a.Le a') : (a / d).Le (a' / d) := by
  rw [le_iff] at *
  intro hn hn'
  obtain ⟨n1, n2⟩ := div_nan hn
  obtain ⟨n3, -⟩ := div_nan hn'
  replace h := h n1 n3
  rcases nb_cases hd n2 with ⟨f2, p2⟩ | rfl
  · rcases tri n1 with f1 | rfl | rfl
    · rcases tri n3 with f3 | rfl | rfl
      · rw [key_div f1 f2 p2, key_div f3 f2 p2]
        simp only [(key_eq f1).1, (key_eq f2).1, (key_eq f3).1] at *
        exact clamp_mono (div_le_div_of_nonneg_right h p2.le)
      · exact absurd h (not_le.mpr (fin_lt f1).1)
      · rw [inf_div f2 p2]
        exact key_top _
    · rw [inf_div f2 p2]
      exact key_bot _
    · obtain rfl := eq_top n3 h
      exact le_rfl
  · rcases tri n1 with f1 | rfl | rfl
    · rcases tri n3 with f3 | rfl | rfl
      · rw [fin_div_inf f1, fin_div_inf f3]
      · exact absurd rfl hn'
      · exact absurd rfl hn'
    · exact absurd rfl hn
    · exact absurd rfl hn

private theorem zero_finite : (0 : Binary fmt).Finite := trivial

private theorem zeroMul : (0 * 0 : Binary fmt).key = 0 := by
  rw [key_mul zero_finite zero_finite]
  exact (congrArg _ (mul_zero _)).trans clamp_zero

private theorem zeroMul_ne : (0 * 0 : Binary fmt) ≠ .nan := (key_ofRat _ _).2

private theorem zeroDiv (hd : d.NotBelow) (hn : d ≠ .nan) : (0 / d).key = 0 ∧ 0 / d ≠ .nan := by
  rcases nb_cases hd hn with ⟨f, p⟩ | rfl
  · rw [key_div zero_finite f p]
    refine ⟨(congrArg _ (zero_div _)).trans clamp_zero, ?_⟩
    cases d with
    | zero t => exact absurd p (lt_irrefl _)
    | num y hy hr => exact (key_ofRat _ _).2
    | inf t => exact f.elim
    | nan => exact f.elim
  · exact ⟨rfl, nofun⟩

theorem Le.zero_refl : (0 : Binary fmt).Le 0 := le_iff.mpr fun _ _ => le_rfl

theorem Le.subNP (h : a.Le 0) (h' : (0 : Binary fmt).Le b) : (a - b).Le 0 := Le.sub (a' := 0) (b' := 0) h h'

theorem Le.subNN (h : (0 : Binary fmt).Le a) (h' : b.Le 0) : (0 : Binary fmt).Le (a - b) := Le.sub (a := 0) (b := 0) h h'

theorem Le.mulNN (h : a.Le 0) (h' : b.Le 0) : (0 : Binary fmt).Le (a * b) := by
  have := le_iff.mp (Le.mulDown h zero_refl h' zero_refl h h') zeroMul_ne
  rw [zeroMul] at this
  exact nn_iff.mpr this

theorem Le.mulNP (h : a.Le 0) (h' : (0 : Binary fmt).Le b) : (a * b).Le 0 := by
  have := fun hn => le_iff.mp (Le.mulUp h zero_refl h' zero_refl h h') hn zeroMul_ne
  rw [zeroMul] at this
  exact np_iff.mpr this

theorem Le.divNP (h : a.Le 0) (hd : d.NotBelow) : (a / d).Le 0 := by
  refine np_iff.mpr fun hn => ?_
  obtain ⟨h1, h2⟩ := zeroDiv hd (div_nan hn).2
  have := le_iff.mp (Le.divFixed hd h) hn h2
  rwa [h1] at this

theorem Le.divNN (h : (0 : Binary fmt).Le a) (hd : d.NotBelow) : (0 : Binary fmt).Le (a / d) := by
  refine nn_iff.mpr fun hn => ?_
  obtain ⟨h1, h2⟩ := zeroDiv hd (div_nan hn).2
  have := le_iff.mp (Le.divFixed hd h) h2 hn
  rwa [h1] at this

theorem Le.mulPos (h : (0 : Binary fmt).Le a) (hd : d.NotBelow) : (0 : Binary fmt).Le (a * d) := by
  rw [nn_iff] at *
  intro hn
  obtain ⟨n1, n2⟩ := mul_nan hn
  replace h := h n1
  have p := hd n2
  rcases tri n1 with f1 | rfl | rfl
  · rcases tri n2 with f2 | rfl | rfl
    · rw [key_mul f1 f2, ← clamp_zero (fmt := fmt)]
      simp only [(key_eq f1).1, (key_eq f2).1] at *
      exact clamp_mono (mul_nonneg h p.le)
    · exact absurd p (not_lt.mpr bot_neg.le)
    · rcases mul_inf hn with ⟨e, -⟩ | ⟨-, e⟩
      · exact absurd h (not_le.mpr e)
      · rw [e]
        exact top_pos.le
  · exact absurd h (not_le.mpr bot_neg)
  · rcases inf_mul hn with ⟨e, -⟩ | ⟨-, e⟩
    · exact absurd p (not_lt.mpr e.le)
    · rw [e]
      exact top_pos.le

theorem notBelow_of_lt (h : 0 < d) : d.NotBelow := fun _ => (lt_iff_key.mp h).2.2

/-- What is not less than a positive number is positive, or not a number. -/
theorem notBelow_of_le (h : 0 < d) (h' : d.Le d') : d'.NotBelow := fun hn => by
  obtain ⟨-, h1, h2⟩ := lt_iff_key.mp h
  exact lt_of_lt_of_le h2 (le_iff.mp h' h1 hn)

theorem notBelow_iff : d.NotBelow ↔ 0 < d ∨ d = .nan := by
  constructor
  · intro h
    by_cases hn : d = .nan
    · exact .inr hn
    · exact .inl (lt_iff_key.mpr ⟨zero_ne, hn, h hn⟩)
  · rintro (h | rfl)
    · exact notBelow_of_lt h
    · exact fun h => absurd rfl h

end Binary

end Ctldl
