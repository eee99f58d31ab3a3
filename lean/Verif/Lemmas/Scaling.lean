import Verif.Spec.Scaling
import Verif.Lemmas.Binary
import Verif.Lemmas.Graded
import Verif.Lemmas.Oblivious
import Mathlib.Algebra.Group.Prod

/-! # Operations on values scaled by powers of two -/

namespace Ctldl

variable {fmt : Format}

theorem log_scaled {x : ℚ} (hx : 0 < x) (w : Int) : Int.log 2 (2 ^ w * x) = w + Int.log 2 x := by
  have hw : (0 : ℚ) < 2 ^ w := two_zpow_pos w
  have h0 : 0 < 2 ^ w * x := mul_pos hw hx
  have h2 : ((2 : Nat) : ℚ) = 2 := by norm_num
  apply le_antisymm
  · have h : (2 ^ w * x : ℚ) < (2 : Nat) ^ (w + Int.log 2 x + 1) := by
      rw [h2, add_assoc, zpow_add₀ (by norm_num)]
      have := Int.lt_zpow_succ_log_self (b := 2) (by decide) x
      rw [h2] at this
      exact mul_lt_mul_of_pos_left this hw
    have := (Int.lt_zpow_iff_log_lt (b := 2) (by decide) h0).mp h
    omega
  · refine (Int.zpow_le_iff_le_log (b := 2) (by decide) h0).mp ?_
    rw [h2, zpow_add₀ (by norm_num)]
    have := Int.zpow_log_le_self (b := 2) (by decide) hx
    rw [h2] at this
    exact mul_le_mul_of_nonneg_left this hw.le

theorem Format.roundUnbounded_zero (fmt : Format) : fmt.roundUnbounded 0 = 0 := by
  rw [Format.roundUnbounded, zero_div, show (0 : ℚ) = ((0 : Int) : ℚ) from rfl, roundEven_int]
  simp

/-- Without bounds on exponents, scaling by a power of two before and after rounding is the same. -/
theorem Format.roundUnbounded_scaled (fmt : Format) (x : ℚ) (w : Int) :
    fmt.roundUnbounded (2 ^ w * x) = 2 ^ w * fmt.roundUnbounded x := by
  have hw : (0 : ℚ) < 2 ^ w := two_zpow_pos w
  by_cases hx : x = 0
  · rw [hx, mul_zero, roundUnbounded_zero, mul_zero]
  unfold Format.roundUnbounded
  rw [abs_mul, abs_of_pos hw, log_scaled (abs_pos.mpr hx)]
  rw [show w + Int.log 2 |x| - (fmt.precision - 1) = w + (Int.log 2 |x| - (fmt.precision - 1)) by ring,
    zpow_add₀ (by norm_num), mul_div_mul_left _ _ hw.ne']
  ring

theorem ofRat_scaled (s : Bool) {x : ℚ} {w : Int} (h : ¬ fmt.LeavesRange x) (h' : ¬ fmt.LeavesRange (2 ^ w * x)) :
    Scaled w (Binary.ofRat fmt s x) (Binary.ofRat fmt s (2 ^ w * x)) := by
  have hw : (0 : ℚ) < 2 ^ w := two_zpow_pos w
  unfold Format.LeavesRange at h h'
  push Not at h h'
  obtain ⟨h1, h2⟩ := h
  obtain ⟨h3, h4⟩ := h'
  have e : fmt.round (2 ^ w * x) = 2 ^ w * fmt.round x := by rw [h3, h1, Format.roundUnbounded_scaled]
  unfold Binary.ofRat
  by_cases h0 : fmt.round x = 0
  · rw [dif_pos h0, dif_pos (by rw [e, h0, mul_zero])]
    exact .zero s
  · rw [dif_neg h0, dif_pos h2, dif_neg (by rw [e]; exact mul_ne_zero hw.ne' h0), dif_pos h4]
    exact .num _ _ _ _ e

/-- The case of another representation of the scaled number. -/
theorem ofRat_scaled' (s : Bool) {x y : ℚ} {w : Int} (h : ¬ fmt.LeavesRange x) (h' : ¬ fmt.LeavesRange y)
    (e : y = 2 ^ w * x) : Scaled w (Binary.ofRat fmt s x) (Binary.ofRat fmt s y) := by
  subst e
  exact ofRat_scaled s h h'

theorem Scaled.toRat {w : Int} {a b : Binary fmt} (h : Scaled w a b) : b.toRat = 2 ^ w * a.toRat := by
  cases h with
  | zero | inf | nan => exact (mul_zero _).symm
  | num _ _ _ _ h => exact h

theorem Scaled.negative {w : Int} {a b : Binary fmt} (h : Scaled w a b) : b.negative = a.negative := by
  cases h with
  | zero | inf | nan => rfl
  | num _ _ _ _ h =>
    have := two_zpow_pos w
    simp only [Binary.negative, h, mul_neg_iff, this, this.not_gt, true_and, false_and, or_false]

theorem Scaled.sub {w : Int} {a a' b b' : Binary fmt} (ha : Scaled w a a') (hb : Scaled w b b')
    (h : ¬ fmt.LeavesRange (a.toRat - b.toRat)) (h' : ¬ fmt.LeavesRange (a'.toRat - b'.toRat)) :
    Scaled w (a - b) (a' - b') := by
  have e : a'.toRat - b'.toRat = 2 ^ w * (a.toRat - b.toRat) := by rw [ha.toRat, hb.toRat]; ring
  cases ha with
  | nan => exact .nan
  | inf s =>
    cases hb with
    | nan => exact .nan
    | inf t =>
      change Scaled w (if s = t then .nan else .inf s) (if s = t then .nan else .inf s)
      split
      · exact .nan
      · exact .inf s
    | zero t => exact .inf s
    | num => exact .inf s
  | zero s =>
    cases hb with
    | nan => exact .nan
    | inf t => exact .inf _
    | zero t => exact .zero _
    | num => exact ofRat_scaled' _ h h' e
  | num =>
    cases hb with
    | nan => exact .nan
    | inf t => exact .inf _
    | zero t => exact ofRat_scaled' _ h h' e
    | num => exact ofRat_scaled' _ h h' e

theorem Scaled.mul {v w : Int} {a a' b b' : Binary fmt} (ha : Scaled v a a') (hb : Scaled w b b')
    (h : ¬ fmt.LeavesRange (a.toRat * b.toRat)) (h' : ¬ fmt.LeavesRange (a'.toRat * b'.toRat)) :
    Scaled (v + w) (a * b) (a' * b') := by
  have e : a'.toRat * b'.toRat = 2 ^ (v + w) * (a.toRat * b.toRat) := by
    rw [ha.toRat, hb.toRat, zpow_add₀ (by norm_num)]; ring
  have na := ha.negative
  have nb := hb.negative
  have key : ∀ s s', s = s' → Scaled (v + w) (Binary.ofRat fmt s (a.toRat * b.toRat))
      (Binary.ofRat fmt s' (a'.toRat * b'.toRat)) := fun s s' hs => hs ▸ ofRat_scaled' _ h h' e
  have hinf : ∀ s s', s = s' → Scaled (fmt := fmt) (v + w) (.inf s) (.inf s') := fun s s' hs => hs ▸ .inf s
  cases ha with
  | nan => exact .nan
  | inf s =>
    cases hb with
    | nan => exact .nan
    | inf t => exact .inf _
    | zero t => exact .nan
    | num => exact hinf _ _ (congrArg (s ^^ ·) nb.symm)
  | zero s =>
    cases hb with
    | nan => exact .nan
    | inf t => exact .nan
    | zero t => exact key _ _ (by rw [na, nb])
    | num => exact key _ _ (by rw [na, nb])
  | num =>
    cases hb with
    | nan => exact .nan
    | inf t => exact hinf _ _ (congrArg (· ^^ t) na.symm)
    | zero t => exact key _ _ (by rw [na, nb])
    | num => exact key _ _ (by rw [na, nb])

theorem Scaled.div {v w : Int} {a a' b b' : Binary fmt} (ha : Scaled v a a') (hb : Scaled w b b')
    (h : ¬ fmt.LeavesRange (a.toRat / b.toRat)) (h' : ¬ fmt.LeavesRange (a'.toRat / b'.toRat)) :
    Scaled (v - w) (a / b) (a' / b') := by
  have e : a'.toRat / b'.toRat = 2 ^ (v - w) * (a.toRat / b.toRat) := by
    rw [ha.toRat, hb.toRat, zpow_sub₀ (by norm_num), mul_div_mul_comm]
  have na := ha.negative
  have nb := hb.negative
  have key : ∀ s s', s = s' → Scaled (v - w) (Binary.ofRat fmt s (a.toRat / b.toRat))
      (Binary.ofRat fmt s' (a'.toRat / b'.toRat)) := fun s s' hs => hs ▸ ofRat_scaled' _ h h' e
  have hinf : ∀ s s', s = s' → Scaled (fmt := fmt) (v - w) (.inf s) (.inf s') := fun s s' hs => hs ▸ .inf s
  have hzero : ∀ s s', s = s' → Scaled (fmt := fmt) (v - w) (.zero s) (.zero s') := fun s s' hs => hs ▸ .zero s
  cases ha with
  | nan => exact .nan
  | inf s =>
    cases hb with
    | nan => exact .nan
    | inf t => exact .nan
    | zero t => exact .inf _
    | num => exact hinf _ _ (congrArg (s ^^ ·) nb.symm)
  | zero s =>
    cases hb with
    | nan => exact .nan
    | inf t => exact .zero _
    | zero t => exact .nan
    | num => exact key _ _ (by rw [na, nb])
  | num =>
    cases hb with
    | nan => exact .nan
    | inf t => exact hzero _ _ (congrArg (· ^^ t) na.symm)
    | zero t => exact hinf _ _ (congrArg (· ^^ t) na.symm)
    | num => exact key _ _ (by rw [na, nb])

theorem trackedScaled_grading : Grading (TrackedScaled (fmt := fmt)) where
  zero _ _ _ := .zero false
  sub {w a b} ha hb h h' := by
    obtain ⟨⟨a1, a2⟩, ⟨a3, a4⟩⟩ := a
    obtain ⟨⟨b1, b2⟩, ⟨b3, b4⟩⟩ := b
    change (a2 || b2 || decide _) = false at h
    change (a4 || b4 || decide _) = false at h'
    simp only [Bool.or_eq_false_iff, decide_eq_false_iff_not] at h h'
    exact (ha h.1.1 h'.1.1).sub (hb h.1.2 h'.1.2) h.2 h'.2
  mul {v w a b} ha hb h h' := by
    obtain ⟨⟨a1, a2⟩, ⟨a3, a4⟩⟩ := a
    obtain ⟨⟨b1, b2⟩, ⟨b3, b4⟩⟩ := b
    change (a2 || b2 || decide _) = false at h
    change (a4 || b4 || decide _) = false at h'
    simp only [Bool.or_eq_false_iff, decide_eq_false_iff_not] at h h'
    exact (ha h.1.1 h'.1.1).mul (hb h.1.2 h'.1.2) h.2 h'.2
  div {v w a b} ha hb h h' := by
    obtain ⟨⟨a1, a2⟩, ⟨a3, a4⟩⟩ := a
    obtain ⟨⟨b1, b2⟩, ⟨b3, b4⟩⟩ := b
    change (a2 || b2 || decide _) = false at h
    change (a4 || b4 || decide _) = false at h'
    simp only [Bool.or_eq_false_iff, decide_eq_false_iff_not] at h h'
    exact (ha h.1.1 h'.1.1).div (hb h.1.2 h'.1.2) h.2 h'.2

theorem fst_hom {K K' : Type} [Zero K] [Sub K] [Mul K] [Div K] [Zero K'] [Sub K'] [Mul K'] [Div K'] :
    Hom (Prod.fst : K × K' → K) := ⟨rfl, fun _ _ => rfl, fun _ _ => rfl, fun _ _ => rfl⟩

theorem snd_hom {K K' : Type} [Zero K] [Sub K] [Mul K] [Div K] [Zero K'] [Sub K'] [Mul K'] [Div K'] :
    Hom (Prod.snd : K × K' → K') := ⟨rfl, fun _ _ => rfl, fun _ _ => rfl, fun _ _ => rfl⟩

theorem value_hom : Hom (Tracked.value (fmt := fmt)) := ⟨rfl, fun _ _ => rfl, fun _ _ => rfl, fun _ _ => rfl⟩

/-- Two objects of the same shape as one object with pairs of numbers. -/
theorem Numbering.zip {S : Type → Type} (N : Numbering S) {K K' : Type} [Inhabited K] [Inhabited K'] (s : S K)
    (s' : S K') (h : N.map (fun _ => ()) s = N.map (fun _ => ()) s') :
    ∃ z : S (K × K'), N.map Prod.fst z = s ∧ N.map Prod.snd z = s' := by
  have ag : ∀ {A : Type} [Inhabited A] (l : List A), Agree (fun i => l.getD i default) 0 l := by
    intro A _ l i hi
    simp [hi]
  refine ⟨N.map (fun n => ((N.numbers s).getD n default, (N.numbers s').getD n default))
    (N.label (N.map (fun _ => ()) s) 0), ?_, ?_⟩
  · rw [N.map_map]
    exact N.law s _ 0 (ag _)
  · rw [N.map_map, h]
    exact N.law s' _ 0 (ag _)

end Ctldl
