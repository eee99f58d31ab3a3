import Verif.Spec.RangeAdd
import Verif.Lemmas.RoundingAdd
import Verif.Lemmas.Range
import Verif.Lemmas.Forward

/-! # Multiplications without overflow -/

namespace Ctldl

open Finset

namespace Binary

variable {fmt : Format}

theorem rangeAdd (h : fmt.minExp < fmt.maxExp) : (roundingAdd fmt).Range (2 ^ (fmt.maxExp - 1)) where
  __ := range h
  stored_zero := trivial
  stored_add := fun _ _ => trivial
  fin_add := by
    intro a b _ ha hb hx
    refine fin_sub (a := a) (b := b.neg) h ha (finite_neg.mpr hb) ?_
    rw [toRat_neg, sub_neg_eq_add]
    exact hx

end Binary

namespace Contracted

variable {fmt : Format} {C : Contraction}

theorem rangeAdd (h : fmt.minExp < fmt.maxExp) : (roundingAdd fmt C).Range (2 ^ (fmt.maxExp - 1)) where
  __ := range h
  stored_zero := trivial
  stored_add := by
    intro a b
    cases a <;> cases b <;> trivial
  fin_add := by
    intro a b sa ha hb hx
    cases a with
    | prod t x y => exact sa.elim
    | val t a =>
      cases b with
      | val s b =>
        refine Binary.fin_sub (a := a) (b := b.neg) h ha (Binary.finite_neg.mpr hb) ?_
        rw [Binary.toRat_neg, sub_neg_eq_add]
        exact hx
      | prod s b c =>
        refine Binary.fin_fusedSub (a := a) (b := b.neg) (c := c) h ha (Binary.finite_neg.mpr hb.1) hb.2 ?_
        rw [Binary.toRat_neg, neg_mul, sub_neg_eq_add]
        exact hx

end Contracted

variable {K F : Type} [Zero K] [Add K] [Sub K] [Mul K] [Div K] [Field F] [LinearOrder F] [IsStrictOrderedRing F]

namespace RoundingAdd

variable (R : RoundingAdd K F) (Ω : F)

/-- The relation of partial sums: finite if the bound of the absolute values is in the range. -/
def SumIn (s : K × F × F × ℕ) : Prop :=
  R.stored s.1 ∧ 0 ≤ s.2.2.1 ∧ R.Sum s ∧ (R.growth (s.2.2.2 + 1) * (s.2.2.1 + s.2.2.2 * R.η) ≤ Ω → R.fin s.1)

/-- The relation of products. -/
def ProductIn (t : K × F × F × ℕ) : Prop := 0 ≤ t.2.2.1 ∧ R.Product t ∧ (t.2.2.1 ≤ Ω → R.fin t.1)

variable {R Ω}

theorem productIn_lift (hR : R.Range Ω) {a y : K} (ha : R.stored a) (fa : R.fin a) (hy : R.stored y) (fy : R.fin y) :
    R.ProductIn Ω (R.lift a * R.lift y) :=
  ⟨mul_nonneg (abs_nonneg _) (abs_nonneg _), product_lift ha, fun h =>
    hR.fin_mul ha hy fa fy ((abs_mul _ _).trans_le h)⟩

theorem sumIn_liftRhs {a : K} (ha : R.stored a) (fa : R.fin a) : R.SumIn Ω (R.liftRhs a) :=
  ⟨ha, abs_nonneg _, sum_liftRhs a, fun _ => fa⟩

theorem sumIn_zero (hR : R.Range Ω) : R.SumIn Ω 0 := ⟨hR.stored_zero, le_rfl, sum_zero, fun _ => R.fin_zero⟩

theorem sumIn_add (hR : R.Range Ω) (s t : K × F × F × ℕ) (hs : R.SumIn Ω s) (ht : R.ProductIn Ω t) :
    R.SumIn Ω (s + t) := by
  obtain ⟨s1, s2, s3, s4⟩ := hs
  obtain ⟨t2, t3, t4⟩ := ht
  refine ⟨hR.stored_add _ _, add_nonneg s2 t2, sum_add s t s3 t3, fun h => ?_⟩
  obtain ⟨t1, t3⟩ := t3
  change R.growth (s.2.2.2 + t.2.2.2 + 1) * (s.2.2.1 + t.2.2.1 + ((s.2.2.2 + t.2.2.2 : ℕ) : F) * R.η) ≤ Ω at h
  rw [t1] at h
  push_cast at h
  have hη := R.η_nonneg
  have hμ : R.μ ≤ R.η := by have := R.μ_add_σ; have := R.σ_nonneg; linarith
  have hn : (0 : F) ≤ s.2.2.2 * R.η := mul_nonneg (Nat.cast_nonneg _) hη
  have g1 := R.growth_mono (show s.2.2.2 + 1 ≤ s.2.2.2 + 1 + 1 by omega)
  have gp := Rounding.growth_pos (R := R.toRounding) (s.2.2.2 + 1)
  have g2 := Rounding.one_le_growth (R := R.toRounding) (s.2.2.2 + 1 + 1)
  have fs : R.fin s.1 := s4 (le_trans (mul_le_mul g1 (by linarith) (by linarith) (gp.le.trans g1)) h)
  have ft : R.fin t.1 := t4 (le_trans (by
    refine le_trans ?_ (le_mul_of_one_le_left ?_ g2) <;> linarith) h)
  refine hR.fin_add s1 fs ft (le_trans ?_ h)
  have b1 := (s3 fs).bound
  have b2 := ((t3 ft).le (m := s.2.2.2 + 1) (by omega)).bound
  refine (abs_add_le _ _).trans ((add_le_add b1 b2).trans ?_)
  rw [← mul_add]
  refine mul_le_mul g1 ?_ ?_ (gp.le.trans g1)
  · linarith
  · have := (t3 ft).nonneg
    linarith

end RoundingAdd

end Ctldl
