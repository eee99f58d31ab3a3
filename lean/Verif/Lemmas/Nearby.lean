import Verif.Spec.Nearby
import Verif.Lemmas.ForwardError
import Mathlib.LinearAlgebra.FiniteDimensional.Basic

/-! # Nearby systems -/

namespace Ctldl

open Finset

variable {ι F : Type} [Field F] [LinearOrder F] [IsStrictOrderedRing F]

/-- A vector with a small residual solves a nearby system. -/
theorem SolvesNearby.of_residual {s : Finset ι} {A Δ : ι → ι → F} {b x δ : ι → F} (hΔ : ∀ i ∈ s, ∀ j ∈ s, 0 ≤ Δ i j)
    (hδ : ∀ i ∈ s, 0 ≤ δ i) (h : ∀ i ∈ s, |b i - ∑ j ∈ s, A i j * x j| ≤ ∑ j ∈ s, Δ i j * |x j| + δ i) :
    SolvesNearby s A b x Δ δ := by
  let r := fun i => b i - ∑ j ∈ s, A i j * x j
  let S := fun i => ∑ j ∈ s, Δ i j * |x j| + δ i
  let t := fun i => r i / S i
  have hS : ∀ i ∈ s, 0 ≤ S i := fun i hi =>
    add_nonneg (sum_nonneg fun j hj => mul_nonneg (hΔ i hi j hj) (abs_nonneg _)) (hδ i hi)
  have ht : ∀ i ∈ s, |t i| ≤ 1 := fun i hi => by
    simp only [t]
    rw [abs_div, abs_of_nonneg (hS i hi)]
    exact div_le_one_of_le₀ (h i hi) (hS i hi)
  have hr : ∀ i ∈ s, t i * S i = r i := fun i hi => by
    by_cases h0 : S i = 0
    · have h1 : |r i| ≤ 0 := h0 ▸ h i hi
      rw [abs_nonpos_iff.mp h1, h0, mul_zero]
    · exact div_mul_cancel₀ _ h0
  let g : ι → F := fun j => if 0 ≤ x j then 1 else -1
  have hsgn : ∀ j, g j * x j = |x j| := fun j => by
    simp only [g]
    split
    · next h => rw [one_mul, abs_of_nonneg h]
    · next h => rw [neg_one_mul, abs_of_neg (not_le.mp h)]
  have hsgn' : ∀ j, |g j| ≤ 1 := fun j => by
    simp only [g]
    split <;> simp
  refine ⟨fun i j => A i j + t i * (Δ i j * g j), fun i => b i - t i * δ i, fun i hi j hj => ?_,
    fun i hi => ?_, fun i hi => ?_⟩
  · rw [add_sub_cancel_left, abs_mul, abs_mul, abs_of_nonneg (hΔ i hi j hj)]
    exact (mul_le_of_le_one_left (mul_nonneg (hΔ i hi j hj) (abs_nonneg _)) (ht i hi)).trans
      (mul_le_of_le_one_right (hΔ i hi j hj) (hsgn' j))
  · rw [sub_sub_cancel_left, abs_neg, abs_mul, abs_of_nonneg (hδ i hi)]
    exact mul_le_of_le_one_left (hδ i hi) (ht i hi)
  · have h1 : ∀ j ∈ s, (A i j + t i * (Δ i j * g j)) * x j = A i j * x j + t i * (Δ i j * |x j|) :=
      fun j _ => by rw [← hsgn j]; ring
    rw [sum_congr rfl h1, sum_add_distrib, ← mul_sum]
    have h2 := hr i hi
    simp only [r, S] at h2
    linear_combination h2

/-- A system with a positive definite matrix has exactly one solution. -/
theorem PosDef.solvable {s : Finset ι} {μ : F} {A : ι → ι → F} (h : PosDef s μ A) (hμ : 0 ≤ μ) (b : ι → F) :
    ∃ z, Solves s A b z ∧ ∀ y, Solves s A b y → ∀ i ∈ s, y i = z i := by
  classical
  have hzero : ∀ d : ι → F, (∀ i ∈ s, ∑ j ∈ s, A i j * d j = 0) → ∀ i ∈ s, d i = 0 := by
    intro d hd
    by_contra hne
    push Not at hne
    have h1 := h d hne
    have h2 : ∑ i ∈ s, ∑ j ∈ s, d i * A i j * d j = 0 := sum_eq_zero fun i hi => by
      rw [← mul_zero (d i), ← hd i hi, mul_sum]
      exact sum_congr rfl fun j _ => by ring
    have h3 : 0 ≤ μ * ∑ i ∈ s, d i ^ 2 := mul_nonneg hμ (sum_nonneg fun i _ => sq_nonneg _)
    linarith
  let L : (s → F) →ₗ[F] (s → F) :=
    { toFun := fun x i => ∑ j : s, A i j * x j
      map_add' := fun x y => by
        funext i
        simp [mul_add, sum_add_distrib]
      map_smul' := fun c x => by
        funext i
        simp only [Pi.smul_apply, smul_eq_mul, RingHom.id_apply, mul_sum]
        exact sum_congr rfl fun j _ => by ring }
  have ext : ∀ x : s → F, ∀ i (hi : i ∈ s), (fun j => if hj : j ∈ s then x ⟨j, hj⟩ else 0 : ι → F) i = x ⟨i, hi⟩ :=
    fun x i hi => by simp [hi]
  have hsum : ∀ (g : ι → F), ∑ j : s, g j = ∑ j ∈ s, g j := fun g => sum_coe_sort s g
  have hL : ∀ (x : s → F) (i : s), L x i = ∑ j ∈ s, A i j * (fun j => if hj : j ∈ s then x ⟨j, hj⟩ else 0 : ι → F) j := by
    intro x i
    rw [← hsum fun j => A i j * (fun j => if hj : j ∈ s then x ⟨j, hj⟩ else 0 : ι → F) j]
    exact sum_congr rfl fun j _ => by simp
  have hinj : Function.Injective L := by
    rw [← LinearMap.ker_eq_bot, LinearMap.ker_eq_bot']
    intro x hx
    funext i
    have h1 := hzero _ (fun i hi => by rw [← hL x ⟨i, hi⟩, hx]; rfl) i i.2
    exact (ext x i i.2).symm.trans h1
  obtain ⟨x, hx⟩ := LinearMap.injective_iff_surjective.mp hinj fun i => b i
  refine ⟨fun j => if hj : j ∈ s then x ⟨j, hj⟩ else 0, fun i hi => ?_, fun y hy i hi => ?_⟩
  · rw [← hL x ⟨i, hi⟩, hx]
  · have h1 := hzero (fun j => y j - if hj : j ∈ s then x ⟨j, hj⟩ else 0) (fun i hi => by
      simp only [mul_sub, sum_sub_distrib]
      rw [hy i hi, ← hL x ⟨i, hi⟩, hx, sub_self]) i hi
    exact sub_eq_zero.mp h1

end Ctldl
