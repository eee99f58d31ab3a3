import Verif.Lemmas.DefiniteFactor
import Verif.Spec.Inertia
import Mathlib.Analysis.Matrix.Spectrum
import Mathlib.LinearAlgebra.Matrix.Block
import Mathlib.LinearAlgebra.Matrix.ToLin
import Mathlib.LinearAlgebra.Matrix.ToLinearEquiv
import Mathlib.LinearAlgebra.Matrix.NonsingularInverse
import Mathlib.LinearAlgebra.Dimension.Constructions
import Mathlib.LinearAlgebra.FiniteDimensional.Lemmas
import Mathlib.LinearAlgebra.Dimension.Finrank
import Mathlib.Tactic.Positivity

/-! # Determinant and inertia of `L D Lᵀ` -/

namespace Ctldl

variable {ι K : Type}

open Finset

section

variable [Field K] [LinearOrder K] [IsStrictOrderedRing K] {κ : Type} [Fintype κ]

/-- Sylvester's law: a quadratic form which is a combination of squares of coordinates is negative on a space of at
most as many dimensions as there are negative coefficients, and this is attained. -/
theorem negative_isGreatest (P : (κ → K) ≃ₗ[K] (κ → K)) (c : κ → K) (q : (κ → K) → K)
    (hq : ∀ x, q x = ∑ i, c i * P x i ^ 2) :
    IsGreatest {n | ∃ V : Submodule K (κ → K), (∀ x ∈ V, x ≠ 0 → q x < 0) ∧ Module.finrank K V = n}
      (univ.filter fun i => c i < 0).card := by
  classical
  have hcard : Fintype.card {i // c i < 0} = (univ.filter fun i => c i < 0).card := Fintype.card_subtype _
  constructor
  · let E : ({i // c i < 0} → K) →ₗ[K] (κ → K) :=
      { toFun := fun y i => if h : c i < 0 then y ⟨i, h⟩ else 0
        map_add' := by
          intro x y; ext i; simp only [Pi.add_apply]; split <;> simp
        map_smul' := by
          intro r x; ext i; simp only [Pi.smul_apply, RingHom.id_apply]; split <;> simp }
    have hE : Function.Injective E := by
      intro x y h
      ext ⟨i, hi⟩
      have := congrFun h i
      simpa [E, hi] using this
    refine ⟨LinearMap.range (P.symm.toLinearMap ∘ₗ E), ?_, ?_⟩
    · rintro x ⟨y, rfl⟩ hne
      rw [hq]
      have hy : ∃ i, y i ≠ 0 := by
        by_contra hcon
        push Not at hcon
        apply hne
        rw [show y = 0 from funext hcon, map_zero]
      obtain ⟨i, hi⟩ := hy
      refine sum_neg' (fun j _ => ?_) ⟨i.1, mem_univ _, ?_⟩
      · simp only [LinearMap.comp_apply, LinearEquiv.coe_coe, LinearEquiv.apply_symm_apply, E, LinearMap.coe_mk,
          AddHom.coe_mk]
        split
        · rename_i h
          exact mul_nonpos_of_nonpos_of_nonneg h.le (sq_nonneg _)
        · simp
      · simp only [LinearMap.comp_apply, LinearEquiv.coe_coe, LinearEquiv.apply_symm_apply, E, LinearMap.coe_mk,
          AddHom.coe_mk, dif_pos i.2]
        exact mul_neg_of_neg_of_pos i.2 (by positivity)
    · rw [LinearMap.finrank_range_of_inj (by rw [LinearMap.coe_comp]; exact P.symm.injective.comp hE), Module.finrank_fintype_fun_eq_card, hcard]
  · rintro n ⟨V, hV, rfl⟩
    let R : V →ₗ[K] ({i // c i < 0} → K) :=
      { toFun := fun x i => P x.1 i.1
        map_add' := by intro x y; ext i; simp
        map_smul' := by intro r x; ext i; simp }
    have hR : Function.Injective R := by
      rw [← LinearMap.ker_eq_bot, LinearMap.ker_eq_bot']
      intro x hx
      by_contra hne
      have h1 := hV x.1 x.2 (fun h => hne (Subtype.ext h))
      rw [hq] at h1
      refine absurd h1 (not_lt.mpr (sum_nonneg fun i _ => ?_))
      by_cases hi : c i < 0
      · have : P x.1 i = 0 := congrFun hx ⟨i, hi⟩
        rw [this]; simp
      · exact mul_nonneg (not_lt.mp hi) (sq_nonneg _)
    have := LinearMap.finrank_le_finrank_of_injective hR
    rwa [Module.finrank_fintype_fun_eq_card, hcard] at this

theorem positive_isGreatest (P : (κ → K) ≃ₗ[K] (κ → K)) (c : κ → K) (q : (κ → K) → K)
    (hq : ∀ x, q x = ∑ i, c i * P x i ^ 2) :
    IsGreatest {n | ∃ V : Submodule K (κ → K), (∀ x ∈ V, x ≠ 0 → 0 < q x) ∧ Module.finrank K V = n}
      (univ.filter fun i => 0 < c i).card := by
  have := negative_isGreatest P (fun i => -c i) (fun x => -q x) (fun x => by rw [hq, ← sum_neg_distrib]; simp)
  simpa using this

end

/-- A unit lower triangular matrix has determinant one. -/
theorem UnitLower.det [Field K] [DecidableEq ι] {s : Finset ι} {rk : ι → Nat} {u : ι → ι → K} (h : UnitLower s rk u) :
    Matrix.det (Matrix.of fun i j : s => u i j) = 1 := by
  have hinj : Function.Injective fun x : s => rk x := fun x y hxy => Subtype.ext (h.inj _ x.2 _ y.2 hxy)
  let o : LinearOrder s := LinearOrder.lift' (fun x : s => rk x) hinj
  have h1 : (Matrix.of fun i j : s => u i j).BlockTriangular OrderDual.toDual := by
    intro i j hij
    exact h.zero _ i.2 _ j.2 hij
  have h2 := Matrix.det_of_isLowerTriangular _ h1
  have h3 : ∏ i : s, (Matrix.of fun i j : s => u i j) i i = 1 :=
    prod_eq_one fun i _ => h.one _ i.2
  rw [h3] at h2
  convert h2

section

variable {s : Finset ι} {rk : ι → Nat} {u A : ι → ι → K} {c : ι → K} {e : ι → ι}

/-- A permutation of the indices. -/
noncomputable def indexEquiv (h1 : ∀ i ∈ s, e i ∈ s) (h2 : ∀ i ∈ s, ∀ j ∈ s, e i = e j → i = j)
    (h3 : ∀ i ∈ s, ∃ j ∈ s, e j = i) : s ≃ s :=
  Equiv.ofBijective (fun x => ⟨e x, h1 x x.2⟩)
    ⟨fun x y h => Subtype.ext (h2 _ x.2 _ y.2 (congrArg Subtype.val h)), fun y => by
      obtain ⟨j, hj, h⟩ := h3 y y.2
      exact ⟨⟨j, hj⟩, Subtype.ext h⟩⟩

/-- The determinant of `L D Lᵀ` is the product of the pivots. -/
theorem detOn_of_ldlt [Field K] [DecidableEq ι] (hu : UnitLower s rk u)
    (hA : ∀ i ∈ s, ∀ j ∈ s, ∑ r ∈ s, u i r * c r * u j r = A (e i) (e j))
    (h1 : ∀ i ∈ s, e i ∈ s) (h2 : ∀ i ∈ s, ∀ j ∈ s, e i = e j → i = j) (h3 : ∀ i ∈ s, ∃ j ∈ s, e j = i) :
    detOn s A = ∏ i ∈ s, c i := by
  let E := indexEquiv h1 h2 h3
  have : (Matrix.of fun i j : s => A i j).submatrix E E =
      (Matrix.of fun i j : s => u i j) * Matrix.diagonal (fun i : s => c i) * (Matrix.of fun i j : s => u i j).transpose := by
    ext i j
    rw [Matrix.mul_apply]
    simp only [Matrix.mul_diagonal, Matrix.transpose_apply, Matrix.of_apply, Matrix.submatrix_apply]
    rw [show ((E i : s) : ι) = e i from rfl, show ((E j : s) : ι) = e j from rfl, ← hA _ i.2 _ j.2]
    exact (sum_coe_sort s fun r => u i r * c r * u j r).symm
  unfold detOn
  rw [← Matrix.det_submatrix_equiv_self E, this, Matrix.det_mul, Matrix.det_mul, Matrix.det_transpose, hu.det,
    Matrix.det_diagonal, one_mul, mul_one]
  exact prod_coe_sort s c

/-- The coordinates `Lᵀ x` with permuted elements of `x`. -/
theorem quadratic_squares [Field K] (hu : UnitLower s rk u)
    (hA : ∀ i ∈ s, ∀ j ∈ s, ∑ r ∈ s, u i r * c r * u j r = A (e i) (e j))
    (h1 : ∀ i ∈ s, e i ∈ s) (h2 : ∀ i ∈ s, ∀ j ∈ s, e i = e j → i = j) (h3 : ∀ i ∈ s, ∃ j ∈ s, e j = i) :
    ∃ P : (s → K) ≃ₗ[K] (s → K), ∀ x, quadratic s A x = ∑ i : s, c i * P x i ^ 2 := by
  classical
  let E := indexEquiv h1 h2 h3
  let U : Matrix s s K := Matrix.of fun i j : s => u i j
  have hdet : IsUnit U.transpose.det := by
    rw [Matrix.det_transpose]
    exact (hu.det (K := K)).symm ▸ isUnit_one
  let Q : (s → K) ≃ₗ[K] (s → K) := Matrix.toLinearEquiv' U.transpose ((Matrix.isUnit_iff_isUnit_det _).mpr hdet).invertible
  refine ⟨(LinearEquiv.funCongrLeft K K E).trans Q, fun x => ?_⟩
  have hP : ∀ i, ((LinearEquiv.funCongrLeft K K E).trans Q) x i = ∑ j : s, u j i * x (E j) := fun i => by
    rw [LinearEquiv.trans_apply]
    show (Matrix.toLin' U.transpose) ((LinearEquiv.funCongrLeft K K E) x) i = _
    rw [Matrix.toLin'_apply, Matrix.mulVec, dotProduct]
    rfl
  simp only [hP]
  unfold quadratic
  rw [← Equiv.sum_comp E]
  have : ∀ i : s, ∑ j : s, x (E i) * A (E i) j * x j =
      ∑ j : s, ∑ r : s, c r * ((u i r * x (E i)) * (u j r * x (E j))) := fun i => by
    rw [← Equiv.sum_comp E]
    refine sum_congr rfl fun j _ => ?_
    rw [show ((E i : s) : ι) = e i from rfl, show ((E j : s) : ι) = e j from rfl, ← hA _ i.2 _ j.2, mul_sum, sum_mul,
      ← sum_coe_sort s]
    exact sum_congr rfl fun r _ => by ring
  simp only [this]
  have hr : ∀ r : s, c r * (∑ j : s, u j r * x (E j)) ^ 2 =
      ∑ i : s, ∑ j : s, c r * ((u i r * x (E i)) * (u j r * x (E j))) := fun r => by
    rw [sq, Finset.sum_mul_sum, mul_sum]
    exact sum_congr rfl fun i _ => mul_sum _ _ _
  simp only [hr]
  rw [sum_comm]
  conv_lhs => enter [2, j]; rw [sum_comm]
  rw [sum_comm]
  refine sum_congr rfl fun r _ => ?_
  rw [sum_comm]

theorem card_filter_coe (s : Finset ι) (p : ι → Prop) [DecidablePred p] :
    (univ.filter fun i : s => p i).card = (s.filter p).card := by
  rw [card_filter, card_filter]
  exact sum_coe_sort s fun i => if p i then 1 else 0

/-- The inertia of `L D Lᵀ` is read from the signs of the pivots. -/
theorem index_of_ldlt [Field K] [LinearOrder K] [IsStrictOrderedRing K] (hu : UnitLower s rk u)
    (hA : ∀ i ∈ s, ∀ j ∈ s, ∑ r ∈ s, u i r * c r * u j r = A (e i) (e j))
    (h1 : ∀ i ∈ s, e i ∈ s) (h2 : ∀ i ∈ s, ∀ j ∈ s, e i = e j → i = j) (h3 : ∀ i ∈ s, ∃ j ∈ s, e j = i) :
    NegativeIndex s A (s.filter fun i => c i < 0).card ∧ PositiveIndex s A (s.filter fun i => 0 < c i).card := by
  obtain ⟨P, hP⟩ := quadratic_squares hu hA h1 h2 h3
  have hn := negative_isGreatest P (fun i => c i) _ hP
  have hp := positive_isGreatest P (fun i => c i) _ hP
  rw [card_filter_coe s fun i => c i < 0] at hn
  rw [card_filter_coe s fun i => 0 < c i] at hp
  exact ⟨hn, hp⟩

end

/-- The quadratic form of a real symmetric matrix in the coordinates of its eigenvectors. -/
theorem eigen_squares {κ : Type} [Fintype κ] [DecidableEq κ] (A : Matrix κ κ ℝ) (hA : A.IsHermitian) :
    ∃ P : (κ → ℝ) ≃ₗ[ℝ] (κ → ℝ), ∀ x, ∑ i, ∑ j, x i * A i j * x j = ∑ i, hA.eigenvalues i * P x i ^ 2 := by
  let U : Matrix κ κ ℝ := hA.eigenvectorUnitary
  have hU : U.transpose * U = 1 := by
    have := Unitary.coe_star_mul_self hA.eigenvectorUnitary
    rwa [Matrix.star_eq_conjTranspose, Matrix.conjTranspose_eq_transpose_of_trivial] at this
  have hdet : IsUnit U.transpose.det := by
    have := congrArg Matrix.det hU
    rw [Matrix.det_mul, Matrix.det_one] at this
    exact IsUnit.of_mul_eq_one _ this
  refine ⟨Matrix.toLinearEquiv' U.transpose ((Matrix.isUnit_iff_isUnit_det _).mpr hdet).invertible, fun x => ?_⟩
  have hP : ∀ i, Matrix.toLinearEquiv' U.transpose ((Matrix.isUnit_iff_isUnit_det _).mpr hdet).invertible x i =
      ∑ j, U j i * x j := fun i => by
    show Matrix.toLin' U.transpose x i = _
    rw [Matrix.toLin'_apply, Matrix.mulVec, dotProduct]
    rfl
  have hs : ∀ i j, A i j = ∑ r, U i r * hA.eigenvalues r * U j r := fun i j => by
    have := congrFun (congrFun hA.spectral_theorem i) j
    rw [this]
    simp [Unitary.conjStarAlgAut_apply, Matrix.mul_apply, Matrix.diagonal_apply, Matrix.star_eq_conjTranspose, U]
  simp only [hP]
  have hr : ∀ r, hA.eigenvalues r * (∑ j, U j r * x j) ^ 2 =
      ∑ i, ∑ j, hA.eigenvalues r * ((U i r * x i) * (U j r * x j)) := fun r => by
    rw [sq, Finset.sum_mul_sum, mul_sum]
    exact sum_congr rfl fun i _ => mul_sum _ _ _
  simp only [hr]
  rw [sum_comm (s := univ)]
  conv_rhs => rw [sum_comm]
  refine sum_congr rfl fun j _ => ?_
  conv_rhs => rw [sum_comm]
  refine sum_congr rfl fun i _ => ?_
  rw [hs, mul_sum, sum_mul]
  exact sum_congr rfl fun r _ => by ring

/-- The inertia of a real symmetric matrix is read from the signs of its eigenvalues. -/
theorem index_of_eigenvalues [DecidableEq ι] {s : Finset ι} {A : ι → ι → ℝ}
    (hA : (Matrix.of fun i j : s => A i j).IsHermitian) :
    NegativeIndex s A (univ.filter fun i => hA.eigenvalues i < 0).card ∧
      PositiveIndex s A (univ.filter fun i => 0 < hA.eigenvalues i).card := by
  obtain ⟨P, hP⟩ := eigen_squares _ hA
  exact ⟨negative_isGreatest P _ _ hP, positive_isGreatest P _ _ hP⟩

end Ctldl
