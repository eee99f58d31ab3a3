import Verif.Lemmas.Forward
import Verif.Spec.ForwardError
import Verif.Props.DefiniteRounding
import Mathlib.Algebra.Order.Chebyshev
import Mathlib.Algebra.BigOperators.Ring.Finset
import Mathlib.Algebra.Order.BigOperators.Group.Finset
import Mathlib.Data.Fintype.BigOperators
import Mathlib.Tactic.Ring
import Mathlib.Tactic.Positivity
import Mathlib.Tactic.Linarith

/-! # Errors of solutions of definite systems -/

namespace Ctldl

open Finset

variable {ι F : Type} [Field F] [LinearOrder F] [IsStrictOrderedRing F]

/-- The elements of positive definite matrices are bounded by those on the diagonal. -/
theorem PosDef.abs_le {s : Finset ι} {μ : F} {A : ι → ι → F} (h : PosDef s μ A) (hμ : 0 ≤ μ)
    (hsym : ∀ i ∈ s, ∀ j ∈ s, A i j = A j i) {k l : ι} (hk : k ∈ s) (hl : l ∈ s) : |A k l| ≤ (A k k + A l l) / 2 := by
  have key : ∀ k ∈ s, 0 < A k k := by
    intro k hk
    have := (h.submatrix (s := {()}) (e := fun _ : Unit => k) (fun _ _ => hk) (fun _ _ _ _ _ => rfl)) (fun _ => 1)
      ⟨(), mem_singleton_self _, one_ne_zero⟩
    simp only [sum_singleton] at this
    linarith
  by_cases hkl : k = l
  · subst hkl
    rw [abs_of_pos (key k hk)]
    linarith
  · have h2 := h.submatrix (s := univ) (e := fun b : Bool => if b then k else l)
      (fun b _ => by cases b <;> simpa) (fun a _ b _ hab => by
        cases a <;> cases b <;> simp at hab ⊢
        exacts [hkl hab.symm, hkl hab])
    have h3 := h2 (fun b => 1) ⟨true, mem_univ _, one_ne_zero⟩
    have h4 := h2 (fun b => if b then 1 else -1) ⟨true, mem_univ _, by simp⟩
    simp [Fintype.univ_bool] at h3 h4
    rw [hsym l hl k hk] at h3 h4
    rw [abs_le']
    constructor <;> linarith

/-- Two approximate solutions of a positive definite system differ by the residuals divided by the smallest eigenvalue,
where the residual of one of them may contain a small multiple of its norm. -/
theorem forward_error {s : Finset ι} {μ θ ρ τ : F} {A : ι → ι → F} {x y b : ι → F} (h : PosDef s μ A) (hμ : 0 < μ)
    (hx : ∀ k ∈ s, |b k - ∑ l ∈ s, A k l * x l| ≤ ρ)
    (hy : ∀ k ∈ s, |b k - ∑ l ∈ s, A k l * y l| ≤ θ * ∑ l ∈ s, |y l| + τ) (hθ0 : 0 ≤ θ) (hθ : 2 * (s.card * θ) ≤ μ) :
    μ * ∑ l ∈ s, |y l - x l| ≤ 2 * (s.card * (ρ + τ + θ * ∑ l ∈ s, |x l|)) := by
  set D := ∑ l ∈ s, |y l - x l| with hD
  set X := ∑ l ∈ s, |x l| with hX
  have D0 : 0 ≤ D := sum_nonneg fun _ _ => abs_nonneg _
  have hY : ∑ l ∈ s, |y l| ≤ X + D := by
    rw [hX, hD, ← sum_add_distrib]
    refine sum_le_sum fun l _ => ?_
    have := abs_add_le (x l) (y l - x l)
    rwa [add_sub_cancel] at this
  have hr : ∀ k ∈ s, |∑ l ∈ s, A k l * (y l - x l)| ≤ ρ + τ + θ * X + θ * D := by
    intro k hk
    have e : ∑ l ∈ s, A k l * (y l - x l) = (b k - ∑ l ∈ s, A k l * x l) - (b k - ∑ l ∈ s, A k l * y l) := by
      simp only [mul_sub, sum_sub_distrib]
      ring
    rw [e]
    have h1 := mul_le_mul_of_nonneg_left hY hθ0
    refine (abs_sub _ _).trans ((add_le_add (hx k hk) (hy k hk)).trans ?_)
    linarith
  rcases D0.eq_or_lt with h0 | h0
  · rw [← h0, mul_zero]
    by_cases hs : s.Nonempty
    · obtain ⟨k, hk⟩ := hs
      have := (abs_nonneg _).trans (hr k hk)
      rw [← h0, mul_zero, add_zero] at this
      positivity
    · rw [not_nonempty_iff_eq_empty.mp hs, card_empty, Nat.cast_zero, zero_mul, mul_zero]
  · have hne : ∃ i ∈ s, y i - x i ≠ 0 := by
      by_contra hno
      have : D = 0 := sum_eq_zero fun i hi => by
        have : y i - x i = 0 := by_contra fun h => hno ⟨i, hi, h⟩
        rw [this, abs_zero]
      exact h0.ne' this
    have h1 := h (fun i => y i - x i) hne
    have h2 : ∑ i ∈ s, ∑ j ∈ s, (y i - x i) * A i j * (y j - x j) ≤ D * (ρ + τ + θ * X + θ * D) := by
      rw [hD, sum_mul]
      refine sum_le_sum fun i hi => ?_
      have e : ∑ j ∈ s, (y i - x i) * A i j * (y j - x j) = (y i - x i) * ∑ j ∈ s, A i j * (y j - x j) := by
        rw [mul_sum]
        exact sum_congr rfl fun j _ => by ring
      rw [e]
      refine (le_abs_self _).trans ?_
      rw [abs_mul]
      exact mul_le_mul_of_nonneg_left (hr i hi) (abs_nonneg _)
    have h3 : D ^ 2 ≤ s.card * ∑ i ∈ s, (y i - x i) ^ 2 := by
      have := sq_sum_le_card_mul_sum_sq (s := s) (f := fun i => |y i - x i|)
      simpa only [sq_abs] using this
    have h4 : μ * D ^ 2 ≤ D * (s.card * (ρ + τ + θ * X + θ * D)) := by
      have h5 := mul_le_mul_of_nonneg_left h3 hμ.le
      have h6 := mul_le_mul_of_nonneg_left (h1.le.trans h2) (Nat.cast_nonneg (α := F) s.card)
      calc μ * D ^ 2 ≤ μ * (s.card * ∑ i ∈ s, (y i - x i) ^ 2) := h5
        _ = s.card * (μ * ∑ i ∈ s, (y i - x i) ^ 2) := by ring
        _ ≤ s.card * (D * (ρ + τ + θ * X + θ * D)) := h6
        _ = D * (s.card * (ρ + τ + θ * X + θ * D)) := by ring
    have h5 : μ * D ≤ s.card * (ρ + τ + θ * X + θ * D) := by
      refine le_of_mul_le_mul_left ?_ h0
      calc D * (μ * D) = μ * D ^ 2 := by ring
        _ ≤ _ := h4
    have h6 := mul_le_mul_of_nonneg_right hθ h0.le
    linarith

section

variable {K : Type} [Zero K] [Sub K] [Mul K] [Div K] {R : Rounding K F}

theorem Rounding.Ample.eps_nonneg {n c : Nat} {Ω α μ Λ ε : F} (h : R.Ample n c Ω α μ Λ ε) : 0 ≤ ε := by
  refine le_trans (mul_nonneg R.η_nonneg ?_) h.small
  have := h.alpha
  have := h.nonneg
  positivity

theorem Rounding.gamma_le_third {n c : Nat} (hc : 0 < c) (h : (2 * c + 1) * R.gamma (n + 2) ≤ 1) :
    3 * R.gamma (n + 2) ≤ 1 := by
  have h1 : (1 : F) ≤ c := by exact_mod_cast hc
  have h2 := R.gamma_nonneg (n + 2)
  have := mul_le_mul_of_nonneg_right (show (3 : F) ≤ 2 * c + 1 by linarith) h2
  linarith

/-- Matrices which are positive definite by a margin are positive definite. -/
theorem PosDef.of_margin [DecidableEq ι] {s : Finset ι} {n c m : Nat} {μ ε : F} {A : ι → ι → F} (hμ : 0 ≤ μ) (hε : 0 ≤ ε)
    (hc : ∀ i ∈ s, 0 < c) (hγ : (2 * c + 1) * R.gamma (n + 2) ≤ 1)
    (h : PosDef s μ fun k l => A k l - if k = l then R.margin n c m ε (A k k) else 0) : PosDef s μ A := by
  refine h.mono (fun i _ j _ hij => by simp only [if_neg hij, sub_zero]) fun i hi => ?_
  have h1 := (h.submatrix (s := {()}) (e := fun _ : Unit => i) (fun _ _ => hi) (fun _ _ _ _ _ => rfl)) (fun _ => 1)
    ⟨(), mem_singleton_self _, one_ne_zero⟩
  simp only [sum_singleton, if_true] at h1 ⊢
  have h2 := R.gamma_nonneg (n + 2)
  have h3 := Rounding.gamma_le_third (hc i hi) hγ
  have h4 := R.growth_pos (n + 2)
  unfold Rounding.margin at h1 ⊢
  set q := c * R.gamma (n + 2) / (1 - R.gamma (n + 2)) with hq
  have q0 : 0 ≤ q := div_nonneg (mul_nonneg (Nat.cast_nonneg _) h2) (by linarith)
  have q1 : q ≤ 1 / 2 := by
    rw [hq, div_le_iff₀ (by linarith)]
    linarith
  have e0 : 0 ≤ R.growth (n + 2) * ((n + 1) * ε) := by positivity
  have m0 : 0 ≤ (m : F) * (R.growth (n + 2) * ((n + 1) * ε)) := by positivity
  have h5 : 0 < (1 - q) * A i i := by
    have := mul_nonneg q0 e0
    nlinarith
  have h6 : 0 < A i i := (pos_iff_pos_of_mul_pos h5).mp (by linarith)
  have := mul_nonneg q0 (add_nonneg h6.le e0)
  linarith

end

section

variable {K : Type} [Zero K] [Sub K] [Mul K] [Div K] {R : Rounding K F}

/-- The elements of the product of a positive definite matrix and a vector. -/
theorem PosDef.product_le {s : Finset ι} {μ α : F} {A : ι → ι → F} (h : PosDef s μ A) (hμ : 0 ≤ μ)
    (hsym : ∀ i ∈ s, ∀ j ∈ s, A i j = A j i) (hα : ∀ k ∈ s, A k k ≤ α) (x : ι → F) {k : ι} (hk : k ∈ s) :
    ∑ l ∈ s, |A k l| * |x l| ≤ α * ∑ l ∈ s, |x l| := by
  rw [mul_sum]
  refine sum_le_sum fun l hl => mul_le_mul_of_nonneg_right ?_ (abs_nonneg _)
  have := h.abs_le hμ hsym hk hl
  have := hα k hk
  have := hα l hl
  linarith

/-- Rounding errors of a multiplication, a factorization and a solve together. -/
theorem round_trip_error {s : Finset ι} {r c k : Nat} {μ α ε : F} {A : ι → ι → F} {x y b : ι → F} (h : PosDef s μ A)
    (hμ : 0 < μ) (hsym : ∀ i ∈ s, ∀ j ∈ s, A i j = A j i) (hα0 : 0 ≤ α) (hα : ∀ k ∈ s, A k k ≤ α) (hε : 0 ≤ ε)
    (hγ : R.gamma (r + 2) < 1)
    (hx : ∀ i ∈ s, |b i - ∑ l ∈ s, A i l * x l| ≤
      R.gamma (k + 1) * ∑ l ∈ s, |A i l| * |x l| + R.growth (k + 1) * (k * R.η))
    (hy : let e := R.growth (r + 2) * ((r + 1) * ε)
      let B := fun i j => ((A i i + A j j) / 2 + e) / (1 - R.gamma (r + 2))
      ∀ i ∈ s, |b i - ∑ l ∈ s, A i l * y l| ≤ (R.gamma (r + c + 2) + R.gamma (r + 2)) * ∑ l ∈ s, B i l * |y l| +
        (R.growth (r + c + 2) * R.η * (r + c * ∑ l ∈ s, B i l) + e * ∑ l ∈ s, |y l|))
    (hθ : 2 * (s.card * R.relError r c k α ε) ≤ μ) :
    μ * ∑ l ∈ s, |y l - x l| ≤
      2 * (s.card * (R.relError r c k α ε * ∑ l ∈ s, |x l| + R.absError r c k s.card α ε)) := by
  dsimp only at hy
  set e := R.growth (r + 2) * ((r + 1) * ε) with he
  have e0 : 0 ≤ e := by
    have := R.growth_pos (r + 2)
    positivity
  have B0 : 0 ≤ R.absBound r α ε := div_nonneg (add_nonneg hα0 e0) (by linarith)
  have hB : ∀ i ∈ s, ∀ j ∈ s, ((A i i + A j j) / 2 + e) / (1 - R.gamma (r + 2)) ≤ R.absBound r α ε := by
    intro i hi j hj
    unfold Rounding.absBound
    have h1 := hα i hi
    have h2 := hα j hj
    refine div_le_div_of_nonneg_right ?_ (by linarith)
    linarith
  have g1 := R.gamma_nonneg (r + c + 2)
  have g2 := R.gamma_nonneg (r + 2)
  have g3 := R.gamma_nonneg (k + 1)
  set θ := (R.gamma (r + c + 2) + R.gamma (r + 2)) * R.absBound r α ε + e with hθd
  have θ0 : 0 ≤ θ := by positivity
  have hθ' : θ ≤ R.relError r c k α ε := by
    unfold Rounding.relError
    have := mul_nonneg g3 hα0
    linarith
  have hs0 : (0 : F) ≤ s.card := Nat.cast_nonneg _
  have key := forward_error (s := s) (μ := μ) (θ := θ) (ρ := R.gamma (k + 1) * (α * ∑ l ∈ s, |x l|) +
      R.growth (k + 1) * (k * R.η)) (τ := R.growth (r + c + 2) * R.η * (r + c * (s.card * R.absBound r α ε))) (A := A)
    (x := x) (y := y) (b := b) h hμ
    (fun i hi => (hx i hi).trans (add_le_add_left (mul_le_mul_of_nonneg_left (h.product_le hμ.le hsym hα x hi) g3) _))
    (fun i hi => by
      refine (hy i hi).trans ?_
      have h1 : ∑ l ∈ s, ((A i i + A l l) / 2 + e) / (1 - R.gamma (r + 2)) * |y l| ≤
          R.absBound r α ε * ∑ l ∈ s, |y l| := by
        rw [mul_sum]
        exact sum_le_sum fun l hl => mul_le_mul_of_nonneg_right (hB i hi l hl) (abs_nonneg _)
      have h2 : ∑ l ∈ s, ((A i i + A l l) / 2 + e) / (1 - R.gamma (r + 2)) ≤ s.card * R.absBound r α ε := by
        refine (sum_le_card_nsmul s _ _ fun l hl => hB i hi l hl).trans_eq ?_
        rw [nsmul_eq_mul]
      have h3 := mul_le_mul_of_nonneg_left h1 (add_nonneg g1 g2)
      have h4 : R.growth (r + c + 2) * R.η * (r + c * ∑ l ∈ s, ((A i i + A l l) / 2 + e) / (1 - R.gamma (r + 2))) ≤
          R.growth (r + c + 2) * R.η * (r + c * (s.card * R.absBound r α ε)) :=
        mul_le_mul_of_nonneg_left (by
          have := mul_le_mul_of_nonneg_left h2 (Nat.cast_nonneg (α := F) c)
          linarith) (mul_nonneg (R.growth_pos _).le R.η_nonneg)
      rw [hθd, add_mul]
      linarith) θ0 (by
      have := mul_le_mul_of_nonneg_left hθ' hs0
      linarith)
  refine key.trans (le_of_eq ?_)
  unfold Rounding.absError Rounding.relError
  rw [hθd]
  ring

/-- The computed product. -/
theorem productBound_le {s : Finset ι} {k : Nat} {μ α : F} {A : ι → ι → F} {x b : ι → F} (h : PosDef s μ A)
    (hμ : 0 ≤ μ) (hsym : ∀ i ∈ s, ∀ j ∈ s, A i j = A j i) (hα : ∀ k ∈ s, A k k ≤ α)
    (hx : ∀ i ∈ s, |b i - ∑ l ∈ s, A i l * x l| ≤
      R.gamma (k + 1) * ∑ l ∈ s, |A i l| * |x l| + R.growth (k + 1) * (k * R.η)) :
    ∑ i ∈ s, b i ^ 2 ≤ s.card * R.productBound k α (∑ l ∈ s, |x l|) ^ 2 := by
  refine (sum_le_card_nsmul s _ (R.productBound k α (∑ l ∈ s, |x l|) ^ 2) fun i hi => ?_).trans_eq (nsmul_eq_mul _ _)
  rw [← sq_abs (b i)]
  refine pow_le_pow_left₀ (abs_nonneg _) ?_ 2
  have h1 := h.product_le hμ hsym hα x hi
  have h2 : |∑ l ∈ s, A i l * x l| ≤ ∑ l ∈ s, |A i l| * |x l| :=
    (abs_sum_le_sum_abs _ _).trans_eq (sum_congr rfl fun l _ => abs_mul _ _)
  have h3 := abs_add_le (b i - ∑ l ∈ s, A i l * x l) (∑ l ∈ s, A i l * x l)
  rw [sub_add_cancel] at h3
  have h4 := mul_le_mul_of_nonneg_left h1 (R.gamma_nonneg (k + 1))
  have h5 := hx i hi
  unfold Rounding.productBound
  have h6 : R.growth (k + 1) = R.gamma (k + 1) + 1 := by unfold Rounding.gamma; ring
  rw [mul_add]
  have h7 : R.growth (k + 1) * (α * ∑ l ∈ s, |x l|) = R.gamma (k + 1) * (α * ∑ l ∈ s, |x l|) + α * ∑ l ∈ s, |x l| := by
    rw [h6]
    ring
  linarith

end

end Ctldl
