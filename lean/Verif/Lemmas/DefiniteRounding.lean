import Verif.Lemmas.Definite
import Verif.Spec.Definite
import Mathlib.Algebra.Order.Chebyshev
import Mathlib.Algebra.BigOperators.Field
import Mathlib.Tactic.FieldSimp

/-! # Pivots of approximate factors of definite matrices -/

namespace Ctldl

open Finset

variable {ι F : Type} [Field F] [LinearOrder F] [IsStrictOrderedRing F] {s : Finset ι}

/-- The quadratic form of `|L| |D| |Lᵀ|`. -/
theorem abs_form_eq (u : ι → ι → F) (d x : ι → F) :
    ∑ i ∈ s, ∑ j ∈ s, |x i| * (∑ r ∈ s, |u i r| * |d r| * |u j r|) * |x j| =
      ∑ r ∈ s, |d r| * (∑ i ∈ s, |x i| * |u i r|) ^ 2 := by
  have h1 : ∀ i ∈ s, ∑ j ∈ s, |x i| * (∑ r ∈ s, |u i r| * |d r| * |u j r|) * |x j| =
      ∑ r ∈ s, ∑ j ∈ s, |d r| * (|x i| * |u i r|) * (|x j| * |u j r|) := by
    intro i _
    rw [sum_comm]
    refine sum_congr rfl fun j _ => ?_
    rw [mul_sum, sum_mul]
    exact sum_congr rfl fun r _ => by ring
  rw [sum_congr rfl h1, sum_comm]
  refine sum_congr rfl fun r _ => ?_
  rw [sq, sum_mul, mul_sum]
  refine sum_congr rfl fun i _ => ?_
  rw [mul_sum, mul_sum]
  exact sum_congr rfl fun j _ => by ring

/-- The quadratic form is bounded by its diagonal, where `c` bounds the number of elements in a column. -/
theorem abs_form_le (u : ι → ι → F) (d x : ι → F) {c : Nat}
    (hc : ∀ r ∈ s, ({i ∈ s | u i r ≠ 0} : Finset ι).card ≤ c) :
    ∑ i ∈ s, ∑ j ∈ s, |x i| * (∑ r ∈ s, |u i r| * |d r| * |u j r|) * |x j| ≤
      c * ∑ i ∈ s, x i ^ 2 * ∑ r ∈ s, |u i r| * |d r| * |u i r| := by
  have h2 : c * ∑ i ∈ s, x i ^ 2 * ∑ r ∈ s, |u i r| * |d r| * |u i r| =
      ∑ r ∈ s, |d r| * (c * ∑ i ∈ s, (|x i| * |u i r|) ^ 2) := by
    rw [mul_sum]
    have : ∀ i ∈ s, (c : F) * (x i ^ 2 * ∑ r ∈ s, |u i r| * |d r| * |u i r|) =
        ∑ r ∈ s, |d r| * (c * (|x i| * |u i r|) ^ 2) := by
      intro i _
      rw [mul_sum, mul_sum]
      refine sum_congr rfl fun r _ => ?_
      rw [mul_pow, sq_abs]
      ring
    rw [sum_congr rfl this, sum_comm]
    refine sum_congr rfl fun r _ => ?_
    rw [mul_sum, mul_sum]
  rw [abs_form_eq, h2]
  refine sum_le_sum fun r hr => mul_le_mul_of_nonneg_left ?_ (abs_nonneg _)
  have e1 : ∑ i ∈ s, |x i| * |u i r| = ∑ i ∈ s with u i r ≠ 0, |x i| * |u i r| := by
    rw [sum_filter]
    refine sum_congr rfl fun i _ => ?_
    split
    · rfl
    · next h => rw [not_not.mp h, abs_zero, mul_zero]
  rw [e1]
  refine (sq_sum_le_card_mul_sum_sq).trans ?_
  refine mul_le_mul (by exact_mod_cast hc r hr) ?_ (sum_nonneg fun _ _ => sq_nonneg _) (Nat.cast_nonneg _)
  exact sum_le_sum_of_subset_of_nonneg (filter_subset _ _) fun _ _ _ => sq_nonneg _

theorem sq_sum_abs_le (x : ι → F) : (∑ i ∈ s, |x i|) ^ 2 ≤ s.card * ∑ i ∈ s, x i ^ 2 := by
  refine (sq_sum_le_card_mul_sum_sq).trans (le_of_eq ?_)
  simp only [sq_abs]

variable [DecidableEq ι] {rk : ι → Nat} {u : ι → ι → F} {d p : ι → F} {A : ι → ι → F} {γ e μ : F} {c : Nat}

/-- Approximate factors of a sufficiently positive definite matrix have positive pivots. `p` are the pivots before
regularization. -/
theorem approx_pivots_pos (hu : UnitLower s rk u) (hγ : 0 ≤ γ) (he : 0 ≤ e) (hμ : 0 ≤ μ)
    (hA : ∀ i ∈ s, ∀ j ∈ s, |A i j - (∑ r ∈ s, u i r * d r * u j r + if i = j then p i - d i else 0)| ≤
      γ * (∑ r ∈ s, |u i r| * |d r| * |u j r| + if i = j then |p i| - |d i| else 0) + e)
    (hreg : ∀ i ∈ s, μ < p i → d i = p i)
    (hc : ∀ r ∈ s, ({i ∈ s | u i r ≠ 0} : Finset ι).card ≤ c) (hγc : (2 * c + 1) * γ ≤ 1) (hγ1 : γ < 1)
    (hpd : PosDef s μ fun i j => A i j - if i = j then c * γ / (1 - γ) * (A i i + e) + s.card * e else 0) :
    ∀ k ∈ s, μ < p k ∧ d k = p k := by
  have h1γ : 0 < 1 - γ := by linarith
  suffices h : ∀ n, ∀ k ∈ s, rk k = n → μ < p k from fun k hk => ⟨h _ k hk rfl, hreg k hk (h _ k hk rfl)⟩
  intro n
  induction n using Nat.strong_induction_on with
  | _ n ih =>
  intro k hk hkn
  have ih' : ∀ j ∈ s, rk j < rk k → μ < p j ∧ d j = p j := fun j hj hjk =>
    ⟨ih (rk j) (by omega) j hj rfl, hreg j hj (ih (rk j) (by omega) j hj rfl)⟩
  -- the pivots up to `k` before regularization
  let D : ι → F := fun r => if r = k then p k else d r
  let B : ι → ι → F := fun i j => ∑ r ∈ s, u i r * D r * u j r
  let H : ι → ι → F := fun i j => ∑ r ∈ s, |u i r| * |D r| * |u j r|
  have hrk : ∀ i ∈ s, rk i ≤ rk k → i ≠ k → rk i < rk k := fun i hi hik hne => by
    have := mt (hu.inj i hi k hk) hne
    omega
  have change : ∀ (g : F → F), g 0 = 0 → g 1 = 1 → ∀ i ∈ s, rk i ≤ rk k → ∀ j ∈ s, rk j ≤ rk k →
      ∑ r ∈ s, g (u i r) * g (d r) * g (u j r) + (if i = j then g (p i) - g (d i) else 0) =
        ∑ r ∈ s, g (u i r) * g (D r) * g (u j r) := by
    intro g g0 g1 i hi hik j hj hjk
    have hD : ∀ r ∈ s.erase k, g (u i r) * g (D r) * g (u j r) = g (u i r) * g (d r) * g (u j r) := fun r hr => by
      simp only [D, if_neg (ne_of_mem_erase hr)]
    rw [← add_sum_erase s _ hk, ← add_sum_erase s (fun r => g (u i r) * g (D r) * g (u j r)) hk, sum_congr rfl hD]
    simp only [D, if_true]
    by_cases hik' : i = k
    · subst hik'
      rw [hu.one i hi, g1]
      by_cases hjk' : i = j
      · subst hjk'
        rw [if_pos rfl, hu.one i hi, g1]
        ring
      · rw [if_neg hjk', hu.zero j hj i hi (hrk j hj hjk (Ne.symm hjk')), g0]
        ring
    · rw [hu.zero i hi k hk (hrk i hi hik hik'), g0]
      have : (if i = j then g (p i) - g (d i) else 0) = 0 := by
        rw [(ih' i hi (hrk i hi hik hik')).2, sub_self, ite_self]
      rw [this]
      ring
  have hAB : ∀ i ∈ s, rk i ≤ rk k → ∀ j ∈ s, rk j ≤ rk k → |A i j - B i j| ≤ γ * H i j + e := by
    intro i hi hik j hj hjk
    have := hA i hi j hj
    have e1 := change id rfl rfl i hi hik j hj hjk
    have e2 := change (fun x => |x|) abs_zero abs_one i hi hik j hj hjk
    simp only [id] at e1
    rw [e1, e2] at this
    exact this
  have hH0 : ∀ i j, 0 ≤ H i j := fun i j => sum_nonneg fun r _ => by positivity
  -- the diagonal
  have hdiag : ∀ i ∈ s, rk i ≤ rk k →
      (1 - γ) * H i i ≤ A i i + e + if i = k then 2 * max (-p k) 0 else 0 := by
    intro i hi hik
    have h1 := (abs_le.mp (hAB i hi hik i hi hik)).1
    have h2 : H i i ≤ B i i + if i = k then 2 * max (-p k) 0 else 0 := by
      simp only [H, B]
      rw [← add_sum_erase s _ hk, ← add_sum_erase s (fun r => u i r * D r * u i r) hk]
      have h3 : ∑ r ∈ s.erase k, |u i r| * |D r| * |u i r| = ∑ r ∈ s.erase k, u i r * D r * u i r := by
        refine sum_congr rfl fun r hr => ?_
        obtain ⟨hne, hr⟩ := mem_erase.mp hr
        by_cases hrk' : rk r < rk k
        · have h4 := ih' r hr hrk'
          have : 0 < D r := by
            simp only [D, if_neg hne, h4.2]
            linarith [h4.1]
          rw [abs_of_pos this, mul_right_comm, abs_mul_abs_self, mul_right_comm]
        · have h5 : rk k < rk r := by
            have := mt (hu.inj r hr k hk) hne
            omega
          rw [hu.zero i hi r hr (by omega)]
          simp
      rw [h3]
      by_cases hik' : i = k
      · subst hik'
        simp only [hu.one i hi, if_true, D, abs_one, one_mul, mul_one]
        rcases le_total 0 (p i) with hp | hp
        · rw [abs_of_nonneg hp]
          have := le_max_right (-p i) 0
          linarith
        · rw [abs_of_nonpos hp]
          have := le_max_left (-p i) 0
          linarith
      · rw [hu.zero i hi k hk (hrk i hi hik hik'), if_neg hik']
        simp
    linarith
  obtain ⟨x, hxk, hx0, hxB⟩ := LdltUpTo.exists_conj (d := D) (A := B) hu hk
    (fun i _ _ j _ _ => rfl)
  have hform : ∑ i ∈ s, ∑ j ∈ s, x i * B i j * x j = p k := by
    have : ∀ i ∈ s, ∑ j ∈ s, x i * B i j * x j = if i = k then p k else 0 := by
      intro i hi
      have e1 : ∑ j ∈ s, x i * B i j * x j = x i * ∑ j ∈ s, B i j * x j := by
        rw [mul_sum]
        exact sum_congr rfl fun j _ => by ring
      rw [e1]
      by_cases hik : rk i ≤ rk k
      · rw [hxB i hi hik]
        simp only [D, if_true]
        split
        · next h => rw [h, hxk, one_mul]
        · rw [mul_zero]
      · rw [hx0 i hi (by omega), zero_mul, if_neg]
        rintro rfl
        exact hik le_rfl
    rw [sum_congr rfl this, sum_ite_eq' s k, if_pos hk]
  have hAx : ∑ i ∈ s, ∑ j ∈ s, x i * A i j * x j ≤
      p k + (γ * (c * ∑ i ∈ s, x i ^ 2 * H i i) + e * (s.card * ∑ i ∈ s, x i ^ 2)) := by
    have h1 : ∑ i ∈ s, ∑ j ∈ s, x i * A i j * x j ≤ ∑ i ∈ s, ∑ j ∈ s,
        (x i * B i j * x j + (γ * (|x i| * H i j * |x j|) + e * (|x i| * |x j|))) := by
      refine sum_le_sum fun i hi => sum_le_sum fun j hj => ?_
      by_cases h : rk i ≤ rk k ∧ rk j ≤ rk k
      · have h2 := hAB i hi h.1 j hj h.2
        have h3 : x i * (A i j - B i j) * x j ≤ |x i| * (γ * H i j + e) * |x j| := by
          refine (le_abs_self _).trans ?_
          rw [abs_mul, abs_mul]
          exact mul_le_mul_of_nonneg_right (mul_le_mul_of_nonneg_left h2 (abs_nonneg _)) (abs_nonneg _)
        linarith
      · have : x i = 0 ∨ x j = 0 := by
          by_cases hi' : rk i ≤ rk k
          · exact Or.inr (hx0 j hj (by omega))
          · exact Or.inl (hx0 i hi (by omega))
        rcases this with h | h <;> rw [h] <;> simp
    refine h1.trans ?_
    simp only [sum_add_distrib, ← mul_sum]
    rw [hform]
    have h4 := abs_form_le u D x hc
    have h5 : ∑ i ∈ s, |x i| * ∑ j ∈ s, |x j| ≤ s.card * ∑ i ∈ s, x i ^ 2 := by
      rw [← sum_mul, ← sq]
      exact sq_sum_abs_le x
    have h6 := mul_le_mul_of_nonneg_left h4 hγ
    have h7 := mul_le_mul_of_nonneg_left h5 he
    linarith
  have hsum : (1 - γ) * ∑ i ∈ s, x i ^ 2 * H i i ≤ ∑ i ∈ s, x i ^ 2 * (A i i + e) + 2 * max (-p k) 0 := by
    have h1 : ∀ i ∈ s, (1 - γ) * (x i ^ 2 * H i i) ≤ x i ^ 2 * (A i i + e) + if i = k then 2 * max (-p k) 0 else 0 := by
      intro i hi
      by_cases hik : rk i ≤ rk k
      · have h2 := mul_le_mul_of_nonneg_left (hdiag i hi hik) (sq_nonneg (x i))
        have h3 : x i ^ 2 * (if i = k then 2 * max (-p k) 0 else 0) = if i = k then 2 * max (-p k) 0 else 0 := by
          split
          · next h => rw [h, hxk]; ring
          · rw [mul_zero]
        linarith
      · rw [hx0 i hi (by omega), if_neg (by rintro rfl; exact hik le_rfl)]
        simp
    rw [mul_sum]
    refine (sum_le_sum h1).trans (le_of_eq ?_)
    rw [sum_add_distrib, sum_ite_eq' s k, if_pos hk]
  have hpos := hpd x ⟨k, hk, by rw [hxk]; exact one_ne_zero⟩
  have hsplit : ∑ i ∈ s, ∑ j ∈ s, x i * (A i j - if i = j then c * γ / (1 - γ) * (A i i + e) + s.card * e else 0) * x j =
      ∑ i ∈ s, ∑ j ∈ s, x i * A i j * x j -
        (c * γ / (1 - γ) * ∑ i ∈ s, x i ^ 2 * (A i i + e) + s.card * e * ∑ i ∈ s, x i ^ 2) := by
    rw [mul_sum, mul_sum, ← sum_add_distrib, ← sum_sub_distrib]
    refine sum_congr rfl fun i hi => ?_
    have : ∀ j ∈ s, x i * (A i j - if i = j then c * γ / (1 - γ) * (A i i + e) + s.card * e else 0) * x j =
        x i * A i j * x j - if i = j then x i * (c * γ / (1 - γ) * (A i i + e) + s.card * e) * x i else 0 := by
      intro j _
      split
      · next h => subst h; ring
      · ring
    rw [sum_congr rfl this, sum_sub_distrib, sum_ite_eq s i, if_pos hi]
    ring
  rw [hsplit] at hpos
  have hone : 1 ≤ ∑ i ∈ s, x i ^ 2 := by
    have := single_le_sum (f := fun i => x i ^ 2) (fun i _ => sq_nonneg _) hk
    simp only [hxk, one_pow] at this
    exact this
  have hcγ : 0 ≤ c * γ / (1 - γ) := by positivity
  have h8 : γ * (c * ∑ i ∈ s, x i ^ 2 * H i i) ≤
      c * γ / (1 - γ) * (∑ i ∈ s, x i ^ 2 * (A i i + e) + 2 * max (-p k) 0) := by
    have := mul_le_mul_of_nonneg_left hsum hcγ
    refine le_trans (le_of_eq ?_) this
    field_simp
  have h9 : c * γ / (1 - γ) * (2 * max (-p k) 0) ≤ max (-p k) 0 := by
    have : c * γ / (1 - γ) * 2 ≤ 1 := by
      rw [div_mul_eq_mul_div, div_le_one h1γ]
      linarith
    have := mul_le_mul_of_nonneg_right this (le_max_right (-p k) 0)
    linarith
  have h10 : μ < p k + max (-p k) 0 := by
    have := mul_le_mul_of_nonneg_left hone hμ
    linarith
  rcases le_total 0 (p k) with hp | hp
  · rwa [max_eq_right (by linarith), add_zero] at h10
  · rw [max_eq_left (by linarith)] at h10
    linarith

/-- Approximate factors with positive pivots are not larger than the matrix, and so the error is small. -/
theorem approx_stable (hγ : 0 ≤ γ) (hγ1 : γ < 1) (hd : ∀ i ∈ s, 0 ≤ d i)
    (hA : ∀ i ∈ s, ∀ j ∈ s, |A i j - ∑ r ∈ s, u i r * d r * u j r| ≤ γ * ∑ r ∈ s, |u i r| * |d r| * |u j r| + e)
    {i j : ι} (hi : i ∈ s) (hj : j ∈ s) :
    ∑ r ∈ s, |u i r| * |d r| * |u j r| ≤ ((A i i + A j j) / 2 + e) / (1 - γ) ∧
      |A i j - ∑ r ∈ s, u i r * d r * u j r| ≤ γ / (1 - γ) * ((A i i + A j j) / 2 + e) + e := by
  have h1γ : 0 < 1 - γ := by linarith
  have hdiag : ∀ i ∈ s, (1 - γ) * ∑ r ∈ s, |u i r| * |d r| * |u i r| ≤ A i i + e := by
    intro i hi
    have h1 := (abs_le.mp (hA i hi i hi)).1
    have h2 : ∑ r ∈ s, |u i r| * |d r| * |u i r| = ∑ r ∈ s, u i r * d r * u i r := by
      refine sum_congr rfl fun r hr => ?_
      rw [abs_of_nonneg (hd r hr), mul_right_comm, abs_mul_abs_self, mul_right_comm]
    linarith
  have h1 : ∑ r ∈ s, |u i r| * |d r| * |u j r| ≤
      (∑ r ∈ s, |u i r| * |d r| * |u i r| + ∑ r ∈ s, |u j r| * |d r| * |u j r|) / 2 := by
    rw [← sum_add_distrib, sum_div]
    refine sum_le_sum fun r _ => ?_
    have := mul_nonneg (abs_nonneg (d r)) (sq_nonneg (|u i r| - |u j r|))
    linarith
  have h2 : ∑ r ∈ s, |u i r| * |d r| * |u j r| ≤ ((A i i + A j j) / 2 + e) / (1 - γ) := by
    rw [le_div_iff₀ h1γ]
    have h3 := mul_le_mul_of_nonneg_left h1 h1γ.le
    have h4 := hdiag i hi
    have h5 := hdiag j hj
    linarith
  refine ⟨h2, (hA i hi j hj).trans ?_⟩
  have := mul_le_mul_of_nonneg_left h2 hγ
  rw [div_mul_eq_mul_div, mul_div_assoc]
  linarith

theorem PosDef.congr {ι : Type} {s : Finset ι} {μ : F} {A B : ι → ι → F} (h : PosDef s μ A)
    (hAB : ∀ i ∈ s, ∀ j ∈ s, A i j = B i j) : PosDef s μ B := fun x hx => by
  refine (h x hx).trans_le (le_of_eq ?_)
  exact sum_congr rfl fun i hi => sum_congr rfl fun j hj => by rw [hAB i hi j hj]

theorem PosDef.shift {ι : Type} [DecidableEq ι] {s : Finset ι} {μ ν : F} {A B : ι → ι → F} (h : PosDef s μ A)
    (hne : ∀ i ∈ s, ∀ j ∈ s, i ≠ j → A i j = B i j) (heq : ∀ i ∈ s, A i i + ν ≤ B i i) : PosDef s (μ + ν) B := fun x hx => by
  rw [add_mul]
  refine (add_lt_add_left (h x hx) _).trans_le ?_
  rw [mul_sum, ← sum_add_distrib]
  refine sum_le_sum fun i hi => ?_
  rw [← sum_erase_add _ _ hi, ← sum_erase_add _ _ hi, add_assoc]
  refine add_le_add (le_of_eq (sum_congr rfl fun j hj => ?_)) ?_
  · rw [hne i hi j (mem_of_mem_erase hj) (ne_of_mem_erase hj).symm]
  · have := mul_le_mul_of_nonneg_right (heq i hi) (sq_nonneg (x i))
    linarith

theorem PosDef.mono {ι : Type} [DecidableEq ι] {s : Finset ι} {μ : F} {A B : ι → ι → F} (h : PosDef s μ A)
    (hne : ∀ i ∈ s, ∀ j ∈ s, i ≠ j → A i j = B i j) (heq : ∀ i ∈ s, A i i ≤ B i i) : PosDef s μ B := fun x hx => by
  refine (h x hx).trans_le (sum_le_sum fun i hi => sum_le_sum fun j hj => ?_)
  by_cases hij : i = j
  · subst hij
    have := mul_le_mul_of_nonneg_right (heq i hi) (sq_nonneg (x i))
    linarith
  · rw [hne i hi j hj hij]

end Ctldl
