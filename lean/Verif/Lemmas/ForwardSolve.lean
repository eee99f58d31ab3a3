import Verif.Lemmas.DefiniteRounding
import Verif.Lemmas.Forward

/-! # Size of the solution of definite systems -/

namespace Ctldl

open Finset

variable {ι F : Type} [DecidableEq ι] [Field F] [LinearOrder F] [IsStrictOrderedRing F]

/-- A factorization with positive pivots, of a matrix which is positive definite. -/
structure Tame (s : Finset ι) (rk : ι → Nat) (u : ι → ι → F) (d : ι → F) (c : Nat) (μ ρ : F) : Prop where
  unit : UnitLower s rk u
  μ_pos : 0 < μ
  pos : ∀ i ∈ s, μ < d i
  row : ∀ i ∈ s, ∑ r ∈ s, u i r ^ 2 * d r ≤ ρ
  col : ∀ r ∈ s, ({i ∈ s | u i r ≠ 0} : Finset ι).card ≤ c
  pd : ∀ x : ι → F, μ * ∑ i ∈ s, x i ^ 2 ≤ ∑ r ∈ s, d r * (∑ i ∈ s, u i r * x i) ^ 2

namespace Tame

variable {s t : Finset ι} {rk : ι → Nat} {u : ι → ι → F} {d : ι → F} {c : Nat} {μ ρ : F}

theorem form_eq (u : ι → ι → F) (d x : ι → F) :
    ∑ i ∈ s, ∑ j ∈ s, x i * (∑ r ∈ s, u i r * d r * u j r) * x j = ∑ r ∈ s, d r * (∑ i ∈ s, u i r * x i) ^ 2 := by
  have h1 : ∀ i ∈ s, ∑ j ∈ s, x i * (∑ r ∈ s, u i r * d r * u j r) * x j =
      ∑ r ∈ s, ∑ j ∈ s, d r * (u i r * x i) * (u j r * x j) := by
    intro i _
    rw [sum_comm]
    refine sum_congr rfl fun j _ => ?_
    rw [mul_sum, sum_mul]
    exact sum_congr rfl fun r _ => by ring
  rw [sum_congr rfl h1, sum_comm]
  refine sum_congr rfl fun r _ => ?_
  rw [sq, sum_mul, mul_sum]
  refine sum_congr rfl fun i _ => ?_
  rw [mul_sum, mul_sum]
  exact sum_congr rfl fun j _ => by ring

theorem d_pos (h : Tame s rk u d c μ ρ) {i : ι} (hi : i ∈ s) : 0 < d i := h.μ_pos.trans (h.pos i hi)

theorem d_le (h : Tame s rk u d c μ ρ) {i : ι} (hi : i ∈ s) : d i ≤ ρ := by
  refine le_trans ?_ (h.row i hi)
  have := single_le_sum (f := fun r => u i r ^ 2 * d r) (fun r hr => mul_nonneg (sq_nonneg _) (h.d_pos hr).le) hi
  simpa [h.unit.one i hi] using this

/-- The rows and columns up to some index. -/
theorem down (h : Tame s rk u d c μ ρ) (hts : t ⊆ s) (ht : ∀ i ∈ t, ∀ r ∈ s, r ∉ t → u i r = 0) :
    Tame t rk u d c μ ρ where
  unit := h.unit.mono hts
  μ_pos := h.μ_pos
  pos i hi := h.pos i (hts hi)
  row i hi := (sum_le_sum_of_subset_of_nonneg hts fun r hr _ => mul_nonneg (sq_nonneg _) (h.d_pos hr).le).trans
    (h.row i (hts hi))
  col r hr := (card_le_card (filter_subset_filter _ hts)).trans (h.col r (hts hr))
  pd x := by
    have h1 := h.pd fun i => if i ∈ t then x i else 0
    have e1 : ∑ i ∈ s, (if i ∈ t then x i else 0) ^ 2 = ∑ i ∈ t, x i ^ 2 := by
      rw [← sum_subset hts fun i _ hi => by rw [if_neg hi]; ring]
      exact sum_congr rfl fun i hi => by rw [if_pos hi]
    have e2 : ∀ r, ∑ i ∈ s, u i r * (if i ∈ t then x i else 0) = ∑ i ∈ t, u i r * x i := by
      intro r
      rw [← sum_subset hts fun i _ hi => by rw [if_neg hi, mul_zero]]
      exact sum_congr rfl fun i hi => by rw [if_pos hi]
    rw [e1] at h1
    refine h1.trans (le_of_eq ?_)
    simp only [e2]
    refine (sum_subset hts fun r hr hrt => ?_).symm
    rw [sum_eq_zero fun i hi => by rw [ht i hi r hr hrt, zero_mul]]
    ring

/-- The rows and columns from some index on. -/
theorem up (h : Tame s rk u d c μ ρ) (hts : t ⊆ s) (ht : ∀ r ∈ t, ∀ i ∈ s, i ∉ t → u i r = 0) :
    Tame t rk u d c μ ρ where
  unit := h.unit.mono hts
  μ_pos := h.μ_pos
  pos i hi := h.pos i (hts hi)
  row i hi := (sum_le_sum_of_subset_of_nonneg hts fun r hr _ => mul_nonneg (sq_nonneg _) (h.d_pos hr).le).trans
    (h.row i (hts hi))
  col r hr := (card_le_card (filter_subset_filter _ hts)).trans (h.col r (hts hr))
  pd x := by
    -- continue the vector such that the other components of its product with the transposed matrix vanish
    obtain ⟨w, hw⟩ := triangular_surj (wf_down rk (s.sup rk)) s (l := fun r i => if rk r < rk i then u i r else 0)
      (fun r hr i hi hne => by
        have h1 : rk r < rk i := by
          by_contra hh
          exact hne (if_neg hh)
        have := le_sup (f := rk) hi
        omega) (fun r => if r ∈ t then ∑ i ∈ t, u i r * x i else 0)
    have hw' : ∀ r ∈ s, ∑ i ∈ s, u i r * w i = if r ∈ t then ∑ i ∈ t, u i r * x i else 0 := fun r hr => by
      rw [h.unit.col_sum w hr]
      exact hw r hr
    have hsum : ∀ (z : ι → F), ∀ r ∈ t, ∑ i ∈ t, u i r * z i = ∑ i ∈ s, u i r * z i := fun z r hr =>
      sum_subset hts fun i hi hit => by rw [ht r hr i hi hit, zero_mul]
    have hwx : ∀ i ∈ t, w i - x i = 0 := by
      refine (h.unit.mono hts).col_inj (w := fun i => w i - x i) fun r hr => ?_
      have h1 : ∑ i ∈ t, u i r * (w i - x i) = ∑ i ∈ t, u i r * w i - ∑ i ∈ t, u i r * x i := by
        rw [← sum_sub_distrib]
        exact sum_congr rfl fun i _ => by ring
      rw [h1, hsum w r hr, hw' r (hts hr), if_pos hr, sub_self]
    have h1 := h.pd w
    have h2 : ∑ i ∈ t, x i ^ 2 ≤ ∑ i ∈ s, w i ^ 2 := by
      refine le_trans (le_of_eq ?_) (sum_le_sum_of_subset_of_nonneg hts fun i _ _ => sq_nonneg _)
      exact sum_congr rfl fun i hi => by rw [sub_eq_zero.mp (hwx i hi)]
    refine (mul_le_mul_of_nonneg_left h2 h.μ_pos.le).trans (h1.trans (le_of_eq ?_))
    rw [sum_congr rfl fun r hr => by rw [hw' r hr], ← sum_subset hts fun r _ hr => by rw [if_neg hr]; ring]
    exact sum_congr rfl fun r hr => by rw [if_pos hr]

/-- The solution of a system with the lower triangular matrix is not larger than the right hand side. -/
theorem energy (h : Tame s rk u d c μ ρ) (y : ι → F) :
    μ * ∑ j ∈ s, y j ^ 2 / d j ≤ ∑ i ∈ s, (∑ j ∈ s, u i j * y j) ^ 2 := by
  obtain ⟨x, hx⟩ := triangular_surj (wf_down rk (s.sup rk)) s (l := fun r i => if rk r < rk i then u i r else 0)
    (fun r hr i hi hne => by
      have h1 : rk r < rk i := by
        by_contra hh
        exact hne (if_neg hh)
      have := le_sup (f := rk) hi
      omega) (fun r => y r / d r)
  have hx' : ∀ r ∈ s, ∑ i ∈ s, u i r * x i = y r / d r := fun r hr => by
    rw [h.unit.col_sum x hr]
    exact hx r hr
  have h1 := h.pd x
  have e1 : ∑ r ∈ s, d r * (∑ i ∈ s, u i r * x i) ^ 2 = ∑ j ∈ s, y j ^ 2 / d j := by
    refine sum_congr rfl fun r hr => ?_
    have := (h.d_pos hr).ne'
    rw [hx' r hr]
    field_simp
  have e2 : ∑ j ∈ s, y j ^ 2 / d j = ∑ i ∈ s, x i * ∑ j ∈ s, u i j * y j := by
    have : ∀ j ∈ s, y j ^ 2 / d j = ∑ i ∈ s, x i * (u i j * y j) := by
      intro j hj
      have h2 : ∑ i ∈ s, x i * (u i j * y j) = (∑ i ∈ s, u i j * x i) * y j := by
        rw [sum_mul]
        exact sum_congr rfl fun i _ => by ring
      rw [h2, hx' j hj]
      ring
    rw [sum_congr rfl this, sum_comm]
    exact sum_congr rfl fun i _ => (mul_sum _ _ _).symm
  rw [e1] at h1
  have h2 : (∑ j ∈ s, y j ^ 2 / d j) ^ 2 ≤ (∑ i ∈ s, x i ^ 2) * ∑ i ∈ s, (∑ j ∈ s, u i j * y j) ^ 2 := by
    rw [e2]
    exact sum_mul_sq_le_sq_mul_sq _ _ _
  have hQ : 0 ≤ ∑ j ∈ s, y j ^ 2 / d j := sum_nonneg fun j hj => div_nonneg (sq_nonneg _) (h.d_pos hj).le
  have hG : 0 ≤ ∑ i ∈ s, (∑ j ∈ s, u i j * y j) ^ 2 := sum_nonneg fun _ _ => sq_nonneg _
  rcases hQ.eq_or_lt with h0 | h0
  · rw [← h0, mul_zero]
    exact hG
  · have h3 := mul_le_mul_of_nonneg_left h2 h.μ_pos.le
    have h4 := mul_le_mul_of_nonneg_right h1 hG
    refine le_of_mul_le_mul_left ?_ h0
    linarith

/-- Row sums of absolute values. -/
theorem row_abs (h : Tame s rk u d c μ ρ) (y : ι → F) {i : ι} (hi : i ∈ s) :
    (∑ j ∈ s, |u i j| * |y j|) ^ 2 ≤ ρ * ∑ j ∈ s with u i j ≠ 0, y j ^ 2 / d j := by
  have e1 : ∑ j ∈ s, |u i j| * |y j| = ∑ j ∈ s with u i j ≠ 0, |u i j| * |y j| := by
    rw [sum_filter]
    refine sum_congr rfl fun j _ => ?_
    split
    · rfl
    · next h => rw [not_not.mp h, abs_zero, zero_mul]
  rw [e1]
  have h1 : (∑ j ∈ s with u i j ≠ 0, |u i j| * |y j|) ^ 2 ≤
      (∑ j ∈ s with u i j ≠ 0, u i j ^ 2 * d j) * ∑ j ∈ s with u i j ≠ 0, y j ^ 2 / d j := by
    refine sum_sq_le_sum_mul_sum_of_sq_eq_mul _ ?_ ?_ ?_
    · exact fun j hj => mul_nonneg (sq_nonneg _) (h.d_pos (mem_filter.mp hj).1).le
    · exact fun j hj => div_nonneg (sq_nonneg _) (h.d_pos (mem_filter.mp hj).1).le
    · intro j hj
      have := (h.d_pos (mem_filter.mp hj).1).ne'
      rw [mul_pow, sq_abs, sq_abs]
      field_simp
  refine h1.trans (mul_le_mul_of_nonneg_right ?_ ?_)
  · exact (sum_le_sum_of_subset_of_nonneg (filter_subset _ _) fun r hr _ =>
      mul_nonneg (sq_nonneg _) (h.d_pos hr).le).trans (h.row i hi)
  · exact sum_nonneg fun j hj => div_nonneg (sq_nonneg _) (h.d_pos (mem_filter.mp hj).1).le

theorem rho_nonneg (h : Tame s rk u d c μ ρ) {i : ι} (hi : i ∈ s) : 0 ≤ ρ := (h.d_pos hi).le.trans (h.d_le hi)

theorem sum_row_abs (h : Tame s rk u d c μ ρ) (y : ι → F) :
    ∑ i ∈ s, (∑ j ∈ s, |u i j| * |y j|) ^ 2 ≤ ρ * (c * ∑ j ∈ s, y j ^ 2 / d j) := by
  rcases s.eq_empty_or_nonempty with rfl | ⟨i₀, hi₀⟩
  · simp
  refine (sum_le_sum fun i hi => h.row_abs y hi).trans ?_
  rw [← mul_sum]
  refine mul_le_mul_of_nonneg_left ?_ (h.rho_nonneg hi₀)
  have e1 : ∀ i ∈ s, ∑ j ∈ s with u i j ≠ 0, y j ^ 2 / d j = ∑ j ∈ s, if u i j ≠ 0 then y j ^ 2 / d j else 0 :=
    fun i _ => sum_filter _ _
  rw [sum_congr rfl e1, sum_comm, mul_sum]
  refine sum_le_sum fun j hj => ?_
  rw [← sum_filter, sum_const, nsmul_eq_mul]
  exact mul_le_mul_of_nonneg_right (by exact_mod_cast h.col j hj) (div_nonneg (sq_nonneg _) (h.d_pos hj).le)

theorem sum_col_abs (h : Tame s rk u d c μ ρ) (x : ι → F) :
    ∑ j ∈ s, d j * (∑ i ∈ s, |u i j| * |x i|) ^ 2 ≤ ρ * (c * ∑ i ∈ s, x i ^ 2) := by
  have h1 : ∑ j ∈ s, d j * (∑ i ∈ s, |u i j| * |x i|) ^ 2 =
      ∑ r ∈ s, |d r| * (∑ i ∈ s, |x i| * |u i r|) ^ 2 := by
    refine sum_congr rfl fun j hj => ?_
    rw [abs_of_pos (h.d_pos hj)]
    congr 2
    exact sum_congr rfl fun i _ => mul_comm _ _
  rw [h1, ← abs_form_eq]
  refine (abs_form_le u d x h.col).trans ?_
  rw [mul_left_comm]
  refine mul_le_mul_of_nonneg_left ?_ (Nat.cast_nonneg _)
  rw [mul_sum]
  refine sum_le_sum fun i hi => ?_
  rw [mul_comm]
  refine mul_le_mul_of_nonneg_right (le_trans (le_of_eq ?_) (h.row i hi)) (sq_nonneg _)
  refine sum_congr rfl fun r hr => ?_
  rw [abs_of_pos (h.d_pos hr), mul_right_comm, abs_mul_abs_self]
  ring

theorem sq_add_le (a b : F) : (a + b) ^ 2 ≤ 2 * a ^ 2 + 2 * b ^ 2 := by
  have := sq_nonneg (a - b)
  linarith [add_sq a b, sub_sq a b]

theorem sq_err {a A γ h : F} (hA : |a| ≤ γ * A + h) : a ^ 2 ≤ 2 * γ ^ 2 * A ^ 2 + 2 * h ^ 2 := by
  have h1 : a ^ 2 ≤ (γ * A + h) ^ 2 := by
    rw [← sq_abs a]
    exact pow_le_pow_left₀ (abs_nonneg _) hA 2
  refine h1.trans ((sq_add_le _ _).trans (le_of_eq ?_))
  ring

/-- Size of an approximate solution with the lower triangular matrix. -/
theorem forward (h : Tame s rk u d c μ ρ) {γ e : F} (hγ : 8 * (c * ρ * γ ^ 2) ≤ μ) {b y : ι → F}
    (hy : ∀ i ∈ s, |b i - ∑ j ∈ s, u i j * y j| ≤ γ * ∑ j ∈ s, |u i j| * |y j| + e) :
    μ * ∑ j ∈ s, y j ^ 2 / d j ≤ 4 * ∑ i ∈ s, b i ^ 2 + 8 * (s.card * e ^ 2) := by
  have h1 := h.energy y
  have h2 : ∑ i ∈ s, (∑ j ∈ s, u i j * y j) ^ 2 ≤
      2 * ∑ i ∈ s, b i ^ 2 + 4 * γ ^ 2 * ∑ i ∈ s, (∑ j ∈ s, |u i j| * |y j|) ^ 2 + 4 * (s.card * e ^ 2) := by
    have e1 : 4 * (s.card * e ^ 2) = ∑ i ∈ s, 4 * e ^ 2 := by
      rw [sum_const, nsmul_eq_mul]
      ring
    rw [e1, mul_sum, mul_sum, ← sum_add_distrib, ← sum_add_distrib]
    refine sum_le_sum fun i hi => ?_
    have h3 := sq_err (hy i hi)
    have h4 := sq_add_le (b i) (-(b i - ∑ j ∈ s, u i j * y j))
    rw [neg_sq, show b i + -(b i - ∑ j ∈ s, u i j * y j) = ∑ j ∈ s, u i j * y j by ring] at h4
    linarith
  have h5 := mul_le_mul_of_nonneg_left (h.sum_row_abs y) (show 0 ≤ 4 * γ ^ 2 by positivity)
  have hQ : 0 ≤ ∑ j ∈ s, y j ^ 2 / d j := sum_nonneg fun j hj => div_nonneg (sq_nonneg _) (h.d_pos hj).le
  have h6 := mul_le_mul_of_nonneg_right hγ hQ
  linarith

/-- Size of an approximate solution with the transposed matrix. -/
theorem backward (h : Tame s rk u d c μ ρ) {γ e : F} (hγ : 8 * (c * ρ * γ ^ 2) ≤ μ) {z x : ι → F}
    (hx : ∀ j ∈ s, |z j - ∑ i ∈ s, u i j * x i| ≤ γ * ∑ i ∈ s, |u i j| * |x i| + e) :
    μ * ∑ i ∈ s, x i ^ 2 ≤ 4 * ∑ j ∈ s, d j * z j ^ 2 + 8 * (ρ * (s.card * e ^ 2)) := by
  have h1 := h.pd x
  have h2 : ∑ j ∈ s, d j * (∑ i ∈ s, u i j * x i) ^ 2 ≤
      2 * ∑ j ∈ s, d j * z j ^ 2 + 4 * γ ^ 2 * ∑ j ∈ s, d j * (∑ i ∈ s, |u i j| * |x i|) ^ 2 +
        4 * (ρ * (s.card * e ^ 2)) := by
    have e1 : 4 * (ρ * (s.card * e ^ 2)) = ∑ i ∈ s, 4 * (ρ * e ^ 2) := by
      rw [sum_const, nsmul_eq_mul]
      ring
    rw [e1, mul_sum, mul_sum, ← sum_add_distrib, ← sum_add_distrib]
    refine sum_le_sum fun j hj => ?_
    have h3 := mul_le_mul_of_nonneg_left (sq_err (hx j hj)) (h.d_pos hj).le
    have h4 := mul_le_mul_of_nonneg_left (sq_add_le (z j) (-(z j - ∑ i ∈ s, u i j * x i))) (h.d_pos hj).le
    rw [neg_sq, show z j + -(z j - ∑ i ∈ s, u i j * x i) = ∑ i ∈ s, u i j * x i by ring] at h4
    have h5 := mul_le_mul_of_nonneg_right (h.d_le hj) (sq_nonneg e)
    linarith
  have h5 := mul_le_mul_of_nonneg_left (h.sum_col_abs x) (show 0 ≤ 4 * γ ^ 2 by positivity)
  have hX : 0 ≤ ∑ i ∈ s, x i ^ 2 := sum_nonneg fun _ _ => sq_nonneg _
  have h6 := mul_le_mul_of_nonneg_right hγ hX
  linarith

end Tame

end Ctldl
