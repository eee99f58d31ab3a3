import Verif.Lemmas.QuasiRounding
import Verif.Lemmas.Definite

/-! # Size of the solution of quasidefinite systems -/

namespace Ctldl

open Finset

variable {ι F : Type} [DecidableEq ι] [Field F] [LinearOrder F] [IsStrictOrderedRing F]

/-- Factors of a matrix which is quasidefinite. -/
structure Firm (s : Finset ι) (rk : ι → Nat) (u : ι → ι → F) (d : ι → F) (σ : ι → F) (n c : Nat) (μ β : F) : Prop where
  unit : UnitLower s rk u
  μ_pos : 0 < μ
  sign : ∀ i, |σ i| = 1
  pos : ∀ i ∈ s, μ < |d i|
  d_le : ∀ i ∈ s, |d i| ≤ β
  u_le : ∀ i ∈ s, ∀ r ∈ s, |u i r| ≤ β / μ
  row : ∀ i ∈ s, ∑ r ∈ s, |u i r| * |d r| ≤ n * β
  col : ∀ r ∈ s, ({i ∈ s | u i r ≠ 0} : Finset ι).card ≤ c
  sd : SignedDef s σ μ fun i j => ∑ r ∈ s, u i r * d r * u j r

theorem solve_up {s : Finset ι} {rk : ι → Nat} {u : ι → ι → F} (h : UnitLower s rk u) (b : ι → F) :
    ∃ x : ι → F, ∀ r ∈ s, ∑ i ∈ s, u i r * x i = b r := by
  obtain ⟨x, hx⟩ := triangular_surj (wf_down rk (s.sup rk)) s (l := fun r i => if rk r < rk i then u i r else 0)
    (fun r hr i hi hne => by
      have h1 : rk r < rk i := by
        by_contra hh
        exact hne (if_neg hh)
      have := le_sup (f := rk) hi
      omega) b
  exact ⟨x, fun r hr => by rw [h.col_sum x hr]; exact hx r hr⟩

/-- A definite form bounds the norm of a vector by the norm of its product. -/
theorem SignedDef.norm_le {s : Finset ι} {σ : ι → F} (hσ : ∀ i, |σ i| = 1) {μ : F} (hμ : 0 ≤ μ) {M : ι → ι → F}
    (h : SignedDef s σ μ M) (x : ι → F) : μ ^ 2 * ∑ i ∈ s, x i ^ 2 ≤ ∑ i ∈ s, (∑ j ∈ s, M i j * x j) ^ 2 := by
  have hX : 0 ≤ ∑ i ∈ s, x i ^ 2 := sum_nonneg fun _ _ => sq_nonneg _
  have hY : 0 ≤ ∑ i ∈ s, (∑ j ∈ s, M i j * x j) ^ 2 := sum_nonneg fun _ _ => sq_nonneg _
  by_cases hx : ∃ i ∈ s, x i ≠ 0
  · have h1 := h x hx
    have e1 : ∑ i ∈ s, ∑ j ∈ s, σ i * x i * M i j * x j = ∑ i ∈ s, (σ i * x i) * ∑ j ∈ s, M i j * x j := by
      refine sum_congr rfl fun i _ => ?_
      rw [mul_sum]
      exact sum_congr rfl fun j _ => by ring
    rw [e1] at h1
    have h2 := sum_mul_sq_le_sq_mul_sq s (fun i => σ i * x i) (fun i => ∑ j ∈ s, M i j * x j)
    have e2 : ∑ i ∈ s, (σ i * x i) ^ 2 = ∑ i ∈ s, x i ^ 2 := sum_congr rfl fun i _ => by
      rw [mul_pow, ← sq_abs (σ i), hσ, one_pow, one_mul]
    rw [e2] at h2
    have hX' : 0 < ∑ i ∈ s, x i ^ 2 := by
      obtain ⟨i, hi, hxi⟩ := hx
      exact sum_pos' (fun _ _ => sq_nonneg _) ⟨i, hi, by positivity⟩
    have h3 : (μ * ∑ i ∈ s, x i ^ 2) ^ 2 ≤ (∑ i ∈ s, (σ i * x i) * ∑ j ∈ s, M i j * x j) ^ 2 :=
      pow_le_pow_left₀ (mul_nonneg hμ hX) h1.le 2
    refine le_of_mul_le_mul_left ?_ hX'
    refine le_trans (le_of_eq ?_) (h3.trans h2)
    ring
  · have hx0 : ∀ i ∈ s, x i = 0 := fun i hi => by
      by_contra hne
      exact hx ⟨i, hi, hne⟩
    rw [sum_eq_zero fun i hi => by rw [hx0 i hi]; ring, mul_zero]
    exact hY

namespace Firm

variable {s t : Finset ι} {rk : ι → Nat} {u : ι → ι → F} {d σ : ι → F} {n c : Nat} {μ β : F}

theorem d_pos (h : Firm s rk u d σ n c μ β) {i : ι} (hi : i ∈ s) : 0 < |d i| := h.μ_pos.trans (h.pos i hi)

theorem β_pos (h : Firm s rk u d σ n c μ β) {i : ι} (hi : i ∈ s) : 0 < β := (h.d_pos hi).trans_le (h.d_le i hi)

theorem row_abs (h : Firm s rk u d σ n c μ β) {i : ι} (hi : i ∈ s) : ∑ r ∈ s, |u i r| ≤ n * (β / μ) := by
  rw [← mul_div_assoc, le_div_iff₀ h.μ_pos, sum_mul]
  exact (sum_le_sum fun r hr => mul_le_mul_of_nonneg_left (h.pos r hr).le (abs_nonneg _)).trans (h.row i hi)

/-- The product with a vector. -/
theorem mul_vec (u : ι → ι → F) (d x : ι → F) (i : ι) :
    ∑ j ∈ s, (∑ r ∈ s, u i r * d r * u j r) * x j = ∑ r ∈ s, u i r * d r * ∑ j ∈ s, u j r * x j := by
  simp only [sum_mul, mul_sum]
  rw [sum_comm]
  exact sum_congr rfl fun r _ => sum_congr rfl fun j _ => by ring

/-- The rows and columns up to some index. -/
theorem down (h : Firm s rk u d σ n c μ β) (hts : t ⊆ s) (ht : ∀ i ∈ t, ∀ r ∈ s, r ∉ t → u i r = 0) :
    Firm t rk u d σ n c μ β where
  unit := h.unit.mono hts
  μ_pos := h.μ_pos
  sign := h.sign
  pos i hi := h.pos i (hts hi)
  d_le i hi := h.d_le i (hts hi)
  u_le i hi r hr := h.u_le i (hts hi) r (hts hr)
  row i hi := (sum_le_sum_of_subset_of_nonneg hts fun _ _ _ => by positivity).trans (h.row i (hts hi))
  col r hr := (card_le_card (filter_subset_filter _ hts)).trans (h.col r (hts hr))
  sd x hx := by
    refine (h.sd.restrict hts x hx).trans_le (le_of_eq (sum_congr rfl fun i hi => sum_congr rfl fun j hj => ?_))
    congr 2
    symm
    exact sum_subset hts fun r hr hrt => by rw [ht i hi r hr hrt, zero_mul, zero_mul]

/-- The last component of the solution with the lower triangular matrix. -/
theorem last (h : Firm s rk u d σ n c μ β) (y : ι → F) {k : ι} (hk : k ∈ s) (hlast : ∀ i ∈ s, rk i ≤ rk k) :
    (μ * |y k|) ^ 2 ≤ β ^ 2 * ∑ i ∈ s, (∑ j ∈ s, u i j * y j) ^ 2 := by
  obtain ⟨x, hx⟩ := solve_up h.unit fun r => y r / d r
  have h1 := h.sd.norm_le h.sign h.μ_pos.le x
  have e1 : ∀ i ∈ s, ∑ j ∈ s, (∑ r ∈ s, u i r * d r * u j r) * x j = ∑ j ∈ s, u i j * y j := by
    intro i _
    rw [mul_vec]
    refine sum_congr rfl fun r hr => ?_
    rw [hx r hr]
    have := abs_pos.mp (h.d_pos hr)
    field_simp
  have e2 : ∑ i ∈ s, (∑ j ∈ s, (∑ r ∈ s, u i r * d r * u j r) * x j) ^ 2 = ∑ i ∈ s, (∑ j ∈ s, u i j * y j) ^ 2 :=
    sum_congr rfl fun i hi => by rw [e1 i hi]
  rw [e2] at h1
  have hxk : y k = d k * x k := by
    have h2 := hx k hk
    rw [sum_eq_single k (fun i hi hne => by
      rw [h.unit.zero i hi k hk (lt_of_le_of_ne (hlast i hi) fun he => hne (h.unit.inj i hi k hk he)), zero_mul])
      (fun hn => absurd hk hn), h.unit.one k hk, one_mul] at h2
    rw [h2]
    have := abs_pos.mp (h.d_pos hk)
    field_simp
  have h2 : |y k| ≤ β * |x k| := by
    rw [hxk, abs_mul]
    exact mul_le_mul_of_nonneg_right (h.d_le k hk) (abs_nonneg _)
  have h3 : (μ * |y k|) ^ 2 ≤ β ^ 2 * (μ ^ 2 * x k ^ 2) := by
    have := pow_le_pow_left₀ (mul_nonneg h.μ_pos.le (abs_nonneg _)) (mul_le_mul_of_nonneg_left h2 h.μ_pos.le) 2
    refine this.trans (le_of_eq ?_)
    rw [mul_pow, mul_pow, sq_abs]
    ring
  refine h3.trans (mul_le_mul_of_nonneg_left ?_ (sq_nonneg _))
  refine le_trans (mul_le_mul_of_nonneg_left ?_ (sq_nonneg _)) h1
  exact single_le_sum (f := fun i => x i ^ 2) (fun _ _ => sq_nonneg _) hk

omit [DecidableEq ι] in
theorem sum_sq_le_root {g : ι → F} {q V : F} (hs : (s.card : F) ≤ q ^ 2) (hg : ∀ i ∈ s, |g i| ≤ V) :
    ∑ i ∈ s, g i ^ 2 ≤ (q * V) ^ 2 := by
  have h1 : ∑ i ∈ s, g i ^ 2 ≤ s.card * V ^ 2 := by
    rw [← nsmul_eq_mul]
    refine sum_le_card_nsmul _ _ _ fun i hi => ?_
    rw [← sq_abs (g i)]
    exact pow_le_pow_left₀ (abs_nonneg _) (hg i hi) 2
  refine h1.trans ?_
  rw [mul_pow]
  exact mul_le_mul_of_nonneg_right hs (sq_nonneg _)

/-- Size of an approximate solution with the lower triangular matrix. -/
theorem forward (h : Firm s rk u d σ n c μ β) {γ e q B : F} (hγ : 0 ≤ γ) (he : 0 ≤ e) (hB : 0 ≤ B) (hq : 0 ≤ q)
    (hs : (s.card : F) ≤ q ^ 2) (hcond : 2 * (q * n * γ * (β / μ) ^ 2) ≤ 1) {b y : ι → F} (hb : ∀ i ∈ s, |b i| ≤ B)
    (hy : ∀ i ∈ s, |b i - ∑ j ∈ s, u i j * y j| ≤ γ * ∑ j ∈ s, |u i j| * |y j| + e) :
    ∀ i ∈ s, |y i| ≤ 2 * q * (β / μ) * (B + e) := by
  rcases s.eq_empty_or_nonempty with rfl | hne
  · exact fun i hi => absurd hi (notMem_empty i)
  obtain ⟨k, hk, hmax⟩ := exists_max_image s (fun i => |y i|) hne
  suffices hsuf : |y k| ≤ 2 * q * (β / μ) * (B + e) from fun i hi => (hmax i hi).trans hsuf
  have hβ := h.β_pos hk
  have hμ := h.μ_pos
  have hΛ : 0 ≤ β / μ := by positivity
  let t := s.filter fun i => rk i ≤ rk k
  have hts : t ⊆ s := filter_subset _ _
  have hdown : ∀ i ∈ t, ∀ r ∈ s, r ∉ t → u i r = 0 := fun i hi r hr hrt => h.unit.zero i (hts hi) r hr (by
    have h1 := (mem_filter.mp hi).2
    have h2 : ¬ rk r ≤ rk k := fun h => hrt (mem_filter.mpr ⟨hr, h⟩)
    omega)
  have h1 := (h.down hts hdown).last y (mem_filter.mpr ⟨hk, le_refl _⟩ : k ∈ t) fun i hi => (mem_filter.mp hi).2
  have hrow : ∀ i ∈ t, |∑ j ∈ t, u i j * y j| ≤ B + e + γ * (n * (β / μ * |y k|)) := by
    intro i hi
    have e1 : ∑ j ∈ t, u i j * y j = ∑ j ∈ s, u i j * y j :=
      sum_subset hts fun r hr hrt => by rw [hdown i hi r hr hrt, zero_mul]
    rw [e1]
    have h2 := hy i (hts hi)
    have h3 := hb i (hts hi)
    have h4 : ∑ j ∈ s, |u i j| * |y j| ≤ n * (β / μ * |y k|) := by
      have h5 : ∑ j ∈ s, |u i j| * |y j| ≤ (∑ j ∈ s, |u i j|) * |y k| := by
        rw [sum_mul]
        exact sum_le_sum fun j hj => mul_le_mul_of_nonneg_left (hmax j hj) (abs_nonneg _)
      have h6 := mul_le_mul_of_nonneg_right (h.row_abs (hts hi)) (abs_nonneg (y k))
      linarith
    have h5 := mul_le_mul_of_nonneg_left h4 hγ
    have h6 : |∑ j ∈ s, u i j * y j| ≤ |b i| + |b i - ∑ j ∈ s, u i j * y j| := by
      have := abs_sub (b i) (b i - ∑ j ∈ s, u i j * y j)
      rwa [sub_sub_cancel] at this
    linarith
  have hV : 0 ≤ B + e + γ * (n * (β / μ * |y k|)) := by positivity
  have h2 := sum_sq_le_root ((by exact_mod_cast card_le_card hts : (t.card : F) ≤ s.card).trans hs) hrow
  have h3 : (μ * |y k|) ^ 2 ≤ (β * (q * (B + e + γ * (n * (β / μ * |y k|))))) ^ 2 := by
    rw [mul_pow β]
    exact h1.trans (mul_le_mul_of_nonneg_left h2 (sq_nonneg _))
  have h4 : μ * |y k| ≤ β * (q * (B + e + γ * (n * (β / μ * |y k|)))) :=
    le_of_sq_le_sq h3 (by positivity)
  have h5 : |y k| ≤ β / μ * (q * (B + e + γ * (n * (β / μ * |y k|)))) := by
    rw [div_mul_eq_mul_div, le_div_iff₀ hμ, mul_comm]
    exact h4
  have h6 := mul_le_mul_of_nonneg_right hcond (abs_nonneg (y k))
  nlinarith

/-- Size of an approximate solution with the transposed matrix, from some index on. -/
theorem backward (h : Firm s rk u d σ n c μ β) (hts : t ⊆ s) (ht : ∀ r ∈ t, ∀ i ∈ s, i ∉ t → u i r = 0)
    {γ e q Z : F} (hγ : 0 ≤ γ) (he : 0 ≤ e) (hZ : 0 ≤ Z) (hq : 0 ≤ q)
    (hs : (s.card : F) ≤ q ^ 2) (hcond : 2 * (q * (n * c) * γ * (β / μ) ^ 2) ≤ 1) {z x : ι → F} (hz : ∀ i ∈ t, |z i| ≤ Z)
    (hx : ∀ j ∈ t, |z j - ∑ i ∈ s, u i j * x i| ≤ γ * ∑ i ∈ s, |u i j| * |x i| + e) :
    ∀ i ∈ t, |x i| ≤ 2 * q * n * (β / μ) * (Z + e) := by
  rcases t.eq_empty_or_nonempty with rfl | hne
  · exact fun i hi => absurd hi (notMem_empty i)
  obtain ⟨k, hk, hmax⟩ := exists_max_image t (fun i => |x i|) hne
  suffices hsuf : |x k| ≤ 2 * q * n * (β / μ) * (Z + e) from fun i hi => (hmax i hi).trans hsuf
  have hβ := h.β_pos (hts hk)
  have hμ := h.μ_pos
  have hΛ : 0 ≤ β / μ := by positivity
  -- continue the vector such that the other components of its product with the transposed matrix vanish
  obtain ⟨w, hw⟩ := solve_up h.unit fun r => if r ∈ t then ∑ i ∈ t, u i r * x i else 0
  have hsum : ∀ (z : ι → F), ∀ r ∈ t, ∑ i ∈ t, u i r * z i = ∑ i ∈ s, u i r * z i := fun z r hr =>
    sum_subset hts fun i hi hit => by rw [ht r hr i hi hit, zero_mul]
  have hwx : ∀ i ∈ t, w i - x i = 0 := by
    refine (h.unit.mono hts).col_inj (w := fun i => w i - x i) fun r hr => ?_
    have h1 : ∑ i ∈ t, u i r * (w i - x i) = ∑ i ∈ t, u i r * w i - ∑ i ∈ t, u i r * x i := by
      rw [← sum_sub_distrib]
      exact sum_congr rfl fun i _ => by ring
    rw [h1, hsum w r hr, hw r (hts hr), if_pos hr, sub_self]
  have hV : 0 ≤ Z + e + γ * (c * (β / μ * |x k|)) := by positivity
  have hcol : ∀ r ∈ s, |∑ i ∈ s, u i r * w i| ≤ Z + e + γ * (c * (β / μ * |x k|)) := by
    intro r hr
    rw [hw r hr]
    split
    · next hrt =>
      rw [hsum x r hrt]
      have h2 := hx r hrt
      have h3 := hz r hrt
      have h4 : ∑ i ∈ s, |u i r| * |x i| ≤ c * (β / μ * |x k|) := by
        have := sum_le_card (s := t) (x := fun i => u i r * x i) (n := c) (β := β / μ * |x k|) (by positivity)
          (fun i hi => by
            rw [abs_mul]
            exact mul_le_mul (h.u_le i (hts hi) r hr) (hmax i hi) (abs_nonneg _) hΛ)
          ((card_le_card fun i hi => by
            rw [mem_filter] at hi ⊢
            exact ⟨hts hi.1, fun h0 => hi.2 (by beta_reduce; rw [h0, zero_mul])⟩).trans (h.col r hr))
        refine le_trans (le_of_eq ?_) this
        rw [← sum_subset hts fun i hi hit => by rw [ht r hrt i hi hit, abs_zero, zero_mul]]
        simp only [abs_mul]
      have h5 := mul_le_mul_of_nonneg_left h4 hγ
      have h6 : |∑ i ∈ s, u i r * x i| ≤ |z r| + |z r - ∑ i ∈ s, u i r * x i| := by
        have := abs_sub (z r) (z r - ∑ i ∈ s, u i r * x i)
        rwa [sub_sub_cancel] at this
      linarith
    · rw [abs_zero]
      exact hV
  have h1 := h.sd.norm_le h.sign hμ.le w
  have hMw : ∀ i ∈ s, |∑ j ∈ s, (∑ r ∈ s, u i r * d r * u j r) * w j| ≤
      n * (β * (Z + e + γ * (c * (β / μ * |x k|)))) := by
    intro i hi
    rw [mul_vec]
    refine (abs_sum_le_sum_abs _ _).trans ?_
    rw [← mul_assoc]
    refine le_trans ?_ (mul_le_mul_of_nonneg_right (h.row i hi) hV)
    rw [sum_mul]
    refine sum_le_sum fun r hr => ?_
    rw [abs_mul, abs_mul]
    exact mul_le_mul_of_nonneg_left (hcol r hr) (by positivity)
  have h2 := sum_sq_le_root hs hMw
  have h3 : (μ * |x k|) ^ 2 ≤ (q * (n * (β * (Z + e + γ * (c * (β / μ * |x k|)))))) ^ 2 := by
    refine le_trans ?_ (h1.trans h2)
    rw [mul_pow, sq_abs, ← sub_eq_zero.mp (hwx k hk)]
    exact mul_le_mul_of_nonneg_left
      (single_le_sum (f := fun i => w i ^ 2) (fun _ _ => sq_nonneg _) (hts hk)) (sq_nonneg _)
  have h4 : μ * |x k| ≤ q * (n * (β * (Z + e + γ * (c * (β / μ * |x k|))))) :=
    le_of_sq_le_sq h3 (by positivity)
  have h5 : |x k| ≤ β / μ * (q * n * (Z + e + γ * (c * (β / μ * |x k|)))) := by
    rw [div_mul_eq_mul_div, le_div_iff₀ hμ, mul_comm]
    refine h4.trans (le_of_eq ?_)
    ring
  have h6 := mul_le_mul_of_nonneg_right hcond (abs_nonneg (x k))
  nlinarith

end Firm

end Ctldl
