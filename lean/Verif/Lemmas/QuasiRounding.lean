import Verif.Lemmas.DefiniteRounding

/-! # Pivots of approximate factors of quasidefinite matrices -/

namespace Ctldl

open Finset

variable {ι F : Type} [Field F] [LinearOrder F] [IsStrictOrderedRing F] {s : Finset ι}

/-- The matrix is definite with the signs `σ` of the rows. -/
def SignedDef (s : Finset ι) (σ : ι → F) (μ : F) (A : ι → ι → F) : Prop :=
  ∀ x : ι → F, (∃ i ∈ s, x i ≠ 0) → μ * ∑ i ∈ s, x i ^ 2 < ∑ i ∈ s, ∑ j ∈ s, σ i * x i * A i j * x j

theorem SignedDef.restrict {σ : ι → F} {μ : F} {A : ι → ι → F} (h : SignedDef s σ μ A) {t : Finset ι} (ht : t ⊆ s) :
    SignedDef t σ μ A := by
  classical
  intro x ⟨k, hk, hne⟩
  have := h (fun i => if i ∈ t then x i else 0) ⟨k, ht hk, by simpa [hk] using hne⟩
  have e1 : ∑ i ∈ s, (if i ∈ t then x i else 0) ^ 2 = ∑ i ∈ t, x i ^ 2 := by
    rw [← sum_subset ht fun i _ hi => by simp [hi]]
    exact sum_congr rfl fun i hi => by rw [if_pos hi]
  have e2 : ∑ i ∈ s, ∑ j ∈ s, σ i * (if i ∈ t then x i else 0) * A i j * (if j ∈ t then x j else 0) =
      ∑ i ∈ t, ∑ j ∈ t, σ i * x i * A i j * x j := by
    rw [← sum_subset ht fun i _ hi => by simp [hi]]
    refine sum_congr rfl fun i hi => ?_
    rw [← sum_subset ht fun j _ hj => by simp [hj]]
    exact sum_congr rfl fun j hj => by rw [if_pos hi, if_pos hj]
  rwa [e1, e2] at this

/-- A perturbation with small row sums takes away part of the margin. -/
theorem SignedDef.perturb {σ : ι → F} (hσ : ∀ i, |σ i| = 1) {μ ν : F} {A B G : ι → ι → F} (h : SignedDef s σ (μ + ν) A)
    (hAB : ∀ i ∈ s, ∀ j ∈ s, |A i j - B i j| ≤ G i j) (hsymm : ∀ i ∈ s, ∀ j ∈ s, G i j = G j i)
    (hG : ∀ i ∈ s, ∑ j ∈ s, G i j ≤ ν) : SignedDef s σ μ B := by
  intro x hx
  have h1 := h x hx
  have hG0 : ∀ i ∈ s, ∀ j ∈ s, 0 ≤ G i j := fun i hi j hj => (abs_nonneg _).trans (hAB i hi j hj)
  have h2 : ∑ i ∈ s, ∑ j ∈ s, σ i * x i * A i j * x j ≤ ∑ i ∈ s, ∑ j ∈ s,
      (σ i * x i * B i j * x j + (G i j * (x i ^ 2 / 2) + G i j * (x j ^ 2 / 2))) := by
    refine sum_le_sum fun i hi => sum_le_sum fun j hj => ?_
    have h3 : σ i * x i * (A i j - B i j) * x j ≤ G i j * (|x i| * |x j|) := by
      refine (le_abs_self _).trans ?_
      rw [abs_mul, abs_mul, abs_mul, hσ, one_mul]
      have := mul_le_mul_of_nonneg_right (hAB i hi j hj) (mul_nonneg (abs_nonneg (x i)) (abs_nonneg (x j)))
      refine le_trans (le_of_eq ?_) this
      ring
    have h4 : |x i| * |x j| ≤ x i ^ 2 / 2 + x j ^ 2 / 2 := by
      have := sq_nonneg (|x i| - |x j|)
      have e1 := sq_abs (x i)
      have e2 := sq_abs (x j)
      nlinarith
    have h5 := mul_le_mul_of_nonneg_left h4 (hG0 i hi j hj)
    linarith
  have h6 : ∑ i ∈ s, ∑ j ∈ s, G i j * (x j ^ 2 / 2) = ∑ i ∈ s, ∑ j ∈ s, G i j * (x i ^ 2 / 2) := by
    rw [sum_comm]
    exact sum_congr rfl fun i hi => sum_congr rfl fun j hj => by rw [hsymm j hj i hi]
  have h7 : ∑ i ∈ s, ∑ j ∈ s, G i j * (x i ^ 2 / 2) ≤ ν * ∑ i ∈ s, x i ^ 2 / 2 := by
    rw [mul_sum]
    refine sum_le_sum fun i hi => ?_
    rw [← sum_mul]
    exact mul_le_mul_of_nonneg_right (hG i hi) (by positivity)
  simp only [sum_add_distrib] at h2
  rw [h6] at h2
  rw [← sum_div] at h7
  linarith

variable [DecidableEq ι] {rk : ι → Nat} {u : ι → ι → F}

/-- The Schur complement of a definite block is bounded by the rows outside of it. -/
theorem SignedDef.schur (hu : UnitLower s rk u) {D : ι → F} {σ : ι → F} (hσ : ∀ i, |σ i| = 1) {μ : F} (hμ : 0 < μ)
    (h : SignedDef s σ μ fun i j => ∑ t ∈ s, u i t * D t * u j t) (v w : ι → F) :
    (∑ t ∈ s, w t * v t) ^ 2 * μ ^ 2 ≤ (∑ i ∈ s, (∑ t ∈ s, w t * u i t) ^ 2) * ∑ i ∈ s, (∑ t ∈ s, u i t * D t * v t) ^ 2 := by
  obtain ⟨y, hy⟩ := triangular_surj (wf_down rk (s.sup rk)) s
    (l := fun x y => if rk x < rk y then u y x else 0) (fun x _ y hy hne => by
      have : rk x < rk y := by
        by_contra hc
        exact hne (if_neg hc)
      have := le_sup (f := rk) hy
      omega) v
  have hcol : ∀ t ∈ s, ∑ j ∈ s, u j t * y j = v t := fun t ht => by
    rw [hu.col_sum y ht]
    exact hy t ht
  set a : ι → F := fun i => ∑ t ∈ s, u i t * D t * v t
  set b : ι → F := fun i => ∑ t ∈ s, w t * u i t
  have hq : ∑ t ∈ s, w t * v t = ∑ i ∈ s, b i * y i := by
    simp only [b, sum_mul]
    rw [sum_comm]
    refine sum_congr rfl fun t ht => ?_
    rw [← hcol t ht, mul_sum]
    exact sum_congr rfl fun j _ => by ring
  have ha : ∀ i, ∑ j ∈ s, (∑ t ∈ s, u i t * D t * u j t) * y j = a i := by
    intro i
    rw [ldlt_mul]
    refine sum_congr rfl fun t ht => ?_
    rw [hcol t ht]
    ring
  have h1 : μ ^ 2 * ∑ i ∈ s, y i ^ 2 ≤ ∑ i ∈ s, a i ^ 2 := by
    by_cases hne : ∃ i ∈ s, y i ≠ 0
    · have h2 := h y hne
      have e : ∑ i ∈ s, ∑ j ∈ s, σ i * y i * (∑ t ∈ s, u i t * D t * u j t) * y j = ∑ i ∈ s, y i * (σ i * a i) := by
        refine sum_congr rfl fun i _ => ?_
        rw [← ha i, mul_sum, mul_sum]
        exact sum_congr rfl fun j _ => by ring
      rw [e] at h2
      have h3 := sum_mul_sq_le_sq_mul_sq s y fun i => σ i * a i
      have e2 : ∑ i ∈ s, (σ i * a i) ^ 2 = ∑ i ∈ s, a i ^ 2 := by
        refine sum_congr rfl fun i _ => ?_
        rw [mul_pow, ← sq_abs (σ i), hσ, one_pow, one_mul]
      rw [e2] at h3
      obtain ⟨k, hk, hyk⟩ := hne
      have hpos : 0 < ∑ i ∈ s, y i ^ 2 :=
        sum_pos' (fun i _ => sq_nonneg _) ⟨k, hk, by positivity⟩
      have h4 : (μ * ∑ i ∈ s, y i ^ 2) ^ 2 ≤ (∑ i ∈ s, y i ^ 2) * ∑ i ∈ s, a i ^ 2 :=
        (pow_le_pow_left₀ (by positivity) h2.le 2).trans h3
      refine le_of_mul_le_mul_left ?_ hpos
      refine le_trans (le_of_eq ?_) h4
      ring
    · push Not at hne
      rw [sum_eq_zero (f := fun i => y i ^ 2) fun i hi => by rw [hne i hi]; ring, mul_zero]
      exact sum_nonneg fun i _ => sq_nonneg _
  rw [hq]
  have h2 := sum_mul_sq_le_sq_mul_sq s b y
  have h3 := mul_le_mul_of_nonneg_left h1 (sum_nonneg fun i (_ : i ∈ s) => sq_nonneg (b i))
  calc (∑ i ∈ s, b i * y i) ^ 2 * μ ^ 2 ≤ ((∑ i ∈ s, b i ^ 2) * ∑ i ∈ s, y i ^ 2) * μ ^ 2 :=
        mul_le_mul_of_nonneg_right h2 (sq_nonneg _)
    _ = (∑ i ∈ s, b i ^ 2) * (μ ^ 2 * ∑ i ∈ s, y i ^ 2) := by ring
    _ ≤ _ := h3

omit [DecidableEq ι] in
theorem sum_sq_le_sq (x : ι → F) {ρ : F} (h : ∑ i ∈ s, |x i| ≤ ρ) : ∑ i ∈ s, x i ^ 2 ≤ ρ ^ 2 := by
  have h1 : ∑ i ∈ s, x i ^ 2 ≤ (∑ i ∈ s, |x i|) ^ 2 := by
    rw [sq, sum_mul]
    refine sum_le_sum fun i hi => ?_
    rw [← sq_abs, sq]
    exact mul_le_mul_of_nonneg_left (single_le_sum (f := fun i => |x i|) (fun i _ => abs_nonneg _) hi) (abs_nonneg _)
  exact h1.trans (pow_le_pow_left₀ (sum_nonneg fun i _ => abs_nonneg _) h 2)

/-- Sums of at most `n` nonzero terms. -/
theorem sum_le_card {x : ι → F} {n : Nat} {β : F} (hβ : 0 ≤ β) (hx : ∀ i ∈ s, |x i| ≤ β)
    (hn : ({i ∈ s | x i ≠ 0} : Finset ι).card ≤ n) : ∑ i ∈ s, |x i| ≤ n * β := by
  have e1 : ∑ i ∈ s, |x i| = ∑ i ∈ s with x i ≠ 0, |x i| := by
    rw [sum_filter]
    refine sum_congr rfl fun i _ => ?_
    split
    · rfl
    · next h => rw [not_not.mp h, abs_zero]
  rw [e1]
  refine (sum_le_card_nsmul _ _ β fun i hi => hx i (mem_filter.mp hi).1).trans ?_
  rw [nsmul_eq_mul]
  exact mul_le_mul_of_nonneg_right (by exact_mod_cast hn) hβ

/-- Row sums of the product of the absolute values. -/
theorem row_sum_le {w : ι → F} {n c : Nat} {β β' : F} (hβ : 0 ≤ β) (hβ' : 0 ≤ β') (hw : ∀ t ∈ s, |w t| ≤ β)
    (hu : ∀ j ∈ s, ∀ t ∈ s, |u j t| ≤ β') (hn : ({t ∈ s | w t ≠ 0} : Finset ι).card ≤ n)
    (hc : ∀ t ∈ s, ({j ∈ s | u j t ≠ 0} : Finset ι).card ≤ c) :
    ∑ j ∈ s, ∑ t ∈ s, |w t| * |u j t| ≤ n * β * (c * β') := by
  rw [sum_comm]
  have h1 : ∀ t ∈ s, ∑ j ∈ s, |w t| * |u j t| ≤ |w t| * (c * β') := by
    intro t ht
    rw [← mul_sum]
    exact mul_le_mul_of_nonneg_left (sum_le_card hβ' (fun j hj => hu j hj t ht) (hc t ht)) (abs_nonneg _)
  refine (sum_le_sum h1).trans ?_
  rw [← sum_mul]
  exact mul_le_mul_of_nonneg_right (sum_le_card hβ hw hn) (by positivity)

variable {d p : ι → F} {A : ι → ι → F} {γ e μ : F}

/-- The pivots up to `k`, the last one before regularization. -/
def pivotsUpTo (k : ι) (d p : ι → F) (r : ι) : F := if r = k then p k else d r

omit [IsStrictOrderedRing F] in
theorem pivotsUpTo_sum (hu : UnitLower s rk u) {k : ι} (hk : k ∈ s) (hd : ∀ j ∈ s, rk j < rk k → d j = p j)
    (g : F → F) (g0 : g 0 = 0) (g1 : g 1 = 1) {i j : ι} (hi : i ∈ s) (hik : rk i ≤ rk k) (hj : j ∈ s)
    (hjk : rk j ≤ rk k) :
    ∑ r ∈ s, g (u i r) * g (d r) * g (u j r) + (if i = j then g (p i) - g (d i) else 0) =
      ∑ r ∈ s, g (u i r) * g (pivotsUpTo k d p r) * g (u j r) := by
  have hrk : ∀ i ∈ s, rk i ≤ rk k → i ≠ k → rk i < rk k := fun i hi hik hne => by
    have := mt (hu.inj i hi k hk) hne
    omega
  have hD : ∀ r ∈ s.erase k, g (u i r) * g (pivotsUpTo k d p r) * g (u j r) = g (u i r) * g (d r) * g (u j r) :=
    fun r hr => by simp only [pivotsUpTo, if_neg (ne_of_mem_erase hr)]
  rw [← add_sum_erase s _ hk, ← add_sum_erase s (fun r => g (u i r) * g (pivotsUpTo k d p r) * g (u j r)) hk,
    sum_congr rfl hD]
  simp only [pivotsUpTo, if_true]
  by_cases hik' : i = k
  · subst hik'
    rw [hu.one i hi, g1]
    by_cases hjk' : i = j
    · subst hjk'
      rw [if_pos rfl, hu.one i hi, g1]
      ring
    · rw [if_neg hjk', hu.zero j hj i hi (hrk j hj hjk (Ne.symm hjk')), g0]
      ring
  · rw [hu.zero i hi k hk (hrk i hi hik hik'), g0]
    have : (if i = j then g (p i) - g (d i) else 0) = 0 := by
      rw [hd i hi (hrk i hi hik hik'), sub_self, ite_self]
    rw [this]
    ring

/-- The last pivot of a definite block. -/
theorem SignedDef.last_pivot (hu : UnitLower s rk u) {D : ι → F} {σ : ι → F} {μ : F} (hμ : 0 ≤ μ)
    (h : SignedDef s σ μ fun i j => ∑ t ∈ s, u i t * D t * u j t) {k : ι} (hk : k ∈ s) (hle : ∀ j ∈ s, rk j ≤ rk k) :
    μ < σ k * D k := by
  obtain ⟨x, hxk, -, hxB⟩ := LdltUpTo.exists_conj (d := D)
    (A := fun i j => ∑ t ∈ s, u i t * D t * u j t) hu hk (fun i _ _ j _ _ => rfl)
  have h1 := h x ⟨k, hk, by rw [hxk]; exact one_ne_zero⟩
  have h2 : ∑ i ∈ s, ∑ j ∈ s, σ i * x i * (∑ t ∈ s, u i t * D t * u j t) * x j =
      σ k * D k := by
    have h3 : ∀ i ∈ s, ∑ j ∈ s, σ i * x i * (∑ t ∈ s, u i t * D t * u j t) * x j =
        if i = k then σ k * D k else 0 := by
      intro i hi
      have e1 : ∑ j ∈ s, σ i * x i * (∑ t ∈ s, u i t * D t * u j t) * x j =
          σ i * x i * ∑ j ∈ s, (∑ t ∈ s, u i t * D t * u j t) * x j := by
        rw [mul_sum]
        exact sum_congr rfl fun j _ => by ring
      rw [e1, hxB i hi (hle i hi)]
      split
      · next h => rw [h, hxk, mul_one]
      · rw [mul_zero]
    rw [sum_congr rfl h3, sum_ite_eq' (s) k, if_pos hk]
  rw [h2] at h1
  have h4 : 1 ≤ ∑ i ∈ s, x i ^ 2 := by
    have := single_le_sum (f := fun i => x i ^ 2) (fun i _ => sq_nonneg _) hk
    rw [hxk, one_pow] at this
    exact this
  exact (le_mul_of_one_le_right hμ h4).trans_lt h1

/-- Approximate factors of a sufficiently quasidefinite matrix have pivots of the right signs, and are bounded. `p`
are the pivots before regularization, `ρ` bounds the row sums of the matrix, `n` the number of elements in a row of
the factor and `c` the one in a column. -/
theorem approx_pivots_quasi (hu : UnitLower s rk u) (hγ : 0 ≤ γ) (hγ2 : γ ≤ 1 / 2) (he : 0 ≤ e) (hμ : 0 < μ)
    (hA : ∀ i ∈ s, ∀ j ∈ s, |A i j - (∑ r ∈ s, u i r * d r * u j r + if i = j then p i - d i else 0)| ≤
      γ * (∑ r ∈ s, |u i r| * |d r| * |u j r| + if i = j then |p i| - |d i| else 0) + e)
    {σ : ι → F} (hσ : ∀ i, |σ i| = 1) (hreg : ∀ i ∈ s, μ < σ i * p i → d i = p i) (hdef : SignedDef s σ (2 * μ) A)
    {ρ : F} (hρ : ∀ i ∈ s, ∑ j ∈ s, |A i j| ≤ ρ) {n c : Nat}
    (hn : ∀ i ∈ s, ({r ∈ s | u i r ≠ 0} : Finset ι).card ≤ n)
    (hc : ∀ r ∈ s, ({i ∈ s | u i r ≠ 0} : Finset ι).card ≤ c) {β : F} (hβ : 6 * ρ ^ 2 ≤ β * μ)
    (hsmall : γ * (n * β * (c * (β / μ))) + s.card * e ≤ μ) :
    ∀ k ∈ s, μ < σ k * p k ∧ d k = p k ∧ ∀ r ∈ s, |u k r * d r| ≤ β := by
  suffices h : ∀ m, ∀ k ∈ s, rk k = m → μ < σ k * p k ∧ d k = p k ∧ ∀ r ∈ s, |u k r * d r| ≤ β from
    fun k hk => h _ k hk rfl
  intro m
  induction m using Nat.strong_induction_on with
  | _ m ih' =>
  intro k hk hkm
  have ih : ∀ j ∈ s, rk j < rk k → μ < σ j * p j ∧ d j = p j ∧ ∀ r ∈ s, |u j r * d r| ≤ β :=
    fun j hj hjk => ih' (rk j) (by omega) j hj rfl
  clear ih' hkm
  set D : ι → F := pivotsUpTo k d p with hDdef
  have hDlt : ∀ r, rk r < rk k → D r = d r := fun r hr => by
    simp only [D, pivotsUpTo]
    rw [if_neg]
    rintro rfl
    omega
  have hDk : D k = p k := by simp only [D, pivotsUpTo, if_true]
  have hAB : ∀ i ∈ s, rk i ≤ rk k → ∀ j ∈ s, rk j ≤ rk k →
      |A i j - ∑ r ∈ s, u i r * D r * u j r| ≤ γ * ∑ r ∈ s, |u i r * D r| * |u j r| + e := by
    intro i hi hik j hj hjk
    have h0 := hA i hi j hj
    have e1 := pivotsUpTo_sum hu hk (fun j hj hjk => (ih j hj hjk).2.1) id rfl rfl hi hik hj hjk
    have e2 := pivotsUpTo_sum hu hk (fun j hj hjk => (ih j hj hjk).2.1) (fun x => |x|) abs_zero abs_one hi hik hj hjk
    simp only [id] at e1
    rw [e1, e2] at h0
    simp only [abs_mul]
    exact h0
  clear hA
  -- the size of the matrix
  have hρμ : 2 * μ < ρ := by
    have h1 := hdef.restrict (singleton_subset_iff.mpr hk) (fun _ => 1) ⟨k, mem_singleton_self k, one_ne_zero⟩
    simp only [sum_singleton, one_pow, mul_one] at h1
    have h2 : σ k * A k k ≤ |A k k| := by
      refine (le_abs_self _).trans (le_of_eq ?_)
      rw [abs_mul, hσ, one_mul]
    have h3 := (single_le_sum (f := fun j => |A k j|) (fun j _ => abs_nonneg _) hk).trans (hρ k hk)
    linarith
  have hβ0 : 0 ≤ β := by
    by_contra hneg
    push Not at hneg
    have := mul_neg_of_neg_of_pos hneg hμ
    nlinarith [sq_nonneg ρ]
  have hβ' : 0 ≤ β / μ := div_nonneg hβ0 hμ.le
  -- elements of the factor
  have hpiv : ∀ t ∈ s, rk t < rk k → μ < |d t| := by
    intro t ht htk
    obtain ⟨h1, h2, -⟩ := ih t ht htk
    rw [h2]
    refine h1.trans_le ((le_abs_self _).trans (le_of_eq ?_))
    rw [abs_mul, hσ, one_mul]
  have hub : ∀ {x : F} {t : ι}, t ∈ s → rk t < rk k → |x * d t| ≤ β → |x| ≤ β / μ := by
    intro x t ht htk hx
    rw [le_div_iff₀ hμ]
    rw [abs_mul] at hx
    exact (mul_le_mul_of_nonneg_left (hpiv t ht htk).le (abs_nonneg x)).trans hx
  -- leading blocks
  have hred : ∀ (T : Finset ι), T ⊆ s → (∀ j ∈ T, ∀ t ∈ s, rk t ≤ rk j → t ∈ T) → ∀ j ∈ T, ∀ (g : ι → F) (f : F → F),
      f 0 = 0 → ∑ t ∈ s, g t * f (u j t) = ∑ t ∈ T, g t * f (u j t) := by
    intro T hTs hT j hj g f hf
    symm
    refine sum_subset hTs fun t ht htT => ?_
    have : rk j < rk t := by
      by_contra hcon
      exact htT (hT j hj t ht (by omega))
    rw [hu.zero j (hTs hj) t ht this, hf, mul_zero]
  have hcardn : ∀ (T : Finset ι), T ⊆ s → ∀ i ∈ s, ({t ∈ T | u i t * D t ≠ 0} : Finset ι).card ≤ n := by
    intro T hTs i hi
    refine (card_le_card fun t ht => ?_).trans (hn i hi)
    obtain ⟨h1, h2⟩ := mem_filter.mp ht
    exact mem_filter.mpr ⟨hTs h1, left_ne_zero_of_mul h2⟩
  have hcardc : ∀ (T : Finset ι), T ⊆ s → ∀ t ∈ T, ({j ∈ T | u j t ≠ 0} : Finset ι).card ≤ c := by
    intro T hTs t ht
    exact (card_le_card (filter_subset_filter _ hTs)).trans (hc t (hTs ht))
  have hrows : ∀ (T : Finset ι), T ⊆ s → (∀ j ∈ T, ∀ t ∈ T, |u j t| ≤ β / μ) → ∀ i ∈ s,
      (∀ t ∈ T, |u i t * D t| ≤ β) → ∑ j ∈ T, (γ * ∑ t ∈ T, |u i t * D t| * |u j t| + e) ≤ μ := by
    intro T hTs huT i hi hw
    rw [sum_add_distrib, ← mul_sum, sum_const, nsmul_eq_mul]
    refine le_trans (add_le_add (mul_le_mul_of_nonneg_left (row_sum_le hβ0 hβ' hw huT (hcardn T hTs i hi)
      (hcardc T hTs)) hγ) (mul_le_mul_of_nonneg_right ?_ he)) hsmall
    exact_mod_cast card_le_card hTs
  have hdefT : ∀ (T : Finset ι), T ⊆ s → (∀ j ∈ T, rk j ≤ rk k) → (∀ j ∈ T, ∀ t ∈ s, rk t ≤ rk j → t ∈ T) →
      (∀ j ∈ T, ∀ t ∈ T, |u j t| ≤ β / μ) → (∀ j ∈ T, ∀ t ∈ T, |u j t * D t| ≤ β) →
      SignedDef T σ μ fun i j => ∑ t ∈ T, u i t * D t * u j t := by
    intro T hTs hTk hT huT hw
    have h2 := hdef.restrict hTs
    rw [two_mul] at h2
    refine h2.perturb hσ (G := fun i j => γ * ∑ t ∈ T, |u i t * D t| * |u j t| + e) ?_ ?_ ?_
    · intro i hi j hj
      have := hAB i (hTs hi) (hTk i hi) j (hTs hj) (hTk j hj)
      rw [hred T hTs hT j hj (fun t => u i t * D t) (fun x => x) rfl,
        hred T hTs hT j hj (fun t => |u i t * D t|) (fun x => |x|) abs_zero] at this
      exact this
    · intro i _ j _
      congr 2
      refine sum_congr rfl fun t _ => ?_
      rw [abs_mul, abs_mul]
      ring
    · intro i hi
      exact hrows T hTs huT i (hTs hi) (hw i hi)
  -- the row of `k`, element by element
  have hrow : ∀ r ∈ s, rk r ≤ rk k → |u k r * D r| ≤ β := by
    suffices h : ∀ m, ∀ r ∈ s, rk r = m → rk r ≤ rk k → |u k r * D r| ≤ β from fun r hr => h _ r hr rfl
    intro m
    induction m using Nat.strong_induction_on with
    | _ m ihr' =>
    intro r hr hrm hrk
    have ihr : ∀ t ∈ s, rk t < rk r → |u k t * D t| ≤ β :=
      fun t ht htr => ihr' (rk t) (by omega) t ht rfl (by omega)
    clear ihr' hrm
    set T : Finset ι := s.filter fun t => rk t < rk r with hTdef
    have hTs : T ⊆ s := filter_subset _ _
    have memT : ∀ {t}, t ∈ T ↔ t ∈ s ∧ rk t < rk r := mem_filter
    have hT : ∀ j ∈ T, ∀ t ∈ s, rk t ≤ rk j → t ∈ T := fun j hj t ht htj =>
      memT.mpr ⟨ht, htj.trans_lt (memT.mp hj).2⟩
    have hTk : ∀ t ∈ T, rk t < rk k := fun t ht => (memT.mp ht).2.trans_le hrk
    have hwT : ∀ j ∈ T, ∀ t ∈ T, |u j t * D t| ≤ β := fun j hj t ht => by
      rw [hDlt t (hTk t ht)]
      exact (ih j (hTs hj) (hTk j hj)).2.2 t (hTs ht)
    have huT : ∀ j ∈ T, ∀ t ∈ T, |u j t| ≤ β / μ := fun j hj t ht => by
      have := hwT j hj t ht
      rw [hDlt t (hTk t ht)] at this
      exact hub (hTs ht) (hTk t ht) this
    have hwk : ∀ t ∈ T, |u k t * D t| ≤ β := fun t ht => ihr t (hTs ht) (memT.mp ht).2
    have hwr : ∀ t ∈ T, |u r t * D t| ≤ β := fun t ht => by
      by_cases hrk' : rk r < rk k
      · rw [hDlt t (hTk t ht)]
        exact (ih r hr hrk').2.2 t (hTs ht)
      · rw [hu.inj r hr k hk (by omega)]
        exact hwk t ht
    -- parts of the rows
    have hpart : ∀ i ∈ s, rk i ≤ rk k → (∀ t ∈ T, |u i t * D t| ≤ β) →
        ∑ j ∈ T, |∑ t ∈ T, u i t * D t * u j t| ≤ ρ + μ := by
      intro i hi hik hw
      have h1 : ∀ j ∈ T, |∑ t ∈ T, u i t * D t * u j t| ≤ |A i j| + (γ * ∑ t ∈ T, |u i t * D t| * |u j t| + e) := by
        intro j hj
        have h2 := hAB i hi hik j (hTs hj) (hTk j hj).le
        rw [hred T hTs hT j hj (fun t => u i t * D t) (fun x => x) rfl,
          hred T hTs hT j hj (fun t => |u i t * D t|) (fun x => |x|) abs_zero] at h2
        have h3 := abs_sub_abs_le_abs_sub (∑ t ∈ T, u i t * D t * u j t) (A i j)
        rw [abs_sub_comm] at h3
        linarith
      refine (sum_le_sum h1).trans ?_
      rw [sum_add_distrib]
      refine add_le_add (le_trans ?_ (hρ i hi)) (hrows T hTs huT i hi hw)
      exact sum_le_sum_of_subset_of_nonneg hTs fun _ _ _ => abs_nonneg _
    have hq2 := (hdefT T hTs (fun t ht => (hTk t ht).le) hT huT hwT).schur (hu.mono hTs) hσ hμ (fun t => u r t)
      (fun t => u k t * D t)
    set q : F := ∑ t ∈ T, u k t * D t * u r t with hq
    have hb : ∑ i ∈ T, (∑ t ∈ T, u k t * D t * u i t) ^ 2 ≤ (ρ + μ) ^ 2 := sum_sq_le_sq _ (hpart k hk le_rfl hwk)
    have ha : ∑ i ∈ T, (∑ t ∈ T, u i t * D t * u r t) ^ 2 ≤ (ρ + μ) ^ 2 := by
      refine sum_sq_le_sq _ (le_trans (le_of_eq ?_) (hpart r hr hrk hwr))
      refine sum_congr rfl fun i _ => ?_
      congr 1
      exact sum_congr rfl fun t _ => by ring
    have hqb : |q| * μ ≤ (ρ + μ) ^ 2 := by
      have h1 : (|q| * μ) ^ 2 ≤ ((ρ + μ) ^ 2) ^ 2 := by
        rw [mul_pow, sq_abs]
        refine hq2.trans ?_
        rw [sq ((ρ + μ) ^ 2)]
        exact mul_le_mul hb ha (sum_nonneg fun _ _ => sq_nonneg _) (sq_nonneg _)
      exact (pow_le_pow_iff_left₀ (by positivity) (by positivity) two_ne_zero).mp h1
    -- the element
    have hsplit : ∀ (g : ι → F) (f : F → F), f 0 = 0 → f 1 = 1 →
        ∑ t ∈ s, g t * f (u r t) = g r + ∑ t ∈ T, g t * f (u r t) := by
      intro g f f0 f1
      rw [← add_sum_erase s _ hr, hu.one r hr, f1, mul_one]
      congr 1
      symm
      refine sum_subset (fun t ht => mem_erase.mpr ⟨?_, hTs ht⟩) fun t ht htT => ?_
      · rintro rfl
        exact absurd (memT.mp ht).2 (lt_irrefl _)
      · obtain ⟨hne, ht⟩ := mem_erase.mp ht
        have h1 := mt (hu.inj t ht r hr) hne
        have h2 : ¬ rk t < rk r := fun h => htT (memT.mpr ⟨ht, h⟩)
        rw [hu.zero r hr t ht (by omega), f0, mul_zero]
    have h1 := hAB k hk le_rfl r hr hrk
    rw [hsplit (fun t => u k t * D t) (fun x => x) rfl rfl, hsplit (fun t => |u k t * D t|) (fun x => |x|) abs_zero abs_one] at h1
    rw [← hq] at h1
    have h2 : ∑ t ∈ T, |u k t * D t| * |u r t| ≤ n * β * (c * (β / μ)) := by
      have h3 : ∀ t ∈ T, |u k t * D t| * |u r t| ≤ |u k t * D t| * (β / μ) := fun t ht => by
        refine mul_le_mul_of_nonneg_left ?_ (abs_nonneg _)
        have := hwr t ht
        rw [hDlt t (hTk t ht)] at this
        exact hub (hTs ht) (hTk t ht) this
      refine (sum_le_sum h3).trans ?_
      rw [← sum_mul]
      refine mul_le_mul (sum_le_card hβ0 hwk (hcardn T hTs k hk)) ?_ hβ' (by positivity)
      have : (1 : F) ≤ c := by
        have h4 : 1 ≤ c := (card_pos.mpr ⟨r, mem_filter.mpr ⟨hr, by rw [hu.one r hr]; exact one_ne_zero⟩⟩).trans_le (hc r hr)
        exact_mod_cast h4
      nlinarith
    have h5 : |A k r| ≤ ρ := (single_le_sum (f := fun j => |A k j|) (fun j _ => abs_nonneg _) hr).trans (hρ k hk)
    have h6 : e ≤ s.card * e := by
      have : (1 : F) ≤ s.card := by exact_mod_cast card_pos.mpr ⟨k, hk⟩
      nlinarith
    have h7 := mul_le_mul_of_nonneg_left h2 hγ
    have h8 : |u k r * D r| ≤ |u k r * D r| / 2 + (ρ + μ + |q|) := by
      have h9 : |u k r * D r| ≤ |A k r - (u k r * D r + q)| + |A k r| + |q| := by
        have e1 : u k r * D r = -(A k r - (u k r * D r + q)) + A k r - q := by ring
        calc |u k r * D r| = |-(A k r - (u k r * D r + q)) + A k r - q| := by rw [← e1]
          _ ≤ |-(A k r - (u k r * D r + q)) + A k r| + |q| := abs_sub _ _
          _ ≤ _ := by
            have := abs_add_le (-(A k r - (u k r * D r + q))) (A k r)
            rw [abs_neg] at this
            linarith
      have h10 := mul_le_mul_of_nonneg_right hγ2 (abs_nonneg (u k r * D r))
      linarith
    have h11 : |u k r * D r| * μ ≤ β * μ := by
      have h12 : |u k r * D r| * μ ≤ 2 * (ρ + μ) * μ + 2 * (ρ + μ) ^ 2 := by nlinarith
      nlinarith
    exact le_of_mul_le_mul_right h11 hμ
  -- the pivot
  have hT' : ∀ j ∈ upTo s rk k, ∀ t ∈ s, rk t ≤ rk j → t ∈ upTo s rk k := fun j hj t ht htj =>
    mem_upTo.mpr ⟨ht, htj.trans (mem_upTo.mp hj).2⟩
  have hTs' : upTo s rk k ⊆ s := filter_subset _ _
  have hkT : k ∈ upTo s rk k := mem_upTo.mpr ⟨hk, le_rfl⟩
  have hμβ : μ ≤ β := by
    refine le_of_mul_le_mul_right ?_ hμ
    nlinarith
  have hw' : ∀ j ∈ upTo s rk k, ∀ t ∈ upTo s rk k, |u j t * D t| ≤ β := by
    intro j hj t ht
    obtain ⟨hj, hjk⟩ := mem_upTo.mp hj
    obtain ⟨ht, htk⟩ := mem_upTo.mp ht
    by_cases hjk' : rk j < rk k
    · by_cases htk' : rk t < rk k
      · rw [hDlt t htk']
        exact (ih j hj hjk').2.2 t ht
      · rw [hu.zero j hj t ht (by omega), zero_mul, abs_zero]
        exact hβ0
    · rw [hu.inj j hj k hk (by omega)]
      exact hrow t ht htk
  have hu' : ∀ j ∈ upTo s rk k, ∀ t ∈ upTo s rk k, |u j t| ≤ β / μ := by
    intro j hj t ht
    have h1 := hw' j hj t ht
    obtain ⟨hj, hjk⟩ := mem_upTo.mp hj
    obtain ⟨ht, htk⟩ := mem_upTo.mp ht
    by_cases htk' : rk t < rk k
    · rw [hDlt t htk'] at h1
      exact hub ht htk' h1
    · rw [hu.inj t ht k hk (by omega)]
      by_cases hjk' : rk j < rk k
      · rw [hu.zero j hj k hk hjk', abs_zero]
        exact hβ'
      · rw [hu.inj j hj k hk (by omega), hu.one k hk, abs_one, le_div_iff₀ hμ, one_mul]
        exact hμβ
  have hB := hdefT _ hTs' (fun j hj => (mem_upTo.mp hj).2) hT' hu' hw'
  have h5 : μ < σ k * p k := hDk ▸ hB.last_pivot (hu.mono hTs') hμ.le hkT fun j hj => (mem_upTo.mp hj).2
  have h6 := hreg k hk h5
  refine ⟨h5, h6, fun r hr => ?_⟩
  by_cases hrk : rk r ≤ rk k
  · have := hrow r hr hrk
    by_cases hrk' : rk r < rk k
    · rwa [hDlt r hrk'] at this
    · rw [hu.inj r hr k hk (by omega)] at this ⊢
      rwa [hDk, ← h6] at this
  · rw [hu.zero k hk r hr (by omega), zero_mul, abs_zero]
    exact hβ0

end Ctldl
