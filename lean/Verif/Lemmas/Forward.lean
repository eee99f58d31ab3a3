import Verif.Spec.Range
import Verif.Lemmas.Rounding
import Verif.Lemmas.DefiniteRounding

/-! # Factorizations of definite matrices do not overflow

The computation of the entries and pivots in any of the orders in which the program does it. -/

namespace Ctldl

open Finset

variable {ι ι' : Type} {K F : Type} [Field F] [LinearOrder F] [IsStrictOrderedRing F]

/-- Definiteness of submatrices. -/
theorem PosDef.submatrix {s : Finset ι} {t : Finset ι'} {e : ι → ι'} (h1 : ∀ i ∈ s, e i ∈ t)
    (h2 : ∀ i ∈ s, ∀ j ∈ s, e i = e j → i = j) {μ : F} {A : ι' → ι' → F} (h : PosDef t μ A) :
    PosDef s μ (fun i j => A (e i) (e j)) := by
  classical
  intro x hx
  let y : ι' → F := fun b => ∑ i ∈ s with e i = b, x i
  have hy : ∀ i ∈ s, y (e i) = x i := by
    intro i hi
    have : s.filter (fun j => e j = e i) = {i} := by
      ext j
      simp only [mem_filter, mem_singleton]
      exact ⟨fun hj => h2 j hj.1 i hi hj.2, fun hj => by subst hj; exact ⟨hi, rfl⟩⟩
    show ∑ j ∈ s with e j = e i, x j = x i
    rw [this, sum_singleton]
  have hz : ∀ b, b ∉ s.image e → y b = 0 := by
    intro b hb
    show ∑ j ∈ s with e j = b, x j = 0
    rw [filter_eq_empty_iff.mpr fun j hj hjb => hb (mem_image.mpr ⟨j, hj, hjb⟩), sum_empty]
  have hsub : s.image e ⊆ t := fun b hb => by
    obtain ⟨i, hi, rfl⟩ := mem_image.mp hb
    exact h1 i hi
  have hsum : ∀ g : ι' → F, (∀ b, y b = 0 → g b = 0) → ∑ b ∈ t, g b = ∑ i ∈ s, g (e i) := by
    intro g hg
    rw [← sum_subset hsub fun b _ hb => hg b (hz b hb), sum_image h2]
  obtain ⟨i, hi, hne⟩ := hx
  have := h y ⟨e i, h1 i hi, by rw [hy i hi]; exact hne⟩
  rw [hsum (fun b => y b ^ 2) (fun b hb => by rw [hb]; ring), hsum _ (fun b hb => by simp [hb])] at this
  have e1 : ∑ i ∈ s, y (e i) ^ 2 = ∑ i ∈ s, x i ^ 2 := sum_congr rfl fun i hi => by rw [hy i hi]
  have e2 : ∑ i ∈ s, ∑ b ∈ t, y (e i) * A (e i) b * y b = ∑ i ∈ s, ∑ j ∈ s, x i * A (e i) (e j) * x j := by
    refine sum_congr rfl fun i hi => ?_
    rw [hsum _ (fun b hb => by rw [hb, mul_zero])]
    exact sum_congr rfl fun j hj => by rw [hy i hi, hy j hj]
  rwa [e1, e2] at this

variable [Zero K] [Sub K] [Mul K] [Div K]

/-- The entries and pivots of a factorization: `has` is the pattern of `L`, `A` the matrix, `l` are the entries, `w` their
numerators and `d` the pivots. Numerators and pivots result from subtracting one term for each common entry of the rows, in
any order, and the terms are evaluated as in the up-looking or the entry-wise method. -/
structure Elim (s : Finset ι) (rk : ι → Nat) (has : ι → ι → Prop) (A l w : ι → ι → K) (d : ι → K) (n : Nat) : Prop where
  inj : ∀ x ∈ s, ∀ y ∈ s, rk x = rk y → x = y
  lower : ∀ {i j}, has i j → i ∈ s ∧ j ∈ s ∧ rk j < rk i
  closed : ∀ {i j k}, has i k → has j k → rk j < rk i → has i j
  zero : ∀ {i j}, i ∈ s → j ∈ s → rk j < rk i → ¬ has i j → A i j = 0
  off : ∀ {i j}, ¬ has i j → l i j = 0
  symm : ∀ i j, A i j = A j i
  quot : ∀ {i j}, has i j → l i j = w i j / d j
  num : ∀ {i j}, has i j → ∃ ks : List ι, ks.Nodup ∧ (∀ k, k ∈ ks ↔ has i k ∧ has j k) ∧
    ∃ t : ι → K, (∀ k ∈ ks, t k = l j k * w i k ∨ t k = l i k * l j k * d k) ∧ w i j = subAll ks t (A i j)
  piv : ∀ {i}, i ∈ s → ∃ ks : List ι, ks.Nodup ∧ (∀ k, k ∈ ks ↔ has i k) ∧ ks.length ≤ n ∧
    ∃ t : ι → K, (∀ k ∈ ks, t k = w i k * l i k ∨ t k = l i k * l i k * d k) ∧ d i = subAll ks t (A i i)

/-- Numerators have fewer terms than pivots. -/
theorem Elim.num' {s : Finset ι} {rk : ι → Nat} {has : ι → ι → Prop} {A l w : ι → ι → K} {d : ι → K} {n : Nat}
    (h : Elim s rk has A l w d n) {i j : ι} (hij : has i j) : ∃ ks : List ι, ks.Nodup ∧
    (∀ k, k ∈ ks ↔ has i k ∧ has j k) ∧ ks.length ≤ n ∧
    ∃ t : ι → K, (∀ k ∈ ks, t k = l j k * w i k ∨ t k = l i k * l j k * d k) ∧ w i j = subAll ks t (A i j) := by
  obtain ⟨ks, h1, h2, h3⟩ := h.num hij
  obtain ⟨ks', h1', h2', h3', -⟩ := h.piv (h.lower hij).1
  exact ⟨ks, h1, h2, (h1.subperm fun k hk => (h2' k).mpr ((h2 k).mp hk).1).length_le.trans h3', h3⟩

namespace Rounding

variable {R : Rounding K F} {Ω : F}

theorem one_add_u_le : 1 + R.u ≤ R.growth 1 := by
  unfold growth
  rw [pow_one, le_div_iff₀ R.one_sub_pos]
  have := mul_nonneg R.u_nonneg R.u_nonneg
  linarith

theorem Apx.bound {n : Nat} {x S A E : F} (h : R.Apx n x S A E) : |x| ≤ R.growth n * (A + E) := by
  have h1 := h.err
  have h2 := h.abs_le
  have h3 : |x| ≤ |x - S| + |S| := by
    have := abs_add_le (x - S) S
    rwa [sub_add_cancel] at this
  unfold gamma at h1
  linarith

/-- A chain of subtractions is finite if the bounds of its terms are small enough. -/
theorem fin_subAll (hR : R.Range Ω) {ks : List ι} {f : ι → K} {T : ι → F} {a : K} {b : F} (hs : R.stored a) (ha : R.fin a)
    (hab : |R.v a| ≤ b) (hf : ∀ k ∈ ks, R.fin (f k)) (hT : ∀ k ∈ ks, |R.v (f k)| + R.σ ≤ T k)
    (hΩ : R.growth ks.length * (b + (ks.map T).sum) ≤ Ω) :
    R.fin (subAll ks f a) ∧ R.stored (subAll ks f a) ∧
      |R.v (subAll ks f a)| ≤ R.growth ks.length * (b + (ks.map T).sum) := by
  induction ks generalizing a b with
  | nil => exact ⟨ha, hs, by simpa [subAll, growth_zero] using hab⟩
  | cons k ks ih =>
    have hb : 0 ≤ b := (abs_nonneg _).trans hab
    have hT0 : ∀ k' ∈ ks, 0 ≤ T k' := fun k' hk' =>
      (add_nonneg (abs_nonneg _) R.σ_nonneg).trans (hT k' (List.mem_cons_of_mem _ hk'))
    have hsum : 0 ≤ (ks.map T).sum := List.sum_nonneg (by
      intro x hx
      obtain ⟨k', hk', rfl⟩ := List.mem_map.mp hx
      exact hT0 k' hk')
    have hTk := hT k List.mem_cons_self
    have hk0 : 0 ≤ T k := (add_nonneg (abs_nonneg _) R.σ_nonneg).trans hTk
    simp only [List.map_cons, List.sum_cons, List.length_cons] at hΩ ⊢
    have hg := R.one_le_growth (ks.length + 1)
    have hbk : b + T k ≤ Ω := by
      refine le_trans ?_ hΩ
      have : b + T k ≤ 1 * (b + (T k + (ks.map T).sum)) := by linarith
      exact this.trans (mul_le_mul_of_nonneg_right hg (by linarith))
    have hd : |R.v a - R.v (f k)| ≤ b + |R.v (f k)| := by
      have := abs_sub (R.v a) (R.v (f k))
      linarith
    have hfin := hR.fin_sub hs ha (hf k List.mem_cons_self) (by have := R.σ_nonneg; linarith)
    obtain ⟨-, -, δ, e, hδ, he, hv⟩ := R.sub hfin
    have hv' : |R.v (a - f k)| ≤ R.growth 1 * (b + T k) := by
      rw [hv]
      have h1 : |(R.v a - R.v (f k)) * (1 + δ) + e| ≤ (b + |R.v (f k)|) * R.growth 1 + R.σ := by
        refine (abs_add_le _ _).trans (add_le_add ?_ he)
        rw [abs_mul]
        refine mul_le_mul hd ?_ (abs_nonneg _) (add_nonneg hb (abs_nonneg _))
        refine ((abs_add_le 1 δ).trans ?_).trans R.one_add_u_le
        rw [abs_one]
        linarith
      have h2 : R.σ ≤ R.growth 1 * R.σ := le_mul_of_one_le_left R.σ_nonneg (R.one_le_growth 1)
      have h3 := mul_le_mul_of_nonneg_left hTk (R.growth_pos 1).le
      linarith
    have e1 : R.growth (ks.length + 1) = R.growth ks.length * R.growth 1 := R.growth_add _ _
    have h4 : R.growth ks.length * (R.growth 1 * (b + T k) + (ks.map T).sum) ≤
        R.growth (ks.length + 1) * (b + (T k + (ks.map T).sum)) := by
      rw [e1, mul_assoc]
      refine mul_le_mul_of_nonneg_left ?_ (R.growth_pos _).le
      have := le_mul_of_one_le_left hsum (R.one_le_growth 1)
      linarith
    obtain ⟨i1, i2, i3⟩ := ih (a := a - f k) (hR.stored_sub _ _) hfin hv'
      (fun k' hk' => hf k' (List.mem_cons_of_mem _ hk')) (fun k' hk' => hT k' (List.mem_cons_of_mem _ hk')) (h4.trans hΩ)
    exact ⟨i1, i2, i3.trans h4⟩

end Rounding

/-- A row of `L D Lᵀ` in terms of the common entries. -/
theorem sum_common [DecidableEq ι] {s : Finset ι} {U D V : ι → F} {ks : List ι} {j : ι} (hj : j ∈ s) (hn : ks.Nodup)
    (hjk : j ∉ ks) (hks : ∀ k ∈ ks, k ∈ s) (h1 : V j = 1) (h : ∀ r ∈ s, U r ≠ 0 → V r ≠ 0 → r = j ∨ r ∈ ks) :
    ∑ r ∈ s, U r * D r * V r = U j * D j + (ks.map fun k => U k * D k * V k).sum := by
  have hsub : insert j ks.toFinset ⊆ s := by
    intro r hr
    rcases mem_insert.mp hr with rfl | hr
    · exact hj
    · exact hks r (List.mem_toFinset.mp hr)
  rw [← sum_subset hsub, sum_insert (by rwa [List.mem_toFinset]), h1, mul_one, List.sum_toFinset _ hn]
  intro r hr hr'
  by_cases hU : U r = 0
  · rw [hU]; ring
  by_cases hV : V r = 0
  · rw [hV]; ring
  exfalso
  refine hr' (mem_insert.mpr ?_)
  rw [List.mem_toFinset]
  exact h r hr hU hV

namespace Elim

/-- Conditions on the matrix and the arithmetic: `α` bounds the diagonal of the matrix, `μ` the pivots from below, `Λ` the
entries and `ε` the errors by underflow. -/
structure Bounds [DecidableEq ι] (R : Rounding K F) (s : Finset ι) (has : ι → ι → Prop) (A : ι → ι → K) (n c : Nat)
    (Ω α μ Λ ε e : F) : Prop where
  range : R.Range Ω
  fin : ∀ i ∈ s, ∀ j ∈ s, R.fin (A i j)
  stored : ∀ i ∈ s, ∀ j ∈ s, R.stored (A i j)
  diag : ∀ i ∈ s, R.v (A i i) ≤ α
  alpha : 0 ≤ α
  pos : 0 < μ
  nonneg : 0 ≤ Λ
  entry : α ≤ μ * Λ ^ 2
  small : R.η * (1 + 3 * α * (1 + Λ)) ≤ ε
  he : e = R.growth (n + 2) * ((n + 1) * ε)
  col : ∀ r ∈ s, ∀ t : Finset ι, t ⊆ s → (∀ i ∈ t, i = r ∨ has i r) → t.card ≤ c
  gamma : (2 * c + 1) * R.gamma (n + 2) ≤ 1
  pd : PosDef s μ fun i j => R.v (A i j) -
    if i = j then c * R.gamma (n + 2) / (1 - R.gamma (n + 2)) * (R.v (A i i) + e) + s.card * e else 0
  big : 4 * α ≤ Ω
  big' : 4 * α ≤ μ * Ω

variable [DecidableEq ι] {R : Rounding K F} {s : Finset ι} {rk : ι → Nat} {has : ι → ι → Prop} {A l w : ι → ι → K}
  {d : ι → K} {n c : Nat} {Ω α μ Λ ε e : F}

/-- What follows from the conditions, in case of any rows. -/
structure Facts (R : Rounding K F) (s : Finset ι) (A : ι → ι → K) (n c : Nat) (α ε e : F) : Prop where
  α0 : 0 < α
  ε0 : 0 ≤ ε
  e0 : 0 ≤ e
  eα : e ≤ α
  diag0 : ∀ i ∈ s, 0 < R.v (A i i)
  elem : ∀ i ∈ s, ∀ j ∈ s, |R.v (A i j)| ≤ α
  gamma3 : 3 * R.gamma (n + 2) ≤ 1
  gamma1 : R.gamma (n + 2) < 1
  c1 : 1 ≤ c

theorem facts (hE : Elim s rk has A l w d n) (hB : Bounds R s has A n c Ω α μ Λ ε e) {i₀ : ι} (hi₀ : i₀ ∈ s) :
    Facts R s A n c α ε e := by
  have c1 : 1 ≤ c := by
    have := hB.col i₀ hi₀ {i₀} (by simpa using hi₀) (by simp)
    simpa using this
  have hγ0 := R.gamma_nonneg (n + 2)
  have c1' : (1 : F) ≤ c := by exact_mod_cast c1
  have gamma3 : 3 * R.gamma (n + 2) ≤ 1 := by
    refine le_trans (mul_le_mul_of_nonneg_right ?_ hγ0) hB.gamma
    linarith
  have gamma1 : R.gamma (n + 2) < 1 := by linarith
  obtain ⟨q, hq⟩ : ∃ q, q = c * R.gamma (n + 2) / (1 - R.gamma (n + 2)) := ⟨_, rfl⟩
  have h1γ : 0 < 1 - R.gamma (n + 2) := by linarith
  have hq0 : 0 ≤ q := hq ▸ div_nonneg (mul_nonneg (Nat.cast_nonneg _) hγ0) h1γ.le
  have hq1 : 2 * q ≤ 1 := by
    rw [hq, mul_div_assoc', div_le_one h1γ]
    have := hB.gamma
    linarith
  have hpd := hB.pd
  rw [← hq] at hpd
  have hc1 : ∀ {t : Finset ι} {i : ι}, i ∈ t → (1 : F) ≤ t.card := fun h => by
    exact_mod_cast Finset.card_pos.mpr ⟨_, h⟩
  have diag : ∀ i ∈ s, μ < R.v (A i i) - (q * (R.v (A i i) + e) + s.card * e) := by
    intro i hi
    have := hpd (fun j => if j = i then 1 else 0) ⟨i, hi, by rw [if_pos rfl]; exact one_ne_zero⟩
    simp only [ite_mul, one_mul, zero_mul, mul_ite, mul_one, mul_zero, ite_pow, one_pow, zero_pow two_ne_zero,
      sum_ite_eq', if_pos hi, if_true] at this
    exact this
  have key : (0 ≤ e → ∀ i ∈ s, 0 < R.v (A i i) ∧ e ≤ R.v (A i i)) := by
    intro e0 i hi
    have h1 := diag i hi
    have h2 : e ≤ s.card * e := le_mul_of_one_le_left e0 (hc1 hi)
    have h3 := mul_nonneg hq0 e0
    have h4 : 0 < (1 - q) * R.v (A i i) - e := by
      have := hB.pos
      linarith
    have h5 : 0 < R.v (A i i) := by
      by_contra hn
      have := mul_nonneg_of_nonpos_of_nonpos (a := R.v (A i i)) (b := -(1 - q)) (by linarith) (by linarith)
      linarith
    refine ⟨h5, ?_⟩
    have := mul_nonneg hq0 h5.le
    linarith
  have ε0 : 0 ≤ ε := by
    refine le_trans (mul_nonneg R.η_nonneg ?_) hB.small
    have := hB.nonneg
    have := hB.alpha
    positivity
  have e0 : 0 ≤ e := by
    rw [hB.he]
    exact mul_nonneg (R.growth_pos _).le (mul_nonneg (by positivity) ε0)
  have diag0 := key e0
  have α0 : 0 < α := (diag0 i₀ hi₀).1.trans_le (hB.diag i₀ hi₀)
  refine ⟨α0, ε0, e0, (diag0 i₀ hi₀).2.trans (hB.diag i₀ hi₀), fun i hi => (diag0 i hi).1, ?_, gamma3, gamma1, c1⟩
  intro i hi j hj
  by_cases hij : i = j
  · subst hij
    rw [abs_of_pos (diag0 i hi).1]
    exact hB.diag i hi
  have hpair : ∀ σ : F, σ ^ 2 = 1 → -2 * (σ * R.v (A i j)) < 2 * α := by
    intro σ hσ
    have := hpd (fun k => if k = i then 1 else if k = j then σ else 0) ⟨i, hi, by rw [if_pos rfl]; exact one_ne_zero⟩
    have hs : ∀ g : ι → F, (∀ k, k ≠ i → k ≠ j → g k = 0) → ∑ k ∈ s, g k = g i + g j := by
      intro g hg
      rw [← sum_subset (s₁ := {i, j}) (by
        intro k hk
        rcases mem_insert.mp hk with rfl | hk
        · exact hi
        · rw [mem_singleton.mp hk]; exact hj) (by
        intro k _ hk
        simp only [mem_insert, mem_singleton, not_or] at hk
        exact hg k hk.1 hk.2), sum_pair hij]
    rw [hs _ (fun k h1 h2 => by rw [if_neg h1, if_neg h2]; ring),
      hs _ (fun k h1 h2 => by simp only [if_neg h1, if_neg h2]; simp)] at this
    rw [hs _ (fun k h1 h2 => by simp only [if_neg h1, if_neg h2]; simp),
      hs _ (fun k h1 h2 => by simp only [if_neg h1, if_neg h2]; simp)] at this
    simp only [if_true, if_neg (Ne.symm hij), if_neg hij, hσ, hE.symm j i] at this
    have h1 := hB.diag i hi
    have h2 := hB.diag j hj
    have h3 := mul_nonneg hq0 (add_nonneg (diag0 i hi).1.le e0)
    have h4 := mul_nonneg hq0 (add_nonneg (diag0 j hj).1.le e0)
    have h5 : 0 ≤ (s.card : F) * e := mul_nonneg (Nat.cast_nonneg _) e0
    have h6 : σ * (R.v (A j j) - (q * (R.v (A j j) + e) + s.card * e)) * σ =
        R.v (A j j) - (q * (R.v (A j j) + e) + s.card * e) := by
      rw [mul_right_comm, ← sq, hσ, one_mul]
    have := hB.pos
    linarith
  have p1 := hpair 1 (by ring)
  have p2 := hpair (-1) (by ring)
  rw [abs_le]
  constructor <;> linarith

/-- `L` with its diagonal. -/
def unit (R : Rounding K F) (l : ι → ι → K) (x y : ι) : F := if x = y then 1 else R.v (l x y)

/-- The error of an element of `L D Lᵀ` is small. -/
def Err (R : Rounding K F) (s : Finset ι) (A l : ι → ι → K) (d : ι → K) (n : Nat) (e : F) (i j : ι) : Prop :=
  |R.v (A i j) - ∑ r ∈ s, unit R l i r * R.v (d r) * unit R l j r| ≤
    R.gamma (n + 2) * ∑ r ∈ s, |unit R l i r| * |R.v (d r)| * |unit R l j r| + e

/-- An entry has been computed. -/
structure Entry (R : Rounding K F) (s : Finset ι) (A l : ι → ι → K) (d : ι → K) (n : Nat) (Λ e : F) (i j : ι) : Prop where
  fin : R.fin (l i j)
  le : |R.v (l i j)| ≤ Λ
  err : Err R s A l d n e i j

/-- A row has been computed. -/
structure Row (R : Rounding K F) (s : Finset ι) (has : ι → ι → Prop) (A l : ι → ι → K) (d : ι → K) (rk : ι → Nat)
    (n : Nat) (α μ Λ e : F) (i : ι) : Prop where
  entry : ∀ j, has i j → Entry R s A l d n Λ e i j
  fin : R.fin (d i)
  stored : R.stored (d i)
  pos : μ < R.v (d i)
  le : R.v (d i) ≤ 3 * α
  err : Err R s A l d n e i i
  sum : ∑ k ∈ s with rk k < rk i, R.v (l i k) ^ 2 * R.v (d k) ≤ α

theorem unit_self (x : ι) : unit R l x x = 1 := if_pos rfl

theorem unit_ne {x y : ι} (h : x ≠ y) : unit R l x y = R.v (l x y) := if_neg h

theorem unit_has (hE : Elim s rk has A l w d n) {x y : ι} (h : unit R l x y ≠ 0) : x = y ∨ has x y := by
  by_cases hxy : x = y
  · exact Or.inl hxy
  · right
    by_contra hn
    rw [unit_ne hxy, hE.off hn, R.v_zero] at h
    exact h rfl

theorem has_unit (hE : Elim s rk has A l w d n) {x y : ι} (h : has x y) : unit R l x y = R.v (l x y) :=
  unit_ne fun hxy => by
    have := (hE.lower h).2.2
    rw [hxy] at this
    omega

theorem unitLower (hE : Elim s rk has A l w d n) : UnitLower s rk (unit R l) := by
  refine ⟨hE.inj, fun x _ => unit_self x, fun x hx y hy h => ?_⟩
  by_contra hn
  rcases hE.unit_has hn with rfl | h'
  · omega
  · have := (hE.lower h').2.2
    omega

theorem Err.symm (hE : Elim s rk has A l w d n) {i j : ι} (h : Err R s A l d n e i j) : Err R s A l d n e j i := by
  unfold Err at h ⊢
  rw [hE.symm j i]
  have e1 : ∀ r, unit R l j r * R.v (d r) * unit R l i r = unit R l i r * R.v (d r) * unit R l j r := fun r => by ring
  have e2 : ∀ r, |unit R l j r| * |R.v (d r)| * |unit R l i r| = |unit R l i r| * |R.v (d r)| * |unit R l j r| :=
    fun r => by ring
  simp only [e1, e2]
  exact h

theorem err_off (hE : Elim s rk has A l w d n) (he : 0 ≤ e) {i j : ι} (hi : i ∈ s) (hj : j ∈ s) (hij : rk j < rk i)
    (h : ¬ has i j) : Err R s A l d n e i j := by
  unfold Err
  have h0 : ∑ r ∈ s, unit R l i r * R.v (d r) * unit R l j r = 0 := by
    refine sum_eq_zero fun r hr => ?_
    by_cases h1 : unit R l i r = 0
    · rw [h1]; ring
    by_cases h2 : unit R l j r = 0
    · rw [h2]; ring
    exfalso
    rcases hE.unit_has h2 with rfl | h2'
    · rcases hE.unit_has h1 with rfl | h1'
      · omega
      · exact h h1'
    · rcases hE.unit_has h1 with rfl | h1'
      · have := (hE.lower h2').2.2
        omega
      · exact h (hE.closed h1' h2' hij)
  rw [h0, hE.zero hi hj hij h, R.v_zero, sub_zero, abs_zero]
  exact add_nonneg (mul_nonneg (R.gamma_nonneg _) (sum_nonneg fun r _ => by positivity)) he

/-- The squares of the entries of a row, up to a column, are bounded by the diagonal element of the matrix. -/
theorem partial_sum (hE : Elim s rk has A l w d n) (hB : Bounds R s has A n c Ω α μ Λ ε e) {i : ι} (hi : i ∈ s) {t : Nat}
    (ht : t ≤ rk i) (hrow : ∀ r ∈ s, rk r < t → Row R s has A l d rk n α μ Λ e r)
    (hent : ∀ j, has i j → rk j < t → Err R s A l d n e i j) :
    ∑ k ∈ s with rk k < t, R.v (l i k) ^ 2 * R.v (d k) ≤ α := by
  have hF := hE.facts hB hi
  obtain ⟨S, hS⟩ : ∃ S, S = ∑ k ∈ s with rk k < t, R.v (l i k) ^ 2 * R.v (d k) := ⟨_, rfl⟩
  let s' := insert i (s.filter fun k => rk k < t)
  have hi' : i ∉ s.filter fun k => rk k < t := fun h => by
    have := (mem_filter.mp h).2
    omega
  have hsub : s' ⊆ s := by
    intro r hr
    rcases mem_insert.mp hr with rfl | hr
    · exact hi
    · exact (mem_filter.mp hr).1
  have hmem : ∀ r ∈ s', r ≠ i → r ∈ s ∧ rk r < t := fun r hr hne =>
    mem_filter.mp ((mem_insert.mp hr).resolve_left hne)
  let p : ι → F := fun r => if r = i then R.v (A i i) - S else R.v (d r)
  have hU := (hE.unitLower (R := R)).mono hsub
  -- sums over the smaller set
  have hsum : ∀ (g : F → F), g 0 = 0 → ∀ x ∈ s', ∀ y ∈ s', y ≠ i →
      ∑ r ∈ s', g (unit R l x r) * g (p r) * g (unit R l y r) =
        ∑ r ∈ s, g (unit R l x r) * g (R.v (d r)) * g (unit R l y r) := by
    intro g g0 x hx y hy hyi
    have hy' := hmem y hy hyi
    rw [← sum_subset hsub]
    · refine sum_congr rfl fun r hr => ?_
      by_cases hri : r = i
      · subst hri
        rw [(hE.unitLower (R := R)).zero y hy'.1 r hi (by omega), g0, mul_zero, mul_zero]
      · simp only [p, if_neg hri]
    · intro r hr hr'
      have : t ≤ rk r := by
        by_contra hlt
        exact hr' (mem_insert_of_mem (mem_filter.mpr ⟨hr, by omega⟩))
      rw [(hE.unitLower (R := R)).zero y hy'.1 r hr (by omega), g0, mul_zero]
  have herr : ∀ x ∈ s', ∀ y ∈ s', y ≠ i → (x ≠ i → rk y ≤ rk x) → Err R s A l d n e x y := by
    intro x hx y hy hyi hxy
    have hy' := hmem y hy hyi
    by_cases hxi : x = i
    · subst hxi
      by_cases hh : has x y
      · exact hent y hh hy'.2
      · exact hE.err_off hF.e0 hi hy'.1 (by omega) hh
    · have hx' := hmem x hx hxi
      have hR := hrow x hx'.1 hx'.2
      by_cases hxy' : x = y
      · subst hxy'
        exact hR.err
      · have hlt : rk y < rk x := by
          have := hxy hxi
          have := mt (hE.inj y hy'.1 x hx'.1) (Ne.symm hxy')
          omega
        by_cases hh : has x y
        · exact (hR.entry y hh).err
        · exact hE.err_off hF.e0 hx'.1 hy'.1 hlt hh
  have herr' : ∀ x ∈ s', ∀ y ∈ s', y ≠ i →
      |R.v (A x y) - ∑ r ∈ s', unit R l x r * p r * unit R l y r| ≤
        R.gamma (n + 2) * ∑ r ∈ s', |unit R l x r| * |p r| * |unit R l y r| + e := by
    intro x hx y hy hyi
    have h1 := hsum id rfl x hx y hy hyi
    have h2 := hsum (fun x => |x|) abs_zero x hx y hy hyi
    simp only [id] at h1
    rw [h1, h2]
    by_cases hc : x ≠ i → rk y ≤ rk x
    · exact herr x hx y hy hyi hc
    · push Not at hc
      exact (herr y hy x hx hc.1 fun _ => by omega).symm hE
  have hself : ∑ r ∈ s', unit R l i r * p r * unit R l i r = R.v (A i i) := by
    show ∑ r ∈ insert i _, _ = _
    rw [sum_insert hi', unit_self]
    have : ∀ r ∈ s.filter (fun k => rk k < t), unit R l i r * p r * unit R l i r = R.v (l i r) ^ 2 * R.v (d r) := by
      intro r hr
      have hri : r ≠ i := fun h => hi' (h ▸ hr)
      simp only [p, if_neg hri, unit_ne hri.symm]
      ring
    rw [sum_congr rfl this, ← hS]
    simp only [p, if_true]
    ring
  have key := approx_pivots_pos (s := s') (rk := rk) (u := unit R l) (d := p) (p := p) (A := fun x y => R.v (A x y))
    (γ := R.gamma (n + 2)) (e := e) (μ := μ) (c := c) hU (R.gamma_nonneg _) hF.e0 hB.pos.le
    (fun x hx y hy => by
      rw [sub_self, sub_self, ite_self, add_zero, add_zero]
      by_cases hyi : y = i
      · by_cases hxi : x = i
        · subst hyi; subst hxi
          rw [hself, sub_self, abs_zero]
          exact add_nonneg (mul_nonneg (R.gamma_nonneg _) (sum_nonneg fun r _ => by positivity)) hF.e0
        · have := herr' y hy x hx hxi
          have e1 : ∀ r, unit R l y r * p r * unit R l x r = unit R l x r * p r * unit R l y r := fun r => by ring
          have e2 : ∀ r, |unit R l y r| * |p r| * |unit R l x r| = |unit R l x r| * |p r| * |unit R l y r| :=
            fun r => by ring
          simp only [e1, e2, hE.symm y x] at this
          exact this
      · exact herr' x hx y hy hyi)
    (fun _ _ _ => rfl)
    (fun r hr => hB.col r (hsub hr) _ ((filter_subset _ _).trans hsub) fun x hx => hE.unit_has (mem_filter.mp hx).2)
    hB.gamma hF.gamma1
    (((hB.pd.submatrix (e := fun x => x) hsub fun _ _ _ _ h => h).mono
      (fun x _ y _ h => by simp only [if_neg h]) fun x hx => by
        simp only [if_true]
        have : (s'.card : F) ≤ s.card := by exact_mod_cast card_le_card hsub
        have := mul_le_mul_of_nonneg_right this hF.e0
        linarith))
  have := (key i (mem_insert_self _ _)).1
  simp only [p, if_true] at this
  rw [← hS]
  have h1 := hB.diag i hi
  have h2 := hB.pos
  linarith

/-- A term does not overflow. -/
theorem term (hR : R.Range Ω) (hμ : 0 < μ) (hα : 0 ≤ α) (hε : R.η * (1 + 3 * α * (1 + Λ)) ≤ ε)
    (hΩ : R.growth 1 * (α + ε) ≤ Ω) (hΩ' : α ≤ μ * Ω)
    {lik ljk wik dk t : K} (hq : lik = wik / dk) (fd : R.fin dk) (sd : R.stored dk) (pd : μ < R.v dk) (ld : R.v dk ≤ 3 * α)
    (fi : R.fin lik) (fj : R.fin ljk) (sj : R.stored ljk) (li : |R.v lik| ≤ Λ) (lj : |R.v ljk| ≤ Λ)
    (hp : |R.v lik| * R.v dk * |R.v ljk| ≤ α)
    (ht : t = ljk * wik ∨ t = lik * ljk * dk ∨ (t = wik * ljk ∧ ljk = lik)) :
    R.fin t ∧ R.Apx 2 (R.v t) (R.v lik * R.v dk * R.v ljk) (|R.v lik| * |R.v dk| * |R.v ljk|) (ε - R.σ) := by
  have hd0 : 0 < R.v dk := hμ.trans pd
  have si : R.stored lik := hq ▸ R.stored_div _ _
  have hd := R.div fd (hq ▸ fi : R.fin (wik / dk))
  have hη := R.η_nonneg
  have hΛ : 0 ≤ Λ := (abs_nonneg _).trans li
  have hsm : ∀ x : F, |x| ≤ Λ → R.η * (1 + |R.v dk| * (1 + |x|)) ≤ ε := by
    intro x hx
    refine le_trans (mul_le_mul_of_nonneg_left ?_ hη) hε
    rw [abs_of_pos hd0]
    have := mul_le_mul ld (show 1 + |x| ≤ 1 + Λ by linarith) (by positivity) (by positivity)
    linarith
  have hηd : R.η * (R.v dk * (1 + Λ)) ≤ ε := by
    refine le_trans (mul_le_mul_of_nonneg_left ?_ hη) hε
    have := mul_le_mul_of_nonneg_right ld (show 0 ≤ 1 + Λ by linarith)
    linarith
  have hw : |R.v wik| ≤ R.growth 1 * (|R.v lik| * R.v dk + R.η * R.v dk) := by
    have := (Rounding.apx_div fd (hq ▸ fi : R.fin (wik / dk))).2.bound
    rwa [← hq, abs_of_pos hd0] at this
  have hprod : |R.v ljk| * |R.v wik| ≤ Ω := by
    have h1 := mul_le_mul_of_nonneg_left hw (abs_nonneg (R.v ljk))
    have h2 : R.η * R.v dk * |R.v ljk| ≤ ε := by
      refine le_trans ?_ hηd
      have := mul_le_mul_of_nonneg_left (show |R.v ljk| ≤ 1 + Λ by linarith) (mul_nonneg hη hd0.le)
      linarith
    have h3 := mul_le_mul_of_nonneg_left (add_le_add hp h2) (R.growth_pos 1).le
    linarith
  rcases ht with rfl | rfl | ⟨rfl, hh⟩
  · have hf : R.fin (ljk * wik) := hR.fin_mul sj hd.2.1 fj hd.1 (by rwa [abs_mul])
    refine ⟨hf, ?_⟩
    have := Rounding.apx_mul_num sj fd (hq ▸ fi : R.fin (wik / dk)) hf (hsm _ lj)
    rwa [← hq] at this
  · have h4 : |R.v lik * R.v ljk| ≤ Ω := by
      rw [abs_mul]
      have h5 : |R.v lik| * |R.v ljk| * μ ≤ Ω * μ := by
        have := mul_le_mul_of_nonneg_left pd.le (mul_nonneg (abs_nonneg (R.v lik)) (abs_nonneg (R.v ljk)))
        linarith
      exact le_of_mul_le_mul_right h5 hμ
    have hf : R.fin (lik * ljk * dk) := by
      refine hR.fin_mul_mul si sj sd fi fj fd h4 (le_trans ?_ hΩ)
      rw [abs_mul, abs_of_pos hd0]
      have h6 : R.η * R.v dk ≤ R.growth 1 * ε := by
        refine le_trans ?_ (le_mul_of_one_le_left ((mul_nonneg hη (by positivity)).trans hηd) (R.one_le_growth 1))
        refine le_trans ?_ hηd
        have := mul_nonneg hη (mul_nonneg hd0.le hΛ)
        linarith
      have h7 : |R.v lik| * |R.v ljk| * (1 + R.u) * R.v dk ≤ R.growth 1 * α := by
        have h8 := mul_le_mul R.one_add_u_le hp (by positivity) (R.growth_pos 1).le
        linarith
      linarith
    exact ⟨hf, (Rounding.apx_mul_mul si hf (hsm _ lj)).2.2⟩
  · subst hh
    have hf : R.fin (wik * ljk) := hR.fin_mul hd.2.1 sj hd.1 fj (by rw [abs_mul, mul_comm]; exact hprod)
    refine ⟨hf, ?_⟩
    subst hq
    exact Rounding.apx_num_mul fd fi hf (hsm _ lj)

/-- A numerator or pivot does not overflow. -/
theorem chain (hE : Elim s rk has A l w d n) (hB : Bounds R s has A n c Ω α μ Λ ε e) {i j : ι} (hi : i ∈ s) (hj : j ∈ s)
    {ks : List ι} (hn : ks.Nodup) (hlen : ks.length ≤ n) {t : ι → K}
    (hk : ∀ k ∈ ks, has i k ∧ has j k ∧ Row R s has A l d rk n α μ Λ e k ∧ R.fin (l i k) ∧ R.fin (l j k) ∧
      |R.v (l i k)| ≤ Λ ∧ |R.v (l j k)| ≤ Λ)
    (hi2 : (ks.map fun k => R.v (l i k) ^ 2 * R.v (d k)).sum ≤ α)
    (hj2 : (ks.map fun k => R.v (l j k) ^ 2 * R.v (d k)).sum ≤ α)
    (ht : ∀ k ∈ ks, t k = l j k * w i k ∨ t k = l i k * l j k * d k ∨ (t k = w i k * l j k ∧ j = i)) :
    R.fin (subAll ks t (A i j)) ∧ R.stored (subAll ks t (A i j)) ∧ |R.v (subAll ks t (A i j))| ≤ 4 * α ∧
      ∀ k ∈ ks, R.Apx 2 (R.v (t k)) (R.v (l i k) * R.v (d k) * R.v (l j k))
        (|R.v (l i k)| * |R.v (d k)| * |R.v (l j k)|) (ε - R.σ) := by
  have hF := hE.facts hB hi
  have hα := hF.α0
  have hg : 3 * R.growth (n + 2) ≤ 4 := by
    have := hF.gamma3
    unfold Rounding.gamma at this
    linarith
  have hprods : ((ks.map fun k => |R.v (l i k)| * |R.v (d k)| * |R.v (l j k)|).sum) ≤ α ∧
      ∀ k ∈ ks, |R.v (l i k)| * R.v (d k) * |R.v (l j k)| ≤ α := by
    have h0 : ∀ k ∈ ks, 0 < R.v (d k) := fun k hk' => hB.pos.trans (hk k hk').2.2.1.pos
    have h1 : ∀ k ∈ ks, |R.v (l i k)| * |R.v (d k)| * |R.v (l j k)| ≤
        (R.v (l i k) ^ 2 * R.v (d k) + R.v (l j k) ^ 2 * R.v (d k)) / 2 := by
      intro k hk'
      have hd := h0 k hk'
      rw [abs_of_pos hd]
      have := mul_nonneg (sq_nonneg (|R.v (l i k)| - |R.v (l j k)|)) hd.le
      rw [sub_sq, sq_abs, sq_abs] at this
      linarith
    have h2 : (ks.map fun k => |R.v (l i k)| * |R.v (d k)| * |R.v (l j k)|).sum ≤
        (ks.map fun k => (R.v (l i k) ^ 2 * R.v (d k) + R.v (l j k) ^ 2 * R.v (d k)) / 2).sum :=
      List.sum_le_sum h1
    have h3 : (ks.map fun k => (R.v (l i k) ^ 2 * R.v (d k) + R.v (l j k) ^ 2 * R.v (d k)) / 2).sum =
        ((ks.map fun k => R.v (l i k) ^ 2 * R.v (d k)).sum + (ks.map fun k => R.v (l j k) ^ 2 * R.v (d k)).sum) / 2 := by
      rw [← List.sum_map_add]
      simp only [div_eq_mul_inv, List.sum_map_mul_right]
    have h4 : (ks.map fun k => |R.v (l i k)| * |R.v (d k)| * |R.v (l j k)|).sum ≤ α := by
      rw [h3] at h2
      linarith
    refine ⟨h4, fun k hk' => le_trans ?_ h4⟩
    have h5 : ∀ x ∈ ks.map fun k => |R.v (l i k)| * |R.v (d k)| * |R.v (l j k)|, 0 ≤ x := by
      intro x hx
      obtain ⟨k', -, rfl⟩ := List.mem_map.mp hx
      positivity
    have := List.single_le_sum h5 _ (List.mem_map.mpr ⟨k, hk', rfl⟩)
    rwa [abs_of_pos (h0 k hk')] at this
  have he := hB.he
  have hε0 := hF.ε0
  have hge : R.growth (n + 2) * ε ≤ e := by
    rw [he]
    refine mul_le_mul_of_nonneg_left ?_ (R.growth_pos _).le
    have : (0 : F) ≤ n := Nat.cast_nonneg n
    have := mul_nonneg this hε0
    linarith
  have hg1 : R.growth 1 ≤ R.growth (n + 2) := R.growth_mono (by omega)
  have hΩ1 : R.growth 1 * (α + ε) ≤ Ω := by
    have h1 := mul_le_mul_of_nonneg_right hg1 (add_nonneg hα.le hε0)
    have h2 := mul_le_mul_of_nonneg_right hg hα.le
    have := hF.eα
    have := hB.big
    linarith
  have hT : ∀ k ∈ ks, R.fin (t k) ∧ R.Apx 2 (R.v (t k)) (R.v (l i k) * R.v (d k) * R.v (l j k))
      (|R.v (l i k)| * |R.v (d k)| * |R.v (l j k)|) (ε - R.σ) := by
    intro k hk'
    obtain ⟨k1, k2, k3, k4, k5, k6, k7⟩ := hk k hk'
    refine term hB.range hB.pos hα.le hB.small hΩ1 (by have := hB.big'; linarith) (hE.quot k1) k3.fin k3.stored k3.pos k3.le
      k4 k5 (by rw [hE.quot k2]; exact R.stored_div _ _) k6 k7 (hprods.2 k hk') ?_
    rcases ht k hk' with h | h | ⟨h, h'⟩
    · exact Or.inl h
    · exact Or.inr (Or.inl h)
    · exact Or.inr (Or.inr ⟨h, by rw [h']⟩)
  have hbound : R.growth ks.length * (α + (ks.map fun k => R.growth 2 *
      (|R.v (l i k)| * |R.v (d k)| * |R.v (l j k)| + ε)).sum) ≤ 4 * α := by
    have e1 : (ks.map fun k => R.growth 2 * (|R.v (l i k)| * |R.v (d k)| * |R.v (l j k)| + ε)).sum =
        R.growth 2 * ((ks.map fun k => |R.v (l i k)| * |R.v (d k)| * |R.v (l j k)|).sum + ks.length * ε) := by
      rw [List.sum_map_mul_left, List.sum_map_add, List.map_const', List.sum_replicate, nsmul_eq_mul]
    rw [e1]
    have e2 : R.growth (ks.length + 2) = R.growth ks.length * R.growth 2 := R.growth_add _ _
    have h1 : α ≤ R.growth 2 * α := le_mul_of_one_le_left hα.le (R.one_le_growth 2)
    have h2 : (ks.length : F) * ε ≤ (n + 1) * ε := by
      refine mul_le_mul_of_nonneg_right ?_ hε0
      have : (ks.length : F) ≤ n := by exact_mod_cast hlen
      linarith
    have h3 : α + R.growth 2 * ((ks.map fun k => |R.v (l i k)| * |R.v (d k)| * |R.v (l j k)|).sum + ks.length * ε) ≤
        R.growth 2 * (2 * α + (n + 1) * ε) := by
      have := mul_le_mul_of_nonneg_left (add_le_add hprods.1 h2) (R.growth_pos 2).le
      linarith
    have h4 := mul_le_mul_of_nonneg_left h3 (R.growth_pos ks.length).le
    refine h4.trans ?_
    rw [← mul_assoc, ← e2]
    have h5 : R.growth (ks.length + 2) * (2 * α + (n + 1) * ε) ≤ R.growth (n + 2) * (2 * α + (n + 1) * ε) := by
      refine mul_le_mul_of_nonneg_right (R.growth_mono (by omega)) ?_
      have : (0 : F) ≤ (n + 1) * ε := mul_nonneg (by positivity) hε0
      linarith
    refine h5.trans ?_
    rw [mul_add, ← he]
    have h6 := mul_le_mul_of_nonneg_right hg hα.le
    have := hF.eα
    linarith
  obtain ⟨r1, r2, r3⟩ := Rounding.fin_subAll hB.range (ks := ks) (f := t)
    (T := fun k => R.growth 2 * (|R.v (l i k)| * |R.v (d k)| * |R.v (l j k)| + ε)) (b := α)
    (hB.stored i hi j hj) (hB.fin i hi j hj) (hF.elem i hi j hj) (fun k hk' => (hT k hk').1)
    (fun k hk' => by
      have := (hT k hk').2.bound
      have h2 : R.σ ≤ R.growth 2 * R.σ := le_mul_of_one_le_left R.σ_nonneg (R.one_le_growth 2)
      beta_reduce
      linarith) (hbound.trans hB.big)
  exact ⟨r1, r2, r3.trans hbound, fun k hk' => (hT k hk').2⟩

/-- The sum over common entries is a part of the sum over a row. -/
theorem list_sum_le (hE : Elim s rk has A l w d n) {i : ι} {t : Nat} {ks : List ι} (hn : ks.Nodup)
    (hk : ∀ k ∈ ks, k ∈ s ∧ rk k < t) (h0 : ∀ k ∈ s, rk k < t → 0 ≤ R.v (d k))
    (h : ∑ k ∈ s with rk k < t, R.v (l i k) ^ 2 * R.v (d k) ≤ α) :
    (ks.map fun k => R.v (l i k) ^ 2 * R.v (d k)).sum ≤ α := by
  refine le_trans ?_ h
  rw [← List.sum_toFinset _ hn]
  refine sum_le_sum_of_subset_of_nonneg (fun k hk' => mem_filter.mpr (hk k (List.mem_toFinset.mp hk'))) fun k hk' _ => ?_
  have := mem_filter.mp hk'
  exact mul_nonneg (sq_nonneg _) (h0 k this.1 this.2)

theorem entry (hE : Elim s rk has A l w d n) (hB : Bounds R s has A n c Ω α μ Λ ε e) {i j : ι} (hij : has i j)
    (hrow : ∀ r ∈ s, rk r < rk i → Row R s has A l d rk n α μ Λ e r)
    (hent : ∀ k, has i k → rk k < rk j → Entry R s A l d n Λ e i k) : Entry R s A l d n Λ e i j := by
  obtain ⟨hi, hj, hji⟩ := hE.lower hij
  have hF := hE.facts hB hi
  obtain ⟨ks, hn, hks, hlen, t, ht, hw⟩ := hE.num' hij
  have hRj := hrow j hj hji
  have hlt : ∀ k ∈ ks, k ∈ s ∧ rk k < rk j := fun k hk => (hE.lower ((hks k).mp hk).2).2
  have hd0 : ∀ k ∈ s, rk k < rk j → 0 ≤ R.v (d k) := fun k hk hkj =>
    (hB.pos.trans (hrow k hk (by omega)).pos).le
  have hpart := hE.partial_sum hB hi hji.le (fun r hr hrj => hrow r hr (by omega)) (fun k hk hkj => (hent k hk hkj).err)
  obtain ⟨c1, c2, c3, c4⟩ := hE.chain hB hi hj hn hlen (t := t)
    (fun k hk => by
      obtain ⟨k1, k2⟩ := (hks k).mp hk
      have hk' := hlt k hk
      have e1 := hent k k1 hk'.2
      have e2 := hRj.entry k k2
      exact ⟨k1, k2, hrow k hk'.1 (by omega), e1.fin, e2.fin, e1.le, e2.le⟩)
    (hE.list_sum_le hn hlt hd0 hpart) (hE.list_sum_le hn hlt hd0 hRj.sum)
    (fun k hk => (ht k hk).elim Or.inl fun h => Or.inr (Or.inl h))
  rw [← hw] at c1 c2 c3
  have hdj : 0 < R.v (d j) := hB.pos.trans hRj.pos
  have hfin : R.fin (l i j) := by
    rw [hE.quot hij]
    refine hB.range.fin_div c2 hRj.stored c1 hRj.fin hdj.ne' ?_
    rw [abs_div, abs_of_pos hdj, div_le_iff₀ hdj]
    refine c3.trans (hB.big'.trans ?_)
    have hΩ : 0 ≤ Ω := by
      have := hB.big
      have := hF.α0
      linarith
    have := mul_le_mul_of_nonneg_left hRj.pos.le hΩ
    linarith
  have herr : Err R s A l d n e i j := by
    have a1 := (Rounding.apx_div hRj.fin (hE.quot hij ▸ hfin : R.fin (w i j / d j))).2
    rw [← hE.quot hij] at a1
    have a2 := (Rounding.apx_subAll_const hw c1).2.2 (a1.mono (m := 2) (by omega) le_rfl (G := ε) (by
      refine le_trans (mul_le_mul_of_nonneg_left ?_ R.η_nonneg) hB.small
      rw [abs_of_pos hdj]
      have := hRj.le
      have := mul_nonneg hF.α0.le hB.nonneg
      linarith)) c4
    have hjks : j ∉ ks := fun h => by
      have := (hlt j h).2
      omega
    have sumj : ∀ g : F → F, g 0 = 0 → g 1 = 1 → ∑ r ∈ s, g (unit R l i r) * g (R.v (d r)) * g (unit R l j r) =
        g (R.v (l i j)) * g (R.v (d j)) + (ks.map fun k => g (R.v (l i k)) * g (R.v (d k)) * g (R.v (l j k))).sum := by
      intro g g0 g1
      rw [sum_common (U := fun r => g (unit R l i r)) (D := fun r => g (R.v (d r))) (V := fun r => g (unit R l j r)) hj hn hjks
        (fun k hk => (hlt k hk).1) (by rw [unit_self, g1]), hE.has_unit hij]
      · congr 2
        refine List.map_congr_left fun k hk => ?_
        obtain ⟨k1, k2⟩ := (hks k).mp hk
        rw [hE.has_unit k1, hE.has_unit k2]
      · intro r hr h1 h2
        rcases hE.unit_has (R := R) (fun h => h2 (by rw [h, g0])) with rfl | h2'
        · exact Or.inl rfl
        · rcases hE.unit_has (R := R) (fun h => h1 (by rw [h, g0])) with rfl | h1'
          · have := (hE.lower h2').2.2
            omega
          · exact Or.inr ((hks r).mpr ⟨h1', h2'⟩)
    have s1 := sumj id rfl rfl
    have s2 := sumj (fun x => |x|) abs_zero abs_one
    simp only [id] at s1
    unfold Err
    rw [s1, s2]
    have hlen' : ε + (ks.length : F) * ε ≤ (n + 1) * ε := by
      have : (ks.length : F) ≤ n := by exact_mod_cast hlen
      have := mul_le_mul_of_nonneg_right this hF.ε0
      linarith
    have a3 := (a2.mono (m := n + 2) (by omega) le_rfl hlen').err
    rwa [← hB.he] at a3
  refine ⟨hfin, ?_, herr⟩
  have hpart' := hE.partial_sum hB (t := rk j + 1) hi (by omega) (fun r hr hrj => hrow r hr (by omega)) (fun k hk hkj => by
    by_cases hkj' : rk k = rk j
    · rw [hE.inj k (hE.lower hk).2.1 j hj hkj']
      exact herr
    · exact (hent k hk (by omega)).err)
  have hle : R.v (l i j) ^ 2 * R.v (d j) ≤ α := by
    refine le_trans ?_ hpart'
    refine single_le_sum (f := fun k => R.v (l i k) ^ 2 * R.v (d k)) (fun k hk => ?_)
      (mem_filter.mpr ⟨hj, Nat.lt_succ_self _⟩)
    have := mem_filter.mp hk
    exact mul_nonneg (sq_nonneg _) (hB.pos.trans (hrow k this.1 (by omega)).pos).le
  have h5 : R.v (l i j) ^ 2 * μ ≤ Λ ^ 2 * μ := by
    have := mul_le_mul_of_nonneg_left hRj.pos.le (sq_nonneg (R.v (l i j)))
    have := hB.entry
    linarith
  exact abs_le_of_sq_le_sq (le_of_mul_le_mul_right h5 hB.pos) hB.nonneg

theorem row (hE : Elim s rk has A l w d n) (hB : Bounds R s has A n c Ω α μ Λ ε e) {i : ι} (hi : i ∈ s)
    (hrow : ∀ r ∈ s, rk r < rk i → Row R s has A l d rk n α μ Λ e r) : Row R s has A l d rk n α μ Λ e i := by
  have hF := hE.facts hB hi
  have hentry : ∀ j, has i j → Entry R s A l d n Λ e i j := by
    suffices h : ∀ t, ∀ j, rk j = t → has i j → Entry R s A l d n Λ e i j from fun j => h _ j rfl
    intro t
    induction t using Nat.strong_induction_on with
    | _ t ih =>
    intro j hj hij
    exact hE.entry hB hij hrow fun k hk hkj => ih (rk k) (by omega) k rfl hk
  have hsum := hE.partial_sum hB hi le_rfl hrow fun j hj _ => (hentry j hj).err
  obtain ⟨ks, hn, hks, hlen, t, ht, hw⟩ := hE.piv hi
  have hlt : ∀ k ∈ ks, k ∈ s ∧ rk k < rk i := fun k hk => (hE.lower ((hks k).mp hk)).2
  have hl2 := hE.list_sum_le hn hlt (fun k hk hki => (hB.pos.trans (hrow k hk hki).pos).le) hsum
  obtain ⟨c1, c2, c3, c4⟩ := hE.chain hB hi hi hn hlen (t := t)
    (fun k hk => by
      have k1 := (hks k).mp hk
      have hk' := hlt k hk
      have e1 := hentry k k1
      exact ⟨k1, k1, hrow k hk'.1 hk'.2, e1.fin, e1.fin, e1.le, e1.le⟩) hl2 hl2
    (fun k hk => (ht k hk).elim (fun h => Or.inr (Or.inr ⟨h, rfl⟩)) fun h => Or.inr (Or.inl h))
  rw [← hw] at c1 c2 c3
  have herr : Err R s A l d n e i i := by
    have a2 := (Rounding.apx_subAll_const hw c1).2.2 (Rounding.Apx.refl 2 _) c4
    have hiks : i ∉ ks := fun h => by
      have := (hlt i h).2
      omega
    have sumi : ∀ g : F → F, g 0 = 0 → g 1 = 1 → ∑ r ∈ s, g (unit R l i r) * g (R.v (d r)) * g (unit R l i r) =
        g (R.v (d i)) + (ks.map fun k => g (R.v (l i k)) * g (R.v (d k)) * g (R.v (l i k))).sum := by
      intro g g0 g1
      rw [sum_common (U := fun r => g (unit R l i r)) (D := fun r => g (R.v (d r))) (V := fun r => g (unit R l i r)) hi hn hiks
        (fun k hk => (hlt k hk).1) (by rw [unit_self, g1]), unit_self, g1, one_mul]
      · congr 2
        refine List.map_congr_left fun k hk => ?_
        rw [hE.has_unit ((hks k).mp hk)]
      · intro r hr h1 _
        rcases hE.unit_has (R := R) (fun h => h1 (by rw [h, g0])) with rfl | h1'
        · exact Or.inl rfl
        · exact Or.inr ((hks r).mpr h1')
    have s1 := sumi id rfl rfl
    have s2 := sumi (fun x => |x|) abs_zero abs_one
    simp only [id] at s1
    unfold Err
    rw [s1, s2]
    have hlen' : 0 + (ks.length : F) * ε ≤ (n + 1) * ε := by
      have : (ks.length : F) ≤ n := by exact_mod_cast hlen
      have := mul_le_mul_of_nonneg_right this hF.ε0
      have := hF.ε0
      linarith
    have a3 := (a2.mono (m := n + 2) (by omega) le_rfl hlen').err
    rwa [← hB.he] at a3
  -- the leading part including this row
  let s' := s.filter fun k => rk k ≤ rk i
  have hsub : s' ⊆ s := filter_subset _ _
  have hi' : i ∈ s' := mem_filter.mpr ⟨hi, le_rfl⟩
  have hU := hE.unitLower (R := R)
  have hsum' : ∀ (g : F → F), g 0 = 0 → ∀ x ∈ s', ∀ y,
      ∑ r ∈ s', g (unit R l x r) * g (R.v (d r)) * g (unit R l y r) =
        ∑ r ∈ s, g (unit R l x r) * g (R.v (d r)) * g (unit R l y r) := by
    intro g g0 x hx y
    have hx' := mem_filter.mp hx
    refine sum_subset hsub fun r hr hr' => ?_
    have : rk i < rk r := by
      by_contra hlt
      exact hr' (mem_filter.mpr ⟨hr, by omega⟩)
    rw [hU.zero x hx'.1 r hr (by omega), g0, zero_mul, zero_mul]
  have hErr : ∀ x ∈ s', ∀ y ∈ s', rk y ≤ rk x → Err R s A l d n e x y := by
    intro x hx y hy hyx
    have hx' := mem_filter.mp hx
    have hy' := mem_filter.mp hy
    by_cases hxi : x = i
    · subst hxi
      by_cases hyx' : y = x
      · subst hyx'
        exact herr
      · have : rk y < rk x := by
          have := mt (hE.inj y hy'.1 x hx'.1) hyx'
          omega
        by_cases hh : has x y
        · exact (hentry y hh).err
        · exact hE.err_off hF.e0 hx'.1 hy'.1 this hh
    · have hxi' : rk x < rk i := by
        have := mt (hE.inj x hx'.1 i hi) hxi
        omega
      have hR := hrow x hx'.1 hxi'
      by_cases hyx' : y = x
      · subst hyx'
        exact hR.err
      · have : rk y < rk x := by
          have := mt (hE.inj y hy'.1 x hx'.1) hyx'
          omega
        by_cases hh : has x y
        · exact (hR.entry y hh).err
        · exact hE.err_off hF.e0 hx'.1 hy'.1 this hh
  have hA : ∀ x ∈ s', ∀ y ∈ s', |R.v (A x y) - ∑ r ∈ s', unit R l x r * R.v (d r) * unit R l y r| ≤
      R.gamma (n + 2) * ∑ r ∈ s', |unit R l x r| * |R.v (d r)| * |unit R l y r| + e := by
    intro x hx y hy
    have h1 := hsum' id rfl x hx y
    have h2 := hsum' (fun x => |x|) abs_zero x hx y
    simp only [id] at h1
    rw [h1, h2]
    rcases le_total (rk y) (rk x) with h | h
    · exact hErr x hx y hy h
    · exact (hErr y hy x hx h).symm hE
  have key := approx_pivots_pos (s := s') (rk := rk) (u := unit R l) (d := fun r => R.v (d r)) (p := fun r => R.v (d r))
    (A := fun x y => R.v (A x y)) (γ := R.gamma (n + 2)) (e := e) (μ := μ) (c := c) (hU.mono hsub) (R.gamma_nonneg _) hF.e0
    hB.pos.le
    (fun x hx y hy => by
      rw [sub_self, sub_self, ite_self, add_zero, add_zero]
      exact hA x hx y hy)
    (fun _ _ _ => rfl)
    (fun r hr => hB.col r (hsub hr) _ ((filter_subset _ _).trans hsub) fun x hx => hE.unit_has (mem_filter.mp hx).2)
    hB.gamma hF.gamma1
    (((hB.pd.submatrix (e := fun x => x) hsub fun _ _ _ _ h => h).mono
      (fun x _ y _ h => by simp only [if_neg h]) fun x hx => by
        simp only [if_true]
        have : (s'.card : F) ≤ s.card := by exact_mod_cast card_le_card hsub
        have := mul_le_mul_of_nonneg_right this hF.e0
        linarith))
  have hpos := fun x hx => (key x hx).1
  have hst := (approx_stable (s := s') (u := unit R l) (d := fun r => R.v (d r)) (A := fun x y => R.v (A x y))
    (R.gamma_nonneg _) hF.gamma1 (fun x hx => (hB.pos.trans (hpos x hx)).le) hA hi' hi').1
  refine ⟨hentry, c1, c2, hpos i hi', ?_, herr, hsum⟩
  have h6 : |unit R l i i| * |R.v (d i)| * |unit R l i i| ≤ ∑ r ∈ s', |unit R l i r| * |R.v (d r)| * |unit R l i r| :=
    single_le_sum (f := fun r => |unit R l i r| * |R.v (d r)| * |unit R l i r|) (fun r _ => by positivity) hi'
  rw [unit_self, abs_one, one_mul, mul_one] at h6
  refine (le_abs_self _).trans (h6.trans (hst.trans ?_))
  have h1γ : 0 < 1 - R.gamma (n + 2) := by
    have := hF.gamma1
    linarith
  rw [div_le_iff₀ h1γ]
  have h7 := hB.diag i hi
  have h8 := hF.eα
  have h9 := mul_nonneg hF.α0.le (sub_nonneg.mpr hF.gamma3)
  linarith

/-- Everything is finite and bounded. -/
theorem rows (hE : Elim s rk has A l w d n) (hB : Bounds R s has A n c Ω α μ Λ ε e) :
    ∀ i ∈ s, Row R s has A l d rk n α μ Λ e i := by
  suffices h : ∀ t, ∀ i ∈ s, rk i = t → Row R s has A l d rk n α μ Λ e i from fun i hi => h _ i hi rfl
  intro t
  induction t using Nat.strong_induction_on with
  | _ t ih =>
  intro i hi hit
  exact hE.row hB hi fun r hr hri => ih (rk r) (by omega) r hr rfl

end Elim

end Ctldl
