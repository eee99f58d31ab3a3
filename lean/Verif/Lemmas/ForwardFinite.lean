import Verif.Lemmas.ForwardSolve
import Verif.Lemmas.RoundingSolve

/-! # Solving definite systems without overflow -/

namespace Ctldl

open Finset

variable {ι K F : Type} [DecidableEq ι] [Zero K] [Sub K] [Mul K] [Div K] [Field F] [LinearOrder F] [IsStrictOrderedRing F]

omit [Zero K] [Sub K] [Mul K] [Div K] in
/-- Approximate factors of a matrix which is positive definite by a margin. -/
theorem tame_of_approx {s : Finset ι} {rk : ι → Nat} {u : ι → ι → F} {d : ι → F} {A : ι → ι → F} {γ e μ α : F} {c : Nat}
    (hu : UnitLower s rk u) (hγ : 0 ≤ γ) (hγ1 : 3 * γ ≤ 1) (he : 0 ≤ e) (hμ : 0 < μ)
    (hA : ∀ i ∈ s, ∀ j ∈ s, |A i j - ∑ r ∈ s, u i r * d r * u j r| ≤ γ * ∑ r ∈ s, |u i r| * |d r| * |u j r| + e)
    (hd : ∀ i ∈ s, μ < d i) (hα : ∀ i ∈ s, A i i ≤ α)
    (hc : ∀ r ∈ s, ({i ∈ s | u i r ≠ 0} : Finset ι).card ≤ c)
    (hpd : PosDef s μ fun i j => A i j - if i = j then c * γ / (1 - γ) * (A i i + e) + s.card * e else 0) :
    Tame s rk u d c μ (3 * α) := by
  have h1γ : 0 < 1 - γ := by linarith
  have hd0 : ∀ i ∈ s, 0 < d i := fun i hi => hμ.trans (hd i hi)
  let H : ι → ι → F := fun i j => ∑ r ∈ s, |u i r| * |d r| * |u j r|
  let B : ι → ι → F := fun i j => ∑ r ∈ s, u i r * d r * u j r
  have hHB : ∀ i ∈ s, H i i = B i i := fun i _ => sum_congr rfl fun r hr => by
    rw [abs_of_pos (hd0 r hr), mul_right_comm, abs_mul_abs_self, mul_right_comm]
  have hdiag : ∀ i ∈ s, (1 - γ) * H i i ≤ A i i + e := fun i hi => by
    have h1 : |A i i - B i i| ≤ γ * H i i + e := hA i hi i hi
    have h2 := (abs_le.mp h1).1
    have h3 := hHB i hi
    linarith
  have hH0 : ∀ i j, 0 ≤ H i j := fun i j => sum_nonneg fun r _ => by positivity
  have hcγ : 0 ≤ c * γ / (1 - γ) := by positivity
  have hAe : ∀ i ∈ s, 0 ≤ A i i + e := fun i hi => (mul_nonneg h1γ.le (hH0 i i)).trans (hdiag i hi)
  have hsplit : ∀ x : ι → F,
      ∑ i ∈ s, ∑ j ∈ s, x i * (A i j - if i = j then c * γ / (1 - γ) * (A i i + e) + s.card * e else 0) * x j =
      ∑ i ∈ s, ∑ j ∈ s, x i * A i j * x j -
        (c * γ / (1 - γ) * ∑ i ∈ s, x i ^ 2 * (A i i + e) + s.card * e * ∑ i ∈ s, x i ^ 2) := by
    intro x
    rw [mul_sum, mul_sum, ← sum_add_distrib, ← sum_sub_distrib]
    refine sum_congr rfl fun i hi => ?_
    have : ∀ j ∈ s, x i * (A i j - if i = j then c * γ / (1 - γ) * (A i i + e) + s.card * e else 0) * x j =
        x i * A i j * x j - if i = j then x i * (c * γ / (1 - γ) * (A i i + e) + s.card * e) * x i else 0 := by
      intro j _
      split
      · next h => subst h; ring
      · ring
    rw [sum_congr rfl this, sum_sub_distrib, sum_ite_eq s i, if_pos hi]
    ring
  refine ⟨hu, hμ, hd, fun i hi => ?_, hc, fun x => ?_⟩
  · -- the error by underflow is smaller than the diagonal elements
    have h1 := hpd (fun j => if j = i then 1 else 0) ⟨i, hi, by rw [if_pos rfl]; exact one_ne_zero⟩
    rw [hsplit] at h1
    have e1 : ∀ g : ι → F, ∑ j ∈ s, (if j = i then (1 : F) else 0) ^ 2 * g j = g i := fun g => by
      rw [sum_congr rfl (g := fun j => if j = i then g j else 0) fun j _ => by split <;> ring, sum_ite_eq' s i, if_pos hi]
    have e2 : ∑ j ∈ s, (if j = i then (1 : F) else 0) ^ 2 = 1 := by
      have := e1 fun _ => 1
      simpa using this
    have e3 : ∑ j ∈ s, ∑ k ∈ s, (if j = i then (1 : F) else 0) * A j k * (if k = i then 1 else 0) = A i i := by
      simp [hi]
    rw [e1, e2, e3] at h1
    have h2 : (1 : F) ≤ s.card := by exact_mod_cast card_pos.mpr ⟨i, hi⟩
    have h3 := mul_le_mul_of_nonneg_right h2 he
    have h4 := mul_nonneg hcγ (hAe i hi)
    have h5 := hdiag i hi
    have h6 := hα i hi
    have h7 : ∑ r ∈ s, u i r ^ 2 * d r = H i i := by
      rw [hHB i hi]
      exact sum_congr rfl fun r _ => by ring
    rw [h7]
    have h8 := mul_nonneg (show 0 ≤ 1 - 3 * γ by linarith) (hH0 i i)
    linarith
  · by_cases hx : ∃ i ∈ s, x i ≠ 0
    · have h1 := hpd x hx
      rw [hsplit] at h1
      have h2 : ∑ i ∈ s, ∑ j ∈ s, x i * A i j * x j ≤
          ∑ i ∈ s, ∑ j ∈ s, x i * B i j * x j + (γ * (c * ∑ i ∈ s, x i ^ 2 * H i i) + e * (s.card * ∑ i ∈ s, x i ^ 2)) := by
        have h1 : ∑ i ∈ s, ∑ j ∈ s, x i * A i j * x j ≤ ∑ i ∈ s, ∑ j ∈ s,
            (x i * B i j * x j + (γ * (|x i| * H i j * |x j|) + e * (|x i| * |x j|))) := by
          refine sum_le_sum fun i hi => sum_le_sum fun j hj => ?_
          have h2 : |A i j - B i j| ≤ γ * H i j + e := hA i hi j hj
          have h3 : x i * (A i j - B i j) * x j ≤ |x i| * (γ * H i j + e) * |x j| := by
            refine (le_abs_self _).trans ?_
            rw [abs_mul, abs_mul]
            exact mul_le_mul_of_nonneg_right (mul_le_mul_of_nonneg_left h2 (abs_nonneg _)) (abs_nonneg _)
          linarith
        refine h1.trans ?_
        simp only [sum_add_distrib, ← mul_sum]
        have h4 := abs_form_le u d x hc
        have h5 : ∑ i ∈ s, |x i| * ∑ j ∈ s, |x j| ≤ s.card * ∑ i ∈ s, x i ^ 2 := by
          rw [← sum_mul, ← sq]
          exact sq_sum_abs_le x
        have h6 := mul_le_mul_of_nonneg_left h4 hγ
        have h7 := mul_le_mul_of_nonneg_left h5 he
        linarith
      have h3 : γ * (c * ∑ i ∈ s, x i ^ 2 * H i i) ≤ c * γ / (1 - γ) * ∑ i ∈ s, x i ^ 2 * (A i i + e) := by
        have h4 : (1 - γ) * ∑ i ∈ s, x i ^ 2 * H i i ≤ ∑ i ∈ s, x i ^ 2 * (A i i + e) := by
          rw [mul_sum]
          refine sum_le_sum fun i hi => ?_
          have := mul_le_mul_of_nonneg_left (hdiag i hi) (sq_nonneg (x i))
          linarith
        have := mul_le_mul_of_nonneg_left h4 hcγ
        refine le_trans (le_of_eq ?_) this
        field_simp
      have h4 : ∑ i ∈ s, ∑ j ∈ s, x i * B i j * x j = ∑ r ∈ s, d r * (∑ i ∈ s, u i r * x i) ^ 2 := Tame.form_eq u d x
      rw [← h4]
      linarith
    · have hx0 : ∀ i ∈ s, x i = 0 := fun i hi => by
        by_contra h
        exact hx ⟨i, hi, h⟩
      rw [sum_eq_zero fun i hi => by rw [hx0 i hi]; ring, mul_zero]
      exact sum_nonneg fun r hr => mul_nonneg (hd0 r hr).le (sq_nonneg _)

namespace Rounding

variable {R : Rounding K F} {Ω : F}

theorem product_le {a b : K} (hs : R.stored a) (hf : R.fin (a * b)) :
    |R.v (a * b)| + R.σ ≤ R.growth 1 * (|R.v a| * |R.v b|) + R.η := by
  obtain ⟨δ, e, hδ, he, h⟩ := R.mul hs hf
  rw [h]
  have h1 : |R.v a * R.v b * (1 + δ) + e| ≤ (|R.v a| * |R.v b|) * (1 + R.u) + R.μ := by
    refine (abs_add_le _ _).trans (add_le_add ?_ he)
    rw [abs_mul, abs_mul]
    refine mul_le_mul_of_nonneg_left ?_ (by positivity)
    refine (abs_add_le 1 δ).trans ?_
    rw [abs_one]
    linarith
  have h2 := mul_le_mul_of_nonneg_left R.one_add_u_le (mul_nonneg (abs_nonneg (R.v a)) (abs_nonneg (R.v b)))
  have h3 := R.μ_add_σ
  linarith

/-- A sum of products is finite if it is bounded. -/
theorem fin_dot (hR : R.Range Ω) {ks : List ι} {l z : ι → K} {a y : K} (hy : y = subAll ks (fun k => l k * z k) a)
    (hs : R.stored a) (ha : R.fin a) (hl : ∀ k ∈ ks, R.fin (l k) ∧ R.stored (l k))
    (hz : ∀ k ∈ ks, R.fin (z k) ∧ R.stored (z k)) {n : Nat} (hn : ks.length ≤ n) {b P : F} (hab : |R.v a| ≤ b)
    (hP : (ks.map fun k => |R.v (l k)| * |R.v (z k)|).sum ≤ P)
    (hΩ : R.growth n * (b + R.growth 1 * P + n * R.η) ≤ Ω) :
    R.fin y ∧ R.stored y ∧ |R.v y| ≤ R.growth n * (b + R.growth 1 * P + n * R.η) := by
  have hb : 0 ≤ b := (abs_nonneg _).trans hab
  have hsum0 : 0 ≤ (ks.map fun k => |R.v (l k)| * |R.v (z k)|).sum := List.sum_nonneg (by
    intro x hx
    obtain ⟨k', hk', rfl⟩ := List.mem_map.mp hx
    positivity)
  have hP0 : 0 ≤ P := hsum0.trans hP
  have hη := R.η_nonneg
  have hnη : 0 ≤ n * R.η := by positivity
  have hPΩ : P ≤ Ω := by
    refine le_trans ?_ hΩ
    have h1 := le_mul_of_one_le_left hP0 (R.one_le_growth 1)
    have h2 : b + R.growth 1 * P + n * R.η ≤ R.growth n * (b + R.growth 1 * P + n * R.η) :=
      le_mul_of_one_le_left (by linarith) (R.one_le_growth n)
    linarith
  have hf : ∀ k ∈ ks, R.fin (l k * z k) := by
    intro k hk
    refine hR.fin_mul (hl k hk).2 (hz k hk).2 (hl k hk).1 (hz k hk).1 (le_trans ?_ hPΩ)
    rw [abs_mul]
    refine le_trans (List.single_le_sum ?_ _ (List.mem_map.mpr ⟨k, hk, rfl⟩)) hP
    intro x hx
    obtain ⟨k', hk', rfl⟩ := List.mem_map.mp hx
    positivity
  have hT : ∀ k ∈ ks, |R.v (l k * z k)| + R.σ ≤ R.growth 1 * (|R.v (l k)| * |R.v (z k)|) + R.η := fun k hk =>
    R.product_le (hl k hk).2 (hf k hk)
  have hsum : (ks.map fun k => R.growth 1 * (|R.v (l k)| * |R.v (z k)|) + R.η).sum ≤ R.growth 1 * P + n * R.η := by
    have e1 : ∀ ks : List ι, (ks.map fun k => R.growth 1 * (|R.v (l k)| * |R.v (z k)|) + R.η).sum =
        R.growth 1 * (ks.map fun k => |R.v (l k)| * |R.v (z k)|).sum + ks.length * R.η := by
      intro ks
      induction ks with
      | nil => simp
      | cons k ks ih =>
        simp only [List.map_cons, List.sum_cons, List.length_cons, ih]
        push_cast
        ring
    rw [e1]
    have h1 := mul_le_mul_of_nonneg_left hP (R.growth_pos 1).le
    have h2 := mul_le_mul_of_nonneg_right (show (ks.length : F) ≤ n by exact_mod_cast hn) hη
    linarith
  have hle : R.growth ks.length *
      (b + (ks.map fun k => R.growth 1 * (|R.v (l k)| * |R.v (z k)|) + R.η).sum) ≤
      R.growth n * (b + R.growth 1 * P + n * R.η) := by
    refine mul_le_mul (R.growth_mono hn) (by linarith) ?_ (R.growth_pos n).le
    refine add_nonneg hb (List.sum_nonneg ?_)
    intro x hx
    obtain ⟨k', hk', rfl⟩ := List.mem_map.mp hx
    have := (R.growth_pos 1).le
    positivity
  rw [hy]
  obtain ⟨h1, h2, h3⟩ := fin_subAll hR hs ha hab hf hT (hle.trans hΩ)
  exact ⟨h1, h2, h3.trans hle⟩

/-! ### Solving -/

section

variable {s : Finset ι} {rk : ι → Nat} {u : ι → ι → F} {d : ι → F} {n c : Nat} {α μ Λ β : F}

theorem AmpleSolve.growth (hS : R.AmpleSolve n c Ω α μ Λ β) {m : Nat} (hm : m ≤ n + c + 2) : R.growth m ≤ 4 / 3 := by
  have h1 := R.growth_mono hm
  have h2 := hS.gamma
  unfold Rounding.gamma at h2
  linarith

theorem underflow_nonneg (n c : Nat) : 0 ≤ R.underflow n c := by
  have := R.η_nonneg
  unfold underflow
  positivity

omit [DecidableEq ι] in
theorem underflow_le (hβ : 0 ≤ β) (hα : 0 ≤ α) (hμ : 0 ≤ μ) {b : ι → F}
    (h : ∑ i ∈ s, b i ^ 2 + s.card * ((2 + 2 * α * μ) * R.underflow n c ^ 2) ≤ β ^ 2) {i : ι} (hi : i ∈ s) :
    R.underflow n c ≤ β ∧ |b i| ≤ β := by
  have h1 : (1 : F) ≤ s.card := by exact_mod_cast card_pos.mpr ⟨i, hi⟩
  have h2 : b i ^ 2 ≤ ∑ i ∈ s, b i ^ 2 := single_le_sum (f := fun i => b i ^ 2) (fun _ _ => sq_nonneg _) hi
  have h3 := sq_nonneg (b i)
  have h4 : R.underflow n c ^ 2 ≤ (2 + 2 * α * μ) * R.underflow n c ^ 2 := by
    have : 0 ≤ α * μ * R.underflow n c ^ 2 := by positivity
    have := sq_nonneg (R.underflow n c)
    linarith
  have h5 := le_mul_of_one_le_left ((sq_nonneg _).trans h4) h1
  have h6 := sq_nonneg (R.underflow n c)
  exact ⟨le_trans (le_abs_self _) (abs_le_of_sq_le_sq (by linarith) hβ), abs_le_of_sq_le_sq (by linarith) hβ⟩

/-- The sum over a list of different indices is part of the sum over all indices. -/
theorem list_sum_le_sum {ks : List ι} (hn : ks.Nodup) (hk : ∀ k ∈ ks, k ∈ s) {f g : ι → F} (hfg : ∀ k ∈ ks, f k = g k)
    (hg : ∀ k ∈ s, 0 ≤ g k) : (ks.map f).sum ≤ ∑ k ∈ s, g k := by
  rw [List.map_congr_left hfg, ← List.sum_toFinset g hn]
  exact sum_le_sum_of_subset_of_nonneg (fun k h => hk k (List.mem_toFinset.mp h)) fun k hk _ => hg k hk

/-- Forward substitution. -/
theorem forward_fin (hR : R.Range Ω) (hT : Tame s rk u d c μ (3 * α)) (hS : R.AmpleSolve n c Ω α μ Λ β) (hα : 0 ≤ α)
    (hΛ : 0 ≤ Λ) (hαΛ : α ≤ μ * Λ ^ 2) {L : ι → ι → K} {b y : ι → K}
    (hrow : ∀ i ∈ s, ∃ ks : List ι, ks.Nodup ∧
      (∀ j ∈ ks, j ∈ s ∧ rk j < rk i ∧ u i j = R.v (L i j) ∧ R.fin (L i j) ∧ R.stored (L i j)) ∧ ks.length ≤ n ∧
      y i = subAll ks (fun j => L i j * y j) (b i))
    (hdot : ∀ i ∈ s, R.fin (y i) → |R.v (b i) - ∑ j ∈ s, u i j * R.v (y j)| ≤
      R.gamma (n + c + 2) * ∑ j ∈ s, |u i j| * |R.v (y j)| + R.underflow n c)
    (hb : ∀ i ∈ s, R.fin (b i) ∧ R.stored (b i))
    (hβ : ∑ i ∈ s, R.v (b i) ^ 2 + s.card * ((2 + 2 * α * μ) * R.underflow n c ^ 2) ≤ β ^ 2) :
    (∀ i ∈ s, R.fin (y i) ∧ R.stored (y i)) ∧ μ * ∑ i ∈ s, R.v (y i) ^ 2 / d i ≤ 4 * β ^ 2 := by
  have hμ := hT.μ_pos
  have hcond : 8 * (c * (3 * α) * R.gamma (n + c + 2) ^ 2) ≤ μ := by linarith [hS.condition]
  -- as long as the numbers are finite, they are bounded
  have energy : ∀ t ⊆ s, (∀ i ∈ t, ∀ r ∈ s, r ∉ t → u i r = 0) → (∀ i ∈ t, R.fin (y i)) →
      μ * ∑ i ∈ t, R.v (y i) ^ 2 / d i ≤ 4 * β ^ 2 := by
    intro t hts ht hfin
    have h1 := (hT.down hts ht).forward (b := fun i => R.v (b i)) (y := fun i => R.v (y i)) hcond
      (e := R.underflow n c) fun i hi => by
        have e1 : ∀ g : ι → F, (∀ r, u i r = 0 → g r = 0) → ∑ r ∈ t, g r = ∑ r ∈ s, g r := fun g hg =>
          sum_subset hts fun r hr hrt => hg r (ht i hi r hr hrt)
        rw [e1 (fun j => u i j * R.v (y j)) (fun r hr => by rw [hr, zero_mul]),
          e1 (fun j => |u i j| * |R.v (y j)|) (fun r hr => by rw [hr, abs_zero, zero_mul])]
        exact hdot i (hts hi) (hfin i hi)
    have h2 : ∑ i ∈ t, R.v (b i) ^ 2 ≤ ∑ i ∈ s, R.v (b i) ^ 2 :=
      sum_le_sum_of_subset_of_nonneg hts fun _ _ _ => sq_nonneg _
    have h3 : (t.card : F) * R.underflow n c ^ 2 ≤ s.card * R.underflow n c ^ 2 :=
      mul_le_mul_of_nonneg_right (by exact_mod_cast card_le_card hts) (sq_nonneg _)
    have h4 : 0 ≤ s.card * (α * μ * R.underflow n c ^ 2) := by positivity
    linarith
  have main : ∀ m, ∀ i ∈ s, rk i = m → R.fin (y i) ∧ R.stored (y i) := by
    intro m
    induction m using Nat.strong_induction_on with
    | _ m ih =>
    intro i hi him
    obtain ⟨ks, hnd, hks, hlen, hy⟩ := hrow i hi
    let t := s.filter fun j => rk j < rk i
    have hts : t ⊆ s := filter_subset _ _
    have ht : ∀ j ∈ t, R.fin (y j) ∧ R.stored (y j) := fun j hj =>
      ih (rk j) (him ▸ (mem_filter.mp hj).2) j (hts hj) rfl
    have h1 := energy t hts (fun j hj r hr hrt => hT.unit.zero j (hts hj) r hr (by
      have h2 := (mem_filter.mp hj).2
      have h3 : ¬rk r < rk i := fun h => hrt (mem_filter.mpr ⟨hr, h⟩)
      omega)) fun j hj => (ht j hj).1
    have h2 := hT.row_abs (fun j => if j ∈ t then R.v (y j) else 0) hi
    have h3 : ∑ j ∈ s with u i j ≠ 0, (if j ∈ t then R.v (y j) else 0) ^ 2 / d j ≤ ∑ j ∈ t, R.v (y j) ^ 2 / d j := by
      refine (sum_le_sum_of_subset_of_nonneg (filter_subset _ _) fun j hj _ =>
        div_nonneg (sq_nonneg _) (hT.d_pos hj).le).trans (le_of_eq ?_)
      rw [← sum_subset hts fun j _ hj => by rw [if_neg hj]; ring]
      exact sum_congr rfl fun j hj => by rw [if_pos hj]
    have hP : ∑ j ∈ s, |u i j| * |if j ∈ t then R.v (y j) else 0| ≤ 7 / 2 * (Λ * β) := by
      have h4 : μ * (∑ j ∈ s, |u i j| * |if j ∈ t then R.v (y j) else 0|) ^ 2 ≤ μ * (12 * (Λ ^ 2 * β ^ 2)) := by
        have h5 := mul_le_mul_of_nonneg_left h2 hμ.le
        have h6 := mul_le_mul_of_nonneg_left h3 (show 0 ≤ μ * (3 * α) by positivity)
        have h7 := mul_le_mul_of_nonneg_left h1 (show 0 ≤ 3 * α by positivity)
        have h8 := mul_le_mul_of_nonneg_right hαΛ (show 0 ≤ 12 * β ^ 2 by positivity)
        linarith
      have h5 := le_of_mul_le_mul_left h4 hμ
      refine le_trans (le_abs_self _) (abs_le_of_sq_le_sq (h5.trans ?_) (by have := hS.nonneg; positivity))
      have : 0 ≤ Λ ^ 2 * β ^ 2 := by positivity
      rw [mul_pow, mul_pow]
      linarith
    obtain ⟨hU, hbi⟩ := underflow_le (b := fun i => R.v (b i)) hS.nonneg hα hμ.le hβ hi
    have hη := R.η_nonneg
    have hnη : n * R.η ≤ β := by
      refine le_trans ?_ hU
      have : 0 ≤ c * R.η := by positivity
      have : 0 ≤ n * R.η := by positivity
      unfold underflow
      linarith
    refine ⟨?_, ?_⟩ <;>
    · have := fin_dot hR (n := n) (b := β) (P := 7 / 2 * (Λ * β)) hy (hb i hi).2 (hb i hi).1
        (fun k hk => (hks k hk).2.2.2) (fun k hk => ht k (mem_filter.mpr ⟨(hks k hk).1, (hks k hk).2.1⟩)) hlen hbi
        ((list_sum_le_sum hnd (fun k hk => (hks k hk).1) (fun k hk => by
          rw [(hks k hk).2.2.1, if_pos (mem_filter.mpr ⟨(hks k hk).1, (hks k hk).2.1⟩ : k ∈ t)])
          (fun k _ => by positivity)).trans hP) (by
          have g1 := hS.growth (m := n) (by omega)
          have g2 := hS.growth (m := 1) (by omega)
          have hΛβ := mul_nonneg hΛ hS.nonneg
          have h4 : R.growth 1 * (7 / 2 * (Λ * β)) ≤ 4 / 3 * (7 / 2 * (Λ * β)) :=
            mul_le_mul_of_nonneg_right g2 (by positivity)
          have h5 : R.growth n * (β + R.growth 1 * (7 / 2 * (Λ * β)) + n * R.η) ≤
              4 / 3 * (β + R.growth 1 * (7 / 2 * (Λ * β)) + n * R.η) := by
            refine mul_le_mul_of_nonneg_right g1 ?_
            have := hS.nonneg
            have := (R.growth_pos 1).le
            positivity
          have h6 := hS.max
          have := hS.nonneg
          linarith)
      first | exact this.1 | exact this.2.1
  refine ⟨fun i hi => main _ i hi rfl, energy s (Subset.refl s) (fun i _ r hr hrt => absurd hr hrt)
    fun i hi => (main _ i hi rfl).1⟩

/-- Division by the pivots. -/
theorem diagonal_fin (hR : R.Range Ω) (hT : Tame s rk u d c μ (3 * α)) (hS : R.AmpleSolve n c Ω α μ Λ β) {D y z : ι → K}
    (hα : 0 ≤ α) (hΛ : 0 ≤ Λ) (hD : ∀ i ∈ s, R.v (D i) = d i ∧ R.fin (D i) ∧ R.stored (D i)) (hy : ∀ i ∈ s, R.fin (y i) ∧ R.stored (y i))
    (hyβ : μ * ∑ i ∈ s, R.v (y i) ^ 2 / d i ≤ 4 * β ^ 2) (hz : ∀ i ∈ s, z i = y i / D i) :
    (∀ i ∈ s, R.fin (z i) ∧ R.stored (z i) ∧ μ * |R.v (z i)| ≤ 8 / 3 * β + μ * R.η) ∧
      μ * ∑ i ∈ s, d i * R.v (z i) ^ 2 ≤ 128 / 9 * β ^ 2 + 6 * (s.card * (α * μ * R.η ^ 2)) := by
  have hμ := hT.μ_pos
  have hβ := hS.nonneg
  have hq : ∀ i ∈ s, μ * |R.v (y i) / d i| ≤ 2 * β := by
    intro i hi
    have h1 : R.v (y i) ^ 2 / d i ≤ ∑ i ∈ s, R.v (y i) ^ 2 / d i :=
      single_le_sum (f := fun i => R.v (y i) ^ 2 / d i) (fun j hj => div_nonneg (sq_nonneg _) (hT.d_pos hj).le) hi
    have hd := hT.d_pos hi
    have h2 : (μ * |R.v (y i) / d i|) ^ 2 ≤ (2 * β) ^ 2 := by
      rw [mul_pow, sq_abs]
      have e1 : (R.v (y i) / d i) ^ 2 * d i = R.v (y i) ^ 2 / d i := by
        field_simp
      have h3 := mul_le_mul_of_nonneg_left h1 hμ.le
      have h4 := mul_le_mul_of_nonneg_left (hT.pos i hi).le (mul_nonneg hμ.le (sq_nonneg (R.v (y i) / d i)))
      have e2 : μ * (R.v (y i) / d i) ^ 2 * d i = μ * (R.v (y i) ^ 2 / d i) := by rw [← e1]; ring
      rw [e2] at h4
      linarith
    exact le_trans (le_abs_self _) (abs_le_of_sq_le_sq h2 (by positivity))
  have g1 : 1 + R.u ≤ 4 / 3 := R.one_add_u_le.trans (hS.growth (by omega))
  have hfin : ∀ i ∈ s, R.fin (z i) := by
    intro i hi
    obtain ⟨hv, hf, hst⟩ := hD i hi
    rw [hz i hi]
    refine hR.fin_div (hy i hi).2 hst (hy i hi).1 hf (by rw [hv]; exact (hT.d_pos hi).ne') ?_
    rw [hv]
    refine le_of_mul_le_mul_left ((hq i hi).trans ?_) hμ
    have h1 := hS.max_div
    have : 0 ≤ c * Λ * β := by positivity
    linarith
  have hval : ∀ i ∈ s, ∃ δ e, |δ| ≤ R.u ∧ |e| ≤ R.η ∧ R.v (z i) = R.v (y i) / d i * (1 + δ) + e := by
    intro i hi
    obtain ⟨hv, hf, -⟩ := hD i hi
    have h1 := hfin i hi
    rw [hz i hi] at h1
    obtain ⟨-, -, -, δ, e, h2, h3, h4⟩ := R.div hf h1
    rw [hv, ← hz i hi] at h4
    exact ⟨δ, e, h2, h3, h4⟩
  have hone : ∀ {δ : F}, |δ| ≤ R.u → |1 + δ| ≤ 4 / 3 := fun {δ} h => by
    refine ((abs_add_le 1 δ).trans ?_).trans g1
    rw [abs_one]
    linarith
  refine ⟨fun i hi => ⟨hfin i hi, by rw [hz i hi]; exact R.stored_div _ _, ?_⟩, ?_⟩
  · obtain ⟨δ, e, h2, h3, h4⟩ := hval i hi
    rw [h4]
    have h5 : |R.v (y i) / d i * (1 + δ) + e| ≤ |R.v (y i) / d i| * (4 / 3) + R.η := by
      refine (abs_add_le _ _).trans (add_le_add ?_ h3)
      rw [abs_mul]
      exact mul_le_mul_of_nonneg_left (hone h2) (abs_nonneg _)
    have h6 := mul_le_mul_of_nonneg_left h5 hμ.le
    have h7 := hq i hi
    linarith
  · have h1 : ∀ i ∈ s, d i * R.v (z i) ^ 2 ≤ 32 / 9 * (R.v (y i) ^ 2 / d i) + 6 * (α * R.η ^ 2) := by
      intro i hi
      obtain ⟨δ, e, h2, h3, h4⟩ := hval i hi
      have hd := hT.d_pos hi
      have e1 : d i * (R.v (y i) / d i) ^ 2 = R.v (y i) ^ 2 / d i := by
        field_simp
      have h5 := Tame.sq_add_le (R.v (y i) / d i * (1 + δ)) e
      have h6 : (1 + δ) ^ 2 ≤ 16 / 9 := by
        rw [← sq_abs]
        have := pow_le_pow_left₀ (abs_nonneg _) (hone h2) 2
        linarith
      have h7 : e ^ 2 ≤ R.η ^ 2 := by
        rw [← sq_abs]
        exact pow_le_pow_left₀ (abs_nonneg _) h3 2
      rw [← h4, mul_pow] at h5
      have h8 := mul_le_mul_of_nonneg_left h5 hd.le
      have h9 := mul_le_mul_of_nonneg_left h6 (mul_nonneg hd.le (sq_nonneg (R.v (y i) / d i)))
      have h10 := mul_le_mul_of_nonneg_left h7 hd.le
      have h11 := mul_le_mul_of_nonneg_right (hT.d_le hi) (sq_nonneg R.η)
      rw [← e1]
      linarith
    have h2 := mul_le_mul_of_nonneg_left (sum_le_sum h1) hμ.le
    rw [sum_add_distrib, ← mul_sum, sum_const, nsmul_eq_mul] at h2
    linarith

/-- Backward substitution. -/
theorem backward_fin (hR : R.Range Ω) (hT : Tame s rk u d c μ (3 * α)) (hS : R.AmpleSolve n c Ω α μ Λ β) (hα : 0 ≤ α)
    (hΛ : 0 ≤ Λ) (hc : 1 ≤ c) {L : ι → ι → K} {z x : ι → K}
    (hcol : ∀ j ∈ s, ∃ ks : List ι, ks.Nodup ∧
      (∀ i ∈ ks, i ∈ s ∧ rk j < rk i ∧ |R.v (L i j)| ≤ Λ ∧ R.fin (L i j) ∧ R.stored (L i j)) ∧ ks.length ≤ c ∧
      x j = subAll ks (fun i => L i j * x i) (z j))
    (hdot : ∀ j ∈ s, R.fin (x j) → |R.v (z j) - ∑ i ∈ s, u i j * R.v (x i)| ≤
      R.gamma (n + c + 2) * ∑ i ∈ s, |u i j| * |R.v (x i)| + R.underflow n c)
    (hz : ∀ i ∈ s, R.fin (z i) ∧ R.stored (z i) ∧ μ * |R.v (z i)| ≤ 8 / 3 * β + μ * R.η)
    (hzβ : μ * ∑ i ∈ s, d i * R.v (z i) ^ 2 ≤ 128 / 9 * β ^ 2 + 6 * (s.card * (α * μ * R.η ^ 2)))
    (hβ : s.card * ((2 + 2 * α * μ) * R.underflow n c ^ 2) ≤ β ^ 2) :
    (∀ i ∈ s, R.fin (x i) ∧ R.stored (x i)) ∧ μ ^ 2 * ∑ i ∈ s, R.v (x i) ^ 2 ≤ (9 * β) ^ 2 := by
  have hμ := hT.μ_pos
  have hη := R.η_nonneg
  have hcond : 8 * (c * (3 * α) * R.gamma (n + c + 2) ^ 2) ≤ μ := by linarith [hS.condition]
  have hcF : (1 : F) ≤ c := by exact_mod_cast hc
  have hηU : R.η ≤ R.underflow n c := by
    unfold underflow
    have h1 : 0 ≤ n * R.η := by positivity
    have h2 := mul_le_mul_of_nonneg_right hcF hη
    linarith
  have energy : ∀ t ⊆ s, (∀ r ∈ t, ∀ i ∈ s, i ∉ t → u i r = 0) → (∀ i ∈ t, R.fin (x i)) →
      μ ^ 2 * ∑ i ∈ t, R.v (x i) ^ 2 ≤ (9 * β) ^ 2 := by
    intro t hts ht hfin
    have h1 := (hT.up hts ht).backward (z := fun i => R.v (z i)) (x := fun i => R.v (x i)) hcond
      (e := R.underflow n c) fun j hj => by
        have e1 : ∀ g : ι → F, (∀ r, u r j = 0 → g r = 0) → ∑ r ∈ t, g r = ∑ r ∈ s, g r := fun g hg =>
          sum_subset hts fun r hr hrt => hg r (ht j hj r hr hrt)
        rw [e1 (fun i => u i j * R.v (x i)) (fun r hr => by rw [hr, zero_mul]),
          e1 (fun i => |u i j| * |R.v (x i)|) (fun r hr => by rw [hr, abs_zero, zero_mul])]
        exact hdot j (hts hj) (hfin j hj)
    have h2 : ∑ i ∈ t, d i * R.v (z i) ^ 2 ≤ ∑ i ∈ s, d i * R.v (z i) ^ 2 :=
      sum_le_sum_of_subset_of_nonneg hts fun i hi _ => mul_nonneg (hT.d_pos hi).le (sq_nonneg _)
    have h3 : (t.card : F) * R.underflow n c ^ 2 ≤ s.card * R.underflow n c ^ 2 :=
      mul_le_mul_of_nonneg_right (by exact_mod_cast card_le_card hts) (sq_nonneg _)
    have h4 : 0 ≤ s.card * R.underflow n c ^ 2 := by positivity
    have h5 : s.card * (α * μ * R.η ^ 2) ≤ s.card * (α * μ * R.underflow n c ^ 2) :=
      mul_le_mul_of_nonneg_left (mul_le_mul_of_nonneg_left (pow_le_pow_left₀ hη hηU 2) (by positivity)) (by positivity)
    have h6 := mul_le_mul_of_nonneg_left h1 hμ.le
    have h7 := mul_le_mul_of_nonneg_left h2 hμ.le
    have h8 := mul_le_mul_of_nonneg_left h3 (show 0 ≤ α * μ by positivity)
    have h9 := sq_nonneg β
    have e1 : μ ^ 2 * ∑ i ∈ t, R.v (x i) ^ 2 = μ * (μ * ∑ i ∈ t, R.v (x i) ^ 2) := by ring
    rw [e1]
    linarith
  have main : ∀ m, ∀ i ∈ s, s.sup rk - rk i = m → R.fin (x i) ∧ R.stored (x i) := by
    intro m
    induction m using Nat.strong_induction_on with
    | _ m ih =>
    intro j hj hjm
    obtain ⟨ks, hnd, hks, hlen, hx⟩ := hcol j hj
    let t := s.filter fun i => rk j < rk i
    have hts : t ⊆ s := filter_subset _ _
    have ht : ∀ i ∈ t, R.fin (x i) ∧ R.stored (x i) := fun i hi => by
      have h1 := (mem_filter.mp hi).2
      have h2 := le_sup (f := rk) (hts hi)
      exact ih (s.sup rk - rk i) (by omega) i (hts hi) rfl
    have h1 := energy t hts (fun r hr i hi hit => hT.unit.zero i hi r (hts hr) (by
      have h2 := (mem_filter.mp hr).2
      have h3 : ¬rk j < rk i := fun h => hit (mem_filter.mpr ⟨hi, h⟩)
      omega)) fun i hi => (ht i hi).1
    have h2 : ∀ i ∈ t, |R.v (x i)| ≤ 9 * β / μ := by
      intro i hi
      rw [le_div_iff₀ hμ]
      have h3 := single_le_sum (f := fun i => R.v (x i) ^ 2) (fun _ _ => sq_nonneg _) hi
      have h4 : (|R.v (x i)| * μ) ^ 2 ≤ (9 * β) ^ 2 := by
        rw [mul_pow, sq_abs, mul_comm]
        exact (mul_le_mul_of_nonneg_left h3 (sq_nonneg μ)).trans h1
      exact le_trans (le_abs_self _) (abs_le_of_sq_le_sq h4 (by have := hS.nonneg; positivity))
    have hB0 : 0 ≤ β / μ := div_nonneg hS.nonneg hμ.le
    have hP : (ks.map fun i => |R.v (L i j)| * |R.v (x i)|).sum ≤ c * (Λ * (9 * β / μ)) := by
      have h3 : ∀ a ∈ ks.map fun i => |R.v (L i j)| * |R.v (x i)|, a ≤ Λ * (9 * β / μ) := by
        intro a ha
        obtain ⟨i, hi, rfl⟩ := List.mem_map.mp ha
        exact mul_le_mul (hks i hi).2.2.1 (h2 i (mem_filter.mpr ⟨(hks i hi).1, (hks i hi).2.1⟩)) (abs_nonneg _) hΛ
      have h4 := List.sum_le_card_nsmul _ _ h3
      rw [List.length_map, nsmul_eq_mul] at h4
      refine h4.trans (mul_le_mul_of_nonneg_right (by exact_mod_cast hlen) ?_)
      rw [mul_div_assoc]
      positivity
    obtain ⟨hU, -⟩ := underflow_le (b := fun _ => (0 : F)) (β := β) (s := s) (R := R) (n := n) (c := c) hS.nonneg hα hμ.le
      (by simpa using hβ) hj
    have hzj : |R.v (z j)| ≤ 8 / 3 * (β / μ) + R.η := by
      refine le_of_mul_le_mul_left ((hz j hj).2.2.trans (le_of_eq ?_)) hμ
      field_simp
    have hcη : R.η + c * R.η ≤ β := by
      refine le_trans ?_ hU
      unfold underflow
      have h1 : 0 ≤ n * R.η := by positivity
      have h2 := mul_le_mul_of_nonneg_right hcF hη
      linarith
    refine ⟨?_, ?_⟩ <;>
    · have := fin_dot hR (n := c) (l := fun i => L i j) (b := 8 / 3 * (β / μ) + R.η) (P := c * (Λ * (9 * β / μ))) hx
        (hz j hj).2.1 (hz j hj).1 (fun k hk => (hks k hk).2.2.2)
        (fun k hk => ht k (mem_filter.mpr ⟨(hks k hk).1, (hks k hk).2.1⟩)) hlen hzj hP (by
          have g1 := hS.growth (m := c) (by omega)
          have g2 := hS.growth (m := 1) (by omega)
          have hΛβ : 0 ≤ c * (Λ * (β / μ)) := by positivity
          have e1 : c * (Λ * (9 * β / μ)) = 9 * (c * (Λ * (β / μ))) := by ring
          rw [e1]
          have h4 : R.growth 1 * (9 * (c * (Λ * (β / μ)))) ≤ 4 / 3 * (9 * (c * (Λ * (β / μ)))) :=
            mul_le_mul_of_nonneg_right g2 (by positivity)
          have h5 : R.growth c * (8 / 3 * (β / μ) + R.η + R.growth 1 * (9 * (c * (Λ * (β / μ)))) + c * R.η) ≤
              4 / 3 * (8 / 3 * (β / μ) + R.η + R.growth 1 * (9 * (c * (Λ * (β / μ)))) + c * R.η) := by
            refine mul_le_mul_of_nonneg_right g1 ?_
            have := (R.growth_pos 1).le
            positivity
          have h6 : 24 * (β / μ + c * (Λ * (β / μ))) ≤ Ω := by
            have e2 : 24 * (β / μ + c * (Λ * (β / μ))) = 24 * (1 + c * Λ) * β / μ := by ring
            rw [e2, div_le_iff₀ hμ]
            have := hS.max_div
            linarith
          have h7 : 8 * β ≤ Ω := by
            have h8 := hS.max
            have := mul_nonneg hΛ hS.nonneg
            linarith
          linarith)
      first | exact this.1 | exact this.2.1
  exact ⟨fun i hi => main _ i hi rfl, energy s (Subset.refl s) (fun i _ r hr hrt => absurd hr hrt)
    fun i hi => (main _ i hi rfl).1⟩

end

end Rounding

end Ctldl
