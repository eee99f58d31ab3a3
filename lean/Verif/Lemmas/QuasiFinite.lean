import Verif.Lemmas.QuasiSolve
import Verif.Lemmas.ForwardFinite
import Verif.Spec.QuasiRange

/-! # Solving quasidefinite systems without overflow -/

namespace Ctldl

open Finset

variable {ι K F : Type} [DecidableEq ι] [Zero K] [Sub K] [Mul K] [Div K] [Field F] [LinearOrder F] [IsStrictOrderedRing F]

namespace Rounding

variable {R : Rounding K F} {s : Finset ι} {rk : ι → Nat} {u : ι → ι → F} {d σ : ι → F} {n c dim : Nat}
  {Ω μ β q B Y X : F}

theorem AmpleQuasiSolve.growth (hS : R.AmpleQuasiSolve n c dim Ω μ β q B Y X) {m : Nat} (hm : m ≤ n + c + 2) :
    R.growth m ≤ 4 / 3 := by
  have h1 := R.growth_mono hm
  have h2 := hS.gamma
  unfold Rounding.gamma at h2
  linarith

/-- The error of a substitution, in the terms of the conditions on the arithmetic. -/
theorem Dot.error_quasi (hS : R.AmpleQuasiSolve n c dim Ω μ β q B Y X) {k : Nat}
    (hk : k ≤ n + c) {x S A : F} (h : R.Dot k x S A) : |x - S| ≤ R.gamma (n + c + 2) * A + R.underflow n c := by
  refine h.err.trans (add_le_add ?_ ?_)
  · exact mul_le_mul_of_nonneg_right (R.gamma_mono (by omega)) ((abs_nonneg _).trans h.abs_le)
  · have h1 : R.growth (k + 1) ≤ 2 := (hS.growth (by omega)).trans (by norm_num)
    have h2 : (k : F) ≤ n + c := by exact_mod_cast hk
    have h3 := mul_le_mul_of_nonneg_right h2 R.η_nonneg
    have h4 := mul_le_mul h1 h3 (mul_nonneg (by positivity) R.η_nonneg) (by norm_num)
    refine h4.trans (le_of_eq ?_)
    unfold underflow
    ring

omit [DecidableEq ι] in
/-- A sum of bounded products. -/
theorem list_sum_le_mul {ks : List ι} {f g : ι → F} {Λ V : F} {m : Nat} (hΛ : 0 ≤ Λ) (hV : 0 ≤ V)
    (hf : ∀ k ∈ ks, |f k| ≤ Λ) (hg : ∀ k ∈ ks, |g k| ≤ V) (hm : ks.length ≤ m) :
    (ks.map fun k => |f k| * |g k|).sum ≤ m * (Λ * V) := by
  have h3 : ∀ a ∈ ks.map fun k => |f k| * |g k|, a ≤ Λ * V := by
    intro a ha
    obtain ⟨i, hi, rfl⟩ := List.mem_map.mp ha
    exact mul_le_mul (hf i hi) (hg i hi) (abs_nonneg _) hΛ
  have h4 := List.sum_le_card_nsmul _ _ h3
  rw [List.length_map, nsmul_eq_mul] at h4
  exact h4.trans (mul_le_mul_of_nonneg_right (by exact_mod_cast hm) (mul_nonneg hΛ hV))

/-- Forward substitution. -/
theorem forward_fin_quasi (hR : R.Range Ω) (hT : Firm s rk u d σ (n + 1) c μ β)
    (hS : R.AmpleQuasiSolve n c dim Ω μ β q B Y X) (hdim : s.card ≤ dim) (hc : 1 ≤ c) {L : ι → ι → K} {b y : ι → K}
    (hrow : ∀ i ∈ s, ∃ ks : List ι, ks.Nodup ∧
      (∀ j ∈ ks, j ∈ s ∧ rk j < rk i ∧ u i j = R.v (L i j) ∧ R.fin (L i j) ∧ R.stored (L i j)) ∧ ks.length ≤ n ∧
      y i = subAll ks (fun j => L i j * y j) (b i))
    (hdot : ∀ i ∈ s, R.fin (y i) → |R.v (b i) - ∑ j ∈ s, u i j * R.v (y j)| ≤
      R.gamma (n + c + 2) * ∑ j ∈ s, |u i j| * |R.v (y j)| + R.underflow n c)
    (hb : ∀ i ∈ s, R.fin (b i) ∧ R.stored (b i)) (hB : ∀ i ∈ s, |R.v (b i)| ≤ B) :
    ∀ i ∈ s, R.fin (y i) ∧ R.stored (y i) ∧ |R.v (y i)| ≤ Y := by
  rcases s.eq_empty_or_nonempty with rfl | ⟨k0, hk0⟩
  · exact fun i hi => absurd hi (notMem_empty i)
  have hμ := hT.μ_pos
  have hβ := hT.β_pos hk0
  have hB0 : 0 ≤ B := (abs_nonneg _).trans (hB k0 hk0)
  have hΛ : 0 ≤ β / μ := by positivity
  have hU := R.underflow_nonneg n c
  have hq := hS.nonneg
  have hγ := R.gamma_nonneg (n + c + 2)
  have hY0 : 0 ≤ Y := le_trans (by positivity) hS.forward
  have hcF : (1 : F) ≤ c := by exact_mod_cast hc
  have hcond : 2 * (q * (n + 1 : Nat) * R.gamma (n + c + 2) * (β / μ) ^ 2) ≤ 1 := by
    refine le_trans ?_ hS.condition
    push_cast
    have h1 : (0 : F) ≤ q * (n + 1) * R.gamma (n + c + 2) * (β / μ) ^ 2 := by positivity
    have h2 := mul_le_mul_of_nonneg_right hcF h1
    linarith
  -- as long as the numbers are finite, they are bounded
  have energy : ∀ t ⊆ s, (∀ i ∈ t, ∀ r ∈ s, r ∉ t → u i r = 0) → (∀ i ∈ t, R.fin (y i)) →
      ∀ i ∈ t, |R.v (y i)| ≤ Y := by
    intro t hts ht hfin i hi
    refine le_trans ?_ hS.forward
    refine (hT.down hts ht).forward (b := fun i => R.v (b i)) (y := fun i => R.v (y i)) hγ hU hB0 hq
      (le_trans (by exact_mod_cast (card_le_card hts).trans hdim) hS.root) hcond
      (fun i hi => hB i (hts hi)) (fun i hi => ?_) i hi
    have e1 : ∀ g : ι → F, (∀ r, u i r = 0 → g r = 0) → ∑ r ∈ t, g r = ∑ r ∈ s, g r := fun g hg =>
      sum_subset hts fun r hr hrt => hg r (ht i hi r hr hrt)
    rw [e1 (fun j => u i j * R.v (y j)) (fun r hr => by rw [hr, zero_mul]),
      e1 (fun j => |u i j| * |R.v (y j)|) (fun r hr => by rw [hr, abs_zero, zero_mul])]
    exact hdot i (hts hi) (hfin i hi)
  have main : ∀ m, ∀ i ∈ s, rk i = m → R.fin (y i) ∧ R.stored (y i) := by
    intro m
    induction m using Nat.strong_induction_on with
    | _ m ih =>
    intro i hi him
    obtain ⟨ks, hnd, hks, hlen, hy⟩ := hrow i hi
    let t := s.filter fun j => rk j < rk i
    have hts : t ⊆ s := filter_subset _ _
    have ht : ∀ j ∈ t, R.fin (y j) ∧ R.stored (y j) := fun j hj =>
      ih (rk j) (him ▸ (mem_filter.mp hj).2) j (hts hj) rfl
    have h1 := energy t hts (fun j hj r hr hrt => hT.unit.zero j (hts hj) r hr (by
      have h2 := (mem_filter.mp hj).2
      have h3 : ¬rk r < rk i := fun h => hrt (mem_filter.mpr ⟨hr, h⟩)
      omega)) fun j hj => (ht j hj).1
    have hmem : ∀ k ∈ ks, k ∈ t := fun k hk => mem_filter.mpr ⟨(hks k hk).1, (hks k hk).2.1⟩
    have hη := R.η_nonneg
    have hnη : n * R.η ≤ R.underflow n c := by
      have : 0 ≤ c * R.η := by positivity
      have : 0 ≤ n * R.η := by positivity
      unfold underflow
      linarith
    have := fin_dot hR (n := n) (b := B) (P := n * (β / μ * Y)) hy (hb i hi).2 (hb i hi).1
      (fun k hk => (hks k hk).2.2.2) (fun k hk => ht k (hmem k hk)) hlen (hB i hi)
      (list_sum_le_mul hΛ hY0 (fun k hk => by
        rw [← (hks k hk).2.2.1]
        exact hT.u_le i hi k (hks k hk).1) (fun k hk => h1 k (hmem k hk)) hlen) (by
        have g1 := hS.growth (m := n) (by omega)
        have g2 := hS.growth (m := 1) (by omega)
        have hP : 0 ≤ β / μ * Y := by positivity
        have hnP : 0 ≤ n * (β / μ * Y) := by positivity
        have h4 : R.growth 1 * (n * (β / μ * Y)) ≤ 4 / 3 * (n * (β / μ * Y)) :=
          mul_le_mul_of_nonneg_right g2 (by positivity)
        have h5 : R.growth n * (B + R.growth 1 * (n * (β / μ * Y)) + n * R.η) ≤
            4 / 3 * (B + R.growth 1 * (n * (β / μ * Y)) + n * R.η) := by
          refine mul_le_mul_of_nonneg_right g1 ?_
          have := (R.growth_pos 1).le
          positivity
        have h6 := hS.max
        linarith)
    exact ⟨this.1, this.2.1⟩
  exact fun i hi => ⟨(main _ i hi rfl).1, (main _ i hi rfl).2, energy s (Subset.refl s) (fun i _ r hr hrt => absurd hr hrt)
    (fun i hi => (main _ i hi rfl).1) i hi⟩

/-- Division by the pivots. -/
theorem diagonal_fin_quasi (hR : R.Range Ω) (hT : Firm s rk u d σ (n + 1) c μ β)
    (hS : R.AmpleQuasiSolve n c dim Ω μ β q B Y X) (hB0 : 0 ≤ B) {D y z : ι → K} (hc : 1 ≤ c)
    (hD : ∀ i ∈ s, R.v (D i) = d i ∧ R.fin (D i) ∧ R.stored (D i))
    (hy : ∀ i ∈ s, R.fin (y i) ∧ R.stored (y i) ∧ |R.v (y i)| ≤ Y) (hz : ∀ i ∈ s, z i = y i / D i) :
    ∀ i ∈ s, R.fin (z i) ∧ R.stored (z i) ∧ |R.v (z i)| ≤ 2 * (Y / μ) + R.underflow n c := by
  intro i hi
  have hμ := hT.μ_pos
  have hβ := hT.β_pos hi
  have hU := R.underflow_nonneg n c
  have hη := R.η_nonneg
  have hq := hS.nonneg
  have hY0 : 0 ≤ Y := (abs_nonneg _).trans (hy i hi).2.2
  have hX0 : 0 ≤ X := le_trans (by positivity) hS.backward
  have hcF : (1 : F) ≤ c := by exact_mod_cast hc
  have hηU : R.η ≤ R.underflow n c := by
    unfold underflow
    have h1 : 0 ≤ n * R.η := by positivity
    have h2 := mul_le_mul_of_nonneg_right hcF hη
    linarith
  have hdi := hT.d_pos hi
  have hquot : |R.v (y i) / d i| ≤ Y / μ := by
    rw [abs_div]
    exact div_le_div₀ hY0 (hy i hi).2.2 hμ (hT.pos i hi).le
  have hYμ : 0 ≤ Y / μ := by positivity
  obtain ⟨hv, hf, hst⟩ := hD i hi
  have hfin : R.fin (z i) := by
    rw [hz i hi]
    refine hR.fin_div (hy i hi).2.1 hst (hy i hi).1 hf (by rw [hv]; exact abs_pos.mp hdi) ?_
    rw [hv]
    have h1 := hS.max_back
    have h2 : 0 ≤ c * (β / μ * X) := by positivity
    linarith
  refine ⟨hfin, by rw [hz i hi]; exact R.stored_div _ _, ?_⟩
  have h1 := hfin
  rw [hz i hi] at h1
  obtain ⟨-, -, -, δ, e, h2, h3, h4⟩ := R.div hf h1
  rw [hv, ← hz i hi] at h4
  have g1 : 1 + R.u ≤ 4 / 3 := R.one_add_u_le.trans (hS.growth (by omega))
  have hone : |1 + δ| ≤ 4 / 3 := by
    refine ((abs_add_le 1 δ).trans ?_).trans g1
    rw [abs_one]
    linarith
  rw [h4]
  have h5 : |R.v (y i) / d i * (1 + δ) + e| ≤ Y / μ * (4 / 3) + R.η := by
    refine (abs_add_le _ _).trans (add_le_add ?_ h3)
    rw [abs_mul]
    exact mul_le_mul hquot hone (abs_nonneg _) hYμ
  linarith

/-- Backward substitution. -/
theorem backward_fin_quasi (hR : R.Range Ω) (hT : Firm s rk u d σ (n + 1) c μ β)
    (hS : R.AmpleQuasiSolve n c dim Ω μ β q B Y X) (hdim : s.card ≤ dim) (hY0 : 0 ≤ Y) (hc : 1 ≤ c) {L : ι → ι → K} {z x : ι → K}
    (hcol : ∀ j ∈ s, ∃ ks : List ι, ks.Nodup ∧
      (∀ i ∈ ks, i ∈ s ∧ rk j < rk i ∧ |R.v (L i j)| ≤ β / μ ∧ R.fin (L i j) ∧ R.stored (L i j)) ∧ ks.length ≤ c ∧
      x j = subAll ks (fun i => L i j * x i) (z j))
    (hdot : ∀ j ∈ s, R.fin (x j) → |R.v (z j) - ∑ i ∈ s, u i j * R.v (x i)| ≤
      R.gamma (n + c + 2) * ∑ i ∈ s, |u i j| * |R.v (x i)| + R.underflow n c)
    (hz : ∀ i ∈ s, R.fin (z i) ∧ R.stored (z i) ∧ |R.v (z i)| ≤ 2 * (Y / μ) + R.underflow n c) :
    ∀ i ∈ s, R.fin (x i) ∧ R.stored (x i) ∧ |R.v (x i)| ≤ X := by
  rcases s.eq_empty_or_nonempty with rfl | ⟨k0, hk0⟩
  · exact fun i hi => absurd hi (notMem_empty i)
  have hμ := hT.μ_pos
  have hβ := hT.β_pos hk0
  have hΛ : 0 ≤ β / μ := by positivity
  have hU := R.underflow_nonneg n c
  have hq := hS.nonneg
  have hγ := R.gamma_nonneg (n + c + 2)
  have hYμ : 0 ≤ Y / μ := by positivity
  have hX0 : 0 ≤ X := le_trans (by positivity) hS.backward
  have hη := R.η_nonneg
  have hcond : 2 * (q * ((n + 1 : Nat) * c) * R.gamma (n + c + 2) * (β / μ) ^ 2) ≤ 1 := by
    push_cast
    exact hS.condition
  have energy : ∀ t ⊆ s, (∀ r ∈ t, ∀ i ∈ s, i ∉ t → u i r = 0) → (∀ i ∈ t, R.fin (x i)) →
      ∀ i ∈ t, |R.v (x i)| ≤ X := by
    intro t hts ht hfin i hi
    refine le_trans ?_ hS.backward
    have := hT.backward hts ht (z := fun i => R.v (z i)) (x := fun i => R.v (x i)) hγ hU
      (Z := 2 * (Y / μ) + R.underflow n c) (by positivity) hq
      (le_trans (by exact_mod_cast hdim) hS.root) hcond
      (fun i hi => (hz i (hts hi)).2.2) (fun j hj => hdot j (hts hj) (hfin j hj)) i hi
    push_cast at this
    refine this.trans (le_of_eq ?_)
    ring
  have main : ∀ m, ∀ i ∈ s, s.sup rk - rk i = m → R.fin (x i) ∧ R.stored (x i) := by
    intro m
    induction m using Nat.strong_induction_on with
    | _ m ih =>
    intro j hj hjm
    obtain ⟨ks, hnd, hks, hlen, hx⟩ := hcol j hj
    let t := s.filter fun i => rk j < rk i
    have hts : t ⊆ s := filter_subset _ _
    have ht : ∀ i ∈ t, R.fin (x i) ∧ R.stored (x i) := fun i hi => by
      have h1 := (mem_filter.mp hi).2
      have h2 := le_sup (f := rk) (hts hi)
      exact ih (s.sup rk - rk i) (by omega) i (hts hi) rfl
    have h1 := energy t hts (fun r hr i hi hit => hT.unit.zero i hi r (hts hr) (by
      have h2 := (mem_filter.mp hr).2
      have h3 : ¬rk j < rk i := fun h => hit (mem_filter.mpr ⟨hi, h⟩)
      omega)) fun i hi => (ht i hi).1
    have hmem : ∀ k ∈ ks, k ∈ t := fun k hk => mem_filter.mpr ⟨(hks k hk).1, (hks k hk).2.1⟩
    have hcη : c * R.η ≤ R.underflow n c := by
      unfold underflow
      have h1 : 0 ≤ n * R.η := by positivity
      have h2 : 0 ≤ c * R.η := by positivity
      linarith
    have := fin_dot hR (n := c) (l := fun i => L i j) (b := 2 * (Y / μ) + R.underflow n c) (P := c * (β / μ * X)) hx
      (hz j hj).2.1 (hz j hj).1 (fun k hk => (hks k hk).2.2.2) (fun k hk => ht k (hmem k hk)) hlen (hz j hj).2.2
      (list_sum_le_mul hΛ hX0 (fun k hk => (hks k hk).2.2.1) (fun k hk => h1 k (hmem k hk)) hlen) (by
        have g1 := hS.growth (m := c) (by omega)
        have g2 := hS.growth (m := 1) (by omega)
        have hP : 0 ≤ c * (β / μ * X) := by positivity
        have h4 : R.growth 1 * (c * (β / μ * X)) ≤ 4 / 3 * (c * (β / μ * X)) :=
          mul_le_mul_of_nonneg_right g2 hP
        have h5 : R.growth c * (2 * (Y / μ) + R.underflow n c + R.growth 1 * (c * (β / μ * X)) + c * R.η) ≤
            4 / 3 * (2 * (Y / μ) + R.underflow n c + R.growth 1 * (c * (β / μ * X)) + c * R.η) := by
          refine mul_le_mul_of_nonneg_right g1 ?_
          have := (R.growth_pos 1).le
          positivity
        have h6 := hS.max_back
        linarith)
    exact ⟨this.1, this.2.1⟩
  exact fun i hi => ⟨(main _ i hi rfl).1, (main _ i hi rfl).2, energy s (Subset.refl s) (fun r _ i hi hit => absurd hi hit)
    (fun i hi => (main _ i hi rfl).1) i hi⟩

end Rounding

end Ctldl
