import Verif.Lemmas.AnyOrderRange
import Verif.Lemmas.AnyOrderDefinite
import Verif.Lemmas.RangeAdd
import Verif.Lemmas.SolveQuasi
import Verif.Spec.AnyOrderRange

/-! # Finite solutions for quasidefinite matrices with sums in any order -/

namespace Ctldl

open Finset

set_option linter.unusedSectionVars false

variable {K F : Type} [Zero K] [Add K] [Sub K] [Mul K] [Div K] [Field F] [LinearOrder F] [IsStrictOrderedRing F]

variable {R : RoundingAdd K F} {P : Nat → Nat → Prop} {n h q : Nat} {L : Nat → Nat → K} {D : Nat → K} {Ω μ β : F}

/-- One step of a substitution. -/
theorem LeftOver.step (hR : R.Range Ω) (hst : ∀ a, R.stored a) (hσ : R.σ ≤ R.η) (hg : R.growth (h + 1) ≤ 3 / 2) {a x : K}
    {ks : List Nat} {l y : Nat → K} (hy : LeftOver h q a ks (fun j => l j * y j) x) {A Λ Y : F} (ha : R.fin a) (hA : |R.v a| ≤ A)
    (hΛ : 0 ≤ Λ) (hY : 0 ≤ Y)
    (hk : ∀ k ∈ ks, (R.fin (l k) ∧ |R.v (l k)| ≤ Λ) ∧ R.fin (y k) ∧ |R.v (y k)| ≤ Y)
    (hΩ : 2 * (A + (q + 1) * (2 * (Λ * Y) + R.η)) ≤ Ω) :
    R.fin x ∧ R.Apx (h + 1) (R.v a) (R.v x + (ks.map fun k => R.v (l k) * R.v (y k)).sum)
      (|R.v x| + (ks.map fun k => |R.v (l k)| * |R.v (y k)|).sum) (q * R.η) := by
  have hη0 := R.η_nonneg
  have hσ0 := R.σ_nonneg
  have hΛY := mul_nonneg hΛ hY
  have hA0 := (abs_nonneg _).trans hA
  have hq0 : (0 : F) ≤ q * (2 * (Λ * Y) + R.η) := by positivity
  have hterm : ∀ k ∈ ks, R.fin (l k * y k) ∧
      R.Apx 1 (R.v (l k * y k)) (R.v (l k) * R.v (y k)) (|R.v (l k)| * |R.v (y k)|) (R.η - R.σ) ∧
      |R.v (l k * y k)| ≤ 2 * (Λ * Y) + (R.η - R.σ) := by
    intro k hk'
    obtain ⟨⟨h1, h2⟩, h3, h4⟩ := hk k hk'
    have h5 : |R.v (l k) * R.v (y k)| ≤ Λ * Y := by
      rw [abs_mul]
      exact mul_le_mul h2 h4 (abs_nonneg _) hΛ
    have hf : R.fin (l k * y k) := hR.fin_mul (hst _) (hst _) h1 h3 (by linarith)
    obtain ⟨δ, e, hδ, he, h6⟩ := R.mul (hst _) hf
    have hμ : R.toRounding.μ ≤ R.η - R.σ := le_sub_iff_add_le.mpr R.μ_add_σ
    have h7 := ((Rounding.Apx.refl (R := R.toRounding) 0 (R.v (l k) * R.v (y k))).mul_round hδ).add_err (he.trans hμ)
    rw [← h6, abs_mul, zero_add, zero_add] at h7
    refine ⟨hf, h7, ?_⟩
    rw [h6]
    refine (abs_add_le _ _).trans (add_le_add ?_ (he.trans hμ))
    rw [abs_mul (R.v (l k) * R.v (y k)), mul_comm]
    refine mul_le_mul ?_ h5 (abs_nonneg _) (by norm_num)
    have := abs_add_le 1 δ
    have := R.u_lt_one
    rw [abs_one] at *
    linarith
  have hσ' : 0 ≤ R.η - R.σ := sub_nonneg.mpr hσ
  have hB : 0 ≤ 2 * (Λ * Y) + (R.η - R.σ) := by positivity
  obtain ⟨h1, -⟩ := hy.fin hR hst ha hB (fun k hk => ⟨(hterm k hk).1, (hterm k hk).2.2⟩) (by
    have g1 : R.growth h ≤ 3 / 2 := (R.growth_mono (by omega)).trans hg
    have g2 : |R.v a| + q * (2 * (Λ * Y) + (R.η - R.σ) + R.σ) ≤ A + q * (2 * (Λ * Y) + R.η) :=
      add_le_add hA (le_of_eq (by ring))
    have g3 : 0 ≤ |R.v a| + q * (2 * (Λ * Y) + (R.η - R.σ) + R.σ) := by positivity
    have g4 := mul_le_mul g1 g2 g3 (by norm_num)
    linarith)
  refine ⟨h1, ?_⟩
  have := (hy.apx R h1).2.2 hσ' (Rounding.Apx.refl 1 _) fun k hk => (hterm k hk).2.1
  exact this.mono (by omega) le_rfl (le_of_eq (zero_add _))

variable {σ : Nat → F} {r c : Nat}

/-- Forward substitution. -/
theorem forward_any (hR : R.Range Ω) (hst : ∀ a, R.stored a) (hσ : R.σ ≤ R.η) (hg : R.growth (h + 1) ≤ 3 / 2)
    (hP : ∀ i j, P i j → j < i) (hL0 : ∀ i j, ¬ P i j → R.v (L i j) = 0)
    (hF : Firm (range n) (fun i => i) (unitLower fun i j => R.v (L i j)) (fun i => R.v (D i)) σ r c μ β)
    (hL : ∀ i < n, ∀ j, P i j → R.fin (L i j) ∧ |R.v (L i j)| ≤ β / μ) {s B Y : F} (hs : 0 ≤ s) (hroot : (n : F) ≤ s ^ 2)
    (hcond : 2 * (s * r * R.gamma (h + 1) * (β / μ) ^ 2) ≤ 1) (hY : 2 * s * (β / μ) * (B + 2 * (q * R.η)) ≤ Y)
    (hΩ : 2 * (B + (q + 1) * (2 * (β / μ * Y) + R.η)) ≤ Ω) {b y : Nat → K} (hb : ∀ i < n, R.fin (b i) ∧ |R.v (b i)| ≤ B)
    (hy : ∀ i < n, LeftOver h q (b i) (rowEntriesOf P i) (fun j => L i j * y j) (y i)) :
    ∀ i < n, R.fin (y i) ∧ |R.v (y i)| ≤ Y := by
  intro i₀ hi₀
  have hn : 0 < n := by omega
  have hΛ : 0 ≤ β / μ := div_nonneg (hF.β_pos (mem_range.mpr hn)).le hF.μ_pos.le
  have hB0 : 0 ≤ B := (abs_nonneg _).trans (hb i₀ hi₀).2
  have hη0 := R.η_nonneg
  have hY0 : 0 ≤ Y := le_trans (by positivity) hY
  have hzero : ∀ i k, i ≤ k → R.v (L i k) = 0 := fun i k hik => hL0 i k fun hp => absurd (hP i k hp) (by omega)
  have hzero' : ∀ i k, i ≤ k → |R.v (L i k)| = 0 := fun i k hik => by rw [hzero i k hik, abs_zero]
  have key : ∀ i < n, (∀ j < i, R.fin (y j) ∧ |R.v (y j)| ≤ Y) → R.fin (y i) ∧ ∀ k, i < k →
      |R.v (b i) - ∑ j ∈ range k, unitLower (fun i j => R.v (L i j)) i j * R.v (y j)| ≤
        R.gamma (h + 1) * ∑ j ∈ range k, |unitLower (fun i j => R.v (L i j)) i j| * |R.v (y j)| + 2 * (q * R.η) := by
    intro i hi hlt
    obtain ⟨h1, h2⟩ := (hy i hi).step hR hst hσ hg (hb i hi).1 (hb i hi).2 hΛ hY0 (fun k hk => by
      have hk' : k < i ∧ P i k := by
        unfold rowEntriesOf at hk
        simpa using hk
      exact ⟨hL i hi k hk'.2, hlt k hk'.1⟩) hΩ
    refine ⟨h1, fun k hk => ?_⟩
    rw [sum_rowEntries (fun k hk => by rw [hL0 i k hk, zero_mul]),
      sum_rowEntries (fun k hk => by rw [hL0 i k hk, abs_zero, zero_mul]),
      ← unitLower_row (l := fun a b => R.v (L a b)) (y := fun k => R.v (y k)) hzero hk,
      ← unitLower_row (l := fun a b => |R.v (L a b)|) (y := fun k => |R.v (y k)|) hzero' hk] at h2
    simp only [abs_unitLower]
    refine h2.err.trans (add_le_add le_rfl (mul_le_mul_of_nonneg_right (by linarith) (by positivity)))
  induction i₀ using Nat.strong_induction_on with
  | _ i ih =>
    have ih := fun j hj => ih j hj (by omega)
    refine ⟨(key i hi₀ ih).1, ?_⟩
    have hsub : range (i + 1) ⊆ range n := range_subset_range.mpr (by omega)
    have hF' := hF.down hsub fun k hk j hj hjt => hF.unit.zero k (hsub hk) j hj (by
      have h1 := mem_range.mp hk
      have h2 : ¬ j < i + 1 := fun h => hjt (mem_range.mpr h)
      show k < j
      omega)
    refine le_trans (hF'.forward (γ := R.gamma (h + 1)) (e := 2 * (q * R.η)) (q := s) (B := B) (b := fun i => R.v (b i))
      (y := fun i => R.v (y i)) (R.gamma_nonneg _) (by positivity) hB0 hs ?_ hcond
      (fun k hk => (hb k (mem_range.mp (hsub hk))).2) (fun k hk => ?_) i (mem_range.mpr (by omega))) hY
    · refine le_trans ?_ hroot
      rw [card_range]
      exact_mod_cast (show i + 1 ≤ n by omega)
    · have hk := mem_range.mp hk
      exact (key k (by omega) fun j hj => ih j (by omega)).2 (i + 1) hk

/-- Backward substitution. -/
theorem backward_any (hR : R.Range Ω) (hst : ∀ a, R.stored a) (hσ : R.σ ≤ R.η) (hg : R.growth (h + 1) ≤ 3 / 2)
    (hP : ∀ i j, P i j → j < i) (hL0 : ∀ i j, ¬ P i j → R.v (L i j) = 0)
    (hF : Firm (range n) (fun i => i) (unitLower fun i j => R.v (L i j)) (fun i => R.v (D i)) σ r c μ β)
    (hL : ∀ i < n, ∀ j, P i j → R.fin (L i j) ∧ |R.v (L i j)| ≤ β / μ) {s Z X : F} (hs : 0 ≤ s) (hroot : (n : F) ≤ s ^ 2)
    (hcond : 2 * (s * (r * c) * R.gamma (h + 1) * (β / μ) ^ 2) ≤ 1) (hX : 2 * s * r * (β / μ) * (Z + 2 * (q * R.η)) ≤ X)
    (hΩ : 2 * (Z + (q + 1) * (2 * (β / μ * X) + R.η)) ≤ Ω) {z x : Nat → K} (hz : ∀ i < n, R.fin (z i) ∧ |R.v (z i)| ≤ Z)
    (hx : ∀ i < n, LeftOver h q (z i) (columnEntriesOf P n i) (fun k => L k i * x k) (x i)) :
    ∀ i < n, R.fin (x i) ∧ |R.v (x i)| ≤ X := by
  intro i₀ hi₀
  have hn : 0 < n := by omega
  have hΛ : 0 ≤ β / μ := div_nonneg (hF.β_pos (mem_range.mpr hn)).le hF.μ_pos.le
  have hZ0 : 0 ≤ Z := (abs_nonneg _).trans (hz i₀ hi₀).2
  have hη0 := R.η_nonneg
  have hX0 : 0 ≤ X := le_trans (by positivity) hX
  have hzero : ∀ i k, i ≤ k → R.v (L i k) = 0 := fun i k hik => hL0 i k fun hp => absurd (hP i k hp) (by omega)
  have hzero' : ∀ i k, i ≤ k → |R.v (L i k)| = 0 := fun i k hik => by rw [hzero i k hik, abs_zero]
  have key : ∀ i < n, (∀ j < n, i < j → R.fin (x j) ∧ |R.v (x j)| ≤ X) → R.fin (x i) ∧
      |R.v (z i) - ∑ k ∈ range n, unitLower (fun i j => R.v (L i j)) k i * R.v (x k)| ≤
        R.gamma (h + 1) * ∑ k ∈ range n, |unitLower (fun i j => R.v (L i j)) k i| * |R.v (x k)| + 2 * (q * R.η) := by
    intro i hi hlt
    obtain ⟨h1, h2⟩ := (hx i hi).step (l := fun k => L k i) hR hst hσ hg (hz i hi).1 (hz i hi).2 hΛ hX0 (fun k hk => by
      have hk' : k < n ∧ P k i := by
        unfold columnEntriesOf at hk
        simpa using hk
      exact ⟨hL k hk'.1 i hk'.2, hlt k hk'.1 (hP k i hk'.2)⟩) hΩ
    refine ⟨h1, ?_⟩
    rw [sum_columnEntries (fun k hk => by rw [hL0 k i hk, zero_mul]),
      sum_columnEntries (fun k hk => by rw [hL0 k i hk, abs_zero, zero_mul]),
      ← unitLower_column (l := fun a b => R.v (L a b)) (y := fun k => R.v (x k)) hzero hi,
      ← unitLower_column (l := fun a b => |R.v (L a b)|) (y := fun k => |R.v (x k)|) hzero' hi] at h2
    simp only [abs_unitLower]
    refine h2.err.trans (add_le_add le_rfl (mul_le_mul_of_nonneg_right (by linarith) (by positivity)))
  have main : ∀ m i, i < n → n ≤ i + m → R.fin (x i) ∧ |R.v (x i)| ≤ X := by
    intro m
    induction m with
    | zero => exact fun i hi h => absurd h (by omega)
    | succ m ih =>
      intro i hi him
      have ih : ∀ j < n, i < j → R.fin (x j) ∧ |R.v (x j)| ≤ X := fun j hj hij => ih j hj (by omega)
      refine ⟨(key i hi ih).1, ?_⟩
      refine le_trans (hF.backward (t := (range n).filter fun k => i ≤ k) (filter_subset _ _) (fun k hk j hj hjt => ?_)
        (γ := R.gamma (h + 1)) (e := 2 * (q * R.η)) (q := s) (Z := Z) (z := fun i => R.v (z i)) (x := fun i => R.v (x i))
        (R.gamma_nonneg _) (by positivity) hZ0 hs (by rwa [card_range]) hcond
        (fun k hk => (hz k (mem_range.mp (mem_filter.mp hk).1)).2) (fun k hk => ?_) i
        (mem_filter.mpr ⟨mem_range.mpr hi, le_rfl⟩)) hX
      · refine hF.unit.zero j hj k (mem_filter.mp hk).1 ?_
        have h1 := (mem_filter.mp hk).2
        have h2 : ¬ i ≤ j := fun h => hjt (mem_filter.mpr ⟨hj, h⟩)
        show j < k
        omega
      · obtain ⟨h1, h2⟩ := mem_filter.mp hk
        exact (key k (mem_range.mp h1) fun j hj hkj => ih j hj (by omega)).2
  exact main n i₀ hi₀ (by omega)

/-- Division by the pivots. -/
theorem diagonal_any {m : Nat} {Quot : K → K → K → Prop} (hg : R.growth m ≤ 3 / 2) (hμ : 0 < μ) {a d y : K} {Y : F}
    (hQ : R.Divides m Quot d) (hd : μ < |R.v d|) (hy : Quot a d y) (hf : R.fin y) (ha : |R.v a| ≤ Y) :
    |R.v y| ≤ 2 * (Y / μ) + 3 * R.η := by
  obtain ⟨-, -, h1⟩ := (hQ a y hy).2 hf
  have h2 := h1.err
  have hη0 := R.η_nonneg
  have hd0 := hμ.trans hd
  have hY0 := (abs_nonneg _).trans ha
  have h3 : |R.v y| * |R.v d| ≤ |R.v a| + |R.v a - R.v y * R.v d| := by
    have := abs_sub (R.v a) (R.v a - R.v y * R.v d)
    rwa [sub_sub_cancel, abs_mul] at this
  have h4 : R.gamma m * (|R.v y| * |R.v d|) ≤ 1 / 2 * (|R.v y| * |R.v d|) :=
    mul_le_mul_of_nonneg_right (by unfold Rounding.gamma; linarith) (by positivity)
  have h5 : R.growth m * (R.η * |R.v d|) ≤ 3 / 2 * (R.η * |R.v d|) := mul_le_mul_of_nonneg_right hg (by positivity)
  have h6 : Y ≤ Y / μ * |R.v d| := by
    rw [div_mul_eq_mul_div, le_div_iff₀ hμ]
    exact mul_le_mul_of_nonneg_left hd.le hY0
  have h7 : |R.v y| * |R.v d| ≤ (2 * (Y / μ) + 3 * R.η) * |R.v d| := by linarith
  exact le_of_mul_le_mul_right h7 hd0

variable {Quot : K → K → K → Prop} {m : Nat} {A w : Nat → Nat → K} {S : Nat → Prop} {ρ ε γ e : F}

/-- The computed factors in a form which suits the substitutions. -/
theorem AnyQuasi.firm (H : AnyQuasi R Quot P m n h q A L w D r c S Ω ρ μ β ε γ e) :
    Firm (Finset.range n) (fun i => i) (unitLower fun i j => R.v (L i j)) (fun i => R.v (D i)) (rowSign S) (r + 1) c μ β := by
  have hγ0 : 0 ≤ γ := H.gamma_eq ▸ R.gamma_nonneg _
  have hN := H.near
  obtain ⟨h1, h2, h3, -⟩ := hN.quasidefinite H.lower H.zero_v (fun i j => by rw [H.symm]) hγ0 H.e_nonneg.1 H.col H.row H.gamma
    H.pos (fun _ _ _ => rfl) H.qd H.rows H.bound H.accuracy
  have hu := unitLower_of_pattern (n := n) H.lower H.zero_v
  refine firm_of_approx (A := fun i j => R.v (A i j)) (γ := γ) (e := e) (Q := quasiGrowth r c μ β) hu hγ0 H.pos (rowSign_abs S)
    (fun i hi j hj => ?_) (fun i hi => (H.all_rows i (mem_range.mp hi)).pos) (fun i hi => (H.all_rows i (mem_range.mp hi)).le)
    (fun i hi j hj => ?_) (fun i hi => ?_)
    (fun j hj => (card_col_pattern H.zero_v j).trans (H.col j (mem_range.mp hj))) (fun i hi => ?_)
    (by rw [card_range]; exact H.accuracy) (H.qd.signed fun i _ j _ => by rw [H.symm])
  · simp only [abs_unitLower]
    exact hN.exact (fun _ _ => rfl) (mem_range.mp hi) (mem_range.mp hj)
  · have hi' := mem_range.mp hi
    have hD := H.all_rows i hi'
    by_cases hij : i = j
    · subst hij
      rw [unitLower_self, abs_one, le_div_iff₀ H.pos, one_mul]
      exact (hD.pos.trans_le hD.le).le
    · rw [unitLower_ne hij]
      exact h2 i hi' j (mem_range.mp hj)
  · simp only [abs_unitLower]
    push_cast
    exact (h3 i (mem_range.mp hi)).2
  · simp only [abs_unitLower]
    exact (h3 i (mem_range.mp hi)).1

/-- Solutions are finite. -/
theorem AnyQuasi.solved (H : AnyQuasi R Quot P m n h q A L w D r c S Ω ρ μ β ε γ e) {h₁ q₁ h₂ q₂ : Nat} {s B Y Z X : F}
    (hS : R.AmpleAnySolve n h₁ q₁ h₂ q₂ r c Ω μ β s B Y Z X) {b x : Nat → K} (hb : ∀ i < n, R.fin (b i) ∧ |R.v (b i)| ≤ B)
    (hx : SolveWith Quot P n h₁ q₁ h₂ q₂ L D b x) : ∀ i < n, R.fin (x i) ∧ |R.v (x i)| ≤ X := by
  obtain ⟨y, z, hy, hz, hx⟩ := hx
  have hF := H.firm
  have hL : ∀ i < n, ∀ j, P i j → R.fin (L i j) ∧ |R.v (L i j)| ≤ β / μ := fun i hi j hj => by
    have hji := H.lower i j hj
    refine ⟨((H.all_rows i hi).ent j hj).1, ?_⟩
    have := hF.u_le i (mem_range.mpr hi) j (mem_range.mpr (by omega))
    rwa [unitLower_ne (by omega)] at this
  have g1 : R.growth (h₁ + 1) ≤ 3 / 2 := by
    have := hS.gamma_forward
    unfold Rounding.gamma at this
    linarith
  have g2 : R.growth (h₂ + 1) ≤ 3 / 2 := by
    have := hS.gamma_backward
    unfold Rounding.gamma at this
    linarith
  have hY := forward_any H.range H.stored H.sub g1 H.lower H.zero_v (r := r + 1) hF hL hS.nonneg hS.root
    (by rw [Nat.cast_add, Nat.cast_one]; exact hS.condition_forward) hS.forward hS.max_forward hb hy
  have hZ : ∀ i < n, R.fin (z i) ∧ |R.v (z i)| ≤ Z := fun i hi => by
    have hD := H.all_rows i hi
    obtain ⟨h1, h2⟩ := hY i hi
    have hf := H.fin_quot _ _ _ (hz i hi) h1 hD.fin hD.pos hD.le
      ((mul_le_mul_of_nonneg_left h2 (by norm_num)).trans hS.divide)
    exact ⟨hf, (diagonal_any ((R.growth_mono (by omega)).trans H.growth_le) H.pos (H.divides _ hD.fin hD.pos hD.le) hD.pos
      (hz i hi) hf h2).trans hS.diagonal⟩
  exact backward_any H.range H.stored H.sub g2 H.lower H.zero_v (r := r + 1) hF hL hS.nonneg hS.root
    (by rw [Nat.cast_add, Nat.cast_one]; exact hS.condition_backward) (by rw [Nat.cast_add, Nat.cast_one]; exact hS.backward) hS.max_backward hZ hx

/-- Formulas of the factorization of a quasidefinite matrix. -/
theorem FormulasWith.anyQuasi (hm : 1 ≤ m) {reg : K → Nat → K}
    (hr : FormulasWith Quot P n h q A L D reg) (hP : ∀ i j, P i j → j < i)
    (hfill : ∀ i j k, P i k → P j k → j < i → P i j) (hA : ∀ i j, A i j = A j i)
    (hA0 : ∀ i j, j < i → ¬ P i j → A i j = 0) (hL0 : ∀ i j, ¬ P i j → L i j = 0)
    (hfin : ∀ i < n, ∀ j < n, R.fin (A i j)) (hR : R.AmpleAny (m + 1) n h q r c Ω ρ μ β ε)
    (hQ : ∀ d, R.fin d → μ < |R.v d| → |R.v d| ≤ β → R.Divides m Quot d)
    (hQf : ∀ a d y, Quot a d y → R.fin a → R.fin d → μ < |R.v d| → |R.v d| ≤ β → 2 * |R.v a| ≤ μ * Ω → R.fin y)
    (hc : ∀ j < n, (columnEntriesOf P n j).length < c) (hrow : ∀ i < n, (rowEntriesOf P i).length ≤ r)
    (hreg : ∀ x i, R.fin x → μ < |R.v x| → reg x i = x)
    (hq : QuasiDef (range n) S (2 * μ) fun i j => R.v (A i j))
    (hρ : ∀ i < n, ∑ j ∈ range n, |R.v (A i j)| ≤ ρ) :
    ∃ w, AnyQuasi R Quot P m n h q A L w D r c S Ω ρ μ β ε (R.gamma (h + (m + 1)))
      (R.growth (h + (m + 1)) * ((q + 1) * ε)) := by
  choose! w hw using hr
  exact ⟨w,
    { range := hR.range, stored := hR.stored, rounds := hm, sums := fun i hi => (hw i hi).1, quots := fun i hi => (hw i hi).2.1,
      pivot := fun i hi h1 h2 => by rw [(hw i hi).2.2, hreg _ _ h1 h2]
      divides := hQ, fin_quot := hQf, lower := hP, fill := hfill, symm := hA, off := hA0, zero := hL0, fin := hfin,
      col := hc, row := hrow, gamma_eq := rfl, e_eq := rfl, gamma := hR.gamma, pos := hR.pos, qd := hq, rows := hρ,
      bound := hR.bound, accuracy := hR.accuracy, unit := hR.unit, sub := hR.sub, small := hR.small, max := hR.max,
      max_sum := hR.max_sum, max_div := hR.max_div }⟩

theorem abs_div_le_of_lt {a d μ Ω : F} (hμ : 0 < μ) (hd : μ < |d|) (ha : |a| ≤ μ * Ω) (hΩ : 0 ≤ Ω) : |a / d| ≤ Ω := by
  rw [abs_div, div_le_iff₀ (hμ.trans hd)]
  refine ha.trans ?_
  rw [mul_comm]
  exact mul_le_mul_of_nonneg_left hd.le hΩ

theorem ne_zero_of_lt_abs {d μ : F} (hμ : 0 < μ) (hd : μ < |d|) : d ≠ 0 := abs_pos.mp (hμ.trans hd)

theorem RoundingAdd.AmpleAny.nonneg {R : RoundingAdd K F} {m n h q r c : Nat} {Ω ρ μ β ε : F}
    (hR : R.AmpleAny m n h q r c Ω ρ μ β ε) : 0 ≤ Ω := by
  have h1 := hR.pos
  have h2 : 0 ≤ β := nonneg_of_mul_nonneg_left (le_trans (by positivity) hR.bound) h1
  exact le_trans (by positivity) hR.max

/-- Quotients and products with reciprocals do not overflow. -/
theorem fin_recip {m : Nat} {ρ ε : F} (hR : R.AmpleAny m n h q r c Ω ρ μ β ε) {one : K} (hone : R.fin one ∧ R.v one = 1) (hΩ : 1 ≤ μ * Ω)
    (hrec : ∀ d, R.fin d → |R.v d| ≤ β → R.AccurateReciprocal one d) : ∀ a d y, QuotientOrReciprocal one a d y →
    R.fin a → R.fin d → μ < |R.v d| → |R.v d| ≤ β → 2 * |R.v a| ≤ μ * Ω → R.fin y := by
  intro a d y hy fa fd hd hβ ha
  have hΩ0 := hR.nonneg
  have hd0 := ne_zero_of_lt_abs hR.pos hd
  have fr : R.fin (one / d) := hR.range.fin_div (hR.stored _) (hR.stored _) hone.1 fd hd0
    (abs_div_le_of_lt hR.pos hd (by rwa [hone.2, abs_one]) hΩ0)
  have hprod : |R.v a * R.v (one / d)| ≤ Ω := by
    obtain ⟨δ, hδ, h1⟩ := hrec d fd hβ fr
    have h2 : R.v a * R.v (one / d) = R.v a * (1 + δ) / R.v d := by
      rw [eq_div_iff hd0, mul_assoc, h1]
    rw [h2]
    refine abs_div_le_of_lt hR.pos hd ?_ hΩ0
    rw [abs_mul, mul_comm]
    refine (mul_le_mul_of_nonneg_right ?_ (abs_nonneg _)).trans ha
    have h3 := abs_add_le 1 δ
    have h4 := R.u_lt_one
    rw [abs_one] at h3
    linarith
  rcases hy with rfl | rfl | rfl
  · refine hR.range.fin_div (hR.stored _) (hR.stored _) fa fd hd0 (abs_div_le_of_lt hR.pos hd ?_ hΩ0)
    have := abs_nonneg (R.v a)
    linarith
  · exact hR.range.fin_mul (hR.stored _) (hR.stored _) fa fr hprod
  · exact hR.range.fin_mul (hR.stored _) (hR.stored _) fr fa (by rwa [mul_comm])

/-- Quotients do not overflow. -/
theorem fin_quotient {m : Nat} {ρ ε : F} (hR : R.AmpleAny m n h q r c Ω ρ μ β ε) : ∀ a d y : K, y = a / d →
    R.fin a → R.fin d → μ < |R.v d| → |R.v d| ≤ β → 2 * |R.v a| ≤ μ * Ω → R.fin y := by
  rintro a d _ rfl fa fd hd hβ ha
  refine hR.range.fin_div (hR.stored _) (hR.stored _) fa fd (ne_zero_of_lt_abs hR.pos hd)
    (abs_div_le_of_lt hR.pos hd ?_ (hR.nonneg))
  have := abs_nonneg (R.v a)
  linarith

end Ctldl
