import Verif.Lemmas.AnyOrderDefinite
import Verif.Lemmas.AnyOrderRows
import Verif.Spec.RangeAdd

/-! # Finite results for quasidefinite matrices with sums in any order -/

namespace Ctldl

open Finset

set_option linter.unusedSectionVars false

section

variable {F : Type} [Field F] [LinearOrder F] [IsStrictOrderedRing F]

variable {P : Nat → Nat → Prop} {n : Nat} {A L : Nat → Nat → F} {D : Nat → F} {γ e : F}

/-- The error of an entry is small. -/
def NearEntry (n : Nat) (A L : Nat → Nat → F) (D : Nat → F) (γ e : F) (i j : Nat) : Prop :=
  |A i j - ldlt n L D i j| ≤ γ * ldlt n (fun a b => |L a b|) (fun a => |D a|) i j + e

theorem NearEntry.symm {i j : Nat} (h : NearEntry n A L D γ e i j) (hA : ∀ i j, A i j = A j i) : NearEntry n A L D γ e j i := by
  unfold NearEntry at *
  rwa [hA j i, ldlt_symm n L D j i, ldlt_symm n _ _ j i]

/-- The first rows of a matrix whose errors are small, and the first entries of another row. -/
theorem quasi_leading (hP : ∀ i j, P i j → j < i) (hL0 : ∀ i j, ¬ P i j → L i j = 0) (hA : ∀ i j, A i j = A j i)
    (hγ0 : 0 ≤ γ) (he : 0 ≤ e) {c r : Nat} (hc : ∀ j < n, (columnEntriesOf P n j).length < c)
    (hr : ∀ i < n, (rowEntriesOf P i).length ≤ r) (hγ : 2 * γ ≤ 1) {μ : F} (hμ : 0 < μ) {S : Nat → Prop} {ρ β : F}
    (hq : QuasiDef (range n) S (2 * μ) A) (hρ : ∀ i < n, ∑ j ∈ range n, |A i j| ≤ ρ) (hβ : 6 * ρ ^ 2 ≤ β * μ)
    (hsmall : γ * quasiGrowth r c μ β + n * e ≤ μ) {i t : Nat} (hi : i < n) (ht : t ≤ i)
    (hrow : ∀ x < t, ∀ y ≤ x, NearEntry n A L D γ e x y) (hent : ∀ y < t, NearEntry n A L D γ e i y) (p₀ : F)
    (hself : |A i i - (p₀ + ∑ k ∈ range t, L i k * D k * L i k)| ≤
      γ * (|p₀| + ∑ k ∈ range t, |L i k| * |D k| * |L i k|) + e) :
    μ < rowSign S i * p₀ ∧ |p₀| ≤ β ∧ ∀ k < t, |L i k * D k| ≤ β := by
  let s' := insert i (range t)
  have hi' : i ∉ range t := fun h => by
    have := mem_range.mp h
    omega
  have hsub : s' ⊆ range n := by
    intro k hk
    rcases mem_insert.mp hk with rfl | hk
    · exact mem_range.mpr hi
    · have := mem_range.mp hk
      exact mem_range.mpr (by omega)
  have hmem : ∀ k ∈ s', k ≠ i → k < t := fun k hk hne => mem_range.mp ((mem_insert.mp hk).resolve_left hne)
  let p : Nat → F := fun k => if k = i then p₀ else D k
  have hu := unitLower_of_pattern (n := n) hP hL0
  have hsum : ∀ (g : F → F), g 0 = 0 → ∀ x ∈ s', ∀ y ∈ s', y ≠ i →
      ∑ k ∈ s', g (unitLower L x k) * g (p k) * g (unitLower L y k) =
        ∑ k ∈ range n, g (unitLower L x k) * g (D k) * g (unitLower L y k) := by
    intro g g0 x hx y hy hyi
    have hy' := hmem y hy hyi
    rw [← sum_subset hsub]
    · refine sum_congr rfl fun k hk => ?_
      by_cases hki : k = i
      · subst hki
        rw [hu.zero y (hsub hy) k (mem_range.mpr hi) (by omega), g0, mul_zero, mul_zero]
      · simp only [p, if_neg hki]
    · intro k hk hk'
      have : t ≤ k := by
        by_contra hlt
        exact hk' (mem_insert_of_mem (mem_range.mpr (by omega)))
      rw [hu.zero y (hsub hy) k hk (by omega), g0, mul_zero]
  have herr : ∀ x ∈ s', ∀ y ∈ s', y ≠ i → NearEntry n A L D γ e x y := by
    intro x hx y hy hyi
    have hy' := hmem y hy hyi
    by_cases hxi : x = i
    · subst hxi
      exact hent y hy'
    · have hx' := hmem x hx hxi
      rcases le_total y x with h | h
      · exact hrow x hx' y h
      · exact (hrow y hy' x h).symm hA
  have herr' : ∀ x ∈ s', ∀ y ∈ s', y ≠ i →
      |A x y - ∑ k ∈ s', unitLower L x k * p k * unitLower L y k| ≤
        γ * ∑ k ∈ s', |unitLower L x k| * |p k| * |unitLower L y k| + e := by
    intro x hx y hy hyi
    have h1 := hsum id rfl x hx y hy hyi
    have h2 := hsum (fun x => |x|) abs_zero x hx y hy hyi
    simp only [id] at h1
    rw [h1, h2]
    simp only [abs_unitLower]
    exact herr x hx y hy hyi
  have hself1 : ∑ k ∈ s', unitLower L i k * p k * unitLower L i k = p₀ + ∑ k ∈ range t, L i k * D k * L i k := by
    show ∑ k ∈ insert i _, _ = _
    rw [sum_insert hi', unitLower_self]
    congr 1
    · simp only [p, if_true]
      ring
    · refine sum_congr rfl fun k hk => ?_
      have hki : k ≠ i := fun h => hi' (h ▸ hk)
      simp only [p, if_neg hki, unitLower_ne hki.symm]
  have hself2 : ∑ k ∈ s', |unitLower L i k| * |p k| * |unitLower L i k| = |p₀| + ∑ k ∈ range t, |L i k| * |D k| * |L i k| := by
    show ∑ k ∈ insert i _, _ = _
    rw [sum_insert hi', unitLower_self, abs_one]
    congr 1
    · simp only [p, if_true]
      ring
    · refine sum_congr rfl fun k hk => ?_
      have hki : k ≠ i := fun h => hi' (h ▸ hk)
      simp only [p, if_neg hki, unitLower_ne hki.symm]
  have key := approx_pivots_quasi (s := s') (rk := fun i => i) (u := unitLower L) (d := p) (p := p) (A := A)
    (n := r + 1) (c := c) (σ := rowSign S) (hu.mono hsub) hγ0 (by linarith) he hμ (fun x hx y hy => by
      rw [sub_self, sub_self, ite_self, add_zero, add_zero]
      by_cases hyi : y = i
      · by_cases hxi : x = i
        · subst hyi; subst hxi
          rw [hself1, hself2]
          exact hself
        · have := herr' y hy x hx hxi
          have e1 : ∀ k, unitLower L y k * p k * unitLower L x k = unitLower L x k * p k * unitLower L y k := fun k => by ring
          have e2 : ∀ k, |unitLower L y k| * |p k| * |unitLower L x k| = |unitLower L x k| * |p k| * |unitLower L y k| :=
            fun k => by ring
          simp only [e1, e2, hA y x] at this
          exact this
      · exact herr' x hx y hy hyi) (rowSign_abs S)
    (fun _ _ _ => rfl) ((hq.signed fun i _ j _ => hA i j).restrict hsub)
    (fun x hx => (sum_le_sum_of_subset_of_nonneg hsub fun _ _ _ => abs_nonneg _).trans (hρ x (mem_range.mp (hsub hx))))
    (fun x hx => (card_le_card (filter_subset_filter _ hsub)).trans
      ((card_row_pattern hP hL0 x).trans (Nat.add_le_add_right (hr x (mem_range.mp (hsub hx))) 1)))
    (fun x hx => (card_le_card (filter_subset_filter _ hsub)).trans
      ((card_col_pattern hL0 x).trans (hc x (mem_range.mp (hsub hx))))) hβ (by
      refine le_trans (add_le_add_right (mul_le_mul_of_nonneg_right ?_ he) _) (by
        push_cast
        exact hsmall)
      have := card_le_card hsub
      rw [card_range] at this
      exact_mod_cast this)
  obtain ⟨h1, -, h3⟩ := key i (mem_insert_self i _)
  have h4 := h3 i (mem_insert_self i _)
  simp only [p, if_true, unitLower_self, one_mul] at h1 h4
  refine ⟨h1, h4, fun k hk => ?_⟩
  have hki : k ≠ i := by omega
  have := h3 k (mem_insert_of_mem (mem_range.mpr hk))
  simpa only [p, if_neg hki, unitLower_ne hki.symm] using this

end

section

variable {K F : Type} [Zero K] [Add K] [Sub K] [Mul K] [Div K] [Field F] [LinearOrder F] [IsStrictOrderedRing F]

variable {R : RoundingAdd K F} {Ω : F}

theorem Rounding.Apx.abs_bound {R : Rounding K F} {n : Nat} {x S A E : F} (h : R.Apx n x S A E) : |x| ≤ R.growth n * (A + E) := by
  have h1 := h.err
  have h2 := h.abs_le
  have h3 := abs_sub_abs_le_abs_sub x S
  unfold Rounding.gamma at h1
  linarith

theorem SumTree.abs_value {ι : Type} {f : ι → K} {t : SumTree ι} (h : R.fin (t.value f)) :
    |R.v (t.value f)| ≤ R.growth t.height * (t.total (fun k => |R.v (f k)|) + t.ops * R.σ) := by
  have h1 := (SumTree.forward R h (m := 0) (T := fun k => R.v (f k)) (AT := fun k => |R.v (f k)|) (ET := fun _ => 0)
    fun k _ => Rounding.Apx.refl 0 _).abs_bound
  have h2 : t.total (fun _ => (0 : F)) = 0 := by simp [SumTree.total]
  rwa [h2, Nat.zero_add, zero_add] at h1

theorem SumTree.total_nonneg {ι : Type} {f : ι → F} (hf : ∀ k, 0 ≤ f k) (t : SumTree ι) : 0 ≤ t.total f := by
  unfold SumTree.total
  refine List.sum_nonneg fun x hx => ?_
  obtain ⟨k, -, rfl⟩ := List.mem_map.mp hx
  exact hf k

/-- A sum does not overflow. -/
theorem SumTree.fin_value (hR : R.Range Ω) (hst : ∀ a, R.stored a) {ι : Type} {f : ι → K} {t : SumTree ι}
    (hf : ∀ k ∈ t.all, R.fin (f k))
    (h : R.growth t.height * (t.total (fun k => |R.v (f k)|) + t.ops * R.σ) ≤ Ω) : R.fin (t.value f) := by
  have hσ := R.σ_nonneg
  have step : ∀ s t : SumTree ι, R.growth (max s.height t.height + 1) *
      (s.total (fun k => |R.v (f k)|) + t.total (fun k => |R.v (f k)|) + ((s.ops + t.ops + 1 : Nat) : F) * R.σ) ≤ Ω →
      R.growth s.height * (s.total (fun k => |R.v (f k)|) + s.ops * R.σ) +
      R.growth t.height * (t.total (fun k => |R.v (f k)|) + t.ops * R.σ) ≤ Ω := by
    intro s t h
    have a1 := R.growth_mono (show s.height ≤ max s.height t.height + 1 by omega)
    have a2 := R.growth_mono (show t.height ≤ max s.height t.height + 1 by omega)
    have b1 : 0 ≤ s.total (fun k => |R.v (f k)|) + s.ops * R.σ :=
      add_nonneg (s.total_nonneg fun k => abs_nonneg _) (by positivity)
    have b2 : 0 ≤ t.total (fun k => |R.v (f k)|) + t.ops * R.σ :=
      add_nonneg (t.total_nonneg fun k => abs_nonneg _) (by positivity)
    have c1 := mul_le_mul_of_nonneg_right a1 b1
    have c2 := mul_le_mul_of_nonneg_right a2 b2
    have c3 := mul_nonneg (R.growth_pos (max s.height t.height + 1)).le hσ
    push_cast at h
    linarith
  have nn : ∀ s : SumTree ι, 0 ≤ R.growth s.height * (s.total (fun k => |R.v (f k)|) + s.ops * R.σ) := fun s =>
    mul_nonneg (R.growth_pos _).le (add_nonneg (s.total_nonneg fun k => abs_nonneg _) (by positivity))
  induction t with
  | zero => exact R.fin_zero
  | term k => exact hf k (mem_all_term.mpr rfl)
  | add s t hs ht =>
    rw [total_add, ops_add, height_add] at h
    have h1 := step s t h
    have n1 := nn s
    have n2 := nn t
    have fs := hs (fun k hk => hf k (mem_all_add.mpr (Or.inl hk))) (by linarith)
    have ft := ht (fun k hk => hf k (mem_all_add.mpr (Or.inr hk))) (by linarith)
    exact hR.fin_add (hst _) fs ft ((abs_add_le _ _).trans ((add_le_add (abs_value fs) (abs_value ft)).trans h1))
  | sub s t hs ht =>
    rw [total_sub, ops_sub, height_sub] at h
    have h1 := step s t h
    have n1 := nn s
    have n2 := nn t
    have fs := hs (fun k hk => hf k (mem_all_sub.mpr (Or.inl hk))) (by linarith)
    have ft := ht (fun k hk => hf k (mem_all_sub.mpr (Or.inr hk))) (by linarith)
    exact hR.fin_sub (hst _) fs ft ((abs_sub _ _).trans ((add_le_add (abs_value fs) (abs_value ft)).trans h1))

/-- What is left is bounded and does not overflow. -/
theorem LeftOver.fin (hR : R.Range Ω) (hst : ∀ a, R.stored a) {h q : Nat} {a : K} {ks : List Nat} {f : Nat → K} {y : K}
    (hy : LeftOver h q a ks f y) (ha : R.fin a) {B : F} (hB : 0 ≤ B) (hf : ∀ k ∈ ks, R.fin (f k) ∧ |R.v (f k)| ≤ B)
    (hΩ : R.growth h * (|R.v a| + q * (B + R.σ)) ≤ Ω) :
    R.fin y ∧ |R.v y| ≤ R.growth h * (|R.v a| + q * (B + R.σ)) := by
  obtain ⟨t, h1, h2, h3, h4, rfl⟩ := hy
  have hσ := R.σ_nonneg
  have hfin : ∀ k ∈ t.all, R.fin (k.elim a f) := by
    intro k hk
    unfold SumTree.all at hk
    rw [h1, List.mem_append, h2.mem_iff, List.mem_map, List.mem_singleton] at hk
    rcases hk with rfl | ⟨k', hk', rfl⟩
    · exact ha
    · exact (hf k' hk').1
  have hlen : ks.length ≤ t.ops := by
    have := t.ops_ge
    unfold SumTree.all at this
    rw [h1, List.length_append, h2.length_eq, List.length_map, List.length_singleton] at this
    omega
  have htot : t.total (fun k => |R.v (k.elim a f)|) ≤ |R.v a| + t.ops * B := by
    rw [SumTree.total_eq, h1, (h2.map _).sum_eq, List.map_map]
    simp only [List.map_cons, List.map_nil, List.sum_cons, List.sum_nil, Option.elim_none, add_zero]
    refine add_le_add_right ?_ _
    refine (List.sum_le_card_nsmul _ B fun x hx => ?_).trans ?_
    · obtain ⟨k, hk, rfl⟩ := List.mem_map.mp hx
      exact (hf k hk).2
    · rw [List.length_map, nsmul_eq_mul]
      exact mul_le_mul_of_nonneg_right (by exact_mod_cast hlen) hB
  have hh : t.height ≤ h := by
    have := t.height_le_ops
    omega
  have hbound : R.growth t.height * (t.total (fun k => |R.v (k.elim a f)|) + t.ops * R.σ) ≤
      R.growth h * (|R.v a| + q * (B + R.σ)) := by
    refine mul_le_mul (R.growth_mono hh) ?_ (add_nonneg (t.total_nonneg fun k => abs_nonneg _) (by positivity))
      (R.growth_pos _).le
    have : (t.ops : F) * (B + R.σ) ≤ q * (B + R.σ) := mul_le_mul_of_nonneg_right (by exact_mod_cast h3) (by positivity)
    linarith
  have := SumTree.fin_value hR hst hfin (hbound.trans hΩ)
  exact ⟨this, (SumTree.abs_value this).trans hbound⟩

/-- A product of three numbers does not overflow. -/
theorem fin_triple (hR : R.Range Ω) (hst : ∀ a, R.stored a) (hη : R.η ≤ 1) {x y z : K} {X Y Z : F} (fx : R.fin x) (fy : R.fin y)
    (fz : R.fin z) (hx : |R.v x| ≤ X) (hy : |R.v y| ≤ Y) (hz : |R.v z| ≤ Z) (hΩ : 2 * ((1 + X) * (1 + Y) * (1 + Z)) ≤ Ω) :
    R.fin (x * y * z) ∧ R.fin (z * (x * y)) := by
  have hX := (abs_nonneg _).trans hx
  have hY := (abs_nonneg _).trans hy
  have hZ := (abs_nonneg _).trans hz
  have hXY := mul_nonneg hX hY
  have hXZ := mul_nonneg hX hZ
  have hYZ := mul_nonneg hY hZ
  have hXYZ := mul_nonneg hXY hZ
  have h1 : |R.v x * R.v y| ≤ X * Y := by
    rw [abs_mul]
    exact mul_le_mul hx hy (abs_nonneg _) hX
  have f1 : R.fin (x * y) := hR.fin_mul (hst _) (hst _) fx fy (h1.trans (by nlinarith))
  have h2 : |R.v (x * y)| ≤ 2 * (X * Y) + 1 := by
    obtain ⟨δ, e, hδ, he, h3⟩ := R.mul (hst x) f1
    rw [h3]
    refine (abs_add_le _ _).trans (add_le_add ?_ (he.trans ?_))
    · rw [abs_mul, mul_comm]
      refine mul_le_mul ?_ h1 (abs_nonneg _) (by norm_num)
      have := abs_add_le 1 δ
      have := R.u_lt_one
      rw [abs_one] at *
      linarith
    · have := R.μ_add_σ
      have := R.σ_nonneg
      linarith
  have h3 : |R.v (x * y)| * |R.v z| ≤ Ω := (mul_le_mul h2 hz (abs_nonneg _) (by positivity)).trans (by nlinarith)
  refine ⟨hR.fin_mul (hst _) (hst _) f1 fz (by rwa [abs_mul]), hR.fin_mul (hst _) (hst _) fz f1 (by rwa [abs_mul, mul_comm])⟩

/-- A term does not overflow. -/
theorem fin_term_any (hR : R.Range Ω) (hst : ∀ a, R.stored a) (hη : R.η ≤ 1) {m : Nat} (hm : 1 ≤ m) {μ β ε : F} (hμ : 0 < μ)
    (hg : R.growth (m + 1) ≤ 3 / 2) (hε : R.η * ((1 + β) * (1 + β / μ)) ≤ ε) (hΩ : 4 * ((1 + β) * (1 + β / μ) ^ 2) ≤ Ω)
    {lik ljk wik dk t : K} (fd : R.fin dk) (pd : μ < |R.v dk|) (ld : |R.v dk| ≤ β)
    (fi : R.fin lik) (fj : R.fin ljk) (li : |R.v lik * R.v dk| ≤ β) (lj : |R.v ljk * R.v dk| ≤ β)
    (fw : R.fin wik) (hw : R.Apx m (R.v wik) (R.v lik * R.v dk) (|R.v lik| * |R.v dk|) (R.η * |R.v dk|))
    (ht : t = ljk * wik ∨ t = wik * ljk ∨ TripleProduct lik ljk dk t) :
    R.fin t ∧ R.Apx (m + 1) (R.v t) (R.v lik * R.v dk * R.v ljk) (|R.v lik| * |R.v dk| * |R.v ljk|) (ε - R.σ) ∧
      |R.v t| ≤ 3 / 2 * (β * (β / μ) + (ε - R.σ)) := by
  have hη0 := R.η_nonneg
  have hβ : 0 ≤ β := (abs_nonneg _).trans ld
  have hΛ : 0 ≤ β / μ := div_nonneg hβ hμ.le
  have hle : ∀ {l : K}, |R.v l * R.v dk| ≤ β → |R.v l| ≤ β / μ := by
    intro l hl
    rw [le_div_iff₀ hμ]
    rw [abs_mul] at hl
    exact (mul_le_mul_of_nonneg_left pd.le (abs_nonneg _)).trans hl
  have bi := hle li
  have bj := hle lj
  rw [abs_mul] at li lj
  generalize hΛ' : β / μ = Λ at *
  have hβΛ := mul_nonneg hβ hΛ
  have hβΛΛ := mul_nonneg hβΛ hΛ
  have hmono : ∀ {x : F}, x ≤ (1 + β) * (1 + Λ) → R.η * x ≤ ε := fun hx => (mul_le_mul_of_nonneg_left hx hη0).trans hε
  have hdl : |R.v dk| * |R.v ljk| ≤ β * Λ := mul_le_mul ld bj (abs_nonneg _) hβ
  have e1 : R.η * (1 + |R.v lik|) ≤ ε := hmono (by nlinarith)
  have e2 : R.η * (1 + |R.v ljk|) ≤ ε := hmono (by nlinarith)
  have e3 : R.η * (1 + |R.v dk|) ≤ ε := hmono (by nlinarith)
  have e4 : R.η * (1 + |R.v dk| * (1 + |R.v ljk|)) ≤ ε := hmono (by nlinarith)
  have bw : |R.v wik| ≤ 3 * β := by
    have h1 := hw.abs_bound
    have h2 : R.η * |R.v dk| ≤ β := (mul_le_mul hη ld (abs_nonneg _) zero_le_one).trans (by rw [one_mul])
    have h3 := (R.growth_mono (show m ≤ m + 1 by omega)).trans hg
    have h4 : 0 ≤ |R.v lik| * |R.v dk| + R.η * |R.v dk| := by positivity
    have h5 := mul_le_mul_of_nonneg_right h3 h4
    linarith
  have hprod : |R.v ljk * R.v wik| ≤ Ω := by
    rw [abs_mul]
    exact (mul_le_mul bj bw (abs_nonneg _) hΛ).trans (by nlinarith)
  have key : R.fin t ∧ R.Apx (m + 1) (R.v t) (R.v lik * R.v dk * R.v ljk) (|R.v lik| * |R.v dk| * |R.v ljk|) (ε - R.σ) := by
    rcases ht with rfl | rfl | ht
    · have hf := hR.fin_mul (hst _) (hst _) fj fw hprod
      exact ⟨hf, Rounding.apx_mul_num_any (hst _) hw hf e4⟩
    · have hf := hR.fin_mul (hst _) (hst _) fw fj (by rwa [mul_comm])
      exact ⟨hf, Rounding.apx_num_mul_any (hst _) hw hf e4⟩
    · have hf : R.fin t := by
        have o1 : 2 * ((1 + Λ) * (1 + Λ) * (1 + β)) ≤ Ω := by nlinarith
        have o2 : 2 * ((1 + Λ) * (1 + β) * (1 + Λ)) ≤ Ω := by nlinarith
        rcases ht with rfl | rfl | rfl | rfl | rfl | rfl
        · exact (fin_triple hR hst hη fi fj fd bi bj ld o1).1
        · exact (fin_triple hR hst hη fj fi fd bj bi ld o1).1
        · exact (fin_triple hR hst hη fi fd fj bi ld bj o2).1
        · exact (fin_triple hR hst hη fj fd fi bj ld bi o2).1
        · exact (fin_triple hR hst hη fj fd fi bj ld bi o2).2
        · exact (fin_triple hR hst hη fi fd fj bi ld bj o2).2
      exact ⟨hf, (Rounding.apx_tripleProduct ht (hst _) (hst _) hf e1 e2 e3).2.2.2.le (by omega)⟩
  refine ⟨key.1, key.2, key.2.abs_bound.trans (mul_le_mul hg ?_ ?_ (by norm_num))⟩
  · exact add_le_add (mul_le_mul li bj (abs_nonneg _) hβ) le_rfl
  · have := key.2.nonneg
    positivity

end

section

variable {K F : Type} [Zero K] [Add K] [Sub K] [Mul K] [Div K] [Field F] [LinearOrder F] [IsStrictOrderedRing F]

/-- Precision and range suffice for the factorization of a quasidefinite matrix by formulas evaluated in any order, where `w` are
the rows of the factor before division by the pivots. -/
structure AnyQuasi (R : RoundingAdd K F) (Quot : K → K → K → Prop) (P : Nat → Nat → Prop) (m n h q : Nat)
    (A L w : Nat → Nat → K) (D : Nat → K) (r c : Nat) (S : Nat → Prop) (Ω ρ μ β ε γ e : F) : Prop where
  range : R.Range Ω
  stored : ∀ a, R.stored a
  rounds : 1 ≤ m
  sums : ∀ i < n, ∀ j, P i j ∨ j = i → ∃ f : Nat → K,
    (∀ k, P i k → P j k → f k = L j k * w i k ∨ f k = w i k * L j k ∨ TripleProduct (L i k) (L j k) (D k) (f k)) ∧
    LeftOver h q (A i j) (commonEntriesOf P i j) f (w i j)
  quots : ∀ i < n, ∀ j, P i j → Quot (w i j) (D j) (L i j)
  pivot : ∀ i < n, R.fin (w i i) → μ < |R.v (w i i)| → D i = w i i
  divides : ∀ d, R.fin d → μ < |R.v d| → |R.v d| ≤ β → R.Divides m Quot d
  fin_quot : ∀ a d y, Quot a d y → R.fin a → R.fin d → μ < |R.v d| → |R.v d| ≤ β → 2 * |R.v a| ≤ μ * Ω → R.fin y
  lower : ∀ i j, P i j → j < i
  fill : ∀ i j k, P i k → P j k → j < i → P i j
  symm : ∀ i j, A i j = A j i
  off : ∀ i j, j < i → ¬ P i j → A i j = 0
  zero : ∀ i j, ¬ P i j → L i j = 0
  fin : ∀ i < n, ∀ j < n, R.fin (A i j)
  col : ∀ j < n, (columnEntriesOf P n j).length < c
  row : ∀ i < n, (rowEntriesOf P i).length ≤ r
  gamma_eq : γ = R.gamma (h + (m + 1))
  e_eq : e = R.growth (h + (m + 1)) * ((q + 1) * ε)
  gamma : 2 * γ ≤ 1
  pos : 0 < μ
  qd : QuasiDef (Finset.range n) S (2 * μ) fun i j => R.v (A i j)
  rows : ∀ i < n, ∑ j ∈ Finset.range n, |R.v (A i j)| ≤ ρ
  bound : 6 * ρ ^ 2 ≤ β * μ
  accuracy : γ * quasiGrowth r c μ β + n * e ≤ μ
  unit : R.η ≤ 1
  sub : R.σ ≤ R.η
  small : R.η * ((1 + β) * (1 + β / μ)) ≤ ε
  max : 4 * ((1 + β) * (1 + β / μ) ^ 2) ≤ Ω
  max_sum : 4 * (ρ + q * (β * (β / μ)) + μ) ≤ Ω
  max_div : 8 * (ρ + q * (β * (β / μ)) + μ) ≤ μ * Ω

namespace AnyQuasi

variable {R : RoundingAdd K F} {Quot : K → K → K → Prop} {P : Nat → Nat → Prop} {m n h q : Nat} {A L w : Nat → Nat → K}
  {D : Nat → K} {r c : Nat} {S : Nat → Prop} {Ω ρ μ β ε γ e : F}

/-- A row of the factor is finite and accurate. -/
structure Row (R : RoundingAdd K F) (P : Nat → Nat → Prop) (n : Nat) (A L w : Nat → Nat → K) (D : Nat → K) (μ β γ e : F)
    (i : Nat) : Prop where
  ent : ∀ j, P i j → R.fin (L i j) ∧ |R.v (L i j) * R.v (D j)| ≤ β
  fin : R.fin (D i)
  eq : D i = w i i
  pos : μ < |R.v (D i)|
  le : |R.v (D i)| ≤ β
  err : ∀ j ≤ i, NearEntry n (fun i j => R.v (A i j)) (fun i j => R.v (L i j)) (fun i => R.v (D i)) γ e i j

theorem beta_nonneg (H : AnyQuasi R Quot P m n h q A L w D r c S Ω ρ μ β ε γ e) : 0 ≤ β :=
  nonneg_of_mul_nonneg_left (le_trans (by positivity) H.bound) H.pos

theorem eps (H : AnyQuasi R Quot P m n h q A L w D r c S Ω ρ μ β ε γ e) : R.η ≤ ε := by
  have h1 := H.beta_nonneg
  have h2 := div_nonneg h1 H.pos.le
  have h3 := H.small
  have h4 := mul_nonneg h1 h2
  have h5 := mul_le_mul_of_nonneg_left (show 1 ≤ (1 + β) * (1 + β / μ) by nlinarith) R.η_nonneg
  linarith

theorem e_nonneg (H : AnyQuasi R Quot P m n h q A L w D r c S Ω ρ μ β ε γ e) : 0 ≤ e ∧ (q + 1) * ε ≤ e := by
  have h1 : 0 ≤ ε := R.η_nonneg.trans H.eps
  have h2 : 0 ≤ (q + 1) * ε := by positivity
  have h3 := mul_le_mul_of_nonneg_right (R.one_le_growth (h + (m + 1))) h2
  rw [H.e_eq]
  rw [one_mul] at h3
  exact ⟨h2.trans h3, h3⟩

theorem e_le (H : AnyQuasi R Quot P m n h q A L w D r c S Ω ρ μ β ε γ e) {i : Nat} (hi : i < n) : e ≤ μ := by
  have h1 := H.accuracy
  have h2 := H.beta_nonneg
  have h3 : 0 ≤ γ := by
    rw [H.gamma_eq]
    exact R.gamma_nonneg _
  have h4 : 0 ≤ quasiGrowth r c μ β := by
    have := H.pos
    unfold quasiGrowth
    positivity
  have h5 : (1 : F) ≤ n := by exact_mod_cast (show 1 ≤ n by omega)
  have h6 := mul_le_mul_of_nonneg_right h5 H.e_nonneg.1
  have h7 := mul_nonneg h3 h4
  linarith

theorem growth_le (H : AnyQuasi R Quot P m n h q A L w D r c S Ω ρ μ β ε γ e) : R.growth (h + (m + 1)) ≤ 3 / 2 := by
  have h1 := H.gamma
  rw [H.gamma_eq] at h1
  unfold Rounding.gamma at h1
  linarith

theorem zero_v (H : AnyQuasi R Quot P m n h q A L w D r c S Ω ρ μ β ε γ e) (i j : Nat) (hij : ¬ P i j) : R.v (L i j) = 0 := by
  rw [H.zero i j hij, R.v_zero]

theorem upper_v (H : AnyQuasi R Quot P m n h q A L w D r c S Ω ρ μ β ε γ e) (i j : Nat) (hij : i ≤ j) : R.v (L i j) = 0 :=
  H.zero_v i j fun hp => absurd (H.lower i j hp) (by omega)

/-- An entry before division, from rows which are finite and accurate. -/
theorem entry (H : AnyQuasi R Quot P m n h q A L w D r c S Ω ρ μ β ε γ e) {i j : Nat} (hi : i < n) (hji : j ≤ i)
    (hij : P i j ∨ j = i) (hrow : ∀ k < j, Row R P n A L w D μ β γ e k)
    (hent : ∀ k < j, P i k → R.fin (L i k) ∧ |R.v (L i k) * R.v (D k)| ≤ β)
    (hent' : ∀ k < j, P j k → R.fin (L j k) ∧ |R.v (L j k) * R.v (D k)| ≤ β) :
    R.fin (w i j) ∧ 2 * |R.v (w i j)| ≤ μ * Ω ∧ ∀ {Y AY : F}, R.Apx (m + 1) (R.v (w i j)) Y AY ε →
      |R.v (A i j) - (Y + ∑ k ∈ Finset.range j, R.v (L i k) * R.v (D k) * R.v (L j k))| ≤
        γ * (AY + ∑ k ∈ Finset.range j, |R.v (L i k)| * |R.v (D k)| * |R.v (L j k)|) + e := by
  obtain ⟨f, h1, h2⟩ := H.sums i hi j hij
  have hεη := H.eps
  have hση := H.sub
  have hη0 := R.η_nonneg
  have hσ0 := R.σ_nonneg
  have hβ := H.beta_nonneg
  have hΛ := div_nonneg hβ H.pos.le
  have hg := H.growth_le
  have hterm : ∀ k ∈ commonEntriesOf P i j, R.fin (f k) ∧
      R.Apx (m + 1) (R.v (f k)) (R.v (L i k) * R.v (D k) * R.v (L j k)) (|R.v (L i k)| * |R.v (D k)| * |R.v (L j k)|)
        (ε - R.σ) ∧ |R.v (f k)| ≤ 3 / 2 * (β * (β / μ) + (ε - R.σ)) := by
    intro k hk
    obtain ⟨hkj, hik, hjk⟩ := mem_commonEntries.mp hk
    have hR := hrow k hkj
    have fi := hent k hkj hik
    have fj := hent' k hkj hjk
    have hq := (H.divides _ hR.fin hR.pos hR.le _ _ (H.quots i hi k hik)).2 fi.1
    exact fin_term_any H.range H.stored H.unit H.rounds H.pos ((R.growth_mono (by omega)).trans hg) H.small H.max hR.fin hR.pos hR.le
      fi.1 fj.1 fi.2 fj.2 hq.1 hq.2.2 (h1 k hik hjk)
  have ha : |R.v (A i j)| ≤ ρ := (single_le_sum (f := fun j => |R.v (A i j)|) (fun _ _ => abs_nonneg _)
    (mem_range.mpr (show j < n by omega))).trans (H.rows i hi)
  have hB : 0 ≤ 3 / 2 * (β * (β / μ) + (ε - R.σ)) := by
    have : 0 ≤ ε - R.σ := by linarith
    positivity
  have hsum : R.growth h * (|R.v (A i j)| + q * (3 / 2 * (β * (β / μ) + (ε - R.σ)) + R.σ)) ≤
      4 * (ρ + q * (β * (β / μ)) + μ) := by
    have g1 : R.growth h ≤ 3 / 2 := (R.growth_mono (by omega)).trans hg
    have g2 : |R.v (A i j)| + q * (3 / 2 * (β * (β / μ) + (ε - R.σ)) + R.σ) ≤ ρ + q * (3 / 2 * (β * (β / μ) + ε)) :=
      add_le_add ha (mul_le_mul_of_nonneg_left (by linarith) (by positivity))
    have g3 : (q : F) * ε ≤ μ := by
      have := H.e_le hi
      have := H.e_nonneg.2
      linarith
    have g4 : 0 ≤ |R.v (A i j)| + q * (3 / 2 * (β * (β / μ) + (ε - R.σ)) + R.σ) := by positivity
    have g5 := mul_le_mul g1 g2 g4 (by norm_num)
    have g6 : 0 ≤ (q : F) * (β * (β / μ)) := by positivity
    have g7 : 0 ≤ ρ := (abs_nonneg _).trans ha
    have g8 := H.pos
    nlinarith
  obtain ⟨h3, h4⟩ := h2.fin H.range H.stored (H.fin i hi j (by omega)) hB (fun k hk => ⟨(hterm k hk).1, (hterm k hk).2.2⟩)
    (hsum.trans H.max_sum)
  refine ⟨h3, by have := H.max_div; linarith, fun {Y AY} hY => ?_⟩
  obtain ⟨-, -, g2⟩ := h2.apx R h3
  have := g2 (by linarith) hY fun k hk => (hterm k hk).2.1
  rw [sum_commonEntries (fun k hk => ?_), sum_commonEntries (fun k hk => ?_)] at this
  · have h5 := (this.mono (show m + 1 + h ≤ h + (m + 1) by omega) le_rfl (le_of_eq (show ε + q * ε = (q + 1) * ε by ring))).err
    rw [← H.gamma_eq, ← H.e_eq] at h5
    exact h5
  · by_cases h3 : P i k
    · rw [H.zero_v j k fun h4 => hk ⟨h3, h4⟩, abs_zero, mul_zero]
    · rw [H.zero_v i k h3, abs_zero, zero_mul, zero_mul]
  · by_cases h3 : P i k
    · rw [H.zero_v j k fun h4 => hk ⟨h3, h4⟩, mul_zero]
    · rw [H.zero_v i k h3, zero_mul, zero_mul]

/-- Errors in the form in which they are computed. -/
theorem near_of (H : AnyQuasi R Quot P m n h q A L w D r c S Ω ρ μ β ε γ e) {i j : Nat} (hji : j ≤ i) (hi : i < n)
    (h : |R.v (A i j) - (unitLower (fun i j => R.v (L i j)) i j * R.v (D j) +
        ∑ k ∈ Finset.range j, R.v (L i k) * R.v (D k) * R.v (L j k))| ≤
      γ * (unitLower (fun i j => |R.v (L i j)|) i j * |R.v (D j)| +
        ∑ k ∈ Finset.range j, |R.v (L i k)| * |R.v (D k)| * |R.v (L j k)|) + e) :
    NearEntry n (fun i j => R.v (A i j)) (fun i j => R.v (L i j)) (fun i => R.v (D i)) γ e i j := by
  unfold NearEntry
  rw [ldlt_lower H.upper_v hji (by omega), ldlt_lower (l := fun a b => |R.v (L a b)|)
    (fun a b hab => by beta_reduce; rw [H.upper_v a b hab, abs_zero]) hji (by omega)]
  exact h

/-- Entries outside of the pattern. -/
theorem near_off (H : AnyQuasi R Quot P m n h q A L w D r c S Ω ρ μ β ε γ e) {i j : Nat} (hlt : j < i) (hi : i < n)
    (hp : ¬ P i j) : NearEntry n (fun i j => R.v (A i j)) (fun i j => R.v (L i j)) (fun i => R.v (D i)) γ e i j := by
  refine H.near_of hlt.le hi ?_
  have hno : ∀ k, R.v (L i k) = 0 ∨ R.v (L j k) = 0 := by
    intro k
    by_cases h3 : P i k
    · exact Or.inr (H.zero_v j k fun h4 => hp (H.fill i j k h3 h4 hlt))
    · exact Or.inl (H.zero_v i k h3)
  have e1 : ∑ k ∈ Finset.range j, R.v (L i k) * R.v (D k) * R.v (L j k) = 0 :=
    sum_eq_zero fun k _ => by rcases hno k with e | e <;> rw [e] <;> ring
  have e2 : ∑ k ∈ Finset.range j, |R.v (L i k)| * |R.v (D k)| * |R.v (L j k)| = 0 :=
    sum_eq_zero fun k _ => by rcases hno k with e | e <;> rw [e, abs_zero] <;> ring
  rw [e1, e2, unitLower_ne (by omega), unitLower_ne (by omega), H.off i j hlt hp, H.zero i j hp, R.v_zero]
  simpa using H.e_nonneg.1

/-- Entries of the pattern. -/
theorem near_entry (H : AnyQuasi R Quot P m n h q A L w D r c S Ω ρ μ β ε γ e) {i j : Nat} (hi : i < n)
    (hij : P i j) (hrow : ∀ k ≤ j, Row R P n A L w D μ β γ e k)
    (hent : ∀ k < j, P i k → R.fin (L i k) ∧ |R.v (L i k) * R.v (D k)| ≤ β) :
    R.fin (L i j) ∧ NearEntry n (fun i j => R.v (A i j)) (fun i j => R.v (L i j)) (fun i => R.v (D i)) γ e i j := by
  have hlt := H.lower i j hij
  have hR := hrow j le_rfl
  obtain ⟨h1, h2, h3⟩ := H.entry hi hlt.le (Or.inl hij) (fun k hk => hrow k hk.le) hent fun k _ hk => hR.ent k hk
  have hl := H.fin_quot _ _ _ (H.quots i hi j hij) h1 hR.fin hR.pos hR.le h2
  refine ⟨hl, H.near_of hlt.le hi ?_⟩
  obtain ⟨-, -, g2⟩ := (H.divides _ hR.fin hR.pos hR.le _ _ (H.quots i hi j hij)).2 hl
  rw [unitLower_ne (by omega), unitLower_ne (by omega)]
  refine h3 (g2.mono (by omega) le_rfl (le_trans (mul_le_mul_of_nonneg_left ?_ R.η_nonneg) H.small))
  have h4 := H.beta_nonneg
  have h5 := div_nonneg h4 H.pos.le
  have h6 := mul_nonneg h4 h5
  have := hR.le
  nlinarith

/-- The rows are bounded as far as their errors are small. -/
theorem leading (H : AnyQuasi R Quot P m n h q A L w D r c S Ω ρ μ β ε γ e) {i t : Nat} (hi : i < n) (ht : t ≤ i)
    (hrow : ∀ k < t, Row R P n A L w D μ β γ e k)
    (hent : ∀ k < t, NearEntry n (fun i j => R.v (A i j)) (fun i j => R.v (L i j)) (fun i => R.v (D i)) γ e i k) (p₀ : F)
    (hself : |R.v (A i i) - (p₀ + ∑ k ∈ Finset.range t, R.v (L i k) * R.v (D k) * R.v (L i k))| ≤
      γ * (|p₀| + ∑ k ∈ Finset.range t, |R.v (L i k)| * |R.v (D k)| * |R.v (L i k)|) + e) :
    μ < rowSign S i * p₀ ∧ |p₀| ≤ β ∧ ∀ k < t, |R.v (L i k) * R.v (D k)| ≤ β :=
  quasi_leading H.lower H.zero_v (fun i j => by rw [H.symm]) (by rw [H.gamma_eq]; exact R.gamma_nonneg _)
    H.e_nonneg.1 H.col H.row H.gamma H.pos H.qd H.rows H.bound H.accuracy hi ht (fun x hx y hy => (hrow x hx).err y hy) hent p₀ hself

/-- All entries of a row, from the rows before it. -/
theorem row_entries (H : AnyQuasi R Quot P m n h q A L w D r c S Ω ρ μ β ε γ e) {i : Nat} (hi : i < n)
    (hrow : ∀ k < i, Row R P n A L w D μ β γ e k) : ∀ t ≤ i, ∀ j < t, (P i j → R.fin (L i j)) ∧
      |R.v (L i j) * R.v (D j)| ≤ β ∧
      NearEntry n (fun i j => R.v (A i j)) (fun i j => R.v (L i j)) (fun i => R.v (D i)) γ e i j := by
  intro t
  induction t with
  | zero => exact fun _ j hj => absurd hj (Nat.not_lt_zero j)
  | succ t ih =>
    intro ht
    have ih := ih (by omega)
    have hnew : (P i t → R.fin (L i t)) ∧
        NearEntry n (fun i j => R.v (A i j)) (fun i j => R.v (L i j)) (fun i => R.v (D i)) γ e i t := by
      by_cases hp : P i t
      · have := H.near_entry hi hp (fun k hk => hrow k (by omega)) fun k hk hik => ⟨(ih k hk).1 hik, (ih k hk).2.1⟩
        exact ⟨fun _ => this.1, this.2⟩
      · exact ⟨fun h => absurd h hp, H.near_off (by omega) hi hp⟩
    have hall : ∀ j < t + 1, (P i j → R.fin (L i j)) ∧
        NearEntry n (fun i j => R.v (A i j)) (fun i j => R.v (L i j)) (fun i => R.v (D i)) γ e i j := by
      intro j hj
      by_cases hjt : j = t
      · exact hjt ▸ hnew
      · have := ih j (by omega)
        exact ⟨this.1, this.2.2⟩
    have hle := H.leading hi ht (fun k hk => hrow k (by omega)) (fun k hk => (hall k hk).2)
      (R.v (A i i) - ∑ k ∈ Finset.range (t + 1), R.v (L i k) * R.v (D k) * R.v (L i k)) (by
        rw [sub_add_cancel, sub_self, abs_zero]
        refine add_nonneg (mul_nonneg (by rw [H.gamma_eq]; exact R.gamma_nonneg _) (add_nonneg (abs_nonneg _)
          (sum_nonneg fun k _ => by positivity))) H.e_nonneg.1)
    exact fun j hj => ⟨(hall j hj).1, hle.2.2 j hj, (hall j hj).2⟩

/-- All rows are finite and accurate. -/
theorem all_rows (H : AnyQuasi R Quot P m n h q A L w D r c S Ω ρ μ β ε γ e) : ∀ i < n, Row R P n A L w D μ β γ e i := by
  intro i
  induction i using Nat.strong_induction_on with
  | _ i ih =>
    intro hi
    have hrow : ∀ k < i, Row R P n A L w D μ β γ e k := fun k hk => ih k hk (by omega)
    have hE := H.row_entries hi hrow i le_rfl
    have hent : ∀ k < i, P i k → R.fin (L i k) ∧ |R.v (L i k) * R.v (D k)| ≤ β := fun k hk hik =>
      ⟨(hE k hk).1 hik, (hE k hk).2.1⟩
    obtain ⟨h1, -, h3⟩ := H.entry hi le_rfl (Or.inr rfl) hrow hent hent
    have h4 := h3 ((Rounding.Apx.refl (m + 1) _).mono le_rfl le_rfl (R.η_nonneg.trans H.eps))
    obtain ⟨g1, g2, -⟩ := H.leading hi le_rfl hrow (fun k hk => (hE k hk).2.2) _ h4
    have g3 : μ < |R.v (w i i)| := by
      refine g1.trans_le ((le_abs_self _).trans (le_of_eq ?_))
      rw [abs_mul, rowSign_abs, one_mul]
    have heq := H.pivot i hi h1 g3
    refine ⟨fun j hj => hent j (H.lower i j hj) hj, heq ▸ h1, heq, heq ▸ g3, heq ▸ g2, fun j hj => ?_⟩
    rcases Nat.lt_or_eq_of_le hj with hj | rfl
    · exact (hE j hj).2.2
    · refine H.near_of le_rfl hi ?_
      rw [unitLower_self, unitLower_self, one_mul, one_mul, heq]
      exact h4

/-- The computed factors are close to the matrix. -/
theorem near (H : AnyQuasi R Quot P m n h q A L w D r c S Ω ρ μ β ε γ e) :
    NearFactors n (fun i j => R.v (A i j)) (fun i j => R.v (L i j)) (fun i => R.v (D i)) (fun i => R.v (D i)) γ e := by
  intro i hi j hj
  rw [sub_self, sub_self, ite_self, add_zero, add_zero]
  rcases le_total j i with h | h
  · exact (H.all_rows i hi).err j h
  · exact ((H.all_rows j hj).err i h).symm fun i j => by rw [H.symm]

end AnyQuasi

end

end Ctldl
