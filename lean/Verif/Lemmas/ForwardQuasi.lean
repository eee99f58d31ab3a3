import Verif.Lemmas.Forward
import Verif.Lemmas.QuasiRounding

/-! # Factorizations of quasidefinite matrices do not overflow -/

namespace Ctldl

open Finset

variable {ι : Type} {K F : Type} [Field F] [LinearOrder F] [IsStrictOrderedRing F] [Zero K] [Sub K] [Mul K] [Div K]

namespace Elim

/-- Conditions on the matrix and the arithmetic: `ρ` bounds the row sums of the matrix, `μ` the pivots from below, `β` the
pivots and the products of entries and pivots, and `ε` the errors by underflow. -/
structure QuasiBounds [DecidableEq ι] (R : Rounding K F) (s : Finset ι) (has : ι → ι → Prop) (A : ι → ι → K) (n c : Nat)
    (σ : ι → F) (Ω ρ μ β ε e : F) : Prop where
  range : R.Range Ω
  fin : ∀ i ∈ s, ∀ j ∈ s, R.fin (A i j)
  stored : ∀ i ∈ s, ∀ j ∈ s, R.stored (A i j)
  rows : ∀ i ∈ s, ∑ j ∈ s, |R.v (A i j)| ≤ ρ
  pos : 0 < μ
  bound : 6 * ρ ^ 2 ≤ β * μ
  small : R.η * (1 + 2 * β) ≤ ε
  he : e = R.growth (n + 2) * ((n + 1) * ε)
  col : ∀ r ∈ s, ∀ t : Finset ι, t ⊆ s → (∀ i ∈ t, i = r ∨ has i r) → t.card ≤ c
  gamma : 2 * R.gamma (n + 2) ≤ 1
  accuracy : R.gamma (n + 2) * ((n + 1) * β * (c * (β / μ))) + s.card * e ≤ μ
  sign : ∀ i, |σ i| = 1
  qd : SignedDef s σ (2 * μ) fun i j => R.v (A i j)
  big : 2 * (ρ + (n + 1) * (β * (β / μ))) ≤ Ω
  big' : 2 * (ρ + (n + 1) * (β * (β / μ))) ≤ μ * Ω

variable [DecidableEq ι] {R : Rounding K F} {s : Finset ι} {rk : ι → Nat} {has : ι → ι → Prop} {A l w : ι → ι → K}
  {d : ι → K} {n c : Nat} {σ : ι → F} {Ω ρ μ β ε e : F}

/-- What follows from the conditions, in case of any rows. -/
structure QuasiFacts (R : Rounding K F) (s : Finset ι) (A : ι → ι → K) (ρ μ β ε e : F) : Prop where
  ρ0 : 2 * μ < ρ
  β0 : 0 < β
  ε0 : 0 ≤ ε
  e0 : 0 ≤ e
  eμ : e ≤ μ
  elem : ∀ i ∈ s, ∀ j ∈ s, |R.v (A i j)| ≤ ρ

theorem quasiFacts (hB : QuasiBounds R s has A n c σ Ω ρ μ β ε e) {i₀ : ι} (hi₀ : i₀ ∈ s) :
    QuasiFacts R s A ρ μ β ε e := by
  have elem : ∀ i ∈ s, ∀ j ∈ s, |R.v (A i j)| ≤ ρ := fun i hi j hj =>
    (single_le_sum (f := fun j => |R.v (A i j)|) (fun j _ => abs_nonneg _) hj).trans (hB.rows i hi)
  have hμ := hB.pos
  have hρ : 2 * μ < ρ := by
    have h1 := hB.qd.restrict (singleton_subset_iff.mpr hi₀) (fun _ => 1) ⟨i₀, mem_singleton_self i₀, one_ne_zero⟩
    simp only [sum_singleton, one_pow, mul_one] at h1
    have h2 : σ i₀ * R.v (A i₀ i₀) ≤ |R.v (A i₀ i₀)| := by
      refine (le_abs_self _).trans (le_of_eq ?_)
      rw [abs_mul, hB.sign, one_mul]
    have h3 := elem i₀ hi₀ i₀ hi₀
    linarith
  have β0 : 0 < β := by
    by_contra hneg
    push Not at hneg
    have h1 := mul_nonpos_of_nonpos_of_nonneg hneg hμ.le
    have h2 := hB.bound
    have h3 : 0 < ρ ^ 2 := by
      have : 0 < ρ := by linarith
      positivity
    linarith
  have ε0 : 0 ≤ ε := le_trans (mul_nonneg R.η_nonneg (by positivity)) hB.small
  have e0 : 0 ≤ e := by
    rw [hB.he]
    exact mul_nonneg (R.growth_pos _).le (mul_nonneg (by positivity) ε0)
  refine ⟨hρ, β0, ε0, e0, ?_, elem⟩
  have h1 := hB.accuracy
  have h2 : 0 ≤ R.gamma (n + 2) * ((n + 1) * β * (c * (β / μ))) := mul_nonneg (R.gamma_nonneg _) (by positivity)
  have h3 : (1 : F) ≤ s.card := by exact_mod_cast card_pos.mpr ⟨i₀, hi₀⟩
  have h4 := le_mul_of_one_le_left e0 h3
  linarith

/-- An entry has been computed. -/
structure QuasiEntry (R : Rounding K F) (s : Finset ι) (A l : ι → ι → K) (d : ι → K) (n : Nat) (β e : F) (i j : ι) :
    Prop where
  fin : R.fin (l i j)
  le : |R.v (l i j) * R.v (d j)| ≤ β
  err : Err R s A l d n e i j

/-- A row has been computed. -/
structure QuasiRow (R : Rounding K F) (s : Finset ι) (has : ι → ι → Prop) (A l : ι → ι → K) (d : ι → K)
    (n : Nat) (σ : ι → F) (μ β e : F) (i : ι) : Prop where
  entry : ∀ j, has i j → QuasiEntry R s A l d n β e i j
  fin : R.fin (d i)
  stored : R.stored (d i)
  sign : μ < σ i * R.v (d i)
  le : |R.v (d i)| ≤ β
  err : Err R s A l d n e i i

theorem QuasiRow.pos (hσ : ∀ i, |σ i| = 1) {i : ι} (h : QuasiRow R s has A l d n σ μ β e i) : μ < |R.v (d i)| := by
  refine h.sign.trans_le ((le_abs_self _).trans (le_of_eq ?_))
  rw [abs_mul, hσ, one_mul]

theorem row_card (hE : Elim s rk has A l w d n) {i : ι} (hi : i ∈ s) {t : Finset ι}
    (h : ∀ j ∈ t, i = j ∨ has i j) : t.card ≤ n + 1 := by
  obtain ⟨ks, hn, hks, hlen, -⟩ := hE.piv hi
  refine (card_le_card (t := insert i ks.toFinset) fun j hj => ?_).trans
    ((card_insert_le _ _).trans (Nat.add_le_add_right ((List.toFinset_card_le _).trans hlen) 1))
  rw [mem_insert, List.mem_toFinset, hks]
  exact (h j hj).imp Eq.symm id

/-- Part of a matrix whose errors are small. -/
theorem quasi_part (hE : Elim s rk has A l w d n) (hB : QuasiBounds R s has A n c σ Ω ρ μ β ε e) {s' : Finset ι}
    (hsub : s' ⊆ s) {p : ι → F} {i : ι} (hi : i ∈ s')
    (herr : ∀ x ∈ s', ∀ y ∈ s', |R.v (A x y) - ∑ r ∈ s', unit R l x r * p r * unit R l y r| ≤
        R.gamma (n + 2) * ∑ r ∈ s', |unit R l x r| * |p r| * |unit R l y r| + e) :
    ∀ k ∈ s', μ < σ k * p k ∧ ∀ r ∈ s', |unit R l k r * p r| ≤ β := by
  have hF := quasiFacts hB (hsub hi)
  have key := approx_pivots_quasi (s := s') (rk := rk) (u := unit R l) (d := p) (p := p) (A := fun x y => R.v (A x y))
    (γ := R.gamma (n + 2)) (e := e) (μ := μ) (ρ := ρ) (n := n + 1) (c := c) (β := β) ((hE.unitLower (R := R)).mono hsub)
    (R.gamma_nonneg _) (by have := hB.gamma; linarith) hF.e0 hB.pos
    (fun x hx y hy => by
      rw [sub_self, sub_self, ite_self, add_zero, add_zero]
      exact herr x hx y hy) hB.sign
    (fun _ _ _ => rfl) (hB.qd.restrict hsub)
    (fun x hx => (sum_le_sum_of_subset_of_nonneg hsub fun _ _ _ => abs_nonneg _).trans (hB.rows x (hsub hx)))
    (fun x hx => hE.row_card (hsub hx) fun j hj => hE.unit_has (mem_filter.mp hj).2)
    (fun r hr => hB.col r (hsub hr) _ ((filter_subset _ _).trans hsub) fun x hx => hE.unit_has (mem_filter.mp hx).2)
    hB.bound (by
      refine le_trans (add_le_add_right (mul_le_mul_of_nonneg_right ?_ hF.e0) _) (by
        push_cast
        exact hB.accuracy)
      exact_mod_cast card_le_card hsub)
  exact fun k hk => ⟨(key k hk).1, (key k hk).2.2⟩

/-- The entries of a row, up to a column, are bounded. -/
theorem quasi_partial (hE : Elim s rk has A l w d n) (hB : QuasiBounds R s has A n c σ Ω ρ μ β ε e) {i : ι} (hi : i ∈ s)
    {t : Nat} (ht : t ≤ rk i) (hrow : ∀ r ∈ s, rk r < t → QuasiRow R s has A l d n σ μ β e r)
    (hent : ∀ j, has i j → rk j < t → Err R s A l d n e i j) :
    ∀ k ∈ s, rk k < t → |R.v (l i k) * R.v (d k)| ≤ β := by
  have hF := quasiFacts hB hi
  obtain ⟨S, hS⟩ : ∃ S, S = ∑ k ∈ s with rk k < t, R.v (l i k) ^ 2 * R.v (d k) := ⟨_, rfl⟩
  let s' := insert i (s.filter fun k => rk k < t)
  have hi' : i ∉ s.filter fun k => rk k < t := fun h => by
    have := (mem_filter.mp h).2
    omega
  have hsub : s' ⊆ s := by
    intro r hr
    rcases mem_insert.mp hr with rfl | hr
    · exact hi
    · exact (mem_filter.mp hr).1
  have hmem : ∀ r ∈ s', r ≠ i → r ∈ s ∧ rk r < t := fun r hr hne =>
    mem_filter.mp ((mem_insert.mp hr).resolve_left hne)
  let p : ι → F := fun r => if r = i then R.v (A i i) - S else R.v (d r)
  -- sums over the smaller set
  have hsum : ∀ (g : F → F), g 0 = 0 → ∀ x ∈ s', ∀ y ∈ s', y ≠ i →
      ∑ r ∈ s', g (unit R l x r) * g (p r) * g (unit R l y r) =
        ∑ r ∈ s, g (unit R l x r) * g (R.v (d r)) * g (unit R l y r) := by
    intro g g0 x hx y hy hyi
    have hy' := hmem y hy hyi
    rw [← sum_subset hsub]
    · refine sum_congr rfl fun r hr => ?_
      by_cases hri : r = i
      · subst hri
        rw [(hE.unitLower (R := R)).zero y hy'.1 r hi (by omega), g0, mul_zero, mul_zero]
      · simp only [p, if_neg hri]
    · intro r hr hr'
      have : t ≤ rk r := by
        by_contra hlt
        exact hr' (mem_insert_of_mem (mem_filter.mpr ⟨hr, by omega⟩))
      rw [(hE.unitLower (R := R)).zero y hy'.1 r hr (by omega), g0, mul_zero]
  have herr : ∀ x ∈ s', ∀ y ∈ s', y ≠ i → (x ≠ i → rk y ≤ rk x) → Err R s A l d n e x y := by
    intro x hx y hy hyi hxy
    have hy' := hmem y hy hyi
    by_cases hxi : x = i
    · subst hxi
      by_cases hh : has x y
      · exact hent y hh hy'.2
      · exact hE.err_off hF.e0 hi hy'.1 (by omega) hh
    · have hx' := hmem x hx hxi
      have hR := hrow x hx'.1 hx'.2
      by_cases hxy' : x = y
      · subst hxy'
        exact hR.err
      · have hlt : rk y < rk x := by
          have := hxy hxi
          have := mt (hE.inj y hy'.1 x hx'.1) (Ne.symm hxy')
          omega
        by_cases hh : has x y
        · exact (hR.entry y hh).err
        · exact hE.err_off hF.e0 hx'.1 hy'.1 hlt hh
  have herr' : ∀ x ∈ s', ∀ y ∈ s', y ≠ i →
      |R.v (A x y) - ∑ r ∈ s', unit R l x r * p r * unit R l y r| ≤
        R.gamma (n + 2) * ∑ r ∈ s', |unit R l x r| * |p r| * |unit R l y r| + e := by
    intro x hx y hy hyi
    have h1 := hsum id rfl x hx y hy hyi
    have h2 := hsum (fun x => |x|) abs_zero x hx y hy hyi
    simp only [id] at h1
    rw [h1, h2]
    by_cases hc : x ≠ i → rk y ≤ rk x
    · exact herr x hx y hy hyi hc
    · push Not at hc
      exact (herr y hy x hx hc.1 fun _ => by omega).symm hE
  have hself : ∑ r ∈ s', unit R l i r * p r * unit R l i r = R.v (A i i) := by
    show ∑ r ∈ insert i _, _ = _
    rw [sum_insert hi', unit_self]
    have : ∀ r ∈ s.filter (fun k => rk k < t), unit R l i r * p r * unit R l i r = R.v (l i r) ^ 2 * R.v (d r) := by
      intro r hr
      have hri : r ≠ i := fun h => hi' (h ▸ hr)
      simp only [p, if_neg hri, unit_ne hri.symm]
      ring
    rw [sum_congr rfl this, ← hS]
    simp only [p, if_true]
    ring
  have key := hE.quasi_part hB hsub (p := p) (mem_insert_self i _)
    (fun x hx y hy => by
      by_cases hyi : y = i
      · by_cases hxi : x = i
        · subst hyi; subst hxi
          rw [hself, sub_self, abs_zero]
          exact add_nonneg (mul_nonneg (R.gamma_nonneg _) (sum_nonneg fun r _ => by positivity)) hF.e0
        · have := herr' y hy x hx hxi
          have e1 : ∀ r, unit R l y r * p r * unit R l x r = unit R l x r * p r * unit R l y r := fun r => by ring
          have e2 : ∀ r, |unit R l y r| * |p r| * |unit R l x r| = |unit R l x r| * |p r| * |unit R l y r| :=
            fun r => by ring
          simp only [e1, e2, hE.symm y x] at this
          exact this
      · exact herr' x hx y hy hyi) i (mem_insert_self i _)
  intro k hk hkt
  have hki : k ≠ i := by
    rintro rfl
    omega
  have := key.2 k (mem_insert_of_mem (mem_filter.mpr ⟨hk, hkt⟩))
  simpa only [p, if_neg hki, unit_ne hki.symm] using this

/-- A term does not overflow. -/
theorem quasi_term (hR : R.Range Ω) (hμ : 0 < μ) {α : F} (hα : 0 ≤ α) (hε : R.η * (1 + 2 * β) ≤ ε)
    (hΩ : R.growth 1 * (α + ε) ≤ Ω) (hΩ' : α ≤ μ * Ω)
    {lik ljk wik dk t : K} (hq : lik = wik / dk) (fd : R.fin dk) (sd : R.stored dk) (pd : μ < |R.v dk|) (ld : |R.v dk| ≤ β)
    (fi : R.fin lik) (fj : R.fin ljk) (sj : R.stored ljk) (lj : |R.v ljk * R.v dk| ≤ β)
    (hp : |R.v lik| * |R.v dk| * |R.v ljk| ≤ α)
    (ht : t = ljk * wik ∨ t = lik * ljk * dk ∨ (t = wik * ljk ∧ ljk = lik)) :
    R.fin t ∧ R.Apx 2 (R.v t) (R.v lik * R.v dk * R.v ljk) (|R.v lik| * |R.v dk| * |R.v ljk|) (ε - R.σ) := by
  have hd0 : 0 < |R.v dk| := hμ.trans pd
  have si : R.stored lik := hq ▸ R.stored_div _ _
  have hd := R.div fd (hq ▸ fi : R.fin (wik / dk))
  have hη := R.η_nonneg
  rw [abs_mul] at lj
  have hβ : 0 ≤ β := hd0.le.trans ld
  have hsm : R.η * (1 + |R.v dk| * (1 + |R.v ljk|)) ≤ ε := by
    refine le_trans (mul_le_mul_of_nonneg_left ?_ hη) hε
    linarith
  have hε0 : 0 ≤ ε := le_trans (mul_nonneg hη (by positivity)) hε
  have hw : |R.v wik| ≤ R.growth 1 * (|R.v lik| * |R.v dk| + R.η * |R.v dk|) := by
    have := (Rounding.apx_div fd (hq ▸ fi : R.fin (wik / dk))).2.bound
    rwa [← hq] at this
  have hprod : |R.v ljk| * |R.v wik| ≤ Ω := by
    have h1 := mul_le_mul_of_nonneg_left hw (abs_nonneg (R.v ljk))
    have h2 : R.η * |R.v dk| * |R.v ljk| ≤ ε := by
      refine le_trans ?_ hε
      have := mul_le_mul_of_nonneg_left (show |R.v dk| * |R.v ljk| ≤ 1 + 2 * β by linarith) hη
      linarith
    have h3 := mul_le_mul_of_nonneg_left (add_le_add hp h2) (R.growth_pos 1).le
    linarith
  rcases ht with rfl | rfl | ⟨rfl, hh⟩
  · have hf : R.fin (ljk * wik) := hR.fin_mul sj hd.2.1 fj hd.1 (by rwa [abs_mul])
    refine ⟨hf, ?_⟩
    have := Rounding.apx_mul_num sj fd (hq ▸ fi : R.fin (wik / dk)) hf hsm
    rwa [← hq] at this
  · have h4 : |R.v lik * R.v ljk| ≤ Ω := by
      rw [abs_mul]
      have h5 : |R.v lik| * |R.v ljk| * μ ≤ Ω * μ := by
        have := mul_le_mul_of_nonneg_left pd.le (mul_nonneg (abs_nonneg (R.v lik)) (abs_nonneg (R.v ljk)))
        linarith
      exact le_of_mul_le_mul_right h5 hμ
    have hf : R.fin (lik * ljk * dk) := by
      refine hR.fin_mul_mul si sj sd fi fj fd h4 (le_trans ?_ hΩ)
      rw [abs_mul]
      have h6 : R.η * |R.v dk| ≤ R.growth 1 * ε := by
        refine le_trans ?_ (le_mul_of_one_le_left hε0 (R.one_le_growth 1))
        refine le_trans (mul_le_mul_of_nonneg_left ?_ hη) hε
        linarith
      have h7 : |R.v lik| * |R.v ljk| * (1 + R.u) * |R.v dk| ≤ R.growth 1 * α := by
        have h8 := mul_le_mul R.one_add_u_le hp (by positivity) (R.growth_pos 1).le
        linarith
      linarith
    exact ⟨hf, (Rounding.apx_mul_mul si hf hsm).2.2⟩
  · subst hh
    have hf : R.fin (wik * ljk) := hR.fin_mul hd.2.1 sj hd.1 fj (by rw [abs_mul, mul_comm]; exact hprod)
    refine ⟨hf, ?_⟩
    subst hq
    exact Rounding.apx_num_mul fd fi hf hsm

/-- A numerator or pivot does not overflow. -/
theorem quasi_chain (hE : Elim s rk has A l w d n) (hB : QuasiBounds R s has A n c σ Ω ρ μ β ε e) {i j : ι} (hi : i ∈ s)
    (hj : j ∈ s) {ks : List ι} (hlen : ks.length ≤ n) {t : ι → K}
    (hk : ∀ k ∈ ks, has i k ∧ has j k ∧ QuasiRow R s has A l d n σ μ β e k ∧ R.fin (l i k) ∧ R.fin (l j k) ∧
      |R.v (l i k) * R.v (d k)| ≤ β ∧ |R.v (l j k) * R.v (d k)| ≤ β)
    (ht : ∀ k ∈ ks, t k = l j k * w i k ∨ t k = l i k * l j k * d k ∨ (t k = w i k * l j k ∧ j = i)) :
    R.fin (subAll ks t (A i j)) ∧ R.stored (subAll ks t (A i j)) ∧
      |R.v (subAll ks t (A i j))| ≤ 2 * (ρ + (n + 1) * (β * (β / μ))) ∧
      ∀ k ∈ ks, R.Apx 2 (R.v (t k)) (R.v (l i k) * R.v (d k) * R.v (l j k))
        (|R.v (l i k)| * |R.v (d k)| * |R.v (l j k)|) (ε - R.σ) := by
  have hF := quasiFacts hB hi
  have hμ := hB.pos
  have hβ := hF.β0
  have hg : 2 * R.growth (n + 2) ≤ 3 := by
    have := hB.gamma
    unfold Rounding.gamma at this
    linarith
  obtain ⟨α, hα⟩ : ∃ α, α = β * (β / μ) := ⟨_, rfl⟩
  have hα0 : 0 ≤ α := by rw [hα]; positivity
  have hbig := hB.big
  have hbig' := hB.big'
  rw [← hα] at hbig hbig' ⊢
  have hprod : ∀ k ∈ ks, |R.v (l i k)| * |R.v (d k)| * |R.v (l j k)| ≤ α := by
    intro k hk'
    obtain ⟨-, -, k3, -, -, k6, k7⟩ := hk k hk'
    have h1 := k3.pos hB.sign
    have h2 : |R.v (l j k)| ≤ β / μ := by
      rw [le_div_iff₀ hμ]
      rw [abs_mul] at k7
      exact (mul_le_mul_of_nonneg_left h1.le (abs_nonneg _)).trans k7
    rw [abs_mul] at k6
    rw [hα]
    exact mul_le_mul k6 h2 (abs_nonneg _) hβ.le
  have hε0 := hF.ε0
  have hge : R.growth (n + 2) * ((n + 1) * ε) ≤ μ := hB.he ▸ hF.eμ
  have hρ := hF.ρ0
  have hn0 : (0 : F) ≤ n := Nat.cast_nonneg n
  have hgε : R.growth (n + 2) * ε ≤ μ := by
    refine le_trans (mul_le_mul_of_nonneg_left ?_ (R.growth_pos _).le) hge
    have := mul_nonneg hn0 hε0
    linarith
  have hnα : 0 ≤ n * α := mul_nonneg hn0 hα0
  have hΩ1 : R.growth 1 * (α + ε) ≤ Ω := by
    have h1 := mul_le_mul_of_nonneg_right (R.growth_mono (show 1 ≤ n + 2 by omega)) (add_nonneg hα0 hε0)
    have h2 := mul_le_mul_of_nonneg_right hg hα0
    linarith
  have hT : ∀ k ∈ ks, R.fin (t k) ∧ R.Apx 2 (R.v (t k)) (R.v (l i k) * R.v (d k) * R.v (l j k))
      (|R.v (l i k)| * |R.v (d k)| * |R.v (l j k)|) (ε - R.σ) := by
    intro k hk'
    obtain ⟨k1, k2, k3, k4, k5, k6, k7⟩ := hk k hk'
    refine quasi_term hB.range hμ hα0 hB.small hΩ1 (by linarith) (hE.quot k1) k3.fin k3.stored (k3.pos hB.sign) k3.le
      k4 k5 (by rw [hE.quot k2]; exact R.stored_div _ _) k7 (hprod k hk') ?_
    rcases ht k hk' with h | h | ⟨h, h'⟩
    · exact Or.inl h
    · exact Or.inr (Or.inl h)
    · exact Or.inr (Or.inr ⟨h, by rw [h']⟩)
  have hbound : R.growth ks.length * (ρ + (ks.map fun k => R.growth 2 *
      (|R.v (l i k)| * |R.v (d k)| * |R.v (l j k)| + ε)).sum) ≤ 2 * (ρ + (n + 1) * α) := by
    have e1 : (ks.map fun k => R.growth 2 * (|R.v (l i k)| * |R.v (d k)| * |R.v (l j k)| + ε)).sum ≤
        R.growth 2 * ((n + 1) * (α + ε)) := by
      have h1 : (ks.map fun k => R.growth 2 * (|R.v (l i k)| * |R.v (d k)| * |R.v (l j k)| + ε)).sum ≤
          (ks.map fun _ => R.growth 2 * (α + ε)).sum := List.sum_le_sum fun k hk' =>
        mul_le_mul_of_nonneg_left (add_le_add_left (hprod k hk') ε) (R.growth_pos 2).le
      refine h1.trans ?_
      rw [List.map_const', List.sum_replicate, nsmul_eq_mul]
      have h2 : (ks.length : F) ≤ n + 1 := by
        have : (ks.length : F) ≤ n := by exact_mod_cast hlen
        linarith
      have h3 := mul_le_mul_of_nonneg_right h2 (mul_nonneg (R.growth_pos 2).le (add_nonneg hα0 hε0))
      linarith
    have e2 : R.growth (ks.length + 2) = R.growth ks.length * R.growth 2 := R.growth_add _ _
    have hρ0 : 0 ≤ ρ := by linarith
    have h1 : ρ ≤ R.growth 2 * ρ := le_mul_of_one_le_left hρ0 (R.one_le_growth 2)
    have h4 := mul_le_mul_of_nonneg_left (add_le_add h1 e1) (R.growth_pos ks.length).le
    refine h4.trans ?_
    rw [← mul_add, ← mul_assoc, ← e2]
    have h5 : R.growth (ks.length + 2) * (ρ + (n + 1) * (α + ε)) ≤ R.growth (n + 2) * (ρ + (n + 1) * (α + ε)) :=
      mul_le_mul_of_nonneg_right (R.growth_mono (by omega)) (by positivity)
    refine h5.trans ?_
    have h6 := mul_le_mul_of_nonneg_right hg hρ0
    have h7 := mul_le_mul_of_nonneg_right hg (show 0 ≤ ((n : F) + 1) * α by positivity)
    have h8 : 0 ≤ ((n : F) + 1) * α := by positivity
    linarith
  obtain ⟨r1, r2, r3⟩ := Rounding.fin_subAll hB.range (ks := ks) (f := t)
    (T := fun k => R.growth 2 * (|R.v (l i k)| * |R.v (d k)| * |R.v (l j k)| + ε)) (b := ρ)
    (hB.stored i hi j hj) (hB.fin i hi j hj) (hF.elem i hi j hj) (fun k hk' => (hT k hk').1)
    (fun k hk' => by
      have := (hT k hk').2.bound
      have h2 : R.σ ≤ R.growth 2 * R.σ := le_mul_of_one_le_left R.σ_nonneg (R.one_le_growth 2)
      beta_reduce
      linarith) (hbound.trans hbig)
  exact ⟨r1, r2, r3.trans hbound, fun k hk' => (hT k hk').2⟩

theorem quasi_entry (hE : Elim s rk has A l w d n) (hB : QuasiBounds R s has A n c σ Ω ρ μ β ε e) {i j : ι} (hij : has i j)
    (hrow : ∀ r ∈ s, rk r < rk i → QuasiRow R s has A l d n σ μ β e r)
    (hent : ∀ k, has i k → rk k < rk j → QuasiEntry R s A l d n β e i k) : QuasiEntry R s A l d n β e i j := by
  obtain ⟨hi, hj, hji⟩ := hE.lower hij
  have hF := quasiFacts hB hi
  obtain ⟨ks, hn, hks, hlen, t, ht, hw⟩ := hE.num' hij
  have hRj := hrow j hj hji
  have hlt : ∀ k ∈ ks, k ∈ s ∧ rk k < rk j := fun k hk => (hE.lower ((hks k).mp hk).2).2
  obtain ⟨c1, c2, c3, c4⟩ := hE.quasi_chain hB hi hj hlen (t := t)
    (fun k hk => by
      obtain ⟨k1, k2⟩ := (hks k).mp hk
      have hk' := hlt k hk
      have e1 := hent k k1 hk'.2
      have e2 := hRj.entry k k2
      exact ⟨k1, k2, hrow k hk'.1 (by omega), e1.fin, e2.fin, e1.le, e2.le⟩)
    (fun k hk => (ht k hk).elim Or.inl fun h => Or.inr (Or.inl h))
  rw [← hw] at c1 c2 c3
  have hdj : 0 < |R.v (d j)| := hB.pos.trans (hRj.pos hB.sign)
  have hfin : R.fin (l i j) := by
    rw [hE.quot hij]
    refine hB.range.fin_div c2 hRj.stored c1 hRj.fin (abs_pos.mp hdj) ?_
    rw [abs_div, div_le_iff₀ hdj]
    refine c3.trans (hB.big'.trans ?_)
    have hΩ : 0 ≤ Ω := by
      have h1 := hB.big
      have h2 := hF.ρ0
      have h3 := hB.pos
      have h4 := hF.β0
      have : 0 ≤ ((n : F) + 1) * (β * (β / μ)) := by positivity
      linarith
    have := mul_le_mul_of_nonneg_left (hRj.pos hB.sign).le hΩ
    linarith
  have herr : Err R s A l d n e i j := by
    have a1 := (Rounding.apx_div hRj.fin (hE.quot hij ▸ hfin : R.fin (w i j / d j))).2
    rw [← hE.quot hij] at a1
    have a2 := (Rounding.apx_subAll_const hw c1).2.2 (a1.mono (m := 2) (by omega) le_rfl (G := ε) (by
      refine le_trans (mul_le_mul_of_nonneg_left ?_ R.η_nonneg) hB.small
      have := hRj.le
      have := hF.β0
      linarith)) c4
    have hjks : j ∉ ks := fun h => by
      have := (hlt j h).2
      omega
    have sumj : ∀ g : F → F, g 0 = 0 → g 1 = 1 → ∑ r ∈ s, g (unit R l i r) * g (R.v (d r)) * g (unit R l j r) =
        g (R.v (l i j)) * g (R.v (d j)) + (ks.map fun k => g (R.v (l i k)) * g (R.v (d k)) * g (R.v (l j k))).sum := by
      intro g g0 g1
      rw [sum_common (U := fun r => g (unit R l i r)) (D := fun r => g (R.v (d r))) (V := fun r => g (unit R l j r)) hj hn hjks
        (fun k hk => (hlt k hk).1) (by rw [unit_self, g1]), hE.has_unit hij]
      · congr 2
        refine List.map_congr_left fun k hk => ?_
        obtain ⟨k1, k2⟩ := (hks k).mp hk
        rw [hE.has_unit k1, hE.has_unit k2]
      · intro r hr h1 h2
        rcases hE.unit_has (R := R) (fun h => h2 (by rw [h, g0])) with rfl | h2'
        · exact Or.inl rfl
        · rcases hE.unit_has (R := R) (fun h => h1 (by rw [h, g0])) with rfl | h1'
          · have := (hE.lower h2').2.2
            omega
          · exact Or.inr ((hks r).mpr ⟨h1', h2'⟩)
    have s1 := sumj id rfl rfl
    have s2 := sumj (fun x => |x|) abs_zero abs_one
    simp only [id] at s1
    unfold Err
    rw [s1, s2]
    have hlen' : ε + (ks.length : F) * ε ≤ (n + 1) * ε := by
      have : (ks.length : F) ≤ n := by exact_mod_cast hlen
      have := mul_le_mul_of_nonneg_right this hF.ε0
      linarith
    have a3 := (a2.mono (m := n + 2) (by omega) le_rfl hlen').err
    rwa [← hB.he] at a3
  refine ⟨hfin, ?_, herr⟩
  exact hE.quasi_partial hB (t := rk j + 1) hi (by omega) (fun r hr hrj => hrow r hr (by omega)) (fun k hk hkj => by
    by_cases hkj' : rk k = rk j
    · rw [hE.inj k (hE.lower hk).2.1 j hj hkj']
      exact herr
    · exact (hent k hk (by omega)).err) j hj (Nat.lt_succ_self _)

theorem quasi_row (hE : Elim s rk has A l w d n) (hB : QuasiBounds R s has A n c σ Ω ρ μ β ε e) {i : ι} (hi : i ∈ s)
    (hrow : ∀ r ∈ s, rk r < rk i → QuasiRow R s has A l d n σ μ β e r) : QuasiRow R s has A l d n σ μ β e i := by
  have hF := quasiFacts hB hi
  have hentry : ∀ j, has i j → QuasiEntry R s A l d n β e i j := by
    suffices h : ∀ t, ∀ j, rk j = t → has i j → QuasiEntry R s A l d n β e i j from fun j => h _ j rfl
    intro t
    induction t using Nat.strong_induction_on with
    | _ t ih =>
    intro j hj hij
    exact hE.quasi_entry hB hij hrow fun k hk hkj => ih (rk k) (by omega) k rfl hk
  obtain ⟨ks, hn, hks, hlen, t, ht, hw⟩ := hE.piv hi
  have hlt : ∀ k ∈ ks, k ∈ s ∧ rk k < rk i := fun k hk => (hE.lower ((hks k).mp hk)).2
  obtain ⟨c1, c2, c3, c4⟩ := hE.quasi_chain hB hi hi hlen (t := t)
    (fun k hk => by
      have k1 := (hks k).mp hk
      have hk' := hlt k hk
      have e1 := hentry k k1
      exact ⟨k1, k1, hrow k hk'.1 hk'.2, e1.fin, e1.fin, e1.le, e1.le⟩)
    (fun k hk => (ht k hk).elim (fun h => Or.inr (Or.inr ⟨h, rfl⟩)) fun h => Or.inr (Or.inl h))
  rw [← hw] at c1 c2 c3
  have herr : Err R s A l d n e i i := by
    have a2 := (Rounding.apx_subAll_const hw c1).2.2 (Rounding.Apx.refl 2 _) c4
    have hiks : i ∉ ks := fun h => by
      have := (hlt i h).2
      omega
    have sumi : ∀ g : F → F, g 0 = 0 → g 1 = 1 → ∑ r ∈ s, g (unit R l i r) * g (R.v (d r)) * g (unit R l i r) =
        g (R.v (d i)) + (ks.map fun k => g (R.v (l i k)) * g (R.v (d k)) * g (R.v (l i k))).sum := by
      intro g g0 g1
      rw [sum_common (U := fun r => g (unit R l i r)) (D := fun r => g (R.v (d r))) (V := fun r => g (unit R l i r)) hi hn hiks
        (fun k hk => (hlt k hk).1) (by rw [unit_self, g1]), unit_self, g1, one_mul]
      · congr 2
        refine List.map_congr_left fun k hk => ?_
        rw [hE.has_unit ((hks k).mp hk)]
      · intro r hr h1 _
        rcases hE.unit_has (R := R) (fun h => h1 (by rw [h, g0])) with rfl | h1'
        · exact Or.inl rfl
        · exact Or.inr ((hks r).mpr h1')
    have s1 := sumi id rfl rfl
    have s2 := sumi (fun x => |x|) abs_zero abs_one
    simp only [id] at s1
    unfold Err
    rw [s1, s2]
    have hlen' : 0 + (ks.length : F) * ε ≤ (n + 1) * ε := by
      have : (ks.length : F) ≤ n := by exact_mod_cast hlen
      have := mul_le_mul_of_nonneg_right this hF.ε0
      have := hF.ε0
      linarith
    have a3 := (a2.mono (m := n + 2) (by omega) le_rfl hlen').err
    rwa [← hB.he] at a3
  -- the leading part including this row
  let s' := s.filter fun k => rk k ≤ rk i
  have hsub : s' ⊆ s := filter_subset _ _
  have hi' : i ∈ s' := mem_filter.mpr ⟨hi, le_rfl⟩
  have hU := hE.unitLower (R := R)
  have hsum' : ∀ (g : F → F), g 0 = 0 → ∀ x ∈ s', ∀ y,
      ∑ r ∈ s', g (unit R l x r) * g (R.v (d r)) * g (unit R l y r) =
        ∑ r ∈ s, g (unit R l x r) * g (R.v (d r)) * g (unit R l y r) := by
    intro g g0 x hx y
    have hx' := mem_filter.mp hx
    refine sum_subset hsub fun r hr hr' => ?_
    have : rk i < rk r := by
      by_contra hlt
      exact hr' (mem_filter.mpr ⟨hr, by omega⟩)
    rw [hU.zero x hx'.1 r hr (by omega), g0, zero_mul, zero_mul]
  have hErr : ∀ x ∈ s', ∀ y ∈ s', rk y ≤ rk x → Err R s A l d n e x y := by
    intro x hx y hy hyx
    have hx' := mem_filter.mp hx
    have hy' := mem_filter.mp hy
    by_cases hxi : x = i
    · subst hxi
      by_cases hyx' : y = x
      · subst hyx'
        exact herr
      · have : rk y < rk x := by
          have := mt (hE.inj y hy'.1 x hx'.1) hyx'
          omega
        by_cases hh : has x y
        · exact (hentry y hh).err
        · exact hE.err_off hF.e0 hx'.1 hy'.1 this hh
    · have hxi' : rk x < rk i := by
        have := mt (hE.inj x hx'.1 i hi) hxi
        omega
      have hR := hrow x hx'.1 hxi'
      by_cases hyx' : y = x
      · subst hyx'
        exact hR.err
      · have : rk y < rk x := by
          have := mt (hE.inj y hy'.1 x hx'.1) hyx'
          omega
        by_cases hh : has x y
        · exact (hR.entry y hh).err
        · exact hE.err_off hF.e0 hx'.1 hy'.1 this hh
  have key := hE.quasi_part hB hsub (p := fun r => R.v (d r)) hi' (by
    intro x hx y hy
    have h1 := hsum' id rfl x hx y
    have h2 := hsum' (fun x => |x|) abs_zero x hx y
    simp only [id] at h1
    rw [h1, h2]
    rcases le_total (rk y) (rk x) with h | h
    · exact hErr x hx y hy h
    · exact (hErr y hy x hx h).symm hE) i hi'
  refine ⟨hentry, c1, c2, key.1, ?_, herr⟩
  have := key.2 i hi'
  rwa [unit_self, one_mul] at this

theorem quasi_rows (hE : Elim s rk has A l w d n) (hB : QuasiBounds R s has A n c σ Ω ρ μ β ε e) :
    ∀ i ∈ s, QuasiRow R s has A l d n σ μ β e i := by
  suffices h : ∀ t, ∀ i ∈ s, rk i = t → QuasiRow R s has A l d n σ μ β e i from fun i hi => h _ i hi rfl
  intro t
  induction t using Nat.strong_induction_on with
  | _ t ih =>
  intro i hi hit
  exact hE.quasi_row hB hi fun r hr hri => ih (rk r) (by omega) r hr rfl

/-- The errors of all elements. -/
theorem quasi_err (hE : Elim s rk has A l w d n) (hB : QuasiBounds R s has A n c σ Ω ρ μ β ε e) {x y : ι} (hx : x ∈ s)
    (hy : y ∈ s) : Err R s A l d n e x y := by
  have hrow := hE.quasi_rows hB
  have key : ∀ {x y : ι}, x ∈ s → y ∈ s → rk y ≤ rk x → Err R s A l d n e x y := by
    intro x y hx hy hyx
    by_cases hyx' : y = x
    · subst hyx'
      exact (hrow y hy).err
    · have : rk y < rk x := by
        have := mt (hE.inj y hy x hx) hyx'
        omega
      by_cases hh : has x y
      · exact ((hrow x hx).entry y hh).err
      · exact hE.err_off (quasiFacts hB hx).e0 hx hy this hh
  rcases le_total (rk y) (rk x) with h | h
  · exact key hx hy h
  · exact (key hy hx h).symm hE

/-- The products of entries and pivots, and the entries. -/
theorem quasi_le (hE : Elim s rk has A l w d n) (hB : QuasiBounds R s has A n c σ Ω ρ μ β ε e) {x y : ι} (hx : x ∈ s)
    (hy : y ∈ s) : |unit R l x y * R.v (d y)| ≤ β ∧ |unit R l x y| ≤ β / μ := by
  have hrow := hE.quasi_rows hB
  have hF := quasiFacts hB hx
  have h1 : |unit R l x y * R.v (d y)| ≤ β := by
    by_cases hxy : x = y
    · subst hxy
      rw [unit_self, one_mul]
      exact (hrow x hx).le
    · by_cases hh : has x y
      · rw [unit_ne hxy]
        exact ((hrow x hx).entry y hh).le
      · rw [unit_ne hxy, hE.off hh, R.v_zero, zero_mul, abs_zero]
        exact hF.β0.le
  refine ⟨h1, ?_⟩
  rw [le_div_iff₀ hB.pos]
  rw [abs_mul] at h1
  exact (mul_le_mul_of_nonneg_left ((hrow y hy).pos hB.sign).le (abs_nonneg _)).trans h1

/-- The sums of the rows of the product of the absolute values. -/
theorem quasi_sum (hE : Elim s rk has A l w d n) (hB : QuasiBounds R s has A n c σ Ω ρ μ β ε e) {x : ι} (hx : x ∈ s) :
    ∑ y ∈ s, ∑ r ∈ s, |unit R l x r| * |R.v (d r)| * |unit R l y r| ≤ (n + 1) * β * (c * (β / μ)) ∧
    ∑ y ∈ s, |unit R l x y| * |R.v (d y)| ≤ (n + 1) * β := by
  have hF := quasiFacts hB hx
  have hn : ({t ∈ s | unit R l x t * R.v (d t) ≠ 0} : Finset ι).card ≤ n + 1 :=
    hE.row_card hx fun j hj => hE.unit_has (left_ne_zero_of_mul (mem_filter.mp hj).2)
  have h1 := row_sum_le (s := s) (u := unit R l) (w := fun r => unit R l x r * R.v (d r)) (n := n + 1) (c := c) hF.β0.le
    (div_nonneg hF.β0.le hB.pos.le) (fun t ht => (hE.quasi_le hB hx ht).1) (fun j hj t ht => (hE.quasi_le hB hj ht).2) hn
    (fun t ht => hB.col t ht _ (filter_subset _ _) fun x hx => hE.unit_has (mem_filter.mp hx).2)
  have h2 := sum_le_card (s := s) (x := fun r => unit R l x r * R.v (d r)) (n := n + 1) hF.β0.le
    (fun t ht => (hE.quasi_le hB hx ht).1) hn
  push_cast at h1 h2
  simp only [abs_mul] at h1 h2
  exact ⟨h1, h2⟩

end Elim

end Ctldl
