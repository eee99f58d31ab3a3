import Verif.Lemmas.QuasiFinite
import Verif.Lemmas.ForwardQuasiArrowhead
import Verif.Lemmas.SolveSingle

/-! # Solving systems with quasidefinite matrices without overflow -/

namespace Ctldl

open Finset

/-- Factors of a quasidefinite matrix from bounds of their errors. -/
theorem firm_of_approx {ι F : Type} [DecidableEq ι] [Field F] [LinearOrder F] [IsStrictOrderedRing F]
    {s : Finset ι} {rk : ι → Nat} {u : ι → ι → F} {d σ : ι → F} {A : ι → ι → F} {γ e μ β Q : F} {n c : Nat}
    (hu : UnitLower s rk u) (hγ : 0 ≤ γ) (hμ : 0 < μ) (hσ : ∀ i, |σ i| = 1)
    (hA : ∀ i ∈ s, ∀ j ∈ s, |A i j - ∑ r ∈ s, u i r * d r * u j r| ≤ γ * ∑ r ∈ s, |u i r| * |d r| * |u j r| + e)
    (hd : ∀ i ∈ s, μ < |d i|) (hd' : ∀ i ∈ s, |d i| ≤ β) (hu' : ∀ i ∈ s, ∀ r ∈ s, |u i r| ≤ β / μ)
    (hrow : ∀ i ∈ s, ∑ r ∈ s, |u i r| * |d r| ≤ n * β)
    (hc : ∀ r ∈ s, ({i ∈ s | u i r ≠ 0} : Finset ι).card ≤ c)
    (hQ : ∀ i ∈ s, ∑ j ∈ s, ∑ r ∈ s, |u i r| * |d r| * |u j r| ≤ Q) (hacc : γ * Q + s.card * e ≤ μ)
    (hsd : SignedDef s σ (2 * μ) A) : Firm s rk u d σ n c μ β where
  unit := hu
  μ_pos := hμ
  sign := hσ
  pos := hd
  d_le := hd'
  u_le := hu'
  row := hrow
  col := hc
  sd := by
    rw [two_mul] at hsd
    refine hsd.perturb hσ hA (fun i _ j _ => ?_) fun i hi => ?_
    · congr 2
      exact sum_congr rfl fun r _ => by ring
    · rw [sum_add_distrib, ← mul_sum, sum_const, nsmul_eq_mul]
      have := mul_le_mul_of_nonneg_left (hQ i hi) hγ
      linarith

/-- The error of an approximate solution from its residual. -/
theorem SignedDef.error {ι F : Type} [DecidableEq ι] [Field F] [LinearOrder F] [IsStrictOrderedRing F]
    {s : Finset ι} {σ : ι → F} (hσ : ∀ i, |σ i| = 1) {ν : F} (hν : 0 ≤ ν) {A : ι → ι → F}
    (h : SignedDef s σ ν A) {b x z : ι → F} {r : F} (hx : ∀ i ∈ s, |b i - ∑ j ∈ s, A i j * x j| ≤ r)
    (hz : ∀ i ∈ s, ∑ j ∈ s, A i j * z j = b i) : ν ^ 2 * ∑ i ∈ s, (x i - z i) ^ 2 ≤ s.card * r ^ 2 := by
  refine (h.norm_le hσ hν fun i => x i - z i).trans ?_
  rw [← nsmul_eq_mul]
  refine sum_le_card_nsmul _ _ _ fun i hi => ?_
  have e1 : ∑ j ∈ s, A i j * (x j - z j) = -(b i - ∑ j ∈ s, A i j * x j) := by
    rw [← hz i hi, neg_sub, ← sum_sub_distrib]
    exact sum_congr rfl fun j _ => by ring
  rw [e1, neg_sq, ← sq_abs]
  exact pow_le_pow_left₀ (abs_nonneg _) (hx i hi) 2

theorem lt_abs_of_signs {F : Type} [Field F] [LinearOrder F] [IsStrictOrderedRing F] {S : Prop} {μ x : F} (h1 : S → μ < x)
    (h2 : ¬ S → x < -μ) : μ < |x| := by
  by_cases h : S
  · exact (h1 h).trans_le (le_abs_self x)
  · have := h2 h
    have := neg_abs_le x
    linarith

/-- The residual from the residual with the product of the factors. -/
theorem residual_of_sums {ι F : Type} [Field F] [LinearOrder F] [IsStrictOrderedRing F] {s : Finset ι}
    {A M H V x : ι → F} {b γ γ' G η e n c Q V' ξ : F} (hγ : 0 ≤ γ) (hγ' : 0 ≤ γ') (hG : 0 ≤ G) (hξ : 0 ≤ ξ)
    (he : 0 ≤ e) (hcη : 0 ≤ c * η)
    (h : |b - ∑ l ∈ s, M l * x l| ≤ γ * ∑ l ∈ s, H l * |x l| + G * (n * η + ∑ l ∈ s, V l * (c * η)))
    (hA : ∀ l ∈ s, |A l - M l| ≤ γ' * H l + e) (hH : ∀ l ∈ s, 0 ≤ H l) (hQ : ∑ l ∈ s, H l ≤ Q)
    (hV : ∑ l ∈ s, V l ≤ V') (hx : ∀ l ∈ s, |x l| ≤ ξ) :
    |b - ∑ l ∈ s, A l * x l| ≤ ((γ + γ') * Q + s.card * e) * ξ + G * (η * (n + c * V')) := by
  have h1 : ∑ l ∈ s, H l * |x l| ≤ Q * ξ := by
    refine le_trans ?_ (mul_le_mul_of_nonneg_right hQ hξ)
    rw [sum_mul]
    exact sum_le_sum fun l hl => mul_le_mul_of_nonneg_left (hx l hl) (hH l hl)
  have h5 : |∑ l ∈ s, (A l - M l) * x l| ≤ γ' * (Q * ξ) + s.card * e * ξ := by
    have h2 : |∑ l ∈ s, (A l - M l) * x l| ≤ ∑ l ∈ s, (γ' * (H l * |x l|) + e * ξ) := by
      refine (abs_sum_le_sum_abs _ _).trans (sum_le_sum fun l hl => ?_)
      rw [abs_mul]
      have h3 := mul_le_mul_of_nonneg_right (hA l hl) (abs_nonneg (x l))
      have h4 := mul_le_mul_of_nonneg_left (hx l hl) he
      linarith
    rw [sum_add_distrib, ← mul_sum, sum_const, nsmul_eq_mul] at h2
    have h3 := mul_le_mul_of_nonneg_left h1 hγ'
    linarith
  have h6 := mul_le_mul_of_nonneg_left h1 hγ
  rw [← sum_mul] at h
  have h8 := mul_le_mul_of_nonneg_left (mul_le_mul_of_nonneg_right hV hcη) hG
  have h9 : b - ∑ l ∈ s, A l * x l = (b - ∑ l ∈ s, M l * x l) - ∑ l ∈ s, (A l - M l) * x l := by
    simp only [sub_mul, sum_sub_distrib]
    ring
  rw [h9]
  refine (abs_sub _ _).trans ((add_le_add h h5).trans ?_)
  linarith

variable {K F : Type} [Zero K] [Sub K] [Mul K] [Div K] [Field F] [LinearOrder F] [IsStrictOrderedRing F]

/-! ### Single matrices -/

section

variable {R : Rounding K F} {s : Sparsity} {p : List Nat} {f : DiagFactor K}

/-- The factors of a quasidefinite matrix. -/
theorem single_firm (hv : ValidSparsity s p) (hf : f.Declared s p) {m : MatIn K}
    {n : Nat} {c : Nat} (hc : ∀ j < s.numRows, f.sparsity.colEntries j < c)
    {Ω ρ μ β ε : F} (hR : R.AmpleQuasi n c s.numRows Ω ρ μ β ε) {S : Nat → Prop}
    (hq : QuasiDef (range s.numRows) S (2 * μ) fun i j => R.v (m.sym i j))
    (hpiv : ∀ i < s.numRows, R.fin (f.pivot i) ∧ (S (permAt p i) → μ < R.v (f.pivot i)) ∧
      (¬ S (permAt p i) → R.v (f.pivot i) < -μ) ∧ |R.v (f.pivot i)| ≤ β)
    (hent : f.Entries fun y => R.fin y ∧ |R.v y| ≤ β / μ)
    (herr : ∀ i < s.numRows, ∀ j < s.numRows,
      |R.v (m.sym (permAt p i) (permAt p j)) -
          ldlt s.numRows (fun a b => R.v (f.lower a b)) (fun a => R.v (f.pivot a)) i j| ≤
        R.gamma (n + 2) * ldlt s.numRows (fun a b => |R.v (f.lower a b)|) (fun a => |R.v (f.pivot a)|) i j +
          R.slip n ε)
    (hsum : ∀ i < s.numRows,
      ∑ j ∈ range s.numRows, ldlt s.numRows (fun a b => |R.v (f.lower a b)|) (fun a => |R.v (f.pivot a)|) i j ≤
        quasiGrowth n c μ β ∧
      ∑ j ∈ range s.numRows, unitLower (fun a b => |R.v (f.lower a b)|) i j * |R.v (f.pivot j)| ≤ (n + 1) * β) :
    Firm (range s.numRows) (fun i => i) (f.unit R) (fun i => R.v (f.pivot i)) (fun i => rowSign S (permAt p i))
      (n + 1) c μ β := by
  obtain ⟨p1, p2, p3⟩ := perm_facts hv.perm
  have hd : ∀ i ∈ range s.numRows, μ < |R.v (f.pivot i)| := fun i hi =>
    lt_abs_of_signs (hpiv i (mem_range.mp hi)).2.1 (hpiv i (mem_range.mp hi)).2.2.1
  have hd' : ∀ i ∈ range s.numRows, |R.v (f.pivot i)| ≤ β := fun i hi => (hpiv i (mem_range.mp hi)).2.2.2
  refine firm_of_approx (A := fun i j => R.v (m.sym (permAt p i) (permAt p j))) (unitLower_single hv hf)
    (R.gamma_nonneg (n + 2)) hR.pos (fun i => rowSign_abs _ _) (e := R.slip n ε) (fun i hi j hj => ?_) hd hd'
    (fun i hi r hr => ?_) (fun i hi => ?_) (col_single hc) (Q := quasiGrowth n c μ β) (fun i hi => ?_) ?_ ?_
  · simp only [DiagFactor.unit_abs]
    exact herr i (mem_range.mp hi) j (mem_range.mp hj)
  · have h1 : 1 ≤ β / μ := by
      rw [le_div_iff₀ hR.pos, one_mul]
      exact (hd i hi).le.trans (hd' i hi)
    by_cases hir : i = r
    · subst hir
      rw [(unitLower_single (R := R) hv hf).one i hi, abs_one]
      exact h1
    · unfold DiagFactor.unit
      rw [unitLower_ne hir]
      by_cases hh : f.sparsity.Has i r
      · exact (hent i r hh).2
      · have : f.lower i r = 0 := val_off hh
        rw [this, R.v_zero, abs_zero]
        linarith
  · push_cast
    simp only [DiagFactor.unit_abs]
    exact (hsum i (mem_range.mp hi)).2
  · simp only [DiagFactor.unit_abs]
    exact (hsum i (mem_range.mp hi)).1
  · rw [card_range]
    exact hR.accuracy
  · exact (hq.signed fun i _ j _ => by rw [sym_comm]).submatrix p1 p2

/-- Solving with factors of a quasidefinite matrix. -/
theorem single_solve_quasi (hv : ValidSparsity s p) (hf : f.Declared s p)
    {n : Nat} (hn : ∀ i < s.numRows, f.sparsity.rowEntries i ≤ n)
    {c : Nat} (hc : ∀ j < s.numRows, f.sparsity.colEntries j < c)
    {Ω μ β q B Y X : F} (hR : R.Range Ω) (hS : R.AmpleQuasiSolve n c s.numRows Ω μ β q B Y X) {σ : Nat → F}
    (hTm : Firm (range s.numRows) (fun i => i) (f.unit R) (fun i => R.v (f.pivot i)) σ (n + 1) c μ β)
    (hpiv : ∀ i < s.numRows, R.fin (f.pivot i) ∧ R.stored (f.pivot i))
    (hst : f.Entries R.stored) (hent : f.Entries fun y => R.fin y ∧ |R.v y| ≤ β / μ)
    {b : List K} (hb : b.length = s.numRows) (hbfin : ∀ i < s.numRows, R.fin (b.getD i 0) ∧ R.stored (b.getD i 0))
    (hB : ∀ i < s.numRows, |R.v (b.getD i 0)| ≤ B) :
    Sat (f.solveInPlace b) fun x => x.length = s.numRows ∧
      ∀ i < s.numRows, R.fin (x.getD i 0) ∧ |R.v (x.getD i 0)| ≤ X := by
  obtain ⟨hcl, -⟩ := hf.closed1 hv
  have hp : IsPerm p s.numRows := hv.perm
  have ho : f.OfType f.sparsity p s.numRows := ⟨rfl, hf.perm, hf.sizeL, hf.sizeD⟩
  have hk : CsrOk f.sparsity s.numRows s.numRows := ⟨hcl.ok.good, hcl.ok.rows, hcl.ok.cols⟩
  have hpf : IsPerm f.permutation s.numRows := by rw [hf.perm]; exact hp
  obtain ⟨y, hy, hyd, hyv⟩ := forwardInPlace_sat hcl.ok hpf hb
  obtain ⟨z, hz, hzd, hzv⟩ := diagonalSolve_sat hcl.ok hpf hyd
  obtain ⟨x, hx, hxd, hxv⟩ := backwardInPlace_sat hcl.ok hpf hzd
  rw [hf.perm] at hyv hzv hxv
  refine ⟨x, ?_, hxd, ?_⟩
  · unfold DiagFactor.solveInPlace
    rw [hy, ok_bind, hz, ok_bind]
    exact hx
  rcases Nat.eq_zero_or_pos s.numRows with h0 | h0
  · exact fun i hi => by omega
  have hc1 : 1 ≤ c := by
    have := hc 0 h0
    omega
  have hB0 : 0 ≤ B := (abs_nonneg _).trans (hB 0 h0)
  obtain ⟨p1, p2, p3⟩ := perm_facts hv.perm
  have hcard : (range s.numRows).card ≤ s.numRows := (card_range _).le
  have hun : ∀ (v : List K) (q : Nat → Nat × Nat), ∑ j ∈ range s.numRows, unitLower (f.map R.v).lower (q j).1 (q j).2 *
      R.v (v.getD (permAt p j) 0) = ∑ j ∈ range s.numRows, f.unit R (q j).1 (q j).2 * R.v (v.getD (permAt p j) 0) ∧
      ∑ j ∈ range s.numRows, unitLower (f.map R.av).lower (q j).1 (q j).2 * R.av (v.getD (permAt p j) 0) =
      ∑ j ∈ range s.numRows, |f.unit R (q j).1 (q j).2| * |R.v (v.getD (permAt p j) 0)| := by
    intro v q
    constructor
    · refine sum_congr rfl fun j _ => ?_
      congr 1
      unfold DiagFactor.unit
      congr 1
      funext a b
      exact Rounding.lower_map R.v_zero f a b
    · refine sum_congr rfl fun j _ => ?_
      rw [DiagFactor.unit_abs]
      congr 1
      congr 1
      funext a b
      exact Rounding.lower_map R.av_zero f a b
  have fy := Rounding.forward_fin_quasi (L := f.l) (b := fun i => b.getD (permAt p i) 0)
    (y := fun i => y.getD (permAt p i) 0) hR hTm hS hcard hc1
    (fun i hi => by
      refine ⟨f.sparsity.cols i, hcl.ok.good.cols_nodup i, fun j hj => ?_, ?_, hyv i (mem_range.mp hi)⟩
      · have hh : f.sparsity.Has i j := Csr.mem_cols.mp hj
        have hlt := hcl.ok.lower i j hh
        refine ⟨mem_range.mpr (by have := mem_range.mp hi; omega), hlt, ?_, (hent i j hh).1, hst i j hh⟩
        unfold DiagFactor.unit
        rw [unitLower_ne (by omega)]
        rfl
      · rw [← Csr.rowEntries_eq]
        exact hn i (mem_range.mp hi))
    (fun i hi hfi => by
      have h1 := (Rounding.fwdIn_dot (R := R) hst ho hk hcl.ok.lower hp hb hy (mem_range.mp hi) hfi).2.error_quasi hS
        ((hn i (mem_range.mp hi)).trans (by omega))
      rw [(hun y fun j => (i, j)).1, (hun y fun j => (i, j)).2] at h1
      exact h1)
    (fun i hi => hbfin _ (mem_range.mp (p1 i hi)))
    (fun i hi => hB _ (mem_range.mp (p1 i hi)))
  have fz := Rounding.diagonal_fin_quasi (D := f.pivot) (y := fun i => y.getD (permAt p i) 0)
    (z := fun i => z.getD (permAt p i) 0) hR hTm hS hB0 hc1
    (fun i hi => ⟨rfl, hpiv i (mem_range.mp hi)⟩) fy (fun i hi => hzv i (mem_range.mp hi))
  have fx := Rounding.backward_fin_quasi (L := f.l) (z := fun i => z.getD (permAt p i) 0)
    (x := fun i => x.getD (permAt p i) 0) hR hTm hS hcard
    ((abs_nonneg _).trans (fy 0 (mem_range.mpr h0)).2.2) hc1
    (fun j hj => by
      refine ⟨rowsDown f.sparsity j 0 s.numRows, rowsDown_nodup _ _ _, fun i hi => ?_, ?_, hxv j (mem_range.mp hj)⟩
      · have hh : f.sparsity.Has i j := rowsDown_facts hi
        have hlt := hcl.ok.lower i j hh
        exact ⟨mem_range.mpr (hcl.ok.rows ▸ hcl.ok.good.row_lt hh), hlt, (hent i j hh).2, (hent i j hh).1, hst i j hh⟩
      · exact (Csr.rowsDown_le _ _ _).trans (hc j (mem_range.mp hj)).le)
    (fun j hj hfj => by
      have h1 := (Rounding.bwdIn_dot (R := R) hst ho hk hcl.ok.lower hp hzd hx (mem_range.mp hj) hfj).2.error_quasi hS
        ((hc j (mem_range.mp hj)).le.trans (by omega))
      rw [(hun x fun i => (i, j)).1, (hun x fun i => (i, j)).2] at h1
      exact h1)
    fz
  intro i hi
  obtain ⟨j, hj, rfl⟩ := p3 i (mem_range.mpr hi)
  exact ⟨(fx j hj).1, (fx j hj).2.2⟩

end

/-! ### Repeating block matrices -/

omit [LinearOrder F] [IsStrictOrderedRing F] in
private theorem sum_positions {d : Dims} {N : Nat} (g : Blk → Nat → F) :
    ∑ a ∈ blocks N, ∑ j ∈ range (d.of a), g a j = ∑ l ∈ positions d N, g l.1 l.2 := by
  unfold positions
  rw [sum_sigma]

/-- The factors of a quasidefinite matrix. -/
theorem arrowhead_firm {R : Rounding K F} {s : ArrowheadSparsity} {d : Dims} (hs : s.Valid d) {T : ArrowheadTypes}
    (hT : TypesOk s T d) {N : Nat} {f : ArrowheadFactor K} (hf : f.Declared s T d N) {m : ArrowheadMatrix K}
    (hm : m.Fits s T d N) {n : Nat} {c : Nat} (hc : ∀ a ∈ blocks N, ∀ j < d.of a, T.colEntries N a j < c)
    {Ω ρ μ β ε : F} (hR : R.AmpleQuasi n c (positions d N).card Ω ρ μ β ε)
    {S : (Σ _ : Blk, Nat) → Prop} (hq : QuasiDef (positions d N) S (2 * μ) ((m.map R.v).assembled N))
    (hpiv : ∀ k ∈ positions d N, R.fin (f.pivotAt k.1 k.2) ∧ (S (s.permPos k) → μ < R.v (f.pivotAt k.1 k.2)) ∧
      (¬ S (s.permPos k) → R.v (f.pivotAt k.1 k.2) < -μ) ∧ |R.v (f.pivotAt k.1 k.2)| ≤ β)
    (herr : ∀ k ∈ positions d N, ∀ l ∈ positions d N,
      |(m.map R.v).assembled N (s.permPos k) (s.permPos l) - (f.map R.v).ldlt d N k.1 l.1 k.2 l.2| ≤
        R.gamma (n + 2) * (f.map fun y => |R.v y|).ldlt d N k.1 l.1 k.2 l.2 + R.slip n ε)
    (hsum : ∀ k ∈ positions d N,
      ∑ l ∈ positions d N, (f.map fun y => |R.v y|).ldlt d N k.1 l.1 k.2 l.2 ≤ quasiGrowth n c μ β ∧
      ∑ l ∈ positions d N, |(f.map R.v).lowerElement N k.1 l.1 k.2 l.2| * |R.v (f.pivotAt l.1 l.2)| ≤ (n + 1) * β)
    (hle : ∀ k ∈ positions d N, ∀ l ∈ positions d N, |(f.map R.v).lowerElement N k.1 l.1 k.2 l.2| ≤ β / μ) :
    Firm (positions d N) (posRank d N) (fun x y => (f.map R.v).lowerElement N x.1 y.1 x.2 y.2)
      (fun k => R.v (f.pivotAt k.1 k.2)) (fun k => rowSign S (s.permPos k)) (n + 1) c μ β := by
  obtain ⟨p1, p2, p3⟩ := permPos_facts hs N
  have heq : ∀ k l : Σ _ : Blk, Nat, (k.1 = l.1 ∧ k.2 = l.2) ↔ k = l := by
    rintro ⟨a, i⟩ ⟨b, j⟩
    simp
  refine firm_of_approx (A := fun k l => (m.map R.v).assembled N (s.permPos k) (s.permPos l))
    (unitLower_arrowhead hT (hf.map R.v)) (R.gamma_nonneg (n + 2)) hR.pos (fun i => rowSign_abs _ _) (e := R.slip n ε)
    (fun k hk l hl => ?_) (fun k hk => lt_abs_of_signs (hpiv k hk).2.1 (hpiv k hk).2.2.1) (fun k hk => (hpiv k hk).2.2.2)
    hle (fun k hk => ?_) ?_ (Q := quasiGrowth n c μ β) (fun k hk => ?_) hR.accuracy ?_
  · rw [(ldlt_positions f R d N k l).1, (ldlt_positions f R d N k l).2]
    exact herr k hk l hl
  · push_cast
    exact (hsum k hk).2
  · exact fun l hl => (card_col_arrowhead (T := T) (l := fun x y => (f.map R.v).lowerElement N x.1 y.1 x.2 y.2)
      (fun x hx y hy hne => by
        rw [← heq x y]
        exact lowerElement_has (hf.map R.v) (mem_positions.mp hx).1 (mem_positions.mp hy).1 hne) hl).trans
      (hc _ (mem_positions.mp hl).1 _ (mem_positions.mp hl).2)
  · refine le_trans (le_of_eq (sum_congr rfl fun l _ => ?_)) (hsum k hk).1
    exact (ldlt_positions f R d N k l).2
  · exact (hq.signed fun k hk l hl => assembled_symm hs (hm.map R.v) k l hk hl).submatrix p1 p2

/-- Solving with factors of a quasidefinite matrix. -/
theorem arrowhead_solve_quasi {R : Rounding K F} {s : ArrowheadSparsity} {d : Dims} (hs : s.Valid d) {T : ArrowheadTypes}
    (hT : TypesOk s T d) {N : Nat} {f : ArrowheadFactor K} (hf : f.Declared s T d N)
    {n : Nat} (hn : ∀ a ∈ blocks N, ∀ i < d.of a, T.rowEntries N a i ≤ n)
    {c : Nat} (hc : ∀ a ∈ blocks N, ∀ j < d.of a, T.colEntries N a j < c)
    {Ω μ β q B Y X : F} (hR : R.Range Ω) (hS : R.AmpleQuasiSolve n c (positions d N).card Ω μ β q B Y X)
    {σ : (Σ _ : Blk, Nat) → F}
    (hTm : Firm (positions d N) (posRank d N)
      (fun x y => (f.map R.v).lowerElement N x.1 y.1 x.2 y.2) (fun k => R.v (f.pivotAt k.1 k.2)) σ (n + 1) c μ β)
    (hpiv : ∀ a ∈ blocks N, ∀ i < d.of a, R.fin (f.pivotAt a i) ∧ R.stored (f.pivotAt a i))
    (hst : f.Entries R.stored) (hent : f.Entries fun y => R.fin y ∧ |R.v y| ≤ β / μ)
    {b : ArrowheadVector K} (hb : b.OfSize d N)
    (hbfin : ∀ a ∈ blocks N, ∀ i < d.of a, R.fin (b.at a i) ∧ R.stored (b.at a i))
    (hB : ∀ a ∈ blocks N, ∀ i < d.of a, |R.v (b.at a i)| ≤ B) :
    Sat (f.solveInPlace b) fun x => x.OfSize d N ∧
      ∀ a ∈ blocks N, ∀ i < d.of a, R.fin (x.at a i) ∧ |R.v (x.at a i)| ≤ X := by
  obtain ⟨p1, p2, p3⟩ := permPos_facts hs N
  obtain ⟨y, hy, hyS, hyd⟩ := Rounding.forwardSolve_dot (R := R) hs hT hf hst hb
  have hyl := Sat.of_ok (forwardSolve_lists hs hT hf (hent.and hst) hb) hy
  obtain ⟨z, hz, hzS, hze⟩ := arrowheadDiagonalSolve_sat hs hT hf hyS
  obtain ⟨x, hx, hxS, hxd⟩ := Rounding.backwardSolve_dot (R := R) hs hT hf hst hzS
  have hxl := Sat.of_ok (backwardSolve_lists hs hT hf (hent.and hst) hzS) hx
  refine ⟨x, ?_, hxS, ?_⟩
  · unfold ArrowheadFactor.solveInPlace
    rw [hy]
    show f.diagonalSolve y >>= _ = _
    rw [hz]
    exact hx
  rcases (positions d N).eq_empty_or_nonempty with h0 | ⟨k0, hk0⟩
  · intro a ha i hi
    have : (⟨a, i⟩ : Σ _ : Blk, Nat) ∈ positions d N := mem_positions.mpr ⟨ha, hi⟩
    rw [h0] at this
    exact absurd this (notMem_empty _)
  have hc1 : 1 ≤ c := by
    have := hc _ (mem_positions.mp hk0).1 _ (mem_positions.mp hk0).2
    omega
  have hB0 : 0 ≤ B := (abs_nonneg _).trans (hB _ (mem_positions.mp hk0).1 _ (mem_positions.mp hk0).2)
  have hne' : ∀ k l : Σ _ : Blk, Nat, posRank d N l < posRank d N k → k ≠ l := fun k l h h' => by
    rw [h'] at h
    exact lt_irrefl _ h
  have fy := Rounding.forward_fin_quasi (L := f.storedAt N) (b := permAt' s b) (y := permAt' s y) hR hTm hS le_rfl hc1
    (fun k hk => by
      obtain ⟨ks, k1, k2, k3, k4⟩ := hyl k hk
      obtain ⟨ka, ki⟩ := mem_positions.mp hk
      refine ⟨ks, k1, fun l hl => ?_, k3.trans (hn _ ka _ ki), k4⟩
      obtain ⟨l1, l2, l3, l4⟩ := k2 l hl
      exact ⟨l1, l2, lowerElement_stored R.v_zero f N (hne' k l l2), l3.1, l4⟩)
    (fun k hk hfk => by
      obtain ⟨ka, ki⟩ := mem_positions.mp hk
      have := ((hyd _ ka _ ki hfk).2).error_quasi hS ((hn _ ka _ ki).trans (by omega))
      unfold rowMul at this
      rw [sum_positions fun a j => (f.map R.v).lowerElement N k.1 a k.2 j * Rounding.permVec R.v y s a j,
        sum_positions fun a j => (f.map R.av).lowerElement N k.1 a k.2 j * Rounding.permVec R.av y s a j] at this
      simp only [Rounding.lowerElement_abs] at this
      exact this)
    (fun k hk => hbfin _ (mem_positions.mp (p1 k hk)).1 _ (mem_positions.mp (p1 k hk)).2)
    (fun k hk => hB _ (mem_positions.mp (p1 k hk)).1 _ (mem_positions.mp (p1 k hk)).2)
  have fz := Rounding.diagonal_fin_quasi (D := fun k => f.pivotAt k.1 k.2) (y := permAt' s y) (z := permAt' s z) hR hTm hS
    hB0 hc1 (fun k hk => ⟨rfl, hpiv _ (mem_positions.mp hk).1 _ (mem_positions.mp hk).2⟩) fy
    (fun k hk => hze _ (mem_positions.mp hk).1 _ (mem_positions.mp hk).2)
  have fx := Rounding.backward_fin_quasi (L := f.storedAt N) (z := permAt' s z) (x := permAt' s x) hR hTm hS le_rfl
    ((abs_nonneg _).trans (fy k0 hk0).2.2) hc1
    (fun k hk => by
      obtain ⟨ks, k1, k2, k3, k4⟩ := hxl k hk
      obtain ⟨ka, ki⟩ := mem_positions.mp hk
      refine ⟨ks, k1, fun l hl => ?_, k3.trans (hc _ ka _ ki).le, k4⟩
      obtain ⟨l1, l2, l3, l4⟩ := k2 l hl
      exact ⟨l1, l2, l3.2, l3.1, l4⟩)
    (fun k hk hfk => by
      obtain ⟨ka, ki⟩ := mem_positions.mp hk
      have := ((hxd _ ka _ ki hfk).2).error_quasi hS ((hc _ ka _ ki).le.trans (by omega))
      unfold colMul at this
      rw [sum_positions fun a j => (f.map R.v).lowerElement N a k.1 j k.2 * Rounding.permVec R.v x s a j,
        sum_positions fun a j => (f.map R.av).lowerElement N a k.1 j k.2 * Rounding.permVec R.av x s a j] at this
      simp only [Rounding.lowerElement_abs] at this
      exact this)
    fz
  intro a ha i hi
  obtain ⟨k, hk, hk'⟩ := p3 ⟨a, i⟩ (mem_positions.mpr ⟨ha, hi⟩)
  have := fx k hk
  unfold permAt' at this
  have e : x.at k.1 (permAt (s.perm k.1) k.2) = x.at a i := by
    have : (⟨k.1, permAt (s.perm k.1) k.2⟩ : Σ _ : Blk, Nat) = ⟨a, i⟩ := hk'
    cases this
    rfl
  rw [e] at this
  exact ⟨this.1, this.2.2⟩

end Ctldl
