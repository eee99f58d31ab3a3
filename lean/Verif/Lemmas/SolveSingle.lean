import Verif.Lemmas.SolveArrowhead
import Verif.Props.Range

/-! # Solving systems with definite single matrices without overflow -/

namespace Ctldl

open Finset

variable {K F : Type} [Zero K] [Sub K] [Mul K] [Div K] [Field F] [LinearOrder F] [IsStrictOrderedRing F]

omit [Zero K] [Sub K] [Mul K] [Div K] in
/-- The residual with a matrix from the residual with the product of its factors. -/
theorem residual_of_factors {ι : Type} {s : Finset ι} {A M H B V X : ι → F} {b γ γ' G η e n c : F} (hγ : 0 ≤ γ) (hG : 0 ≤ G)
    (h : |b - ∑ l ∈ s, M l * X l| ≤ γ * ∑ l ∈ s, H l * |X l| + G * (n * η + ∑ l ∈ s, V l))
    (hA : ∀ l ∈ s, |A l - M l| ≤ γ' * B l + e) (hH : ∀ l ∈ s, H l ≤ B l) (hV : ∀ l ∈ s, V l ≤ c * η * B l) :
    |b - ∑ l ∈ s, A l * X l| ≤
      (γ + γ') * ∑ l ∈ s, B l * |X l| + (G * η * (n + c * ∑ l ∈ s, B l) + e * ∑ l ∈ s, |X l|) := by
  have h5 : |∑ l ∈ s, (A l - M l) * X l| ≤ γ' * ∑ l ∈ s, B l * |X l| + e * ∑ l ∈ s, |X l| := by
    rw [mul_sum, mul_sum, ← sum_add_distrib]
    refine (abs_sum_le_sum_abs _ _).trans (sum_le_sum fun l hl => ?_)
    rw [abs_mul]
    have := mul_le_mul_of_nonneg_right (hA l hl) (abs_nonneg (X l))
    linarith
  have h6 : γ * ∑ l ∈ s, H l * |X l| ≤ γ * ∑ l ∈ s, B l * |X l| :=
    mul_le_mul_of_nonneg_left (sum_le_sum fun l hl => mul_le_mul_of_nonneg_right (hH l hl) (abs_nonneg _)) hγ
  have h7 : ∑ l ∈ s, V l ≤ c * η * ∑ l ∈ s, B l := by
    rw [mul_sum]
    exact sum_le_sum hV
  have h8 := mul_le_mul_of_nonneg_left h7 hG
  have h9 : b - ∑ l ∈ s, A l * X l = (b - ∑ l ∈ s, M l * X l) - ∑ l ∈ s, (A l - M l) * X l := by
    simp only [sub_mul, sum_sub_distrib]
    ring
  rw [h9]
  refine (abs_sub _ _).trans ((add_le_add h h5).trans ?_)
  linarith

section

variable {R : Rounding K F} {s : Sparsity} {p : List Nat} {f : DiagFactor K}

/-- The values of the assembled factor. -/
def DiagFactor.unit (R : Rounding K F) (f : DiagFactor K) (i j : Nat) : F := unitLower (fun a b => R.v (f.lower a b)) i j

theorem DiagFactor.unit_abs (R : Rounding K F) (f : DiagFactor K) (a b : Nat) :
    |f.unit R a b| = unitLower (fun a b => |R.v (f.lower a b)|) a b := by
  unfold DiagFactor.unit unitLower
  split
  · exact abs_one
  · rfl

theorem unitLower_single (hv : ValidSparsity s p) (hf : f.Declared s p) :
    UnitLower (range s.numRows) (fun i => i) (f.unit R) := by
  obtain ⟨hcl, -⟩ := hf.closed1 hv
  refine ⟨fun x _ y _ h => h, fun x _ => unitLower_self x, fun x _ y _ h => ?_⟩
  unfold DiagFactor.unit
  rw [unitLower_ne (by omega)]
  have : f.lower x y = 0 := val_off fun hh => by
    have := hcl.ok.lower x y hh
    omega
  rw [this, R.v_zero]

theorem col_single {c : Nat} (hc : ∀ j < s.numRows, f.sparsity.colEntries j < c) :
    ∀ r ∈ range s.numRows, ({i ∈ range s.numRows | f.unit R i r ≠ 0} : Finset Nat).card ≤ c := by
  intro r hr
  refine (card_col_single (c := f.sparsity) (fun i j hij => ?_) _ r).trans (hc r (mem_range.mp hr))
  by_contra hn
  refine hij ?_
  have : f.lower i j = 0 := val_off hn
  beta_reduce
  rw [this, R.v_zero]

/-- The factors of a definite matrix, and the bound of the product of their absolute values. -/
theorem single_tame (hv : ValidSparsity s p) {m : MatIn K} (hf : f.Declared s p)
    {n : Nat} {c : Nat} (hc : ∀ j < s.numRows, f.sparsity.colEntries j < c) {α μ ε : F} (hε : 0 ≤ ε)
    (hγ : 3 * R.gamma (n + 2) ≤ 1) (hμ : 0 < μ)
    (hα : ∀ i < s.numRows, R.v (m.sym i i) ≤ α)
    (hpd : PosDef (range s.numRows) μ fun i j => R.v (m.sym i j) -
      if i = j then R.margin n c s.numRows ε (R.v (m.sym i i)) else 0)
    (hpiv : ∀ i < s.numRows, μ < R.v (f.pivot i))
    (hA : ∀ i < s.numRows, ∀ j < s.numRows,
      |R.v (m.sym (permAt p i) (permAt p j)) -
        ldlt s.numRows (fun a b => R.v (f.lower a b)) (fun a => R.v (f.pivot a)) i j| ≤
      R.gamma (n + 2) * ldlt s.numRows (fun a b => |R.v (f.lower a b)|) (fun a => |R.v (f.pivot a)|) i j +
        R.growth (n + 2) * ((n + 1) * ε)) :
    Tame (range s.numRows) (fun i => i) (f.unit R) (fun i => R.v (f.pivot i)) c μ (3 * α) ∧
    ∀ i < s.numRows, ∀ j < s.numRows, ldlt s.numRows (fun a b => |R.v (f.lower a b)|) (fun a => |R.v (f.pivot a)|) i j ≤
      ((R.v (m.sym (permAt p i) (permAt p i)) + R.v (m.sym (permAt p j) (permAt p j))) / 2 +
        R.growth (n + 2) * ((n + 1) * ε)) / (1 - R.gamma (n + 2)) := by
  obtain ⟨p1, p2, p3⟩ := perm_facts hv.perm
  have hA' : ∀ i ∈ range s.numRows, ∀ j ∈ range s.numRows,
      |R.v (m.sym (permAt p i) (permAt p j)) - ∑ r ∈ range s.numRows, f.unit R i r * R.v (f.pivot r) * f.unit R j r| ≤
      R.gamma (n + 2) * ∑ r ∈ range s.numRows, |f.unit R i r| * |R.v (f.pivot r)| * |f.unit R j r| +
        R.growth (n + 2) * ((n + 1) * ε) := by
    intro i hi j hj
    simp only [DiagFactor.unit_abs]
    exact hA i (mem_range.mp hi) j (mem_range.mp hj)
  constructor
  · refine tame_of_approx (A := fun i j => R.v (m.sym (permAt p i) (permAt p j))) (unitLower_single hv hf) (R.gamma_nonneg _) hγ
      (mul_nonneg (R.growth_pos _).le (by positivity)) hμ hA' (fun i hi => hpiv i (mem_range.mp hi))
      (fun i hi => hα _ (mem_range.mp (p1 i hi))) (col_single hc) ?_
    refine (hpd.reindex p1 p2 p3).congr fun i hi j hj => ?_
    congr 1
    by_cases hij : i = j
    · subst hij
      rw [if_pos rfl, if_pos rfl, card_range]
      rfl
    · rw [if_neg hij, if_neg fun h => hij (p2 i hi j hj h)]
  · intro i hi j hj
    have := (approx_stable (s := range s.numRows) (u := f.unit R) (d := fun i => R.v (f.pivot i))
      (A := fun i j => R.v (m.sym (permAt p i) (permAt p j))) (R.gamma_nonneg _)
      (by have := R.gamma_nonneg (n + 2); linarith) (fun i hi => (hμ.trans (hpiv i (mem_range.mp hi))).le) hA'
      (mem_range.mpr hi) (mem_range.mpr hj)).1
    simp only [DiagFactor.unit_abs] at this
    exact this

/-- Solving with factors of a definite matrix. -/
theorem single_solve (hv : ValidSparsity s p) (hf : f.Declared s p)
    {n : Nat} (hn : ∀ i < s.numRows, f.sparsity.rowEntries i ≤ n)
    {c : Nat} (hc : ∀ j < s.numRows, f.sparsity.colEntries j < c)
    {Ω α μ Λ ε β : F} (hR : R.Ample n c Ω α μ Λ ε) (hS : R.AmpleSolve n c Ω α μ Λ β)
    (hTm : 0 < s.numRows → Tame (range s.numRows) (fun i => i) (f.unit R) (fun i => R.v (f.pivot i)) c μ (3 * α))
    (hpiv : ∀ i < s.numRows, R.fin (f.pivot i) ∧ R.stored (f.pivot i))
    (hst : f.Entries R.stored) (hent : f.Entries fun y => R.fin y ∧ |R.v y| ≤ Λ)
    {b : List K} (hb : b.length = s.numRows) (hbfin : ∀ i < s.numRows, R.fin (b.getD i 0) ∧ R.stored (b.getD i 0))
    (hβ : ∑ i ∈ range s.numRows, R.v (b.getD i 0) ^ 2 + s.numRows * ((2 + 2 * α * μ) * R.underflow n c ^ 2) ≤ β ^ 2) :
    Sat (f.solveInPlace b) fun x => x.length = s.numRows ∧ (∀ i < s.numRows, R.fin (x.getD i 0)) ∧
      μ ^ 2 * ∑ i ∈ range s.numRows, R.v (x.getD i 0) ^ 2 ≤ (9 * β) ^ 2 := by
  obtain ⟨hcl, -⟩ := hf.closed1 hv
  have hp : IsPerm p s.numRows := hv.perm
  have ho : f.OfType f.sparsity p s.numRows := ⟨rfl, hf.perm, hf.sizeL, hf.sizeD⟩
  have hk : CsrOk f.sparsity s.numRows s.numRows := ⟨hcl.ok.good, hcl.ok.rows, hcl.ok.cols⟩
  have hpf : IsPerm f.permutation s.numRows := by rw [hf.perm]; exact hp
  obtain ⟨y, hy, hyd, hyv⟩ := forwardInPlace_sat hcl.ok hpf hb
  obtain ⟨z, hz, hzd, hzv⟩ := diagonalSolve_sat hcl.ok hpf hyd
  obtain ⟨x, hx, hxd, hxv⟩ := backwardInPlace_sat hcl.ok hpf hzd
  rw [hf.perm] at hyv hzv hxv
  refine ⟨x, ?_, hxd, ?_⟩
  · unfold DiagFactor.solveInPlace
    rw [hy, ok_bind, hz, ok_bind]
    exact hx
  rcases Nat.eq_zero_or_pos s.numRows with h0 | h0
  · refine ⟨fun i hi => by omega, ?_⟩
    rw [h0, range_zero, sum_empty, mul_zero]
    exact sq_nonneg _
  have hTm := hTm h0
  have hc1 : 1 ≤ c := by
    have := hc 0 h0
    omega
  obtain ⟨p1, p2, p3⟩ := perm_facts hv.perm
  have hU0 : 0 ≤ s.numRows * ((2 + 2 * α * μ) * R.underflow n c ^ 2) := by
    have := hR.alpha
    have := hR.pos
    positivity
  have hq0 : 0 ≤ ∑ i ∈ range s.numRows, R.v (b.getD i 0) ^ 2 := sum_nonneg fun _ _ => sq_nonneg _
  have hun : ∀ (v : List K) (q : Nat → Nat × Nat), ∑ j ∈ range s.numRows, unitLower (f.map R.v).lower (q j).1 (q j).2 *
      R.v (v.getD (permAt p j) 0) = ∑ j ∈ range s.numRows, f.unit R (q j).1 (q j).2 * R.v (v.getD (permAt p j) 0) ∧
      ∑ j ∈ range s.numRows, unitLower (f.map R.av).lower (q j).1 (q j).2 * R.av (v.getD (permAt p j) 0) =
      ∑ j ∈ range s.numRows, |f.unit R (q j).1 (q j).2| * |R.v (v.getD (permAt p j) 0)| := by
    intro v q
    constructor
    · refine sum_congr rfl fun j _ => ?_
      congr 1
      unfold DiagFactor.unit
      congr 1
      funext a b
      exact Rounding.lower_map R.v_zero f a b
    · refine sum_congr rfl fun j _ => ?_
      rw [DiagFactor.unit_abs]
      congr 1
      congr 1
      funext a b
      exact Rounding.lower_map R.av_zero f a b
  obtain ⟨fy, ey⟩ := Rounding.forward_fin (L := f.l) (b := fun i => b.getD (permAt p i) 0) (y := fun i => y.getD (permAt p i) 0)
    hR.range hTm hS hR.alpha hR.nonneg hR.entry
    (fun i hi => by
      refine ⟨f.sparsity.cols i, hcl.ok.good.cols_nodup i, fun j hj => ?_, ?_, hyv i (mem_range.mp hi)⟩
      · have hh : f.sparsity.Has i j := Csr.mem_cols.mp hj
        have hlt := hcl.ok.lower i j hh
        refine ⟨mem_range.mpr (by have := mem_range.mp hi; omega), hlt, ?_, (hent i j hh).1, hst i j hh⟩
        unfold DiagFactor.unit
        rw [unitLower_ne (by omega)]
        rfl
      · rw [← Csr.rowEntries_eq]
        exact hn i (mem_range.mp hi))
    (fun i hi hfi => by
      have h1 := (Rounding.fwdIn_dot (R := R) hst ho hk hcl.ok.lower hp hb hy (mem_range.mp hi) hfi).2.error hS
        ((hn i (mem_range.mp hi)).trans (by omega))
      rw [(hun y fun j => (i, j)).1, (hun y fun j => (i, j)).2] at h1
      exact h1)
    (fun i hi => hbfin _ (mem_range.mp (p1 i hi)))
    (by
      rw [card_range]
      refine le_trans (le_of_eq ?_) hβ
      rw [← sum_reindex p1 p2 p3 fun i => R.v (b.getD i 0) ^ 2])
  obtain ⟨fz, ez⟩ := Rounding.diagonal_fin (D := f.pivot) (y := fun i => y.getD (permAt p i) 0)
    (z := fun i => z.getD (permAt p i) 0) hR.range hTm hS hR.alpha hR.nonneg
    (fun i hi => ⟨rfl, hpiv i (mem_range.mp hi)⟩) fy ey (fun i hi => hzv i (mem_range.mp hi))
  obtain ⟨fx, ex⟩ := Rounding.backward_fin (L := f.l) (z := fun i => z.getD (permAt p i) 0)
    (x := fun i => x.getD (permAt p i) 0) hR.range hTm hS hR.alpha hR.nonneg hc1
    (fun j hj => by
      refine ⟨rowsDown f.sparsity j 0 s.numRows, rowsDown_nodup _ _ _, fun i hi => ?_, ?_, hxv j (mem_range.mp hj)⟩
      · have hh : f.sparsity.Has i j := rowsDown_facts hi
        have hlt := hcl.ok.lower i j hh
        exact ⟨mem_range.mpr (hcl.ok.rows ▸ hcl.ok.good.row_lt hh), hlt, (hent i j hh).2, (hent i j hh).1, hst i j hh⟩
      · exact (Csr.rowsDown_le _ _ _).trans (hc j (mem_range.mp hj)).le)
    (fun j hj hfj => by
      have h1 := (Rounding.bwdIn_dot (R := R) hst ho hk hcl.ok.lower hp hzd hx (mem_range.mp hj) hfj).2.error hS
        ((hc j (mem_range.mp hj)).le.trans (by omega))
      rw [(hun x fun i => (i, j)).1, (hun x fun i => (i, j)).2] at h1
      exact h1)
    fz ez (by rw [card_range]; linarith)
  refine ⟨fun i hi => ?_, ?_⟩
  · obtain ⟨j, hj, rfl⟩ := p3 i (mem_range.mpr hi)
    exact (fx j hj).1
  · rw [← sum_reindex p1 p2 p3 fun i => R.v (x.getD i 0) ^ 2]
    exact ex

end

end Ctldl
