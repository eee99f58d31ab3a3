import Verif.Lemmas.Nearby
import Verif.Props.ForwardError

/-! # C82: computed solutions are exact solutions of nearby systems, and close to the exact solution -/

namespace Ctldl

open Finset

variable {K F : Type} [Zero K] [Sub K] [Mul K] [Div K] [Field F] [LinearOrder F] [IsStrictOrderedRing F]

/-- The consequences of the bound of residuals in C58. -/
private theorem accurate {ι : Type} [DecidableEq ι] {R : Rounding K F} {s : Finset ι} {r c : Nat} {μ α ε : F} {A : ι → ι → F} {b x : ι → F}
    (h : PosDef s μ A) (hμ : 0 < μ) (hsym : ∀ i ∈ s, ∀ j ∈ s, A i j = A j i) (hα0 : 0 ≤ α) (hα : ∀ k ∈ s, A k k ≤ α)
    (hε : 0 ≤ ε) (hγ : R.gamma (r + 2) < 1)
    (hy : let e := R.growth (r + 2) * ((r + 1) * ε)
      let B := fun i j => ((A i i + A j j) / 2 + e) / (1 - R.gamma (r + 2))
      ∀ i ∈ s, |b i - ∑ l ∈ s, A i l * x l| ≤ (R.gamma (r + c + 2) + R.gamma (r + 2)) * ∑ l ∈ s, B i l * |x l| +
        (R.growth (r + c + 2) * R.η * (r + c * ∑ l ∈ s, B i l) + e * ∑ l ∈ s, |x l|)) :
    (let e := R.growth (r + 2) * ((r + 1) * ε)
      let B := fun i j => ((A i i + A j j) / 2 + e) / (1 - R.gamma (r + 2))
      SolvesNearby s A b x (fun i j => (R.gamma (r + c + 2) + R.gamma (r + 2)) * B i j + e)
        fun i => R.growth (r + c + 2) * R.η * (r + c * ∑ l ∈ s, B i l)) ∧
    ∃ z, Solves s A b z ∧ (∀ y, Solves s A b y → ∀ i ∈ s, y i = z i) ∧
      (2 * (s.card * R.relError r c 0 α ε) ≤ μ → μ * ∑ i ∈ s, |x i - z i| ≤
        2 * (s.card * (R.relError r c 0 α ε * ∑ i ∈ s, |z i| + R.absError r c 0 s.card α ε))) := by
  refine ⟨?_, ?_⟩
  · intro e B
    have e0 : 0 ≤ e := mul_nonneg (R.growth_pos _).le (by positivity)
    have hd : ∀ i ∈ s, 0 ≤ A i i := fun i hi => by
      have := h.abs_le hμ.le hsym hi hi
      have := abs_nonneg (A i i)
      linarith
    have B0 : ∀ i ∈ s, ∀ j ∈ s, 0 ≤ B i j := fun i hi j hj => by
      have := hd i hi
      have := hd j hj
      exact div_nonneg (by positivity) (by linarith)
    refine .of_residual (fun i hi j hj => ?_) (fun i hi => ?_) fun i hi => (hy i hi).trans (le_of_eq ?_)
    · exact add_nonneg (mul_nonneg (add_nonneg (R.gamma_nonneg _) (R.gamma_nonneg _)) (B0 i hi j hj)) e0
    · exact mul_nonneg (mul_nonneg (R.growth_pos _).le R.η_nonneg)
        (add_nonneg (Nat.cast_nonneg _) (mul_nonneg (Nat.cast_nonneg _) (sum_nonneg fun j hj => B0 i hi j hj)))
    · have : ∑ l ∈ s, ((R.gamma (r + c + 2) + R.gamma (r + 2)) * B i l + e) * |x l| =
          (R.gamma (r + c + 2) + R.gamma (r + 2)) * ∑ l ∈ s, B i l * |x l| + e * ∑ l ∈ s, |x l| := by
        rw [mul_sum, mul_sum, ← sum_add_distrib]
        exact sum_congr rfl fun l _ => by ring
      rw [this]
      ring
  · obtain ⟨z, hz, hu⟩ := h.solvable hμ.le b
    refine ⟨z, hz, hu, fun hθ => ?_⟩
    refine round_trip_error (R := R) (k := 0) h hμ hsym hα0 hα hε hγ (b := b) (fun i hi => ?_) hy hθ
    rw [hz i hi, sub_self, abs_zero]
    exact add_nonneg (mul_nonneg (R.gamma_nonneg _) (sum_nonneg fun j _ => mul_nonneg (abs_nonneg _) (abs_nonneg _)))
      (mul_nonneg (R.growth_pos _).le (mul_nonneg (Nat.cast_nonneg _) R.η_nonneg))

/-! ### Single matrices -/

/-- C82: the computed solution of a system with a single matrix which is positive definite by a margin is exactly the
solution of a system, the entries of which differ from the given ones by at most the bound. The given system has exactly
one solution `z`, and if rounding errors are small compared to the margin `μ`, then the computed solution is close
to `z`. All conditions are on the matrix, the right hand side and the arithmetic. -/
theorem C82_single (R : Rounding K F) (s : Sparsity) (p : List Nat) (hv : ValidSparsity s p)
    (f : DiagFactor K) (hf : f.Declared s p) (m : MatIn K) (hm : m.Fits s p) (method : Method)
    (n : Nat) (hn : ∀ i < s.numRows, f.sparsity.rowEntries i ≤ n)
    (c : Nat) (hc : ∀ j < s.numRows, f.sparsity.colEntries j < c)
    (Ω α μ Λ ε β : F) (hR : R.Ample n c Ω α μ Λ ε) (hS : R.AmpleSolve n c Ω α μ Λ β)
    (hfin : ∀ i < s.numRows, ∀ j < s.numRows, R.fin (m.sym i j) ∧ R.stored (m.sym i j))
    (hα : ∀ i < s.numRows, R.v (m.sym i i) ≤ α)
    (hpd : PosDef (range s.numRows) μ fun i j => R.v (m.sym i j) -
      if i = j then R.margin n c s.numRows ε (R.v (m.sym i i)) else 0)
    (reg : K → Nat → K) (hreg : ∀ x i, R.fin x → μ < R.v x → reg x i = x) :
    ∃ f', f.factorize m reg method = .ok f' ∧
      ∀ b : List K, b.length = s.numRows → (∀ i < s.numRows, R.fin (b.getD i 0) ∧ R.stored (b.getD i 0)) →
        ∑ i ∈ range s.numRows, R.v (b.getD i 0) ^ 2 + s.numRows * ((2 + 2 * α * μ) * R.underflow n c ^ 2) ≤ β ^ 2 →
        ∃ x, f'.solveInPlace b = .ok x ∧ x.length = s.numRows ∧ (∀ i < s.numRows, R.fin (x.getD i 0)) ∧
          (let A := fun i j => R.v (m.sym i j)
            let e := R.growth (n + 2) * ((n + 1) * ε)
            let B := fun i j => ((A i i + A j j) / 2 + e) / (1 - R.gamma (n + 2))
            SolvesNearby (range s.numRows) A (fun i => R.v (b.getD i 0)) (fun i => R.v (x.getD i 0))
              (fun i j => (R.gamma (n + c + 2) + R.gamma (n + 2)) * B i j + e)
              fun i => R.growth (n + c + 2) * R.η * (n + c * ∑ l ∈ range s.numRows, B i l)) ∧
          ∃ z, Solves (range s.numRows) (fun i j => R.v (m.sym i j)) (fun i => R.v (b.getD i 0)) z ∧
            (∀ y, Solves (range s.numRows) (fun i j => R.v (m.sym i j)) (fun i => R.v (b.getD i 0)) y →
              ∀ i < s.numRows, y i = z i) ∧
            (2 * (s.numRows * R.relError n c 0 α ε) ≤ μ →
              μ * ∑ i ∈ range s.numRows, |R.v (x.getD i 0) - z i| ≤
                2 * (s.numRows * (R.relError n c 0 α ε * ∑ i ∈ range s.numRows, |z i| +
                  R.absError n c 0 s.numRows α ε))) := by
  have hpdA : PosDef (range s.numRows) μ fun i j => R.v (m.sym i j) :=
    PosDef.of_margin (R := R) (A := fun i j => R.v (m.sym i j)) hR.pos.le hR.eps_nonneg
      (fun i hi => by have := hc i (mem_range.mp hi); omega) hR.gamma hpd
  have hγ : R.gamma (n + 2) < 1 := by
    have := R.gamma_mono (show n + 2 ≤ n + c + 2 by omega)
    have := hS.gamma
    have := R.gamma_nonneg (n + 2)
    linarith
  obtain ⟨f', h1, h2⟩ := C58_single R s p hv f hf m hm method n hn c hc Ω α μ Λ ε β hR hS hfin hα hpd reg hreg
  refine ⟨f', h1, fun b hb hbf hβ => ?_⟩
  obtain ⟨x, h3, h4, h5, -, h6⟩ := h2 b hb hbf hβ
  obtain ⟨h7, z, h8, h9, h10⟩ := accurate (R := R) (r := n) (c := c) (b := fun i => R.v (b.getD i 0))
    (x := fun i => R.v (x.getD i 0)) hpdA hR.pos (fun i _ j _ => by rw [MatIn.sym_comm]) hR.alpha
    (fun i hi => hα i (mem_range.mp hi)) hR.eps_nonneg hγ (fun i hi => h6 i (mem_range.mp hi))
  rw [card_range] at h10
  exact ⟨x, h3, h4, h5, h7, z, h8, fun y hy i hi => h9 y hy i (mem_range.mpr hi), h10⟩

/-! ### Repeating block matrices -/

/-- C82: the same for repeating block matrices, for all numbers of repetitions. -/
theorem C82_repeating (R : Rounding K F) (s : ArrowheadSparsity) (d : Dims) (hs : s.Valid d) (T : ArrowheadTypes)
    (N : Nat) (f : ArrowheadFactor K) (hf : f.Declared s T d N) (m : ArrowheadMatrix K) (hm : m.Fits s T d N)
    (method : Method)
    (n : Nat) (hn : ∀ a ∈ blocks N, ∀ i < d.of a, T.rowEntries N a i ≤ n)
    (c : Nat) (hc : ∀ a ∈ blocks N, ∀ j < d.of a, T.colEntries N a j < c)
    (Ω α μ Λ ε β : F) (hR : R.Ample n c Ω α μ Λ ε) (hS : R.AmpleSolve n c Ω α μ Λ β)
    (hfin : ∀ k ∈ positions d N, ∀ l ∈ positions d N, R.fin (m.assembled N k l) ∧ R.stored (m.assembled N k l))
    (hα : ∀ k ∈ positions d N, (m.map R.v).assembled N k k ≤ α)
    (hpd : PosDef (positions d N) μ fun k l => (m.map R.v).assembled N k l -
      if k = l then R.margin n c (positions d N).card ε ((m.map R.v).assembled N k k) else 0)
    (reg : K → Nat → K) (hreg : ∀ x i, R.fin x → μ < R.v x → reg x i = x) :
    ∃ f', f.factorize d.tridiag d.link d.outer m reg method = .ok f' ∧
      ∀ b : ArrowheadVector K, b.OfSize d N →
        (∀ a ∈ blocks N, ∀ i < d.of a, R.fin (b.at a i) ∧ R.stored (b.at a i)) →
        ∑ k ∈ positions d N, R.v (b.at k.1 k.2) ^ 2 +
          (positions d N).card * ((2 + 2 * α * μ) * R.underflow n c ^ 2) ≤ β ^ 2 →
        ∃ x, f'.solveInPlace b = .ok x ∧ x.OfSize d N ∧ (∀ a ∈ blocks N, ∀ i < d.of a, R.fin (x.at a i)) ∧
          (let A := (m.map R.v).assembled N
            let e := R.growth (n + 2) * ((n + 1) * ε)
            let B := fun k l => ((A k k + A l l) / 2 + e) / (1 - R.gamma (n + 2))
            SolvesNearby (positions d N) A (fun k => R.v (b.at k.1 k.2)) (fun k => R.v (x.at k.1 k.2))
              (fun k l => (R.gamma (n + c + 2) + R.gamma (n + 2)) * B k l + e)
              fun k => R.growth (n + c + 2) * R.η * (n + c * ∑ l ∈ positions d N, B k l)) ∧
          ∃ z, Solves (positions d N) ((m.map R.v).assembled N) (fun k => R.v (b.at k.1 k.2)) z ∧
            (∀ y, Solves (positions d N) ((m.map R.v).assembled N) (fun k => R.v (b.at k.1 k.2)) y →
              ∀ k ∈ positions d N, y k = z k) ∧
            (2 * ((positions d N).card * R.relError n c 0 α ε) ≤ μ →
              μ * ∑ k ∈ positions d N, |R.v (x.at k.1 k.2) - z k| ≤
                2 * ((positions d N).card * (R.relError n c 0 α ε * ∑ k ∈ positions d N, |z k| +
                  R.absError n c 0 (positions d N).card α ε))) := by
  have hpdA : PosDef (positions d N) μ ((m.map R.v).assembled N) :=
    PosDef.of_margin (R := R) (A := (m.map R.v).assembled N) hR.pos.le hR.eps_nonneg
      (fun k hk => by
        have := hc k.1 (mem_positions.mp hk).1 k.2 (mem_positions.mp hk).2
        omega) hR.gamma hpd
  have hγ : R.gamma (n + 2) < 1 := by
    have := R.gamma_mono (show n + 2 ≤ n + c + 2 by omega)
    have := hS.gamma
    have := R.gamma_nonneg (n + 2)
    linarith
  obtain ⟨f', h1, h2⟩ := C58_repeating R s d hs T N f hf m hm method n hn c hc Ω α μ Λ ε β hR hS hfin hα hpd reg hreg
  refine ⟨f', h1, fun b hb hbf hβ => ?_⟩
  obtain ⟨x, h3, h4, h5, -, h6⟩ := h2 b hb hbf hβ
  obtain ⟨h7, h8⟩ := accurate (R := R) (r := n) (c := c) (b := fun k : (Σ _ : Blk, Nat) => R.v (b.at k.1 k.2))
    (x := fun k : (Σ _ : Blk, Nat) => R.v (x.at k.1 k.2)) hpdA hR.pos
    (fun k hk l hl => assembled_symm hs (hm.map R.v) k l hk hl) hR.alpha hα hR.eps_nonneg hγ h6
  exact ⟨x, h3, h4, h5, h7, h8⟩

/-! ### Block tridiagonal matrices -/

open Tridiagonal in
/-- C82: the same for the class for block tridiagonal matrices. -/
theorem C82_tridiagonal (R : Rounding K F) (spA spB : Sparsity) (p : List Nat) (n : Nat)
    (h : ValidTridiagonal spA spB p n) (N : Nat) (f : ArrowheadFactor K) (T : ArrowheadTypes)
    (hf : TridiagonalDeclared f spA spB p T n N) (A B : List (MatIn K)) (hm : TridiagonalFits A B p T n N)
    (method : Method)
    (r : Nat) (hr : ∀ i < n, T.tridiagDiag.rowEntries i + T.tridiagSubdiag.rowEntries i ≤ r)
    (c : Nat) (hc : ∀ i < n, T.tridiagDiag.colEntries i + T.tridiagSubdiag.colEntries i < c)
    (Ω α μ Λ ε β : F) (hR : R.Ample r c Ω α μ Λ ε) (hS : R.AmpleSolve r c Ω α μ Λ β)
    (hfin : ∀ k ∈ tridiagonalPositions n N, ∀ l ∈ tridiagonalPositions n N,
      R.fin (tridiagonalAssembled A B k l) ∧ R.stored (tridiagonalAssembled A B k l))
    (hα : ∀ k ∈ tridiagonalPositions n N, tridiagonalAssembled (blockValues R A) (blockValues R B) k k ≤ α)
    (hpd : PosDef (tridiagonalPositions n N) μ fun k l =>
      tridiagonalAssembled (blockValues R A) (blockValues R B) k l -
        if k = l then R.margin r c ((N + 1) * n) ε (tridiagonalAssembled (blockValues R A) (blockValues R B) k k) else 0)
    (reg : K → Nat → K) (hreg : ∀ x i, R.fin x → μ < R.v x → reg x i = x) :
    ∃ f', tridiagonalFactorize n f A B reg method = .ok f' ∧
      ∀ b : List (List K), BlockVector b n N → (∀ t < N + 1, ∀ i < n, R.fin (blockAt b t i) ∧ R.stored (blockAt b t i)) →
        ∑ k ∈ tridiagonalPositions n N, R.v (blockAt b k.1 k.2) ^ 2 +
          ((N + 1) * n : Nat) * ((2 + 2 * α * μ) * R.underflow r c ^ 2) ≤ β ^ 2 →
        ∃ x, tridiagonalSolveInPlace f' b = .ok x ∧ BlockVector x n N ∧ (∀ t < N + 1, ∀ i < n, R.fin (blockAt x t i)) ∧
          let A := tridiagonalAssembled (blockValues R A) (blockValues R B)
          let b := fun k : Nat × Nat => R.v (blockAt b k.1 k.2)
          let x := fun k : Nat × Nat => R.v (blockAt x k.1 k.2)
          let e := R.growth (r + 2) * ((r + 1) * ε)
          let B := fun k l => ((A k k + A l l) / 2 + e) / (1 - R.gamma (r + 2))
          SolvesNearby (tridiagonalPositions n N) A b x (fun k l => (R.gamma (r + c + 2) + R.gamma (r + 2)) * B k l + e)
            (fun k => R.growth (r + c + 2) * R.η * (r + c * ∑ l ∈ tridiagonalPositions n N, B k l)) ∧
          ∃ z, Solves (tridiagonalPositions n N) A b z ∧
            (∀ y, Solves (tridiagonalPositions n N) A b y → ∀ k ∈ tridiagonalPositions n N, y k = z k) ∧
            (2 * (((N + 1) * n : Nat) * R.relError r c 0 α ε) ≤ μ →
              μ * ∑ k ∈ tridiagonalPositions n N, |x k - z k| ≤
                2 * (((N + 1) * n : Nat) * (R.relError r c 0 α ε * ∑ k ∈ tridiagonalPositions n N, |z k| +
                  R.absError r c 0 ((N + 1) * n) α ε))) := by
  have hcard : (tridiagonalPositions n N).card = (N + 1) * n := by
    unfold tridiagonalPositions
    rw [card_product, card_range, card_range]
  let M : Nat × Nat → Nat × Nat → F := tridiagonalAssembled (blockValues R A) (blockValues R B)
  have hpdA : PosDef (tridiagonalPositions n N) μ M :=
    PosDef.of_margin (R := R) (A := M) hR.pos.le hR.eps_nonneg
      (fun i hi => by have := hc i.2 (mem_positions'.mp hi).2; omega) hR.gamma hpd
  have hγ : R.gamma (r + 2) < 1 := by
    have := R.gamma_mono (show r + 2 ≤ r + c + 2 by omega)
    have := hS.gamma
    have := R.gamma_nonneg (r + 2)
    linarith
  obtain ⟨f', h1, h2⟩ := C58_tridiagonal R spA spB p n h N f T hf A B hm method r hr c hc Ω α μ Λ ε β hR hS hfin hα hpd reg hreg
  refine ⟨f', h1, fun b hb hbf hβ => ?_⟩
  obtain ⟨x, h3, h4, h5, -, h6⟩ := h2 b hb hbf hβ
  obtain ⟨h7, h8⟩ := accurate (R := R) (r := r) (c := c) (b := fun k : Nat × Nat => R.v (blockAt b k.1 k.2))
    (x := fun k : Nat × Nat => R.v (blockAt x k.1 k.2)) hpdA hR.pos
    (fun k _ l _ => tridiagonalAssembled_comm _ _ k l) hR.alpha hα hR.eps_nonneg hγ h6
  rw [hcard] at h8
  exact ⟨x, h3, h4, h5, h7, h8⟩

/-! ### Any factors -/

private theorem sum_in_positions {G : Type} [AddCommMonoid G] (d : Dims) (N : Nat) (g : Blk → Nat → G) :
    ∑ a ∈ blocks N, ∑ j ∈ range (d.of a), g a j = ∑ l ∈ positions d N, g l.1 l.2 := by
  unfold positions
  rw [sum_sigma]

/-- C82: whatever the matrix, the computed solution is exactly the solution of a system close to the given one, if the
computed pivots (and the values they come from) and the solution are finite. The bound is in terms of the absolute values
of the computed factors. Each regularized pivot adds its change to the diagonal. (Rows and columns are in the order of the
factorization.) -/
theorem C82_factors (R : Rounding K F) (s : ArrowheadSparsity) (d : Dims) (hs : s.Valid d) (T : ArrowheadTypes)
    (N : Nat) (f : ArrowheadFactor K) (hf : f.Declared s T d N) (m : ArrowheadMatrix K) (hm : m.Fits s T d N)
    (reg : K → Nat → K) (method : Method) (f' : ArrowheadFactor K)
    (hfact : f.factorize d.tridiag d.link d.outer m reg method = .ok f')
    (hpiv : ∀ a ∈ blocks N, ∀ i < d.of a, R.fin (f'.pivotAt a i) ∧ ∀ x, f'.pivotAt a i = reg x i → R.fin x)
    (ε : F) (h0 : 0 ≤ ε)
    (hε : ∀ a ∈ blocks N, ∀ b ∈ blocks N, ∀ i j, T.Has N a i b j →
      R.η * (1 + |R.v (f'.pivotAt b j)| * (1 + |(f'.map R.v).lowerElement N a b i j|)) ≤ ε)
    (b : ArrowheadVector K) (hb : b.OfSize d N) (x : ArrowheadVector K) (h : f'.solveInPlace b = .ok x)
    (hfin : ∀ a ∈ blocks N, ∀ i < d.of a, R.fin (x.at a i))
    (n : Nat) (hn : ∀ a ∈ blocks N, ∀ i < d.of a, T.rowEntries N a i ≤ n)
    (c : Nat) (hc : ∀ a ∈ blocks N, ∀ i < d.of a, T.colEntries N a i ≤ c) :
    ∃ w : Blk → Nat → K, (∀ a ∈ blocks N, ∀ i < d.of a, f'.pivotAt a i = reg (w a i) i) ∧
      let ldlt := fun k l : (Σ _ : Blk, Nat) => (f'.map fun y => |R.v y|).ldlt d N k.1 l.1 k.2 l.2
      SolvesNearby (positions d N)
        (fun k l => (m.map R.v).symElement N k.1 l.1 (permAt (s.perm k.1) k.2) (permAt (s.perm l.1) l.2) +
          if k = l then R.v (f'.pivotAt k.1 k.2) - R.v (w k.1 k.2) else 0)
        (fun k => R.v (b.at k.1 (permAt (s.perm k.1) k.2))) (fun k => R.v (x.at k.1 (permAt (s.perm k.1) k.2)))
        (fun k l => R.gamma (n + c + 3) * ldlt k l +
          R.gamma (n + 2) * (ldlt k l + if k = l then |R.v (w k.1 k.2)| else 0) + R.growth (n + 2) * ((n + 1) * ε))
        fun k => R.growth (n + c + 3) * (n * R.η + ∑ l ∈ positions d N,
          (f'.map fun y => |R.v y|).lowerElement N k.1 l.1 k.2 l.2 * (|R.v (f'.pivotAt l.1 l.2)| * ((c + 1) * R.η))) := by
  obtain ⟨w, hw, hr⟩ := C47_residual R s d hs T N f hf m hm reg method f' hfact hpiv ε h0 hε b hb x h hfin n hn c hc
  refine ⟨w, hw, ?_⟩
  intro ldlt
  have hl0 : ∀ k l, 0 ≤ ldlt k l := fun k l => by
    rw [show ldlt k l = _ from ((ldlt_positions f' R d N k l).2).symm]
    exact sum_nonneg fun r _ => by positivity
  have hL0 : ∀ k l : (Σ _ : Blk, Nat), 0 ≤ (f'.map fun y => |R.v y|).lowerElement N k.1 l.1 k.2 l.2 := fun k l => by
    exact (Rounding.lowerElement_abs (R := R) (f := f') (N := N) _ _ _ _).symm ▸ abs_nonneg _
  have e0 : 0 ≤ R.growth (n + 2) * ((n + 1) * ε) := mul_nonneg (R.growth_pos _).le (by positivity)
  refine .of_residual (fun k hk l hl => ?_) (fun k hk => ?_) fun k hk => ?_
  · refine add_nonneg (add_nonneg (mul_nonneg (R.gamma_nonneg _) (hl0 k l)) (mul_nonneg (R.gamma_nonneg _)
      (add_nonneg (hl0 k l) ?_))) e0
    split
    · exact abs_nonneg _
    · exact le_rfl
  · refine mul_nonneg (R.growth_pos _).le (add_nonneg (mul_nonneg (Nat.cast_nonneg _) R.η_nonneg) (sum_nonneg fun l hl =>
      mul_nonneg (hL0 k l) (mul_nonneg (abs_nonneg _) (mul_nonneg (by positivity) R.η_nonneg))))
  · have h1 := hr k.1 (mem_positions.mp hk).1 k.2 (mem_positions.mp hk).2
    rw [sum_in_positions d N fun a j =>
        ((m.map R.v).symElement N k.1 a (permAt (s.perm k.1) k.2) (permAt (s.perm a) j) +
          if k.1 = a ∧ k.2 = j then R.v (f'.pivotAt k.1 k.2) - R.v (w k.1 k.2) else 0) * R.v (x.at a (permAt (s.perm a) j)),
      sum_in_positions d N fun a j => (f'.map fun y => |R.v y|).ldlt d N k.1 a k.2 j * |R.v (x.at a (permAt (s.perm a) j))|,
      sum_in_positions d N fun a j => ((f'.map fun y => |R.v y|).ldlt d N k.1 a k.2 j +
        if k.1 = a ∧ k.2 = j then |R.v (w k.1 k.2)| - |R.v (f'.pivotAt k.1 k.2)| else 0) *
          |R.v (x.at a (permAt (s.perm a) j))|,
      sum_in_positions d N fun a j => (f'.map fun y => |R.v y|).lowerElement N k.1 a k.2 j *
        (|R.v (f'.pivotAt a j)| * ((c + 1) * R.η)),
      sum_in_positions d N fun a j => |R.v (x.at a (permAt (s.perm a) j))|] at h1
    have hk : ∀ l : (Σ _ : Blk, Nat), (k.1 = l.1 ∧ k.2 = l.2) = (k = l) := fun l => by
      obtain ⟨a, i⟩ := k
      obtain ⟨c, j⟩ := l
      simp
    simp only [hk] at h1
    refine h1.trans ?_
    have h2 : ∑ l ∈ positions d N, (ldlt k l + if k = l then |R.v (w k.1 k.2)| - |R.v (f'.pivotAt k.1 k.2)| else 0) *
        |R.v (x.at l.1 (permAt (s.perm l.1) l.2))| ≤ ∑ l ∈ positions d N,
          (ldlt k l + if k = l then |R.v (w k.1 k.2)| else 0) * |R.v (x.at l.1 (permAt (s.perm l.1) l.2))| := by
      refine sum_le_sum fun l _ => mul_le_mul_of_nonneg_right ?_ (abs_nonneg _)
      have := abs_nonneg (R.v (f'.pivotAt k.1 k.2))
      split <;> linarith
    have h3 := mul_le_mul_of_nonneg_left h2 (R.gamma_nonneg (n + 2))
    have h4 : ∑ l ∈ positions d N, (R.gamma (n + c + 3) * ldlt k l +
        R.gamma (n + 2) * (ldlt k l + if k = l then |R.v (w k.1 k.2)| else 0) + R.growth (n + 2) * ((n + 1) * ε)) *
          |R.v (x.at l.1 (permAt (s.perm l.1) l.2))| =
        R.gamma (n + c + 3) * ∑ l ∈ positions d N, ldlt k l * |R.v (x.at l.1 (permAt (s.perm l.1) l.2))| +
        R.gamma (n + 2) * ∑ l ∈ positions d N, (ldlt k l + if k = l then |R.v (w k.1 k.2)| else 0) *
          |R.v (x.at l.1 (permAt (s.perm l.1) l.2))| +
        R.growth (n + 2) * ((n + 1) * ε) * ∑ l ∈ positions d N, |R.v (x.at l.1 (permAt (s.perm l.1) l.2))| := by
      rw [mul_sum, mul_sum, mul_sum, ← sum_add_distrib, ← sum_add_distrib]
      exact sum_congr rfl fun l _ => by ring
    beta_reduce
    rw [h4]
    have h5 := add_le_add_right h3 (R.gamma (n + c + 3) * ∑ l ∈ positions d N, ldlt k l *
      |R.v (x.at l.1 (permAt (s.perm l.1) l.2))|)
    linarith

/-! ### Cases meeting the hypotheses, in IEEE double precision -/

example : ∃ f', (witnessF.map (Binary.ofRat .binary64 false)).factorize definiteDoubleM regularizationNone .upLooking = .ok f' ∧
    ∀ b : List Double, b.length = 3 → (∀ i < 3, (b.getD i 0).Finite ∧ |doubleR.v (b.getD i 0)| ≤ hugeRat) →
      ∃ x z, f'.solveInPlace b = .ok x ∧
        Solves (range 3) (fun i j => doubleR.v (definiteDoubleM.sym i j)) (fun i => doubleR.v (b.getD i 0)) z ∧
        ∑ i ∈ range 3, |doubleR.v (x.getD i 0) - z i| ≤ 2 ^ (-40 : Int) * ∑ i ∈ range 3, |z i| + 2 ^ (-1000 : Int) := by
  have hc : ∀ i < 3, witnessF.sparsity.rowEntries i ≤ 2 ∧ witnessF.sparsity.colEntries i < 3 := by decide
  obtain ⟨f', h1, h2⟩ := C82_single doubleR witnessS [0, 2, 1] witness_valid _
    (show (witnessF.map (Binary.ofRat .binary64 false)).Declared witnessS [0, 2, 1] from
      ⟨witness_declared.pattern, rfl, rfl, rfl⟩) definiteDoubleM
    ⟨rfl, witness_valid.inRange, rfl, rfl, fun i j h => .base h h.1⟩ .upLooking 2 (fun i hi => (hc i hi).1) 3
    (fun i hi => (hc i hi).2) _ 5 (1 / 2) 4 _ hugeNorm double_ample double_ampleSolve
    (fun i hi j hj => ⟨by
      have : ∀ i < 3, ∀ j < 3, (definiteDoubleM.sym i j).Finite := by decide +kernel
      exact this i hi j hj, trivial⟩)
    (by
      have : ∀ i < 3, doubleR.v (definiteDoubleM.sym i i) ≤ 5 := by decide +kernel
      exact this)
    (reducedM_posDef.mono (fun i hi j hj hij => by
      rw [if_neg hij, sub_zero]
      have : ∀ i < 3, ∀ j < 3, i ≠ j → reducedM.sym i j = doubleR.v (definiteDoubleM.sym i j) := by decide +kernel
      exact this i (mem_range.mp hi) j (mem_range.mp hj) hij) fun i hi => by
      rw [if_pos rfl]
      have : ∀ i < 3, reducedM.sym i i ≤ doubleR.v (definiteDoubleM.sym i i) -
        doubleR.margin 2 3 3 (2 ^ (-1068 : Int)) (doubleR.v (definiteDoubleM.sym i i)) := by decide +kernel
      exact this i (mem_range.mp hi)) regularizationNone (fun _ _ _ _ => rfl)
  refine ⟨f', h1, fun b hb hbf => ?_⟩
  obtain ⟨x, hx, -, -, -, z, hz, -, h3⟩ := h2 b hb (fun i hi => ⟨(hbf i hi).1, trivial⟩) (by
    have h4 := sum_sq_le (s := range 3) fun i hi => (hbf i (mem_range.mp hi)).2
    rw [card_range] at h4
    have h5 : (3 : Nat) * hugeRat ^ 2 + (3 : Nat) * ((2 + 2 * 5 * (1 / 2)) * doubleR.underflow 2 3 ^ 2) ≤ hugeNorm ^ 2 := by
      decide +kernel
    exact (add_le_add_left h4 _).trans h5)
  refine ⟨x, z, hx, hz, ?_⟩
  have h4 := h3 (by
    have : 2 * ((3 : Nat) * doubleR.relError 2 3 0 5 (2 ^ (-1068 : Int))) ≤ 1 / 2 := by decide +kernel
    exact this)
  have h5 : 12 * doubleR.relError 2 3 0 5 (2 ^ (-1068 : Int)) ≤ 2 ^ (-40 : Int) := by decide +kernel
  have h6 : 12 * doubleR.absError 2 3 0 3 5 (2 ^ (-1068 : Int)) ≤ 2 ^ (-1000 : Int) := by decide +kernel
  have h7 : 0 ≤ ∑ i ∈ range 3, |z i| := sum_nonneg fun i _ => abs_nonneg _
  have h8 := mul_le_mul_of_nonneg_right h5 h7
  change 1 / 2 * ∑ i ∈ range 3, |doubleR.v (x.getD i 0) - z i| ≤ 2 * (((3 : Nat) : ℚ) *
    (doubleR.relError 2 3 0 5 (2 ^ (-1068 : Int)) * ∑ i ∈ range 3, |z i| + doubleR.absError 2 3 0 3 5 (2 ^ (-1068 : Int)))) at h4
  push_cast at h4
  linarith

/-- The hypotheses of `C82_factors` are those of C47, which are met by the case in `Props/RoundingSolve`. -/
example : ∃ T f, arrowheadTypes arrowS = .ok T ∧
    (freshFactor arrowS T arrowD 1 (0 : Double)).factorize 2 1 1 doubleM regularizationNone .upLooking = .ok f ∧
    ∀ b : ArrowheadVector Double, b.OfSize arrowD 1 →
      (∀ a ∈ blocks 1, ∀ i < arrowD.of a, (b.at a i).Finite ∧ |doubleR.v (b.at a i)| ≤ hugeRat) →
      ∃ x z, f.solveInPlace b = .ok x ∧
        Solves (positions arrowD 1) ((doubleM.map doubleR.v).assembled 1) (fun k => doubleR.v (b.at k.1 k.2)) z ∧
        ∑ k ∈ positions arrowD 1, |doubleR.v (x.at k.1 k.2) - z k| ≤
          2 ^ (-30 : Int) * ∑ k ∈ positions arrowD 1, |z k| + 2 ^ (-1000 : Int) := by
  obtain ⟨T, hT, hc⟩ : ∃ T, arrowheadTypes arrowS = .ok T ∧
      ∀ a ∈ blocks 1, ∀ i < arrowD.of a, T.rowEntries 1 a i ≤ 5 ∧ T.colEntries 1 a i < 4 := by
    have h : (do
        let T ← arrowheadTypes arrowS
        return decide (∀ a ∈ blocks 1, ∀ i < arrowD.of a, T.rowEntries 1 a i ≤ 5 ∧ T.colEntries 1 a i < 4)) =
        (.ok true : Res Bool) := by decide +kernel
    obtain ⟨T, hT, h⟩ := bind_eq_ok.mp h
    exact ⟨T, hT, of_decide_eq_true (Except.ok.inj h)⟩
  obtain ⟨f, h1, h2⟩ := C82_repeating doubleR arrowS arrowD arrowS_valid T 1 _ (C21_constructible arrowS arrowD T hT 1 0)
    doubleM ((arrowM_fits hT).map _) .upLooking 5 (fun a ha i hi => (hc a ha i hi).1) 4 (fun a ha i hi => (hc a ha i hi).2)
    _ 7 (1 / 20) 12 _ hugeNorm double_ample' double_ampleSolve'
    (fun k hk l hl => ⟨by
      have : ∀ k ∈ positions arrowD 1, ∀ l ∈ positions arrowD 1, (doubleM.assembled 1 k l).Finite := by decide +kernel
      exact this k hk l hl, trivial⟩)
    (by decide +kernel)
    doubleM_posDef regularizationNone (fun _ _ _ _ => rfl)
  refine ⟨T, f, hT, h1, fun b hb hbf => ?_⟩
  obtain ⟨x, hx, -, -, -, z, hz, -, h3⟩ := h2 b hb (fun a ha i hi => ⟨(hbf a ha i hi).1, trivial⟩) (by
    have h4 := sum_sq_le (s := positions arrowD 1) fun k hk => (hbf _ (mem_positions.mp hk).1 _ (mem_positions.mp hk).2).2
    have h5 : (positions arrowD 1).card * hugeRat ^ 2 +
        (positions arrowD 1).card * ((2 + 2 * 7 * (1 / 20)) * doubleR.underflow 5 4 ^ 2) ≤ hugeNorm ^ 2 := by
      decide +kernel
    exact (add_le_add_left h4 _).trans h5)
  refine ⟨x, z, hx, hz, ?_⟩
  have h4 := h3 (by decide +kernel)
  rw [show (positions arrowD 1).card = 7 by decide] at h4
  have h5 : 280 * doubleR.relError 5 4 0 7 (2 ^ (-1064 : Int)) ≤ 2 ^ (-30 : Int) := by decide +kernel
  have h6 : 280 * doubleR.absError 5 4 0 7 7 (2 ^ (-1064 : Int)) ≤ 2 ^ (-1000 : Int) := by decide +kernel
  have h7 : 0 ≤ ∑ k ∈ positions arrowD 1, |z k| := sum_nonneg fun i _ => abs_nonneg _
  have h8 := mul_le_mul_of_nonneg_right h5 h7
  push_cast at h4
  linarith

end Ctldl
