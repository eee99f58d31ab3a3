import Verif.Lemmas.TridiagonalPositions
import Verif.Props.Tridiagonal
import Verif.Props.DefiniteRounding

/-! # C46, C47, C48, C53 for the class for block tridiagonal matrices -/

namespace Ctldl

open Finset Tridiagonal

/-! ### C48 -/

section

variable {K : Type} [Field K] [LinearOrder K] [IsStrictOrderedRing K]

/-- C48: without regularization all pivots of a block tridiagonal matrix are positive exactly if it is positive
definite. -/
theorem C48_tridiagonal_positive_iff (spA spB : Sparsity) (p : List Nat) (n : Nat) (h : ValidTridiagonal spA spB p n)
    (N : Nat) (f : ArrowheadFactor K) (T : ArrowheadTypes) (hf : TridiagonalDeclared f spA spB p T n N)
    (A B : List (MatIn K)) (hm : TridiagonalFits A B p T n N) (method : Method) (f' : ArrowheadFactor K)
    (hfac : tridiagonalFactorize n f A B regularizationNone method = .ok f') :
    (∀ t < N + 1, ∀ i < n, 0 < f'.pivotAt (.tridiag t) i) ↔
      PosDef (tridiagonalPositions n N) 0 (tridiagonalAssembled A B) := by
  have hd := declared_of h hf
  rw [factorize_eq hd] at hfac
  have key := C48_repeating_positive_iff _ _ (emptied_valid h) T N f hd _ (fits_of hm) method f' hfac
  have hCD : ∀ k ∈ tridiagonalPositions n N, ∀ l ∈ tridiagonalPositions n N,
      (tridiagonalMatrix n N A B).assembled N ⟨.tridiag k.1, k.2⟩ ⟨.tridiag l.1, l.2⟩ = tridiagonalAssembled A B k l :=
    fun k hk l hl => symElement_eq hm.numB (mem_positions'.mp hk).1 (mem_positions'.mp hl).1 _ _
  constructor
  · intro hpos
    exact of_posDef hCD (key.mp (blocks_cases hpos))
  · intro hpd t ht i hi
    exact key.mpr (posDef_of hCD hpd) _ (tridiag_mem ht) i hi

/-- C48: a quasidefinite block tridiagonal matrix is factorized without breakdown, whatever the permutation, and a
regularization which leaves pivots greater than the margin alone does not change the solution. -/
theorem C48_tridiagonal_solve (spA spB : Sparsity) (p : List Nat) (n : Nat) (h : ValidTridiagonal spA spB p n)
    (N : Nat) (f : ArrowheadFactor K) (T : ArrowheadTypes) (hf : TridiagonalDeclared f spA spB p T n N)
    (A B : List (MatIn K)) (hm : TridiagonalFits A B p T n N) (S : Nat × Nat → Prop) (μ : K) (hμ : 0 ≤ μ)
    (hS : QuasiDef (tridiagonalPositions n N) S μ (tridiagonalAssembled A B)) (reg : K → Nat → K)
    (hreg : ∀ x i, μ < |x| → reg x i = x) (method : Method) (b : List (List K)) (hb : BlockVector b n N) :
    ∃ f' x, tridiagonalFactorize n f A B reg method = .ok f' ∧
      (∀ t < N + 1, ∀ i < n, (S (t, permAt p i) → μ < f'.pivotAt (.tridiag t) i) ∧
        (¬ S (t, permAt p i) → f'.pivotAt (.tridiag t) i < -μ)) ∧
      tridiagonalSolveInPlace f' b = .ok x ∧ BlockVector x n N ∧ ∀ t < N + 1, ∀ i < n,
        ∑ u ∈ range (N + 1), ∑ j ∈ range n, tridiagonalSym A B t u i j * blockAt x u j = blockAt b t i := by
  have hd := declared_of h hf
  let S' : (Σ _ : Blk, Nat) → Prop := fun k =>
    match k.1 with
    | .tridiag t => S (t, k.2)
    | _ => True
  have hS' : QuasiDef (positions ⟨0, n, 0, 0⟩ N) S' μ ((tridiagonalMatrix n N A B).assembled N) :=
    quasiDef_of (fun k hk l hl => symElement_eq hm.numB (mem_positions'.mp hk).1 (mem_positions'.mp hl).1 _ _)
      (fun _ => Iff.rfl) hS
  obtain ⟨f', h1, -, h2, -⟩ := C48_repeating_quasidefinite _ _ (emptied_valid h) T N f hd _ (fits_of hm) S' μ hμ hS' reg
    hreg method
  obtain ⟨f'', x, h3, h4, h5, h6⟩ := C48_repeating_solve _ _ (emptied_valid h) T N f hd _ (fits_of hm) S' μ hμ hS' reg
    hreg method _ (vector_of hb)
  obtain rfl : f'' = f' := by rw [h1] at h3; cases h3; rfl
  refine ⟨f'', x.tridiag, ?_, fun t ht i hi => ?_, ?_, (of_vector h5).2, fun t ht i hi => ?_⟩
  · rw [factorize_eq hd]
    exact h1
  · obtain ⟨h7, h8, -⟩ := h2 _ (tridiag_mem ht) i hi
    exact ⟨h7, h8⟩
  · unfold tridiagonalSolveInPlace
    rw [h4]
    rfl
  · refine Eq.trans ?_ (h6 _ (tridiag_mem ht) i hi)
    rw [sum_tridiag (fun c j => (tridiagonalMatrix n N A B).symElement N (.tridiag t) c i j * x.at c j)]
    refine sum_congr rfl fun u hu => sum_congr rfl fun j _ => ?_
    rw [symElement_eq hm.numB ht (mem_range.mp hu)]
    rfl

end

/-! ### Rounding errors -/

section

variable {K F : Type} [Zero K] [Sub K] [Mul K] [Div K] [Field F] [LinearOrder F] [IsStrictOrderedRing F]

/-- The numbers which are represented by the elements of the blocks. -/
def blockValues (R : Rounding K F) (A : List (MatIn K)) : List (MatIn F) := A.map (·.map R.v)

/-- C46: the product of the computed factors of a block tridiagonal matrix equals the permuted matrix up to rounding
errors, for every number of repetitions. -/
theorem C46_tridiagonal (R : Rounding K F) (spA spB : Sparsity) (p : List Nat) (n : Nat)
    (h : ValidTridiagonal spA spB p n) (N : Nat) (f : ArrowheadFactor K) (T : ArrowheadTypes)
    (hf : TridiagonalDeclared f spA spB p T n N) (A B : List (MatIn K)) (hm : TridiagonalFits A B p T n N)
    (reg : K → Nat → K) (method : Method) (f' : ArrowheadFactor K)
    (hfac : tridiagonalFactorize n f A B reg method = .ok f')
    (hfin : ∀ t < N + 1, ∀ i < n, R.fin (f'.pivotAt (.tridiag t) i) ∧
      ∀ x, f'.pivotAt (.tridiag t) i = reg x i → R.fin x)
    (ε : F) (h0 : 0 ≤ ε)
    (hε : ∀ t < N + 1, ∀ u < N + 1, ∀ i j, T.Has N (.tridiag t) i (.tridiag u) j →
      R.η * (1 + |R.v (f'.pivotAt (.tridiag u) j)| *
        (1 + |(f'.map R.v).lowerElement N (.tridiag t) (.tridiag u) i j|)) ≤ ε)
    (r : Nat) (hr : ∀ i < n, T.tridiagDiag.rowEntries i + T.tridiagSubdiag.rowEntries i ≤ r) :
    ∃ x : Nat → Nat → K, (∀ t < N + 1, ∀ i < n, f'.pivotAt (.tridiag t) i = reg (x t i) i) ∧
      ∀ t < N + 1, ∀ u < N + 1, ∀ i < n, ∀ j < n,
        |tridiagonalSym (blockValues R A) (blockValues R B) t u (permAt p i) (permAt p j) -
          (tridiagonalLdlt (f'.map R.v) n N t u i j +
            if t = u ∧ i = j then R.v (x t i) - R.v (f'.pivotAt (.tridiag t) i) else 0)| ≤
        R.gamma (r + 2) * (tridiagonalLdlt (f'.map (fun y => |R.v y|)) n N t u i j +
            if t = u ∧ i = j then |R.v (x t i)| - |R.v (f'.pivotAt (.tridiag t) i)| else 0) +
          R.growth (r + 2) * ((r + 1) * ε) := by
  have hd := declared_of h hf
  rw [factorize_eq hd] at hfac
  obtain ⟨x, h1, h2⟩ := C46_backward_error R _ _ (emptied_valid h) T N f hd _ (fits_of hm) reg method f' hfac
    (blocks_cases hfin) ε h0 (has_cases h hd.types hε) r
    (blocks_cases fun t ht i hi => (rowEntries_le h hd.types N t i).trans (hr i hi))
  refine ⟨fun t => x (.tridiag t), fun t ht i hi => h1 _ (tridiag_mem ht) i hi, fun t ht u hu i hi j hj => ?_⟩
  have h3 := h2 _ (tridiag_mem ht) _ (tridiag_mem hu) i hi j hj
  rw [matrix_map, symElement_eq (by rw [List.length_map]; exact hm.numB) ht hu, ldlt_eq, ldlt_eq] at h3
  simp only [Blk.tridiag.injEq] at h3
  exact h3

/-- C47: the residual of the solution computed for a block tridiagonal matrix, with the changes of the pivots by the
regularization added to the matrix. -/
theorem C47_tridiagonal (R : Rounding K F) (spA spB : Sparsity) (p : List Nat) (n : Nat)
    (h : ValidTridiagonal spA spB p n) (N : Nat) (f : ArrowheadFactor K) (T : ArrowheadTypes)
    (hf : TridiagonalDeclared f spA spB p T n N) (A B : List (MatIn K)) (hm : TridiagonalFits A B p T n N)
    (reg : K → Nat → K) (method : Method) (f' : ArrowheadFactor K)
    (hfac : tridiagonalFactorize n f A B reg method = .ok f')
    (hfin : ∀ t < N + 1, ∀ i < n, R.fin (f'.pivotAt (.tridiag t) i) ∧
      ∀ x, f'.pivotAt (.tridiag t) i = reg x i → R.fin x)
    (ε : F) (h0 : 0 ≤ ε)
    (hε : ∀ t < N + 1, ∀ u < N + 1, ∀ i j, T.Has N (.tridiag t) i (.tridiag u) j →
      R.η * (1 + |R.v (f'.pivotAt (.tridiag u) j)| *
        (1 + |(f'.map R.v).lowerElement N (.tridiag t) (.tridiag u) i j|)) ≤ ε)
    (b : List (List K)) (hb : BlockVector b n N) (x : List (List K)) (hx : tridiagonalSolveInPlace f' b = .ok x)
    (hxfin : ∀ t < N + 1, ∀ i < n, R.fin (blockAt x t i))
    (r : Nat) (hr : ∀ i < n, T.tridiagDiag.rowEntries i + T.tridiagSubdiag.rowEntries i ≤ r)
    (c : Nat) (hc : ∀ i < n, T.tridiagDiag.colEntries i + T.tridiagSubdiag.colEntries i ≤ c) :
    ∃ w : Nat → Nat → K, (∀ t < N + 1, ∀ i < n, f'.pivotAt (.tridiag t) i = reg (w t i) i) ∧
      ∀ t < N + 1, ∀ i < n,
        |R.v (blockAt b t (permAt p i)) - ∑ u ∈ range (N + 1), ∑ j ∈ range n,
            (tridiagonalSym (blockValues R A) (blockValues R B) t u (permAt p i) (permAt p j) +
              if t = u ∧ i = j then R.v (f'.pivotAt (.tridiag t) i) - R.v (w t i) else 0) *
              R.v (blockAt x u (permAt p j))| ≤
          R.gamma (r + c + 3) * ∑ u ∈ range (N + 1), ∑ j ∈ range n,
            tridiagonalLdlt (f'.map (fun y => |R.v y|)) n N t u i j * |R.v (blockAt x u (permAt p j))| +
          R.gamma (r + 2) * ∑ u ∈ range (N + 1), ∑ j ∈ range n,
            (tridiagonalLdlt (f'.map (fun y => |R.v y|)) n N t u i j +
              if t = u ∧ i = j then |R.v (w t i)| - |R.v (f'.pivotAt (.tridiag t) i)| else 0) *
              |R.v (blockAt x u (permAt p j))| +
          (R.growth (r + c + 3) * (r * R.η + ∑ u ∈ range (N + 1), ∑ j ∈ range n,
            (f'.map (fun y => |R.v y|)).lowerElement N (.tridiag t) (.tridiag u) i j *
              (|R.v (f'.pivotAt (.tridiag u) j)| * ((c + 1) * R.η))) +
          R.growth (r + 2) * ((r + 1) * ε) * ∑ u ∈ range (N + 1), ∑ j ∈ range n, |R.v (blockAt x u (permAt p j))|) := by
  have hd := declared_of h hf
  rw [factorize_eq hd] at hfac
  obtain ⟨y, hy, rfl⟩ : ∃ y, f'.solveInPlace ⟨[], b, [], []⟩ = .ok y ∧ y.tridiag = x := by
    unfold tridiagonalSolveInPlace at hx
    obtain ⟨y, h1, h2⟩ := bind_eq_ok.mp hx
    exact ⟨y, h1, Except.ok.inj h2⟩
  obtain ⟨w, h1, h2⟩ := C47_residual R _ _ (emptied_valid h) T N f hd _ (fits_of hm) reg method f' hfac
    (blocks_cases hfin) ε h0 (has_cases h hd.types hε) _ (vector_of hb) y hy (blocks_cases hxfin) r
    (blocks_cases fun t ht i hi => (rowEntries_le h hd.types N t i).trans (hr i hi)) c
    (blocks_cases fun t ht i hi => (colEntries_le h hd.types N t i).trans (hc i hi))
  refine ⟨fun t => w (.tridiag t), fun t ht i hi => h1 _ (tridiag_mem ht) i hi, fun t ht i hi => ?_⟩
  have h3 := h2 _ (tridiag_mem ht) i hi
  simp only [sum_tridiag, ldlt_eq, Blk.tridiag.injEq, matrix_map] at h3
  refine le_trans (le_of_eq ?_) h3
  congr 2
  refine sum_congr rfl fun u hu => sum_congr rfl fun j _ => ?_
  rw [symElement_eq (by rw [List.length_map]; exact hm.numB) ht (mem_range.mp hu)]
  rfl

theorem reduced_posDef {R : Rounding K F} {A B : List (MatIn K)} {n N : Nat} (hB : N ≤ B.length) {μ : F} {g : F → F}
    (hpd : PosDef (tridiagonalPositions n N) μ fun k l =>
      tridiagonalAssembled (blockValues R A) (blockValues R B) k l -
        if k = l then g (tridiagonalAssembled (blockValues R A) (blockValues R B) k k) else 0) :
    PosDef (positions ⟨0, n, 0, 0⟩ N) μ fun k l => ((tridiagonalMatrix n N A B).map R.v).assembled N k l -
      if k = l then g (((tridiagonalMatrix n N A B).map R.v).assembled N k k) else 0 := by
  refine posDef_of (fun k hk l hl => ?_) hpd
  have hsym : ∀ k ∈ tridiagonalPositions n N, ∀ l ∈ tridiagonalPositions n N,
      ((tridiagonalMatrix n N A B).map R.v).assembled N ⟨.tridiag k.1, k.2⟩ ⟨.tridiag l.1, l.2⟩ =
        tridiagonalAssembled (blockValues R A) (blockValues R B) k l := fun k hk l hl => by
    rw [matrix_map]
    exact symElement_eq (by rw [List.length_map]; exact hB) (mem_positions'.mp hk).1 (mem_positions'.mp hl).1 _ _
  have hkl : ((⟨.tridiag k.1, k.2⟩ : Σ _ : Blk, Nat) = ⟨.tridiag l.1, l.2⟩) = (k = l) := by
    obtain ⟨a, b⟩ := k
    obtain ⟨c, d⟩ := l
    simp
  simp only [hsym k hk l hl, hsym k hk k hk, hkl]

theorem card_positions (n N : Nat) : (positions ⟨0, n, 0, 0⟩ N).card = (N + 1) * n := by
  have := sum_positions (K := Nat) (n := n) (N := N) fun _ => 1
  rw [← card_eq_sum_ones, ← card_eq_sum_ones] at this
  rw [this]
  simp [tridiagonalPositions]

/-- C53: a block tridiagonal matrix which is positive definite by a margin is factorized with positive pivots also in
arithmetic with rounding, and the product of the computed factors differs from it without growth. -/
theorem C53_tridiagonal (R : Rounding K F) (spA spB : Sparsity) (p : List Nat) (n : Nat)
    (h : ValidTridiagonal spA spB p n) (N : Nat) (f : ArrowheadFactor K) (T : ArrowheadTypes)
    (hf : TridiagonalDeclared f spA spB p T n N) (A B : List (MatIn K)) (hm : TridiagonalFits A B p T n N)
    (reg : K → Nat → K) (method : Method) (f' : ArrowheadFactor K)
    (hfac : tridiagonalFactorize n f A B reg method = .ok f')
    (hfin : ∀ t < N + 1, ∀ i < n, R.fin (f'.pivotAt (.tridiag t) i) ∧
      ∀ x, f'.pivotAt (.tridiag t) i = reg x i → R.fin x)
    (ε : F) (h0 : 0 ≤ ε)
    (hε : ∀ t < N + 1, ∀ u < N + 1, ∀ i j, T.Has N (.tridiag t) i (.tridiag u) j →
      R.η * (1 + |R.v (f'.pivotAt (.tridiag u) j)| *
        (1 + |(f'.map R.v).lowerElement N (.tridiag t) (.tridiag u) i j|)) ≤ ε)
    (r : Nat) (hr : ∀ i < n, T.tridiagDiag.rowEntries i + T.tridiagSubdiag.rowEntries i ≤ r)
    (c : Nat) (hc : ∀ i < n, T.tridiagDiag.colEntries i + T.tridiagSubdiag.colEntries i < c)
    (hγ : (2 * c + 1) * R.gamma (r + 2) ≤ 1) (hγ1 : R.gamma (r + 2) < 1)
    (μ : F) (hμ : 0 ≤ μ) (hreg : ∀ x i, R.fin x → μ < R.v x → reg x i = x)
    (hpd : PosDef (tridiagonalPositions n N) μ fun k l =>
      tridiagonalAssembled (blockValues R A) (blockValues R B) k l -
        if k = l then R.margin r c ((N + 1) * n) ε (tridiagonalAssembled (blockValues R A) (blockValues R B) k k) else 0) :
    (∀ t < N + 1, ∀ i < n, μ < R.v (f'.pivotAt (.tridiag t) i)) ∧
    ∀ t < N + 1, ∀ u < N + 1, ∀ i < n, ∀ j < n,
      let A := fun t i u j => tridiagonalSym (blockValues R A) (blockValues R B) t u (permAt p i) (permAt p j)
      |A t i u j - tridiagonalLdlt (f'.map R.v) n N t u i j| ≤
        R.gamma (r + 2) / (1 - R.gamma (r + 2)) * ((A t i t i + A u j u j) / 2 + R.growth (r + 2) * ((r + 1) * ε)) +
          R.growth (r + 2) * ((r + 1) * ε) := by
  have hd := declared_of h hf
  rw [factorize_eq hd] at hfac
  obtain ⟨h1, h2⟩ := C53_repeating R _ _ (emptied_valid h) T N f hd _ (fits_of hm) reg method f' hfac
    (blocks_cases hfin) ε h0 (has_cases h hd.types hε) r
    (blocks_cases fun t ht i hi => (rowEntries_le h hd.types N t i).trans (hr i hi)) c
    (blocks_cases fun t ht i hi => (colEntries_le h hd.types N t i).trans_lt (hc i hi)) hγ hγ1 μ hμ hreg
    (by
      rw [card_positions]
      exact reduced_posDef hm.numB hpd)
  refine ⟨fun t ht i hi => h1 _ (tridiag_mem ht) i hi, fun t ht u hu i hi j hj => ?_⟩
  have h3 := h2 _ (tridiag_mem ht) _ (tridiag_mem hu) i hi j hj
  rw [matrix_map] at h3
  dsimp only at h3
  rw [symElement_eq (by rw [List.length_map]; exact hm.numB) ht hu,
    symElement_eq (by rw [List.length_map]; exact hm.numB) ht ht,
    symElement_eq (by rw [List.length_map]; exact hm.numB) hu hu, ldlt_eq] at h3
  exact h3

/-- C53: so the residual of the solution computed for a positive definite block tridiagonal matrix is small compared
with the matrix. -/
theorem C53_tridiagonal_residual (R : Rounding K F) (spA spB : Sparsity) (p : List Nat) (n : Nat)
    (h : ValidTridiagonal spA spB p n) (N : Nat) (f : ArrowheadFactor K) (T : ArrowheadTypes)
    (hf : TridiagonalDeclared f spA spB p T n N) (A B : List (MatIn K)) (hm : TridiagonalFits A B p T n N)
    (reg : K → Nat → K) (method : Method) (f' : ArrowheadFactor K)
    (hfac : tridiagonalFactorize n f A B reg method = .ok f')
    (hfin : ∀ t < N + 1, ∀ i < n, R.fin (f'.pivotAt (.tridiag t) i) ∧
      ∀ x, f'.pivotAt (.tridiag t) i = reg x i → R.fin x)
    (ε : F) (h0 : 0 ≤ ε)
    (hε : ∀ t < N + 1, ∀ u < N + 1, ∀ i j, T.Has N (.tridiag t) i (.tridiag u) j →
      R.η * (1 + |R.v (f'.pivotAt (.tridiag u) j)| *
        (1 + |(f'.map R.v).lowerElement N (.tridiag t) (.tridiag u) i j|)) ≤ ε)
    (r : Nat) (hr : ∀ i < n, T.tridiagDiag.rowEntries i + T.tridiagSubdiag.rowEntries i ≤ r)
    (c : Nat) (hc : ∀ i < n, T.tridiagDiag.colEntries i + T.tridiagSubdiag.colEntries i ≤ c)
    (hγ : (2 * c + 3) * R.gamma (r + 2) ≤ 1) (hγ1 : R.gamma (r + 2) < 1)
    (μ : F) (hμ : 0 ≤ μ) (hreg : ∀ x i, R.fin x → μ < R.v x → reg x i = x)
    (hpd : PosDef (tridiagonalPositions n N) μ fun k l =>
      tridiagonalAssembled (blockValues R A) (blockValues R B) k l -
        if k = l then R.margin r (c + 1) ((N + 1) * n) ε
          (tridiagonalAssembled (blockValues R A) (blockValues R B) k k) else 0)
    (b : List (List K)) (hb : BlockVector b n N) (x : List (List K)) (hx : tridiagonalSolveInPlace f' b = .ok x)
    (hxfin : ∀ t < N + 1, ∀ i < n, R.fin (blockAt x t i)) :
    let A := tridiagonalAssembled (blockValues R A) (blockValues R B)
    let e := R.growth (r + 2) * ((r + 1) * ε)
    let B := fun k l => ((A k k + A l l) / 2 + e) / (1 - R.gamma (r + 2))
    ∀ k ∈ tridiagonalPositions n N,
      |R.v (blockAt b k.1 k.2) - ∑ l ∈ tridiagonalPositions n N, A k l * R.v (blockAt x l.1 l.2)| ≤
        (R.gamma (r + c + 3) + R.gamma (r + 2)) * ∑ l ∈ tridiagonalPositions n N, B k l * |R.v (blockAt x l.1 l.2)| +
        (R.growth (r + c + 3) * R.η * (r + (c + 1) * ∑ l ∈ tridiagonalPositions n N, B k l) +
          e * ∑ l ∈ tridiagonalPositions n N, |R.v (blockAt x l.1 l.2)|) := by
  intro A' e B' k hk
  have hd := declared_of h hf
  rw [factorize_eq hd] at hfac
  obtain ⟨y, hy, rfl⟩ : ∃ y, f'.solveInPlace ⟨[], b, [], []⟩ = .ok y ∧ y.tridiag = x := by
    unfold tridiagonalSolveInPlace at hx
    obtain ⟨y, h1, h2⟩ := bind_eq_ok.mp hx
    exact ⟨y, h1, Except.ok.inj h2⟩
  have h2 := C53_residual R _ _ (emptied_valid h) T N f hd _ (fits_of hm) reg method f' hfac
    (blocks_cases hfin) ε h0 (has_cases h hd.types hε) r
    (blocks_cases fun t ht i hi => (rowEntries_le h hd.types N t i).trans (hr i hi)) c
    (blocks_cases fun t ht i hi => (colEntries_le h hd.types N t i).trans (hc i hi)) hγ hγ1 μ hμ hreg
    (by
      rw [card_positions]
      exact reduced_posDef hm.numB hpd) _ (vector_of hb) y hy (blocks_cases hxfin) _ (position_mem hk)
  have hsym : ∀ k ∈ tridiagonalPositions n N, ∀ l ∈ tridiagonalPositions n N,
      ((tridiagonalMatrix n N A B).map R.v).assembled N ⟨.tridiag k.1, k.2⟩ ⟨.tridiag l.1, l.2⟩ = A' k l :=
    fun k hk l hl => by
    rw [matrix_map]
    exact symElement_eq (by rw [List.length_map]; exact hm.numB) (mem_positions'.mp hk).1 (mem_positions'.mp hl).1 _ _
  simp only [sum_positions] at h2
  have e1 : ∑ l ∈ tridiagonalPositions n N, A' k l * R.v (blockAt y.tridiag l.1 l.2) =
      ∑ l ∈ tridiagonalPositions n N, ((tridiagonalMatrix n N A B).map R.v).assembled N ⟨.tridiag k.1, k.2⟩
        ⟨.tridiag l.1, l.2⟩ * R.v (y.at (.tridiag l.1) l.2) :=
    sum_congr rfl fun l hl => by rw [hsym k hk l hl]; rfl
  have hB : ∀ l ∈ tridiagonalPositions n N, B' k l =
      ((((tridiagonalMatrix n N A B).map R.v).assembled N ⟨.tridiag k.1, k.2⟩ ⟨.tridiag k.1, k.2⟩ +
        ((tridiagonalMatrix n N A B).map R.v).assembled N ⟨.tridiag l.1, l.2⟩ ⟨.tridiag l.1, l.2⟩) / 2 + e) /
        (1 - R.gamma (r + 2)) := fun l hl => by
    rw [hsym k hk k hk, hsym l hl l hl]
  have e2 : ∑ l ∈ tridiagonalPositions n N, B' k l * |R.v (blockAt y.tridiag l.1 l.2)| = ∑ l ∈ tridiagonalPositions n N,
      ((((tridiagonalMatrix n N A B).map R.v).assembled N ⟨.tridiag k.1, k.2⟩ ⟨.tridiag k.1, k.2⟩ +
        ((tridiagonalMatrix n N A B).map R.v).assembled N ⟨.tridiag l.1, l.2⟩ ⟨.tridiag l.1, l.2⟩) / 2 + e) /
        (1 - R.gamma (r + 2)) * |R.v (y.at (.tridiag l.1) l.2)| :=
    sum_congr rfl fun l hl => by rw [hB l hl]; rfl
  rw [e1, e2, sum_congr rfl hB]
  exact h2

end

/-! ### A case meeting the hypotheses, in IEEE double precision -/

/-- Witness: a block tridiagonal matrix with three diagonal blocks. -/
def tridiagValuesA : List (MatIn ℚ) := [⟨tridiagA, [3, 1, 4]⟩, ⟨tridiagA, [5, 1, 4]⟩, ⟨tridiagA, [5, 1, 6]⟩]
def tridiagValuesB : List (MatIn ℚ) := [⟨tridiagB, [1]⟩, ⟨tridiagB, [-1]⟩]

/-- The same with diagonal elements, which are those greater than one, reduced. -/
def tridiagReduced (A : List (MatIn ℚ)) : List (MatIn ℚ) := A.map (·.map fun x => if x ≤ 1 then x else x - 1 / 10)

def tridiagDouble (A : List (MatIn ℚ)) : List (MatIn Double) := A.map (·.map (Binary.ofRat .binary64 false))

def tridiagDoubleB : List (List Double) := [[1, 2], [3, 4], [5, 7]].map (·.map (Binary.ofRat .binary64 false))

def tridiagRun {K : Type} [Zero K] [Sub K] [Mul K] [Div K] (A B : List (MatIn K)) (b : List (List K)) :
    Res (ArrowheadSparsity × ArrowheadTypes × ArrowheadFactor K × List (List K)) := do
  let s ← tridiagonalSparsity tridiagA tridiagB [1, 0]
  let T ← arrowheadTypes s
  let f ← tridiagonalFactorize 2 (freshFactor s T ⟨0, 2, 0, 0⟩ 2 (0 : K)) A B regularizationNone .entryWise
  let x ← tridiagonalSolveInPlace f b
  return (s, T, f, x)

theorem tridiagRun_ok {K : Type} [Zero K] [Sub K] [Mul K] [Div K] {A B : List (MatIn K)} {b : List (List K)}
    {s : ArrowheadSparsity} {T : ArrowheadTypes} {f : ArrowheadFactor K} {x : List (List K)}
    (h : tridiagRun A B b = .ok (s, T, f, x)) :
    tridiagonalSparsity tridiagA tridiagB [1, 0] = .ok s ∧
      TridiagonalDeclared (freshFactor s T ⟨0, 2, 0, 0⟩ 2 (0 : K)) tridiagA tridiagB [1, 0] T 2 2 ∧
      tridiagonalFactorize 2 (freshFactor s T ⟨0, 2, 0, 0⟩ 2 (0 : K)) A B regularizationNone .entryWise = .ok f ∧
      tridiagonalSolveInPlace f b = .ok x := by
  unfold tridiagRun at h
  obtain ⟨s', hs, h⟩ := bind_eq_ok.mp h
  obtain ⟨T', hT, h⟩ := bind_eq_ok.mp h
  obtain ⟨f', hf, h⟩ := bind_eq_ok.mp h
  obtain ⟨x', hx, h⟩ := bind_eq_ok.mp h
  cases h
  exact ⟨hs, ⟨s, hs, C21_constructible s _ T hT 2 0⟩, hf, hx⟩

theorem tridiag_fits {K : Type} (g : ℚ → K) {f : ArrowheadFactor K} {T : ArrowheadTypes}
    (hf : TridiagonalDeclared f tridiagA tridiagB [1, 0] T 2 2) :
    TridiagonalFits (tridiagValuesA.map (·.map g)) (tridiagValuesB.map (·.map g)) [1, 0] T 2 2 :=
  C37_declared_fits tridiagA tridiagB [1, 0] 2 tridiag_valid 2 f T hf _ _ le_rfl le_rfl
    (fun t ht => by rcases t with _ | _ | _ | t <;> first | exact ⟨rfl, rfl⟩ | omega)
    (fun t ht => by rcases t with _ | _ | t <;> first | exact ⟨rfl, rfl⟩ | omega)

theorem tridiagReduced_posDef : PosDef (tridiagonalPositions 2 2) 0
    (tridiagonalAssembled (tridiagReduced tridiagValuesA) (tridiagReduced tridiagValuesB)) := by
  have h : (do
      let (_, _, f, _) ← tridiagRun (tridiagReduced tridiagValuesA) (tridiagReduced tridiagValuesB) [[0, 0], [0, 0], [0, 0]]
      return decide (∀ t < 2 + 1, ∀ i < 2, 0 < f.pivotAt (.tridiag t) i)) = (.ok true : Res Bool) := by decide +kernel
  obtain ⟨⟨s, T, f, x⟩, h1, h2⟩ := bind_eq_ok.mp h
  obtain ⟨-, h3, h4, -⟩ := tridiagRun_ok h1
  exact (C48_tridiagonal_positive_iff tridiagA tridiagB [1, 0] 2 tridiag_valid 2 _ T h3 _ _ (tridiag_fits _ h3) .entryWise f
    h4).mp (of_decide_eq_true (Except.ok.inj h2))

/-- So the hypothesis of C48 on solutions is met. -/
example : QuasiDef (tridiagonalPositions 2 2) (fun _ => True) 0
    (tridiagonalAssembled (tridiagReduced tridiagValuesA) (tridiagReduced tridiagValuesB)) :=
  tridiagReduced_posDef.quasiDef

def tridiagSmall (f : ArrowheadFactor Double) (t u i j : Nat) : Prop :=
  doubleR.η * (1 + |doubleR.v (f.pivotAt (.tridiag u) j)| *
    (1 + |(f.map doubleR.v).lowerElement 2 (.tridiag t) (.tridiag u) i j|)) ≤ 2 ^ (-1070 : Int)

instance (f : ArrowheadFactor Double) (t u i j : Nat) : Decidable (tridiagSmall f t u i j) := by
  unfold tridiagSmall
  infer_instance

def tridiagCheck (T : ArrowheadTypes) (f : ArrowheadFactor Double) (x : List (List Double)) : Bool :=
  (List.range 3).all fun t => (List.range 2).all fun i =>
    decide ((f.pivotAt (.tridiag t) i).Finite) && decide ((blockAt x t i).Finite) &&
    decide (T.tridiagDiag.rowEntries i + T.tridiagSubdiag.rowEntries i ≤ 3) &&
    decide (T.tridiagDiag.colEntries i + T.tridiagSubdiag.colEntries i ≤ 3) &&
    (List.range 3).all fun u => (List.range 2).all fun j => decide (tridiagSmall f t u i j)

/-- All hypotheses of C53 on block tridiagonal matrices, and so those of C46 and C47, are met; the pivots are positive
and the residual small. -/
example : ∃ s T f x,
    tridiagRun (tridiagDouble tridiagValuesA) (tridiagDouble tridiagValuesB) tridiagDoubleB = .ok (s, T, f, x) ∧
    (∀ t < 3, ∀ i < 2, 0 < doubleR.v (f.pivotAt (.tridiag t) i)) ∧
    (f.pivotAt (.tridiag 1) 1).toRat ≠ 197 / 44 := by
  have h : (do
      let (_, T, f, x) ← tridiagRun (tridiagDouble tridiagValuesA) (tridiagDouble tridiagValuesB) tridiagDoubleB
      return tridiagCheck T f x && decide ((f.pivotAt (.tridiag 1) 1).toRat ≠ 197 / 44)) = (.ok true : Res Bool) := by decide +kernel
  obtain ⟨⟨s, T, f, x⟩, h1, h2⟩ := bind_eq_ok.mp h
  obtain ⟨hs, h3, h4, h5⟩ := tridiagRun_ok h1
  have h6 : ∀ t < 3, ∀ i < 2, ((((f.pivotAt (.tridiag t) i).Finite ∧ (blockAt x t i).Finite) ∧
      T.tridiagDiag.rowEntries i + T.tridiagSubdiag.rowEntries i ≤ 3) ∧
      T.tridiagDiag.colEntries i + T.tridiagSubdiag.colEntries i ≤ 3) ∧
      ∀ u < 3, ∀ j < 2, tridiagSmall f t u i j := by
    have := ((Bool.and_eq_true _ _).mp (Except.ok.inj h2)).1
    simpa only [tridiagCheck, List.all_eq_true, List.mem_range, Bool.and_eq_true, decide_eq_true_eq] using this
  have h7 := C53_tridiagonal doubleR tridiagA tridiagB [1, 0] 2 tridiag_valid 2 _ T h3 (tridiagDouble tridiagValuesA)
    (tridiagDouble tridiagValuesB) (tridiag_fits _ h3) regularizationNone .entryWise f h4
    (fun t ht i hi => ⟨(h6 t ht i hi).1.1.1.1, fun y hy => by
      rw [show y = f.pivotAt (.tridiag t) i from hy.symm]
      exact (h6 t ht i hi).1.1.1.1⟩) (2 ^ (-1070 : Int)) (two_zpow_pos _).le
    (fun t ht u hu i j hh => by
      have hi : i < 2 ∧ j < 2 := has_range tridiag_valid (declared_of tridiag_valid h3).types hh
      exact (h6 t ht i hi.1).2 u hu j hi.2) 3
    (fun i hi => (h6 0 (by omega) i hi).1.1.2) 4 (fun i hi => Nat.lt_succ_of_le (h6 0 (by omega) i hi).1.2)
    (by decide +kernel) (by decide +kernel) 0 le_rfl (fun _ _ _ _ => rfl) ?_
  · exact ⟨s, T, f, x, h1, h7.1, of_decide_eq_true ((Bool.and_eq_true _ _).mp (Except.ok.inj h2)).2⟩
  · refine tridiagReduced_posDef.mono (fun k hk l hl hne => ?_) fun k hk => ?_
    · rw [if_neg hne, sub_zero]
      have : ∀ k ∈ tridiagonalPositions 2 2, ∀ l ∈ tridiagonalPositions 2 2, k ≠ l →
        tridiagonalAssembled (tridiagReduced tridiagValuesA) (tridiagReduced tridiagValuesB) k l =
          tridiagonalAssembled (blockValues doubleR (tridiagDouble tridiagValuesA))
            (blockValues doubleR (tridiagDouble tridiagValuesB)) k l := by decide +kernel
      exact this k hk l hl hne
    · rw [if_pos rfl]
      have : ∀ k ∈ tridiagonalPositions 2 2,
        tridiagonalAssembled (tridiagReduced tridiagValuesA) (tridiagReduced tridiagValuesB) k k ≤
          tridiagonalAssembled (blockValues doubleR (tridiagDouble tridiagValuesA))
            (blockValues doubleR (tridiagDouble tridiagValuesB)) k k - doubleR.margin 3 4 ((2 + 1) * 2) (2 ^ (-1070 : Int))
            (tridiagonalAssembled (blockValues doubleR (tridiagDouble tridiagValuesA))
              (blockValues doubleR (tridiagDouble tridiagValuesB)) k k) := by decide +kernel
      exact this k hk

end Ctldl
