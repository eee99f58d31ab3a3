import Verif.Lemmas.Tridiagonal

/-! # C37: factorization of repeating block tridiagonal matrices -/

namespace Ctldl

open Finset Tridiagonal

variable {K : Type}

/-! ### C37 -/

/-- C37: the class can be instantiated and objects can be constructed for every number of repetitions. -/
theorem C37_constructible (spA spB : Sparsity) (p : List Nat) (n : Nat) (h : ValidTridiagonal spA spB p n) (N : Nat)
    (x : K) : ∃ (f : ArrowheadFactor K) (T : ArrowheadTypes), TridiagonalDeclared f spA spB p T n N := by
  obtain ⟨T, hT⟩ := C21_instantiable _ _ (emptied_valid h)
  exact ⟨_, T, _, tridiagonalSparsity_eq h, C21_constructible _ _ T hT N x⟩

/-- C37: inconsistent dimensions are rejected at compile time. -/
theorem C37_rejects (spA spB : Sparsity) (p : List Nat)
    (h : ¬ (spA.numRows = spA.numCols ∧ spB.numRows = spB.numCols ∧ spB.numRows = spA.numRows)) :
    tridiagonalSparsity spA spB p = .error .staticAssert := by
  unfold tridiagonalSparsity isSquare staticAssert
  by_cases h1 : spA.numRows = spA.numCols
  · by_cases h2 : spB.numRows = spB.numCols
    · have h3 : ¬ spB.numRows = spA.numRows := fun h3 => h ⟨h1, h2, h3⟩
      simp only [h1, h2, beq_self_eq_true, if_true, ok_bind]
      rw [if_neg (by rw [← h1, ← h2]; simpa using h3), error_bind]
    · simp only [h1, beq_self_eq_true, if_true, ok_bind]
      rw [if_neg (by simpa using h2), error_bind]
  · rw [if_neg (by simpa using h1), error_bind]

/-- C37: matrices with the declared patterns can be factorized. -/
theorem C37_declared_fits {K' : Type} (spA spB : Sparsity) (p : List Nat) (n : Nat) (h : ValidTridiagonal spA spB p n) (N : Nat)
    (f : ArrowheadFactor K') (T : ArrowheadTypes) (hf : TridiagonalDeclared f spA spB p T n N) (A B : List (MatIn K))
    (hA : N + 1 ≤ A.length) (hB : N ≤ B.length)
    (sA : ∀ t < N + 1, (A.getD t (.empty K)).Sized ∧ (A.getD t (.empty K)).sparsity = spA)
    (sB : ∀ t < N, (B.getD t (.empty K)).Sized ∧ (B.getD t (.empty K)).sparsity = spB) :
    TridiagonalFits A B p T n N := by
  have hd := declared_of h hf
  have hp := C21_pattern _ _ (emptied_valid h) T hd.types 1
  refine ⟨hA, hB, fun t ht => ?_, fun t ht => ?_⟩
  · obtain ⟨h1, h2⟩ := sA t ht
    rw [h2]
    refine ⟨h1, h.diag, fun i j hh => ?_⟩
    rcases hp.2.1 (.tridiag 0) i (.tridiag 0) j (Or.inl ⟨rfl, hh⟩) with ⟨-, h3⟩ | ⟨G, h3, -⟩
    · exact h3
    · cases h3
  · obtain ⟨h1, h2⟩ := sB t ht
    rw [h2]
    refine ⟨h1, h.subdiag, fun i j hh => ?_⟩
    rcases hp.2.1 (.tridiag 1) i (.tridiag 0) j (Or.inr ⟨_, rfl, hh⟩) with ⟨h3, -⟩ | ⟨G, h3, h4⟩
    · cases h3
    · cases h3
      exact h4

/-- C37: for any arithmetic, `factorize` and `solveInPlace` succeed, for every number of repetitions. -/
theorem C37_total [Zero K] [Sub K] [Mul K] [Div K] (spA spB : Sparsity) (p : List Nat) (n : Nat)
    (h : ValidTridiagonal spA spB p n) (N : Nat) (f : ArrowheadFactor K) (T : ArrowheadTypes)
    (hf : TridiagonalDeclared f spA spB p T n N) (A B : List (MatIn K)) (hm : TridiagonalFits A B p T n N)
    (reg : K → Nat → K) (method : Method) (b : List (List K)) (hb : BlockVector b n N) :
    ∃ f' x, tridiagonalFactorize n f A B reg method = .ok f' ∧ TridiagonalDeclared f' spA spB p T n N ∧
      tridiagonalSolveInPlace f' b = .ok x ∧ BlockVector x n N := by
  have hd := declared_of h hf
  obtain ⟨f', h1, h2⟩ := C21_factorize_total _ _ (emptied_valid h) T N f hd _ (fits_of hm) reg method
  obtain ⟨⟨x, h3, h4⟩, -⟩ := C35_solve_total _ _ (emptied_valid h) T N f' h2 _ (vector_of hb)
  refine ⟨f', x.tridiag, ?_, ⟨_, tridiagonalSparsity_eq h, h2⟩, ?_, (of_vector h4).2⟩
  · rw [factorize_eq hd]
    exact h1
  · unfold tridiagonalSolveInPlace
    rw [h3]
    rfl

/-- C37: if no pivot is zero, `solveInPlace` after `factorize` solves the assembled block tridiagonal system, where each
regularized pivot adds its change to the diagonal. -/
theorem C37_solve [Field K] (spA spB : Sparsity) (p : List Nat) (n : Nat)
    (h : ValidTridiagonal spA spB p n) (N : Nat) (f : ArrowheadFactor K) (T : ArrowheadTypes)
    (hf : TridiagonalDeclared f spA spB p T n N) (A B : List (MatIn K)) (hm : TridiagonalFits A B p T n N)
    (reg : K → Nat → K) (method : Method) (f' : ArrowheadFactor K)
    (hfac : tridiagonalFactorize n f A B reg method = .ok f')
    (hpiv : ∀ t < N + 1, ∀ i < n, f'.pivotAt (.tridiag t) i ≠ 0) (b : List (List K)) (hb : BlockVector b n N) :
    ∃ (x : List (List K)) (δ : Nat → Nat → K), tridiagonalSolveInPlace f' b = .ok x ∧ BlockVector x n N ∧
      (∀ t < N + 1, ∀ i < n, f'.pivotAt (.tridiag t) i = reg (δ t i) i) ∧
      ∀ t < N + 1, ∀ i < n,
        ∑ u ∈ range (N + 1), ∑ j ∈ range n, tridiagonalSym A B t u (permAt p i) j * blockAt x u j +
          (f'.pivotAt (.tridiag t) i - δ t i) * blockAt x t (permAt p i) = blockAt b t (permAt p i) := by
  have hd := declared_of h hf
  rw [factorize_eq hd] at hfac
  obtain ⟨x, δ, h1, h2, h3, h4⟩ := C35_solve _ _ (emptied_valid h) T N f hd _ (fits_of hm) reg method f' hfac
    (pivots_of hpiv) _ (vector_of hb)
  refine ⟨x.tridiag, fun t => δ (.tridiag t), ?_, (of_vector h2).2, fun t ht i hi => ?_, fun t ht i hi => ?_⟩
  · unfold tridiagonalSolveInPlace
    rw [h1]
    rfl
  · exact h3.1 _ (tridiag_mem ht) i hi
  · have := h4 _ (tridiag_mem ht) i hi
    rw [sum_tridiag (fun c j => (tridiagonalMatrix n N A B).symElement N (.tridiag t) c _ j * x.at c j)] at this
    refine Eq.trans ?_ this
    congr 1
    refine sum_congr rfl fun u hu => sum_congr rfl fun j _ => ?_
    rw [symElement_eq hm.numB ht (mem_range.mp hu)]
    rfl

/-- C37: without regularization `solveInPlace` solves the assembled system. -/
theorem C37_solve_unregularized [Field K] (spA spB : Sparsity) (p : List Nat) (n : Nat)
    (h : ValidTridiagonal spA spB p n) (N : Nat) (f : ArrowheadFactor K) (T : ArrowheadTypes)
    (hf : TridiagonalDeclared f spA spB p T n N) (A B : List (MatIn K)) (hm : TridiagonalFits A B p T n N)
    (method : Method) (f' : ArrowheadFactor K)
    (hfac : tridiagonalFactorize n f A B regularizationNone method = .ok f')
    (hpiv : ∀ t < N + 1, ∀ i < n, f'.pivotAt (.tridiag t) i ≠ 0) (b : List (List K)) (hb : BlockVector b n N) :
    ∃ x, tridiagonalSolveInPlace f' b = .ok x ∧ BlockVector x n N ∧ ∀ t < N + 1, ∀ i < n,
      ∑ u ∈ range (N + 1), ∑ j ∈ range n, tridiagonalSym A B t u i j * blockAt x u j = blockAt b t i := by
  obtain ⟨x, δ, h1, h2, h3, h4⟩ := C37_solve spA spB p n h N f T hf A B hm _ method f' hfac hpiv b hb
  refine ⟨x, h1, h2, fun t ht k hk => ?_⟩
  obtain ⟨i, hi, rfl⟩ := h.perm.surj hk
  have := h4 t ht i hi
  rwa [show f'.pivotAt (.tridiag t) i = δ t i from h3 t ht i hi, sub_self, zero_mul, add_zero] at this

/-- C37: that solution is the only one. -/
theorem C37_solve_unique [Field K] (spA spB : Sparsity) (p : List Nat) (n : Nat)
    (h : ValidTridiagonal spA spB p n) (N : Nat) (f : ArrowheadFactor K) (T : ArrowheadTypes)
    (hf : TridiagonalDeclared f spA spB p T n N) (A B : List (MatIn K)) (hm : TridiagonalFits A B p T n N)
    (method : Method) (f' : ArrowheadFactor K)
    (hfac : tridiagonalFactorize n f A B regularizationNone method = .ok f')
    (hpiv : ∀ t < N + 1, ∀ i < n, f'.pivotAt (.tridiag t) i ≠ 0) (x b : List (List K)) (hx : BlockVector x n N)
    (hb : BlockVector b n N)
    (heq : ∀ t < N + 1, ∀ i < n,
      ∑ u ∈ range (N + 1), ∑ j ∈ range n, tridiagonalSym A B t u i j * blockAt x u j = blockAt b t i) :
    tridiagonalSolveInPlace f' b = .ok x := by
  have hd := declared_of h hf
  rw [factorize_eq hd] at hfac
  have := C35_solve_unique _ _ (emptied_valid h) T N f hd _ (fits_of hm) method f' hfac (pivots_of hpiv) _ _
    (vector_of hx) (vector_of hb) (fun a ha i hi => by
      cases a with
      | start => cases hi
      | link => cases hi
      | outer => cases hi
      | tridiag t =>
        have ht := mem_blocks.mp ha t rfl
        rw [sum_tridiag (fun c j => (tridiagonalMatrix n N A B).symElement N (.tridiag t) c i j *
          (⟨[], x, [], []⟩ : ArrowheadVector K).at c j)]
        refine Eq.trans ?_ (heq t ht i hi)
        refine sum_congr rfl fun u hu => sum_congr rfl fun j _ => ?_
        rw [symElement_eq hm.numB ht (mem_range.mp hu)]
        rfl)
  unfold tridiagonalSolveInPlace
  rw [this]
  rfl

/-- C37: multiplying a block vector with the block tridiagonal matrix and solving returns it, under the conditions of
C36. -/
theorem C37_round_trip [Field K] (spA spB : Sparsity) (p : List Nat) (n : Nat)
    (h : ValidTridiagonal spA spB p n) (N : Nat) (f : ArrowheadFactor K) (T : ArrowheadTypes)
    (hf : TridiagonalDeclared f spA spB p T n N) (A B : List (MatIn K)) (hm : TridiagonalFits A B p T n N)
    (hA : A.length = N + 1) (hB : B.length = N)
    (hAn : ∀ m ∈ A, m.sparsity.entries.Nodup ∧ ∀ e ∈ m.sparsity.entries, e.col ≤ e.row)
    (hBn : ∀ m ∈ B, m.sparsity.entries.Nodup) (method : Method) (f' : ArrowheadFactor K)
    (hfac : tridiagonalFactorize n f A B regularizationNone method = .ok f')
    (hpiv : ∀ t < N + 1, ∀ i < n, f'.pivotAt (.tridiag t) i ≠ 0) (x z : List (List K)) (hx : BlockVector x n N)
    (hz : BlockVector z n N) (hz0 : ∀ t i, blockAt z t i = 0) :
    ∃ b, multiplyRepeatingBlockTridiagonal A B x z = .ok b ∧ tridiagonalSolveInPlace f' b = .ok x := by
  have mk : ∀ {q : MatIn K}, q.Sized → q.sparsity.OfDims n n → q.OfSize n n := by
    rintro q h1 ⟨h2, h3, h4⟩
    refine ⟨h1, fun e he => ?_⟩
    have := h2 e he
    rw [h3, h4] at this
    exact this
  obtain ⟨b, h1, h2, h3, h4⟩ := C33_tridiagonal A B x z n N hA hB hx.num hz.num
    (fun q hq => by
      obtain ⟨t, ht, rfl⟩ := List.getElem_of_mem hq
      rw [getElem_eq_getD ht (.empty K)]
      obtain ⟨h1, h2, -⟩ := hm.diag t (by omega)
      exact mk h1 h2)
    (fun q hq => by
      obtain ⟨t, ht, rfl⟩ := List.getElem_of_mem hq
      rw [getElem_eq_getD ht (.empty K)]
      obtain ⟨h1, h2, -⟩ := hm.subdiag t (by omega)
      exact mk h1 h2) hx.size hz.size
  refine ⟨b, h1, C37_solve_unique spA spB p n h N f T hf A B hm method f' hfac hpiv x b hx ⟨h2, h3⟩ fun t ht i hi => ?_⟩
  rw [h4 t ht i hi, hz0, zero_add]
  refine sum_congr rfl fun u hu => sum_congr rfl fun j _ => ?_
  congr 1
  unfold tridiagonalSym tridiagonalElement
  have hu' := mem_range.mp hu
  by_cases h1 : t = u
  · rw [if_pos h1, if_pos h1]
    obtain ⟨h5, h6⟩ := hAn _ (getD_mem (v := A) (i := t) (by omega) (.empty K))
    exact (symmetrized_eq_sym h5 h6 i j).symm
  · rw [if_neg h1, if_neg h1]
    by_cases h2 : t = u + 1
    · rw [if_pos h2, if_pos h2]
      exact (dense_eq_elem (hBn _ (getD_mem (v := B) (i := u) (by omega) (.empty K))) i j).symm
    · rw [if_neg h2, if_neg h2]
      by_cases h3 : u = t + 1
      · rw [if_pos h3, if_pos h3]
        exact (dense_eq_elem (hBn _ (getD_mem (v := B) (i := t) (by omega) (.empty K))) j i).symm
      · rw [if_neg h3, if_neg h3]

/-! ### The hypotheses can be met -/

def tridiagA : Sparsity := ⟨2, 2, [⟨0, 0⟩, ⟨1, 0⟩, ⟨1, 1⟩]⟩
def tridiagB : Sparsity := ⟨2, 2, [⟨0, 1⟩]⟩

theorem tridiag_valid : ValidTridiagonal tridiagA tridiagB [1, 0] 2 :=
  ⟨⟨by unfold Sparsity.InRange; decide, rfl, rfl⟩, ⟨by unfold Sparsity.InRange; decide, rfl, rfl⟩,
    by unfold IsPerm; decide, by decide⟩

example : (do
    let s ← tridiagonalSparsity tridiagA tridiagB [1, 0]
    let T ← arrowheadTypes s
    let A : List (MatIn ℚ) := [⟨tridiagA, [3, 1, 4]⟩, ⟨tridiagA, [5, 1, 4]⟩, ⟨tridiagA, [5, 2, 6]⟩]
    let B : List (MatIn ℚ) := [⟨tridiagB, [1]⟩, ⟨tridiagB, [-1]⟩]
    let f ← tridiagonalFactorize 2 (freshFactor s T ⟨0, 2, 0, 0⟩ 2 (17 : ℚ)) A B regularizationNone .upLooking
    let b ← multiplyRepeatingBlockTridiagonal A B [[1, 2], [3, 4], [5, 6]] [[0, 0], [0, 0], [0, 0]]
    let x ← tridiagonalSolveInPlace f b
    return (f.tridiagDiag.map DiagFactor.D, b, x) : Res _) =
    .ok ([[4, 11 / 4], [4, 197 / 44], [6, 2405 / 591]], [[5, 12], [21, 14], [33, 46]], [[1, 2], [3, 4], [5, 6]]) := by
  decide +kernel

end Ctldl
