import Verif.Lemmas.Inertia
import Verif.Lemmas.TridiagonalPositions
import Verif.Props.Definite
import Verif.Props.Tridiagonal

/-! # C69: pivots tell determinant and inertia -/

namespace Ctldl

open Finset

variable {K : Type}

/-! ### Single matrices -/

/-- C69: without regularization the product of the pivots is the determinant of the matrix, if no pivot divided by is
zero. -/
theorem C69_determinant [Field K] (s : Sparsity) (p : List Nat) (hv : ValidSparsity s p)
    (f : DiagFactor K) (hf : f.Declared s p) (m : MatIn K) (hm : m.Fits s p) (method : Method) (f' : DiagFactor K)
    (h : f.factorize m regularizationNone method = .ok f')
    (hpiv : ∀ i j, f'.sparsity.toSparsity.Has i j → f'.pivot j ≠ 0) :
    ∏ i ∈ range s.numRows, f'.pivot i = detOn (range s.numRows) m.sym := by
  obtain ⟨p1, p2, p3⟩ := perm_facts hv.perm
  have hx := (leadingExact_factorize hv hf hm regularizationNone method h).2.unit
  exact (detOn_of_ldlt hx (fun i hi j hj => C28_none s p hv f hf m hm method f' h hpiv i (mem_range.mp hi) j
    (mem_range.mp hj)) p1 p2 p3).symm

/-- C69: without regularization the numbers of negative and of positive pivots are the negative and the positive index
of inertia of the matrix, if no pivot divided by is zero. -/
theorem C69_inertia [Field K] [LinearOrder K] [IsStrictOrderedRing K] (s : Sparsity) (p : List Nat)
    (hv : ValidSparsity s p) (f : DiagFactor K) (hf : f.Declared s p) (m : MatIn K) (hm : m.Fits s p)
    (method : Method) (f' : DiagFactor K) (h : f.factorize m regularizationNone method = .ok f')
    (hpiv : ∀ i j, f'.sparsity.toSparsity.Has i j → f'.pivot j ≠ 0) :
    NegativeIndex (range s.numRows) m.sym ((range s.numRows).filter fun i => f'.pivot i < 0).card ∧
      PositiveIndex (range s.numRows) m.sym ((range s.numRows).filter fun i => 0 < f'.pivot i).card := by
  obtain ⟨p1, p2, p3⟩ := perm_facts hv.perm
  have hx := (leadingExact_factorize hv hf hm regularizationNone method h).2.unit
  exact index_of_ldlt hx (fun i hi j hj => C28_none s p hv f hf m hm method f' h hpiv i (mem_range.mp hi) j
    (mem_range.mp hj)) p1 p2 p3

/-- C69: the product of the pivots and the numbers of negative and positive ones depend neither on the permutation nor
on the declared pattern, the method or the contents of the factor object before. -/
theorem C69_independent [Field K] [LinearOrder K] [IsStrictOrderedRing K] (s t : Sparsity) (p q : List Nat)
    (hv : ValidSparsity s p) (hw : ValidSparsity t q) (hn : s.numRows = t.numRows)
    (f : DiagFactor K) (hf : f.Declared s p) (g : DiagFactor K) (hg : g.Declared t q)
    (m m' : MatIn K) (hm : m.Fits s p) (hm' : m'.Fits t q) (hlow : ∀ i j, j ≤ i → m.elem i j = m'.elem i j)
    (method method' : Method) (f' g' : DiagFactor K) (h : f.factorize m regularizationNone method = .ok f')
    (h' : g.factorize m' regularizationNone method' = .ok g')
    (hpiv : ∀ i j, f'.sparsity.toSparsity.Has i j → f'.pivot j ≠ 0)
    (hpiv' : ∀ i j, g'.sparsity.toSparsity.Has i j → g'.pivot j ≠ 0) :
    ∏ i ∈ range s.numRows, f'.pivot i = ∏ i ∈ range s.numRows, g'.pivot i ∧
    ((range s.numRows).filter fun i => f'.pivot i < 0).card = ((range s.numRows).filter fun i => g'.pivot i < 0).card ∧
    ((range s.numRows).filter fun i => 0 < f'.pivot i).card =
      ((range s.numRows).filter fun i => 0 < g'.pivot i).card := by
  have hsym : m.sym = m'.sym := by
    funext i j
    exact hlow _ _ (by omega)
  have a1 := C69_determinant s p hv f hf m hm method f' h hpiv
  have a2 := C69_determinant t q hw g hg m' hm' method' g' h' hpiv'
  have b1 := C69_inertia s p hv f hf m hm method f' h hpiv
  have b2 := C69_inertia t q hw g hg m' hm' method' g' h' hpiv'
  rw [← hn, ← hsym] at a2 b2
  exact ⟨a1.trans a2.symm, b1.1.unique b2.1, b1.2.unique b2.2⟩

/-- C69: for real matrices, these are the numbers of negative and positive eigenvalues. -/
theorem C69_eigenvalues (s : Sparsity) (p : List Nat) (hv : ValidSparsity s p) (f : DiagFactor ℝ) (hf : f.Declared s p)
    (m : MatIn ℝ) (hm : m.Fits s p) (method : Method) (f' : DiagFactor ℝ)
    (h : f.factorize m regularizationNone method = .ok f')
    (hpiv : ∀ i j, f'.sparsity.toSparsity.Has i j → f'.pivot j ≠ 0) :
    ∃ hH : (Matrix.of fun i j : range s.numRows => m.sym i j).IsHermitian,
      ((range s.numRows).filter fun i => f'.pivot i < 0).card = (univ.filter fun i => hH.eigenvalues i < 0).card ∧
      ((range s.numRows).filter fun i => 0 < f'.pivot i).card = (univ.filter fun i => 0 < hH.eigenvalues i).card := by
  have hH : (Matrix.of fun i j : range s.numRows => m.sym i j).IsHermitian := by
    ext i j
    exact sym_comm m _ _
  have b1 := C69_inertia s p hv f hf m hm method f' h hpiv
  have b2 := index_of_eigenvalues hH
  exact ⟨hH, b1.1.unique b2.1, b1.2.unique b2.2⟩

/-! ### Repeating block matrices -/

private theorem assembled_ldlt [Field K] {s : ArrowheadSparsity} {d : Dims} (hs : s.Valid d) {T : ArrowheadTypes} {N : Nat}
    {f : ArrowheadFactor K} (hf : f.Declared s T d N) {m : ArrowheadMatrix K} (hm : m.Fits s T d N)
    {method : Method} {f' : ArrowheadFactor K}
    (h : f.factorize d.tridiag d.link d.outer m regularizationNone method = .ok f')
    (hpiv : ∀ a b i j, T.Has N a i b j → f'.pivotAt b j ≠ 0) :
    ∀ x ∈ positions d N, ∀ y ∈ positions d N, ∑ r ∈ positions d N, f'.lowerElement N x.1 r.1 x.2 r.2 *
      f'.pivotAt r.1 r.2 * f'.lowerElement N y.1 r.1 y.2 r.2 = m.assembled N (s.permPos x) (s.permPos y) := by
  intro x hx y hy
  obtain ⟨x1, x2⟩ := mem_positions.mp hx
  obtain ⟨y1, y2⟩ := mem_positions.mp hy
  have := C34_none s d hs T N f hf m hm method f' h hpiv x.1 y.1 x1 y1 x.2 y.2 x2 y2
  unfold positions
  rw [sum_sigma]
  exact this

/-- C69: without regularization the product of all pivots of a repeating block matrix is the determinant of the
assembled matrix, if no pivot divided by is zero. -/
theorem C69_repeating_determinant [Field K] (s : ArrowheadSparsity) (d : Dims) (hs : s.Valid d) (T : ArrowheadTypes)
    (N : Nat) (f : ArrowheadFactor K) (hf : f.Declared s T d N) (m : ArrowheadMatrix K) (hm : m.Fits s T d N)
    (method : Method) (f' : ArrowheadFactor K)
    (h : f.factorize d.tridiag d.link d.outer m regularizationNone method = .ok f')
    (hpiv : ∀ a b i j, T.Has N a i b j → f'.pivotAt b j ≠ 0) :
    ∏ a ∈ blocks N, ∏ i ∈ range (d.of a), f'.pivotAt a i = detOn (positions d N) (m.assembled N) := by
  obtain ⟨p1, p2, p3⟩ := permPos_facts hs N
  have hx := (leadingExact_assembled hs hf hm regularizationNone method h).2.unit
  rw [detOn_of_ldlt hx (assembled_ldlt hs hf hm h hpiv) p1 p2 p3]
  unfold positions
  rw [prod_sigma]

/-- C69: without regularization the numbers of negative and of positive pivots of a repeating block matrix are the
negative and the positive index of inertia of the assembled matrix, if no pivot divided by is zero. -/
theorem C69_repeating_inertia [Field K] [LinearOrder K] [IsStrictOrderedRing K] (s : ArrowheadSparsity) (d : Dims)
    (hs : s.Valid d) (T : ArrowheadTypes) (N : Nat) (f : ArrowheadFactor K) (hf : f.Declared s T d N)
    (m : ArrowheadMatrix K) (hm : m.Fits s T d N) (method : Method) (f' : ArrowheadFactor K)
    (h : f.factorize d.tridiag d.link d.outer m regularizationNone method = .ok f')
    (hpiv : ∀ a b i j, T.Has N a i b j → f'.pivotAt b j ≠ 0) :
    NegativeIndex (positions d N) (m.assembled N) ((positions d N).filter fun x => f'.pivotAt x.1 x.2 < 0).card ∧
      PositiveIndex (positions d N) (m.assembled N) ((positions d N).filter fun x => 0 < f'.pivotAt x.1 x.2).card := by
  obtain ⟨p1, p2, p3⟩ := permPos_facts hs N
  have hx := (leadingExact_assembled hs hf hm regularizationNone method h).2.unit
  exact index_of_ldlt hx (assembled_ldlt hs hf hm h hpiv) p1 p2 p3

/-- C69: also for repeating block matrices, the product of the pivots and the numbers of negative and positive ones
depend neither on the permutations nor on the declared patterns, the method or the contents of the factor object. -/
theorem C69_repeating_independent [Field K] [LinearOrder K] [IsStrictOrderedRing K] (s t : ArrowheadSparsity) (d : Dims)
    (hs : s.Valid d) (ht : t.Valid d) (T U : ArrowheadTypes) (N : Nat) (f g : ArrowheadFactor K)
    (hf : f.Declared s T d N) (hg : g.Declared t U d N) (m m' : ArrowheadMatrix K) (hm : m.Fits s T d N)
    (hm' : m'.Fits t U d N) (heq : ∀ x ∈ positions d N, ∀ y ∈ positions d N, m.assembled N x y = m'.assembled N x y)
    (method method' : Method) (f' g' : ArrowheadFactor K)
    (h : f.factorize d.tridiag d.link d.outer m regularizationNone method = .ok f')
    (h' : g.factorize d.tridiag d.link d.outer m' regularizationNone method' = .ok g')
    (hpiv : ∀ a b i j, T.Has N a i b j → f'.pivotAt b j ≠ 0)
    (hpiv' : ∀ a b i j, U.Has N a i b j → g'.pivotAt b j ≠ 0) :
    ∏ a ∈ blocks N, ∏ i ∈ range (d.of a), f'.pivotAt a i = ∏ a ∈ blocks N, ∏ i ∈ range (d.of a), g'.pivotAt a i ∧
    ((positions d N).filter fun x => f'.pivotAt x.1 x.2 < 0).card =
      ((positions d N).filter fun x => g'.pivotAt x.1 x.2 < 0).card ∧
    ((positions d N).filter fun x => 0 < f'.pivotAt x.1 x.2).card =
      ((positions d N).filter fun x => 0 < g'.pivotAt x.1 x.2).card := by
  have a1 := C69_repeating_determinant s d hs T N f hf m hm method f' h hpiv
  have a2 := C69_repeating_determinant t d ht U N g hg m' hm' method' g' h' hpiv'
  have b1 := C69_repeating_inertia s d hs T N f hf m hm method f' h hpiv
  have b2 := C69_repeating_inertia t d ht U N g hg m' hm' method' g' h' hpiv'
  have e : detOn (positions d N) (m.assembled N) = detOn (positions d N) (m'.assembled N) := by
    unfold detOn
    congr 2
    funext x y
    exact heq x x.2 y y.2
  have eq : quadratic (positions d N) (m.assembled N) = quadratic (positions d N) (m'.assembled N) := by
    funext v
    exact sum_congr rfl fun x _ => sum_congr rfl fun y _ => by rw [heq x x.2 y y.2]
  unfold NegativeIndex PositiveIndex at b1
  rw [eq] at b1
  exact ⟨a1.trans (e.trans a2.symm), b1.1.unique b2.1, b1.2.unique b2.2⟩

/-- C69: for real matrices, these are the numbers of negative and positive eigenvalues of the assembled matrix. -/
theorem C69_repeating_eigenvalues (s : ArrowheadSparsity) (d : Dims)
    (hs : s.Valid d) (T : ArrowheadTypes) (N : Nat) (f : ArrowheadFactor ℝ) (hf : f.Declared s T d N)
    (m : ArrowheadMatrix ℝ) (hm : m.Fits s T d N) (method : Method) (f' : ArrowheadFactor ℝ)
    (h : f.factorize d.tridiag d.link d.outer m regularizationNone method = .ok f')
    (hpiv : ∀ a b i j, T.Has N a i b j → f'.pivotAt b j ≠ 0) :
    ∃ hH : (Matrix.of fun x y : positions d N => m.assembled N x y).IsHermitian,
      ((positions d N).filter fun x => f'.pivotAt x.1 x.2 < 0).card = (univ.filter fun i => hH.eigenvalues i < 0).card ∧
      ((positions d N).filter fun x => 0 < f'.pivotAt x.1 x.2).card =
        (univ.filter fun i => 0 < hH.eigenvalues i).card := by
  have hH : (Matrix.of fun x y : positions d N => m.assembled N x y).IsHermitian := by
    ext x y
    exact assembled_symm hs hm _ _ y.2 x.2
  have b1 := C69_repeating_inertia s d hs T N f hf m hm method f' h hpiv
  have b2 := index_of_eigenvalues hH
  exact ⟨hH, b1.1.unique b2.1, b1.2.unique b2.2⟩

/-! ### Repeating block tridiagonal matrices -/

open Tridiagonal

/-- C69: the same for the class for block tridiagonal matrices. -/
theorem C69_tridiagonal [Field K] [LinearOrder K] [IsStrictOrderedRing K] (spA spB : Sparsity) (p : List Nat) (n : Nat)
    (h : ValidTridiagonal spA spB p n) (N : Nat) (f : ArrowheadFactor K) (T : ArrowheadTypes)
    (hf : TridiagonalDeclared f spA spB p T n N) (A B : List (MatIn K)) (hm : TridiagonalFits A B p T n N)
    (method : Method) (f' : ArrowheadFactor K)
    (hfac : tridiagonalFactorize n f A B regularizationNone method = .ok f')
    (hpiv : ∀ a b i j, T.Has N a i b j → f'.pivotAt b j ≠ 0) :
    ∏ t ∈ range (N + 1), ∏ i ∈ range n, f'.pivotAt (.tridiag t) i =
      detOn (tridiagonalPositions n N) (tridiagonalAssembled A B) ∧
    NegativeIndex (tridiagonalPositions n N) (tridiagonalAssembled A B)
      ((tridiagonalPositions n N).filter fun k => f'.pivotAt (.tridiag k.1) k.2 < 0).card ∧
    PositiveIndex (tridiagonalPositions n N) (tridiagonalAssembled A B)
      ((tridiagonalPositions n N).filter fun k => 0 < f'.pivotAt (.tridiag k.1) k.2).card := by
  have hd := declared_of h hf
  rw [factorize_eq hd] at hfac
  have hx := (leadingExact_assembled (emptied_valid h) hd (fits_of hm) regularizationNone method hfac).2.unit
  have hl := assembled_ldlt (emptied_valid h) hd (fits_of hm) hfac hpiv
  have hu : UnitLower (tridiagonalPositions n N) (fun k => posRank ⟨0, n, 0, 0⟩ N ⟨.tridiag k.1, k.2⟩)
      (fun k l => f'.lowerElement N (.tridiag k.1) (.tridiag l.1) k.2 l.2) := by
    refine ⟨fun x h1 y h2 h3 => ?_, fun x h1 => hx.one _ (position_mem h1),
      fun x h1 y h2 h3 => hx.zero _ (position_mem h1) _ (position_mem h2) h3⟩
    have := hx.inj _ (position_mem h1) _ (position_mem h2) h3
    simp only [Sigma.mk.injEq, Blk.tridiag.injEq, heq_eq_eq] at this
    exact Prod.ext this.1 this.2
  obtain ⟨q1, q2, q3⟩ := perm_facts h.perm
  have p1 : ∀ k ∈ tridiagonalPositions n N, (k.1, permAt p k.2) ∈ tridiagonalPositions n N := fun k hk =>
    mem_positions'.mpr ⟨(mem_positions'.mp hk).1, mem_range.mp (q1 _ (mem_range.mpr (mem_positions'.mp hk).2))⟩
  have p2 : ∀ k ∈ tridiagonalPositions n N, ∀ l ∈ tridiagonalPositions n N,
      (k.1, permAt p k.2) = (l.1, permAt p l.2) → k = l := fun k hk l hl hkl => by
    simp only [Prod.mk.injEq] at hkl
    exact Prod.ext hkl.1 (q2 _ (mem_range.mpr (mem_positions'.mp hk).2) _ (mem_range.mpr (mem_positions'.mp hl).2) hkl.2)
  have p3 : ∀ k ∈ tridiagonalPositions n N, ∃ l ∈ tridiagonalPositions n N, (l.1, permAt p l.2) = k := fun k hk => by
    obtain ⟨j, hj, e⟩ := q3 k.2 (mem_range.mpr (mem_positions'.mp hk).2)
    exact ⟨(k.1, j), mem_positions'.mpr ⟨(mem_positions'.mp hk).1, mem_range.mp hj⟩, Prod.ext rfl e⟩
  have hA : ∀ k ∈ tridiagonalPositions n N, ∀ l ∈ tridiagonalPositions n N,
      ∑ r ∈ tridiagonalPositions n N, f'.lowerElement N (.tridiag k.1) (.tridiag r.1) k.2 r.2 *
        f'.pivotAt (.tridiag r.1) r.2 * f'.lowerElement N (.tridiag l.1) (.tridiag r.1) l.2 r.2 =
      tridiagonalAssembled A B (k.1, permAt p k.2) (l.1, permAt p l.2) := fun k hk l hl' => by
    have := hl _ (position_mem hk) _ (position_mem hl')
    rw [sum_positions] at this
    rw [this]
    exact symElement_eq hm.numB (mem_positions'.mp hk).1 (mem_positions'.mp hl').1 _ _
  refine ⟨?_, index_of_ldlt hu hA p1 p2 p3⟩
  rw [detOn_of_ldlt hu hA p1 p2 p3]
  unfold tridiagonalPositions
  rw [prod_product]

/-! ### The hypotheses can be met -/

/-- The indefinite matrix of C48 has determinant -67, one negative and two positive indices of inertia. -/
example : detOn (range 3) quasiM.sym = -67 ∧ NegativeIndex (range 3) quasiM.sym 1 ∧
    PositiveIndex (range 3) quasiM.sym 2 := by
  have hm : quasiM.Fits witnessS [0, 2, 1] :=
    ⟨rfl, witness_valid.inRange, rfl, rfl, fun i j h => .base h h.1⟩
  obtain ⟨f', h, hd⟩ := C25_factorize_total witnessS [0, 2, 1] witness_valid witnessF witness_declared quasiM
    hm regularizationNone .upLooking
  have h0 : (do let f ← witnessF.factorize quasiM regularizationNone .upLooking; return f.D : Res _) =
    .ok [4, -6, 67 / 24] := by decide +kernel
  rw [h] at h0
  have hD : f'.D = [4, -6, 67 / 24] := Except.ok.inj h0
  have hpiv : ∀ i j, f'.sparsity.toSparsity.Has i j → f'.pivot j ≠ 0 := by
    intro i j hij
    have hp := hd.pattern
    rw [witness_declared.pattern] at hp
    rw [← Except.ok.inj hp] at hij
    have hj : j < 2 := (by decide : ∀ e ∈ witnessF.sparsity.entries, e.col < 2) _ hij
    unfold DiagFactor.pivot
    rw [hD]
    exact (by decide +kernel : ∀ j < 2, ([4, -6, 67 / 24] : List ℚ).getD j 0 ≠ 0) j hj
  have h1 := C69_determinant witnessS [0, 2, 1] witness_valid witnessF witness_declared quasiM hm .upLooking f' h hpiv
  have h2 := C69_inertia witnessS [0, 2, 1] witness_valid witnessF witness_declared quasiM hm .upLooking f' h hpiv
  unfold DiagFactor.pivot at h1 h2
  rw [hD] at h1 h2
  have e1 : ((range witnessS.numRows).filter fun i => ([4, -6, 67 / 24] : List ℚ).getD i 0 < 0).card = 1 := by
    decide +kernel
  have e2 : ((range witnessS.numRows).filter fun i => 0 < ([4, -6, 67 / 24] : List ℚ).getD i 0).card = 2 := by
    decide +kernel
  rw [e1, e2] at h2
  exact ⟨h1.symm.trans (by decide +kernel), h2⟩

/-- A singular matrix meets the hypotheses too: only the last pivot is zero, which no other one is divided by. -/
example : (do
    let f ← (⟨csrOf ⟨2, 2, [⟨1, 0⟩]⟩, [0, 1], [7], [8, 9]⟩ : DiagFactor ℚ).factorize
      ⟨⟨2, 2, [⟨0, 0⟩, ⟨1, 0⟩, ⟨1, 1⟩]⟩, [4, 2, 1]⟩ regularizationNone .entryWise
    return f.D : Res _) = .ok [4, 0] := by
  decide +kernel

/-- An indefinite block tridiagonal matrix, with two negative pivots. -/
example : (do
    let s ← tridiagonalSparsity tridiagA tridiagB [1, 0]
    let T ← arrowheadTypes s
    let A : List (MatIn ℚ) := [⟨tridiagA, [3, 1, 4]⟩, ⟨tridiagA, [5, 1, -4]⟩, ⟨tridiagA, [-5, 2, 6]⟩]
    let B : List (MatIn ℚ) := [⟨tridiagB, [1]⟩, ⟨tridiagB, [-1]⟩]
    let f ← tridiagonalFactorize 2 (freshFactor s T ⟨0, 2, 0, 0⟩ 2 (17 : ℚ)) A B regularizationNone .upLooking
    return (f.tridiagDiag.map DiagFactor.D) : Res _) =
    .ok [[4, 11 / 4], [-4, 219 / 44], [6, -1189 / 219]] := by
  decide +kernel

end Ctldl
