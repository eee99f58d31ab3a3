import Verif.Lemmas.ArrowheadSolveExact
import Verif.Props.Arrowhead
import Verif.Props.RoundTrip

/-! # C35, C36: solving with repeating block tridiagonal arrowhead linked matrices -/

namespace Ctldl

open Finset

variable {K : Type}

private theorem typesOk {s : ArrowheadSparsity} {T : ArrowheadTypes} {d : Dims} (hs : s.Valid d)
    (hT : arrowheadTypes s = .ok T) : TypesOk s T d := by
  obtain ⟨T', h, h'⟩ := arrowheadTypes_sat hs
  rw [hT] at h
  cases h
  exact h'

/-! ### C35 -/

/-- C35: for any arithmetic and any stored values, `solveInPlace` and its three parts succeed on right-hand sides of
the right size, for every number of repetitions, and return vectors of that size. -/
theorem C35_solve_total [Zero K] [Sub K] [Mul K] [Div K] (s : ArrowheadSparsity) (d : Dims) (hs : s.Valid d)
    (T : ArrowheadTypes) (N : Nat) (f : ArrowheadFactor K) (hf : f.Declared s T d N) (b : ArrowheadVector K)
    (hb : b.OfSize d N) :
    (∃ x, f.solveInPlace b = .ok x ∧ x.OfSize d N) ∧ (∃ x, f.forwardSolve b = .ok x ∧ x.OfSize d N) ∧
      (∃ x, f.diagonalSolve b = .ok x ∧ x.OfSize d N) ∧ ∃ x, f.backwardSolve b = .ok x ∧ x.OfSize d N := by
  have hT := typesOk hs hf.types
  have h1 : ∀ b : ArrowheadVector K, b.OfSize d N → ∃ x, f.forwardSolve b = .ok x ∧ x.OfSize d N := fun b hb =>
    let ⟨x, h, h', _⟩ := forwardSolve_steps hs hT hf hb
    ⟨x, h, h'⟩
  have h2 : ∀ b : ArrowheadVector K, b.OfSize d N → ∃ x, f.diagonalSolve b = .ok x ∧ x.OfSize d N := fun b hb =>
    let ⟨x, h, h', _⟩ := arrowheadDiagonalSolve_sat hs hT hf hb
    ⟨x, h, h'⟩
  have h3 : ∀ b : ArrowheadVector K, b.OfSize d N → ∃ x, f.backwardSolve b = .ok x ∧ x.OfSize d N := fun b hb =>
    let ⟨x, h, h', _⟩ := backwardSolve_steps hs hT hf hb
    ⟨x, h, h'⟩
  refine ⟨?_, h1 b hb, h2 b hb, h3 b hb⟩
  obtain ⟨y, hy, ly⟩ := h1 b hb
  obtain ⟨z, hz, lz⟩ := h2 y ly
  obtain ⟨x, hx, lx⟩ := h3 z lz
  refine ⟨x, ?_, lx⟩
  unfold ArrowheadFactor.solveInPlace
  rw [hy, ok_bind, hz, ok_bind, hx]

/-- C25: also for repeating block matrices factorizing and solving perform only accesses in range and raise no
assertion, for any arithmetic, any previous content and any values. -/
theorem C25_repeating_total [Zero K] [Sub K] [Mul K] [Div K] (s : ArrowheadSparsity) (d : Dims) (hs : s.Valid d)
    (T : ArrowheadTypes) (N : Nat) (f : ArrowheadFactor K) (hf : f.Declared s T d N) (m : ArrowheadMatrix K)
    (hm : m.Fits s T d N) (reg : K → Nat → K) (method : Method) :
    ∃ f', f.factorize d.tridiag d.link d.outer m reg method = .ok f' ∧ f'.Declared s T d N ∧
      ∀ b : ArrowheadVector K, b.OfSize d N → ∃ x, f'.solveInPlace b = .ok x ∧ x.OfSize d N := by
  obtain ⟨f', h1, h2⟩ := C21_factorize_total s d hs T N f hf m hm reg method
  exact ⟨f', h1, h2, fun b hb => (C35_solve_total s d hs T N f' h2 b hb).1⟩

/-- C35: `forwardSolve` solves with the assembled unit lower triangular matrix. -/
theorem C35_forward [Field K] (s : ArrowheadSparsity) (d : Dims) (hs : s.Valid d)
    (T : ArrowheadTypes) (N : Nat) (f : ArrowheadFactor K) (hf : f.Declared s T d N) (b : ArrowheadVector K)
    (hb : b.OfSize d N) :
    ∃ x, f.forwardSolve b = .ok x ∧ x.OfSize d N ∧ ∀ a ∈ blocks N, ∀ i < d.of a,
      ∑ c ∈ blocks N, ∑ j ∈ range (d.of c), f.lowerElement N a c i j * x.at c (permAt (s.perm c) j) =
        b.at a (permAt (s.perm a) i) :=
  forwardSolve_exact hs (typesOk hs hf.types) hf hb

/-- C35: `diagonalSolve` divides by the pivots, for any arithmetic. -/
theorem C35_diagonal [Zero K] [Sub K] [Mul K] [Div K] (s : ArrowheadSparsity) (d : Dims) (hs : s.Valid d)
    (T : ArrowheadTypes) (N : Nat) (f : ArrowheadFactor K) (hf : f.Declared s T d N) (b : ArrowheadVector K)
    (hb : b.OfSize d N) :
    ∃ x, f.diagonalSolve b = .ok x ∧ x.OfSize d N ∧ ∀ a ∈ blocks N, ∀ i < d.of a,
      x.at a (permAt (s.perm a) i) = b.at a (permAt (s.perm a) i) / f.pivotAt a i :=
  arrowheadDiagonalSolve_sat hs (typesOk hs hf.types) hf hb

/-- C35: `backwardSolve` solves with the transposed assembled unit lower triangular matrix. -/
theorem C35_backward [Field K] (s : ArrowheadSparsity) (d : Dims) (hs : s.Valid d)
    (T : ArrowheadTypes) (N : Nat) (f : ArrowheadFactor K) (hf : f.Declared s T d N) (b : ArrowheadVector K)
    (hb : b.OfSize d N) :
    ∃ x, f.backwardSolve b = .ok x ∧ x.OfSize d N ∧ ∀ a ∈ blocks N, ∀ i < d.of a,
      ∑ c ∈ blocks N, ∑ j ∈ range (d.of c), f.lowerElement N c a j i * x.at c (permAt (s.perm c) j) =
        b.at a (permAt (s.perm a) i) :=
  backwardSolve_exact hs (typesOk hs hf.types) hf hb

private theorem sum_original [Field K] {s : ArrowheadSparsity} {d : Dims} (hs : s.Valid d) (N : Nat)
    (F : Blk → Nat → K) :
    ∑ b ∈ blocks N, ∑ j ∈ range (d.of b), F b (permAt (s.perm b) j) =
      ∑ b ∈ blocks N, ∑ j ∈ range (d.of b), F b j :=
  sum_congr rfl fun b _ => sum_perm (valid_perm hs b) (F b)

/-- C35: after a factorization without zero pivots, `solveInPlace` returns the solution of the system with the
assembled matrix in its original order, where each regularized pivot adds its change to the diagonal. -/
theorem C35_solve [Field K] (s : ArrowheadSparsity) (d : Dims) (hs : s.Valid d) (T : ArrowheadTypes) (N : Nat)
    (f : ArrowheadFactor K) (hf : f.Declared s T d N) (m : ArrowheadMatrix K) (hm : m.Fits s T d N)
    (reg : K → Nat → K) (method : Method) (f' : ArrowheadFactor K)
    (h : f.factorize d.tridiag d.link d.outer m reg method = .ok f')
    (hpiv : ∀ a ∈ blocks N, ∀ i < d.of a, f'.pivotAt a i ≠ 0) (b : ArrowheadVector K) (hb : b.OfSize d N) :
    ∃ x δ, f'.solveInPlace b = .ok x ∧ x.OfSize d N ∧ f'.Reproduces m s d N reg δ ∧
      ∀ a ∈ blocks N, ∀ i < d.of a,
        ∑ c ∈ blocks N, ∑ j ∈ range (d.of c), m.symElement N a c (permAt (s.perm a) i) j * x.at c j +
          (f'.pivotAt a i - δ a i) * x.at a (permAt (s.perm a) i) = b.at a (permAt (s.perm a) i) := by
  have hT := typesOk hs hf.types
  obtain ⟨hd, hrows⟩ := Sat.of_ok (arrowheadFactorize_sat hs hT hf hm.matrixOk reg method) h
  obtain ⟨δ, hδ⟩ := reproduces_of_nonzero hT hd hm hrows hpiv
  obtain ⟨x, h1, h2, h3⟩ := arrowheadSolve_exact hs hT hd hpiv hb
  refine ⟨x, δ, h1, h2, hδ, fun a ha i hi => ?_⟩
  have := h3 a ha i hi
  refine Eq.trans ?_ this
  rw [← sum_original hs N (fun c j => m.symElement N a c (permAt (s.perm a) i) j * x.at c j)]
  have hterm : ∀ c ∈ blocks N, ∑ j ∈ range (d.of c), f'.ldlt d N a c i j * x.perm s c j =
      ∑ j ∈ range (d.of c), m.symElement N a c (permAt (s.perm a) i) (permAt (s.perm c) j) *
        x.at c (permAt (s.perm c) j) +
      if c = a then (f'.pivotAt a i - δ a i) * x.at a (permAt (s.perm a) i) else 0 := by
    intro c hc
    have : ∀ j ∈ range (d.of c), f'.ldlt d N a c i j * x.perm s c j =
        m.symElement N a c (permAt (s.perm a) i) (permAt (s.perm c) j) * x.at c (permAt (s.perm c) j) +
        if i = j then (if a = c then (f'.pivotAt a i - δ a i) * x.at c (permAt (s.perm c) j) else 0) else 0 := by
      intro j hj
      rw [hδ.2 a ha c hc i hi j (mem_range.mp hj), add_mul]
      congr 1
      by_cases h1 : a = c <;> by_cases h2 : i = j <;> simp [h1, h2, ArrowheadVector.perm]
    rw [sum_congr rfl this, sum_add_distrib, sum_ite_eq]
    congr 1
    by_cases hac : c = a
    · subst hac
      rw [if_pos (mem_range.mpr hi), if_pos rfl]
    · rw [if_neg hac, if_neg (Ne.symm hac), ite_self]
  rw [sum_congr rfl hterm, sum_add_distrib, sum_ite_eq', if_pos ha]

/-- C35: without regularization `solveInPlace` solves the assembled system. -/
theorem C35_solve_unregularized [Field K] (s : ArrowheadSparsity) (d : Dims) (hs : s.Valid d) (T : ArrowheadTypes)
    (N : Nat) (f : ArrowheadFactor K) (hf : f.Declared s T d N) (m : ArrowheadMatrix K) (hm : m.Fits s T d N)
    (method : Method) (f' : ArrowheadFactor K)
    (h : f.factorize d.tridiag d.link d.outer m regularizationNone method = .ok f')
    (hpiv : ∀ a ∈ blocks N, ∀ i < d.of a, f'.pivotAt a i ≠ 0) (b : ArrowheadVector K) (hb : b.OfSize d N) :
    ∃ x, f'.solveInPlace b = .ok x ∧ x.OfSize d N ∧ ∀ a ∈ blocks N, ∀ i < d.of a,
      ∑ c ∈ blocks N, ∑ j ∈ range (d.of c), m.symElement N a c i j * x.at c j = b.at a i := by
  obtain ⟨x, δ, h1, h2, h3, h4⟩ := C35_solve s d hs T N f hf m hm regularizationNone method f' h hpiv b hb
  refine ⟨x, h1, h2, fun a ha k hk => ?_⟩
  obtain ⟨i, hi, rfl⟩ := (valid_perm hs a).surj hk
  have := h4 a ha i hi
  rwa [show f'.pivotAt a i = δ a i from h3.1 a ha i hi, sub_self, zero_mul, add_zero] at this

/-- C35: that solution is the only one. -/
theorem C35_solve_unique [Field K] (s : ArrowheadSparsity) (d : Dims) (hs : s.Valid d) (T : ArrowheadTypes)
    (N : Nat) (f : ArrowheadFactor K) (hf : f.Declared s T d N) (m : ArrowheadMatrix K) (hm : m.Fits s T d N)
    (method : Method) (f' : ArrowheadFactor K)
    (h : f.factorize d.tridiag d.link d.outer m regularizationNone method = .ok f')
    (hpiv : ∀ a ∈ blocks N, ∀ i < d.of a, f'.pivotAt a i ≠ 0) (x b : ArrowheadVector K) (hx : x.OfSize d N)
    (hb : b.OfSize d N)
    (heq : ∀ a ∈ blocks N, ∀ i < d.of a,
      ∑ c ∈ blocks N, ∑ j ∈ range (d.of c), m.symElement N a c i j * x.at c j = b.at a i) :
    f'.solveInPlace b = .ok x := by
  have hT := typesOk hs hf.types
  obtain ⟨hd, hrows⟩ := Sat.of_ok (arrowheadFactorize_sat hs hT hf hm.matrixOk regularizationNone method) h
  obtain ⟨δ, hδ1, hδ2⟩ := reproduces_of_nonzero hT hd hm hrows hpiv
  obtain ⟨y, h1, h2, h3⟩ := C35_solve_unregularized s d hs T N f hf m hm method f' h hpiv b hb
  rw [h1]
  congr 1
  refine vector_ext h2 hx fun a ha k hk => ?_
  obtain ⟨i, hi, rfl⟩ := (valid_perm hs a).surj hk
  have hz := arrowhead_ldlt_inj hT hd hpiv
    (w := fun c j => y.at c (permAt (s.perm c) j) - x.at c (permAt (s.perm c) j)) (fun a ha i hi => by
      have hpi := (valid_perm hs a).lt hi
      have e := (h3 a ha _ hpi).trans (heq a ha _ hpi).symm
      rw [← sub_eq_zero, ← sum_sub_distrib] at e
      simp only [← sum_sub_distrib, ← mul_sub] at e
      rw [← sum_original hs N
        (fun c j => m.symElement N a c (permAt (s.perm a) i) j * (y.at c j - x.at c j))] at e
      rw [← e]
      refine sum_congr rfl fun c hc => sum_congr rfl fun j hj => ?_
      rw [hδ2 a ha c hc i hi j (mem_range.mp hj), show f'.pivotAt a i = δ a i from hδ1 a ha i hi, sub_self, ite_self,
        add_zero]) a ha i hi
  exact sub_eq_zero.mp hz

/-- C35: the solution depends neither on the permutations nor on the declared patterns nor on the method: two classes
with the same dimensions, given matrices with the same elements, return the same. -/
theorem C35_independent_of_permutation [Field K] (s t : ArrowheadSparsity) (d : Dims) (hs : s.Valid d) (ht : t.Valid d)
    (T U : ArrowheadTypes) (N : Nat) (f g : ArrowheadFactor K) (hf : f.Declared s T d N) (hg : g.Declared t U d N)
    (m m' : ArrowheadMatrix K) (hm : m.Fits s T d N) (hm' : m'.Fits t U d N)
    (hsame : ∀ a ∈ blocks N, ∀ b ∈ blocks N, ∀ i j, m.symElement N a b i j = m'.symElement N a b i j)
    (method method' : Method) (f' g' : ArrowheadFactor K)
    (h : f.factorize d.tridiag d.link d.outer m regularizationNone method = .ok f')
    (h' : g.factorize d.tridiag d.link d.outer m' regularizationNone method' = .ok g')
    (hpiv : ∀ a ∈ blocks N, ∀ i < d.of a, f'.pivotAt a i ≠ 0)
    (hpiv' : ∀ a ∈ blocks N, ∀ i < d.of a, g'.pivotAt a i ≠ 0) (b : ArrowheadVector K) (hb : b.OfSize d N) :
    ∃ x, f'.solveInPlace b = .ok x ∧ g'.solveInPlace b = .ok x := by
  obtain ⟨x, h1, h2, h3⟩ := C35_solve_unregularized s d hs T N f hf m hm method f' h hpiv b hb
  refine ⟨x, h1, C35_solve_unique t d ht U N g hg m' hm' method' g' h' hpiv' x b h2 hb fun a ha i hi => ?_⟩
  rw [← h3 a ha i hi]
  exact sum_congr rfl fun c hc => sum_congr rfl fun j _ => by rw [hsame a ha c hc]

/-- C35: with the small positive constant regularization `solveInPlace` always solves a system which differs from the
assembled one only in the diagonal elements whose pivots were below the tolerance. -/
theorem C35_small_positive_constant [Field K] [LinearOrder K] [IsStrictOrderedRing K]
    (s : ArrowheadSparsity) (d : Dims) (hs : s.Valid d) (T : ArrowheadTypes) (N : Nat)
    (f : ArrowheadFactor K) (hf : f.Declared s T d N) (m : ArrowheadMatrix K) (hm : m.Fits s T d N)
    (tol c : K) (ht : 0 < tol) (hc : 0 < c) (method : Method) (b : ArrowheadVector K) (hb : b.OfSize d N) :
    ∃ f' x, ∃ δ : Blk → Nat → K,
      f.factorize d.tridiag d.link d.outer m (regularizationSmallPositiveConstant (fun x => |x|) tol c) method =
        .ok f' ∧ f'.solveInPlace b = .ok x ∧
      (∀ a ∈ blocks N, ∀ i < d.of a,
        (|δ a i| < tol → f'.pivotAt a i = c) ∧ (tol ≤ |δ a i| → f'.pivotAt a i = δ a i)) ∧
      ∀ a ∈ blocks N, ∀ i < d.of a,
        ∑ c ∈ blocks N, ∑ j ∈ range (d.of c), m.symElement N a c (permAt (s.perm a) i) j * x.at c j +
          (f'.pivotAt a i - δ a i) * x.at a (permAt (s.perm a) i) = b.at a (permAt (s.perm a) i) := by
  obtain ⟨f', h1, h2, -⟩ := C28_repeating_small_positive_constant s d hs T N f hf m hm tol c ht hc method
  obtain ⟨x, δ, h3, -, h4, h5⟩ := C35_solve s d hs T N f hf m hm _ method f' h1 (fun a ha i hi => (h2 a ha i hi).2) b hb
  refine ⟨f', x, δ, h1, h3, fun a ha i hi => ?_, h5⟩
  have := h4.1 a ha i hi
  unfold regularizationSmallPositiveConstant at this
  constructor
  · intro hlt
    rwa [if_pos hlt] at this
  · intro hge
    rwa [if_neg (not_lt.mpr hge)] at this

/-! ### C36 -/

theorem symmetrized_eq_sym [AddCommMonoid K] {m : MatIn K} (hn : m.sparsity.entries.Nodup)
    (hlow : ∀ e ∈ m.sparsity.entries, e.col ≤ e.row) (i j : Nat) : m.symmetrized i j = m.sym i j := by
  have hz : ∀ i j, i < j → m.elem i j = 0 := by
    intro i j hij
    unfold MatIn.elem
    rw [if_neg]
    intro he
    have := hlow _ he
    simp only at this
    omega
  unfold MatIn.symmetrized MatIn.sym
  rw [dense_eq_elem hn, dense_eq_elem hn]
  rcases lt_trichotomy i j with hij | hij | hij
  · rw [hz i j hij, if_neg (by omega), zero_add, max_eq_right (by omega), min_eq_left (by omega)]
  · subst hij; simp
  · rw [hz j i hij, ite_self, add_zero, max_eq_left (by omega), min_eq_right (by omega)]

/-- Blocks of matrices as promised have the right sizes. -/
theorem ArrowheadMatrix.Fits.ofSize {K : Type} {s : ArrowheadSparsity} {d : Dims} {T : ArrowheadTypes} {N : Nat}
    {m : ArrowheadMatrix K} (hm : m.Fits s T d N) (hnd : m.tridiagDiag.length = N + 1)
    (hns : m.tridiagSubdiag.length = N) (hno : m.outerSubdiag.length = N + 1) : m.OfSize d N := by
  have hD : ∀ a ∈ blocks N, (m.diagBlock a).OfSize (d.of a) (d.of a) := fun a ha => by
    obtain ⟨h1, ⟨h2, h3, h4⟩, -⟩ := hm.diag a ha
    refine ⟨h1, fun e he => ?_⟩
    have := h2 e he
    rw [h3, h4] at this
    exact this
  have hL : ∀ a b q, m.lowerBlock N a b = some q → (T.lowerBlock N a b).isSome → q.OfSize (d.of a) (d.of b) := by
    intro a b q hq hc
    obtain ⟨c, hc⟩ := Option.isSome_iff_exists.mp hc
    obtain ⟨h1, ⟨h2, h3, h4⟩, -⟩ := hm.lower a b q c hq hc
    refine ⟨h1, fun e he => ?_⟩
    have := h2 e he
    rw [h3, h4] at this
    exact this
  refine ⟨hnd, hns, hno, hD .start start_mem, hL (.tridiag 0) .start _ rfl rfl, hL .outer .start _ rfl rfl, ?_, ?_,
    hL .link (.tridiag N) _ (by simp [ArrowheadMatrix.lowerBlock]) (by simp [ArrowheadTypes.lowerBlock]),
    hD .link link_mem, hL .outer .link _ rfl rfl, ?_, hD .outer outer_mem⟩
  · intro b hb
    obtain ⟨t, ht, rfl⟩ := List.getElem_of_mem hb
    have := hD (.tridiag t) (tridiag_mem (by omega))
    rw [show m.diagBlock (.tridiag t) = m.tridiagDiag.getD t (.empty K) from rfl, ← getElem_eq_getD ht] at this
    exact this
  · intro b hb
    obtain ⟨t, ht, rfl⟩ := List.getElem_of_mem hb
    exact hL (.tridiag (t + 1)) (.tridiag t) _
      (by simp [ArrowheadMatrix.lowerBlock, show t < N by omega, List.getElem?_eq_getElem ht])
      (by simp [ArrowheadTypes.lowerBlock, show t < N by omega])
  · intro b hb
    obtain ⟨t, ht, rfl⟩ := List.getElem_of_mem hb
    exact hL .outer (.tridiag t) _
      (by simp [ArrowheadMatrix.lowerBlock, show t ≤ N by omega, List.getElem?_eq_getElem ht])
      (by simp [ArrowheadTypes.lowerBlock, show t ≤ N by omega])

/-- Without repeated entries and entries above the diagonal `multiply` and `factorize` use the same matrix. -/
theorem denseElement_eq_symElement [AddCommMonoid K] {m : ArrowheadMatrix K} {N : Nat}
    (hdiag : ∀ a ∈ blocks N, (m.diagBlock a).sparsity.entries.Nodup ∧
      ∀ e ∈ (m.diagBlock a).sparsity.entries, e.col ≤ e.row)
    (hlower : ∀ a b q, m.lowerBlock N a b = some q → q.sparsity.entries.Nodup) {a : Blk} (ha : a ∈ blocks N) (c : Blk)
    (i j : Nat) : m.symElement N a c i j = m.denseElement N a c i j := by
  unfold ArrowheadMatrix.symElement ArrowheadMatrix.denseElement assembledElement
  by_cases hac : a = c
  · rw [if_pos hac, if_pos hac]
    exact (symmetrized_eq_sym (hdiag a ha).1 (hdiag a ha).2 i j).symm
  · rw [if_neg hac, if_neg hac]
    beta_reduce
    cases h4 : m.lowerBlock N a c with
    | some q => exact (dense_eq_elem (hlower a c q h4) i j).symm
    | none =>
      cases h5 : m.lowerBlock N c a with
      | some q => exact (dense_eq_elem (hlower c a q h5) j i).symm
      | none => rfl

/-- C36: multiplying a block vector with the repeating matrix and solving returns it, if nothing was regularized, no
pivot is zero, and the blocks have neither repeated entries nor (diagonal blocks) entries above the diagonal. -/
theorem C36_repeating [Field K] (s : ArrowheadSparsity) (d : Dims) (hs : s.Valid d) (T : ArrowheadTypes)
    (N : Nat) (f : ArrowheadFactor K) (hf : f.Declared s T d N) (m : ArrowheadMatrix K) (hm : m.Fits s T d N)
    (hnd : m.tridiagDiag.length = N + 1) (hns : m.tridiagSubdiag.length = N) (hno : m.outerSubdiag.length = N + 1)
    (hdiag : ∀ a ∈ blocks N, (m.diagBlock a).sparsity.entries.Nodup ∧
      ∀ e ∈ (m.diagBlock a).sparsity.entries, e.col ≤ e.row)
    (hlower : ∀ a b q, m.lowerBlock N a b = some q → q.sparsity.entries.Nodup)
    (method : Method) (f' : ArrowheadFactor K)
    (h : f.factorize d.tridiag d.link d.outer m regularizationNone method = .ok f')
    (hpiv : ∀ a ∈ blocks N, ∀ i < d.of a, f'.pivotAt a i ≠ 0) (x z : ArrowheadVector K) (hx : x.OfSize d N)
    (hz : z.OfSize d N) (hz0 : ∀ a i, z.at a i = 0) :
    ∃ b, multiplyArrowheadLinked m x z = .ok b ∧ f'.solveInPlace b = .ok x := by
  have hsize : m.OfSize d N := hm.ofSize hnd hns hno
  obtain ⟨b, h1, h2, h3⟩ := C33_arrowhead m x z d N hsize hx hz
  refine ⟨b, h1, C35_solve_unique s d hs T N f hf m hm method f' h hpiv x b hx h2 fun a ha i hi => ?_⟩
  rw [h3 a ha i hi, hz0, zero_add]
  refine sum_congr rfl fun c hc => sum_congr rfl fun j _ => ?_
  rw [denseElement_eq_symElement hdiag hlower ha]

/-- The hypotheses are met by the witness of the factorization: its pivots are not zero, the round trip returns the
vector. -/
example : (∀ a ∈ ([.start, .tridiag 0, .tridiag 1, .link, .outer] : List Blk),
      (arrowM.diagBlock a).sparsity.entries.Nodup ∧ ∀ e ∈ (arrowM.diagBlock a).sparsity.entries, e.col ≤ e.row) ∧
    multiplyArrowheadLinked arrowM ⟨[1], [[2, 3], [4, 5]], [6], [7]⟩ ⟨[0], [[0, 0], [0, 0]], [0], [0]⟩ =
      .ok ⟨[-3], [[10, 18], [34, 24]], [29], [54]⟩ ∧
    (do
      let T ← arrowheadTypes arrowS
      let f ← (freshFactor arrowS T arrowD 1 (17 : ℚ)).factorize 2 1 1 arrowM regularizationNone .entryWise
      f.solveInPlace ⟨[-3], [[10, 18], [34, 24]], [29], [54]⟩ : Res _) =
      .ok ⟨[1], [[2, 3], [4, 5]], [6], [7]⟩ :=
  ⟨by decide, by decide +kernel, by decide +kernel⟩

end Ctldl
