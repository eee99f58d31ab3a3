import Verif.Model.TestFunctor
import Verif.Props.Inactive
import Verif.Props.TestMatrix
import Verif.Props.Mixed
import Verif.Props.MultiplyRounding
import Verif.Props.RoundTrip
import Verif.Props.Vector

/-! # C55: the tests which multiply, factorize and solve -/

namespace Ctldl

open Finset Tridiagonal

section

variable {M K F : Type} [Zero M] [Zero K] [Sub K] [Mul K] [Div K] [Zero F] [Add F] [Sub F] [Mul F] [Div F]

private theorem blockVector_replicate (n N : Nat) : BlockVector (List.replicate (N + 1) (List.replicate n (0 : F))) n N :=
  ⟨by simp, fun b hb => by rw [List.eq_of_mem_replicate hb, List.length_replicate]⟩

private theorem block_of {n N : Nat} (hn : 0 < n) {v : List F} (hv : v.length = (N + 1) * n) :
    ∃ x, block n v = .ok x ∧ BlockVector x n N ∧ flatten x = v := by
  obtain ⟨x, h1, h2, h3, h4, -⟩ := C39_block n hn v
  have hd : v.length / n = N + 1 := by rw [hv, Nat.mul_div_cancel _ hn]
  rw [hd] at h2 h4
  refine ⟨x, h1, ⟨h2, h3⟩, ?_⟩
  rw [C39_flatten, h4, ← hv, List.take_length]

private theorem length_flatten {n N : Nat} {x : List (List F)} (h : BlockVector x n N) :
    (flatten x).length = (N + 1) * n := by
  rw [C39_flatten, List.length_flatten]
  have : x.map List.length = List.replicate (N + 1) n :=
    List.eq_replicate_iff.mpr ⟨by rw [List.length_map, h.num], fun b hb => by
      obtain ⟨v, hv, rfl⟩ := List.mem_map.mp hb
      exact h.size v hv⟩
  rw [this, List.sum_replicate, smul_eq_mul]

/-- C55: the test of the class for single matrices has no undefined behaviour and violates no contract, for any
arithmetic, conversions and values. -/
theorem C55_single_total (castFactor : M → K) (h0 : castFactor 0 = 0) (castVector : M → F) (castSolve : K → F)
    (s : Sparsity) (p : List Nat) (hv : ValidSparsity s p) (f : DiagFactor K) (hf : f.Declared s p) (m : MatIn M)
    (hm : m.Fits s p) (reg : K → Nat → K) (method : Method) (x : List F) (hx : x.length = s.numRows) :
    ∃ y, testSingle castFactor castVector castSolve s.numRows p f m reg method x = .ok (y, x) ∧
      y.length = s.numRows := by
  unfold testSingle
  rw [staticAssert_true (by simp [hv.perm.length]), ok_bind, DiagFactor.factorizeCast_eq h0]
  have hm' : (m.map castFactor).Fits s p :=
    ⟨by simp only [MatIn.Sized, MatIn.map, List.length_map]; exact hm.sized, hm.inRange, hm.rows, hm.cols, hm.subset⟩
  obtain ⟨f', h1, h2⟩ := C25_factorize_total s p hv f hf (m.map castFactor) hm' reg method
  dsimp only
  rw [h1, ok_bind, multiplyCast_eq, List.map_id]
  have hsize : m.OfSize s.numRows s.numRows := ⟨hm.sized, fun e he => by
    have := hm.inRange e he
    rw [hm.rows, hm.cols] at this
    exact this⟩
  obtain ⟨b, h3, h4⟩ := (C32_total (m.map castVector) s.numRows s.numRows (hsize.map castVector)).2.2 rfl x
    (List.replicate s.numRows 0) hx (by simp)
  rw [h3, ok_bind, DiagFactor.solveInPlaceCast_eq]
  have h2' : (f'.map castSolve).Declared s p := ⟨h2.pattern, h2.perm, by simp [DiagFactor.map, h2.sizeL],
    by simp [DiagFactor.map, h2.sizeD]⟩
  obtain ⟨y, h5, h6⟩ := C25_solve_total (f'.map castSolve) _ (h2'.shaped hv) b h4
  rw [h5, ok_bind]
  exact ⟨y, rfl, h6⟩

private theorem fits_map {A B : List (MatIn M)} {p : List Nat} {T : ArrowheadTypes} {n N : Nat}
    (h : TridiagonalFits A B p T n N) (g : M → K) : TridiagonalFits (A.map (·.map g)) (B.map (·.map g)) p T n N := by
  have hA : ∀ t < N + 1, (A.map (·.map g)).getD t (.empty K) = (A.getD t (.empty M)).map g := by
    intro t ht
    have := h.numA
    rw [List.getD_eq_getElem _ _ (by rw [List.length_map]; omega), List.getD_eq_getElem _ _ (by omega),
      List.getElem_map]
  have hB : ∀ t < N, (B.map (·.map g)).getD t (.empty K) = (B.getD t (.empty M)).map g := by
    intro t ht
    have := h.numB
    rw [List.getD_eq_getElem _ _ (by rw [List.length_map]; omega), List.getD_eq_getElem _ _ (by omega),
      List.getElem_map]
  refine ⟨by rw [List.length_map]; exact h.numA, by rw [List.length_map]; exact h.numB, fun t ht => ?_, fun t ht => ?_⟩
  · rw [hA t ht]
    obtain ⟨h1, h2, h3⟩ := h.diag t ht
    exact ⟨by simp only [MatIn.Sized, MatIn.map, List.length_map]; exact h1, h2, h3⟩
  · rw [hB t ht]
    obtain ⟨h1, h2, h3⟩ := h.subdiag t ht
    exact ⟨by simp only [MatIn.Sized, MatIn.map, List.length_map]; exact h1, h2, h3⟩

private theorem sizes_of {A B : List (MatIn M)} {p : List Nat} {T : ArrowheadTypes} {n N : Nat}
    (h : TridiagonalFits A B p T n N) (hA : A.length = N + 1) (hB : B.length = N) :
    (∀ b ∈ A, b.OfSize n n) ∧ ∀ b ∈ B, b.OfSize n n := by
  constructor
  · intro b hb
    obtain ⟨t, ht, rfl⟩ := List.mem_iff_getElem.mp hb
    obtain ⟨h1, h2, -⟩ := h.diag t (by omega)
    rw [List.getD_eq_getElem _ _ ht] at h1 h2
    exact ⟨h1, fun e he => by have := h2.1 e he; rw [h2.2.1, h2.2.2] at this; exact this⟩
  · intro b hb
    obtain ⟨t, ht, rfl⟩ := List.mem_iff_getElem.mp hb
    obtain ⟨h1, h2, -⟩ := h.subdiag t (by omega)
    rw [List.getD_eq_getElem _ _ ht] at h1 h2
    exact ⟨h1, fun e he => by have := h2.1 e he; rw [h2.2.1, h2.2.2] at this; exact this⟩

private theorem asserts {spA spB : Sparsity} {p : List Nat} {n : Nat} (h : ValidTridiagonal spA spB p n) :
    staticAssert (isSquare spA) = .ok () ∧ staticAssert (isSquare spB) = .ok () ∧
      staticAssert (spB.numRows == spA.numRows) = .ok () ∧ staticAssert (p.length == spA.numRows) = .ok () :=
  ⟨staticAssert_true (by simp [isSquare, h.diag.2.1, h.diag.2.2]),
    staticAssert_true (by simp [isSquare, h.subdiag.2.1, h.subdiag.2.2]),
    staticAssert_true (by simp [h.diag.2.1, h.subdiag.2.1]), staticAssert_true (by simp [h.diag.2.1, h.perm.length])⟩

private theorem OfSize_map_list {A : List (MatIn M)} {n : Nat} (h : ∀ b ∈ A, b.OfSize n n) (g : M → F) :
    ∀ b ∈ A.map (·.map g), b.OfSize n n := by
  intro b hb
  obtain ⟨a, ha, rfl⟩ := List.mem_map.mp hb
  exact (h a ha).map g

/-- C55: the test of the class for block tridiagonal matrices has no undefined behaviour and violates no contract, for
any arithmetic, conversions, values and number of repetitions, if the block dimension is positive. -/
theorem C55_tridiagonal_total (castFactor : M → K) (h0 : castFactor 0 = 0) (castVector : M → F) (castSolve : K → F)
    (spA spB : Sparsity) (p : List Nat) (n : Nat) (h : ValidTridiagonal spA spB p n) (hn : 0 < n) (N : Nat)
    (f : ArrowheadFactor K) (T : ArrowheadTypes) (hf : TridiagonalDeclared f spA spB p T n N) (A B : List (MatIn M))
    (hm : TridiagonalFits A B p T n N) (hA : A.length = N + 1) (hB : B.length = N) (reg : K → Nat → K)
    (method : Method) (v : List F) (hv : v.length = (N + 1) * n) :
    ∃ y, testRepeating castFactor castVector castSolve spA spB p f A B reg method v = .ok (y, v) ∧
      y.length = v.length := by
  obtain ⟨a1, a2, a3, a4⟩ := asserts h
  obtain ⟨x, hx1, hx2, hx3⟩ := block_of hn hv
  unfold testRepeating
  dsimp only
  rw [a1, ok_bind, a2, ok_bind, a3, ok_bind, a4, ok_bind, tridiagonalFactorizeCast_eq h0, h.diag.2.1]
  have hmf := fits_map hm castFactor
  obtain ⟨f', h1, h2⟩ := C21_factorize_total _ _ (emptied_valid h) T N f (declared_of h hf) _
    (fits_of (spA := spA) (spB := spB) hmf) reg method
  rw [← factorize_eq (n := n) (declared_of h hf)] at h1
  rw [h1, ok_bind, hx1, ok_bind, multiplyRepeatingBlockTridiagonalCast_eq]
  obtain ⟨sA, sB⟩ := sizes_of hm hA hB
  rw [hx2.num, show x.map (fun v => v.map id) = x by simp]
  have hz := blockVector_replicate (F := F) n N
  obtain ⟨b, h3, h4, h5⟩ := C52_total_tridiagonal (A.map (·.map castVector)) (B.map (·.map castVector)) x
    (List.replicate (N + 1) (List.replicate n 0)) n N (by rw [List.length_map, hA]) (by rw [List.length_map, hB])
    hx2.num hz.num (OfSize_map_list sA castVector) (OfSize_map_list sB castVector) hx2.size hz.size
  rw [h3, ok_bind, tridiagonalSolveInPlaceCast_eq]
  obtain ⟨y, h6, h7⟩ := (C35_solve_total _ _ (emptied_valid h) T N (f'.map castSolve) (h2.map castSolve)
    ⟨[], b, [], []⟩ (vector_of ⟨h4, h5⟩)).1
  obtain ⟨h8, h9⟩ := of_vector h7
  unfold tridiagonalSolveInPlace
  rw [h6, ok_bind]
  simp only [pure_bind]
  refine ⟨flatten y.tridiag, by rw [hx3]; rfl, ?_⟩
  rw [length_flatten h9, hv]

private theorem map_id_factor {K : Type} (f : ArrowheadFactor K) : f.map id = f := by
  simp only [ArrowheadFactor.map, DiagFactor.map, SubFactor.map, List.map_id, List.map_id']

/-- The test of the class for block tridiagonal matrices with the number type of the vectors in terms of its parts. -/
theorem testRepeating_cast {cast : M → F} (h0 : cast 0 = 0) {spA spB : Sparsity} {p : List Nat} {n : Nat}
    (h : ValidTridiagonal spA spB p n) (hn : 0 < n) {N : Nat} {f : ArrowheadFactor F} {A B : List (MatIn M)}
    {reg : F → Nat → F} {method : Method} {v : List F} (hv : v.length = (N + 1) * n) :
    ∃ x, BlockVector x n N ∧ flatten x = v ∧ ∀ f' b y,
      tridiagonalFactorize n f (A.map (·.map cast)) (B.map (·.map cast)) reg method = .ok f' →
      multiplyRepeatingBlockTridiagonal (A.map (·.map cast)) (B.map (·.map cast)) x
        (List.replicate (N + 1) (List.replicate n 0)) = .ok b →
      tridiagonalSolveInPlace f' b = .ok y →
      testRepeating cast cast id spA spB p f A B reg method v = .ok (flatten y, v) := by
  obtain ⟨a1, a2, a3, a4⟩ := asserts h
  obtain ⟨x, hx1, hx2, hx3⟩ := block_of hn hv
  refine ⟨x, hx2, hx3, fun f' b y h1 h2 h3 => ?_⟩
  unfold testRepeating
  dsimp only
  rw [a1, ok_bind, a2, ok_bind, a3, ok_bind, a4, ok_bind, tridiagonalFactorizeCast_eq h0, h.diag.2.1, h1, ok_bind, hx1,
    ok_bind, multiplyRepeatingBlockTridiagonalCast_eq, hx2.num, show x.map (fun v => v.map id) = x by simp, h2, ok_bind,
    tridiagonalSolveInPlaceCast_eq, map_id_factor, h3, ok_bind, hx3]
  rfl

/-- C55: the test of the class with start, link and outer blocks has no undefined behaviour and violates no contract, for
any arithmetic, conversions, values and number of repetitions, if the dimension of the repeating block is positive. -/
theorem C55_arrowhead_total (castFactor : M → K) (h0 : castFactor 0 = 0) (castVector : M → F) (castSolve : K → F)
    (s : ArrowheadSparsity) (d : Dims) (hs : s.Valid d) (hn : 0 < d.tridiag) (T : ArrowheadTypes) (N : Nat)
    (f : ArrowheadFactor K) (hf : f.Declared s T d N) (m : ArrowheadMatrix M) (hm : m.Fits s T d N)
    (hnd : m.tridiagDiag.length = N + 1) (hns : m.tridiagSubdiag.length = N) (hno : m.outerSubdiag.length = N + 1)
    (reg : K → Nat → K) (method : Method) (v1 v2 v3 v4 : List F) (l1 : v1.length = d.start)
    (l2 : v2.length = (N + 1) * d.tridiag) (l3 : v3.length = d.link) (l4 : v4.length = d.outer) :
    ∃ y1 y2 y3 y4, testArrowhead castFactor castVector castSolve d.start d.tridiag d.link d.outer f m reg method
        v1 v2 v3 v4 = .ok ((y1, v1), (y2, v2), (y3, v3), (y4, v4)) ∧
      y1.length = v1.length ∧ y2.length = v2.length ∧ y3.length = v3.length ∧ y4.length = v4.length := by
  obtain ⟨x, hx1, hx2, hx3⟩ := block_of hn l2
  obtain ⟨f', h1, h2, h3⟩ := C49_total castFactor h0 castSolve s d hs T N f hf m hm reg method
  have hz := blockVector_replicate (F := F) d.tridiag N
  obtain ⟨b, h4, h5⟩ := C52_total (m.map castVector) ⟨v1, x, v3, v4⟩ ⟨List.replicate d.start 0,
    List.replicate (N + 1) (List.replicate d.tridiag 0), List.replicate d.link 0, List.replicate d.outer 0⟩ d N
    ((hm.ofSize hnd hns hno).map castVector) ⟨hx2.num, l1, hx2.size, l3, l4⟩
    ⟨hz.num, by simp, hz.size, by simp, by simp⟩
  obtain ⟨y, h6, h7⟩ := h3 b h5
  unfold testArrowhead
  dsimp only
  rw [h1, ok_bind, hx1, ok_bind, multiplyArrowheadLinkedCast_eq, hx2.num]
  unfold ArrowheadVector.map
  simp only [List.map_id, List.map_id']
  rw [h4, ok_bind, h6, ok_bind, hx3]
  exact ⟨_, _, _, _, rfl, h7.start.trans l1.symm, (length_flatten ⟨h7.num, h7.tridiag⟩).trans l2.symm,
    h7.link.trans l3.symm, h7.outer.trans l4.symm⟩

/-- C55: if the block dimension is zero, the test of the class for block tridiagonal matrices divides by zero. -/
theorem C55_tridiagonal_zero (castFactor : M → K) (h0 : castFactor 0 = 0) (castVector : M → F) (castSolve : K → F)
    (spA spB : Sparsity) (p : List Nat) (h : ValidTridiagonal spA spB p 0) (N : Nat)
    (f : ArrowheadFactor K) (T : ArrowheadTypes) (hf : TridiagonalDeclared f spA spB p T 0 N) (A B : List (MatIn M))
    (hm : TridiagonalFits A B p T 0 N) (reg : K → Nat → K) (method : Method) (v : List F) :
    testRepeating castFactor castVector castSolve spA spB p f A B reg method v = .error .ub := by
  obtain ⟨a1, a2, a3, a4⟩ := asserts h
  unfold testRepeating
  dsimp only
  rw [a1, ok_bind, a2, ok_bind, a3, ok_bind, a4, ok_bind, tridiagonalFactorizeCast_eq h0, h.diag.2.1]
  obtain ⟨f', h1, h2⟩ := C21_factorize_total _ _ (emptied_valid h) T N f (declared_of h hf) _
    (fits_of (spA := spA) (spB := spB) (fits_map hm castFactor)) reg method
  rw [← factorize_eq (n := 0) (declared_of h hf)] at h1
  rw [h1, ok_bind, C39_block_zero]
  rfl

/-- C55: for every seed, every positive block dimension and every number of repetitions the random test of the class for
block tridiagonal matrices compiles and runs without undefined behaviour or violated contract, for all values. -/
theorem C55_random_tridiagonal (castFactor : M → K) (h0 : castFactor 0 = 0) (castVector : M → F) (castSolve : K → F)
    (seed n N : Nat) (hn : 0 < n) (hs : 2 * n ≤ noParent) :
    ∃ spA spB p, randomTridiagonal seed n = .ok (spA, spB, p) ∧
      (∃ (f : ArrowheadFactor K) (T : ArrowheadTypes), TridiagonalDeclared f spA spB p T n N) ∧
      ∀ (f : ArrowheadFactor K) (T : ArrowheadTypes), TridiagonalDeclared f spA spB p T n N →
      ∀ A B : List (MatIn M), A.length = N + 1 → B.length = N → (∀ a ∈ A, a.Sized ∧ a.sparsity = spA) →
        (∀ b ∈ B, b.Sized ∧ b.sparsity = spB) → ∀ (reg : K → Nat → K) (method : Method) (v : List F),
        v.length = (N + 1) * n →
        ∃ y, testRepeating castFactor castVector castSolve spA spB p f A B reg method v = .ok (y, v) ∧
          y.length = v.length := by
  obtain ⟨spA, spB, p, h1, h2, -⟩ := C54_tridiagonal seed n hs
  refine ⟨spA, spB, p, h1, C37_constructible spA spB p n h2 N 0, fun f T hf A B hA hB sA sB reg method v hv => ?_⟩
  refine C55_tridiagonal_total castFactor h0 castVector castSolve spA spB p n h2 hn N f T hf A B ?_ hA hB reg method v hv
  refine C37_declared_fits spA spB p n h2 N f T hf A B (by omega) (by omega) (fun t ht => ?_) fun t ht => ?_
  · rw [List.getD_eq_getElem _ _ (by omega)]
    exact sA _ (List.getElem_mem _)
  · rw [List.getD_eq_getElem _ _ (by omega)]
    exact sB _ (List.getElem_mem _)

/-- C55: for every seed, all dimensions and every number of repetitions the random test of the class with start, link and
outer blocks compiles and runs without undefined behaviour or violated contract, for all values. -/
theorem C55_random_arrowhead (castFactor : M → K) (h0 : castFactor 0 = 0) (castVector : M → F) (castSolve : K → F)
    (seed : Nat) (d : Dims) (hn : 0 < d.tridiag) (e1 : d.start + d.tridiag + d.outer ≤ noParent)
    (e2 : 2 * d.tridiag ≤ noParent) (e3 : d.tridiag + d.link + d.outer ≤ noParent) (N : Nat) :
    ∃ r, randomArrowhead seed d.start d.tridiag d.link d.outer = .ok r ∧
      ∃ T, arrowheadTypes r.sparsity = .ok T ∧ (∃ f : ArrowheadFactor K, f.Declared r.sparsity T d N) ∧
      ∀ f : ArrowheadFactor K, f.Declared r.sparsity T d N → ∀ m : ArrowheadMatrix M,
      m.tridiagDiag.length = N + 1 → m.tridiagSubdiag.length = N → m.outerSubdiag.length = N + 1 →
      (∀ b ∈ blocks N, (m.diagBlock b).Sized ∧ (m.diagBlock b).sparsity = r.sparsity.diagBlock b) →
      (∀ a b q, m.lowerBlock N a b = some q → q.Sized ∧ r.sparsity.lowerBlock N a b = some q.sparsity) →
      ∀ (reg : K → Nat → K) (method : Method) (v1 v2 v3 v4 : List F), v1.length = d.start →
      v2.length = (N + 1) * d.tridiag → v3.length = d.link → v4.length = d.outer →
      ∃ y1 y2 y3 y4, testArrowhead castFactor castVector castSolve d.start d.tridiag d.link d.outer f m reg method
          v1 v2 v3 v4 = .ok ((y1, v1), (y2, v2), (y3, v3), (y4, v4)) ∧
        y1.length = v1.length ∧ y2.length = v2.length ∧ y3.length = v3.length ∧ y4.length = v4.length := by
  obtain ⟨r, h1, h2, -⟩ := C54_arrowhead seed d e1 e2 e3
  obtain ⟨T, hT⟩ := C21_instantiable r.sparsity d h2
  refine ⟨r, h1, T, hT, ⟨_, C21_constructible r.sparsity d T hT N 0⟩, ?_⟩
  intro f hf m hnd hns hno hd hl reg method v1 v2 v3 v4 l1 l2 l3 l4
  exact C55_arrowhead_total castFactor h0 castVector castSolve r.sparsity d h2 hn T N f hf m
    (C21_declared_fits r.sparsity d h2 T hT N m hnd.ge hns.ge hno.ge hd hl) hnd hns hno reg method v1 v2 v3 v4 l1 l2 l3 l4

end

section

variable {K : Type} [Field K] [LinearOrder K] [IsStrictOrderedRing K]

private theorem mat_map_id {K : Type} (m : MatIn K) : m.map id = m := by
  unfold MatIn.map
  rw [List.map_id]

private theorem diag_map_id {K : Type} (f : DiagFactor K) : f.map id = f := by
  unfold DiagFactor.map
  rw [List.map_id, List.map_id]

private theorem sub_map_id {K : Type} (f : SubFactor K) : f.map id = f := by
  unfold SubFactor.map
  rw [List.map_id]

private theorem arrowhead_map_id {K : Type} (f : ArrowheadFactor K) : f.map id = f := by
  unfold ArrowheadFactor.map
  simp only [diag_map_id, sub_map_id, List.map_id']

private theorem matrix_map_id {K : Type} (m : ArrowheadMatrix K) : m.map id = m := by
  unfold ArrowheadMatrix.map
  simp only [mat_map_id, List.map_id']

/-- C55: in exact arithmetic, if no pivot without regularization has a magnitude below the tolerance, the test of the
class for single matrices passes with equality, whatever the constant. -/
theorem C55_single (s : Sparsity) (p : List Nat) (hv : ValidSparsity s p) (f : DiagFactor K) (hf : f.Declared s p)
    (m : MatIn K) (hm : m.Fits s p) (hnodup : m.sparsity.entries.Nodup)
    (hlow : ∀ e ∈ m.sparsity.entries, e.col ≤ e.row) (method : Method) (f' : DiagFactor K)
    (h : f.factorize m regularizationNone method = .ok f') (tol c : K) (htol : 0 < tol)
    (hpiv : ∀ i < s.numRows, tol ≤ |f'.pivot i|) (x : List K) (hx : x.length = s.numRows) :
    testSingle id id id s.numRows p f m (regularizationSmallPositiveConstant (|·|) tol c) method x = .ok (x, x) := by
  have h1 := C28_not_needed s p hv f hf m hm (|·|) tol c method f' h fun i hi => not_lt.mpr (hpiv i hi)
  obtain ⟨b, h2, h3⟩ := C36_single s p hv f hf m hm method hnodup hlow f' h
    (fun i hi h0 => absurd (hpiv i hi) (by rw [h0, abs_zero]; exact not_le.mpr htol)) x hx
  unfold testSingle
  dsimp only
  rw [staticAssert_true (by simp [hv.perm.length]), ok_bind, DiagFactor.factorizeCast_eq rfl, mat_map_id, h1, ok_bind,
    multiplyCast_eq, List.map_id, mat_map_id, h2, ok_bind, DiagFactor.solveInPlaceCast_eq, diag_map_id, h3, ok_bind]
  rfl

omit [LinearOrder K] [IsStrictOrderedRing K] in
private theorem getD_replicate_zero (n i : Nat) : (List.replicate n (0 : K)).getD i 0 = 0 := by
  rw [List.getD_eq_getElem?_getD, List.getElem?_replicate]
  split <;> rfl

omit [LinearOrder K] [IsStrictOrderedRing K] in
private theorem blockAt_replicate (N n t i : Nat) :
    blockAt (List.replicate (N + 1) (List.replicate n (0 : K))) t i = 0 := by
  unfold blockAt
  rw [List.getD_eq_getElem?_getD (l := List.replicate _ _), List.getElem?_replicate]
  split
  · exact getD_replicate_zero n i
  · rfl

/-- The test of the class for block tridiagonal matrices with one number type in terms of its parts. -/
theorem testRepeating_parts {spA spB : Sparsity} {p : List Nat} {n : Nat} (h : ValidTridiagonal spA spB p n) (hn : 0 < n)
    {N : Nat} {f : ArrowheadFactor K} {A B : List (MatIn K)} {reg : K → Nat → K} {method : Method} {v : List K}
    (hv : v.length = (N + 1) * n) :
    ∃ x, BlockVector x n N ∧ flatten x = v ∧ ∀ f' b y, tridiagonalFactorize n f A B reg method = .ok f' →
      multiplyRepeatingBlockTridiagonal A B x (List.replicate (N + 1) (List.replicate n 0)) = .ok b →
      tridiagonalSolveInPlace f' b = .ok y → testRepeating id id id spA spB p f A B reg method v = .ok (flatten y, v) := by
  obtain ⟨a1, a2, a3, a4⟩ := asserts h
  obtain ⟨x, hx1, hx2, hx3⟩ := block_of hn hv
  refine ⟨x, hx2, hx3, fun f' b y h1 h2 h3 => ?_⟩
  unfold testRepeating
  dsimp only
  rw [a1, ok_bind, a2, ok_bind, a3, ok_bind, a4, ok_bind, tridiagonalFactorizeCast_eq rfl, h.diag.2.1]
  simp only [mat_map_id, List.map_id']
  rw [h1, ok_bind, hx1, ok_bind, multiplyRepeatingBlockTridiagonalCast_eq, hx2.num]
  simp only [mat_map_id, List.map_id', List.map_id]
  rw [h2, ok_bind, tridiagonalSolveInPlaceCast_eq, arrowhead_map_id, h3, ok_bind, hx3]
  rfl

/-- C55: the same for the class for block tridiagonal matrices, for every number of repetitions. -/
theorem C55_tridiagonal (spA spB : Sparsity) (p : List Nat) (n : Nat) (h : ValidTridiagonal spA spB p n) (hn : 0 < n)
    (N : Nat) (f : ArrowheadFactor K) (T : ArrowheadTypes) (hf : TridiagonalDeclared f spA spB p T n N)
    (A B : List (MatIn K)) (hm : TridiagonalFits A B p T n N) (hA : A.length = N + 1) (hB : B.length = N)
    (hAn : ∀ m ∈ A, m.sparsity.entries.Nodup ∧ ∀ e ∈ m.sparsity.entries, e.col ≤ e.row)
    (hBn : ∀ m ∈ B, m.sparsity.entries.Nodup) (method : Method) (f' : ArrowheadFactor K)
    (hfac : tridiagonalFactorize n f A B regularizationNone method = .ok f') (tol c : K) (htol : 0 < tol)
    (hpiv : ∀ t < N + 1, ∀ i < n, tol ≤ |f'.pivotAt (.tridiag t) i|) (v : List K) (hv : v.length = (N + 1) * n) :
    testRepeating id id id spA spB p f A B (regularizationSmallPositiveConstant (|·|) tol c) method v = .ok (v, v) := by
  obtain ⟨x, hx2, hx3, key⟩ := testRepeating_parts h hn (f := f) (A := A) (B := B)
    (reg := regularizationSmallPositiveConstant (|·|) tol c) (method := method) hv
  have h1 := C28_tridiagonal_not_needed spA spB p n h N f T hf A B hm (|·|) tol c method f' hfac
    fun t ht i hi => not_lt.mpr (hpiv t ht i hi)
  obtain ⟨b, h2, h3⟩ := C37_round_trip spA spB p n h N f T hf A B hm hA hB hAn hBn method f' hfac
    (fun t ht i hi h0 => absurd (hpiv t ht i hi) (by rw [h0, abs_zero]; exact not_le.mpr htol)) x
    (List.replicate (N + 1) (List.replicate n 0)) hx2 (blockVector_replicate n N) (blockAt_replicate N n)
  rw [key f' b x h1 h2 h3, hx3]

/-- C55: the same for the class with start, link and outer blocks. -/
theorem C55_arrowhead (s : ArrowheadSparsity) (d : Dims) (hs : s.Valid d) (hn : 0 < d.tridiag) (T : ArrowheadTypes)
    (N : Nat) (f : ArrowheadFactor K) (hf : f.Declared s T d N) (m : ArrowheadMatrix K) (hm : m.Fits s T d N)
    (hnd : m.tridiagDiag.length = N + 1) (hns : m.tridiagSubdiag.length = N) (hno : m.outerSubdiag.length = N + 1)
    (hdiag : ∀ a ∈ blocks N, (m.diagBlock a).sparsity.entries.Nodup ∧
      ∀ e ∈ (m.diagBlock a).sparsity.entries, e.col ≤ e.row)
    (hlower : ∀ a b q, m.lowerBlock N a b = some q → q.sparsity.entries.Nodup)
    (method : Method) (f' : ArrowheadFactor K)
    (h : f.factorize d.tridiag d.link d.outer m regularizationNone method = .ok f') (tol c : K) (htol : 0 < tol)
    (hpiv : ∀ a ∈ blocks N, ∀ i < d.of a, tol ≤ |f'.pivotAt a i|) (v1 v2 v3 v4 : List K) (l1 : v1.length = d.start)
    (l2 : v2.length = (N + 1) * d.tridiag) (l3 : v3.length = d.link) (l4 : v4.length = d.outer) :
    testArrowhead id id id d.start d.tridiag d.link d.outer f m (regularizationSmallPositiveConstant (|·|) tol c) method
      v1 v2 v3 v4 = .ok ((v1, v1), (v2, v2), (v3, v3), (v4, v4)) := by
  obtain ⟨x, hx1, hx2, hx3⟩ := block_of hn l2
  have h1 := C28_repeating_not_needed s d hs T N f hf m hm (|·|) tol c method f' h
    fun a ha i hi => not_lt.mpr (hpiv a ha i hi)
  have hz := blockVector_replicate (F := K) d.tridiag N
  obtain ⟨b, h2, h3⟩ := C36_repeating s d hs T N f hf m hm hnd hns hno hdiag hlower method f' h
    (fun a ha i hi h0 => absurd (hpiv a ha i hi) (by rw [h0, abs_zero]; exact not_le.mpr htol)) ⟨v1, x, v3, v4⟩
    ⟨List.replicate d.start 0, List.replicate (N + 1) (List.replicate d.tridiag 0), List.replicate d.link 0,
      List.replicate d.outer 0⟩ ⟨hx2.num, l1, hx2.size, l3, l4⟩ ⟨hz.num, by simp, hz.size, by simp, by simp⟩ (by
      intro a i
      cases a
      · exact getD_replicate_zero _ _
      · exact blockAt_replicate _ _ _ _
      · exact getD_replicate_zero _ _
      · exact getD_replicate_zero _ _)
  unfold testArrowhead
  dsimp only
  rw [ArrowheadFactor.factorizeCast_eq rfl, matrix_map_id, h1, ok_bind, hx1, ok_bind, multiplyArrowheadLinkedCast_eq,
    hx2.num, matrix_map_id]
  unfold ArrowheadVector.map
  simp only [List.map_id, List.map_id']
  rw [h2, ok_bind, ArrowheadFactor.solveInPlaceCast_eq, arrowhead_map_id, h3, ok_bind, hx3]
  rfl

/-- Instances: the tests of a single matrix and of a matrix with all kinds of blocks pass, with pivots above the
tolerance. -/
example : testSingle id id id 3 [0, 2, 1] witnessF witnessLow
      (regularizationSmallPositiveConstant (fun x : ℚ => |x|) (1 / 100) (1 / 10)) .entryWise [1, 2, 3] =
      .ok ([1, 2, 3], [1, 2, 3]) ∧
    (do
      let T ← arrowheadTypes arrowS
      let r ← testArrowhead id id id 1 2 1 1 (freshFactor arrowS T arrowD 1 (17 : ℚ)) arrowM
        (regularizationSmallPositiveConstant (fun x : ℚ => |x|) (1 / 100) (1 / 10)) .upLooking [1] [2, 3, 4, 5] [6] [7]
      return [r.1.1, r.1.2, r.2.1.1, r.2.1.2, r.2.2.1.1, r.2.2.1.2, r.2.2.2.1, r.2.2.2.2] : Res (List (List ℚ))) =
      .ok [[1], [1], [2, 3, 4, 5], [2, 3, 4, 5], [6], [6], [7], [7]] :=
  ⟨by decide +kernel, by decide +kernel⟩

/-- Instance: the random test with double matrices, seed seven, block dimension three and ten repetitions. -/
example := C55_random_tridiagonal (M := ℚ) (K := ℚ) (F := ℚ) id rfl id id 7 3 10 (by decide) (by decide)

end

end Ctldl
