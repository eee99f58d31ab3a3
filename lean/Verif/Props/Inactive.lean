import Verif.Lemmas.Inactive
import Verif.Props.Factorize
import Verif.Props.Tridiagonal

/-! # C28: regularizations which change no pivot -/

namespace Ctldl

open Tridiagonal

variable {K : Type} [Zero K] [Sub K] [Mul K] [Div K]

private theorem typesOk {s : ArrowheadSparsity} {T : ArrowheadTypes} {d : Dims} (hs : s.Valid d)
    (hT : arrowheadTypes s = .ok T) : TypesOk s T d := by
  obtain ⟨T', h, h'⟩ := arrowheadTypes_sat hs
  rw [hT] at h
  cases h
  exact h'

private theorem fits1 {f : DiagFactor K} {s : Sparsity} {p : List Nat}
    (hv : ValidSparsity s p)
    (hf : f.Declared s p) {m : MatIn K} (hm : m.Fits s p) : Fits1 m f s.numRows := by
  refine ⟨hm.sized, ⟨hm.inRange, hm.rows, hm.cols⟩, ?_⟩
  intro i j hij
  rw [hf.perm] at hij
  have h1 := hm.subset i j hij
  rw [Csr.Has, (hf.closed1 hv).2.2.2.2]
  have h2 := hij.1
  have h3 := hij.2.1
  rw [hm.rows] at h3
  exact ⟨h3, by omega, h1⟩

/-- C28: in any arithmetic (no law is assumed, so in particular in floating point arithmetic) the regularization matters
only through the pivots it returns: the factor computed with one regularization is also computed with any other one
which returns the same pivots. -/
theorem C28_exchange (s : Sparsity) (p : List Nat) (hv : ValidSparsity s p) (f : DiagFactor K) (hf : f.Declared s p)
    (m : MatIn K) (hm : m.Fits s p) (reg reg' : K → Nat → K) (method : Method) (f' : DiagFactor K)
    (h : f.factorize m reg method = .ok f')
    (hreg : ∀ i < s.numRows, ∀ y, reg y i = f'.pivot i → reg' y i = f'.pivot i) :
    f.factorize m reg' method = .ok f' :=
  factorize_exchange (hf.closed1 hv).1 (fits1 hv hf hm) h hreg

/-- C28: the same for repeating block matrices. -/
theorem C28_repeating_exchange (s : ArrowheadSparsity) (d : Dims) (hs : s.Valid d) (T : ArrowheadTypes) (N : Nat)
    (f : ArrowheadFactor K) (hf : f.Declared s T d N) (m : ArrowheadMatrix K) (hm : m.Fits s T d N)
    (reg reg' : K → Nat → K) (method : Method) (f' : ArrowheadFactor K)
    (h : f.factorize d.tridiag d.link d.outer m reg method = .ok f')
    (hreg : ∀ a ∈ blocks N, ∀ i < d.of a, ∀ y, reg y i = f'.pivotAt a i → reg' y i = f'.pivotAt a i) :
    f.factorize d.tridiag d.link d.outer m reg' method = .ok f' :=
  arrowheadFactorize_exchange hs (typesOk hs hf.types) hf hm.matrixOk h hreg

/-- C28: the same for the class for block tridiagonal matrices. -/
theorem C28_tridiagonal_exchange (spA spB : Sparsity) (p : List Nat) (n : Nat) (h : ValidTridiagonal spA spB p n)
    (N : Nat) (f : ArrowheadFactor K) (T : ArrowheadTypes) (hf : TridiagonalDeclared f spA spB p T n N)
    (A B : List (MatIn K)) (hm : TridiagonalFits A B p T n N) (reg reg' : K → Nat → K) (method : Method)
    (f' : ArrowheadFactor K) (hfac : tridiagonalFactorize n f A B reg method = .ok f')
    (hreg : ∀ t < N + 1, ∀ i < n, ∀ y, reg y i = f'.pivotAt (.tridiag t) i → reg' y i = f'.pivotAt (.tridiag t) i) :
    tridiagonalFactorize n f A B reg' method = .ok f' := by
  have hd := declared_of h hf
  rw [factorize_eq hd] at hfac ⊢
  refine C28_repeating_exchange _ _ (emptied_valid h) T N f hd _ (fits_of hm) reg reg' method f' hfac ?_
  intro a ha i hi
  cases a with
  | start => cases hi
  | link => cases hi
  | outer => cases hi
  | tridiag t => exact hreg t (mem_blocks.mp ha t rfl) i hi

variable [LT K] [DecidableLT K]

/-- C28: if all pivots are large enough without regularization, the small positive constant regularization changes
nothing. -/
theorem C28_not_needed (s : Sparsity) (p : List Nat) (hv : ValidSparsity s p) (f : DiagFactor K) (hf : f.Declared s p)
    (m : MatIn K) (hm : m.Fits s p) (absValue : K → K) (tol c : K) (method : Method) (f' : DiagFactor K)
    (h : f.factorize m regularizationNone method = .ok f') (hlarge : ∀ i < s.numRows, ¬ absValue (f'.pivot i) < tol) :
    f.factorize m (regularizationSmallPositiveConstant absValue tol c) method = .ok f' := by
  refine C28_exchange s p hv f hf m hm _ _ method f' h fun i hi y hy => ?_
  rw [show y = f'.pivot i from hy]
  exact if_neg (hlarge i hi)

/-- C28: the same for repeating block matrices. -/
theorem C28_repeating_not_needed (s : ArrowheadSparsity) (d : Dims) (hs : s.Valid d) (T : ArrowheadTypes) (N : Nat)
    (f : ArrowheadFactor K) (hf : f.Declared s T d N) (m : ArrowheadMatrix K) (hm : m.Fits s T d N)
    (absValue : K → K) (tol c : K) (method : Method) (f' : ArrowheadFactor K)
    (h : f.factorize d.tridiag d.link d.outer m regularizationNone method = .ok f')
    (hlarge : ∀ a ∈ blocks N, ∀ i < d.of a, ¬ absValue (f'.pivotAt a i) < tol) :
    f.factorize d.tridiag d.link d.outer m (regularizationSmallPositiveConstant absValue tol c) method = .ok f' := by
  refine C28_repeating_exchange s d hs T N f hf m hm _ _ method f' h fun a ha i hi y hy => ?_
  rw [show y = f'.pivotAt a i from hy]
  exact if_neg (hlarge a ha i hi)

/-- C28: the same for the class for block tridiagonal matrices. -/
theorem C28_tridiagonal_not_needed (spA spB : Sparsity) (p : List Nat) (n : Nat) (h : ValidTridiagonal spA spB p n)
    (N : Nat) (f : ArrowheadFactor K) (T : ArrowheadTypes) (hf : TridiagonalDeclared f spA spB p T n N)
    (A B : List (MatIn K)) (hm : TridiagonalFits A B p T n N) (absValue : K → K) (tol c : K) (method : Method)
    (f' : ArrowheadFactor K) (hfac : tridiagonalFactorize n f A B regularizationNone method = .ok f')
    (hlarge : ∀ t < N + 1, ∀ i < n, ¬ absValue (f'.pivotAt (.tridiag t) i) < tol) :
    tridiagonalFactorize n f A B (regularizationSmallPositiveConstant absValue tol c) method = .ok f' := by
  refine C28_tridiagonal_exchange spA spB p n h N f T hf A B hm _ _ method f' hfac fun t ht i hi y hy => ?_
  rw [show y = f'.pivotAt (.tridiag t) i from hy]
  exact if_neg (hlarge t ht i hi)

/-- C28: if the small positive constant is not among the pivots, the factor is the one without regularization. -/
theorem C28_not_used (s : Sparsity) (p : List Nat) (hv : ValidSparsity s p) (f : DiagFactor K) (hf : f.Declared s p)
    (m : MatIn K) (hm : m.Fits s p) (absValue : K → K) (tol c : K) (method : Method) (f' : DiagFactor K)
    (h : f.factorize m (regularizationSmallPositiveConstant absValue tol c) method = .ok f')
    (hne : ∀ i < s.numRows, f'.pivot i ≠ c) : f.factorize m regularizationNone method = .ok f' := by
  refine C28_exchange s p hv f hf m hm _ _ method f' h fun i hi y hy => ?_
  unfold regularizationSmallPositiveConstant at hy
  by_cases ht : absValue y < tol
  · rw [if_pos ht] at hy
    exact absurd hy.symm (hne i hi)
  · rw [if_neg ht] at hy
    exact hy

/-- C28: the same for repeating block matrices. -/
theorem C28_repeating_not_used (s : ArrowheadSparsity) (d : Dims) (hs : s.Valid d) (T : ArrowheadTypes) (N : Nat)
    (f : ArrowheadFactor K) (hf : f.Declared s T d N) (m : ArrowheadMatrix K) (hm : m.Fits s T d N)
    (absValue : K → K) (tol c : K) (method : Method) (f' : ArrowheadFactor K)
    (h : f.factorize d.tridiag d.link d.outer m (regularizationSmallPositiveConstant absValue tol c) method = .ok f')
    (hne : ∀ a ∈ blocks N, ∀ i < d.of a, f'.pivotAt a i ≠ c) :
    f.factorize d.tridiag d.link d.outer m regularizationNone method = .ok f' := by
  refine C28_repeating_exchange s d hs T N f hf m hm _ _ method f' h fun a ha i hi y hy => ?_
  unfold regularizationSmallPositiveConstant at hy
  by_cases ht : absValue y < tol
  · rw [if_pos ht] at hy
    exact absurd hy.symm (hne a ha i hi)
  · rw [if_neg ht] at hy
    exact hy

/-- An instance: the pivots 4, 4 and 43/16 are large enough. -/
example : ∃ f' : DiagFactor ℚ, witnessF.factorize witnessM regularizationNone .upLooking = .ok f' ∧
    f'.D = [4, 4, 43 / 16] ∧
    witnessF.factorize witnessM (regularizationSmallPositiveConstant (fun x => |x|) (1 / 100) (1 / 10)) .upLooking =
      .ok f' := by
  obtain ⟨f', h, hd⟩ := C25_factorize_total witnessS [0, 2, 1] witness_valid witnessF witness_declared witnessM
    witness_fits regularizationNone .upLooking
  have h0 : (do let f ← witnessF.factorize witnessM regularizationNone .upLooking; return f.D : Res _) =
    .ok [4, 4, 43 / 16] := by decide +kernel
  rw [h] at h0
  have h1 : f'.D = [4, 4, 43 / 16] := Except.ok.inj h0
  refine ⟨f', h, h1, C28_not_needed witnessS [0, 2, 1] witness_valid witnessF witness_declared witnessM witness_fits _ _ _
    _ f' h ?_⟩
  unfold DiagFactor.pivot
  rw [h1]
  decide +kernel

end Ctldl
