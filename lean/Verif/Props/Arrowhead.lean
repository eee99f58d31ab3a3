import Verif.Lemmas.ArrowheadClosed
import Verif.Lemmas.ArrowheadUnique
import Mathlib.Algebra.Order.Field.Basic
import Mathlib.Algebra.Order.Group.Abs
import Mathlib.Algebra.Field.Rat

/-! # C21, C26, C34: factorization of repeating block tridiagonal arrowhead linked matrices -/

namespace Ctldl

open Finset

section

variable {s : ArrowheadSparsity} {T : ArrowheadTypes} {d : Dims}

private theorem typesOk (hs : s.Valid d) (hT : arrowheadTypes s = .ok T) : TypesOk s T d := by
  obtain ⟨T', h, h'⟩ := arrowheadTypes_sat hs
  rw [hT] at h
  cases h
  exact h'

private theorem diagBlock_dims (hs : s.Valid d) (b : Blk) : (s.diagBlock b).OfDims (d.of b) (d.of b) := by
  cases b with
  | start => exact hs.startDiag
  | tridiag t => exact hs.tridiagDiag
  | link => exact hs.linkDiag
  | outer => exact hs.outerDiag

private theorem lowerBlock_dims' (hs : s.Valid d) {N : Nat} {a b : Blk} {p : Sparsity}
    (hp : s.lowerBlock N a b = some p) : p.OfDims (d.of a) (d.of b) := by
  rcases a with _ | (_ | t) | _ | _ <;> rcases b with _ | u | _ | _ <;>
    simp only [ArrowheadSparsity.lowerBlock] at hp <;> try contradiction
  · rw [← Option.some.inj hp]; exact hs.startNext
  · split at hp
    · rw [← Option.some.inj hp]; exact hs.tridiagSubdiag
    · cases hp
  · split at hp
    · rw [← Option.some.inj hp]; exact hs.linkPrev
    · cases hp
  · rw [← Option.some.inj hp]; exact hs.startOuter
  · split at hp
    · rw [← Option.some.inj hp]; exact hs.outerSubdiag
    · cases hp
  · rw [← Option.some.inj hp]; exact hs.linkNext

private theorem lowerBlock_dims (hs : s.Valid d) {N : Nat} {a b : Blk} {c : Csr}
    (hc : T.lowerBlock N a b = some c) : ∃ p, s.lowerBlock N a b = some p ∧ p.OfDims (d.of a) (d.of b) := by
  have : ∃ p, s.lowerBlock N a b = some p := by
    rcases a with _ | (_ | t) | _ | _ <;> rcases b with _ | u | _ | _ <;>
      simp only [ArrowheadTypes.lowerBlock, ArrowheadSparsity.lowerBlock] at hc ⊢ <;> try contradiction
    all_goals first
      | exact ⟨_, rfl⟩
      | (split at hc
         · rename_i h; exact ⟨_, if_pos h⟩
         · cases hc)
  obtain ⟨p, hp⟩ := this
  exact ⟨p, hp, lowerBlock_dims' hs hp⟩

/-- C21: the types of the blocks of the factor can be instantiated for all template arguments with consistent
dimensions (no static assertion fails and no compile time access is out of range). -/
theorem C21_instantiable (s : ArrowheadSparsity) (d : Dims) (hs : s.Valid d) : ∃ T, arrowheadTypes s = .ok T :=
  let ⟨T, h, _⟩ := arrowheadTypes_sat hs
  ⟨T, h⟩

/-- C21: for every number of repetitions the pattern of the factor is strictly lower triangular, inside of the
dimensions, contains the declared pattern, and is closed under elimination. -/
theorem C21_pattern (s : ArrowheadSparsity) (d : Dims) (hs : s.Valid d) (T : ArrowheadTypes)
    (hT : arrowheadTypes s = .ok T) (N : Nat) :
    (∀ a i b j, T.Has N a i b j → Before N b j a i ∧ i < d.of a ∧ j < d.of b) ∧
    (∀ a i b j, s.PermutedHas N a i b j → T.Has N a i b j) ∧
    ∀ a i b j c k, T.Has N a i c k → T.Has N b j c k → Before N b j a i → T.Has N a i b j :=
  ⟨fun _ _ _ _ h => ⟨types_has_before (typesOk hs hT) h, types_has_range (typesOk hs hT) h⟩,
    fun _ _ _ _ h => types_has_pattern (typesOk hs hT) h,
    fun _ _ _ _ _ _ h1 h2 h3 => types_has_closed (typesOk hs hT) h1 h2 h3⟩

/-- C21: for every number of repetitions there is room for all fill-in of the elimination of the assembled matrix. -/
theorem C21_fill (s : ArrowheadSparsity) (d : Dims) (hs : s.Valid d) (T : ArrowheadTypes)
    (hT : arrowheadTypes s = .ok T) (N : Nat) (a b : Blk) (i j : Nat) (h : BlockFill N (s.PermutedHas N) a i b j) :
    T.Has N a i b j := by
  induction h with
  | base h => exact types_has_pattern (typesOk hs hT) h
  | step _ _ h3 ih1 ih2 => exact types_has_closed (typesOk hs hT) ih1 ih2 h3

/-- C21: for any arithmetic, any previous content, and any matrix whose non-zeros are inside of the pattern of the
factor, `factorize` succeeds: all static assertions hold and every entry to be updated is found. -/
theorem C21_factorize_total {K : Type} [Zero K] [Sub K] [Mul K] [Div K] (s : ArrowheadSparsity) (d : Dims)
    (hs : s.Valid d) (T : ArrowheadTypes) (N : Nat) (f : ArrowheadFactor K) (hf : f.Declared s T d N)
    (m : ArrowheadMatrix K) (hm : m.Fits s T d N) (reg : K → Nat → K) (method : Method) :
    ∃ f', f.factorize d.tridiag d.link d.outer m reg method = .ok f' ∧ f'.Declared s T d N := by
  obtain ⟨f', h, h1, -⟩ := arrowheadFactorize_sat hs (typesOk hs hf.types) hf hm.matrixOk reg method
  exact ⟨f', h, h1⟩

/-- An object of the class constructed for `N` repetitions whose storage contains `x`. -/
def freshFactor {K : Type} (s : ArrowheadSparsity) (T : ArrowheadTypes) (d : Dims) (N : Nat) (x : K) :
    ArrowheadFactor K :=
  { startDiag := ⟨T.startDiag, s.start.permutation, .replicate T.startDiag.entries.length x, .replicate d.start x⟩
    startNext := ⟨T.startNext, s.tridiag.permutation, s.start.permutation, .replicate T.startNext.entries.length x⟩
    startOuter := ⟨T.startOuter, s.outer.permutation, s.start.permutation, .replicate T.startOuter.entries.length x⟩
    tridiagDiag := .replicate (N + 1) ⟨T.tridiagDiag, s.tridiag.permutation,
      .replicate T.tridiagDiag.entries.length x, .replicate d.tridiag x⟩
    tridiagSubdiag := .replicate N ⟨T.tridiagSubdiag, s.tridiag.permutation, s.tridiag.permutation,
      .replicate T.tridiagSubdiag.entries.length x⟩
    linkPrev := ⟨T.linkPrev, s.link.permutation, s.tridiag.permutation, .replicate T.linkPrev.entries.length x⟩
    linkDiag := ⟨T.linkDiag, s.link.permutation, .replicate T.linkDiag.entries.length x, .replicate d.link x⟩
    linkNext := ⟨T.linkNext, s.outer.permutation, s.link.permutation, .replicate T.linkNext.entries.length x⟩
    outerSubdiag := .replicate (N + 1) ⟨T.outerSubdiag, s.outer.permutation, s.tridiag.permutation,
      .replicate T.outerSubdiag.entries.length x⟩
    outerDiag := ⟨T.outerDiag, s.outer.permutation, .replicate T.outerDiag.entries.length x, .replicate d.outer x⟩ }

/-- C21: an object can be constructed for every number of repetitions. -/
theorem C21_constructible {K : Type} (s : ArrowheadSparsity) (d : Dims) (T : ArrowheadTypes)
    (hT : arrowheadTypes s = .ok T) (N : Nat) (x : K) : (freshFactor s T d N x).Declared s T d N :=
  ⟨hT, by simp [freshFactor], by simp [freshFactor], by simp [freshFactor], ⟨rfl, rfl, by simp [freshFactor],
    by simp [freshFactor]⟩, ⟨rfl, rfl, rfl, by simp [freshFactor]⟩, ⟨rfl, rfl, rfl, by simp [freshFactor]⟩,
    fun g hg => by rw [List.eq_of_mem_replicate hg]; exact ⟨rfl, rfl, by simp, by simp⟩,
    fun g hg => by rw [List.eq_of_mem_replicate hg]; exact ⟨rfl, rfl, rfl, by simp⟩,
    ⟨rfl, rfl, rfl, by simp [freshFactor]⟩, ⟨rfl, rfl, by simp [freshFactor], by simp [freshFactor]⟩,
    ⟨rfl, rfl, rfl, by simp [freshFactor]⟩,
    fun g hg => by rw [List.eq_of_mem_replicate hg]; exact ⟨rfl, rfl, rfl, by simp⟩,
    ⟨rfl, rfl, by simp [freshFactor], by simp [freshFactor]⟩⟩

/-- C21: a matrix whose blocks have entries in the declared patterns only can be factorized. -/
theorem C21_within_fits {K : Type} (s : ArrowheadSparsity) (d : Dims) (hs : s.Valid d) (T : ArrowheadTypes)
    (hT : arrowheadTypes s = .ok T) (N : Nat) (m : ArrowheadMatrix K) (h1 : N + 1 ≤ m.tridiagDiag.length)
    (h2 : N ≤ m.tridiagSubdiag.length) (h3 : N + 1 ≤ m.outerSubdiag.length)
    (hd : ∀ b ∈ blocks N, (m.diagBlock b).Sized ∧ (m.diagBlock b).sparsity.OfDims (d.of b) (d.of b) ∧
      ∀ i j, (m.diagBlock b).sparsity.Has i j → (s.diagBlock b).Has i j)
    (hl : ∀ a b q p, m.lowerBlock N a b = some q → s.lowerBlock N a b = some p →
      q.Sized ∧ q.sparsity.OfDims (d.of a) (d.of b) ∧ ∀ i j, q.sparsity.Has i j → p.Has i j) :
    m.Fits s T d N := by
  have hT' := typesOk hs hT
  refine ⟨h1, h2, h3, fun b hb => ⟨(hd b hb).1, (hd b hb).2.1, ?_⟩, fun a b q c hq hc => ?_⟩
  · intro i j h
    have h' : LowerPermuted (s.diagBlock b) (s.perm b) i j := by
      refine ⟨h.1, ?_, (hd b hb).2.2 _ _ h.2.2⟩
      have := h.2.1
      rw [(hd b hb).2.1.2.1] at this
      rwa [(diagBlock_dims hs b).2.1]
    have := types_has_pattern (N := N) (a := b) (b := b) hT' (i := i) (j := j) (Or.inl ⟨rfl, h'⟩)
    rcases this with ⟨-, h⟩ | ⟨G, h, -⟩
    · exact h
    · rcases b with _ | (_ | t) | _ | _
      · cases h
      · cases h
      · simp only [ArrowheadTypes.lowerBlock] at h
        rw [if_neg (by omega)] at h
        cases h
      · cases h
      · cases h
  · obtain ⟨p, hp, hpd⟩ := lowerBlock_dims hs hc
    obtain ⟨hq1, hq2, hq3⟩ := hl a b q p hq hp
    refine ⟨hq1, hq2, fun i j h => ?_⟩
    have h' : RectPermuted p (s.perm a) (s.perm b) i j := by
      obtain ⟨e1, e2, e3⟩ := h
      rw [hq2.2.1] at e1
      rw [hq2.2.2] at e2
      exact ⟨by rwa [hpd.2.1], by rwa [hpd.2.2], hq3 _ _ e3⟩
    have := types_has_pattern (N := N) (a := a) (b := b) hT' (i := i) (j := j)
      (Or.inr ⟨RectPermuted p (s.perm a) (s.perm b), by beta_reduce; rw [hp]; rfl, h'⟩)
    rcases this with ⟨rfl, -⟩ | ⟨G, h, hh⟩
    · exfalso
      rcases a with _ | (_ | t) | _ | _
      · cases hc
      · cases hc
      · simp only [ArrowheadTypes.lowerBlock] at hc
        rw [if_neg (by omega)] at hc
        cases hc
      · cases hc
      · cases hc
    · beta_reduce at h
      rw [hc] at h
      cases h
      exact hh

/-- C21: a matrix with the declared patterns can be factorized. -/
theorem C21_declared_fits {K : Type} (s : ArrowheadSparsity) (d : Dims) (hs : s.Valid d) (T : ArrowheadTypes)
    (hT : arrowheadTypes s = .ok T) (N : Nat) (m : ArrowheadMatrix K) (h1 : N + 1 ≤ m.tridiagDiag.length)
    (h2 : N ≤ m.tridiagSubdiag.length) (h3 : N + 1 ≤ m.outerSubdiag.length)
    (hd : ∀ b ∈ blocks N, (m.diagBlock b).Sized ∧ (m.diagBlock b).sparsity = s.diagBlock b)
    (hl : ∀ a b q, m.lowerBlock N a b = some q → q.Sized ∧ s.lowerBlock N a b = some q.sparsity) :
    m.Fits s T d N := by
  refine C21_within_fits s d hs T hT N m h1 h2 h3 (fun b hb => ⟨(hd b hb).1, ?_, fun i j h => ?_⟩)
    fun a b q p hq hp => ?_
  · rw [(hd b hb).2]; exact diagBlock_dims hs b
  · rwa [(hd b hb).2] at h
  · obtain ⟨e1, e2⟩ := hl a b q hq
    rw [hp] at e2
    cases e2
    refine ⟨e1, ?_, fun _ _ h => h⟩
    exact lowerBlock_dims' hs hp

end

section

variable {K : Type} [Zero K] [Sub K] [Mul K] [Div K]

/-- C26: for any arithmetic the factor computed of a repeating block matrix does not depend on the values stored
before. -/
theorem C26_repeating_history_independent (s : ArrowheadSparsity) (d : Dims) (hs : s.Valid d) (T : ArrowheadTypes)
    (N : Nat) (f g : ArrowheadFactor K) (hf : f.Declared s T d N) (hg : g.Declared s T d N)
    (m : ArrowheadMatrix K) (hm : m.Fits s T d N) (reg : K → Nat → K) (method : Method) :
    f.factorize d.tridiag d.link d.outer m reg method = g.factorize d.tridiag d.link d.outer m reg method :=
  factorize_unique hs (typesOk hs hf.types) hf hg hm.matrixOk hm.matrixOk reg method (chainInput_same_refl _ _ _)

/-- C26: factorizing again gives what a new object would give. -/
theorem C26_repeating_refactorize (s : ArrowheadSparsity) (d : Dims) (hs : s.Valid d) (T : ArrowheadTypes)
    (N : Nat) (f g f' : ArrowheadFactor K) (hf : f.Declared s T d N) (hg : g.Declared s T d N)
    (m m' : ArrowheadMatrix K) (hm : m.Fits s T d N) (hm' : m'.Fits s T d N) (reg reg' : K → Nat → K)
    (method method' : Method) (h : f.factorize d.tridiag d.link d.outer m' reg' method' = .ok f') :
    f'.factorize d.tridiag d.link d.outer m reg method = g.factorize d.tridiag d.link d.outer m reg method := by
  obtain ⟨f'', h1, h2⟩ := C21_factorize_total s d hs T N f hf m' hm' reg' method'
  rw [h] at h1
  cases h1
  exact C26_repeating_history_independent s d hs T N f' g h2 hg m hm reg method

/-- C27: only the lower triangles of the diagonal blocks and the blocks below them matter. -/
theorem C27_repeating_lower_triangle_only (s : ArrowheadSparsity) (d : Dims) (hs : s.Valid d) (T : ArrowheadTypes)
    (N : Nat) (f : ArrowheadFactor K) (hf : f.Declared s T d N) (m m' : ArrowheadMatrix K) (hm : m.Fits s T d N)
    (hm' : m'.Fits s T d N)
    (hd : ∀ a ∈ blocks N, ∀ i j, j ≤ i → (m.diagBlock a).elem i j = (m'.diagBlock a).elem i j)
    (hl : ∀ a b q q', m.lowerBlock N a b = some q → m'.lowerBlock N a b = some q' → ∀ i j, q.elem i j = q'.elem i j)
    (reg : K → Nat → K) (method : Method) :
    f.factorize d.tridiag d.link d.outer m reg method = f.factorize d.tridiag d.link d.outer m' reg method :=
  factorize_unique hs (typesOk hs hf.types) hf hf hm.matrixOk hm'.matrixOk reg method
    (chainInput_same s _ hm.numSubdiag hm.numOuter hm'.numSubdiag hm'.numOuter hd hl)

end

section

variable {K : Type} [Field K]

/-- C34: if no pivot divided by is zero, the assembled `L D Lᵀ` of the computed blocks is the assembled matrix, block-wise
permuted, up to the change of the pivots by the regularization; for every number of repetitions and both methods. -/
theorem C34_reproduces (s : ArrowheadSparsity) (d : Dims) (hs : s.Valid d) (T : ArrowheadTypes) (N : Nat)
    (f : ArrowheadFactor K) (hf : f.Declared s T d N) (m : ArrowheadMatrix K) (hm : m.Fits s T d N)
    (reg : K → Nat → K) (method : Method) (f' : ArrowheadFactor K)
    (h : f.factorize d.tridiag d.link d.outer m reg method = .ok f')
    (hpiv : ∀ a b i j, T.Has N a i b j → f'.pivotAt b j ≠ 0) :
    f'.Declared s T d N ∧ ∃ δ, f'.Reproduces m s d N reg δ := by
  have hT := typesOk hs hf.types
  obtain ⟨h1, h2⟩ := Sat.of_ok (arrowheadFactorize_sat hs hT hf hm.matrixOk reg method) h
  exact ⟨h1, reproduces_of_rows hT h1 hm h2 hpiv⟩

/-- C34: without regularization the assembled `L D Lᵀ` is the assembled matrix, block-wise permuted. -/
theorem C34_none (s : ArrowheadSparsity) (d : Dims) (hs : s.Valid d) (T : ArrowheadTypes) (N : Nat)
    (f : ArrowheadFactor K) (hf : f.Declared s T d N) (m : ArrowheadMatrix K) (hm : m.Fits s T d N)
    (method : Method) (f' : ArrowheadFactor K)
    (h : f.factorize d.tridiag d.link d.outer m regularizationNone method = .ok f')
    (hpiv : ∀ a b i j, T.Has N a i b j → f'.pivotAt b j ≠ 0) (a b : Blk) (ha : a ∈ blocks N) (hb : b ∈ blocks N)
    (i j : Nat) (hi : i < d.of a) (hj : j < d.of b) :
    f'.ldlt d N a b i j = m.symElement N a b (permAt (s.perm a) i) (permAt (s.perm b) j) := by
  obtain ⟨-, δ, h1, h2⟩ := C34_reproduces s d hs T N f hf m hm _ method f' h hpiv
  rw [h2 a ha b hb i hi j hj, show f'.pivotAt a i = δ a i from h1 a ha i hi, sub_self, ite_self, add_zero]

/-- C24: if no pivot divided by is zero, both methods compute the same factor of a repeating block matrix. -/
theorem C24_repeating_agree (s : ArrowheadSparsity) (d : Dims) (hs : s.Valid d) (T : ArrowheadTypes) (N : Nat)
    (f : ArrowheadFactor K) (hf : f.Declared s T d N) (m : ArrowheadMatrix K) (hm : m.Fits s T d N)
    (reg : K → Nat → K) (method method' : Method) (f' : ArrowheadFactor K)
    (h : f.factorize d.tridiag d.link d.outer m reg method = .ok f')
    (hpiv : ∀ a b i j, T.Has N a i b j → f'.pivotAt b j ≠ 0) :
    f.factorize d.tridiag d.link d.outer m reg method' = .ok f' :=
  factorize_method hs (typesOk hs hf.types) hf hm.matrixOk reg method method' h hpiv

/-- C28: with the small positive constant regularization no pivot of a repeating block matrix is zero, hence the
factorization reproduces the matrix up to changes of exactly those pivots whose magnitude was below the tolerance;
these become the constant. -/
theorem C28_repeating_small_positive_constant {K : Type} [Field K] [LinearOrder K] [IsStrictOrderedRing K]
    (s : ArrowheadSparsity) (d : Dims) (hs : s.Valid d) (T : ArrowheadTypes) (N : Nat)
    (f : ArrowheadFactor K) (hf : f.Declared s T d N) (m : ArrowheadMatrix K) (hm : m.Fits s T d N)
    (tol c : K) (ht : 0 < tol) (hc : 0 < c) (method : Method) :
    ∃ f', f.factorize d.tridiag d.link d.outer m (regularizationSmallPositiveConstant (fun x => |x|) tol c) method =
        .ok f' ∧
      (∀ a ∈ blocks N, ∀ i < d.of a, min tol c ≤ |f'.pivotAt a i| ∧ f'.pivotAt a i ≠ 0) ∧
      ∃ δ : Blk → Nat → K,
        (∀ a ∈ blocks N, ∀ i < d.of a,
          (|δ a i| < tol → f'.pivotAt a i = c) ∧ (tol ≤ |δ a i| → f'.pivotAt a i = δ a i)) ∧
        ∀ a ∈ blocks N, ∀ b ∈ blocks N, ∀ i < d.of a, ∀ j < d.of b, f'.ldlt d N a b i j =
          m.symElement N a b (permAt (s.perm a) i) (permAt (s.perm b) j) +
          if a = b ∧ i = j then f'.pivotAt a i - δ a i else 0 := by
  have hT := typesOk hs hf.types
  obtain ⟨f', h, hd, hr⟩ := arrowheadFactorize_sat hs hT hf hm.matrixOk
    (regularizationSmallPositiveConstant (fun x => |x|) tol c) method
  have hmin : ∀ a ∈ blocks N, ∀ i < d.of a, min tol c ≤ |f'.pivotAt a i| := by
    intro a ha i hi
    obtain ⟨x, hx⟩ := pivotAt_reg hd hr ha hi
    rw [hx]
    unfold regularizationSmallPositiveConstant
    beta_reduce
    split
    · rw [abs_of_pos hc]
      exact min_le_right _ _
    · rename_i hx
      exact (min_le_left _ _).trans (not_lt.mp hx)
  have hne : ∀ a ∈ blocks N, ∀ i < d.of a, f'.pivotAt a i ≠ 0 := by
    intro a ha i hi h0
    have := hmin a ha i hi
    rw [h0, abs_zero] at this
    exact absurd this (not_le.mpr (lt_min ht hc))
  refine ⟨f', h, fun a ha i hi => ⟨hmin a ha i hi, hne a ha i hi⟩, ?_⟩
  obtain ⟨δ, h1, h2⟩ := reproduces_of_nonzero hT hd hm hr hne
  refine ⟨δ, fun a ha i hi => ?_, h2⟩
  have := h1 a ha i hi
  unfold regularizationSmallPositiveConstant at this
  constructor
  · intro hlt
    rwa [if_pos hlt] at this
  · intro hge
    rwa [if_neg (not_lt.mpr hge)] at this

end

/-! ### The hypotheses can be met -/

def arrowS : ArrowheadSparsity where
  start := ⟨⟨1, 1, [⟨0, 0⟩]⟩, ⟨2, 1, [⟨0, 0⟩]⟩, ⟨1, 1, [⟨0, 0⟩]⟩, [0]⟩
  tridiag := ⟨⟨2, 2, [⟨0, 0⟩, ⟨1, 0⟩, ⟨1, 1⟩]⟩, ⟨2, 2, [⟨0, 1⟩]⟩, [1, 0]⟩
  link := ⟨⟨1, 2, [⟨0, 0⟩]⟩, ⟨1, 1, [⟨0, 0⟩]⟩, ⟨1, 1, [⟨0, 0⟩]⟩, [0]⟩
  outer := ⟨⟨1, 2, []⟩, ⟨1, 1, [⟨0, 0⟩]⟩, [0]⟩

def arrowD : Dims := ⟨1, 2, 1, 1⟩

def arrowM : ArrowheadMatrix ℚ where
  startDiag := ⟨⟨1, 1, [⟨0, 0⟩]⟩, [2]⟩
  startNext := ⟨⟨2, 1, [⟨0, 0⟩]⟩, [1]⟩
  startOuter := ⟨⟨1, 1, [⟨0, 0⟩]⟩, [-1]⟩
  tridiagDiag := [⟨⟨2, 2, [⟨0, 0⟩, ⟨1, 0⟩, ⟨1, 1⟩]⟩, [3, 1, 4]⟩, ⟨⟨2, 2, [⟨0, 0⟩, ⟨1, 0⟩, ⟨1, 1⟩]⟩, [5, 1, 4]⟩]
  tridiagSubdiag := [⟨⟨2, 2, [⟨0, 1⟩]⟩, [1]⟩]
  linkPrev := ⟨⟨1, 2, [⟨0, 0⟩]⟩, [1]⟩
  linkDiag := ⟨⟨1, 1, [⟨0, 0⟩]⟩, [3]⟩
  linkNext := ⟨⟨1, 1, [⟨0, 0⟩]⟩, [1]⟩
  outerSubdiag := [⟨⟨1, 2, []⟩, []⟩, ⟨⟨1, 2, []⟩, []⟩]
  outerDiag := ⟨⟨1, 1, [⟨0, 0⟩]⟩, [7]⟩

theorem arrowS_valid : arrowS.Valid arrowD := by
  constructor <;> first
    | exact ⟨by unfold Sparsity.InRange; decide, rfl, rfl⟩
    | (unfold IsPerm; decide)
    | decide

theorem arrowM_fits {T : ArrowheadTypes} (hT : arrowheadTypes arrowS = .ok T) : arrowM.Fits arrowS T arrowD 1 := by
  refine C21_declared_fits arrowS arrowD arrowS_valid T hT 1 arrowM (by decide) (by decide) (by decide) ?_ ?_
  · have : ∀ b ∈ ([.start, .tridiag 0, .tridiag 1, .link, .outer] : List Blk), (arrowM.diagBlock b).Sized ∧
        (arrowM.diagBlock b).sparsity = arrowS.diagBlock b := by
      unfold MatIn.Sized
      decide +kernel
    intro b hb
    refine this b ?_
    rw [mem_blocks] at hb
    rcases b with _ | (_ | _ | t) | _ | _
    any_goals simp
    have := hb _ rfl
    omega
  · intro a b q h
    rcases a with _ | (_ | t) | _ | _ <;> rcases b with _ | u | _ | _ <;>
      simp only [ArrowheadMatrix.lowerBlock] at h <;> try contradiction
    · rw [← Option.some.inj h]
      exact ⟨rfl, rfl⟩
    · split at h
      · next hc =>
        obtain ⟨rfl, hc⟩ := hc
        obtain rfl : u = 0 := by omega
        rw [← Option.some.inj h]
        exact ⟨rfl, rfl⟩
      · cases h
    · split at h
      · next hc =>
        subst hc
        rw [← Option.some.inj h]
        exact ⟨rfl, rfl⟩
      · cases h
    · rw [← Option.some.inj h]
      exact ⟨rfl, rfl⟩
    · split at h
      · next hc =>
        rcases u with _ | _ | u
        · rw [← Option.some.inj h]
          exact ⟨rfl, rfl⟩
        · rw [← Option.some.inj h]
          exact ⟨rfl, rfl⟩
        · omega
      · cases h
    · rw [← Option.some.inj h]
      exact ⟨rfl, rfl⟩

/-- The hypotheses of the theorems above are met with non-zero pivots, permuted blocks, and fill-in in the outer
blocks. -/
example : (do
    let T ← arrowheadTypes arrowS
    let f ← (freshFactor arrowS T arrowD 1 (17 : ℚ)).factorize 2 1 1 arrowM regularizationNone .upLooking
    return ([f.startDiag.D, f.linkDiag.D, f.outerDiag.D] ++ f.tridiagDiag.map DiagFactor.D, T.outerSubdiag.entries)
      : Res _) =
    .ok ([[2], [447 / 161], [1799 / 298], [4, 9 / 4], [4, 161 / 36]], [⟨0, 1⟩]) := by decide +kernel

end Ctldl
