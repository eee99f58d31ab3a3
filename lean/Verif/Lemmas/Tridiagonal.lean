import Verif.Spec.Tridiagonal
import Verif.Props.ArrowheadSolve

/-! # The class for block tridiagonal matrices as arrowhead class with empty blocks -/

namespace Ctldl.Tridiagonal

open Finset

variable {K : Type}

/-- The description handed on. -/
def emptied (spA spB : Sparsity) (p : List Nat) (n : Nat) : ArrowheadSparsity where
  start := ⟨emptySparsity 0 0, emptySparsity n 0, emptySparsity 0 0, identityPermutation 0⟩
  tridiag := ⟨spA, spB, p⟩
  link := ⟨emptySparsity 0 n, emptySparsity 0 0, emptySparsity 0 0, identityPermutation 0⟩
  outer := ⟨emptySparsity 0 n, emptySparsity 0 0, identityPermutation 0⟩

theorem tridiagonalSparsity_eq {spA spB : Sparsity} {p : List Nat} {n : Nat}
    (h : ValidTridiagonal spA spB p n) : tridiagonalSparsity spA spB p = .ok (emptied spA spB p n) := by
  obtain ⟨-, h1, h2⟩ := h.diag
  obtain ⟨-, h3, h4⟩ := h.subdiag
  unfold tridiagonalSparsity emptied isSquare
  rw [h1, h2, h3, h4]
  simp [staticAssert]
  rfl

theorem empty_ofDims (r c : Nat) : (emptySparsity r c).OfDims r c :=
  ⟨(by intro e he; cases he), rfl, rfl⟩

theorem emptied_valid {spA spB : Sparsity} {p : List Nat} {n : Nat} (h : ValidTridiagonal spA spB p n) :
    (emptied spA spB p n).Valid ⟨0, n, 0, 0⟩ := by
  have := h.small
  exact ⟨empty_ofDims 0 0, empty_ofDims n 0, empty_ofDims 0 0, h.diag, h.subdiag, empty_ofDims 0 n, empty_ofDims 0 0,
    empty_ofDims 0 0, empty_ofDims 0 n, empty_ofDims 0 0, isPerm_identity 0, h.perm, isPerm_identity 0,
    isPerm_identity 0, by simp only; omega, by simp only; omega, by simp only; omega⟩

theorem declared_of {f : ArrowheadFactor K} {spA spB : Sparsity} {p : List Nat} {T : ArrowheadTypes}
    {n N : Nat} (h : ValidTridiagonal spA spB p n) (hf : TridiagonalDeclared f spA spB p T n N) :
    f.Declared (emptied spA spB p n) T ⟨0, n, 0, 0⟩ N := by
  obtain ⟨s, h1, h2⟩ := hf
  rw [tridiagonalSparsity_eq h] at h1
  cases h1
  exact h2

theorem empty_lower (r c : Nat) (p : List Nat) (i j : Nat) : ¬ LowerPermuted (emptySparsity r c) p i j := by
  rintro ⟨-, -, h⟩
  cases h

theorem empty_rect (r c : Nat) (p q : List Nat) (i j : Nat) : ¬ RectPermuted (emptySparsity r c) p q i j := by
  rintro ⟨-, -, h⟩
  cases h

theorem fits_of {A B : List (MatIn K)} {spA spB : Sparsity} {p : List Nat} {T : ArrowheadTypes} {n N : Nat}
    (h : TridiagonalFits A B p T n N) :
    (tridiagonalMatrix n N A B).Fits (emptied spA spB p n) T ⟨0, n, 0, 0⟩ N := by
  refine ⟨h.numA, h.numB, by simp [tridiagonalMatrix], fun b hb => ?_, fun a b q c hq hc => ?_⟩
  · cases b with
    | start => exact ⟨rfl, empty_ofDims 0 0, fun i j hh => absurd hh (empty_lower 0 0 _ i j)⟩
    | tridiag t => exact h.diag t (mem_blocks.mp hb t rfl)
    | link => exact ⟨rfl, empty_ofDims 0 0, fun i j hh => absurd hh (empty_lower 0 0 _ i j)⟩
    | outer => exact ⟨rfl, empty_ofDims 0 0, fun i j hh => absurd hh (empty_lower 0 0 _ i j)⟩
  · rcases a with _ | (_ | t) | _ | _ <;> rcases b with _ | u | _ | _ <;>
      simp only [ArrowheadMatrix.lowerBlock] at hq <;> try contradiction
    · rw [← Option.some.inj hq]
      exact ⟨rfl, empty_ofDims n 0, fun i j hh => absurd hh (empty_rect n 0 _ _ i j)⟩
    · split at hq
      · next hu =>
        obtain ⟨rfl, hu⟩ := hu
        have hc' : T.tridiagSubdiag = c := by
          simp only [ArrowheadTypes.lowerBlock] at hc
          rw [if_pos (show _ ∧ _ from ⟨trivial, hu⟩)] at hc
          exact Option.some.inj hc
        have hq' : B[u]? = some q := hq
        rw [getElem?_eq_getD (show u < B.length by have := h.numB; omega) (.empty K)] at hq'
        rw [← Option.some.inj hq', ← hc']
        exact h.subdiag u hu
      · cases hq
    · split at hq
      · rw [← Option.some.inj hq]
        exact ⟨rfl, empty_ofDims 0 n, fun i j hh => absurd hh (empty_rect 0 n _ _ i j)⟩
      · cases hq
    · rw [← Option.some.inj hq]
      exact ⟨rfl, empty_ofDims 0 0, fun i j hh => absurd hh (empty_rect 0 0 _ _ i j)⟩
    · split at hq
      · next hu =>
        have hq' : (List.replicate (N + 1) (emptyMatrixInput K 0 n))[u]? = some q := hq
        rw [List.getElem?_replicate, if_pos (by omega)] at hq'
        rw [← Option.some.inj hq']
        exact ⟨rfl, empty_ofDims 0 n, fun i j hh => absurd hh (empty_rect 0 n _ _ i j)⟩
      · cases hq
    · rw [← Option.some.inj hq]
      exact ⟨rfl, empty_ofDims 0 0, fun i j hh => absurd hh (empty_rect 0 0 _ _ i j)⟩

theorem vector_of {v : List (List K)} {n N : Nat} (h : BlockVector v n N) :
    (⟨[], v, [], []⟩ : ArrowheadVector K).OfSize ⟨0, n, 0, 0⟩ N :=
  ⟨h.num, rfl, h.size, rfl, rfl⟩

theorem of_vector {v : ArrowheadVector K} {n N : Nat} (h : v.OfSize ⟨0, n, 0, 0⟩ N) :
    v = ⟨[], v.tridiag, [], []⟩ ∧ BlockVector v.tridiag n N := by
  obtain ⟨a, b, c, d⟩ := v
  have h1 := List.length_eq_zero_iff.mp h.start
  have h2 := List.length_eq_zero_iff.mp h.link
  have h3 := List.length_eq_zero_iff.mp h.outer
  simp only at h1 h2 h3
  subst h1 h2 h3
  exact ⟨rfl, h.num, h.tridiag⟩

theorem symElement_eq [Zero K] {A B : List (MatIn K)} {n N : Nat} (hB : N ≤ B.length) {t u : Nat}
    (ht : t < N + 1) (hu : u < N + 1) (i j : Nat) :
    (tridiagonalMatrix n N A B).symElement N (.tridiag t) (.tridiag u) i j = tridiagonalSym A B t u i j := by
  have key : ∀ t u, t < N + 1 → u < N + 1 → (tridiagonalMatrix n N A B).lowerBlock N (.tridiag t) (.tridiag u) =
      if t = u + 1 then some (B.getD u (.empty K)) else none := by
    intro t u ht hu
    cases t with
    | zero =>
      rw [if_neg (by omega)]
      rfl
    | succ t =>
      simp only [ArrowheadMatrix.lowerBlock]
      by_cases h : u = t
      · subst h
        rw [if_pos (show _ ∧ _ from ⟨rfl, by omega⟩), if_pos rfl]
        exact getElem?_eq_getD (show u < B.length by omega) _
      · rw [if_neg (fun hh => h hh.1), if_neg (by omega)]
  unfold ArrowheadMatrix.symElement assembledElement tridiagonalSym
  beta_reduce
  rw [key t u ht hu, key u t hu ht]
  by_cases h1 : t = u
  · rw [if_pos (by rw [h1]), if_pos h1]
    rfl
  · rw [if_neg (fun h => h1 (Blk.tridiag.inj h)), if_neg h1]
    by_cases h2 : t = u + 1
    · rw [if_pos h2, if_pos h2]
      rfl
    · rw [if_neg h2, if_neg h2]
      by_cases h3 : u = t + 1
      · rw [if_pos h3, if_pos h3]
        rfl
      · rw [if_neg h3, if_neg h3]
        rfl

theorem sum_tridiag [AddCommMonoid K] {n N : Nat} (F : Blk → Nat → K) :
    ∑ b ∈ blocks N, ∑ j ∈ range ((⟨0, n, 0, 0⟩ : Dims).of b), F b j =
      ∑ u ∈ range (N + 1), ∑ j ∈ range n, F (.tridiag u) j := by
  rw [sum_blocks]
  simp [Dims.of]

theorem factorize_eq [Zero K] [Sub K] [Mul K] [Div K] {f : ArrowheadFactor K} {s : ArrowheadSparsity}
    {T : ArrowheadTypes} {d : Dims} {n N : Nat} (hf : f.Declared s T d N) (A B : List (MatIn K)) (reg : K → Nat → K)
    (method : Method) :
    tridiagonalFactorize n f A B reg method = f.factorize n 0 0 (tridiagonalMatrix n N A B) reg method := by
  unfold tridiagonalFactorize ArrowheadFactor.numRepetitions
  rw [hf.numSubdiag]

theorem pivots_of [Zero K] {f : ArrowheadFactor K} {n N : Nat}
    (h : ∀ t < N + 1, ∀ i < n, f.pivotAt (.tridiag t) i ≠ 0) :
    ∀ a ∈ blocks N, ∀ i < (⟨0, n, 0, 0⟩ : Dims).of a, f.pivotAt a i ≠ 0 := by
  intro a ha i hi
  cases a with
  | tridiag t => exact h t (mem_blocks.mp ha t rfl) i hi
  | start => cases hi
  | link => cases hi
  | outer => cases hi

end Ctldl.Tridiagonal
