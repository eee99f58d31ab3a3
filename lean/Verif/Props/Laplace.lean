import Verif.Lemmas.Laplace
import Verif.Props.TestFunctor
import Verif.Props.TridiagonalRounding

/-! # C56: the tridiagonal test matrix -/

namespace Ctldl

open Finset

/-- C56: the blocks of the tridiagonal test matrix are lower triangles with full diagonal, without repeated entries. -/
theorem C56_valid {K : Type} [Field K] (n : Nat) (hn : 0 < n) (p : List Nat) (hp : IsPerm p n) (hs : 2 * n ≤ noParent) :
    ValidTridiagonal (testMatrixTridiagonal K n).sparsity (testMatrixSingleEntryTopRight K n).sparsity p n ∧
      (testMatrixTridiagonal K n).sparsity.LowerFull n ∧ (testMatrixTridiagonal K n).Sized ∧
      (testMatrixSingleEntryTopRight K n).sparsity.entries.Nodup ∧ (testMatrixSingleEntryTopRight K n).Sized := by
  have hmem : ∀ e ∈ (testMatrixTridiagonal K n).sparsity.entries, e.row < n ∧ (e.row = e.col ∨ e.row = e.col + 1) :=
    fun e he => tridiagonal_has.mp he
  have hA : (testMatrixTridiagonal K n).sparsity.OfDims n n := ⟨fun e he => by
    have := hmem e he
    exact ⟨this.1, show e.col < n by omega⟩, rfl, rfl⟩
  refine ⟨⟨hA, ⟨fun e he => ?_, rfl, rfl⟩, hp, hs⟩, ⟨hA, ?_, fun e he => ?_, fun i hi => ?_⟩, ?_, ?_, rfl⟩
  · rw [List.mem_singleton.mp he]
    exact ⟨hn, show n - 1 < n by omega⟩
  · unfold testMatrixTridiagonal
    refine List.Nodup.append ?_ ?_ ?_
    · exact (List.nodup_range).map fun a b h => congrArg Entry.row h
    · exact (List.nodup_range').map fun a b h => congrArg Entry.row h
    · intro e h1 h2
      obtain ⟨a, -, rfl⟩ := List.mem_map.mp h1
      obtain ⟨b, hb, h3⟩ := List.mem_map.mp h2
      have := List.mem_range'_1.mp hb
      have h4 := congrArg Entry.row h3
      have h5 := congrArg Entry.col h3
      simp only at h4 h5
      omega
  · have := hmem e he
    omega
  · exact tridiagonal_has.mpr ⟨hi, Or.inl rfl⟩
  · simp [MatIn.Sized, testMatrixTridiagonal]
  · exact List.nodup_singleton _

/-- C56: the block tridiagonal matrix built of the test matrices is, for every block dimension, the matrix of second
differences. -/
theorem C56_elements {K : Type} [Field K] (n N t u i j : Nat) (ht : t < N + 1) (hu : u < N + 1) (hi : i < n) (hj : j < n) :
    tridiagonalSym (List.replicate (N + 1) (testMatrixTridiagonal K n))
      (List.replicate N (testMatrixSingleEntryTopRight K n)) t u i j = laplace (t * n + i) (u * n + j) := by
  have hA : ∀ t < N + 1, (List.replicate (N + 1) (testMatrixTridiagonal K n)).getD t (.empty K) =
      testMatrixTridiagonal K n := fun t ht => by
    rw [List.getD_eq_getElem _ _ (by rw [List.length_replicate]; exact ht), List.getElem_replicate]
  have hB : ∀ t < N, (List.replicate N (testMatrixSingleEntryTopRight K n)).getD t (.empty K) =
      testMatrixSingleEntryTopRight K n := fun t ht => by
    rw [List.getD_eq_getElem _ _ (by rw [List.length_replicate]; exact ht), List.getElem_replicate]
  rw [laplace_mul hi hj]
  unfold tridiagonalSym
  by_cases h1 : t = u
  · rw [if_pos h1, if_pos h1, hA t ht]
    unfold MatIn.sym
    rw [tridiagonal_elem (by omega) (by omega)]
    congr 1
    · exact propext (by omega)
    · congr 1
      exact propext (by omega)
  · rw [if_neg h1, if_neg h1]
    by_cases h2 : t = u + 1
    · rw [if_pos h2, if_pos h2, hB u (by omega), topRight_elem]
    · rw [if_neg h2, if_neg h2]
      by_cases h3 : u = t + 1
      · rw [if_pos h3, if_pos h3, hB t (by omega), topRight_elem]
      · rw [if_neg h3, if_neg h3]

/-- Sums over the positions of the matrix by rows. -/
theorem sum_linear_positions {K : Type} [AddCommMonoid K] (n N : Nat) (hn : 0 < n) (g : Nat → K) :
    ∑ k ∈ tridiagonalPositions n N, g (k.1 * n + k.2) = ∑ a ∈ range ((N + 1) * n), g a := by
  unfold tridiagonalPositions
  refine sum_nbij' (fun k => k.1 * n + k.2) (fun a => (a / n, a % n)) ?_ ?_ ?_ ?_ ?_
  · rintro ⟨t, i⟩ h
    rw [mem_product, mem_range, mem_range] at h
    rw [mem_range]
    simp only at h ⊢
    have : t * n + n ≤ (N + 1) * n := by
      rw [← Nat.succ_mul]
      exact Nat.mul_le_mul_right n h.1
    omega
  · intro a ha
    rw [mem_range] at ha
    rw [mem_product, mem_range, mem_range]
    exact ⟨Nat.div_lt_of_lt_mul (by rwa [Nat.mul_comm]), Nat.mod_lt _ hn⟩
  · rintro ⟨t, i⟩ h
    rw [mem_product, mem_range, mem_range] at h
    simp only at h ⊢
    rw [Nat.mul_comm, Nat.mul_add_div hn, Nat.div_eq_of_lt h.2, Nat.mul_add_mod, Nat.mod_eq_of_lt h.2, Nat.add_zero]
  · intro a _
    simp only
    rw [Nat.mul_comm]
    exact Nat.div_add_mod a n
  · intro k _
    rfl

section

variable {K : Type} [Field K] [LinearOrder K] [IsStrictOrderedRing K]

/-- C56: this matrix is positive definite, for every block dimension and number of repetitions, with a margin of about
two over the square of the number of rows. -/
theorem C56_positive_definite (n N : Nat) (hn : 0 < n) (μ : K)
    (hμ : μ * ((((N + 1) * n : Nat) : K) * (((N + 1) * n : Nat) + 1)) < 2) :
    PosDef (tridiagonalPositions n N) μ (tridiagonalAssembled (List.replicate (N + 1) (testMatrixTridiagonal K n))
      (List.replicate N (testMatrixSingleEntryTopRight K n))) := by
  intro x hx
  let y : Nat → K := fun a => x (a / n, a % n)
  have hy : ∀ k ∈ tridiagonalPositions n N, x k = y (k.1 * n + k.2) := by
    rintro ⟨t, i⟩ h
    unfold tridiagonalPositions at h
    rw [mem_product, mem_range, mem_range] at h
    simp only [y] at h ⊢
    rw [Nat.mul_comm, Nat.mul_add_div hn, Nat.div_eq_of_lt h.2, Nat.mul_add_mod, Nat.mod_eq_of_lt h.2, Nat.add_zero]
  have e1 : ∑ k ∈ tridiagonalPositions n N, x k ^ 2 = ∑ a ∈ range ((N + 1) * n), y a ^ 2 := by
    rw [← sum_linear_positions n N hn fun a => y a ^ 2]
    exact sum_congr rfl fun k hk => by rw [hy k hk]
  have e2 : ∑ k ∈ tridiagonalPositions n N, ∑ l ∈ tridiagonalPositions n N, x k * tridiagonalAssembled
      (List.replicate (N + 1) (testMatrixTridiagonal K n)) (List.replicate N (testMatrixSingleEntryTopRight K n)) k l *
      x l = ∑ a ∈ range ((N + 1) * n), ∑ b ∈ range ((N + 1) * n), y a * laplace a b * y b := by
    rw [← sum_linear_positions n N hn fun a => ∑ b ∈ range ((N + 1) * n), y a * laplace a b * y b]
    refine sum_congr rfl fun k hk => ?_
    rw [← sum_linear_positions n N hn fun b => y (k.1 * n + k.2) * laplace (k.1 * n + k.2) b * y b]
    refine sum_congr rfl fun l hl => ?_
    rw [hy k hk, hy l hl]
    unfold tridiagonalPositions at hk hl
    rw [mem_product, mem_range, mem_range] at hk hl
    unfold tridiagonalAssembled
    rw [C56_elements n N k.1 l.1 k.2 l.2 hk.1 hl.1 hk.2 hl.2]
  rw [e1, e2]
  refine laplace_posDef _ μ hμ y ?_
  obtain ⟨k, hk, h0⟩ := hx
  refine ⟨k.1 * n + k.2, ?_, by rwa [← hy k hk]⟩
  unfold tridiagonalPositions at hk
  rw [mem_product, mem_range, mem_range] at hk
  have : k.1 * n + n ≤ (N + 1) * n := by
    rw [← Nat.succ_mul]
    exact Nat.mul_le_mul_right n hk.1
  omega

/-- C56: the test with this matrix passes with equality in exact arithmetic, for every block dimension, permutation,
number of repetitions, method and solution, if the tolerance of the regularization is not too large. -/
theorem C56_test (n : Nat) (hn : 0 < n) (p : List Nat) (hp : IsPerm p n) (hs : 2 * n ≤ noParent) (N : Nat) (tol c : K)
    (htol : 0 < tol) (hsmall : tol * ((((N + 1) * n : Nat) : K) * (((N + 1) * n : Nat) + 1)) < 2) (f : ArrowheadFactor K)
    (T : ArrowheadTypes) (hf : TridiagonalDeclared f (testMatrixTridiagonal K n).sparsity
      (testMatrixSingleEntryTopRight K n).sparsity p T n N) (method : Method) (v : List K)
    (hv : v.length = (N + 1) * n) :
    testRepeating id id id (testMatrixTridiagonal K n).sparsity (testMatrixSingleEntryTopRight K n).sparsity p f
      (List.replicate (N + 1) (testMatrixTridiagonal K n)) (List.replicate N (testMatrixSingleEntryTopRight K n))
      (regularizationSmallPositiveConstant (|·|) tol c) method v = .ok (v, v) := by
  obtain ⟨h1, h2, h3, h4, h5⟩ := C56_valid (K := K) n hn p hp hs
  have hm : TridiagonalFits (List.replicate (N + 1) (testMatrixTridiagonal K n))
      (List.replicate N (testMatrixSingleEntryTopRight K n)) p T n N := by
    refine C37_declared_fits _ _ p n h1 N f T hf _ _ (by simp) (by simp) (fun t ht => ?_) fun t ht => ?_
    · rw [List.getD_eq_getElem _ _ (by rw [List.length_replicate]; exact ht), List.getElem_replicate]
      exact ⟨h3, rfl⟩
    · rw [List.getD_eq_getElem _ _ (by rw [List.length_replicate]; exact ht), List.getElem_replicate]
      exact ⟨h5, rfl⟩
  have hz : BlockVector (List.replicate (N + 1) (List.replicate n (0 : K))) n N :=
    ⟨by simp, fun b hb => by rw [List.eq_of_mem_replicate hb, List.length_replicate]⟩
  have hpd := C56_positive_definite n N hn tol hsmall
  obtain ⟨f', -, g1, g2, -⟩ := C48_tridiagonal_solve _ _ p n h1 N f T hf _ _ hm (fun _ => True) tol htol.le
    ⟨fun x hx _ => hpd x hx, fun x hx h0 => by
      obtain ⟨k, hk, hne⟩ := hx
      exact absurd (h0 k hk trivial) hne⟩ regularizationNone (fun _ _ _ => rfl) method _ hz
  refine C55_tridiagonal _ _ p n h1 hn N f T hf _ _ hm (by simp) (by simp) (fun m hm => ?_) (fun m hm => ?_) method f' g1
    tol c htol (fun t ht i hi => ?_) v hv
  · rw [List.eq_of_mem_replicate hm]
    exact ⟨h2.2.1, h2.2.2.1⟩
  · rw [List.eq_of_mem_replicate hm]
    exact h4
  · have := (g2 t ht i hi).1 trivial
    exact this.le.trans (le_abs_self _)

/-- Such objects exist: the claims are not about nothing. -/
example : ∃ (f : ArrowheadFactor ℚ) (T : ArrowheadTypes), TridiagonalDeclared f (testMatrixTridiagonal ℚ 3).sparsity
      (testMatrixSingleEntryTopRight ℚ 3).sparsity [2, 0, 1] T 3 9 ∧
    testRepeating id id id (testMatrixTridiagonal ℚ 3).sparsity (testMatrixSingleEntryTopRight ℚ 3).sparsity [2, 0, 1] f
      (List.replicate 10 (testMatrixTridiagonal ℚ 3)) (List.replicate 9 (testMatrixSingleEntryTopRight ℚ 3))
      (regularizationSmallPositiveConstant (|·|) (1 / 1000) 1) .upLooking ((List.range 30).map fun (i : Nat) => (i : ℚ)) =
      .ok ((List.range 30).map fun (i : Nat) => (i : ℚ), (List.range 30).map fun (i : Nat) => (i : ℚ)) := by
  have hp : IsPerm [2, 0, 1] 3 := by unfold IsPerm; decide
  obtain ⟨h1, -⟩ := C56_valid (K := ℚ) 3 (by decide) [2, 0, 1] hp (by decide)
  obtain ⟨f, T, hf⟩ := C37_constructible (K := ℚ) _ _ [2, 0, 1] 3 h1 9 0
  exact ⟨f, T, hf, C56_test 3 (by decide) [2, 0, 1] hp (by decide) 9 (1 / 1000) 1 (by norm_num) (by norm_num) f T hf
    .upLooking _ (by simp)⟩

end

end Ctldl
