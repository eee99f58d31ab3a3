import Verif.Model.TestSuite
import Verif.Props.Laplace
import Verif.Props.TestSuite
import Verif.Props.EndToEnd
import Mathlib.Tactic.Positivity
import Mathlib.Tactic.Linarith
import Mathlib.Tactic.Ring
import Mathlib.Tactic.NormNum

/-! # C60: what the tests with the other matrices compute in exact arithmetic -/

namespace Ctldl

open Finset Tridiagonal

section definite

/-- The matrix with `μ` subtracted from the elements stored on the diagonal. -/
private def shifted (m : MatIn ℚ) (μ : ℚ) : MatIn ℚ :=
  ⟨m.sparsity, List.zipWith (fun e v => if e.row = e.col then v - μ else v) m.sparsity.entries m.values⟩

private def shiftedPivots (m : MatIn ℚ) (μ : ℚ) : Res (List ℚ) := do
  let p := List.range m.sparsity.numRows
  let S ← factorizationSparsity m.sparsity p
  let f ← DiagFactor.factorize ⟨S, p, List.replicate S.entries.length 0, List.replicate m.sparsity.numRows 0⟩
    (shifted m μ) regularizationNone .upLooking
  return f.D

private def isPositive : Res (List ℚ) → Bool
  | .ok l => l.all fun x => decide (0 < x)
  | _ => false

private theorem posDef_of_shifted (m : MatIn ℚ) (μ : ℚ) (hv : ValidSparsity m.sparsity (List.range m.sparsity.numRows))
    (hs : m.Sized) (hsym : ∀ i < m.sparsity.numRows, ∀ j < m.sparsity.numRows,
      (shifted m μ).sym i j = m.sym i j - if i = j then μ else 0)
    (h : isPositive (shiftedPivots m μ) = true) : PosDef (range m.sparsity.numRows) μ m.sym := by
  unfold shiftedPivots at h
  dsimp only at h
  cases hS : factorizationSparsity m.sparsity (List.range m.sparsity.numRows) with
  | error e => rw [hS, error_bind] at h; cases h
  | ok S =>
    rw [hS, ok_bind] at h
    have hf : DiagFactor.Declared (K := ℚ) ⟨S, List.range m.sparsity.numRows, List.replicate S.entries.length 0,
        List.replicate m.sparsity.numRows 0⟩ m.sparsity (List.range m.sparsity.numRows) :=
      ⟨hS, rfl, by simp, by simp⟩
    have hm : (shifted m μ).Fits m.sparsity (List.range m.sparsity.numRows) :=
      ⟨by
        unfold MatIn.Sized shifted at *
        dsimp only
        rw [List.length_zipWith, hs, Nat.min_self], hv.inRange, rfl, hv.square.symm, fun i j h => .base h h.1⟩
    obtain ⟨f', h1, h2⟩ := C25_factorize_total _ _ hv _ hf _ hm regularizationNone .upLooking
    rw [h1, ok_bind] at h
    have hpos : ∀ x ∈ f'.D, 0 < x := fun x hx => of_decide_eq_true (List.all_eq_true.mp h x hx)
    have hpd := (C48_positive_iff _ _ hv _ hf _ hm .upLooking f' h1).mp fun i hi => by
      unfold DiagFactor.pivot
      have : i < f'.D.length := by rw [h2.sizeD]; exact hi
      rw [List.getD_eq_getElem _ _ this]
      exact hpos _ (List.getElem_mem this)
    intro x hx
    have := hpd x hx
    rw [zero_mul, sum_congr rfl fun i hi => sum_congr rfl fun j hj => by
      rw [hsym i (mem_range.mp hi) j (mem_range.mp hj), mul_sub, sub_mul]] at this
    simp only [sum_sub_distrib] at this
    rw [sub_pos] at this
    refine lt_of_eq_of_lt ?_ this
    rw [mul_sum]
    refine sum_congr rfl fun i hi => ?_
    rw [sum_eq_single i (fun j _ hne => by rw [if_neg (Ne.symm hne), mul_zero, zero_mul]) fun h => absurd hi h, if_pos rfl]
    ring

end definite

/-- C60: the matrix LFAT5 of the tests is positive definite. -/
theorem C60_lfat5_positive_definite : PosDef (range 14) (1 / 10) testMatrixLFAT5.sym :=
  posDef_of_shifted testMatrixLFAT5 (1 / 10) ⟨by unfold Sparsity.InRange; decide, rfl, by unfold IsPerm; decide, by decide⟩
    rfl (by decide +kernel) (by decide +kernel)

/-- C60: the diagonal block of NOS2 of the tests is positive definite. -/
theorem C60_nos2_block_positive_definite : PosDef (range 3) 600000 testMatrixNos2A.sym :=
  posDef_of_shifted testMatrixNos2A 600000 ⟨by unfold Sparsity.InRange; decide, rfl, by unfold IsPerm; decide, by decide⟩
    rfl (by decide +kernel) (by decide +kernel)

private theorem single_passes (m : MatIn ℚ) (μ : ℚ) (hμ : PosDef (range m.sparsity.numRows) μ m.sym) (p : List Nat)
    (hv : ValidSparsity m.sparsity p) (hs : m.Sized) (hnodup : m.sparsity.entries.Nodup)
    (hlow : ∀ e ∈ m.sparsity.entries, e.col ≤ e.row) (f : DiagFactor ℚ) (hf : f.Declared m.sparsity p) (method : Method)
    (tol c : ℚ) (htol : 0 < tol) (hle : tol ≤ μ) (x : List ℚ) (hx : x.length = m.sparsity.numRows) :
    testSingle id id id m.sparsity.numRows p f m (regularizationSmallPositiveConstant (|·|) tol c) method x = .ok (x, x) := by
  have hm : m.Fits m.sparsity p := ⟨hs, hv.inRange, rfl, hv.square.symm, fun i j h => .base h h.1⟩
  obtain ⟨f', h1, -, h2, -⟩ := C48_quasidefinite _ p hv f hf m hm (fun _ => True) μ (htol.le.trans hle)
    ⟨fun y hy _ => hμ y hy, fun y hy h0 => by
      obtain ⟨k, hk, hne⟩ := hy
      exact absurd (h0 k hk trivial) hne⟩ regularizationNone (fun _ _ _ => rfl) method
  exact C55_single _ p hv f hf m hm hnodup hlow method f' h1 tol c htol
    (fun i hi => (hle.trans ((h2 i hi).1 trivial).le).trans (le_abs_self _)) x hx

/-- C60: the test with LFAT5 passes in exact arithmetic for every permutation (the test runs one), method and
solution, if the tolerance of the regularization is at most 1/10. -/
theorem C60_lfat5 (p : List Nat) (hp : IsPerm p 14) (f : DiagFactor ℚ) (hf : f.Declared testMatrixLFAT5.sparsity p)
    (method : Method) (tol c : ℚ) (htol : 0 < tol) (hle : tol ≤ 1 / 10) (x : List ℚ) (hx : x.length = 14) :
    testSingle id id id 14 p f testMatrixLFAT5 (regularizationSmallPositiveConstant (|·|) tol c) method x = .ok (x, x) :=
  single_passes testMatrixLFAT5 (1 / 10) C60_lfat5_positive_definite p
    ⟨by unfold Sparsity.InRange; decide, rfl, hp, by decide⟩ rfl (by decide) (by decide) f hf method tol c htol hle x hx

/-- C60: the test with the diagonal block of NOS2 passes in exact arithmetic for every permutation, method and solution, if
the tolerance of the regularization is at most 600000. -/
theorem C60_nos2_block (p : List Nat) (hp : IsPerm p 3) (f : DiagFactor ℚ) (hf : f.Declared testMatrixNos2A.sparsity p)
    (method : Method) (tol c : ℚ) (htol : 0 < tol) (hle : tol ≤ 600000) (x : List ℚ) (hx : x.length = 3) :
    testSingle id id id 3 p f testMatrixNos2A (regularizationSmallPositiveConstant (|·|) tol c) method x = .ok (x, x) :=
  single_passes testMatrixNos2A 600000 C60_nos2_block_positive_definite p
    ⟨by unfold Sparsity.InRange; decide, rfl, hp, by decide⟩ rfl (by decide) (by decide) f hf method tol c htol hle x hx

/-- C60: the block tridiagonal matrix NOS2 of the tests and examples is not positive definite, not even positive
semidefinite, for any positive number of repetitions (the matrix NOS2 of the literature is positive definite). -/
theorem C60_nos2_indefinite (N : Nat) (hN : 0 < N) : ∃ x : Nat × Nat → ℚ,
    ∑ k ∈ tridiagonalPositions 3 N, ∑ l ∈ tridiagonalPositions 3 N, x k *
      tridiagonalAssembled (List.replicate (N + 1) testMatrixNos2A) (List.replicate N testMatrixNos2B) k l * x l < 0 := by
  refine ⟨fun k => if k = (0, 1) ∨ k = (1, 1) then 1 else 0, ?_⟩
  have key : ∀ F : Nat × Nat → ℚ, ∑ k ∈ tridiagonalPositions 3 N, (if k = (0, 1) ∨ k = (1, 1) then 1 else 0) * F k =
      F (0, 1) + F (1, 1) := by
    intro F
    have hsub : ({(0, 1), (1, 1)} : Finset (Nat × Nat)) ⊆ tridiagonalPositions 3 N := by
      intro k hk
      unfold tridiagonalPositions
      rw [mem_insert, mem_singleton] at hk
      rw [mem_product, mem_range, mem_range]
      rcases hk with rfl | rfl <;> exact ⟨by dsimp only; omega, by decide⟩
    rw [← sum_subset hsub fun k _ hk => by
      rw [mem_insert, mem_singleton] at hk
      rw [if_neg hk, zero_mul]]
    rw [sum_insert (by decide), sum_singleton, if_pos (Or.inl rfl), if_pos (Or.inr rfl), one_mul, one_mul]
  have hA : ∀ t < N + 1, (List.replicate (N + 1) testMatrixNos2A).getD t (.empty ℚ) = testMatrixNos2A := fun t ht => by
    rw [List.getD_eq_getElem _ _ (by rw [List.length_replicate]; exact ht), List.getElem_replicate]
  have hB : ∀ t < N, (List.replicate N testMatrixNos2B).getD t (.empty ℚ) = testMatrixNos2B := fun t ht => by
    rw [List.getD_eq_getElem _ _ (by rw [List.length_replicate]; exact ht), List.getElem_replicate]
  have e1 : testMatrixNos2A.sym 1 1 = 25600000 := by decide +kernel
  have e2 : testMatrixNos2B.elem 1 1 = -39321600000 := by decide +kernel
  have inner : ∀ G : Nat × Nat → Nat × Nat → ℚ, ∑ k ∈ tridiagonalPositions 3 N, ∑ l ∈ tridiagonalPositions 3 N,
      (if k = (0, 1) ∨ k = (1, 1) then 1 else 0) * G k l * (if l = (0, 1) ∨ l = (1, 1) then 1 else 0) =
      (G (0, 1) (0, 1) + G (0, 1) (1, 1)) + (G (1, 1) (0, 1) + G (1, 1) (1, 1)) := by
    intro G
    rw [← key fun k => G k (0, 1) + G k (1, 1)]
    refine sum_congr rfl fun k _ => ?_
    rw [← key (G k), mul_sum]
    exact sum_congr rfl fun l _ => by ring
  rw [inner]
  simp only [tridiagonalAssembled, tridiagonalSym, if_true, zero_add, Nat.zero_ne_one, if_false, one_ne_zero,
    hA 0 (by omega), hA 1 (by omega), hB 0 hN, e1, e2]
  norm_num

/-- C60: so, whatever the permutation and the method, not all pivots of NOS2 are positive. -/
theorem C60_nos2_pivots (N : Nat) (hN : 0 < N) (p : List Nat) (hp : IsPerm p 3) (f : ArrowheadFactor ℚ) (T : ArrowheadTypes)
    (hf : TridiagonalDeclared f testMatrixNos2A.sparsity testMatrixNos2B.sparsity p T 3 N) (method : Method) :
    ∃ f', tridiagonalFactorize 3 f (List.replicate (N + 1) testMatrixNos2A) (List.replicate N testMatrixNos2B)
        regularizationNone method = .ok f' ∧ ∃ t < N + 1, ∃ i < 3, f'.pivotAt (.tridiag t) i ≤ 0 := by
  have hval : ValidTridiagonal testMatrixNos2A.sparsity testMatrixNos2B.sparsity p 3 :=
    ⟨⟨by unfold Sparsity.InRange; decide, rfl, rfl⟩, ⟨by unfold Sparsity.InRange; decide, rfl, rfl⟩, hp, by decide⟩
  have hm : TridiagonalFits (List.replicate (N + 1) testMatrixNos2A) (List.replicate N testMatrixNos2B) p T 3 N := by
    refine C37_declared_fits _ _ p 3 hval N f T hf _ _ (by simp) (by simp) (fun t ht => ?_) fun t ht => ?_
    · rw [List.getD_eq_getElem _ _ (by rw [List.length_replicate]; exact ht), List.getElem_replicate]
      exact ⟨rfl, rfl⟩
    · rw [List.getD_eq_getElem _ _ (by rw [List.length_replicate]; exact ht), List.getElem_replicate]
      exact ⟨rfl, rfl⟩
  have hz : BlockVector (List.replicate (N + 1) (List.replicate 3 (0 : ℚ))) 3 N :=
    ⟨by simp, fun b hb => by rw [List.eq_of_mem_replicate hb, List.length_replicate]⟩
  obtain ⟨f', -, h1, -⟩ := C37_total _ _ p 3 hval N f T hf _ _ hm regularizationNone method _ hz
  refine ⟨f', h1, ?_⟩
  by_contra hcon
  simp only [not_exists, not_and, not_le] at hcon
  have hpd := (C48_tridiagonal_positive_iff _ _ p 3 hval N f T hf _ _ hm method f' h1).mp hcon
  obtain ⟨x, hx⟩ := C60_nos2_indefinite N hN
  by_cases h0 : ∃ k ∈ tridiagonalPositions 3 N, x k ≠ 0
  · have := hpd x h0
    rw [zero_mul] at this
    exact absurd hx this.le.not_gt
  · refine absurd hx (le_of_eq ?_).not_gt
    refine (sum_eq_zero fun k hk => sum_eq_zero fun l _ => ?_).symm
    rw [not_not.mp fun hne => h0 ⟨k, hk, hne⟩, zero_mul, zero_mul]

/-! ### The indefinite matrix -/

section indefinite

private theorem perm_two {p : List Nat} (hp : IsPerm p 2) : p = [0, 1] ∨ p = [1, 0] := by
  have h := hp
  unfold IsPerm at h
  match p, h.length_eq with
  | [a, b], _ =>
    have ha : a ∈ List.range 2 := h.subset (by simp)
    have hb : b ∈ List.range 2 := h.subset (by simp)
    have hnd := h.nodup_iff.mpr List.nodup_range
    rw [List.mem_range] at ha hb
    have : a ≠ b := by
      rintro rfl
      simp at hnd
    have : (a = 0 ∧ b = 1) ∨ (a = 1 ∧ b = 0) := by omega
    rcases this with ⟨rfl, rfl⟩ | ⟨rfl, rfl⟩ <;> simp

private theorem indef_types {p : List Nat} (hp : IsPerm p 2) {T : ArrowheadTypes}
    (hT : arrowheadTypes (emptied testMatrixIndefA.sparsity testMatrixIndefB.sparsity p 2) = .ok T) :
    T.tridiagSubdiag.entries = [] ∧ T.tridiagDiag.entries = [⟨1, 0⟩] := by
  have key : ∀ p ∈ [[0, 1], [1, 0]], (match arrowheadTypes (emptied testMatrixIndefA.sparsity testMatrixIndefB.sparsity p 2) with
      | .ok T => decide (T.tridiagSubdiag.entries = [] ∧ T.tridiagDiag.entries = [⟨1, 0⟩])
      | _ => true) = true := by decide +kernel
  have := key p (by rcases perm_two hp with rfl | rfl <;> simp)
  rw [hT] at this
  exact of_decide_eq_true this

private theorem indef_sym (i j : Nat) (hi : i < 2) (hj : j < 2) : testMatrixIndefA.sym i j = if i = j then 0 else 1 := by
  have : (i = 0 ∧ j = 0) ∨ (i = 0 ∧ j = 1) ∨ (i = 1 ∧ j = 0) ∨ (i = 1 ∧ j = 1) := by omega
  rcases this with ⟨rfl, rfl⟩ | ⟨rfl, rfl⟩ | ⟨rfl, rfl⟩ | ⟨rfl, rfl⟩ <;> decide +kernel

private theorem elem_of_nil {m : MatIn ℚ} (h : m.sparsity.entries = []) (i j : Nat) : m.elem i j = 0 := by
  unfold MatIn.elem
  refine if_neg fun hh => ?_
  unfold Sparsity.Has at hh
  rw [h] at hh
  cases hh

private theorem elem_of_one {m : MatIn ℚ} (h : m.sparsity.entries = [⟨1, 0⟩]) (i j : Nat) (hij : ¬ (i = 1 ∧ j = 0)) :
    m.elem i j = 0 := by
  unfold MatIn.elem
  refine if_neg fun hh => hij ?_
  unfold Sparsity.Has at hh
  rw [h, List.mem_singleton] at hh
  cases hh
  exact ⟨rfl, rfl⟩

private theorem getD_replicate {m : MatIn ℚ} {n t : Nat} (h : t < n) :
    (List.replicate n m).getD t (.empty ℚ) = m := by
  rw [List.getD_eq_getElem _ _ (by rw [List.length_replicate]; exact h), List.getElem_replicate]

private theorem indef_tridiagonalSym {N t u : Nat} (ht : t < N + 1) (hu : u < N + 1) (i j : Nat) :
    tridiagonalSym (List.replicate (N + 1) testMatrixIndefA) (List.replicate N testMatrixIndefB) t u i j =
      if t = u then testMatrixIndefA.sym i j else 0 := by
  have hB : ∀ t i j, ((List.replicate N testMatrixIndefB).getD t (.empty ℚ)).elem i j = 0 := by
    intro t i j
    by_cases h : t < N
    · rw [getD_replicate h]
      exact elem_of_nil rfl i j
    · rw [List.getD_eq_default _ _ (by rw [List.length_replicate]; omega)]
      exact elem_of_nil rfl i j
  unfold tridiagonalSym
  split
  · rw [getD_replicate ht]
  · split
    · exact hB _ _ _
    · split
      · exact hB _ _ _
      · rfl

private theorem indef_tridiagonalElement {N t u : Nat} (ht : t < N + 1) (i j : Nat) :
    tridiagonalElement ((List.replicate (N + 1) testMatrixIndefA).getD · (.empty ℚ))
      ((List.replicate N testMatrixIndefB).getD · (.empty ℚ)) t u i j = if t = u then testMatrixIndefA.sym i j else 0 := by
  have hB : ∀ t i j, ((List.replicate N testMatrixIndefB).getD t (.empty ℚ)).dense i j = 0 := by
    intro t i j
    by_cases h : t < N
    · rw [getD_replicate h, dense_eq_elem (by decide)]
      exact elem_of_nil rfl i j
    · rw [List.getD_eq_default _ _ (by rw [List.length_replicate]; omega), dense_eq_elem (by decide)]
      exact elem_of_nil rfl i j
  unfold tridiagonalElement
  split
  · dsimp only
    rw [getD_replicate ht, symmetrized_eq_sym (by decide) (by decide)]
  · split
    · exact hB _ _ _
    · split
      · exact hB _ _ _
      · rfl

/-- The factors of the indefinite matrix with regularization. -/
private theorem indef_factor {p : List Nat} (hp : IsPerm p 2) {N : Nat} {tol c : ℚ} (htol : 0 < tol) (hc : 0 < c)
    (hle : tol * c ≤ 1) {f' : ArrowheadFactor ℚ} {T : ArrowheadTypes}
    (hd : f'.Declared (emptied testMatrixIndefA.sparsity testMatrixIndefB.sparsity p 2) T ⟨0, 2, 0, 0⟩ N)
    {δ : Blk → Nat → ℚ}
    (hrep : f'.Reproduces (tridiagonalMatrix 2 N (List.replicate (N + 1) testMatrixIndefA) (List.replicate N testMatrixIndefB))
      (emptied testMatrixIndefA.sparsity testMatrixIndefB.sparsity p 2) ⟨0, 2, 0, 0⟩ N
      (regularizationSmallPositiveConstant (|·|) tol c) δ) (t : Nat) (ht : t < N + 1) :
    δ (.tridiag t) 0 = 0 ∧ f'.pivotAt (.tridiag t) 0 = c ∧ δ (.tridiag t) 1 = -1 / c ∧ f'.pivotAt (.tridiag t) 1 = -1 / c := by
  obtain ⟨hT1, hT2⟩ := indef_types hp hd.types
  have hg : t < f'.tridiagDiag.length := by rw [hd.numDiag]; exact ht
  have hgT := hd.tridiagDiag _ (List.getElem_mem hg)
  have hL : ∀ i k, f'.lowerElement N (.tridiag t) (.tridiag t) i k = unitLower (f'.tridiagDiag[t]).lower i k := by
    intro i k
    unfold ArrowheadFactor.lowerElement ArrowheadFactor.diagBlock
    dsimp only
    rw [if_pos rfl, List.getElem?_eq_getElem hg]
  have hlow : ∀ i k, ¬ (i = 1 ∧ k = 0) → (f'.tridiagDiag[t]).lower i k = 0 := by
    intro i k hik
    unfold DiagFactor.lower
    refine elem_of_one ?_ i k hik
    dsimp only
    rw [hgT.pattern, hT2]
  have hoff : ∀ u, u ≠ t → ∀ i k, f'.lowerElement N (.tridiag t) (.tridiag u) i k = 0 := by
    intro u hu i k
    unfold ArrowheadFactor.lowerElement
    rw [if_neg (by intro h; cases h; exact hu rfl)]
    cases t with
    | zero => rfl
    | succ t =>
      unfold ArrowheadFactor.lowerBlock
      dsimp only
      by_cases h : u = t ∧ t < N
      · have hs : t < f'.tridiagSubdiag.length := by rw [hd.numSubdiag]; exact h.2
        rw [if_pos h, List.getElem?_eq_getElem hs]
        have := hd.tridiagSubdiag _ (List.getElem_mem hs)
        unfold SubFactor.entry
        refine elem_of_nil ?_ i k
        dsimp only
        rw [this.pattern, hT1]
      · rw [if_neg h]
  have hmain : ∀ i < 2, ∀ j < 2, ∑ k ∈ range 2, unitLower (f'.tridiagDiag[t]).lower i k * f'.pivotAt (.tridiag t) k *
      unitLower (f'.tridiagDiag[t]).lower j k = (if i = j then 0 else 1) +
        if i = j then f'.pivotAt (.tridiag t) i - δ (.tridiag t) i else 0 := by
    intro i hi j hj
    have h := hrep.2 _ (tridiag_mem ht) _ (tridiag_mem ht) i hi j hj
    unfold ArrowheadFactor.ldlt at h
    rw [sum_tridiag (fun b k => f'.lowerElement N (.tridiag t) b i k * f'.pivotAt b k * f'.lowerElement N (.tridiag t) b j k),
      sum_eq_single t (fun u _ hu => sum_eq_zero fun k _ => by rw [hoff u hu, zero_mul, zero_mul])
        fun h => absurd (mem_range.mpr ht) h, symElement_eq (by simp) ht ht, indef_tridiagonalSym ht ht, if_pos rfl,
      show (emptied testMatrixIndefA.sparsity testMatrixIndefB.sparsity p 2).perm (.tridiag t) = p from rfl,
      indef_sym _ _ (hp.lt hi) (hp.lt hj)] at h
    simp only [hL, true_and] at h
    rw [h]
    congr 1
    by_cases hij : i = j
    · rw [if_pos hij, if_pos (by rw [hij])]
    · rw [if_neg hij, if_neg fun hh => hij (hp.inj hi hj hh)]
  have e00 := hmain 0 (by decide) 0 (by decide)
  have e10 := hmain 1 (by decide) 0 (by decide)
  have e11 := hmain 1 (by decide) 1 (by decide)
  have p0 := hrep.1 _ (tridiag_mem ht) 0 (show 0 < 2 by decide)
  have p1 := hrep.1 _ (tridiag_mem ht) 1 (show 1 < 2 by decide)
  simp only [sum_range_succ, range_zero, sum_empty, unitLower, if_true, one_ne_zero, zero_ne_one, if_false,
    hlow 0 1 (by decide), zero_add, mul_zero, add_zero, one_mul, mul_one] at e00 e10 e11
  unfold regularizationSmallPositiveConstant at p0 p1
  have d0 : δ (.tridiag t) 0 = 0 := by linarith
  rw [d0, if_pos (by dsimp only; rw [abs_zero]; exact htol)] at p0
  rw [p0] at e10 e11
  have l10 : (f'.tridiagDiag[t]).lower 1 0 = 1 / c := by
    rw [eq_div_iff hc.ne']
    exact e10
  rw [l10, div_mul_cancel₀ _ hc.ne', one_mul] at e11
  have d1 : δ (.tridiag t) 1 = -1 / c := by
    rw [neg_div]
    linarith
  refine ⟨d0, p0, d1, ?_⟩
  rw [p1, if_neg, d1]
  dsimp only
  rw [d1, neg_div, abs_neg, abs_of_pos (by positivity), not_lt, le_div_iff₀ hc]
  exact hle

/-- C60: the test with the indefinite matrix, whose first pivots are zero, in exact arithmetic: the first pivot of each
block is replaced by the constant `c` of the regularization, the second one is `-1/c`. The solution computed agrees with the
given one in the elements eliminated first, and differs by `c` times the element eliminated first in the others: this is
the error which the tolerance of the test has to cover. -/
theorem C60_indefinite (p : List Nat) (hp : IsPerm p 2) (N : Nat) (tol c : ℚ) (htol : 0 < tol) (hc : 0 < c)
    (hle : tol * c ≤ 1) (f : ArrowheadFactor ℚ) (T : ArrowheadTypes)
    (hf : TridiagonalDeclared f testMatrixIndefA.sparsity testMatrixIndefB.sparsity p T 2 N) (method : Method) (v : List ℚ)
    (hv : v.length = (N + 1) * 2) :
    ∃ f' y, tridiagonalFactorize 2 f (List.replicate (N + 1) testMatrixIndefA) (List.replicate N testMatrixIndefB)
        (regularizationSmallPositiveConstant (|·|) tol c) method = .ok f' ∧
      (∀ t < N + 1, f'.pivotAt (.tridiag t) 0 = c ∧ f'.pivotAt (.tridiag t) 1 = -1 / c) ∧
      testRepeating id id id testMatrixIndefA.sparsity testMatrixIndefB.sparsity p f
        (List.replicate (N + 1) testMatrixIndefA) (List.replicate N testMatrixIndefB)
        (regularizationSmallPositiveConstant (|·|) tol c) method v = .ok (y, v) ∧ y.length = v.length ∧
      ∀ t < N + 1, y.getD (t * 2 + permAt p 0) 0 = v.getD (t * 2 + permAt p 0) 0 ∧
        y.getD (t * 2 + permAt p 1) 0 = v.getD (t * 2 + permAt p 1) 0 - c * v.getD (t * 2 + permAt p 0) 0 := by
  have hval : ValidTridiagonal testMatrixIndefA.sparsity testMatrixIndefB.sparsity p 2 :=
    ⟨⟨by unfold Sparsity.InRange; decide, rfl, rfl⟩, ⟨by unfold Sparsity.InRange; decide, rfl, rfl⟩, hp, by decide⟩
  have hm : TridiagonalFits (List.replicate (N + 1) testMatrixIndefA) (List.replicate N testMatrixIndefB) p T 2 N := by
    refine C37_declared_fits _ _ p 2 hval N f T hf _ _ (by simp) (by simp) (fun t ht => ?_) fun t ht => ?_
    · rw [getD_replicate ht]
      exact ⟨rfl, rfl⟩
    · rw [getD_replicate ht]
      exact ⟨rfl, rfl⟩
  have hd := declared_of hval hf
  obtain ⟨x, hx1, hx2, hx3⟩ := testRepeating_parts hval (by decide) (f := f) (A := List.replicate (N + 1) testMatrixIndefA)
    (B := List.replicate N testMatrixIndefB) (reg := regularizationSmallPositiveConstant (|·|) tol c) (method := method) hv
  have hz : BlockVector (List.replicate (N + 1) (List.replicate 2 (0 : ℚ))) 2 N :=
    ⟨by simp, fun b hb => by rw [List.eq_of_mem_replicate hb, List.length_replicate]⟩
  obtain ⟨b, hb1, hb2, hb3, hb4⟩ := C33_tridiagonal (List.replicate (N + 1) testMatrixIndefA)
    (List.replicate N testMatrixIndefB) x (List.replicate (N + 1) (List.replicate 2 0)) 2 N (by simp) (by simp) hx1.num hz.num
    (fun m hm => by rw [List.eq_of_mem_replicate hm]; exact ⟨rfl, by decide⟩)
    (fun m hm => by rw [List.eq_of_mem_replicate hm]; exact ⟨rfl, by decide⟩) hx1.size hz.size
  obtain ⟨f', h1, h2, -⟩ := C28_repeating_small_positive_constant _ _ (emptied_valid hval) T N f hd _ (fits_of hm) tol c
    htol hc method
  obtain ⟨y, δ, h3, h4, h5, h6⟩ := C35_solve _ _ (emptied_valid hval) T N f hd _ (fits_of hm) _ method f' h1
    (fun a ha i hi => (h2 a ha i hi).2) _ (vector_of ⟨hb2, hb3⟩)
  obtain ⟨_, h1', hd'⟩ := C21_factorize_total _ _ (emptied_valid hval) T N f hd _ (fits_of hm)
    (regularizationSmallPositiveConstant (|·|) tol c) method
  rw [h1] at h1'
  cases h1'
  have hfac := indef_factor hp htol hc hle hd' h5
  have hy := (of_vector h4).2
  have hbx : ∀ t < N + 1, ∀ i < 2, blockAt b t i = ∑ j ∈ range 2, testMatrixIndefA.sym i j * blockAt x t j := by
    intro t ht i hi
    rw [hb4 t ht i hi, sum_eq_single t (fun u _ hu => sum_eq_zero fun j _ => by
      rw [indef_tridiagonalElement ht, if_neg (Ne.symm hu), zero_mul]) fun h => absurd (mem_range.mpr ht) h]
    have : blockAt (List.replicate (N + 1) (List.replicate 2 (0 : ℚ))) t i = 0 := by
      unfold blockAt
      rw [List.getD_eq_getElem (List.replicate (N + 1) _) _ (by rw [List.length_replicate]; exact ht), List.getElem_replicate,
        List.getD_eq_getElem _ _ (by rw [List.length_replicate]; exact hi), List.getElem_replicate]
    rw [this, zero_add]
    exact sum_congr rfl fun j _ => by rw [indef_tridiagonalElement ht, if_pos rfl]
  refine ⟨f', flatten y.tridiag, ?_, fun t ht => ⟨(hfac t ht).2.1, (hfac t ht).2.2.2⟩, ?_, ?_, fun t ht => ?_⟩
  · rw [factorize_eq hd]
    exact h1
  · refine hx3 f' b y.tridiag ?_ hb1 ?_
    · rw [factorize_eq hd]
      exact h1
    · unfold tridiagonalSolveInPlace
      rw [h3]
      rfl
  · rw [C39_flatten, flatten_length _ 2 hy.size, hy.num, hv]
  · have hlt0 : permAt p 0 < 2 := hp.lt (by decide)
    have hlt1 : permAt p 1 < 2 := hp.lt (by decide)
    have e0 := h6 _ (tridiag_mem ht) 0 (show 0 < 2 by decide)
    have e1 := h6 _ (tridiag_mem ht) 1 (show 1 < 2 by decide)
    obtain ⟨d0, q0, d1, q1⟩ := hfac t ht
    have hsum : ∀ i, i < 2 → ∑ b ∈ blocks N, ∑ j ∈ range ((⟨0, 2, 0, 0⟩ : Dims).of b),
        (tridiagonalMatrix 2 N (List.replicate (N + 1) testMatrixIndefA) (List.replicate N testMatrixIndefB)).symElement N
          (.tridiag t) b i j * y.at b j = ∑ j ∈ range 2, testMatrixIndefA.sym i j * blockAt y.tridiag t j := by
      intro i hi
      rw [sum_tridiag (fun b j => (tridiagonalMatrix 2 N (List.replicate (N + 1) testMatrixIndefA)
          (List.replicate N testMatrixIndefB)).symElement N (.tridiag t) b i j * y.at b j),
        sum_eq_single t (fun u hu hne => sum_eq_zero fun j _ => by
          rw [symElement_eq (by simp) ht (mem_range.mp hu), indef_tridiagonalSym ht (mem_range.mp hu), if_neg (Ne.symm hne),
            zero_mul]) fun h => absurd (mem_range.mpr ht) h]
      refine sum_congr rfl fun j _ => ?_
      rw [symElement_eq (by simp) ht ht, indef_tridiagonalSym ht ht, if_pos rfl]
      rfl
    have hperm : (emptied testMatrixIndefA.sparsity testMatrixIndefB.sparsity p 2).perm (.tridiag t) = p := rfl
    rw [hperm, hsum _ hlt0] at e0
    rw [hperm, hsum _ hlt1] at e1
    change _ + (f'.pivotAt (.tridiag t) 0 - _) * blockAt y.tridiag t (permAt p 0) = blockAt b t (permAt p 0) at e0
    change _ + (f'.pivotAt (.tridiag t) 1 - _) * blockAt y.tridiag t (permAt p 1) = blockAt b t (permAt p 1) at e1
    rw [hbx t ht _ hlt0] at e0
    rw [hbx t ht _ hlt1] at e1
    rw [d0, q0, sub_zero] at e0
    rw [d1, q1, sub_self, zero_mul, add_zero] at e1
    rw [← hx2, C39_flatten, C39_flatten, flatten_getD _ 2 hy.size t (by rw [hy.num]; exact ht) _ hlt0,
      flatten_getD _ 2 hy.size t (by rw [hy.num]; exact ht) _ hlt1, flatten_getD _ 2 hx1.size t (by rw [hx1.num]; exact ht) _ hlt0,
      flatten_getD _ 2 hx1.size t (by rw [hx1.num]; exact ht) _ hlt1]
    rcases perm_two hp with rfl | rfl
    all_goals
      simp only [permAt, List.getD_cons_zero, List.getD_cons_succ, sum_range_succ, range_zero, sum_empty, zero_add,
        indef_sym 0 0 (by decide) (by decide), indef_sym 0 1 (by decide) (by decide), indef_sym 1 0 (by decide) (by decide),
        indef_sym 1 1 (by decide) (by decide), if_true, zero_ne_one, one_ne_zero, if_false, zero_mul, one_mul, add_zero] at e0 e1 ⊢
      refine ⟨e1, ?_⟩
      rw [e1] at e0
      linarith

end indefinite

/-! ### The hypotheses can be met -/

/-- Objects for LFAT5 and its permutation in the tests exist. -/
example : ∃ f : DiagFactor ℚ, f.Declared testMatrixLFAT5.sparsity testPermutationLFAT5 ∧
    testSingle id id id 14 testPermutationLFAT5 f testMatrixLFAT5 (regularizationSmallPositiveConstant (|·|) (1 / 100) 1)
      .entryWise (List.replicate 14 3) = .ok (List.replicate 14 3, List.replicate 14 3) := by
  have hp : IsPerm testPermutationLFAT5 14 := by unfold IsPerm; decide
  obtain ⟨f, hf⟩ : ∃ f : DiagFactor ℚ, f.Declared testMatrixLFAT5.sparsity testPermutationLFAT5 := by
    have h : ∃ S, factorizationSparsity testMatrixLFAT5.sparsity testPermutationLFAT5 = .ok S := by
      cases hS : factorizationSparsity testMatrixLFAT5.sparsity testPermutationLFAT5 with
      | ok S => exact ⟨S, rfl⟩
      | error e =>
        have : (match factorizationSparsity testMatrixLFAT5.sparsity testPermutationLFAT5 with
          | .ok _ => true | .error _ => false) = true := by decide +kernel
        rw [hS] at this
        cases this
    obtain ⟨S, hS⟩ := h
    exact ⟨⟨S, testPermutationLFAT5, List.replicate S.entries.length 0, List.replicate 14 0⟩, hS, rfl, by simp, by simp; rfl⟩
  exact ⟨f, hf, C60_lfat5 testPermutationLFAT5 hp f hf .entryWise (1 / 100) 1 (by norm_num) (by norm_num) _ (by simp)⟩

/-- Objects for NOS2 and the indefinite matrix exist; with two repetitions of the latter the result is as claimed. -/
example : (∃ (f : ArrowheadFactor ℚ) (T : ArrowheadTypes),
      TridiagonalDeclared f testMatrixNos2A.sparsity testMatrixNos2B.sparsity [2, 0, 1] T 3 318) ∧
    ∃ (f : ArrowheadFactor ℚ) (T : ArrowheadTypes),
      TridiagonalDeclared f testMatrixIndefA.sparsity testMatrixIndefB.sparsity [1, 0] T 2 1 := by
  refine ⟨C37_constructible _ _ _ 3 ⟨⟨by unfold Sparsity.InRange; decide, rfl, rfl⟩,
    ⟨by unfold Sparsity.InRange; decide, rfl, rfl⟩, by unfold IsPerm; decide, by decide⟩ _ 0,
    C37_constructible _ _ _ 2 ⟨⟨by unfold Sparsity.InRange; decide, rfl, rfl⟩,
    ⟨by unfold Sparsity.InRange; decide, rfl, rfl⟩, by unfold IsPerm; decide, by decide⟩ _ 0⟩

end Ctldl
