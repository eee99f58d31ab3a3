import Verif.Model.FixedExamples
import Verif.Spec.FixedExamples
import Verif.Props.Inactive
import Verif.Props.TestDouble
import Verif.Props.TestExamples
import Verif.Props.Mixed
import Mathlib.Tactic.IntervalCases

/-! # C67: the example programs with fixed matrices -/

namespace Ctldl

open Finset Tridiagonal

/-! ### The loops -/

section

variable {K : Type} [Zero K] [Sub K] [Mul K] [Div K]

/-- History independence for the class for block tridiagonal matrices. -/
theorem tridiagonal_history (spA spB : Sparsity) (p : List Nat) (n : Nat) (h : ValidTridiagonal spA spB p n) (N : Nat)
    (f g : ArrowheadFactor K) (T : ArrowheadTypes) (hf : TridiagonalDeclared f spA spB p T n N)
    (hg : TridiagonalDeclared g spA spB p T n N) (A B : List (MatIn K)) (hm : TridiagonalFits A B p T n N)
    (reg : K → Nat → K) (method : Method) :
    tridiagonalFactorize n f A B reg method = tridiagonalFactorize n g A B reg method := by
  have hd := declared_of h hf
  have hd' := declared_of h hg
  rw [factorize_eq hd, factorize_eq hd']
  exact C26_repeating_history_independent _ _ (emptied_valid h) T N f g hd hd' _ (fits_of hm) reg method

private theorem factorizeAgain_eq (spA spB : Sparsity) (p : List Nat) (n : Nat) (h : ValidTridiagonal spA spB p n)
    (N : Nat) (f : ArrowheadFactor K) (T : ArrowheadTypes) (hf : TridiagonalDeclared f spA spB p T n N)
    (A B : List (MatIn K)) (hm : TridiagonalFits A B p T n N) (reg : K → Nat → K) (method : Method) (f' : ArrowheadFactor K)
    (h' : tridiagonalFactorize n f A B reg method = .ok f') (hf' : TridiagonalDeclared f' spA spB p T n N)
    (count : Nat) : factorizeAgain n A B reg method (count + 1) f = .ok f' := by
  unfold factorizeAgain
  induction count with
  | zero => simp [h']
  | succ k ih =>
    rw [List.range_succ, List.foldlM_append, ih]
    simp only [List.foldlM_cons, List.foldlM_nil, ok_bind]
    rw [tridiagonal_history spA spB p n h N f' f T hf' hf A B hm reg method, h']
    rfl

private theorem solveAgain_eq (rhs x : List (List K)) (f : ArrowheadFactor K)
    (h : tridiagonalSolveInPlace f rhs = .ok x) (count : Nat) : solveAgain rhs (count + 1) f = .ok x := by
  unfold solveAgain
  induction count with
  | zero => simp [h]
  | succ k ih =>
    rw [List.range_succ, List.foldlM_append, ih]
    simp only [List.foldlM_cons, List.foldlM_nil, ok_bind]
    rw [h]
    rfl

/-- C67: for any arithmetic, repeating factorization and solution gives the numbers of one factorization and one
solution of any other object, and never fails. -/
theorem C67_loops (spA spB : Sparsity) (p : List Nat) (n : Nat) (h : ValidTridiagonal spA spB p n) (N : Nat)
    (construct : Nat → ArrowheadFactor K) (T : ArrowheadTypes)
    (hc : TridiagonalDeclared (construct N) spA spB p T n N) (A B : List (MatIn K)) (hm : TridiagonalFits A B p T n N)
    (one : K) (method : Method) (count : Nat) (hcount : 0 < count) (g : ArrowheadFactor K)
    (hg : TridiagonalDeclared g spA spB p T n N) :
    ∃ f' x, tridiagonalFactorize n g A B regularizationNone method = .ok f' ∧
      tridiagonalSolveInPlace f' (List.replicate (N + 1) (List.replicate n one)) = .ok x ∧ BlockVector x n N ∧
      exampleRepeating one n N A B construct method count = .ok x.flatten := by
  have hb : BlockVector (List.replicate (N + 1) (List.replicate n one)) n N :=
    ⟨by simp, fun b hb => by rw [List.eq_of_mem_replicate hb]; simp⟩
  obtain ⟨f', x, h1, h2, h3, h4⟩ := C37_total spA spB p n h N (construct N) T hc A B hm regularizationNone method _ hb
  obtain ⟨k, rfl⟩ : ∃ k, count = k + 1 := ⟨count - 1, by omega⟩
  refine ⟨f', x, ?_, h3, h4, ?_⟩
  · rw [tridiagonal_history spA spB p n h N g (construct N) T hg hc A B hm]
    exact h1
  · unfold exampleRepeating
    rw [factorizeAgain_eq spA spB p n h N (construct N) T hc A B hm regularizationNone method f' h1 h2 k]
    simp only [ok_bind]
    rw [solveAgain_eq _ x f' h3 k]
    rfl

end

/-! ### The solution with a right-hand side of ones -/

section

variable {K : Type} [Field K]

private theorem laplace_row (y : Nat → K) (a k : Nat) : ∑ b ∈ range (a + 1 + k), laplace (K := K) a b * y b =
    (∑ b ∈ range a, laplace (K := K) a b * y b) + 2 * y a - if k = 0 then 0 else y (a + 1) := by
  induction k with
  | zero =>
    rw [Nat.add_zero, sum_range_succ, if_pos rfl, sub_zero]
    congr 2
    unfold laplace
    rw [if_pos rfl]
  | succ k ih =>
    rw [← Nat.add_assoc, sum_range_succ, ih, if_neg (Nat.succ_ne_zero k)]
    by_cases hk : k = 0
    · subst hk
      rw [if_pos rfl, Nat.add_zero]
      unfold laplace
      rw [if_neg (by omega), if_pos (Or.inr rfl)]
      ring
    · rw [if_neg hk]
      have : laplace (K := K) a (a + 1 + k) = 0 := by
        unfold laplace
        rw [if_neg (by omega), if_neg (by omega)]
      rw [this, zero_mul, add_zero]

private theorem laplace_before (y : Nat → K) (a : Nat) :
    ∑ b ∈ range a, laplace (K := K) a b * y b = - if a = 0 then 0 else y (a - 1) := by
  cases a with
  | zero => simp
  | succ m =>
    rw [sum_range_succ, sum_eq_zero]
    · unfold laplace
      rw [if_neg (by omega), if_pos (by omega), if_neg (by omega)]
      simp
    · intro h hh
      have := mem_range.mp hh
      unfold laplace
      rw [if_neg (by omega), if_neg (by omega), zero_mul]

/-- The element of the solution. -/
def laplaceOnes (K : Type) [Field K] (m a : Nat) : K := ((a : K) + 1) * ((m : K) - a) / 2

private theorem laplaceOnes_solves (h2 : (2 : K) ≠ 0) (m a : Nat) (ha : a < m) :
    ∑ b ∈ range m, laplace (K := K) a b * laplaceOnes K m b = 1 := by
  obtain ⟨k, rfl⟩ : ∃ k, m = a + 1 + k := ⟨m - (a + 1), by omega⟩
  rw [laplace_row, laplace_before]
  unfold laplaceOnes
  have e1 : (if a = 0 then 0 else (((a - 1 : Nat) : K) + 1) * (((a + 1 + k : Nat) : K) - ((a - 1 : Nat) : K)) / 2) =
      (a : K) * (k + 2) / 2 := by
    cases a with
    | zero => simp
    | succ a =>
      rw [if_neg (Nat.succ_ne_zero a), Nat.add_sub_cancel]
      push_cast
      ring
  have e2 : (if k = 0 then 0 else (((a + 1 : Nat) : K) + 1) * (((a + 1 + k : Nat) : K) - ((a + 1 : Nat) : K)) / 2) =
      ((a : K) + 2) * k / 2 := by
    by_cases hk : k = 0
    · subst hk
      simp
    · rw [if_neg hk]
      push_cast
      ring
  rw [e1, e2]
  push_cast
  field_simp
  ring

private theorem flatten_linear {α : Type} (g : Nat → α) (n N : Nat) :
    ((List.range N).map fun t => (List.range n).map fun i => g (t * n + i)).flatten = (List.range (N * n)).map g := by
  induction N with
  | zero => simp
  | succ N ih =>
    rw [List.range_succ, List.map_append, List.flatten_append, ih, Nat.succ_mul, List.range_add, List.map_append]
    simp

end

section

variable {K : Type} [Field K] [LinearOrder K] [IsStrictOrderedRing K]

/-- C67: in exact arithmetic the program with the tridiagonal matrix, for all sizes and numbers of blocks, all
permutations and numbers of passes through the loops, prints `(a + 1) (m - a) / 2` for `a < m`, where `m` is the number
of unknowns. -/
theorem C67_tridiagonal_exact (n : Nat) (hn : 0 < n) (p : List Nat) (hp : IsPerm p n) (hs : 2 * n ≤ noParent) (N : Nat)
    (construct : Nat → ArrowheadFactor K) (T : ArrowheadTypes)
    (hc : TridiagonalDeclared (construct N) (testMatrixTridiagonal K n).sparsity
      (testMatrixSingleEntryTopRight K n).sparsity p T n N) (method : Method) (count : Nat) (hcount : 0 < count) :
    exampleRepeating 1 n N (List.replicate (N + 1) (testMatrixTridiagonal K n))
      (List.replicate N (testMatrixSingleEntryTopRight K n)) construct method count =
      .ok ((List.range ((N + 1) * n)).map fun (a : Nat) => ((a : K) + 1) * ((((N + 1) * n : Nat) : K) - a) / 2) := by
  obtain ⟨h1, h2, h3, h4, h5⟩ := C56_valid (K := K) n hn p hp hs
  have hm : TridiagonalFits (List.replicate (N + 1) (testMatrixTridiagonal K n))
      (List.replicate N (testMatrixSingleEntryTopRight K n)) p T n N := by
    refine C37_declared_fits _ _ p n h1 N _ T hc _ _ (by simp) (by simp) (fun t ht => ?_) fun t ht => ?_
    · rw [List.getD_eq_getElem _ _ (by rw [List.length_replicate]; exact ht), List.getElem_replicate]
      exact ⟨h3, rfl⟩
    · rw [List.getD_eq_getElem _ _ (by rw [List.length_replicate]; exact ht), List.getElem_replicate]
      exact ⟨h5, rfl⟩
  have hb : BlockVector (List.replicate (N + 1) (List.replicate n (1 : K))) n N :=
    ⟨by simp, fun b hb => by rw [List.eq_of_mem_replicate hb, List.length_replicate]⟩
  have hpd := C56_positive_definite (K := K) n N hn 0 (by rw [zero_mul]; norm_num)
  obtain ⟨f', -, g1, g2, -⟩ := C48_tridiagonal_solve _ _ p n h1 N _ T hc _ _ hm (fun _ => True) 0 le_rfl
    ⟨fun x hx _ => hpd x hx, fun x hx h0 => by
      obtain ⟨k, hk, hne⟩ := hx
      exact absurd (h0 k hk trivial) hne⟩ regularizationNone (fun _ _ _ => rfl) method _ hb
  set g : Nat → K := laplaceOnes K ((N + 1) * n) with hg
  set x : List (List K) := (List.range (N + 1)).map fun t => (List.range n).map fun i => g (t * n + i) with hx
  have hxv : BlockVector x n N := by
    refine ⟨by simp [hx], fun b hb => ?_⟩
    obtain ⟨t, -, rfl⟩ := List.mem_map.mp hb
    simp
  have hat : ∀ t < N + 1, ∀ i < n, blockAt x t i = g (t * n + i) := by
    intro t ht i hi
    unfold blockAt
    rw [List.getD_eq_getElem x [] (by rw [hxv.num]; exact ht)]
    simp only [hx, List.getElem_map, List.getElem_range]
    rw [List.getD_eq_getElem _ _ (by simpa using hi)]
    simp
  have hsol := C37_solve_unique _ _ p n h1 N _ T hc _ _ hm method f' g1
    (fun t ht i hi => ((g2 t ht i hi).1 trivial).ne') x _ hxv hb fun t ht i hi => by
      have hlt : t * n + i < (N + 1) * n := by
        have : t * n + n ≤ (N + 1) * n := by
          rw [← Nat.succ_mul]
          exact Nat.mul_le_mul_right n ht
        omega
      have e : blockAt (List.replicate (N + 1) (List.replicate n (1 : K))) t i = 1 := by
        unfold blockAt
        rw [List.getD_eq_getElem (List.replicate _ _) [] (by simpa using ht), List.getElem_replicate,
          List.getD_eq_getElem _ _ (by simpa using hi), List.getElem_replicate]
      rw [e, ← laplaceOnes_solves two_ne_zero _ _ hlt,
        ← sum_linear_positions n N hn fun b => laplace (K := K) (t * n + i) b * laplaceOnes K ((N + 1) * n) b]
      unfold tridiagonalPositions
      rw [sum_product]
      refine sum_congr rfl fun u hu => sum_congr rfl fun j hj => ?_
      rw [C56_elements n N t u i j ht (mem_range.mp hu) hi (mem_range.mp hj), hat u (mem_range.mp hu) j (mem_range.mp hj)]
  obtain ⟨f'', x', i1, i2, -, i3⟩ := C67_loops _ _ p n h1 N construct T hc _ _ hm 1 method count hcount _ hc
  rw [g1] at i1
  cases i1
  rw [hsol] at i2
  cases i2
  rw [i3, hx, flatten_linear]
  rfl

end

/-! ### The programs in floating point -/

section

variable {K : Type} [Zero K] [Sub K] [Mul K] [Div K]

/-- One factorization of a new object and one solution. -/
private def once (zero one : K) (n N : Nat) (A B : List (MatIn K)) (spA spB : Sparsity) (p : List Nat) (method : Method) :
    Res (List K) := do
  let s ← tridiagonalSparsity spA spB p
  let T ← arrowheadTypes s
  let f ← tridiagonalFactorize n (freshFactor s T ⟨0, n, 0, 0⟩ N zero) A B regularizationNone method
  return (← tridiagonalSolveInPlace f (List.replicate (N + 1) (List.replicate n one))).flatten

private theorem once_eq (spA spB : Sparsity) (p : List Nat) (n : Nat) (h : ValidTridiagonal spA spB p n) (N : Nat)
    (construct : Nat → ArrowheadFactor K) (T : ArrowheadTypes)
    (hc : TridiagonalDeclared (construct N) spA spB p T n N) (A B : List (MatIn K)) (hA : N + 1 ≤ A.length)
    (hB : N ≤ B.length) (sA : ∀ m ∈ A, m.Sized ∧ m.sparsity = spA) (sB : ∀ m ∈ B, m.Sized ∧ m.sparsity = spB)
    (zero one : K) (method : Method) (count : Nat) (hcount : 0 < count) :
    exampleRepeating one n N A B construct method count = once zero one n N A B spA spB p method := by
  have hm : TridiagonalFits A B p T n N :=
    C37_declared_fits _ _ p n h N _ T hc _ _ hA hB (fun t ht => sA _ (getD_mem (by omega) _))
      fun t ht => sB _ (getD_mem (by omega) _)
  obtain ⟨s, hs, hd⟩ := hc
  have hg : TridiagonalDeclared (freshFactor s T ⟨0, n, 0, 0⟩ N zero) spA spB p T n N :=
    ⟨s, hs, C21_constructible s _ T hd.types N zero⟩
  obtain ⟨f', x, h1, h2, -, h3⟩ := C67_loops spA spB p n h N construct T ⟨s, hs, hd⟩ A B hm one method count hcount _ hg
  unfold once
  rw [h3, hs]
  simp only [ok_bind]
  rw [hd.types]
  simp only [ok_bind]
  rw [h1]
  simp only [ok_bind]
  rw [h2]
  rfl

end

private theorem of_map {α β : Type} {r r' : Res α} {g : α → β} {y : β} (h : r = r') (k : r'.map g = .ok y) :
    ∃ x, r = .ok x ∧ g x = y := by
  subst h
  cases r with
  | error e => cases k
  | ok x => exact ⟨x, rfl, Except.ok.inj k⟩

/-- Literals of type `double`. -/
def doubleLiteral (x : ℚ) : Double := Binary.ofRat .binary64 false x

/-- C67: the program with the tridiagonal matrix prints the exact solution in double precision. -/
theorem C67_tridiagonal (construct : Nat → ArrowheadFactor Double) (T : ArrowheadTypes)
    (hc : TridiagonalDeclared (construct 19) (testMatrixTridiagonal ℚ 3).sparsity
      (testMatrixSingleEntryTopRight ℚ 3).sparsity [0, 1, 2] T 3 19) (method : Method) :
    ∃ x, exampleTridiagonal doubleLiteral construct method = .ok x ∧
      x.map Binary.printed = (List.range 60).map fun a => Nat.toDigits 10 ((a + 1) * (60 - a) / 2) ++ ".000000".toList := by
  obtain ⟨h1, -⟩ := C56_valid (K := ℚ) 3 (by decide) [0, 1, 2] (by unfold IsPerm; decide) (by decide)
  have e := once_eq _ _ _ 3 h1 19 construct T hc (List.replicate (20 - 1 + 1) ((testMatrixTridiagonal ℚ 3).map doubleLiteral))
    (List.replicate (20 - 1) ((testMatrixSingleEntryTopRight ℚ 3).map doubleLiteral)) (by simp) (by simp)
    (fun m hm => by rw [List.eq_of_mem_replicate hm]; exact ⟨rfl, rfl⟩)
    (fun m hm => by rw [List.eq_of_mem_replicate hm]; exact ⟨rfl, rfl⟩) (doubleLiteral 0) (doubleLiteral 1) method 10000000
    (by decide)
  have k : ∀ method, (once (doubleLiteral 0) (doubleLiteral 1) 3 19
      (List.replicate (20 - 1 + 1) ((testMatrixTridiagonal ℚ 3).map doubleLiteral))
      (List.replicate (20 - 1) ((testMatrixSingleEntryTopRight ℚ 3).map doubleLiteral))
      (testMatrixTridiagonal ℚ 3).sparsity (testMatrixSingleEntryTopRight ℚ 3).sparsity [0, 1, 2] method).map
      (fun x => x.map Binary.printed) =
      .ok ((List.range 60).map fun a => Nat.toDigits 10 ((a + 1) * (60 - a) / 2) ++ ".000000".toList) := by
    intro method
    cases method <;> decide +kernel
  unfold exampleTridiagonal
  exact of_map e (k method)

/-- C67: for any arithmetic, the programs with NOS2 and NOS4 print as many numbers as there are unknowns, those of one
factorization of any other object and one solution. -/
theorem C67_nos {K : Type} [Zero K] [Sub K] [Mul K] [Div K] (convert : ℚ → K) (construct g : Nat → ArrowheadFactor K)
    (T : ArrowheadTypes) (method : Method) :
    (TridiagonalDeclared (construct 318) testMatrixNos2A.sparsity testMatrixNos2B.sparsity [0, 1, 2] T 3 318 →
      TridiagonalDeclared (g 318) testMatrixNos2A.sparsity testMatrixNos2B.sparsity [0, 1, 2] T 3 318 →
      ∃ f' x, tridiagonalFactorize 3 (g 318) (List.replicate 319 (testMatrixNos2A.map convert))
          (List.replicate 318 (testMatrixNos2B.map convert)) regularizationNone method = .ok f' ∧
        tridiagonalSolveInPlace f' (List.replicate 319 (List.replicate 3 (convert 1))) = .ok x ∧ BlockVector x 3 318 ∧
        exampleNos2 convert construct method = .ok x.flatten) ∧
    (TridiagonalDeclared (construct 9) (testMatrixNos4A false).sparsity testMatrixNos4B.sparsity
        [7, 8, 0, 4, 3, 2, 6, 5, 9, 1] T 10 9 →
      TridiagonalDeclared (g 9) (testMatrixNos4A false).sparsity testMatrixNos4B.sparsity
        [7, 8, 0, 4, 3, 2, 6, 5, 9, 1] T 10 9 →
      ∃ f' x, tridiagonalFactorize 10 (g 9)
          (List.replicate 9 ((testMatrixNos4A false).map convert) ++ [(testMatrixNos4A true).map convert])
          (List.replicate 9 (testMatrixNos4B.map convert)) regularizationNone method = .ok f' ∧
        tridiagonalSolveInPlace f' (List.replicate 10 (List.replicate 10 (convert 1))) = .ok x ∧ BlockVector x 10 9 ∧
        exampleNos4 convert construct method = .ok x.flatten) := by
  constructor
  · intro hc hg
    have h : ValidTridiagonal testMatrixNos2A.sparsity testMatrixNos2B.sparsity [0, 1, 2] 3 :=
      ⟨⟨by unfold Sparsity.InRange; decide, rfl, rfl⟩, ⟨by unfold Sparsity.InRange; decide, rfl, rfl⟩,
        by unfold IsPerm; decide, by decide⟩
    have hm : TridiagonalFits (List.replicate (318 + 1) (testMatrixNos2A.map convert))
        (List.replicate 318 (testMatrixNos2B.map convert)) [0, 1, 2] T 3 318 := by
      refine C37_declared_fits _ _ _ 3 h 318 _ T hc _ _ List.length_replicate.ge List.length_replicate.ge (fun t ht => ?_) fun t ht => ?_
      · rw [List.getD_eq_getElem _ _ (by rw [List.length_replicate]; exact ht), List.getElem_replicate]
        exact ⟨rfl, rfl⟩
      · rw [List.getD_eq_getElem _ _ (by rw [List.length_replicate]; exact ht), List.getElem_replicate]
        exact ⟨rfl, rfl⟩
    exact C67_loops _ _ _ 3 h 318 construct T hc _ _ hm (convert 1) method 1000000 (by decide) (g 318) hg
  · intro hc hg
    have h : ValidTridiagonal (testMatrixNos4A false).sparsity testMatrixNos4B.sparsity [7, 8, 0, 4, 3, 2, 6, 5, 9, 1] 10 :=
      ⟨⟨by unfold Sparsity.InRange; decide, rfl, rfl⟩, ⟨by unfold Sparsity.InRange; decide, rfl, rfl⟩,
        by unfold IsPerm; decide, by decide⟩
    have e : (List.replicate (9 + 1) ((testMatrixNos4A false).map convert)).set 9 ((testMatrixNos4A true).map convert) =
      List.replicate 9 ((testMatrixNos4A false).map convert) ++ [(testMatrixNos4A true).map convert] := rfl
    have hm : TridiagonalFits
        (List.replicate 9 ((testMatrixNos4A false).map convert) ++ [(testMatrixNos4A true).map convert])
        (List.replicate 9 (testMatrixNos4B.map convert)) [7, 8, 0, 4, 3, 2, 6, 5, 9, 1] T 10 9 := by
      refine C37_declared_fits _ _ _ 10 h 9 _ T hc _ _ (by simp) (by simp) (fun t ht => ?_) fun t ht => ?_
      · have : ∀ m ∈ List.replicate 9 ((testMatrixNos4A false).map convert) ++ [(testMatrixNos4A true).map convert],
            m.Sized ∧ m.sparsity = (testMatrixNos4A false).sparsity := by
          intro m hm
          rcases List.mem_append.mp hm with hm | hm
          · rw [List.eq_of_mem_replicate hm]
            exact ⟨rfl, rfl⟩
          · rw [List.mem_singleton.mp hm]
            exact ⟨rfl, rfl⟩
        exact this _ (getD_mem (by simpa using ht) _)
      · rw [List.getD_eq_getElem _ _ (by rw [List.length_replicate]; exact ht), List.getElem_replicate]
        exact ⟨rfl, rfl⟩
    unfold exampleNos4
    rw [e]
    exact C67_loops _ _ _ 10 h 9 construct T hc _ _ hm (convert 1) method 1000000 (by decide) (g 9) hg

/-- A new object. -/
private def freshSingle {K : Type} (s : Sparsity) (p : List Nat) (zero : K) : Res (DiagFactor K) := do
  let c ← factorizationSparsity s p
  return ⟨c, p, List.replicate c.entries.length zero, List.replicate s.numRows zero⟩

private theorem freshSingle_eq {K : Type} {s : Sparsity} {p : List Nat} {f : DiagFactor K} (hf : f.Declared s p) (zero : K) :
    ∃ g, freshSingle s p zero = .ok g ∧ g.Declared s p := by
  unfold freshSingle
  rw [hf.pattern]
  exact ⟨_, rfl, hf.pattern, rfl, by simp, by simp⟩

/-- C67: what the program with LFAT5 prints in double precision. -/
theorem C67_lfat5 (construct : DiagFactor Double)
    (hc : construct.Declared testMatrixLFAT5.sparsity [13, 11, 12, 8, 7, 0, 4, 3, 9, 1, 5, 10, 2, 6]) (method : Method) :
    ∃ x, exampleLFAT5 doubleLiteral construct method = .ok x ∧ x.map Binary.printed =
      ["1.220123", "0.000000", "4.927676", "0.011538", "0.217500", "0.000000", "6.570235", "0.005040", "-0.212195",
        "0.000000", "4.927676", "-0.004377", "-0.005305", "0.901830"].map String.toList := by
  have hv : ValidSparsity testMatrixLFAT5.sparsity [13, 11, 12, 8, 7, 0, 4, 3, 9, 1, 5, 10, 2, 6] :=
    ⟨by unfold Sparsity.InRange; decide, rfl, by unfold IsPerm; decide, by decide⟩
  have hm : (testMatrixLFAT5.map doubleLiteral).Fits testMatrixLFAT5.sparsity
      [13, 11, 12, 8, 7, 0, 4, 3, 9, 1, 5, 10, 2, 6] :=
    ⟨rfl, hv.inRange, rfl, rfl, fun i j h => .base h h.1⟩
  obtain ⟨g, hg, hgd⟩ := freshSingle_eq hc (doubleLiteral 0)
  have e : exampleLFAT5 doubleLiteral construct method =
      (freshSingle testMatrixLFAT5.sparsity [13, 11, 12, 8, 7, 0, 4, 3, 9, 1, 5, 10, 2, 6] (doubleLiteral 0) >>= fun g =>
        exampleLFAT5 doubleLiteral g method) := by
    rw [hg]
    unfold exampleLFAT5
    rw [C26_history_independent _ _ hv construct g hc hgd _ hm]
    rfl
  refine of_map e ?_
  clear e hg hgd hm hv hc
  cases method <;> decide +kernel

/-! ### The programs with an indefinite matrix -/

/-- Conversion of a `double` to `float` as done by the assignments, and literals of type `float`. -/
def singleLiteral (x : ℚ) : Single := Binary.ofRat .binary32 false x

/-- A method and a value of the regularization constant, with the lines printed by the two programs. -/
structure IndefCase where
  method : Method
  constant : Single
  single : List String
  repeating : List String

/-- The three numbers of type `float` nearest to the square root of the machine precision `2 ^ -23`, values which
`std::pow` may return for the constant. The programs use the method `upLooking`; the lines would be others with the
other one. -/
def indefCases : List IndefCase :=
  [⟨.upLooking, singleLiteral (11863282 / 2 ^ 35), ["1.000000", "0.999655"],
      ["2.000000", "0.999309", "4.000000", "2.998619"]⟩,
    ⟨.upLooking, singleLiteral (11863283 / 2 ^ 35), ["1.000000", "0.999655"],
      ["2.000000", "0.999309", "4.000977", "2.998619"]⟩,
    ⟨.upLooking, singleLiteral (11863284 / 2 ^ 35), ["1.000000", "0.999655"],
      ["2.000000", "0.999309", "4.000000", "2.998619"]⟩,
    ⟨.entryWise, singleLiteral (11863282 / 2 ^ 35), ["0.999756", "0.999655"],
      ["1.999756", "0.999310", "4.000000", "2.998619"]⟩,
    ⟨.entryWise, singleLiteral (11863283 / 2 ^ 35), ["0.999756", "0.999655"],
      ["1.999756", "0.999310", "4.000000", "2.998619"]⟩,
    ⟨.entryWise, singleLiteral (11863284 / 2 ^ 35), ["1.000000", "0.999655"],
      ["2.000000", "0.999309", "4.000000", "2.998619"]⟩]

/-- The regularization replaces zeros (of both signs) by the constant, leaves it unchanged, and leaves numbers unchanged
which are at least one in magnitude. `RegularizationSmallPositiveConstant` does for every tolerance between zero and
one. -/
structure ReplacesZero (reg : Single → Nat → Single) (c : Single) : Prop where
  zero : ∀ s i, reg (.zero s) i = c
  same : ∀ i, reg c i = c
  large : ∀ y i, 1 ≤ |y.toRat| → reg y i = y

private def zeroReg (c y : Single) (_ : Nat) : Single :=
  match y with
  | .zero _ => c
  | y => y

private theorem zeroReg_exchange {reg : Single → Nat → Single} {c d : Single} (hreg : ReplacesZero reg c)
    (hd : d = c ∨ 1 ≤ |d.toRat|) (y : Single) (i : Nat) (h : zeroReg c y i = d) : reg y i = d := by
  cases y with
  | zero s => rw [hreg.zero s i]; exact h
  | num x hx hr =>
    have h' : Binary.num x hx hr = d := h
    rcases hd with rfl | hd
    · rw [h', hreg.same i]
    · rw [h']; exact hreg.large d i hd
  | inf s =>
    have h' : Binary.inf s = d := h
    rcases hd with rfl | hd
    · rw [h', hreg.same i]
    · rw [h']; exact hreg.large d i hd
  | nan =>
    have h' : Binary.nan = d := h
    rcases hd with rfl | hd
    · rw [h', hreg.same i]
    · rw [h']; exact hreg.large d i hd

/-- The number is exactly the constant, or at least one in magnitude. -/
private def fine (c d : Single) : Bool := decide (c.toRat ≠ 0 ∧ d.toRat = c.toRat) || decide (1 ≤ |d.toRat|)

private theorem fine_iff {c d : Single} (h : fine c d = true) : d = c ∨ 1 ≤ |d.toRat| := by
  unfold fine at h
  rw [Bool.or_eq_true, decide_eq_true_iff, decide_eq_true_iff] at h
  rcases h with ⟨h1, h2⟩ | h
  · left
    revert h1 h2
    cases d <;> cases c <;> simp [Binary.toRat] <;> exact fun h1 h2 => h1 h2.symm
  · exact Or.inr h

private theorem single_zero : (Binary.convert .binary32 : Double → Single) 0 = 0 := rfl

/-- C67: what the program with a single indefinite matrix prints. The solution has ones only, and the second number is
wrong by about 0.0003, as a consequence of the regularization. -/
theorem C67_indef_single (construct : DiagFactor Single) (hc : construct.Declared testMatrixIndefA.sparsity [0, 1])
    (k : IndefCase) (hk : k ∈ indefCases) (reg : Single → Nat → Single)
    (hreg : ReplacesZero reg k.constant) :
    ∃ x, exampleIndefSingle doubleLiteral (Binary.convert .binary32) singleLiteral reg construct k.method = .ok x ∧
      x.map Binary.printed = k.single.map String.toList := by
  have hv : ValidSparsity testMatrixIndefA.sparsity [0, 1] :=
    ⟨by unfold Sparsity.InRange; decide, rfl, by unfold IsPerm; decide, by decide⟩
  have hm : ((testMatrixIndefA.map doubleLiteral).map (Binary.convert .binary32 : Double → Single)).Fits
      testMatrixIndefA.sparsity [0, 1] :=
    ⟨rfl, hv.inRange, rfl, rfl, fun i j h => .base h h.1⟩
  obtain ⟨g, hg, hgd⟩ := freshSingle_eq hc (singleLiteral 0)
  have key : ∀ k ∈ indefCases,
      ((freshSingle testMatrixIndefA.sparsity [0, 1] (singleLiteral 0) >>= fun g =>
        g.factorize ((testMatrixIndefA.map doubleLiteral).map (Binary.convert .binary32 : Double → Single))
          (zeroReg k.constant) k.method).map fun f' => (fine k.constant (f'.pivot 0), fine k.constant (f'.pivot 1),
            match f'.solveInPlace [singleLiteral 1, singleLiteral 1] with
            | .ok x => x.map Binary.printed
            | .error _ => [])) = .ok (true, true, k.single.map String.toList) := by
    intro c hc
    unfold indefCases at hc
    simp only [List.mem_cons, List.not_mem_nil, or_false] at hc
    rcases hc with rfl | rfl | rfl | rfl | rfl | rfl <;> decide +kernel
  have h := key k hk
  rw [hg] at h
  obtain ⟨f', h1, h2⟩ := of_map rfl h
  have h1' : g.factorize ((testMatrixIndefA.map doubleLiteral).map (Binary.convert .binary32 : Double → Single))
      (zeroReg k.constant) k.method = .ok f' := h1
  simp only [Prod.mk.injEq] at h2
  obtain ⟨p0, p1, p2⟩ := h2
  have h3 := C28_exchange _ _ hv g hgd _ hm (zeroReg k.constant) reg k.method f' h1' fun i hi y hy => by
    have hi' : i < 2 := hi
    interval_cases i
    · exact zeroReg_exchange hreg (fine_iff p0) y 0 hy
    · exact zeroReg_exchange hreg (fine_iff p1) y 1 hy
  unfold exampleIndefSingle
  rw [(C49_convert_first (Binary.convert .binary32 : Double → Single) single_zero id).1,
    C26_history_independent _ _ hv construct g hc hgd _ hm, h3]
  simp only [ok_bind]
  cases hx : f'.solveInPlace [singleLiteral 1, singleLiteral 1] with
  | error e =>
    rw [hx] at p2
    rcases hk' : k.single with _ | ⟨a, l⟩
    · rw [hk'] at p2
      unfold indefCases at hk
      simp only [List.mem_cons, List.not_mem_nil, or_false] at hk
      rcases hk with rfl | rfl | rfl | rfl | rfl | rfl <;> cases hk'
    · rw [hk'] at p2
      cases p2
  | ok x =>
    rw [hx] at p2
    exact ⟨x, rfl, p2⟩

/-- C67: what the program with a repeated indefinite block prints; the solution has the numbers 2, 1, 4 and 3. -/
theorem C67_indef (construct : Nat → ArrowheadFactor Single) (T : ArrowheadTypes)
    (hc : TridiagonalDeclared (construct 1) testMatrixIndefA.sparsity testMatrixIndefB.sparsity [0, 1] T 2 1)
    (k : IndefCase) (hk : k ∈ indefCases) (reg : Single → Nat → Single)
    (hreg : ReplacesZero reg k.constant) :
    ∃ x, exampleIndef doubleLiteral (Binary.convert .binary32) singleLiteral reg construct k.method = .ok x ∧
      x.map Binary.printed = k.repeating.map String.toList := by
  have hv : ValidTridiagonal testMatrixIndefA.sparsity testMatrixIndefB.sparsity [0, 1] 2 :=
    ⟨⟨by unfold Sparsity.InRange; decide, rfl, rfl⟩, ⟨by unfold Sparsity.InRange; decide, rfl, rfl⟩,
      by unfold IsPerm; decide, by decide⟩
  have hm : TridiagonalFits
      ((List.replicate (1 + 1) (testMatrixIndefA.map doubleLiteral)).map fun m => m.map (Binary.convert .binary32 : Double → Single))
      ((List.replicate 1 (testMatrixIndefB.map doubleLiteral)).map fun m => m.map (Binary.convert .binary32 : Double → Single))
      [0, 1] T 2 1 := by
    refine C37_declared_fits _ _ _ 2 hv 1 _ T hc _ _ (by simp) (by simp) (fun t ht => ?_) fun t ht => ?_
    · interval_cases t <;> exact ⟨rfl, rfl⟩
    · interval_cases t
      exact ⟨rfl, rfl⟩
  obtain ⟨s, hs, hd⟩ := id hc
  have hg : TridiagonalDeclared (freshFactor s T ⟨0, 2, 0, 0⟩ 1 (singleLiteral 0)) testMatrixIndefA.sparsity
      testMatrixIndefB.sparsity [0, 1] T 2 1 := ⟨s, hs, C21_constructible s _ T hd.types 1 _⟩
  have key : ∀ k ∈ indefCases, ((do
      let s ← tridiagonalSparsity testMatrixIndefA.sparsity testMatrixIndefB.sparsity [0, 1]
      let T ← arrowheadTypes s
      tridiagonalFactorize 2 (freshFactor s T ⟨0, 2, 0, 0⟩ 1 (singleLiteral 0))
        ((List.replicate (1 + 1) (testMatrixIndefA.map doubleLiteral)).map fun m : MatIn Double => m.map (Binary.convert .binary32 : Double → Single))
        ((List.replicate 1 (testMatrixIndefB.map doubleLiteral)).map fun m => m.map (Binary.convert .binary32 : Double → Single))
        (zeroReg k.constant) k.method : Res (ArrowheadFactor Single)).map fun f' =>
          ((fine k.constant (f'.pivotAt (.tridiag 0) 0), fine k.constant (f'.pivotAt (.tridiag 0) 1)),
            (fine k.constant (f'.pivotAt (.tridiag 1) 0), fine k.constant (f'.pivotAt (.tridiag 1) 1)),
            match tridiagonalSolveInPlace f' [[singleLiteral 1, singleLiteral 2], [singleLiteral 3, singleLiteral 4]] with
            | .ok x => x.flatten.map Binary.printed
            | .error _ => [])) = .ok ((true, true), (true, true), k.repeating.map String.toList) := by
    intro c hc
    unfold indefCases at hc
    simp only [List.mem_cons, List.not_mem_nil, or_false] at hc
    rcases hc with rfl | rfl | rfl | rfl | rfl | rfl <;> decide +kernel
  have h := key k hk
  rw [hs] at h
  simp only [ok_bind] at h
  rw [hd.types] at h
  simp only [ok_bind] at h
  obtain ⟨f', h1, h2⟩ := of_map rfl h
  simp only [Prod.mk.injEq] at h2
  obtain ⟨⟨p0, p1⟩, ⟨p2, p3⟩, p4⟩ := h2
  have h3 := C28_tridiagonal_exchange _ _ _ 2 hv 1 _ T hg _ _ hm (zeroReg k.constant) reg k.method f' h1
    fun t ht i hi y hy => by
      interval_cases t <;> interval_cases i
      · exact zeroReg_exchange hreg (fine_iff p0) y 0 hy
      · exact zeroReg_exchange hreg (fine_iff p1) y 1 hy
      · exact zeroReg_exchange hreg (fine_iff p2) y 0 hy
      · exact zeroReg_exchange hreg (fine_iff p3) y 1 hy
  unfold exampleIndef
  rw [(C49_convert_first (Binary.convert .binary32 : Double → Single) single_zero id).2.2.2.2.1,
    tridiagonal_history _ _ _ 2 hv 1 _ _ T hc hg _ _ hm, h3]
  simp only [ok_bind]
  cases hx : tridiagonalSolveInPlace f' [[singleLiteral 1, singleLiteral 2], [singleLiteral 3, singleLiteral 4]] with
  | error e =>
    rw [hx] at p4
    rcases hk' : k.repeating with _ | ⟨a, l⟩
    · unfold indefCases at hk
      simp only [List.mem_cons, List.not_mem_nil, or_false] at hk
      rcases hk with rfl | rfl | rfl | rfl | rfl | rfl <;> cases hk'
    · rw [hk'] at p4
      cases p4
  | ok x =>
    rw [hx] at p4
    exact ⟨x.flatten, rfl, p4⟩

/-! ### Cases meeting the hypotheses -/

/-- `RegularizationSmallPositiveConstant` is such a regularization for all tolerances greater than zero and at most
one. -/
example (tol : ℚ) (h0 : 0 < tol) (h1 : tol ≤ 1) (c : Single) :
    ReplacesZero (fun y _ => if |y.toRat| < tol then c else y) c :=
  ⟨fun s i => by
    rw [if_pos]
    change |(0 : ℚ)| < tol
    rwa [abs_zero], fun i => ite_self _, fun y i h => if_neg (by linarith)⟩

private theorem declared_exists {K : Type} {s : Sparsity} {p : List Nat} (hv : ValidSparsity s p) (x : K) :
    ∃ f : DiagFactor K, f.Declared s p := by
  obtain ⟨c, hc, -⟩ := factorizationSparsity_sat hv.inRange hv.square hv.perm hv.small
  exact ⟨⟨c, p, List.replicate c.entries.length x, List.replicate s.numRows x⟩, hc, rfl, by simp, by simp⟩

/-- Objects exist for all of the programs. -/
example : (∃ (f : ArrowheadFactor Double) (T : ArrowheadTypes), TridiagonalDeclared f (testMatrixTridiagonal ℚ 3).sparsity
      (testMatrixSingleEntryTopRight ℚ 3).sparsity [0, 1, 2] T 3 19) ∧
    (∃ (f : ArrowheadFactor Double) (T : ArrowheadTypes),
      TridiagonalDeclared f testMatrixNos2A.sparsity testMatrixNos2B.sparsity [0, 1, 2] T 3 318) ∧
    (∃ (f : ArrowheadFactor Double) (T : ArrowheadTypes), TridiagonalDeclared f (testMatrixNos4A false).sparsity
      testMatrixNos4B.sparsity [7, 8, 0, 4, 3, 2, 6, 5, 9, 1] T 10 9) ∧
    (∃ (f : ArrowheadFactor Single) (T : ArrowheadTypes),
      TridiagonalDeclared f testMatrixIndefA.sparsity testMatrixIndefB.sparsity [0, 1] T 2 1) ∧
    (∃ f : DiagFactor Single, f.Declared testMatrixIndefA.sparsity [0, 1]) ∧
    ∃ f : DiagFactor Double, f.Declared testMatrixLFAT5.sparsity [13, 11, 12, 8, 7, 0, 4, 3, 9, 1, 5, 10, 2, 6] := by
  refine ⟨C37_constructible _ _ _ 3 (C56_valid (K := ℚ) 3 (by decide) _ (by unfold IsPerm; decide) (by decide)).1 19 0,
    C37_constructible _ _ _ 3 ⟨⟨by unfold Sparsity.InRange; decide, rfl, rfl⟩,
      ⟨by unfold Sparsity.InRange; decide, rfl, rfl⟩, by unfold IsPerm; decide, by decide⟩ 318 0,
    C37_constructible _ _ _ 10 ⟨⟨by unfold Sparsity.InRange; decide, rfl, rfl⟩,
      ⟨by unfold Sparsity.InRange; decide, rfl, rfl⟩, by unfold IsPerm; decide, by decide⟩ 9 0,
    C37_constructible _ _ _ 2 ⟨⟨by unfold Sparsity.InRange; decide, rfl, rfl⟩,
      ⟨by unfold Sparsity.InRange; decide, rfl, rfl⟩, by unfold IsPerm; decide, by decide⟩ 1 0,
    declared_exists ⟨by unfold Sparsity.InRange; decide, rfl, by unfold IsPerm; decide, by decide⟩ 0,
    declared_exists ⟨by unfold Sparsity.InRange; decide, rfl, by unfold IsPerm; decide, by decide⟩ 0⟩

end Ctldl
