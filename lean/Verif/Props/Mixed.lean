import Verif.Lemmas.Cast
import Verif.Lemmas.Mixed
import Verif.Lemmas.Conversion
import Verif.Props.RoundingSolve

/-! # C49: matrix, factor and right-hand side with different number types -/

namespace Ctldl

open Finset

variable {M K K' F : Type} [Zero M] [Zero K] [Sub K] [Mul K] [Div K] [Zero K'] [Sub K'] [Mul K'] [Div K'] [Field F]
  [LinearOrder F] [IsStrictOrderedRing F]

private theorem typesOk {s : ArrowheadSparsity} {T : ArrowheadTypes} {d : Dims} (hs : s.Valid d)
    (hT : arrowheadTypes s = .ok T) : TypesOk s T d := by
  obtain ⟨T', h, h'⟩ := arrowheadTypes_sat hs
  rw [hT] at h
  cases h
  exact h'

private theorem apx_cast {R : Rounding K F} {v : M → F} {cast : M → K} (hc : Conversion R v cast) {x : M}
    (hx : R.fin (cast x)) {n : Nat} {S A E : F} (h : R.Apx n (R.v (cast x)) S A E) :
    R.Apx (n + 1) (v x) S A (E + R.η) := by
  obtain ⟨δ, e, h1, h2, h3⟩ := hc.err hx
  have h4 := (h.add_err (e := -e) (G := R.η) (by rwa [abs_neg])).div_round h1
  have h5 : (R.v (cast x) + -e) / (1 + δ) = v x := by
    rw [h3, add_neg_cancel_right, mul_div_assoc, div_self (Rounding.Apx.one_add_pos h1).ne', mul_one]
  rwa [h5] at h4

/-- C49: each value is converted when it is read, so the result is the same as for a matrix, factor respectively
right-hand side of the same number type, whatever the conversion does. -/
theorem C49_convert_first (cast : M → K) (h0 : cast 0 = 0) (cast' : K → K') :
    (∀ (f : DiagFactor K) (m : MatIn M) (reg : K → Nat → K) (method : Method),
      f.factorizeCast cast m reg method = f.factorize (m.map cast) reg method) ∧
    (∀ (f : DiagFactor K) (b : List K'), f.solveInPlaceCast cast' b = (f.map cast').solveInPlace b) ∧
    (∀ (dimTridiag dimLink dimOuter : Nat) (f : ArrowheadFactor K) (m : ArrowheadMatrix M) (reg : K → Nat → K)
      (method : Method), f.factorizeCast cast dimTridiag dimLink dimOuter m reg method =
        f.factorize dimTridiag dimLink dimOuter (m.map cast) reg method) ∧
    (∀ (f : ArrowheadFactor K) (b : ArrowheadVector K'), f.solveInPlaceCast cast' b = (f.map cast').solveInPlace b) ∧
    (∀ (dim : Nat) (f : ArrowheadFactor K) (A B : List (MatIn M)) (reg : K → Nat → K) (method : Method),
      tridiagonalFactorizeCast cast dim f A B reg method =
        tridiagonalFactorize dim f (A.map (·.map cast)) (B.map (·.map cast)) reg method) ∧
    ∀ (f : ArrowheadFactor K) (b : List (List K')),
      tridiagonalSolveInPlaceCast cast' f b = tridiagonalSolveInPlace (f.map cast') b :=
  ⟨fun _ _ _ _ => DiagFactor.factorizeCast_eq h0 _ _ _ _, fun _ _ => DiagFactor.solveInPlaceCast_eq _ _ _,
    fun _ _ _ _ _ _ _ => ArrowheadFactor.factorizeCast_eq h0 _ _ _ _ _ _ _,
    fun _ _ => ArrowheadFactor.solveInPlaceCast_eq _ _ _, fun _ _ _ _ _ _ => tridiagonalFactorizeCast_eq h0 _ _ _ _ _ _,
    fun _ _ => tridiagonalSolveInPlaceCast_eq _ _ _⟩

/-- C49: factorizing and solving succeed for every conversion. -/
theorem C49_total (cast : M → K) (h0 : cast 0 = 0) (cast' : K → K') (s : ArrowheadSparsity) (d : Dims) (hs : s.Valid d)
    (T : ArrowheadTypes) (N : Nat) (f : ArrowheadFactor K) (hf : f.Declared s T d N) (m : ArrowheadMatrix M)
    (hm : m.Fits s T d N) (reg : K → Nat → K) (method : Method) :
    ∃ f', f.factorizeCast cast d.tridiag d.link d.outer m reg method = .ok f' ∧ f'.Declared s T d N ∧
      ∀ b : ArrowheadVector K', b.OfSize d N → ∃ x, f'.solveInPlaceCast cast' b = .ok x ∧ x.OfSize d N := by
  rw [ArrowheadFactor.factorizeCast_eq h0]
  obtain ⟨f', h1, h2⟩ := C21_factorize_total s d hs T N f hf (m.map cast) (hm.map cast) reg method
  refine ⟨f', h1, h2, fun b hb => ?_⟩
  rw [ArrowheadFactor.solveInPlaceCast_eq]
  exact (C35_solve_total s d hs T N (f'.map cast') (h2.map cast') b hb).1

/-- C49: backward error of factorizing a matrix whose values are converted to the number type of the factor. Compared to
C46 there is one more rounding error. -/
theorem C49_backward_error (R : Rounding K F) (v : M → F) (cast : M → K) (hc : Conversion R v cast)
    (s : ArrowheadSparsity) (d : Dims) (hs : s.Valid d) (T : ArrowheadTypes)
    (N : Nat) (f : ArrowheadFactor K) (hf : f.Declared s T d N) (m : ArrowheadMatrix M) (hm : m.Fits s T d N)
    (hcast : ∀ a ∈ blocks N, ∀ b ∈ blocks N, ∀ i < d.of a, ∀ j < d.of b, R.fin (cast (m.symElement N a b i j)))
    (reg : K → Nat → K) (method : Method) (f' : ArrowheadFactor K)
    (h : f.factorizeCast cast d.tridiag d.link d.outer m reg method = .ok f')
    (hfin : ∀ a ∈ blocks N, ∀ i < d.of a, R.fin (f'.pivotAt a i) ∧ ∀ x, f'.pivotAt a i = reg x i → R.fin x)
    (ε : F) (h0 : 0 ≤ ε)
    (hε : ∀ a ∈ blocks N, ∀ b ∈ blocks N, ∀ i j, T.Has N a i b j →
      R.η * (1 + |R.v (f'.pivotAt b j)| * (1 + |(f'.map R.v).lowerElement N a b i j|)) ≤ ε)
    (n : Nat) (hn : ∀ a ∈ blocks N, ∀ i < d.of a, T.rowEntries N a i ≤ n) :
    ∃ x : Blk → Nat → K, (∀ a ∈ blocks N, ∀ i < d.of a, f'.pivotAt a i = reg (x a i) i) ∧
      ∀ a ∈ blocks N, ∀ b ∈ blocks N, ∀ i < d.of a, ∀ j < d.of b,
        |(m.map v).symElement N a b (permAt (s.perm a) i) (permAt (s.perm b) j) -
          ((f'.map R.v).ldlt d N a b i j +
            if a = b ∧ i = j then R.v (x a i) - R.v (f'.pivotAt a i) else 0)| ≤
        R.gamma (n + 3) * ((f'.map (fun y => |R.v y|)).ldlt d N a b i j +
            if a = b ∧ i = j then |R.v (x a i)| - |R.v (f'.pivotAt a i)| else 0) +
          R.growth (n + 3) * ((n + 1) * ε + R.η) := by
  rw [ArrowheadFactor.factorizeCast_eq hc.zero] at h
  obtain ⟨x, hx, hA⟩ := R.factorize_apx s d hs T N f hf (m.map cast) (hm.map cast) reg method f' h hfin ε h0 hε n hn
  refine ⟨x, hx, fun a ha b hb i hi j hj => ?_⟩
  have h1 := hA a ha b hb i hi j hj
  rw [ArrowheadMatrix.map_map, matrix_symElement_map (by rw [hc.zero, R.v_zero])] at h1
  rw [matrix_symElement_map hc.v_zero]
  exact (apx_cast hc (hcast a ha b hb _ ((valid_perm hs a).lt hi) _ ((valid_perm hs b).lt hj)) h1).err

omit [Sub K] [Mul K] [Div K] in
/-- C49: backward error of solving with factors whose numbers are converted to the number type of the right-hand side
with relative errors of at most `τ` (zero, if that type is the wider one). -/
theorem C49_solve (v : K → F) (v0 : v 0 = 0) (R : Rounding K' F) (cast : K → K') (cast0 : cast 0 = 0)
    (hst : ∀ y, R.stored (cast y)) (τ : F) (hτ : 0 ≤ τ)
    (s : ArrowheadSparsity) (d : Dims) (hs : s.Valid d) (T : ArrowheadTypes)
    (N : Nat) (f : ArrowheadFactor K) (hf : f.Declared s T d N)
    (hcast : ∀ y, f.Stores y → ∃ δ, |δ| ≤ τ ∧ R.v (cast y) = v y * (1 + δ))
    (b : ArrowheadVector K') (hb : b.OfSize d N)
    (x : ArrowheadVector K') (h : f.solveInPlaceCast cast b = .ok x)
    (hpiv : ∀ a ∈ blocks N, ∀ i < d.of a, R.fin (cast (f.pivotAt a i)))
    (hfin : ∀ a ∈ blocks N, ∀ i < d.of a, R.fin (x.at a i))
    (n : Nat) (hn : ∀ a ∈ blocks N, ∀ i < d.of a, T.rowEntries N a i ≤ n)
    (m : Nat) (hm : ∀ a ∈ blocks N, ∀ i < d.of a, T.colEntries N a i ≤ m) :
    ∀ a ∈ blocks N, ∀ i < d.of a,
      |R.v (b.at a (permAt (s.perm a) i)) - ∑ c ∈ blocks N, ∑ j ∈ range (d.of c),
          (f.map v).ldlt d N a c i j * R.v (x.at c (permAt (s.perm c) j))| ≤
        (R.growth (n + m + 3) * (1 + τ) ^ 3 - 1) * ∑ c ∈ blocks N, ∑ j ∈ range (d.of c),
          (f.map (fun y => |v y|)).ldlt d N a c i j * |R.v (x.at c (permAt (s.perm c) j))| +
        R.growth (n + m + 3) * (n * R.η + (1 + τ) ^ 2 * ∑ c ∈ blocks N, ∑ j ∈ range (d.of c),
          (f.map (fun y => |v y|)).lowerElement N a c i j * (|v (f.pivotAt c j)| * ((m + 1) * R.η))) := by
  classical
  rw [ArrowheadFactor.solveInPlaceCast_eq] at h
  have hx := C47_solve R s d hs T N (f.map cast) (hf.map cast) (.map cast0 hst f) b hb x h
    (fun a ha i hi => by rw [pivotAt_map cast0]; exact hpiv a ha i hi) hfin n hn m hm
  -- numbers which are not stored do not matter
  set g' : K → F := fun y => if f.Stores y then R.v (cast y) else v y with hg'
  have z : R.v (cast 0) = 0 := by rw [cast0, R.v_zero]
  have z' : g' 0 = 0 := by
    simp only [hg']
    split
    · exact z
    · exact v0
  have hrel : ∀ y, ∃ δ, |δ| ≤ τ ∧ g' y = v y * (1 + δ) := by
    intro y
    by_cases hy : f.Stores y
    · simp only [hg', if_pos hy]
      exact hcast y hy
    · exact ⟨0, by rwa [abs_zero], by simp only [hg', if_neg hy]; ring⟩
  have e1 : (f.map cast).map R.v = f.map g' := by
    rw [ArrowheadFactor.map_map]
    exact ArrowheadFactor.map_congr fun y hy => (if_pos hy).symm
  have e2 : (f.map cast).map (fun y => |R.v y|) = f.map (fun y => |g' y|) := by
    rw [ArrowheadFactor.map_map]
    exact ArrowheadFactor.map_congr fun y hy => by simp only [hg', if_pos hy]
  have e3 : ∀ c j, R.v ((f.map cast).pivotAt c j) = g' (f.pivotAt c j) := by
    intro c j
    rw [← pivotAt_map R.v_zero, e1, pivotAt_map z']
  intro a ha i hi
  have h1 := hx a ha i hi
  rw [e1, e2] at h1
  simp only [e3] at h1
  set X : Blk → Nat → F := fun c j => R.v (x.at c (permAt (s.perm c) j)) with hX
  have h2 : ∀ c ∈ blocks N, ∀ j ∈ range (d.of c),
      |((f.map v).ldlt d N a c i j - (f.map g').ldlt d N a c i j) * X c j| ≤
      ((1 + τ) ^ 3 - 1) * ((f.map (fun y => |v y|)).ldlt d N a c i j * |X c j|) := by
    intro c _ j _
    rw [abs_mul, ← mul_assoc, abs_sub_comm]
    exact mul_le_mul_of_nonneg_right (ldlt_rel v0 z' hrel hτ f d N a c i j).1 (abs_nonneg _)
  have h3 : |∑ c ∈ blocks N, ∑ j ∈ range (d.of c), ((f.map v).ldlt d N a c i j - (f.map g').ldlt d N a c i j) * X c j| ≤
      ((1 + τ) ^ 3 - 1) * ∑ c ∈ blocks N, ∑ j ∈ range (d.of c), (f.map (fun y => |v y|)).ldlt d N a c i j * |X c j| := by
    refine ((abs_sum_le_sum_abs _ _).trans (sum_le_sum fun c hc =>
      (abs_sum_le_sum_abs _ _).trans (sum_le_sum fun j hj => h2 c hc j hj))).trans_eq ?_
    simp only [← mul_sum]
  have h4 : ∑ c ∈ blocks N, ∑ j ∈ range (d.of c), (f.map (fun y => |g' y|)).ldlt d N a c i j * |X c j| ≤
      (1 + τ) ^ 3 * ∑ c ∈ blocks N, ∑ j ∈ range (d.of c), (f.map (fun y => |v y|)).ldlt d N a c i j * |X c j| := by
    rw [mul_sum]
    refine sum_le_sum fun c _ => ?_
    rw [mul_sum]
    refine sum_le_sum fun j _ => ?_
    rw [← mul_assoc]
    exact mul_le_mul_of_nonneg_right (ldlt_rel v0 z' hrel hτ f d N a c i j).2 (abs_nonneg _)
  have h5 : ∑ c ∈ blocks N, ∑ j ∈ range (d.of c),
      (f.map (fun y => |g' y|)).lowerElement N a c i j * (|g' (f.pivotAt c j)| * ((m + 1) * R.η)) ≤
      (1 + τ) ^ 2 * ∑ c ∈ blocks N, ∑ j ∈ range (d.of c),
        (f.map (fun y => |v y|)).lowerElement N a c i j * (|v (f.pivotAt c j)| * ((m + 1) * R.η)) := by
    rw [mul_sum]
    refine sum_le_sum fun c _ => ?_
    rw [mul_sum]
    refine sum_le_sum fun j _ => ?_
    rw [lowerElement_abs z', lowerElement_abs v0]
    obtain ⟨δ₁, d1, q1⟩ := lowerElement_rel v0 z' hrel hτ f N a c i j
    obtain ⟨δ₂, d2, q2⟩ := hrel (f.pivotAt c j)
    rw [q1, q2, abs_mul, abs_mul]
    have hη : 0 ≤ ((m : F) + 1) * R.η := mul_nonneg (by positivity) R.η_nonneg
    have t1 := abs_one_add_le d1
    have t2 := abs_one_add_le d2
    have t3 : |1 + δ₁| * |1 + δ₂| ≤ (1 + τ) ^ 2 := by
      rw [pow_two]
      exact mul_le_mul t1 t2 (abs_nonneg _) (by linarith)
    calc _ = (|1 + δ₁| * |1 + δ₂|) * (|(f.map v).lowerElement N a c i j| * (|v (f.pivotAt c j)| * (((m : F) + 1) * R.η))) :=
          by ring
      _ ≤ _ := mul_le_mul_of_nonneg_right t3 (mul_nonneg (abs_nonneg _) (mul_nonneg (abs_nonneg _) hη))
  have h6 : R.v (b.at a (permAt (s.perm a) i)) - ∑ c ∈ blocks N, ∑ j ∈ range (d.of c), (f.map v).ldlt d N a c i j * X c j =
      (R.v (b.at a (permAt (s.perm a) i)) - ∑ c ∈ blocks N, ∑ j ∈ range (d.of c), (f.map g').ldlt d N a c i j * X c j) -
      ∑ c ∈ blocks N, ∑ j ∈ range (d.of c), ((f.map v).ldlt d N a c i j - (f.map g').ldlt d N a c i j) * X c j := by
    simp only [sub_mul, sum_sub_distrib]
    ring
  change |_ - ∑ c ∈ blocks N, ∑ j ∈ range (d.of c), (f.map v).ldlt d N a c i j * X c j| ≤ _
  rw [h6]
  refine (abs_sub _ _).trans ((add_le_add h1 h3).trans ?_)
  have h7 := mul_le_mul_of_nonneg_left h4 (R.gamma_nonneg (n + m + 3))
  have h8 := mul_le_mul_of_nonneg_left (add_le_add_right h5 (n * R.η)) (R.growth_pos (n + m + 3)).le
  have h9 : R.gamma (n + m + 3) = R.growth (n + m + 3) - 1 := rfl
  rw [h9] at h7 ⊢
  refine (add_le_add_left (add_le_add h7 h8) _).trans_eq ?_
  ring

/-- C49: residual after factorizing a matrix and solving, where the values of the matrix are converted to the number type
of the factor (`K`, rounding errors `R`) and those of the factor to the one of the right-hand side (`K'`, rounding errors
`R'`): the errors of factorizing come with the accuracy of the factor, those of solving with the accuracy of the
right-hand side. -/
theorem C49_residual (R : Rounding K F) (v : M → F) (cast : M → K) (hc : Conversion R v cast)
    (R' : Rounding K' F) (cast' : K → K') (cast0' : cast' 0 = 0) (hst : ∀ y, R'.stored (cast' y)) (τ : F) (hτ : 0 ≤ τ)
    (s : ArrowheadSparsity) (d : Dims) (hs : s.Valid d) (T : ArrowheadTypes)
    (N : Nat) (f : ArrowheadFactor K) (hf : f.Declared s T d N) (A : ArrowheadMatrix M) (hA : A.Fits s T d N)
    (hcast : ∀ a ∈ blocks N, ∀ b ∈ blocks N, ∀ i < d.of a, ∀ j < d.of b, R.fin (cast (A.symElement N a b i j)))
    (reg : K → Nat → K) (method : Method) (f' : ArrowheadFactor K)
    (hfact : f.factorizeCast cast d.tridiag d.link d.outer A reg method = .ok f')
    (hpiv : ∀ a ∈ blocks N, ∀ i < d.of a, R.fin (f'.pivotAt a i) ∧ ∀ x, f'.pivotAt a i = reg x i → R.fin x)
    (ε : F) (h0 : 0 ≤ ε)
    (hε : ∀ a ∈ blocks N, ∀ b ∈ blocks N, ∀ i j, T.Has N a i b j →
      R.η * (1 + |R.v (f'.pivotAt b j)| * (1 + |(f'.map R.v).lowerElement N a b i j|)) ≤ ε)
    (hcast' : ∀ y, f'.Stores y → ∃ δ, |δ| ≤ τ ∧ R'.v (cast' y) = R.v y * (1 + δ))
    (hpiv' : ∀ a ∈ blocks N, ∀ i < d.of a, R'.fin (cast' (f'.pivotAt a i)))
    (b : ArrowheadVector K') (hb : b.OfSize d N) (x : ArrowheadVector K') (h : f'.solveInPlaceCast cast' b = .ok x)
    (hfin : ∀ a ∈ blocks N, ∀ i < d.of a, R'.fin (x.at a i))
    (n : Nat) (hn : ∀ a ∈ blocks N, ∀ i < d.of a, T.rowEntries N a i ≤ n)
    (m : Nat) (hm : ∀ a ∈ blocks N, ∀ i < d.of a, T.colEntries N a i ≤ m) :
    ∃ w : Blk → Nat → K, (∀ a ∈ blocks N, ∀ i < d.of a, f'.pivotAt a i = reg (w a i) i) ∧
      ∀ a ∈ blocks N, ∀ i < d.of a,
        |R'.v (b.at a (permAt (s.perm a) i)) - ∑ c ∈ blocks N, ∑ j ∈ range (d.of c),
            ((A.map v).symElement N a c (permAt (s.perm a) i) (permAt (s.perm c) j) +
              if a = c ∧ i = j then R.v (f'.pivotAt a i) - R.v (w a i) else 0) *
              R'.v (x.at c (permAt (s.perm c) j))| ≤
          (R'.growth (n + m + 3) * (1 + τ) ^ 3 - 1) * ∑ c ∈ blocks N, ∑ j ∈ range (d.of c),
            (f'.map (fun y => |R.v y|)).ldlt d N a c i j * |R'.v (x.at c (permAt (s.perm c) j))| +
          R.gamma (n + 3) * ∑ c ∈ blocks N, ∑ j ∈ range (d.of c),
            ((f'.map (fun y => |R.v y|)).ldlt d N a c i j +
              if a = c ∧ i = j then |R.v (w a i)| - |R.v (f'.pivotAt a i)| else 0) *
              |R'.v (x.at c (permAt (s.perm c) j))| +
          (R'.growth (n + m + 3) * (n * R'.η + (1 + τ) ^ 2 * ∑ c ∈ blocks N, ∑ j ∈ range (d.of c),
            (f'.map (fun y => |R.v y|)).lowerElement N a c i j * (|R.v (f'.pivotAt c j)| * ((m + 1) * R'.η))) +
          R.growth (n + 3) * ((n + 1) * ε + R.η) * ∑ c ∈ blocks N, ∑ j ∈ range (d.of c),
            |R'.v (x.at c (permAt (s.perm c) j))|) := by
  obtain ⟨w, hw, hA'⟩ := C49_backward_error R v cast hc s d hs T N f hf A hA hcast reg method f' hfact hpiv ε h0 hε n hn
  rw [ArrowheadFactor.factorizeCast_eq hc.zero] at hfact
  have hd := (Sat.of_ok (arrowheadFactorize_sat hs (typesOk hs hf.types) hf (hA.map cast).matrixOk reg method) hfact).1
  have hx := C49_solve R.v R.v_zero R' cast' cast0' hst τ hτ s d hs T N f' hd hcast' b hb x h hpiv' hfin n hn m hm
  refine ⟨w, hw, fun a ha i hi => ?_⟩
  have h1 := hx a ha i hi
  generalize R'.v (b.at a (permAt (s.perm a) i)) = β at h1 ⊢
  generalize (R'.growth (n + m + 3) * (1 + τ) ^ 3 - 1) * _ = B1 at h1 ⊢
  generalize R'.growth (n + m + 3) * _ = B2 at h1 ⊢
  set X : Blk → Nat → F := fun c j => R'.v (x.at c (permAt (s.perm c) j)) with hX
  set P : Blk → Nat → F := fun c j => (f'.map R.v).ldlt d N a c i j with hP
  set Q : Blk → Nat → F := fun c j => (f'.map (fun y => |R.v y|)).ldlt d N a c i j +
    if a = c ∧ i = j then |R.v (w a i)| - |R.v (f'.pivotAt a i)| else 0 with hQ
  set W : Blk → Nat → F := fun c j => (A.map v).symElement N a c (permAt (s.perm a) i) (permAt (s.perm c) j) +
    if a = c ∧ i = j then R.v (f'.pivotAt a i) - R.v (w a i) else 0 with hW
  set E : F := (n + 1) * ε + R.η with hE
  change |β - ∑ c ∈ blocks N, ∑ j ∈ range (d.of c), W c j * X c j| ≤
    B1 + R.gamma (n + 3) * ∑ c ∈ blocks N, ∑ j ∈ range (d.of c), Q c j * |X c j| +
      (B2 + R.growth (n + 3) * E * ∑ c ∈ blocks N, ∑ j ∈ range (d.of c), |X c j|)
  change |β - ∑ c ∈ blocks N, ∑ j ∈ range (d.of c), P c j * X c j| ≤ B1 + B2 at h1
  have h2 : ∀ c ∈ blocks N, ∀ j ∈ range (d.of c), |(W c j - P c j) * X c j| ≤
      R.gamma (n + 3) * (Q c j * |X c j|) + R.growth (n + 3) * E * |X c j| := by
    intro c hc j hj
    have h3 := hA' a ha c hc i hi j (mem_range.mp hj)
    rw [abs_mul, ← mul_assoc, ← add_mul]
    refine mul_le_mul_of_nonneg_right (le_trans (le_of_eq (congrArg _ ?_)) h3) (abs_nonneg _)
    simp only [hW, hP]
    split <;> ring
  have h4 : β - ∑ c ∈ blocks N, ∑ j ∈ range (d.of c), W c j * X c j =
      (β - ∑ c ∈ blocks N, ∑ j ∈ range (d.of c), P c j * X c j) -
        ∑ c ∈ blocks N, ∑ j ∈ range (d.of c), (W c j - P c j) * X c j := by
    simp only [sub_mul, sum_sub_distrib]
    ring
  have h5 : |∑ c ∈ blocks N, ∑ j ∈ range (d.of c), (W c j - P c j) * X c j| ≤
      ∑ c ∈ blocks N, ∑ j ∈ range (d.of c),
        (R.gamma (n + 3) * (Q c j * |X c j|) + R.growth (n + 3) * E * |X c j|) :=
    (abs_sum_le_sum_abs _ _).trans (sum_le_sum fun c hc =>
      (abs_sum_le_sum_abs _ _).trans (sum_le_sum fun j hj => h2 c hc j hj))
  simp only [sum_add_distrib, ← mul_sum] at h5
  rw [h4]
  refine (abs_sub _ _).trans ((add_le_add h1 h5).trans_eq ?_)
  ring

/-- C49: the same for IEEE binary formats of the matrix, of the factor and of the right-hand side, where the one of the
right-hand side has all numbers of the one of the factor (for example `double`, `float`, `double`). -/
theorem C49_binary (fmtM fmtK fmtV : Format) (hwide : fmtK.Wider fmtV)
    (s : ArrowheadSparsity) (d : Dims) (hs : s.Valid d) (T : ArrowheadTypes)
    (N : Nat) (f : ArrowheadFactor (Binary fmtK)) (hf : f.Declared s T d N)
    (A : ArrowheadMatrix (Binary fmtM)) (hA : A.Fits s T d N)
    (hcast : ∀ a ∈ blocks N, ∀ b ∈ blocks N, ∀ i < d.of a, ∀ j < d.of b,
      ((A.symElement N a b i j).convert fmtK).Finite)
    (method : Method) (f' : ArrowheadFactor (Binary fmtK))
    (hfact : f.factorizeCast (Binary.convert fmtK) d.tridiag d.link d.outer A regularizationNone method = .ok f')
    (hpiv : ∀ a ∈ blocks N, ∀ i < d.of a, (f'.pivotAt a i).Finite)
    (ε : ℚ) (h0 : 0 ≤ ε)
    (hε : ∀ a ∈ blocks N, ∀ b ∈ blocks N, ∀ i j, T.Has N a i b j →
      (Binary.rounding fmtK).η * (1 + |(f'.pivotAt b j).toRat| * (1 + |(f'.map Binary.toRat).lowerElement N a b i j|)) ≤ ε)
    (b : ArrowheadVector (Binary fmtV)) (hb : b.OfSize d N) (x : ArrowheadVector (Binary fmtV))
    (h : f'.solveInPlaceCast (Binary.convert fmtV) b = .ok x)
    (hfin : ∀ a ∈ blocks N, ∀ i < d.of a, (x.at a i).Finite)
    (n : Nat) (hn : ∀ a ∈ blocks N, ∀ i < d.of a, T.rowEntries N a i ≤ n)
    (m : Nat) (hm : ∀ a ∈ blocks N, ∀ i < d.of a, T.colEntries N a i ≤ m) :
    ∀ a ∈ blocks N, ∀ i < d.of a,
      |(b.at a (permAt (s.perm a) i)).toRat - ∑ c ∈ blocks N, ∑ j ∈ range (d.of c),
          (A.map Binary.toRat).symElement N a c (permAt (s.perm a) i) j * (x.at c j).toRat| ≤
        ((Binary.rounding fmtV).gamma (n + m + 3) + (Binary.rounding fmtK).gamma (n + 3)) *
          ∑ c ∈ blocks N, ∑ j ∈ range (d.of c),
            (f'.map (fun y => |y.toRat|)).ldlt d N a c i j * |(x.at c (permAt (s.perm c) j)).toRat| +
        ((Binary.rounding fmtV).growth (n + m + 3) * (n * (Binary.rounding fmtV).η + ∑ c ∈ blocks N, ∑ j ∈ range (d.of c),
          (f'.map (fun y => |y.toRat|)).lowerElement N a c i j * (|(f'.pivotAt c j).toRat| * ((m + 1) * (Binary.rounding fmtV).η))) +
        (Binary.rounding fmtK).growth (n + 3) * ((n + 1) * ε + (Binary.rounding fmtK).η) * ∑ c ∈ blocks N, ∑ j ∈ range (d.of c),
          |(x.at c (permAt (s.perm c) j)).toRat|) := by
  obtain ⟨w, hw, hr⟩ := C49_residual (Binary.rounding fmtK) Binary.toRat (Binary.convert fmtK)
    (Binary.conversion fmtM fmtK) (Binary.rounding fmtV) (Binary.convert fmtV) rfl (fun _ => trivial) 0 le_rfl s d hs T N f hf A hA hcast
    regularizationNone method f' hfact
    (fun a ha i hi => ⟨hpiv a ha i hi, fun y hy => (show f'.pivotAt a i = y from hy) ▸ hpiv a ha i hi⟩) ε h0 hε
    (fun y _ => ⟨0, by rw [abs_zero], by
      change (y.convert fmtV).toRat = y.toRat * (1 + 0)
      rw [(Binary.convert_wider hwide y).2, add_zero, mul_one]⟩)
    (fun a ha i hi => (Binary.convert_wider hwide _).1.mpr (hpiv a ha i hi)) b hb x h hfin n hn m hm
  intro a ha i hi
  have h1 := hr a ha i hi
  rw [← show f'.pivotAt a i = w a i from hw a ha i hi] at h1
  simp only [sub_self, ite_self, add_zero, one_pow, mul_one, one_mul] at h1
  rw [add_mul, ← sum_congr rfl fun c _ => sum_perm (valid_perm hs c)
    (fun j => (A.map Binary.toRat).symElement N a c (permAt (s.perm a) i) j * (x.at c j).toRat)]
  exact h1

/-- C49: the same as `C49_backward_error` for a single matrix. -/
theorem C49_single_backward_error (R : Rounding K F) (v : M → F) (cast : M → K) (hc : Conversion R v cast)
    (s : Sparsity) (p : List Nat) (hv : ValidSparsity s p)
    (f : DiagFactor K) (hf : f.Declared s p) (m : MatIn M) (hm : m.Fits s p)
    (hcast : ∀ i < s.numRows, ∀ j < s.numRows, R.fin (cast (m.sym i j)))
    (reg : K → Nat → K) (method : Method)
    (f' : DiagFactor K) (h : f.factorizeCast cast m reg method = .ok f')
    (hfin : ∀ i < s.numRows, R.fin (f'.pivot i) ∧ ∀ x, f'.pivot i = reg x i → R.fin x)
    (ε : F) (h0 : 0 ≤ ε)
    (hε : ∀ i j, f'.sparsity.toSparsity.Has i j →
      R.η * (1 + |R.v (f'.pivot j)| * (1 + |R.v (f'.lower i j)|)) ≤ ε)
    (n : Nat) (hn : ∀ i < s.numRows, f'.sparsity.rowEntries i ≤ n) :
    ∃ x : Nat → K, (∀ i < s.numRows, f'.pivot i = reg (x i) i) ∧ ∀ i < s.numRows, ∀ j < s.numRows,
      |v (m.sym (permAt p i) (permAt p j)) -
        (ldlt s.numRows (fun a b => R.v (f'.lower a b)) (fun a => R.v (f'.pivot a)) i j +
          if i = j then R.v (x i) - R.v (f'.pivot i) else 0)| ≤
      R.gamma (n + 3) * (ldlt s.numRows (fun a b => |R.v (f'.lower a b)|) (fun a => |R.v (f'.pivot a)|) i j +
          if i = j then |R.v (x i)| - |R.v (f'.pivot i)| else 0) +
        R.growth (n + 3) * ((n + 1) * ε + R.η) := by
  rw [DiagFactor.factorizeCast_eq hc.zero] at h
  have hm' : (m.map cast).Fits s p :=
    ⟨by simp only [MatIn.Sized, MatIn.map, List.length_map]; exact hm.sized, hm.inRange, hm.rows, hm.cols, hm.subset⟩
  obtain ⟨x, hx, hA⟩ := R.single_apx s p hv f hf (m.map cast) hm' reg method f' h hfin ε h0 hε n hn
  refine ⟨x, hx, fun i hi j hj => ?_⟩
  have h1 := hA i hi j hj
  rw [sym_map hc.zero] at h1
  exact (apx_cast hc (hcast _ (hv.perm.lt hi) _ (hv.perm.lt hj)) h1).err

omit [Sub K] [Mul K] [Div K] in
/-- C49: the same as `C49_solve` for a single matrix and conversions without errors. -/
theorem C49_single_solve (v : K → F) (R : Rounding K' F) (cast : K → K') (cast0 : cast 0 = 0) (hst : ∀ y, R.stored (cast y))
    (s : Sparsity) (p : List Nat) (hv : ValidSparsity s p)
    (f : DiagFactor K) (hf : f.Declared s p) (hcast : ∀ y, R.v (cast y) = v y)
    (b : List K') (hb : b.length = s.numRows) (x : List K')
    (h : f.solveInPlaceCast cast b = .ok x) (hpiv : ∀ i < s.numRows, R.fin (cast (f.pivot i)))
    (hfin : ∀ i < s.numRows, R.fin (x.getD i 0))
    (n : Nat) (hn : ∀ i < s.numRows, f.sparsity.rowEntries i ≤ n)
    (m : Nat) (hm : ∀ i < s.numRows, f.sparsity.colEntries i ≤ m) :
    ∀ i < s.numRows,
      |R.v (b.getD (permAt p i) 0) - ∑ j ∈ range s.numRows,
          ldlt s.numRows (fun a b => v (f.lower a b)) (fun a => v (f.pivot a)) i j * R.v (x.getD (permAt p j) 0)| ≤
        R.gamma (n + m + 3) * ∑ j ∈ range s.numRows,
          ldlt s.numRows (fun a b => |v (f.lower a b)|) (fun a => |v (f.pivot a)|) i j *
            |R.v (x.getD (permAt p j) 0)| +
        R.growth (n + m + 3) * (n * R.η + ∑ j ∈ range s.numRows,
          unitLower (fun a b => |v (f.lower a b)|) i j * (|v (f.pivot j)| * ((m + 1) * R.η))) := by
  rw [DiagFactor.solveInPlaceCast_eq] at h
  have hd : (f.map cast).Declared s p :=
    ⟨hf.pattern, hf.perm, by simp only [DiagFactor.map, List.length_map]; exact hf.sizeL,
      by simp only [DiagFactor.map, List.length_map]; exact hf.sizeD⟩
  have e : ∀ i, (f.map cast).pivot i = cast (f.pivot i) := by
    intro i
    simp only [DiagFactor.pivot, DiagFactor.map]
    rw [← cast0, List.getD_map]
  have e' : ∀ i j, (f.map cast).lower i j = cast (f.lower i j) := fun i j =>
    elem_map cast0 (⟨f.sparsity.toSparsity, f.L⟩ : MatIn K) i j
  have := C47_single_solve R s p hv (f.map cast) hd (.map cast0 hst f) b hb x h (fun i hi => by rw [e]; exact hpiv i hi) hfin n hn m hm
  simpa only [e, e', hcast] using this

/-! ## A concrete case: `double` matrix, `float` factor, `double` right-hand side -/

/-- Single precision numbers. -/
abbrev Single := Binary .binary32

def mixedRun : Res (ArrowheadTypes × ArrowheadFactor Single × ArrowheadVector Double) := do
  let T ← arrowheadTypes arrowS
  let f ← (freshFactor arrowS T arrowD 1 (0 : Single)).factorizeCast (Binary.convert .binary32) 2 1 1 doubleM
    regularizationNone .entryWise
  let x ← f.solveInPlaceCast (Binary.convert .binary64) doubleB
  return (T, f, x)

/-- The rounding errors of single precision arithmetic. -/
abbrev singleR : Rounding Single ℚ := Binary.rounding .binary32

/-- The bound of the underflow errors. -/
def singleSmall (f : ArrowheadFactor Single) (a b : Blk) (i j : Nat) : Prop :=
  singleR.η * (1 + |(f.pivotAt b j).toRat| * (1 + |(f.map Binary.toRat).lowerElement 1 a b i j|)) ≤ 2 ^ (-146 : Int)

instance (f : ArrowheadFactor Single) (a b : Blk) (i j : Nat) : Decidable (singleSmall f a b i j) := by
  unfold singleSmall
  infer_instance

def mixedCheck : Bool :=
  match mixedRun with
  | .ok (T, f, x) => decide ((∀ a ∈ blocks 1, (∀ i < arrowD.of a, (f.pivotAt a i).Finite ∧ (x.at a i).Finite ∧
      T.rowEntries 1 a i ≤ 5 ∧ T.colEntries 1 a i ≤ 3) ∧
    (∀ e ∈ (T.diagBlock a).entries, singleSmall f a a e.row e.col) ∧
    (∀ b ∈ blocks 1, ∀ i < arrowD.of a, ∀ j < arrowD.of b, ((doubleM.symElement 1 a b i j).convert .binary32).Finite) ∧
    ∀ b ∈ blocks 1, ∀ e ∈ (T.lowerBlock 1 a b).elim [] (fun c => c.entries), singleSmall f a b e.row e.col) ∧
      (x.at .outer 0).toRat ≠ 1537 / 1799)
  | _ => false

example : ∃ T f x, doubleM.Fits arrowS T arrowD 1 ∧ (freshFactor arrowS T arrowD 1 (0 : Single)).Declared arrowS T arrowD 1 ∧
    (freshFactor arrowS T arrowD 1 (0 : Single)).factorizeCast (Binary.convert .binary32) 2 1 1 doubleM
      regularizationNone .entryWise = .ok f ∧
    f.solveInPlaceCast (Binary.convert .binary64) doubleB = .ok x ∧ doubleB.OfSize arrowD 1 ∧
    (∀ a ∈ blocks 1, ∀ b ∈ blocks 1, ∀ i < arrowD.of a, ∀ j < arrowD.of b,
      ((doubleM.symElement 1 a b i j).convert .binary32).Finite) ∧
    (∀ a ∈ blocks 1, ∀ i < arrowD.of a, (f.pivotAt a i).Finite ∧
      (x.at a i).Finite ∧ T.rowEntries 1 a i ≤ 5 ∧ T.colEntries 1 a i ≤ 3) ∧
    (∀ a ∈ blocks 1, ∀ b ∈ blocks 1, ∀ i j, T.Has 1 a i b j → singleR.η *
      (1 + |(f.pivotAt b j).toRat| * (1 + |(f.map Binary.toRat).lowerElement 1 a b i j|)) ≤ 2 ^ (-146 : Int)) ∧
    (x.at .outer 0).toRat ≠ 1537 / 1799 := by
  have h : mixedCheck = true := by decide +kernel
  unfold mixedCheck at h
  split at h
  · next T f x hrun =>
    unfold mixedRun at hrun
    obtain ⟨T', hT, hrun⟩ := bind_eq_ok.mp hrun
    obtain ⟨f', hf, hrun⟩ := bind_eq_ok.mp hrun
    obtain ⟨x', hx, hrun⟩ := bind_eq_ok.mp hrun
    cases hrun
    obtain ⟨h, hne⟩ := of_decide_eq_true h
    refine ⟨T, f, x, (arrowM_fits hT).map _, C21_constructible arrowS arrowD T hT 1 0, hf, hx, by constructor <;> decide,
      fun a ha => (h a ha).2.2.1, fun a ha => (h a ha).1, ?_, hne⟩
    intro a ha b hb i j hh
    change singleSmall f a b i j
    rcases hh with ⟨rfl, hh⟩ | ⟨G, hG, hh⟩
    · exact (h a ha).2.1 ⟨i, j⟩ hh
    · obtain ⟨c, hc, rfl⟩ := Option.map_eq_some_iff.mp hG
      have := (h a ha).2.2.2 b hb
      rw [hc] at this
      exact this ⟨i, j⟩ hh
  · cases h

/-- Witness: the matrix of C22 with double precision numbers, factorized with single precision and solved with double
precision. -/
def mixedSingle : Res (DiagFactor Single × List Double) := do
  let f : DiagFactor Single := witnessF.map (Binary.ofRat .binary32 false)
  let f ← f.factorizeCast (Binary.convert .binary32) (witnessM.map (Binary.ofRat .binary64 false)) regularizationNone
    .entryWise
  let x ← f.solveInPlaceCast (Binary.convert .binary64) ([1, 2, 3].map (Binary.ofRat .binary64 false))
  return (f, x)

/-- The condition to be checked. -/
def mixedSingleOk (r : DiagFactor Single × List Double) : Bool :=
  decide (∀ i ∈ List.range 3, (r.1.pivot i).Finite ∧ (r.2.getD i 0).Finite ∧ r.1.sparsity.rowEntries i ≤ 2 ∧
    r.1.sparsity.colEntries i ≤ 2) && decide ((r.2.getD 1 0).toRat ≠ 31 / 43)

example : mixedSingle.map mixedSingleOk = .ok true := by decide +kernel

end Ctldl
