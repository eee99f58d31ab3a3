import Verif.Lemmas.RoundingSolve
import Verif.Lemmas.Binary
import Verif.Props.Rounding
import Verif.Props.ArrowheadSolve

/-! # C47: rounding errors of solving -/

namespace Ctldl

open Finset

variable {K F : Type} [Zero K] [Sub K] [Mul K] [Div K] [Field F] [LinearOrder F] [IsStrictOrderedRing F]

private theorem typesOk {s : ArrowheadSparsity} {T : ArrowheadTypes} {d : Dims} (hs : s.Valid d)
    (hT : arrowheadTypes s = .ok T) : TypesOk s T d := by
  obtain ⟨T', h, h'⟩ := arrowheadTypes_sat hs
  rw [hT] at h
  cases h
  exact h'

/-- C47: backward error of `forwardSolve`. If the computed vector is finite, then its product with the assembled unit
lower triangular matrix differs from the right-hand side in each element by at most `gamma (n + 1)` times the product
of absolute values, up to underflow errors, where `n` bounds the number of stored entries in a row. -/
theorem C47_forward (R : Rounding K F) (s : ArrowheadSparsity) (d : Dims) (hs : s.Valid d) (T : ArrowheadTypes)
    (N : Nat) (f : ArrowheadFactor K) (hf : f.Declared s T d N) (hst : f.Entries R.stored)
    (b : ArrowheadVector K) (hb : b.OfSize d N)
    (x : ArrowheadVector K) (h : f.forwardSolve b = .ok x) (hfin : ∀ a ∈ blocks N, ∀ i < d.of a, R.fin (x.at a i))
    (n : Nat) (hn : ∀ a ∈ blocks N, ∀ i < d.of a, T.rowEntries N a i ≤ n) :
    ∀ a ∈ blocks N, ∀ i < d.of a,
      |R.v (b.at a (permAt (s.perm a) i)) - ∑ c ∈ blocks N, ∑ j ∈ range (d.of c),
          (f.map R.v).lowerElement N a c i j * R.v (x.at c (permAt (s.perm c) j))| ≤
        R.gamma (n + 1) * ∑ c ∈ blocks N, ∑ j ∈ range (d.of c),
          (f.map (fun y => |R.v y|)).lowerElement N a c i j * |R.v (x.at c (permAt (s.perm c) j))| +
        R.growth (n + 1) * (n * R.η) := by
  have hT := typesOk hs hf.types
  obtain ⟨-, h1⟩ := Sat.of_ok (Rounding.forwardSolve_dot (R := R) hs hT hf hst hb) h
  intro a ha i hi
  exact Rounding.Apx.err (((h1 a ha i hi (hfin a ha _ ((valid_perm hs a).lt hi))).2).le (hn a ha i hi))

/-- C47: backward error of `diagonalSolve`. -/
theorem C47_diagonal (R : Rounding K F) (s : ArrowheadSparsity) (d : Dims) (hs : s.Valid d) (T : ArrowheadTypes)
    (N : Nat) (f : ArrowheadFactor K) (hf : f.Declared s T d N) (b : ArrowheadVector K) (hb : b.OfSize d N)
    (x : ArrowheadVector K) (h : f.diagonalSolve b = .ok x)
    (hpiv : ∀ a ∈ blocks N, ∀ i < d.of a, R.fin (f.pivotAt a i))
    (hfin : ∀ a ∈ blocks N, ∀ i < d.of a, R.fin (x.at a i)) :
    ∀ a ∈ blocks N, ∀ i < d.of a,
      |R.v (b.at a (permAt (s.perm a) i)) - R.v (x.at a (permAt (s.perm a) i)) * R.v (f.pivotAt a i)| ≤
        R.gamma 1 * (|R.v (x.at a (permAt (s.perm a) i))| * |R.v (f.pivotAt a i)|) +
        R.growth 1 * (R.η * |R.v (f.pivotAt a i)|) := by
  have hT := typesOk hs hf.types
  obtain ⟨-, h1⟩ := Sat.of_ok (arrowheadDiagonalSolve_sat hs hT hf hb) h
  intro a ha i hi
  have hx := hfin a ha _ ((valid_perm hs a).lt hi)
  have := h1 a ha i hi
  rw [this] at hx ⊢
  exact (Rounding.apx_div (hpiv a ha i hi) hx).2.err

/-- C47: backward error of `backwardSolve`, where `n` bounds the number of stored entries in a column. -/
theorem C47_backward (R : Rounding K F) (s : ArrowheadSparsity) (d : Dims) (hs : s.Valid d) (T : ArrowheadTypes)
    (N : Nat) (f : ArrowheadFactor K) (hf : f.Declared s T d N) (hst : f.Entries R.stored)
    (b : ArrowheadVector K) (hb : b.OfSize d N)
    (x : ArrowheadVector K) (h : f.backwardSolve b = .ok x) (hfin : ∀ a ∈ blocks N, ∀ i < d.of a, R.fin (x.at a i))
    (n : Nat) (hn : ∀ a ∈ blocks N, ∀ i < d.of a, T.colEntries N a i ≤ n) :
    ∀ a ∈ blocks N, ∀ i < d.of a,
      |R.v (b.at a (permAt (s.perm a) i)) - ∑ c ∈ blocks N, ∑ j ∈ range (d.of c),
          (f.map R.v).lowerElement N c a j i * R.v (x.at c (permAt (s.perm c) j))| ≤
        R.gamma (n + 1) * ∑ c ∈ blocks N, ∑ j ∈ range (d.of c),
          (f.map (fun y => |R.v y|)).lowerElement N c a j i * |R.v (x.at c (permAt (s.perm c) j))| +
        R.growth (n + 1) * (n * R.η) := by
  have hT := typesOk hs hf.types
  obtain ⟨-, h1⟩ := Sat.of_ok (Rounding.backwardSolve_dot (R := R) hs hT hf hst hb) h
  intro a ha i hi
  exact Rounding.Apx.err (((h1 a ha i hi (hfin a ha _ ((valid_perm hs a).lt hi))).2).le (hn a ha i hi))

/-- C47: backward error of `solveInPlace` with the computed factors: if the pivots and the computed solution are finite,
then the residual of the system with the product `L D Lᵀ` of the computed factors is at most
`gamma (n + m + 3) |L| |D| |Lᵀ| |x|`, up to underflow errors, where `n` and `m` bound the number of stored entries in a
row and in a column. -/
theorem C47_solve (R : Rounding K F) (s : ArrowheadSparsity) (d : Dims) (hs : s.Valid d) (T : ArrowheadTypes)
    (N : Nat) (f : ArrowheadFactor K) (hf : f.Declared s T d N) (hst : f.Entries R.stored)
    (b : ArrowheadVector K) (hb : b.OfSize d N)
    (x : ArrowheadVector K) (h : f.solveInPlace b = .ok x)
    (hpiv : ∀ a ∈ blocks N, ∀ i < d.of a, R.fin (f.pivotAt a i))
    (hfin : ∀ a ∈ blocks N, ∀ i < d.of a, R.fin (x.at a i))
    (n : Nat) (hn : ∀ a ∈ blocks N, ∀ i < d.of a, T.rowEntries N a i ≤ n)
    (m : Nat) (hm : ∀ a ∈ blocks N, ∀ i < d.of a, T.colEntries N a i ≤ m) :
    ∀ a ∈ blocks N, ∀ i < d.of a,
      |R.v (b.at a (permAt (s.perm a) i)) - ∑ c ∈ blocks N, ∑ j ∈ range (d.of c),
          (f.map R.v).ldlt d N a c i j * R.v (x.at c (permAt (s.perm c) j))| ≤
        R.gamma (n + m + 3) * ∑ c ∈ blocks N, ∑ j ∈ range (d.of c),
          (f.map (fun y => |R.v y|)).ldlt d N a c i j * |R.v (x.at c (permAt (s.perm c) j))| +
        R.growth (n + m + 3) * (n * R.η + ∑ c ∈ blocks N, ∑ j ∈ range (d.of c),
          (f.map (fun y => |R.v y|)).lowerElement N a c i j * (|R.v (f.pivotAt c j)| * ((m + 1) * R.η))) := by
  have hT := typesOk hs hf.types
  unfold ArrowheadFactor.solveInPlace at h
  obtain ⟨y, hy, hyd, hyv⟩ := Rounding.forwardSolve_dot (R := R) hs hT hf hst hb
  rw [hy, ok_bind] at h
  obtain ⟨z, hz, hzd, hzv⟩ := arrowheadDiagonalSolve_sat hs hT hf hyd
  rw [hz, ok_bind] at h
  obtain ⟨-, hxv⟩ := Sat.of_ok (Rounding.backwardSolve_dot (R := R) hs hT hf hst hzd) h
  have hmid : ∀ c ∈ blocks N, ∀ j < d.of c, R.fin (y.at c (permAt (s.perm c) j)) ∧
      R.Apx (m + 2) (R.v (y.at c (permAt (s.perm c) j)))
        (R.v (f.pivotAt c j) * colMul (f.map R.v) d N (Rounding.permVec R.v x s) c j)
        (R.av (f.pivotAt c j) * colMul (f.map R.av) d N (Rounding.permVec R.av x s) c j)
        (R.av (f.pivotAt c j) * ((m + 1) * R.η)) := by
    intro c hc j hj
    obtain ⟨h1, h2⟩ := hxv c hc j hj (hfin c hc _ ((valid_perm hs c).lt hj))
    have e := hzv c hc j hj
    rw [e] at h1 h2
    obtain ⟨h3, h4⟩ := Rounding.apx_div (hpiv c hc j hj) h1
    refine ⟨h3, ?_⟩
    have h5 : R.Apx 1 (R.v (y.at c (permAt (s.perm c) j)))
        (∑ _k ∈ ({()} : Finset Unit), R.v (f.pivotAt c j) * R.v (y.at c (permAt (s.perm c) j) / f.pivotAt c j))
        (∑ _k ∈ ({()} : Finset Unit), |R.v (f.pivotAt c j)| * |R.v (y.at c (permAt (s.perm c) j) / f.pivotAt c j)|)
        (R.η * |R.v (f.pivotAt c j)|) := by
      rw [sum_singleton, sum_singleton, mul_comm, mul_comm |R.v (f.pivotAt c j)|]
      exact h4
    have h6 := h5.subst (fun _ _ => h2.le (hm c hc j hj))
    rw [sum_singleton, sum_singleton, sum_singleton] at h6
    refine h6.mono (by omega) le_rfl (le_of_eq ?_)
    change _ = |R.v (f.pivotAt c j)| * ((m + 1) * R.η)
    ring
  intro a ha i hi
  obtain ⟨-, h1⟩ := hyv a ha i hi (hmid a ha i hi).1
  have h2 := h1.le (hn a ha i hi)
  unfold Rounding.Dot rowMul at h2
  have habs : ∀ c j, (f.map R.av).lowerElement N a c i j = |(f.map R.v).lowerElement N a c i j| :=
    fun c j => Rounding.lowerElement_abs a c i j
  rw [sum_sigma', sum_sigma'] at h2
  simp only [habs] at h2
  have h3 := h2.subst (fun k hk => (hmid k.1 (mem_sigma.mp hk).1 k.2 (mem_range.mp (mem_sigma.mp hk).2)).2)
  rw [← sum_sigma' (blocks N) (fun c => range (d.of c)) (fun c j => (f.map R.v).lowerElement N a c i j *
      (R.v (f.pivotAt c j) * colMul (f.map R.v) d N (Rounding.permVec R.v x s) c j)),
    ← sum_sigma' (blocks N) (fun c => range (d.of c)) (fun c j => |(f.map R.v).lowerElement N a c i j| *
      (R.av (f.pivotAt c j) * colMul (f.map R.av) d N (Rounding.permVec R.av x s) c j)),
    ← sum_sigma' (blocks N) (fun c => range (d.of c)) (fun c j => |(f.map R.v).lowerElement N a c i j| *
      (R.av (f.pivotAt c j) * ((m + 1) * R.η)))] at h3
  simp only [← habs] at h3
  have e1 : ∀ g : K → F, g 0 = 0 → ∑ c ∈ blocks N, ∑ j ∈ range (d.of c), (f.map g).ldlt d N a c i j *
      Rounding.permVec g x s c j = ∑ c ∈ blocks N, ∑ j ∈ range (d.of c), (f.map g).lowerElement N a c i j *
        (g (f.pivotAt c j) * colMul (f.map g) d N (Rounding.permVec g x s) c j) := by
    intro g hg
    rw [arrowhead_ldlt_mul]
    unfold rowMul
    simp only [pivotAt_map hg]
  rw [← e1 _ R.v_zero, ← e1 _ R.av_zero] at h3
  exact (h3.le (by omega)).err

/-- C47: residual after factorizing and solving. If the pivots, the numbers regularized to them and the computed solution
are finite, then the residual of the system with the given matrix, to the diagonal of which each regularized pivot adds
its change, is at most of the order of `(gamma (n + m + 3) + gamma (n + 2)) |L| |D| |Lᵀ| |x|`, up to underflow. -/
theorem C47_residual (R : Rounding K F) (s : ArrowheadSparsity) (d : Dims) (hs : s.Valid d) (T : ArrowheadTypes)
    (N : Nat) (f : ArrowheadFactor K) (hf : f.Declared s T d N) (A : ArrowheadMatrix K) (hA : A.Fits s T d N)
    (reg : K → Nat → K) (method : Method) (f' : ArrowheadFactor K)
    (hfact : f.factorize d.tridiag d.link d.outer A reg method = .ok f')
    (hpiv : ∀ a ∈ blocks N, ∀ i < d.of a, R.fin (f'.pivotAt a i) ∧ ∀ x, f'.pivotAt a i = reg x i → R.fin x)
    (ε : F) (h0 : 0 ≤ ε)
    (hε : ∀ a ∈ blocks N, ∀ b ∈ blocks N, ∀ i j, T.Has N a i b j →
      R.η * (1 + |R.v (f'.pivotAt b j)| * (1 + |(f'.map R.v).lowerElement N a b i j|)) ≤ ε)
    (b : ArrowheadVector K) (hb : b.OfSize d N) (x : ArrowheadVector K) (h : f'.solveInPlace b = .ok x)
    (hfin : ∀ a ∈ blocks N, ∀ i < d.of a, R.fin (x.at a i))
    (n : Nat) (hn : ∀ a ∈ blocks N, ∀ i < d.of a, T.rowEntries N a i ≤ n)
    (m : Nat) (hm : ∀ a ∈ blocks N, ∀ i < d.of a, T.colEntries N a i ≤ m) :
    ∃ w : Blk → Nat → K, (∀ a ∈ blocks N, ∀ i < d.of a, f'.pivotAt a i = reg (w a i) i) ∧
      ∀ a ∈ blocks N, ∀ i < d.of a,
        |R.v (b.at a (permAt (s.perm a) i)) - ∑ c ∈ blocks N, ∑ j ∈ range (d.of c),
            ((A.map R.v).symElement N a c (permAt (s.perm a) i) (permAt (s.perm c) j) +
              if a = c ∧ i = j then R.v (f'.pivotAt a i) - R.v (w a i) else 0) *
              R.v (x.at c (permAt (s.perm c) j))| ≤
          R.gamma (n + m + 3) * ∑ c ∈ blocks N, ∑ j ∈ range (d.of c),
            (f'.map (fun y => |R.v y|)).ldlt d N a c i j * |R.v (x.at c (permAt (s.perm c) j))| +
          R.gamma (n + 2) * ∑ c ∈ blocks N, ∑ j ∈ range (d.of c),
            ((f'.map (fun y => |R.v y|)).ldlt d N a c i j +
              if a = c ∧ i = j then |R.v (w a i)| - |R.v (f'.pivotAt a i)| else 0) *
              |R.v (x.at c (permAt (s.perm c) j))| +
          (R.growth (n + m + 3) * (n * R.η + ∑ c ∈ blocks N, ∑ j ∈ range (d.of c),
            (f'.map (fun y => |R.v y|)).lowerElement N a c i j * (|R.v (f'.pivotAt c j)| * ((m + 1) * R.η))) +
          R.growth (n + 2) * ((n + 1) * ε) * ∑ c ∈ blocks N, ∑ j ∈ range (d.of c),
            |R.v (x.at c (permAt (s.perm c) j))|) := by
  obtain ⟨w, hw, hA'⟩ := C46_backward_error R s d hs T N f hf A hA reg method f' hfact hpiv ε h0 hε n hn
  have hT := typesOk hs hf.types
  obtain ⟨hd, hrows⟩ := Sat.of_ok (arrowheadFactorize_sat hs hT hf hA.matrixOk reg method) hfact
  have hst := ArrowheadFactor.entries_of_chain hd (hrows.quotient R.stored_div (chainPat_ok hT N))
  have hx := C47_solve R s d hs T N f' hd hst b hb x h (fun a ha i hi => (hpiv a ha i hi).1) hfin n hn m hm
  refine ⟨w, hw, fun a ha i hi => ?_⟩
  have h1 := hx a ha i hi
  generalize R.v (b.at a (permAt (s.perm a) i)) = β at h1 ⊢
  generalize R.gamma (n + m + 3) * _ = B1 at h1 ⊢
  generalize R.growth (n + m + 3) * _ = B2 at h1 ⊢
  set X : Blk → Nat → F := fun c j => R.v (x.at c (permAt (s.perm c) j)) with hX
  set P : Blk → Nat → F := fun c j => (f'.map R.v).ldlt d N a c i j with hP
  set Q : Blk → Nat → F := fun c j => (f'.map (fun y => |R.v y|)).ldlt d N a c i j +
    if a = c ∧ i = j then |R.v (w a i)| - |R.v (f'.pivotAt a i)| else 0 with hQ
  set M : Blk → Nat → F := fun c j => (A.map R.v).symElement N a c (permAt (s.perm a) i) (permAt (s.perm c) j) +
    if a = c ∧ i = j then R.v (f'.pivotAt a i) - R.v (w a i) else 0 with hM
  change |β - ∑ c ∈ blocks N, ∑ j ∈ range (d.of c), M c j * X c j| ≤
    B1 + R.gamma (n + 2) * ∑ c ∈ blocks N, ∑ j ∈ range (d.of c), Q c j * |X c j| +
      (B2 + R.growth (n + 2) * ((n + 1) * ε) * ∑ c ∈ blocks N, ∑ j ∈ range (d.of c), |X c j|)
  change |β - ∑ c ∈ blocks N, ∑ j ∈ range (d.of c), P c j * X c j| ≤ B1 + B2 at h1
  have h2 : ∀ c ∈ blocks N, ∀ j ∈ range (d.of c), |(M c j - P c j) * X c j| ≤
      R.gamma (n + 2) * (Q c j * |X c j|) + R.growth (n + 2) * ((n + 1) * ε) * |X c j| := by
    intro c hc j hj
    have h3 := hA' a ha c hc i hi j (mem_range.mp hj)
    rw [abs_mul, ← mul_assoc, ← add_mul]
    refine mul_le_mul_of_nonneg_right (le_trans (le_of_eq (congrArg _ ?_)) h3) (abs_nonneg _)
    simp only [hM, hP]
    split <;> ring
  have h4 : β - ∑ c ∈ blocks N, ∑ j ∈ range (d.of c), M c j * X c j =
      (β - ∑ c ∈ blocks N, ∑ j ∈ range (d.of c), P c j * X c j) -
        ∑ c ∈ blocks N, ∑ j ∈ range (d.of c), (M c j - P c j) * X c j := by
    simp only [sub_mul, sum_sub_distrib]
    ring
  have h5 : |∑ c ∈ blocks N, ∑ j ∈ range (d.of c), (M c j - P c j) * X c j| ≤
      ∑ c ∈ blocks N, ∑ j ∈ range (d.of c),
        (R.gamma (n + 2) * (Q c j * |X c j|) + R.growth (n + 2) * ((n + 1) * ε) * |X c j|) :=
    (abs_sum_le_sum_abs _ _).trans (sum_le_sum fun c hc =>
      (abs_sum_le_sum_abs _ _).trans (sum_le_sum fun j hj => h2 c hc j hj))
  simp only [sum_add_distrib, ← mul_sum] at h5
  rw [h4]
  refine (abs_sub _ _).trans ((add_le_add h1 h5).trans_eq ?_)
  ring

/-- C47: without regularization and without underflow the residual of the given system is at most
`(gamma (n + m + 3) + gamma (n + 2)) |L| |D| |Lᵀ| |x|`. -/
theorem C47_residual_unregularized (R : Rounding K F) (hη : R.η = 0) (s : ArrowheadSparsity) (d : Dims)
    (hs : s.Valid d) (T : ArrowheadTypes) (N : Nat) (f : ArrowheadFactor K) (hf : f.Declared s T d N)
    (A : ArrowheadMatrix K) (hA : A.Fits s T d N) (method : Method) (f' : ArrowheadFactor K)
    (hfact : f.factorize d.tridiag d.link d.outer A regularizationNone method = .ok f')
    (hpiv : ∀ a ∈ blocks N, ∀ i < d.of a, R.fin (f'.pivotAt a i))
    (b : ArrowheadVector K) (hb : b.OfSize d N) (x : ArrowheadVector K) (h : f'.solveInPlace b = .ok x)
    (hfin : ∀ a ∈ blocks N, ∀ i < d.of a, R.fin (x.at a i))
    (n : Nat) (hn : ∀ a ∈ blocks N, ∀ i < d.of a, T.rowEntries N a i ≤ n)
    (m : Nat) (hm : ∀ a ∈ blocks N, ∀ i < d.of a, T.colEntries N a i ≤ m) :
    ∀ a ∈ blocks N, ∀ i < d.of a,
      |R.v (b.at a (permAt (s.perm a) i)) - ∑ c ∈ blocks N, ∑ j ∈ range (d.of c),
          (A.map R.v).symElement N a c (permAt (s.perm a) i) j * R.v (x.at c j)| ≤
        (R.gamma (n + m + 3) + R.gamma (n + 2)) * ∑ c ∈ blocks N, ∑ j ∈ range (d.of c),
          (f'.map (fun y => |R.v y|)).ldlt d N a c i j * |R.v (x.at c (permAt (s.perm c) j))| := by
  obtain ⟨w, hw, hr⟩ := C47_residual R s d hs T N f hf A hA _ method f' hfact
    (fun a ha i hi => ⟨hpiv a ha i hi, fun y hy => (show f'.pivotAt a i = y from hy) ▸ hpiv a ha i hi⟩) 0 le_rfl
    (fun _ _ _ _ _ _ _ => by rw [hη, zero_mul]) b hb x h hfin n hn m hm
  intro a ha i hi
  have h1 := hr a ha i hi
  rw [← show f'.pivotAt a i = w a i from hw a ha i hi] at h1
  simp only [sub_self, ite_self, add_zero, hη, mul_zero, zero_mul, sum_const_zero] at h1
  rw [add_mul, ← sum_congr rfl fun c _ => sum_perm (valid_perm hs c)
    (fun j => (A.map R.v).symElement N a c (permAt (s.perm a) i) j * R.v (x.at c j))]
  exact h1

/-- C47: the same as `C47_solve` for a single matrix. -/
theorem C47_single_solve (R : Rounding K F) (s : Sparsity) (p : List Nat) (hv : ValidSparsity s p)
    (f : DiagFactor K) (hf : f.Declared s p) (hst : f.Entries R.stored) (b : List K) (hb : b.length = s.numRows) (x : List K)
    (h : f.solveInPlace b = .ok x) (hpiv : ∀ i < s.numRows, R.fin (f.pivot i))
    (hfin : ∀ i < s.numRows, R.fin (x.getD i 0))
    (n : Nat) (hn : ∀ i < s.numRows, f.sparsity.rowEntries i ≤ n)
    (m : Nat) (hm : ∀ i < s.numRows, f.sparsity.colEntries i ≤ m) :
    ∀ i < s.numRows,
      |R.v (b.getD (permAt p i) 0) - ∑ j ∈ range s.numRows,
          ldlt s.numRows (fun a b => R.v (f.lower a b)) (fun a => R.v (f.pivot a)) i j * R.v (x.getD (permAt p j) 0)| ≤
        R.gamma (n + m + 3) * ∑ j ∈ range s.numRows,
          ldlt s.numRows (fun a b => |R.v (f.lower a b)|) (fun a => |R.v (f.pivot a)|) i j *
            |R.v (x.getD (permAt p j) 0)| +
        R.growth (n + m + 3) * (n * R.η + ∑ j ∈ range s.numRows,
          unitLower (fun a b => |R.v (f.lower a b)|) i j * (|R.v (f.pivot j)| * ((m + 1) * R.η))) := by
  obtain ⟨hc, -⟩ := hf.closed1 hv
  have hp : IsPerm p s.numRows := hv.perm
  have ho : f.OfType f.sparsity p s.numRows := ⟨rfl, hf.perm, hf.sizeL, hf.sizeD⟩
  have hk : CsrOk f.sparsity s.numRows s.numRows := ⟨hc.ok.good, hc.ok.rows, hc.ok.cols⟩
  have hpf : IsPerm f.permutation s.numRows := by rw [hf.perm]; exact hp
  unfold DiagFactor.solveInPlace at h
  obtain ⟨y, hy, hyd, -⟩ := forwardInPlace_sat hc.ok hpf hb
  rw [hy, ok_bind] at h
  obtain ⟨z, hz, hzd, hzv⟩ := diagonalSolve_sat hc.ok hpf hyd
  rw [hz, ok_bind] at h
  rw [hf.perm] at hzv
  have hlow : ∀ g : K → F, g 0 = 0 → (f.map g).lower = fun a b => g (f.lower a b) := fun g hg => by
    funext a b
    exact Rounding.lower_map hg f a b
  have hmid : ∀ j < s.numRows, R.fin (y.getD (permAt p j) 0) ∧ R.Apx (m + 2) (R.v (y.getD (permAt p j) 0))
      (R.v (f.pivot j) * ∑ k ∈ range s.numRows, unitLower (fun a b => R.v (f.lower a b)) k j *
        R.v (x.getD (permAt p k) 0))
      (R.av (f.pivot j) * ∑ k ∈ range s.numRows, unitLower (fun a b => R.av (f.lower a b)) k j *
        R.av (x.getD (permAt p k) 0))
      (R.av (f.pivot j) * ((m + 1) * R.η)) := by
    intro j hj
    obtain ⟨h1, h2⟩ := Rounding.bwdIn_dot (R := R) hst ho hk hc.ok.lower hp hzd h hj (hfin _ (hp.lt hj))
    have e : z.getD (permAt p j) 0 = y.getD (permAt p j) 0 / f.pivot j := hzv j hj
    rw [e] at h1 h2
    rw [hlow _ R.v_zero, hlow _ R.av_zero] at h2
    obtain ⟨h3, h4⟩ := Rounding.apx_div (hpiv j hj) h1
    refine ⟨h3, ?_⟩
    have h5 : R.Apx 1 (R.v (y.getD (permAt p j) 0))
        (∑ _k ∈ ({()} : Finset Unit), R.v (f.pivot j) * R.v (y.getD (permAt p j) 0 / f.pivot j))
        (∑ _k ∈ ({()} : Finset Unit), |R.v (f.pivot j)| * |R.v (y.getD (permAt p j) 0 / f.pivot j)|)
        (R.η * |R.v (f.pivot j)|) := by
      rw [sum_singleton, sum_singleton, mul_comm, mul_comm |R.v (f.pivot j)|]
      exact h4
    have h6 := h5.subst (fun _ _ => h2.le (hm j hj))
    rw [sum_singleton, sum_singleton, sum_singleton] at h6
    refine h6.mono (by omega) le_rfl (le_of_eq ?_)
    change _ = |R.v (f.pivot j)| * ((m + 1) * R.η)
    ring
  intro i hi
  obtain ⟨-, h1⟩ := Rounding.fwdIn_dot (R := R) hst ho hk hc.ok.lower hp hb hy hi (hmid i hi).1
  have h2 := h1.le (hn i hi)
  rw [hlow _ R.v_zero, hlow _ R.av_zero] at h2
  have habs : ∀ j, unitLower (fun a b => R.av (f.lower a b)) i j = |unitLower (fun a b => R.v (f.lower a b)) i j| := by
    intro j
    unfold unitLower
    split
    · exact abs_one.symm
    · rfl
  unfold Rounding.Dot at h2
  simp only [habs] at h2
  have h3 := h2.subst (fun k hk => (hmid k (mem_range.mp hk)).2)
  simp only [← habs] at h3
  unfold ldlt
  rw [ldlt_mul, ldlt_mul]
  exact (h3.le (by omega)).err

/-! ### A case meeting the hypotheses, with IEEE double precision arithmetic -/

/-- Double precision numbers. -/
abbrev Double : Type := Binary .binary64

/-- Witness: the matrix of C29 with double precision numbers. -/
def doubleM : ArrowheadMatrix Double := arrowM.map (Binary.ofRat .binary64 false)

/-- Witness: a right-hand side. -/
def doubleB : ArrowheadVector Double :=
  (⟨[1], [[-2, 1], [4, 7]], [3], [5]⟩ : ArrowheadVector ℚ).map (Binary.ofRat .binary64 false)

instance (fmt : Format) (x : Binary fmt) : Decidable x.Finite :=
  match x with
  | .zero _ => .isTrue trivial
  | .num _ _ _ => .isTrue trivial
  | .inf _ => .isFalse id
  | .nan => .isFalse id

def doubleRun : Res (ArrowheadTypes × ArrowheadFactor Double × ArrowheadVector Double) := do
  let T ← arrowheadTypes arrowS
  let f ← (freshFactor arrowS T arrowD 1 (0 : Double)).factorize 2 1 1 doubleM regularizationNone .upLooking
  let x ← f.solveInPlace doubleB
  return (T, f, x)

/-- The rounding errors of double precision arithmetic. -/
abbrev doubleR : Rounding Double ℚ := Binary.rounding .binary64

/-- The bound of the underflow errors. -/
def doubleSmall (f : ArrowheadFactor Double) (a b : Blk) (i j : Nat) : Prop :=
  doubleR.η * (1 + |doubleR.v (f.pivotAt b j)| * (1 + |(f.map doubleR.v).lowerElement 1 a b i j|)) ≤ 2 ^ (-1072 : Int)

instance (f : ArrowheadFactor Double) (a b : Blk) (i j : Nat) : Decidable (doubleSmall f a b i j) := by
  unfold doubleSmall
  infer_instance

def doubleCheck : Bool :=
  match doubleRun with
  | .ok (T, f, x) => decide ((∀ a ∈ blocks 1, (∀ i < arrowD.of a, (f.pivotAt a i).Finite ∧ (x.at a i).Finite ∧
      T.rowEntries 1 a i ≤ 5 ∧ T.colEntries 1 a i ≤ 3) ∧
    (∀ e ∈ (T.diagBlock a).entries, doubleSmall f a a e.row e.col) ∧
    ∀ b ∈ blocks 1, ∀ e ∈ (T.lowerBlock 1 a b).elim [] (fun c => c.entries), doubleSmall f a b e.row e.col) ∧
      (x.at .outer 0).toRat ≠ 1537 / 1799)
  | _ => false

/-- The hypotheses of C46 and C47 are met by a factorization and solve with double precision numbers in which rounding
takes place: the exact solution ends with `1537 / 1799`. -/
example : ∃ T f x, doubleM.Fits arrowS T arrowD 1 ∧ (freshFactor arrowS T arrowD 1 (0 : Double)).Declared arrowS T arrowD 1 ∧
    (freshFactor arrowS T arrowD 1 (0 : Double)).factorize 2 1 1 doubleM regularizationNone .upLooking = .ok f ∧
    f.solveInPlace doubleB = .ok x ∧ doubleB.OfSize arrowD 1 ∧
    (∀ a ∈ blocks 1, ∀ i < arrowD.of a, doubleR.fin (f.pivotAt a i) ∧
      doubleR.fin (x.at a i) ∧ T.rowEntries 1 a i ≤ 5 ∧ T.colEntries 1 a i ≤ 3) ∧
    (∀ a ∈ blocks 1, ∀ b ∈ blocks 1, ∀ i j, T.Has 1 a i b j → doubleR.η *
      (1 + |doubleR.v (f.pivotAt b j)| * (1 + |(f.map doubleR.v).lowerElement 1 a b i j|)) ≤ 2 ^ (-1072 : Int)) ∧
    (x.at .outer 0).toRat ≠ 1537 / 1799 := by
  have h : doubleCheck = true := by decide +kernel
  unfold doubleCheck at h
  split at h
  · next T f x hrun =>
    unfold doubleRun at hrun
    obtain ⟨T', hT, hrun⟩ := bind_eq_ok.mp hrun
    obtain ⟨f', hf, hrun⟩ := bind_eq_ok.mp hrun
    obtain ⟨x', hx, hrun⟩ := bind_eq_ok.mp hrun
    cases hrun
    obtain ⟨h, hne⟩ := of_decide_eq_true h
    refine ⟨T, f, x, (arrowM_fits hT).map _, C21_constructible arrowS arrowD T hT 1 0, hf, hx, by constructor <;> decide,
      fun a ha => (h a ha).1, ?_, hne⟩
    intro a ha b hb i j hh
    change doubleSmall f a b i j
    rcases hh with ⟨rfl, hh⟩ | ⟨G, hG, hh⟩
    · exact (h a ha).2.1 ⟨i, j⟩ hh
    · obtain ⟨c, hc, rfl⟩ := Option.map_eq_some_iff.mp hG
      have := (h a ha).2.2 b hb
      rw [hc] at this
      exact this ⟨i, j⟩ hh
  · cases h


/-- Witness: the matrix of C22 with double precision numbers. -/
def doubleSingle : Res (DiagFactor Double × List Double) := do
  let f : DiagFactor Double := witnessF.map (Binary.ofRat .binary64 false)
  let f ← f.factorize (witnessM.map (Binary.ofRat .binary64 false)) regularizationNone .entryWise
  let x ← f.solveInPlace ([1, 2, 3].map (Binary.ofRat .binary64 false))
  return (f, x)

/-- The condition to be checked. -/
def doubleSingleOk (r : DiagFactor Double × List Double) : Bool :=
  decide (∀ i ∈ List.range 3, (r.1.pivot i).Finite ∧ (r.2.getD i 0).Finite ∧ r.1.sparsity.rowEntries i ≤ 2 ∧
    r.1.sparsity.colEntries i ≤ 2) && decide ((r.2.getD 1 0).toRat ≠ 31 / 43)

/-- The exact solution has the element `31 / 43`. -/
example : doubleSingle.map doubleSingleOk = .ok true := by decide +kernel

end Ctldl
