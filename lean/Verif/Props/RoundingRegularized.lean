import Verif.Spec.BinaryOrder
import Verif.Props.RoundingSolve
import Verif.Props.Inactive

/-! # C46, C47: rounding errors with regularization

The theorems of C46 and C47 for any regularization have the hypothesis that finite pivots come from finite values. The one
of the library satisfies it. -/

namespace Ctldl

open Finset

/-- C46: the regularization of the library returns numbers which are not finite as they are. -/
theorem C46_regularization_finite (fmt : Format) (tol c x : Binary fmt) (i : Nat)
    (h : (regularizationSmallPositiveConstant Binary.abs tol c x i).Finite) : x.Finite := by
  unfold regularizationSmallPositiveConstant at h
  split at h
  · next hlt =>
    change Binary.lt x.abs tol = true at hlt
    cases x <;> cases tol <;> first | trivial | cases hlt
  · exact h

/-- C46: rounding errors of the factorization with the regularization of the library, in any binary format: it is enough
that the pivots are finite. -/
theorem C46_small_positive_constant (fmt : Format) (s : ArrowheadSparsity) (d : Dims) (hs : s.Valid d) (T : ArrowheadTypes)
    (N : Nat) (f : ArrowheadFactor (Binary fmt)) (hf : f.Declared s T d N) (m : ArrowheadMatrix (Binary fmt))
    (hm : m.Fits s T d N) (tol c : Binary fmt) (method : Method) (f' : ArrowheadFactor (Binary fmt))
    (h : f.factorize d.tridiag d.link d.outer m (regularizationSmallPositiveConstant Binary.abs tol c) method = .ok f')
    (hfin : ∀ a ∈ blocks N, ∀ i < d.of a, (f'.pivotAt a i).Finite)
    (ε : ℚ) (h0 : 0 ≤ ε)
    (hε : ∀ a ∈ blocks N, ∀ b ∈ blocks N, ∀ i j, T.Has N a i b j →
      (Binary.rounding fmt).η * (1 + |(f'.pivotAt b j).toRat| * (1 + |(f'.map Binary.toRat).lowerElement N a b i j|)) ≤ ε)
    (n : Nat) (hn : ∀ a ∈ blocks N, ∀ i < d.of a, T.rowEntries N a i ≤ n) :
    ∃ x : Blk → Nat → Binary fmt,
      (∀ a ∈ blocks N, ∀ i < d.of a, (x a i).Finite ∧ f'.pivotAt a i = if (x a i).abs < tol then c else x a i) ∧
      ∀ a ∈ blocks N, ∀ b ∈ blocks N, ∀ i < d.of a, ∀ j < d.of b,
        |(m.map Binary.toRat).symElement N a b (permAt (s.perm a) i) (permAt (s.perm b) j) -
          ((f'.map Binary.toRat).ldlt d N a b i j +
            if a = b ∧ i = j then (x a i).toRat - (f'.pivotAt a i).toRat else 0)| ≤
        (Binary.rounding fmt).gamma (n + 2) * ((f'.map (fun y => |y.toRat|)).ldlt d N a b i j +
            if a = b ∧ i = j then |(x a i).toRat| - |(f'.pivotAt a i).toRat| else 0) +
          (Binary.rounding fmt).growth (n + 2) * ((n + 1) * ε) := by
  obtain ⟨x, h1, h2⟩ := C46_backward_error (Binary.rounding fmt) s d hs T N f hf m hm _ method f' h
    (fun a ha i hi => ⟨hfin a ha i hi, fun x hx => C46_regularization_finite fmt tol c x i (hx ▸ hfin a ha i hi)⟩)
    ε h0 hε n hn
  exact ⟨x, fun a ha i hi => ⟨C46_regularization_finite fmt tol c _ i (h1 a ha i hi ▸ hfin a ha i hi), h1 a ha i hi⟩, h2⟩

/-- C47: the residual of a solution with the regularization of the library, in any binary format. -/
theorem C47_small_positive_constant (fmt : Format) (s : ArrowheadSparsity) (d : Dims) (hs : s.Valid d) (T : ArrowheadTypes)
    (N : Nat) (f : ArrowheadFactor (Binary fmt)) (hf : f.Declared s T d N) (A : ArrowheadMatrix (Binary fmt))
    (hA : A.Fits s T d N) (tol e : Binary fmt) (method : Method) (f' : ArrowheadFactor (Binary fmt))
    (hfact : f.factorize d.tridiag d.link d.outer A (regularizationSmallPositiveConstant Binary.abs tol e) method = .ok f')
    (hpiv : ∀ a ∈ blocks N, ∀ i < d.of a, (f'.pivotAt a i).Finite)
    (ε : ℚ) (h0 : 0 ≤ ε)
    (hε : ∀ a ∈ blocks N, ∀ b ∈ blocks N, ∀ i j, T.Has N a i b j →
      (Binary.rounding fmt).η * (1 + |(f'.pivotAt b j).toRat| * (1 + |(f'.map Binary.toRat).lowerElement N a b i j|)) ≤ ε)
    (b : ArrowheadVector (Binary fmt)) (hb : b.OfSize d N) (x : ArrowheadVector (Binary fmt))
    (h : f'.solveInPlace b = .ok x) (hfin : ∀ a ∈ blocks N, ∀ i < d.of a, (x.at a i).Finite)
    (n : Nat) (hn : ∀ a ∈ blocks N, ∀ i < d.of a, T.rowEntries N a i ≤ n)
    (m : Nat) (hm : ∀ a ∈ blocks N, ∀ i < d.of a, T.colEntries N a i ≤ m) :
    ∃ w : Blk → Nat → Binary fmt,
      (∀ a ∈ blocks N, ∀ i < d.of a, (w a i).Finite ∧ f'.pivotAt a i = if (w a i).abs < tol then e else w a i) ∧
      ∀ a ∈ blocks N, ∀ i < d.of a,
        |(b.at a (permAt (s.perm a) i)).toRat - ∑ c ∈ blocks N, ∑ j ∈ range (d.of c),
            ((A.map Binary.toRat).symElement N a c (permAt (s.perm a) i) (permAt (s.perm c) j) +
              if a = c ∧ i = j then (f'.pivotAt a i).toRat - (w a i).toRat else 0) *
              (x.at c (permAt (s.perm c) j)).toRat| ≤
          (Binary.rounding fmt).gamma (n + m + 3) * ∑ c ∈ blocks N, ∑ j ∈ range (d.of c),
            (f'.map (fun y => |y.toRat|)).ldlt d N a c i j * |(x.at c (permAt (s.perm c) j)).toRat| +
          (Binary.rounding fmt).gamma (n + 2) * ∑ c ∈ blocks N, ∑ j ∈ range (d.of c),
            ((f'.map (fun y => |y.toRat|)).ldlt d N a c i j +
              if a = c ∧ i = j then |(w a i).toRat| - |(f'.pivotAt a i).toRat| else 0) *
              |(x.at c (permAt (s.perm c) j)).toRat| +
          ((Binary.rounding fmt).growth (n + m + 3) * (n * (Binary.rounding fmt).η +
            ∑ c ∈ blocks N, ∑ j ∈ range (d.of c), (f'.map (fun y => |y.toRat|)).lowerElement N a c i j *
              (|(f'.pivotAt c j).toRat| * ((m + 1) * (Binary.rounding fmt).η))) +
          (Binary.rounding fmt).growth (n + 2) * ((n + 1) * ε) * ∑ c ∈ blocks N, ∑ j ∈ range (d.of c),
            |(x.at c (permAt (s.perm c) j)).toRat|) := by
  obtain ⟨w, h1, h2⟩ := C47_residual (Binary.rounding fmt) s d hs T N f hf A hA _ method f' hfact
    (fun a ha i hi => ⟨hpiv a ha i hi, fun x hx => C46_regularization_finite fmt tol e x i (hx ▸ hpiv a ha i hi)⟩)
    ε h0 hε b hb x h hfin n hn m hm
  exact ⟨w, fun a ha i hi => ⟨C46_regularization_finite fmt tol e _ i (h1 a ha i hi ▸ hpiv a ha i hi), h1 a ha i hi⟩, h2⟩

variable {K F : Type} [Zero K] [Sub K] [Mul K] [Div K] [Field F] [LinearOrder F] [IsStrictOrderedRing F]

open Classical in
/-- The regularization which does not change numbers which are not finite. -/
noncomputable def Rounding.onFinite (R : Rounding K F) (reg : K → Nat → K) (x : K) (i : Nat) : K :=
  if R.fin x then reg x i else x

/-- C46: any regularization, also one which makes finite numbers of numbers which are not finite. If the pivots are finite
when it is not allowed to do so, then it has not done so, and the bounds hold. -/
theorem C46_any_regularization (R : Rounding K F) (s : ArrowheadSparsity) (d : Dims) (hs : s.Valid d) (T : ArrowheadTypes)
    (N : Nat) (f : ArrowheadFactor K) (hf : f.Declared s T d N) (m : ArrowheadMatrix K) (hm : m.Fits s T d N)
    (reg : K → Nat → K) (method : Method) (f' : ArrowheadFactor K)
    (h : f.factorize d.tridiag d.link d.outer m (R.onFinite reg) method = .ok f')
    (hfin : ∀ a ∈ blocks N, ∀ i < d.of a, R.fin (f'.pivotAt a i))
    (ε : F) (h0 : 0 ≤ ε)
    (hε : ∀ a ∈ blocks N, ∀ b ∈ blocks N, ∀ i j, T.Has N a i b j →
      R.η * (1 + |R.v (f'.pivotAt b j)| * (1 + |(f'.map R.v).lowerElement N a b i j|)) ≤ ε)
    (n : Nat) (hn : ∀ a ∈ blocks N, ∀ i < d.of a, T.rowEntries N a i ≤ n) :
    f.factorize d.tridiag d.link d.outer m reg method = .ok f' ∧
    ∃ x : Blk → Nat → K, (∀ a ∈ blocks N, ∀ i < d.of a, R.fin (x a i) ∧ f'.pivotAt a i = reg (x a i) i) ∧
      ∀ a ∈ blocks N, ∀ b ∈ blocks N, ∀ i < d.of a, ∀ j < d.of b,
        |(m.map R.v).symElement N a b (permAt (s.perm a) i) (permAt (s.perm b) j) -
          ((f'.map R.v).ldlt d N a b i j +
            if a = b ∧ i = j then R.v (x a i) - R.v (f'.pivotAt a i) else 0)| ≤
        R.gamma (n + 2) * ((f'.map (fun y => |R.v y|)).ldlt d N a b i j +
            if a = b ∧ i = j then |R.v (x a i)| - |R.v (f'.pivotAt a i)| else 0) +
          R.growth (n + 2) * ((n + 1) * ε) := by
  have key : ∀ {a}, a ∈ blocks N → ∀ {i}, i < d.of a → ∀ x, f'.pivotAt a i = R.onFinite reg x i →
      R.fin x ∧ f'.pivotAt a i = reg x i := by
    intro a ha i hi x hx
    unfold Rounding.onFinite at hx
    split at hx
    · next hx' => exact ⟨hx', hx⟩
    · next hx' => exact absurd (hx ▸ hfin a ha i hi) hx'
  refine ⟨C28_repeating_exchange s d hs T N f hf m hm _ _ method f' h fun a ha i hi y hy => ((key ha hi y hy.symm).2).symm, ?_⟩
  obtain ⟨x, h1, h2⟩ := C46_backward_error R s d hs T N f hf m hm _ method f' h
    (fun a ha i hi => ⟨hfin a ha i hi, fun x hx => (key ha hi x hx).1⟩) ε h0 hε n hn
  exact ⟨x, fun a ha i hi => key ha hi _ (h1 a ha i hi), h2⟩

/-! ### A case meeting the hypotheses, in which the regularization replaces a pivot -/

/-- Witness: all pivots less than 3 are replaced by 5. -/
def replaceReg : Double → Nat → Double :=
  regularizationSmallPositiveConstant Binary.abs (Binary.ofRat .binary64 false 3) (Binary.ofRat .binary64 false 5)

def replaceRun : Res (ArrowheadTypes × ArrowheadFactor Double × ArrowheadVector Double) := do
  let T ← arrowheadTypes arrowS
  let f ← (freshFactor arrowS T arrowD 1 (0 : Double)).factorize 2 1 1 doubleM replaceReg .entryWise
  let x ← f.solveInPlace doubleB
  return (T, f, x)

def replaceCheck : Bool :=
  match replaceRun with
  | .ok (T, f, x) => decide ((∀ a ∈ blocks 1, (∀ i < arrowD.of a, (f.pivotAt a i).Finite ∧ (x.at a i).Finite ∧
      T.rowEntries 1 a i ≤ 5 ∧ T.colEntries 1 a i ≤ 3) ∧
    (∀ e ∈ (T.diagBlock a).entries, doubleSmall f a a e.row e.col) ∧
    ∀ b ∈ blocks 1, ∀ e ∈ (T.lowerBlock 1 a b).elim [] (fun c => c.entries), doubleSmall f a b e.row e.col) ∧
      (f.pivotAt .start 0).toRat = 5)
  | _ => false

/-- The first pivot, which is 2, is replaced by 5. -/
example : ∃ T f x, doubleM.Fits arrowS T arrowD 1 ∧ (freshFactor arrowS T arrowD 1 (0 : Double)).Declared arrowS T arrowD 1 ∧
    (freshFactor arrowS T arrowD 1 (0 : Double)).factorize 2 1 1 doubleM replaceReg .entryWise = .ok f ∧
    f.solveInPlace doubleB = .ok x ∧ doubleB.OfSize arrowD 1 ∧
    (∀ a ∈ blocks 1, ∀ i < arrowD.of a, doubleR.fin (f.pivotAt a i) ∧
      doubleR.fin (x.at a i) ∧ T.rowEntries 1 a i ≤ 5 ∧ T.colEntries 1 a i ≤ 3) ∧
    (∀ a ∈ blocks 1, ∀ b ∈ blocks 1, ∀ i j, T.Has 1 a i b j → doubleR.η *
      (1 + |doubleR.v (f.pivotAt b j)| * (1 + |(f.map doubleR.v).lowerElement 1 a b i j|)) ≤ 2 ^ (-1072 : Int)) ∧
    (f.pivotAt .start 0).toRat = 5 := by
  have h : replaceCheck = true := by decide +kernel
  unfold replaceCheck at h
  split at h
  · next T f x hrun =>
    unfold replaceRun at hrun
    obtain ⟨T', hT, hrun⟩ := bind_eq_ok.mp hrun
    obtain ⟨f', hf, hrun⟩ := bind_eq_ok.mp hrun
    obtain ⟨x', hx, hrun⟩ := bind_eq_ok.mp hrun
    cases hrun
    obtain ⟨h, hne⟩ := of_decide_eq_true h
    refine ⟨T, f, x, (arrowM_fits hT).map _, C21_constructible arrowS arrowD T hT 1 0, hf, hx, by constructor <;> decide,
      fun a ha => (h a ha).1, ?_, hne⟩
    intro a ha b hb i j hh
    change doubleSmall f a b i j
    rcases hh with ⟨rfl, hh⟩ | ⟨G, hG, hh⟩
    · exact (h a ha).2.1 ⟨i, j⟩ hh
    · obtain ⟨c, hc, rfl⟩ := Option.map_eq_some_iff.mp hG
      have := (h a ha).2.2 b hb
      rw [hc] at this
      exact this ⟨i, j⟩ hh
  · cases h

end Ctldl
