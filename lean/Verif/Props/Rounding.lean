import Verif.Lemmas.RoundingBackward
import Verif.Props.Arrowhead
import Mathlib.Algebra.Order.Ring.Pow
import Mathlib.Algebra.Order.Field.Rat

/-! # C46: rounding errors of the factorization -/

namespace Ctldl

open Finset

variable {K F : Type} [Zero K] [Sub K] [Mul K] [Div K] [Field F] [LinearOrder F] [IsStrictOrderedRing F]

/-- C46: backward error of the factorization. In any arithmetic with rounding, if the computed pivots and the numbers
which were regularized to them are finite, then the product of the computed factors, with the change of the pivots by
the regularization taken back, differs from the (permuted) matrix in each element by at most `gamma (n + 2)` times the
same product of absolute values, up to underflow errors, where `n` bounds the number of stored entries in a row. -/
theorem C46_backward_error (R : Rounding K F) (s : ArrowheadSparsity) (d : Dims) (hs : s.Valid d) (T : ArrowheadTypes)
    (N : Nat) (f : ArrowheadFactor K) (hf : f.Declared s T d N) (m : ArrowheadMatrix K) (hm : m.Fits s T d N)
    (reg : K → Nat → K) (method : Method) (f' : ArrowheadFactor K)
    (h : f.factorize d.tridiag d.link d.outer m reg method = .ok f')
    (hfin : ∀ a ∈ blocks N, ∀ i < d.of a, R.fin (f'.pivotAt a i) ∧ ∀ x, f'.pivotAt a i = reg x i → R.fin x)
    (ε : F) (h0 : 0 ≤ ε)
    (hε : ∀ a ∈ blocks N, ∀ b ∈ blocks N, ∀ i j, T.Has N a i b j →
      R.η * (1 + |R.v (f'.pivotAt b j)| * (1 + |(f'.map R.v).lowerElement N a b i j|)) ≤ ε)
    (n : Nat) (hn : ∀ a ∈ blocks N, ∀ i < d.of a, T.rowEntries N a i ≤ n) :
    ∃ x : Blk → Nat → K, (∀ a ∈ blocks N, ∀ i < d.of a, f'.pivotAt a i = reg (x a i) i) ∧
      ∀ a ∈ blocks N, ∀ b ∈ blocks N, ∀ i < d.of a, ∀ j < d.of b,
        |(m.map R.v).symElement N a b (permAt (s.perm a) i) (permAt (s.perm b) j) -
          ((f'.map R.v).ldlt d N a b i j +
            if a = b ∧ i = j then R.v (x a i) - R.v (f'.pivotAt a i) else 0)| ≤
        R.gamma (n + 2) * ((f'.map (fun y => |R.v y|)).ldlt d N a b i j +
            if a = b ∧ i = j then |R.v (x a i)| - |R.v (f'.pivotAt a i)| else 0) +
          R.growth (n + 2) * ((n + 1) * ε) := by
  obtain ⟨x, hx, hA⟩ := R.factorize_apx s d hs T N f hf m hm reg method f' h hfin ε h0 hε n hn
  exact ⟨x, hx, fun a ha b hb i hi j hj => (hA a ha b hb i hi j hj).err⟩

/-- C46: without regularization and without underflow this is the classical componentwise bound
`|A - L D Lᵀ| ≤ gamma (n + 2) |L| |D| |Lᵀ|`. -/
theorem C46_backward_error_unregularized (R : Rounding K F) (hη : R.η = 0) (s : ArrowheadSparsity) (d : Dims)
    (hs : s.Valid d) (T : ArrowheadTypes) (N : Nat) (f : ArrowheadFactor K) (hf : f.Declared s T d N)
    (m : ArrowheadMatrix K) (hm : m.Fits s T d N) (method : Method) (f' : ArrowheadFactor K)
    (h : f.factorize d.tridiag d.link d.outer m (fun x _ => x) method = .ok f')
    (hfin : ∀ a ∈ blocks N, ∀ i < d.of a, R.fin (f'.pivotAt a i))
    (n : Nat) (hn : ∀ a ∈ blocks N, ∀ i < d.of a, T.rowEntries N a i ≤ n) :
    ∀ a ∈ blocks N, ∀ b ∈ blocks N, ∀ i < d.of a, ∀ j < d.of b,
      |(m.map R.v).symElement N a b (permAt (s.perm a) i) (permAt (s.perm b) j) - (f'.map R.v).ldlt d N a b i j| ≤
        R.gamma (n + 2) * (f'.map (fun y => |R.v y|)).ldlt d N a b i j := by
  obtain ⟨x, hx, hb⟩ := C46_backward_error R s d hs T N f hf m hm _ method f' h
    (fun a ha i hi => ⟨hfin a ha i hi, fun x hx => hx ▸ hfin a ha i hi⟩) 0 le_rfl
    (fun _ _ _ _ _ _ _ => by rw [hη, zero_mul]) n hn
  intro a ha b hb' i hi j hj
  have := hb a ha b hb' i hi j hj
  rw [← hx a ha i hi, sub_self, sub_self, ite_self, add_zero, add_zero, mul_zero, mul_zero, add_zero] at this
  exact this

/-- C46: the factors in the bounds are as small as expected. -/
theorem C46_gamma_le (R : Rounding K F) (n : Nat) (h : (n : F) * R.u < 1) :
    R.gamma n ≤ n * R.u / (1 - n * R.u) := by
  unfold Rounding.gamma Rounding.growth
  have h1 : 1 - (n : F) * R.u ≤ (1 - R.u) ^ n := by
    have := one_add_mul_le_pow (a := -R.u) (by have := R.u_lt_one; linarith) n
    calc 1 - (n : F) * R.u = 1 + n * -R.u := by ring
      _ ≤ (1 + -R.u) ^ n := this
      _ = (1 - R.u) ^ n := by rw [← sub_eq_add_neg]
  have h2 : 0 < 1 - (n : F) * R.u := by linarith
  rw [show (n : F) * R.u / (1 - n * R.u) = 1 / (1 - n * R.u) - 1 by field_simp; ring]
  exact sub_le_sub_right (one_div_le_one_div_of_le h2 h1) 1

/-- C46: the same for the factorization of a single matrix. -/
theorem C46_single_backward_error (R : Rounding K F) (s : Sparsity) (p : List Nat) (hv : ValidSparsity s p)
    (f : DiagFactor K) (hf : f.Declared s p) (m : MatIn K) (hm : m.Fits s p) (reg : K → Nat → K) (method : Method)
    (f' : DiagFactor K) (h : f.factorize m reg method = .ok f')
    (hfin : ∀ i < s.numRows, R.fin (f'.pivot i) ∧ ∀ x, f'.pivot i = reg x i → R.fin x)
    (ε : F) (h0 : 0 ≤ ε)
    (hε : ∀ i j, f'.sparsity.toSparsity.Has i j →
      R.η * (1 + |R.v (f'.pivot j)| * (1 + |R.v (f'.lower i j)|)) ≤ ε)
    (n : Nat) (hn : ∀ i < s.numRows, f'.sparsity.rowEntries i ≤ n) :
    ∃ x : Nat → K, (∀ i < s.numRows, f'.pivot i = reg (x i) i) ∧ ∀ i < s.numRows, ∀ j < s.numRows,
      |R.v (m.sym (permAt p i) (permAt p j)) -
        (ldlt s.numRows (fun a b => R.v (f'.lower a b)) (fun a => R.v (f'.pivot a)) i j +
          if i = j then R.v (x i) - R.v (f'.pivot i) else 0)| ≤
      R.gamma (n + 2) * (ldlt s.numRows (fun a b => |R.v (f'.lower a b)|) (fun a => |R.v (f'.pivot a)|) i j +
          if i = j then |R.v (x i)| - |R.v (f'.pivot i)| else 0) + R.growth (n + 2) * ((n + 1) * ε) := by
  obtain ⟨x, hx, hA⟩ := R.single_apx s p hv f hf m hm reg method f' h hfin ε h0 hε n hn
  exact ⟨x, hx, fun i hi j hj => (hA i hi j hj).err⟩

end Ctldl
