import Verif.Lemmas.ForwardQuasiArrowhead
import Verif.Lemmas.Dominant

/-! # C75: factorizations of quasidefinite matrices do not overflow, and the pivots have the right signs -/

namespace Ctldl

open Finset

variable {K F : Type} [Zero K] [Sub K] [Mul K] [Div K] [Field F] [LinearOrder F] [IsStrictOrderedRing F]

private theorem abs_gt {S : Prop} {μ x : F} (h1 : S → μ < x) (h2 : ¬ S → x < -μ) : μ < |x| := by
  by_cases h : S
  · exact (h1 h).trans_le (le_abs_self x)
  · have := h2 h
    have := neg_abs_le x
    linarith

/-- C75: the factorization of a matrix which is quasidefinite by a margin, like the ones of interior point methods, does not
overflow and does not break down in arithmetic with rounding, for every permutation and without pivoting: the pivots are finite,
positive for the rows of the positive definite block, negative for the other rows, and bounded away from zero; the entries of
the factor are finite and bounded, the regularization does not change anything, and the product of the factors is close to the
matrix. All conditions are on the matrix and the arithmetic. -/
theorem C75_single (R : Rounding K F) (s : Sparsity) (p : List Nat) (hv : ValidSparsity s p)
    (f : DiagFactor K) (hf : f.Declared s p) (m : MatIn K) (hm : m.Fits s p) (method : Method)
    (n : Nat) (hn : ∀ i < s.numRows, f.sparsity.rowEntries i ≤ n)
    (c : Nat) (hc : ∀ j < s.numRows, f.sparsity.colEntries j < c)
    (Ω ρ μ β ε : F) (hR : R.AmpleQuasi n c s.numRows Ω ρ μ β ε)
    (hfin : ∀ i < s.numRows, ∀ j < s.numRows, R.fin (m.sym i j) ∧ R.stored (m.sym i j))
    (hρ : ∀ i < s.numRows, ∑ j ∈ range s.numRows, |R.v (m.sym i j)| ≤ ρ)
    (S : Nat → Prop) (hq : QuasiDef (range s.numRows) S (2 * μ) fun i j => R.v (m.sym i j))
    (reg : K → Nat → K) (hreg : ∀ x i, R.fin x → μ < |R.v x| → reg x i = x) :
    ∃ f', f.factorize m reg method = .ok f' ∧
      (∀ i < s.numRows, R.fin (f'.pivot i) ∧ (S (permAt p i) → μ < R.v (f'.pivot i)) ∧
        (¬ S (permAt p i) → R.v (f'.pivot i) < -μ) ∧ |R.v (f'.pivot i)| ≤ β) ∧
      f'.Entries (fun y => R.fin y ∧ |R.v y| ≤ β / μ) ∧
      ∀ i < s.numRows, ∑ j ∈ range s.numRows, |R.v (m.sym (permAt p i) (permAt p j)) -
          ldlt s.numRows (fun a b => R.v (f'.lower a b)) (fun a => R.v (f'.pivot a)) i j| ≤
        R.gamma (n + 2) * quasiGrowth n c μ β + s.numRows * R.slip n ε := by
  have hm1 := fits_single hv hf hm
  obtain ⟨hcl, -⟩ := hf.closed1 hv
  obtain ⟨f', h, -, -, hpiv, hent, -, -, herr, hsum⟩ := single_forward_quasi R hv hf hm method hn hc hR hfin hρ hq
  refine ⟨f', factorize_exchange hcl hm1 h fun i hi y hy => ?_, hpiv, hent, ?_⟩
  · subst hy
    exact hreg _ i (hpiv i hi).1 (abs_gt (hpiv i hi).2.1 (hpiv i hi).2.2.1)
  intro i hi
  refine (sum_le_sum fun j hj => herr i hi j (mem_range.mp hj)).trans ?_
  rw [sum_add_distrib, ← mul_sum, sum_const, card_range, nsmul_eq_mul]
  exact add_le_add_left (mul_le_mul_of_nonneg_left (hsum i hi).1 (R.gamma_nonneg _)) _

/-! ### Repeating block matrices -/

private theorem typesOk {s : ArrowheadSparsity} {T : ArrowheadTypes} {d : Dims} (hs : s.Valid d)
    (hT : arrowheadTypes s = .ok T) : TypesOk s T d := by
  obtain ⟨T', h, h'⟩ := arrowheadTypes_sat hs
  rw [hT] at h
  cases h
  exact h'

/-- C75: the same for repeating block matrices, for all numbers of repetitions. -/
theorem C75_repeating (R : Rounding K F) (s : ArrowheadSparsity) (d : Dims) (hs : s.Valid d) (T : ArrowheadTypes)
    (N : Nat) (f : ArrowheadFactor K) (hf : f.Declared s T d N) (m : ArrowheadMatrix K) (hm : m.Fits s T d N)
    (method : Method)
    (n : Nat) (hn : ∀ a ∈ blocks N, ∀ i < d.of a, T.rowEntries N a i ≤ n)
    (c : Nat) (hc : ∀ a ∈ blocks N, ∀ j < d.of a, T.colEntries N a j < c)
    (Ω ρ μ β ε : F) (hR : R.AmpleQuasi n c (positions d N).card Ω ρ μ β ε)
    (hfin : ∀ k ∈ positions d N, ∀ l ∈ positions d N, R.fin (m.assembled N k l) ∧ R.stored (m.assembled N k l))
    (hρ : ∀ k ∈ positions d N, ∑ l ∈ positions d N, |(m.map R.v).assembled N k l| ≤ ρ)
    (S : (Σ _ : Blk, Nat) → Prop) (hq : QuasiDef (positions d N) S (2 * μ) ((m.map R.v).assembled N))
    (reg : K → Nat → K) (hreg : ∀ x i, R.fin x → μ < |R.v x| → reg x i = x) :
    ∃ f', f.factorize d.tridiag d.link d.outer m reg method = .ok f' ∧
      (∀ a ∈ blocks N, ∀ i < d.of a, R.fin (f'.pivotAt a i) ∧
        (S ⟨a, permAt (s.perm a) i⟩ → μ < R.v (f'.pivotAt a i)) ∧
        (¬ S ⟨a, permAt (s.perm a) i⟩ → R.v (f'.pivotAt a i) < -μ) ∧ |R.v (f'.pivotAt a i)| ≤ β) ∧
      f'.Entries (fun y => R.fin y ∧ |R.v y| ≤ β / μ) ∧
      ∀ a ∈ blocks N, ∀ i < d.of a, ∑ b ∈ blocks N, ∑ j ∈ range (d.of b),
          |(m.map R.v).symElement N a b (permAt (s.perm a) i) (permAt (s.perm b) j) - (f'.map R.v).ldlt d N a b i j| ≤
        R.gamma (n + 2) * quasiGrowth n c μ β + (positions d N).card * R.slip n ε := by
  have hT := typesOk hs hf.types
  obtain ⟨f', h, -⟩ := arrowheadFactorize_sat hs hT hf hm.matrixOk (fun x _ => x) method
  obtain ⟨h1, h2, -, h4, h5, -⟩ := arrowhead_forward_quasi R hs hf hm h hn hc hR hfin hρ hq
  have h1' : ∀ a ∈ blocks N, ∀ i < d.of a, R.fin (f'.pivotAt a i) ∧
      (S ⟨a, permAt (s.perm a) i⟩ → μ < R.v (f'.pivotAt a i)) ∧
      (¬ S ⟨a, permAt (s.perm a) i⟩ → R.v (f'.pivotAt a i) < -μ) ∧ |R.v (f'.pivotAt a i)| ≤ β := fun a ha i hi =>
    h1 ⟨a, i⟩ (mem_positions.mpr ⟨ha, hi⟩)
  refine ⟨f', arrowheadFactorize_exchange hs hT hf hm.matrixOk h fun a ha i hi y hy => ?_, h1', h2, ?_⟩
  · subst hy
    exact hreg _ i (h1' a ha i hi).1 (abs_gt (h1' a ha i hi).2.1 (h1' a ha i hi).2.2.1)
  intro a ha i hi
  have hk : (⟨a, i⟩ : Σ _ : Blk, Nat) ∈ positions d N := mem_positions.mpr ⟨ha, hi⟩
  have e1 : ∑ b ∈ blocks N, ∑ j ∈ range (d.of b),
      |(m.map R.v).symElement N a b (permAt (s.perm a) i) (permAt (s.perm b) j) - (f'.map R.v).ldlt d N a b i j| =
      ∑ l ∈ positions d N, |(m.map R.v).assembled N (s.permPos ⟨a, i⟩) (s.permPos l) -
        (f'.map R.v).ldlt d N a l.1 i l.2| := by
    unfold positions
    rw [sum_sigma]
    rfl
  rw [e1]
  refine (sum_le_sum fun l hl => h4 ⟨a, i⟩ hk l hl).trans ?_
  rw [sum_add_distrib, ← mul_sum, sum_const, nsmul_eq_mul]
  exact add_le_add_left (mul_le_mul_of_nonneg_left (h5 _ hk).1 (R.gamma_nonneg _)) _

/-! ### Block tridiagonal matrices -/

section

open Tridiagonal

variable {A B : List (MatIn K)} {n N : Nat}

theorem assembled_values {R : Rounding K F} (hB : N ≤ B.length) {k l : Nat × Nat} (hk : k ∈ tridiagonalPositions n N)
    (hl : l ∈ tridiagonalPositions n N) :
    ((tridiagonalMatrix n N A B).map R.v).assembled N ⟨.tridiag k.1, k.2⟩ ⟨.tridiag l.1, l.2⟩ =
      tridiagonalAssembled (blockValues R A) (blockValues R B) k l := by
  rw [matrix_map]
  exact symElement_eq (A := A.map (·.map R.v)) (B := B.map (·.map R.v)) (n := n) (by rw [List.length_map]; exact hB)
    (mem_positions'.mp hk).1 (mem_positions'.mp hl).1 k.2 l.2

theorem assembled_sum {R : Rounding K F} {ρ : F} (hB : N ≤ B.length)
    (h : ∀ k ∈ tridiagonalPositions n N, ∑ l ∈ tridiagonalPositions n N,
      |tridiagonalAssembled (blockValues R A) (blockValues R B) k l| ≤ ρ) :
    ∀ k ∈ positions ⟨0, n, 0, 0⟩ N, ∑ l ∈ positions ⟨0, n, 0, 0⟩ N,
      |((tridiagonalMatrix n N A B).map R.v).assembled N k l| ≤ ρ := by
  intro x hx
  obtain ⟨k, hk, rfl⟩ := position_cases hx
  refine le_trans (le_of_eq ?_) (h k hk)
  rw [sum_positions]
  exact sum_congr rfl fun l hl => by rw [assembled_values hB hk hl]

/-- The rows of the blocks of the repeating block matrix which are rows of the block tridiagonal matrix in `S`. -/
def onTridiag (S : Nat × Nat → Prop) (k : Σ _ : Blk, Nat) : Prop :=
  match k.1 with
  | .tridiag t => S (t, k.2)
  | _ => True

end

open Tridiagonal in
/-- C75: the same for the class for block tridiagonal matrices. -/
theorem C75_tridiagonal (R : Rounding K F) (spA spB : Sparsity) (p : List Nat) (n : Nat)
    (h : ValidTridiagonal spA spB p n) (N : Nat) (f : ArrowheadFactor K) (T : ArrowheadTypes)
    (hf : TridiagonalDeclared f spA spB p T n N) (A B : List (MatIn K)) (hm : TridiagonalFits A B p T n N)
    (method : Method)
    (r : Nat) (hr : ∀ i < n, T.tridiagDiag.rowEntries i + T.tridiagSubdiag.rowEntries i ≤ r)
    (c : Nat) (hc : ∀ i < n, T.tridiagDiag.colEntries i + T.tridiagSubdiag.colEntries i < c)
    (Ω ρ μ β ε : F) (hR : R.AmpleQuasi r c ((N + 1) * n) Ω ρ μ β ε)
    (hfin : ∀ k ∈ tridiagonalPositions n N, ∀ l ∈ tridiagonalPositions n N,
      R.fin (tridiagonalAssembled A B k l) ∧ R.stored (tridiagonalAssembled A B k l))
    (hρ : ∀ k ∈ tridiagonalPositions n N, ∑ l ∈ tridiagonalPositions n N,
      |tridiagonalAssembled (blockValues R A) (blockValues R B) k l| ≤ ρ)
    (S : Nat × Nat → Prop)
    (hq : QuasiDef (tridiagonalPositions n N) S (2 * μ) (tridiagonalAssembled (blockValues R A) (blockValues R B)))
    (reg : K → Nat → K) (hreg : ∀ x i, R.fin x → μ < |R.v x| → reg x i = x) :
    ∃ f', tridiagonalFactorize n f A B reg method = .ok f' ∧
      (∀ t < N + 1, ∀ i < n, R.fin (f'.pivotAt (.tridiag t) i) ∧
        (S (t, permAt p i) → μ < R.v (f'.pivotAt (.tridiag t) i)) ∧
        (¬ S (t, permAt p i) → R.v (f'.pivotAt (.tridiag t) i) < -μ) ∧ |R.v (f'.pivotAt (.tridiag t) i)| ≤ β) ∧
      f'.Entries (fun y => R.fin y ∧ |R.v y| ≤ β / μ) ∧
      ∀ t < N + 1, ∀ i < n, ∑ u ∈ range (N + 1), ∑ j ∈ range n,
          |tridiagonalSym (blockValues R A) (blockValues R B) t u (permAt p i) (permAt p j) -
            tridiagonalLdlt (f'.map R.v) n N t u i j| ≤
        R.gamma (r + 2) * quasiGrowth r c μ β + ((N + 1) * n : Nat) * R.slip r ε := by
  have hd := declared_of h hf
  obtain ⟨f', h1, h2, h3, h4⟩ := C75_repeating R _ _ (emptied_valid h) T N f hd _ (fits_of hm) method r
    (blocks_cases fun t ht i hi => (rowEntries_le h hd.types N t i).trans (hr i hi)) c
    (blocks_cases fun t ht i hi => (colEntries_le h hd.types N t i).trans_lt (hc i hi)) Ω ρ μ β ε
    (by rw [card_positions]; exact hR)
    (assembled_finite (P := fun y => R.fin y ∧ R.stored y) hm.numB hfin) (assembled_sum hm.numB hρ) (onTridiag S)
    (quasiDef_of (fun k hk l hl => assembled_values hm.numB hk hl) (fun _ => Iff.rfl) hq) reg hreg
  refine ⟨f', by rw [factorize_eq hd]; exact h1, fun t ht i hi => h2 _ (tridiag_mem ht) i hi, h3,
    fun t ht i hi => ?_⟩
  have h5 := h4 _ (tridiag_mem ht) i hi
  rw [sum_tridiag (fun b j => |((tridiagonalMatrix n N A B).map R.v).symElement N (.tridiag t) b _ (permAt _ j) -
    (f'.map R.v).ldlt ⟨0, n, 0, 0⟩ N (.tridiag t) b i j|), card_positions] at h5
  refine le_trans (le_of_eq (sum_congr rfl fun u hu => sum_congr rfl fun j _ => ?_)) h5
  rw [matrix_map, symElement_eq (by rw [List.length_map]; exact hm.numB) ht (mem_range.mp hu), ldlt_eq]
  rfl

/-! ### Cases meeting the hypotheses, in IEEE double precision -/

/-- Witness: the quasidefinite matrix of C48 in double precision. -/
def quasiDoubleM : MatIn Double := quasiM.map (Binary.ofRat .binary64 false)

theorem double_ampleQuasi : doubleR.AmpleQuasi 2 3 3 (2 ^ (1023 : Int)) 8 (1 / 2) 768 (2 ^ (-1060 : Int)) where
  range := Binary.range (fmt := .binary64) (by decide)
  pos := by norm_num
  bound := by norm_num
  small := by decide +kernel
  gamma := by decide +kernel
  accuracy := by decide +kernel
  max := by decide +kernel
  max_div := by decide +kernel

/-- All hypotheses hold for an indefinite matrix of doubles; no part of the factorization is evaluated. -/
example : ∃ f', (witnessF.map (Binary.ofRat .binary64 false)).factorize quasiDoubleM regularizationNone .upLooking = .ok f' ∧
    1 / 2 < doubleR.v (f'.pivot 0) ∧ doubleR.v (f'.pivot 1) < -(1 / 2) ∧ 1 / 2 < doubleR.v (f'.pivot 2) := by
  have hc : ∀ i < 3, witnessF.sparsity.rowEntries i ≤ 2 ∧ witnessF.sparsity.colEntries i < 3 := by decide
  have hv : ∀ i < 3, ∀ j < 3, doubleR.v (quasiDoubleM.sym i j) = quasiM.sym i j := by decide +kernel
  obtain ⟨f', h1, h2, -⟩ := C75_single doubleR witnessS [0, 2, 1] witness_valid _
    (show (witnessF.map (Binary.ofRat .binary64 false)).Declared witnessS [0, 2, 1] from
      ⟨witness_declared.pattern, rfl, rfl, rfl⟩) quasiDoubleM
    ⟨rfl, witness_valid.inRange, rfl, rfl, fun i j h => .base h h.1⟩ .upLooking 2 (fun i hi => (hc i hi).1) 3
    (fun i hi => (hc i hi).2) _ 8 (1 / 2) 768 _ double_ampleQuasi
    (fun i hi j hj => ⟨by
      have : ∀ i < 3, ∀ j < 3, (quasiDoubleM.sym i j).Finite := by decide +kernel
      exact this i hi j hj, trivial⟩)
    (by
      have : ∀ i < 3, ∑ j ∈ range 3, |doubleR.v (quasiDoubleM.sym i j)| ≤ 8 := by decide +kernel
      exact this)
    (fun i => i < 2)
    (by
      rw [show (2 * (1 / 2 : ℚ)) = 1 by norm_num]
      refine ⟨fun x hx h0 => ?_, fun x hx h0 => ?_⟩
      · have := quasiM_quasiDef.1 x hx h0
        refine this.trans_le (le_of_eq (sum_congr rfl fun i hi => sum_congr rfl fun j hj => ?_))
        beta_reduce
        rw [hv i (mem_range.mp hi) j (mem_range.mp hj)]
      · have := quasiM_quasiDef.2 x hx h0
        refine lt_of_le_of_lt (le_of_eq (sum_congr rfl fun i hi => sum_congr rfl fun j hj => ?_)) this
        beta_reduce
        rw [hv i (mem_range.mp hi) j (mem_range.mp hj)]) regularizationNone (fun _ _ _ _ => rfl)
  exact ⟨f', h1, (h2 0 (by decide)).2.1 (by decide), (h2 1 (by decide)).2.2.1 (by decide), (h2 2 (by decide)).2.1 (by decide)⟩

/-- Witness: an indefinite repeating block matrix, the one of C21 with the signs of three diagonal elements changed; the second
variable of each repeated block and the outer variable are multipliers. -/
def quasiArrowM : ArrowheadMatrix ℚ := arrowM.map fun x => if x = 4 ∨ x = 7 then -x else x

def quasiArrowDoubleM : ArrowheadMatrix Double := quasiArrowM.map (Binary.ofRat .binary64 false)

theorem quasiArrowM_fits {T : ArrowheadTypes} (hT : arrowheadTypes arrowS = .ok T) : quasiArrowM.Fits arrowS T arrowD 1 :=
  (arrowM_fits hT).map _

/-- The rows of the positive definite block. -/
def arrowPrimal (k : Σ _ : Blk, Nat) : Bool :=
  match k.1 with
  | .tridiag _ => k.2 = 0
  | .outer => false
  | _ => true

theorem quasiArrowDouble_quasiDef :
    QuasiDef (positions arrowD 1) (fun k => arrowPrimal k) (2 * (1 / 4)) ((quasiArrowDoubleM.map doubleR.v).assembled 1) := by
  refine quasiDef_of_dominant ?_ ?_ ?_ <;> decide +kernel

theorem double_ampleQuasi' :
    doubleR.AmpleQuasi 5 4 (positions arrowD 1).card (2 ^ (1023 : Int)) 9 (1 / 4) 1944 (2 ^ (-1060 : Int)) where
  range := Binary.range (fmt := .binary64) (by decide)
  pos := by norm_num
  bound := by norm_num
  small := by decide +kernel
  gamma := by decide +kernel
  accuracy := by decide +kernel
  max := by decide +kernel
  max_div := by decide +kernel

/-- All hypotheses hold for an indefinite repeating block matrix of doubles. -/
example : ∃ T f, arrowheadTypes arrowS = .ok T ∧
    (freshFactor arrowS T arrowD 1 (0 : Double)).factorize 2 1 1 quasiArrowDoubleM regularizationNone .upLooking = .ok f ∧
    (∀ t < 2, doubleR.v (f.pivotAt (.tridiag t) 0) < -(1 / 4) ∧ 1 / 4 < doubleR.v (f.pivotAt (.tridiag t) 1)) ∧
    1 / 4 < doubleR.v (f.pivotAt .link 0) ∧ doubleR.v (f.pivotAt .outer 0) < -(1 / 4) := by
  obtain ⟨T, hT, hc⟩ : ∃ T, arrowheadTypes arrowS = .ok T ∧
      ∀ a ∈ blocks 1, ∀ i < arrowD.of a, T.rowEntries 1 a i ≤ 5 ∧ T.colEntries 1 a i < 4 := by
    have h : (do
        let T ← arrowheadTypes arrowS
        return decide (∀ a ∈ blocks 1, ∀ i < arrowD.of a, T.rowEntries 1 a i ≤ 5 ∧ T.colEntries 1 a i < 4)) =
        (.ok true : Res Bool) := by decide +kernel
    obtain ⟨T, hT, h⟩ := bind_eq_ok.mp h
    exact ⟨T, hT, of_decide_eq_true (Except.ok.inj h)⟩
  obtain ⟨f, h1, h2, -⟩ := C75_repeating doubleR arrowS arrowD arrowS_valid T 1 _ (C21_constructible arrowS arrowD T hT 1 0)
    quasiArrowDoubleM ((quasiArrowM_fits hT).map _) .upLooking 5 (fun a ha i hi => (hc a ha i hi).1) 4
    (fun a ha i hi => (hc a ha i hi).2) _ 9 (1 / 4) 1944 _ double_ampleQuasi'
    (fun k hk l hl => ⟨by
      have : ∀ k ∈ positions arrowD 1, ∀ l ∈ positions arrowD 1, (quasiArrowDoubleM.assembled 1 k l).Finite := by
        decide +kernel
      exact this k hk l hl, trivial⟩)
    (by decide +kernel) _ quasiArrowDouble_quasiDef regularizationNone (fun _ _ _ _ => rfl)
  refine ⟨T, f, hT, h1, fun t ht => ⟨?_, ?_⟩, ?_, ?_⟩
  · exact (h2 (.tridiag t) ((by decide : ∀ t < 2, Blk.tridiag t ∈ blocks 1) t ht) 0 (show 0 < 2 by decide)).2.2.1
      fun h => Bool.false_ne_true h
  · exact (h2 (.tridiag t) ((by decide : ∀ t < 2, Blk.tridiag t ∈ blocks 1) t ht) 1 (show 1 < 2 by decide)).2.1 rfl
  · exact (h2 .link (by decide) 0 (by decide)).2.1 (by decide)
  · exact (h2 .outer (by decide) 0 (by decide)).2.2.1 (by decide)

end Ctldl
