import Verif.Lemmas.SolveSingle
import Verif.Props.Range

/-! # C58: systems with definite matrices are solved without overflow -/

namespace Ctldl

open Finset

variable {K F : Type} [Zero K] [Sub K] [Mul K] [Div K] [Field F] [LinearOrder F] [IsStrictOrderedRing F]

/-! ### Single matrices -/

/-- C58: the system with a matrix which is positive definite by a margin is solved without overflow in arithmetic with
rounding: for every right hand side of norm at most `β`, the computed solution is finite, its norm is at most `9 β / μ`,
and its residual is small. All conditions are on the matrix, the right hand side and the arithmetic. -/
theorem C58_single (R : Rounding K F) (s : Sparsity) (p : List Nat) (hv : ValidSparsity s p)
    (f : DiagFactor K) (hf : f.Declared s p) (m : MatIn K) (hm : m.Fits s p) (method : Method)
    (n : Nat) (hn : ∀ i < s.numRows, f.sparsity.rowEntries i ≤ n)
    (c : Nat) (hc : ∀ j < s.numRows, f.sparsity.colEntries j < c)
    (Ω α μ Λ ε β : F) (hR : R.Ample n c Ω α μ Λ ε) (hS : R.AmpleSolve n c Ω α μ Λ β)
    (hfin : ∀ i < s.numRows, ∀ j < s.numRows, R.fin (m.sym i j) ∧ R.stored (m.sym i j))
    (hα : ∀ i < s.numRows, R.v (m.sym i i) ≤ α)
    (hpd : PosDef (range s.numRows) μ fun i j => R.v (m.sym i j) -
      if i = j then R.margin n c s.numRows ε (R.v (m.sym i i)) else 0)
    (reg : K → Nat → K) (hreg : ∀ x i, R.fin x → μ < R.v x → reg x i = x) :
    ∃ f', f.factorize m reg method = .ok f' ∧
      ∀ b : List K, b.length = s.numRows → (∀ i < s.numRows, R.fin (b.getD i 0) ∧ R.stored (b.getD i 0)) →
        ∑ i ∈ range s.numRows, R.v (b.getD i 0) ^ 2 + s.numRows * ((2 + 2 * α * μ) * R.underflow n c ^ 2) ≤ β ^ 2 →
        ∃ x, f'.solveInPlace b = .ok x ∧ x.length = s.numRows ∧ (∀ i < s.numRows, R.fin (x.getD i 0)) ∧
          μ ^ 2 * ∑ i ∈ range s.numRows, R.v (x.getD i 0) ^ 2 ≤ (9 * β) ^ 2 ∧
          let A := fun i j => R.v (m.sym i j)
          let e := R.growth (n + 2) * ((n + 1) * ε)
          let B := fun i j => ((A i i + A j j) / 2 + e) / (1 - R.gamma (n + 2))
          ∀ i < s.numRows, |R.v (b.getD i 0) - ∑ j ∈ range s.numRows, A i j * R.v (x.getD j 0)| ≤
            (R.gamma (n + c + 2) + R.gamma (n + 2)) * ∑ j ∈ range s.numRows, B i j * |R.v (x.getD j 0)| +
            (R.growth (n + c + 2) * R.η * (n + c * ∑ j ∈ range s.numRows, B i j) +
              e * ∑ j ∈ range s.numRows, |R.v (x.getD j 0)|) := by
  have hm1 := fits_single hv hf hm
  obtain ⟨hcl, -⟩ := hf.closed1 hv
  obtain ⟨f', h, hd, hsp, hpiv, hent, hε, h0, hps, hst⟩ := single_forward R hv hf hm method hn hc hR hfin hα hpd
  rw [← hsp] at hn hc
  refine ⟨f', factorize_exchange hcl hm1 h fun i hi y hy => ?_, fun b hb hbfin hβ => ?_⟩
  · subst hy
    exact hreg _ i (hpiv i hi).1 (hpiv i hi).2.1
  have hA : 0 < s.numRows → ∀ i < s.numRows, ∀ j < s.numRows,
      |R.v (m.sym (permAt p i) (permAt p j)) -
        ldlt s.numRows (fun a b => R.v (f'.lower a b)) (fun a => R.v (f'.pivot a)) i j| ≤
      R.gamma (n + 2) * ldlt s.numRows (fun a b => |R.v (f'.lower a b)|) (fun a => |R.v (f'.pivot a)|) i j +
        R.growth (n + 2) * ((n + 1) * ε) := fun hpos => by
    obtain ⟨w, hw, hA⟩ := C46_single_backward_error R s p hv f hf m hm (fun x _ => x) method f' h
      (fun i hi => ⟨(hpiv i hi).1, fun x hx => hx ▸ (hpiv i hi).1⟩) ε (h0 hpos).1 hε n hn
    intro i hi j hj
    have := hA i hi j hj
    rw [← hw i hi, sub_self, sub_self, ite_self, add_zero, add_zero] at this
    exact this
  have hγ : 3 * R.gamma (n + 2) ≤ 1 :=
    (mul_le_mul_of_nonneg_left (R.gamma_mono (by omega)) (by norm_num)).trans hS.gamma
  have ht : 0 < s.numRows → _ := fun hpos => single_tame hv (m := m) hd hc (h0 hpos).1 hγ hR.pos hα hpd
    (fun i hi => (hpiv i hi).2.1) (hA hpos)
  obtain ⟨x, hx, x1, x2, x3⟩ := single_solve hv hd hn hc hR hS (fun hpos => (ht hpos).1)
    (fun i hi => ⟨(hpiv i hi).1, hps i hi⟩) hst hent hb hbfin hβ
  refine ⟨x, hx, x1, x2, x3, ?_⟩
  intro A e B k hk
  have hpos : 0 < s.numRows := by omega
  have hcp := hc k hk
  obtain ⟨c, rfl⟩ : ∃ c', c = c' + 1 := ⟨c - 1, by omega⟩
  obtain ⟨p1, p2, p3⟩ := perm_facts hv.perm
  obtain ⟨i, hi, rfl⟩ := p3 k (mem_range.mpr hk)
  have hi' := mem_range.mp hi
  have h3 := C47_single_solve R s p hv f' hd hst b hb x hx (fun i hi => (hpiv i hi).1) x2 n hn c
    (fun j hj => Nat.le_of_lt_succ (hc j hj)) i hi'
  have hH := fun j hj => (ht hpos).2 i hi' j hj
  have h4 := residual_of_factors (A := fun j => A (permAt p i) (permAt p j)) (B := fun j => B (permAt p i) (permAt p j))
    (c := (c : F) + 1) (γ' := R.gamma (n + 2)) (e := e) (R.gamma_nonneg _) (R.growth_pos _).le h3
    (fun j hj => (hA hpos i hi' j (mem_range.mp hj)).trans
      (add_le_add_left (mul_le_mul_of_nonneg_left (hH j (mem_range.mp hj)) (R.gamma_nonneg _)) _))
    (fun j hj => hH j (mem_range.mp hj))
    (fun j hj => by
      have h5 := single_le_sum (f := fun r => |f'.unit R i r| * |R.v (f'.pivot r)| * |f'.unit R j r|)
        (fun r _ => by positivity) hj
      beta_reduce at h5
      rw [(unitLower_single (R := R) hv hd).one j hj, abs_one, mul_one] at h5
      simp only [DiagFactor.unit_abs] at h5
      have h6 := h5.trans (hH j (mem_range.mp hj))
      have h7 := mul_le_mul_of_nonneg_left h6 (show 0 ≤ ((c : F) + 1) * R.η from mul_nonneg (by positivity) R.η_nonneg)
      linarith)
  rw [← sum_reindex p1 p2 p3 fun l => A (permAt p i) l * R.v (x.getD l 0),
    ← sum_reindex p1 p2 p3 fun l => B (permAt p i) l * |R.v (x.getD l 0)|,
    ← sum_reindex p1 p2 p3 fun l => B (permAt p i) l, ← sum_reindex p1 p2 p3 fun l => |R.v (x.getD l 0)|]
  refine h4.trans (le_of_eq ?_)
  rw [show n + (c + 1) + 2 = n + c + 3 from by omega]
  push_cast
  rfl

/-! ### Repeating block matrices -/

private theorem typesOk {s : ArrowheadSparsity} {T : ArrowheadTypes} {d : Dims} (hs : s.Valid d)
    (hT : arrowheadTypes s = .ok T) : TypesOk s T d := by
  obtain ⟨T', h, h'⟩ := arrowheadTypes_sat hs
  rw [hT] at h
  cases h
  exact h'

/-- C58: the same for repeating block matrices, for all numbers of repetitions. -/
theorem C58_repeating (R : Rounding K F) (s : ArrowheadSparsity) (d : Dims) (hs : s.Valid d) (T : ArrowheadTypes)
    (N : Nat) (f : ArrowheadFactor K) (hf : f.Declared s T d N) (m : ArrowheadMatrix K) (hm : m.Fits s T d N)
    (method : Method)
    (n : Nat) (hn : ∀ a ∈ blocks N, ∀ i < d.of a, T.rowEntries N a i ≤ n)
    (c : Nat) (hc : ∀ a ∈ blocks N, ∀ j < d.of a, T.colEntries N a j < c)
    (Ω α μ Λ ε β : F) (hR : R.Ample n c Ω α μ Λ ε) (hS : R.AmpleSolve n c Ω α μ Λ β)
    (hfin : ∀ k ∈ positions d N, ∀ l ∈ positions d N, R.fin (m.assembled N k l) ∧ R.stored (m.assembled N k l))
    (hα : ∀ k ∈ positions d N, (m.map R.v).assembled N k k ≤ α)
    (hpd : PosDef (positions d N) μ fun k l => (m.map R.v).assembled N k l -
      if k = l then R.margin n c (positions d N).card ε ((m.map R.v).assembled N k k) else 0)
    (reg : K → Nat → K) (hreg : ∀ x i, R.fin x → μ < R.v x → reg x i = x) :
    ∃ f', f.factorize d.tridiag d.link d.outer m reg method = .ok f' ∧
      ∀ b : ArrowheadVector K, b.OfSize d N →
        (∀ a ∈ blocks N, ∀ i < d.of a, R.fin (b.at a i) ∧ R.stored (b.at a i)) →
        ∑ k ∈ positions d N, R.v (b.at k.1 k.2) ^ 2 +
          (positions d N).card * ((2 + 2 * α * μ) * R.underflow n c ^ 2) ≤ β ^ 2 →
        ∃ x, f'.solveInPlace b = .ok x ∧ x.OfSize d N ∧ (∀ a ∈ blocks N, ∀ i < d.of a, R.fin (x.at a i)) ∧
          μ ^ 2 * ∑ k ∈ positions d N, R.v (x.at k.1 k.2) ^ 2 ≤ (9 * β) ^ 2 ∧
          let A := (m.map R.v).assembled N
          let e := R.growth (n + 2) * ((n + 1) * ε)
          let B := fun k l => ((A k k + A l l) / 2 + e) / (1 - R.gamma (n + 2))
          ∀ k ∈ positions d N, |R.v (b.at k.1 k.2) - ∑ l ∈ positions d N, A k l * R.v (x.at l.1 l.2)| ≤
            (R.gamma (n + c + 2) + R.gamma (n + 2)) * ∑ l ∈ positions d N, B k l * |R.v (x.at l.1 l.2)| +
            (R.growth (n + c + 2) * R.η * (n + c * ∑ l ∈ positions d N, B k l) +
              e * ∑ l ∈ positions d N, |R.v (x.at l.1 l.2)|) := by
  have hT := typesOk hs hf.types
  obtain ⟨f', h, hd, hrows⟩ := arrowheadFactorize_sat hs hT hf hm.matrixOk (fun x _ => x) method
  obtain ⟨h1, h2, h3, h4, h5⟩ := arrowhead_forward R hs hf hm h hn hc hR hfin hα hpd
  refine ⟨f', arrowheadFactorize_exchange hs hT hf hm.matrixOk h fun a ha i hi y hy => ?_, fun b hb hbfin hβ => ?_⟩
  · subst hy
    exact hreg _ i (h1 a ha i hi).1 (h1 a ha i hi).2.1
  have hst := ArrowheadFactor.entries_of_chain hd (hrows.quotient R.stored_div (chainPat_ok hT N))
  obtain ⟨x, hx, x1, x2, x3⟩ := arrowhead_solve hs hT hd hn hc hR hS
    (arrowhead_tame R hs hf hm h hn hc hR hS hfin hα hpd) (fun a ha i hi => ⟨(h1 a ha i hi).1, h5 a ha i hi⟩) hst h2 hb hbfin hβ
  refine ⟨x, hx, x1, x2, x3, ?_⟩
  intro A e B k hk
  have hcp := hc _ (mem_positions.mp hk).1 _ (mem_positions.mp hk).2
  obtain ⟨c, rfl⟩ : ∃ c', c = c' + 1 := ⟨c - 1, by omega⟩
  obtain ⟨h6, h7⟩ := h4 ⟨k, hk⟩
  have := C53_residual R s d hs T N f hf m hm (fun x _ => x) method f' h
    (fun a ha i hi => ⟨(h1 a ha i hi).1, fun x hx => hx ▸ (h1 a ha i hi).1⟩) ε h6 h3 n hn c
    (fun a ha j hj => Nat.le_of_lt_succ (hc a ha j hj)) (by have := hR.gamma; push_cast at this; linarith) h7 μ hR.pos.le
    (fun _ _ _ _ => rfl) hpd b hb x hx x2 k hk
  refine this.trans (le_of_eq ?_)
  rw [show n + (c + 1) + 2 = n + c + 3 from by omega]
  push_cast
  rfl

/-! ### Block tridiagonal matrices -/

open Tridiagonal in
/-- C58: the same for the class for block tridiagonal matrices. -/
theorem C58_tridiagonal (R : Rounding K F) (spA spB : Sparsity) (p : List Nat) (n : Nat)
    (h : ValidTridiagonal spA spB p n) (N : Nat) (f : ArrowheadFactor K) (T : ArrowheadTypes)
    (hf : TridiagonalDeclared f spA spB p T n N) (A B : List (MatIn K)) (hm : TridiagonalFits A B p T n N)
    (method : Method)
    (r : Nat) (hr : ∀ i < n, T.tridiagDiag.rowEntries i + T.tridiagSubdiag.rowEntries i ≤ r)
    (c : Nat) (hc : ∀ i < n, T.tridiagDiag.colEntries i + T.tridiagSubdiag.colEntries i < c)
    (Ω α μ Λ ε β : F) (hR : R.Ample r c Ω α μ Λ ε) (hS : R.AmpleSolve r c Ω α μ Λ β)
    (hfin : ∀ k ∈ tridiagonalPositions n N, ∀ l ∈ tridiagonalPositions n N,
      R.fin (tridiagonalAssembled A B k l) ∧ R.stored (tridiagonalAssembled A B k l))
    (hα : ∀ k ∈ tridiagonalPositions n N, tridiagonalAssembled (blockValues R A) (blockValues R B) k k ≤ α)
    (hpd : PosDef (tridiagonalPositions n N) μ fun k l =>
      tridiagonalAssembled (blockValues R A) (blockValues R B) k l -
        if k = l then R.margin r c ((N + 1) * n) ε (tridiagonalAssembled (blockValues R A) (blockValues R B) k k) else 0)
    (reg : K → Nat → K) (hreg : ∀ x i, R.fin x → μ < R.v x → reg x i = x) :
    ∃ f', tridiagonalFactorize n f A B reg method = .ok f' ∧
      ∀ b : List (List K), BlockVector b n N → (∀ t < N + 1, ∀ i < n, R.fin (blockAt b t i) ∧ R.stored (blockAt b t i)) →
        ∑ k ∈ tridiagonalPositions n N, R.v (blockAt b k.1 k.2) ^ 2 +
          ((N + 1) * n : Nat) * ((2 + 2 * α * μ) * R.underflow r c ^ 2) ≤ β ^ 2 →
        ∃ x, tridiagonalSolveInPlace f' b = .ok x ∧ BlockVector x n N ∧ (∀ t < N + 1, ∀ i < n, R.fin (blockAt x t i)) ∧
          μ ^ 2 * ∑ k ∈ tridiagonalPositions n N, R.v (blockAt x k.1 k.2) ^ 2 ≤ (9 * β) ^ 2 ∧
          let A := tridiagonalAssembled (blockValues R A) (blockValues R B)
          let e := R.growth (r + 2) * ((r + 1) * ε)
          let B := fun k l => ((A k k + A l l) / 2 + e) / (1 - R.gamma (r + 2))
          ∀ k ∈ tridiagonalPositions n N,
            |R.v (blockAt b k.1 k.2) - ∑ l ∈ tridiagonalPositions n N, A k l * R.v (blockAt x l.1 l.2)| ≤
              (R.gamma (r + c + 2) + R.gamma (r + 2)) * ∑ l ∈ tridiagonalPositions n N, B k l * |R.v (blockAt x l.1 l.2)| +
              (R.growth (r + c + 2) * R.η * (r + c * ∑ l ∈ tridiagonalPositions n N, B k l) +
                e * ∑ l ∈ tridiagonalPositions n N, |R.v (blockAt x l.1 l.2)|) := by
  have hd := declared_of h hf
  have hpd' : PosDef (positions ⟨0, n, 0, 0⟩ N) μ fun k l => ((tridiagonalMatrix n N A B).map R.v).assembled N k l -
      if k = l then R.margin r c (positions ⟨0, n, 0, 0⟩ N).card ε
        (((tridiagonalMatrix n N A B).map R.v).assembled N k k) else 0 := by
    rw [card_positions]
    exact reduced_posDef hm.numB hpd
  have hrow := blocks_cases (n := n) (N := N) (P := fun a i => T.rowEntries N a i ≤ r) fun t ht i hi =>
    (rowEntries_le h hd.types N t i).trans (hr i hi)
  have hcol := blocks_cases (n := n) (N := N) (P := fun a i => T.colEntries N a i < c) fun t ht i hi =>
    (colEntries_le h hd.types N t i).trans_lt (hc i hi)
  have hfin' := assembled_finite (P := fun y => R.fin y ∧ R.stored y) hm.numB hfin
  have hα' := assembled_le hm.numB hα
  obtain ⟨f', h1, h2⟩ := C58_repeating R _ _ (emptied_valid h) T N f hd _ (fits_of hm) method r hrow c hcol Ω α μ Λ ε β hR hS
    hfin' hα' hpd' reg hreg
  refine ⟨f', by rw [factorize_eq hd]; exact h1, fun b hb hbfin hβ => ?_⟩
  obtain ⟨y, h3, h4, h5, h6, h7⟩ := h2 ⟨[], b, [], []⟩ (vector_of hb) (blocks_cases hbfin) (by
    rw [sum_positions, card_positions]
    exact hβ)
  refine ⟨y.tridiag, ?_, ⟨h4.num, h4.tridiag⟩, fun t ht i hi => h5 _ (tridiag_mem ht) i hi, ?_, ?_⟩
  · unfold tridiagonalSolveInPlace
    rw [h3]
    rfl
  · rw [sum_positions] at h6
    exact h6
  intro A' e B' k hk
  have h8 := h7 _ (position_mem hk)
  have hsym : ∀ k ∈ tridiagonalPositions n N, ∀ l ∈ tridiagonalPositions n N,
      ((tridiagonalMatrix n N A B).map R.v).assembled N ⟨.tridiag k.1, k.2⟩ ⟨.tridiag l.1, l.2⟩ = A' k l :=
    fun k hk l hl => by
    rw [matrix_map]
    exact symElement_eq (by rw [List.length_map]; exact hm.numB) (mem_positions'.mp hk).1 (mem_positions'.mp hl).1 _ _
  simp only [sum_positions] at h8
  have e1 : ∑ l ∈ tridiagonalPositions n N, A' k l * R.v (blockAt y.tridiag l.1 l.2) =
      ∑ l ∈ tridiagonalPositions n N, ((tridiagonalMatrix n N A B).map R.v).assembled N ⟨.tridiag k.1, k.2⟩
        ⟨.tridiag l.1, l.2⟩ * R.v (y.at (.tridiag l.1) l.2) :=
    sum_congr rfl fun l hl => by rw [hsym k hk l hl]; rfl
  have hB : ∀ l ∈ tridiagonalPositions n N, B' k l =
      ((((tridiagonalMatrix n N A B).map R.v).assembled N ⟨.tridiag k.1, k.2⟩ ⟨.tridiag k.1, k.2⟩ +
        ((tridiagonalMatrix n N A B).map R.v).assembled N ⟨.tridiag l.1, l.2⟩ ⟨.tridiag l.1, l.2⟩) / 2 + e) /
        (1 - R.gamma (r + 2)) := fun l hl => by
    rw [hsym k hk k hk, hsym l hl l hl]
  have e2 : ∑ l ∈ tridiagonalPositions n N, B' k l * |R.v (blockAt y.tridiag l.1 l.2)| = ∑ l ∈ tridiagonalPositions n N,
      ((((tridiagonalMatrix n N A B).map R.v).assembled N ⟨.tridiag k.1, k.2⟩ ⟨.tridiag k.1, k.2⟩ +
        ((tridiagonalMatrix n N A B).map R.v).assembled N ⟨.tridiag l.1, l.2⟩ ⟨.tridiag l.1, l.2⟩) / 2 + e) /
        (1 - R.gamma (r + 2)) * |R.v (y.at (.tridiag l.1) l.2)| :=
    sum_congr rfl fun l hl => by rw [hB l hl]; rfl
  rw [e1, e2, sum_congr rfl hB]
  exact h8

/-! ### Cases meeting the hypotheses, in IEEE double precision

No part of the factorization or solution is evaluated: they hold for all right hand sides of doubles up to `2 ^ 990`. -/

/-- A bound of the entries of right hand sides. -/
def hugeRat : ℚ := 2 ^ (990 : Int)

/-- A bound of the norm of right hand sides. -/
def hugeNorm : ℚ := 2 ^ (1000 : Int)

theorem double_ampleSolve : doubleR.AmpleSolve 2 3 (2 ^ (1023 : Int)) 5 (1 / 2) 4 hugeNorm where
  gamma := by decide +kernel
  condition := by decide +kernel
  nonneg := by decide +kernel
  max := by decide +kernel
  max_div := by decide +kernel

theorem double_ampleSolve' : doubleR.AmpleSolve 5 4 (2 ^ (1023 : Int)) 7 (1 / 20) 12 hugeNorm where
  gamma := by decide +kernel
  condition := by decide +kernel
  nonneg := by decide +kernel
  max := by decide +kernel
  max_div := by decide +kernel

theorem sum_sq_le {ι : Type} {s : Finset ι} {g : ι → ℚ} {h : ℚ} (hg : ∀ i ∈ s, |g i| ≤ h) :
    ∑ i ∈ s, g i ^ 2 ≤ s.card * h ^ 2 := by
  rw [← nsmul_eq_mul]
  refine sum_le_card_nsmul _ _ _ fun i hi => ?_
  rw [← sq_abs (g i)]
  exact pow_le_pow_left₀ (abs_nonneg _) (hg i hi) 2

example : ∃ f', (witnessF.map (Binary.ofRat .binary64 false)).factorize definiteDoubleM regularizationNone .upLooking = .ok f' ∧
    ∀ b : List Double, b.length = 3 → (∀ i < 3, (b.getD i 0).Finite ∧ |doubleR.v (b.getD i 0)| ≤ hugeRat) →
      ∃ x, f'.solveInPlace b = .ok x ∧ ∀ i < 3, (x.getD i 0).Finite := by
  have hc : ∀ i < 3, witnessF.sparsity.rowEntries i ≤ 2 ∧ witnessF.sparsity.colEntries i < 3 := by decide
  obtain ⟨f', h1, h2⟩ := C58_single doubleR witnessS [0, 2, 1] witness_valid _
    (show (witnessF.map (Binary.ofRat .binary64 false)).Declared witnessS [0, 2, 1] from
      ⟨witness_declared.pattern, rfl, rfl, rfl⟩) definiteDoubleM
    ⟨rfl, witness_valid.inRange, rfl, rfl, fun i j h => .base h h.1⟩ .upLooking 2 (fun i hi => (hc i hi).1) 3
    (fun i hi => (hc i hi).2) _ 5 (1 / 2) 4 _ hugeNorm double_ample double_ampleSolve
    (fun i hi j hj => ⟨by
      have : ∀ i < 3, ∀ j < 3, (definiteDoubleM.sym i j).Finite := by decide +kernel
      exact this i hi j hj, trivial⟩)
    (by
      have : ∀ i < 3, doubleR.v (definiteDoubleM.sym i i) ≤ 5 := by decide +kernel
      exact this)
    (reducedM_posDef.mono (fun i hi j hj hij => by
      rw [if_neg hij, sub_zero]
      have : ∀ i < 3, ∀ j < 3, i ≠ j → reducedM.sym i j = doubleR.v (definiteDoubleM.sym i j) := by decide +kernel
      exact this i (mem_range.mp hi) j (mem_range.mp hj) hij) fun i hi => by
      rw [if_pos rfl]
      have : ∀ i < 3, reducedM.sym i i ≤ doubleR.v (definiteDoubleM.sym i i) -
        doubleR.margin 2 3 3 (2 ^ (-1068 : Int)) (doubleR.v (definiteDoubleM.sym i i)) := by decide +kernel
      exact this i (mem_range.mp hi)) regularizationNone (fun _ _ _ _ => rfl)
  refine ⟨f', h1, fun b hb hbf => ?_⟩
  obtain ⟨x, hx, -, h3, -⟩ := h2 b hb (fun i hi => ⟨(hbf i hi).1, trivial⟩) (by
    have h4 := sum_sq_le (s := range 3) fun i hi => (hbf i (mem_range.mp hi)).2
    rw [card_range] at h4
    have h5 : (3 : Nat) * hugeRat ^ 2 + (3 : Nat) * ((2 + 2 * 5 * (1 / 2)) * doubleR.underflow 2 3 ^ 2) ≤ hugeNorm ^ 2 := by
      decide +kernel
    exact (add_le_add_left h4 _).trans h5)
  exact ⟨x, hx, h3⟩

theorem doubleM_posDef : PosDef (positions arrowD 1) (1 / 20) fun k l => (doubleM.map doubleR.v).assembled 1 k l -
      if k = l then doubleR.margin 5 4 (positions arrowD 1).card (2 ^ (-1064 : Int))
        ((doubleM.map doubleR.v).assembled 1 k k) else 0 := by
  have hpd : PosDef (positions arrowD 1) (0 + 1 / 20) fun k l => (doubleM.map doubleR.v).assembled 1 k l -
      if k = l then doubleR.margin 5 4 (positions arrowD 1).card (2 ^ (-1064 : Int))
        ((doubleM.map doubleR.v).assembled 1 k k) else 0 := by
    refine reducedArrow_posDef.shift (fun k hk l hl hne => ?_) fun k hk => ?_
    · rw [if_neg hne, sub_zero]
      have : ∀ k ∈ positions arrowD 1, ∀ l ∈ positions arrowD 1, k ≠ l →
          reducedArrowM.assembled 1 k l = (doubleM.map doubleR.v).assembled 1 k l := by decide +kernel
      exact this k hk l hl hne
    · rw [if_pos rfl]
      have : ∀ k ∈ positions arrowD 1, reducedArrowM.assembled 1 k k + 1 / 20 ≤ (doubleM.map doubleR.v).assembled 1 k k -
          doubleR.margin 5 4 (positions arrowD 1).card (2 ^ (-1064 : Int))
            ((doubleM.map doubleR.v).assembled 1 k k) := by decide +kernel
      exact this k hk
  rw [zero_add] at hpd
  exact hpd

theorem tridiagDouble_posDef : PosDef (tridiagonalPositions 2 2) (1 / 20) fun k l =>
      tridiagonalAssembled (blockValues doubleR (tridiagDouble tridiagValuesA))
        (blockValues doubleR (tridiagDouble tridiagValuesB)) k l -
        if k = l then doubleR.margin 5 4 ((2 + 1) * 2) (2 ^ (-1064 : Int))
          (tridiagonalAssembled (blockValues doubleR (tridiagDouble tridiagValuesA))
            (blockValues doubleR (tridiagDouble tridiagValuesB)) k k) else 0 := by
  have hpd : PosDef (tridiagonalPositions 2 2) (0 + 1 / 20) fun k l =>
      tridiagonalAssembled (blockValues doubleR (tridiagDouble tridiagValuesA))
        (blockValues doubleR (tridiagDouble tridiagValuesB)) k l -
        if k = l then doubleR.margin 5 4 ((2 + 1) * 2) (2 ^ (-1064 : Int))
          (tridiagonalAssembled (blockValues doubleR (tridiagDouble tridiagValuesA))
            (blockValues doubleR (tridiagDouble tridiagValuesB)) k k) else 0 := by
    refine tridiagReduced_posDef.shift (fun k hk l hl hne => ?_) fun k hk => ?_
    · rw [if_neg hne, sub_zero]
      have : ∀ k ∈ tridiagonalPositions 2 2, ∀ l ∈ tridiagonalPositions 2 2, k ≠ l →
        tridiagonalAssembled (tridiagReduced tridiagValuesA) (tridiagReduced tridiagValuesB) k l =
          tridiagonalAssembled (blockValues doubleR (tridiagDouble tridiagValuesA))
            (blockValues doubleR (tridiagDouble tridiagValuesB)) k l := by decide +kernel
      exact this k hk l hl hne
    · rw [if_pos rfl]
      have : ∀ k ∈ tridiagonalPositions 2 2,
        tridiagonalAssembled (tridiagReduced tridiagValuesA) (tridiagReduced tridiagValuesB) k k + 1 / 20 ≤
          tridiagonalAssembled (blockValues doubleR (tridiagDouble tridiagValuesA))
            (blockValues doubleR (tridiagDouble tridiagValuesB)) k k - doubleR.margin 5 4 ((2 + 1) * 2) (2 ^ (-1064 : Int))
            (tridiagonalAssembled (blockValues doubleR (tridiagDouble tridiagValuesA))
              (blockValues doubleR (tridiagDouble tridiagValuesB)) k k) := by decide +kernel
      exact this k hk
  rw [zero_add] at hpd
  exact hpd

example : ∃ T f, arrowheadTypes arrowS = .ok T ∧
    (freshFactor arrowS T arrowD 1 (0 : Double)).factorize 2 1 1 doubleM regularizationNone .upLooking = .ok f ∧
    ∀ b : ArrowheadVector Double, b.OfSize arrowD 1 →
      (∀ a ∈ blocks 1, ∀ i < arrowD.of a, (b.at a i).Finite ∧ |doubleR.v (b.at a i)| ≤ hugeRat) →
      ∃ x, f.solveInPlace b = .ok x ∧ ∀ a ∈ blocks 1, ∀ i < arrowD.of a, (x.at a i).Finite := by
  obtain ⟨T, hT, hc⟩ : ∃ T, arrowheadTypes arrowS = .ok T ∧
      ∀ a ∈ blocks 1, ∀ i < arrowD.of a, T.rowEntries 1 a i ≤ 5 ∧ T.colEntries 1 a i < 4 := by
    have h : (do
        let T ← arrowheadTypes arrowS
        return decide (∀ a ∈ blocks 1, ∀ i < arrowD.of a, T.rowEntries 1 a i ≤ 5 ∧ T.colEntries 1 a i < 4)) =
        (.ok true : Res Bool) := by decide +kernel
    obtain ⟨T, hT, h⟩ := bind_eq_ok.mp h
    exact ⟨T, hT, of_decide_eq_true (Except.ok.inj h)⟩
  obtain ⟨f, h1, h2⟩ := C58_repeating doubleR arrowS arrowD arrowS_valid T 1 _ (C21_constructible arrowS arrowD T hT 1 0)
    doubleM ((arrowM_fits hT).map _) .upLooking 5 (fun a ha i hi => (hc a ha i hi).1) 4 (fun a ha i hi => (hc a ha i hi).2)
    _ 7 (1 / 20) 12 _ hugeNorm double_ample' double_ampleSolve'
    (fun k hk l hl => ⟨by
      have : ∀ k ∈ positions arrowD 1, ∀ l ∈ positions arrowD 1, (doubleM.assembled 1 k l).Finite := by decide +kernel
      exact this k hk l hl, trivial⟩)
    (by decide +kernel)
    doubleM_posDef regularizationNone (fun _ _ _ _ => rfl)
  refine ⟨T, f, hT, h1, fun b hb hbf => ?_⟩
  obtain ⟨x, hx, -, h3, -⟩ := h2 b hb (fun a ha i hi => ⟨(hbf a ha i hi).1, trivial⟩) (by
    have h4 := sum_sq_le (s := positions arrowD 1) fun k hk => (hbf _ (mem_positions.mp hk).1 _ (mem_positions.mp hk).2).2
    have h5 : (positions arrowD 1).card * hugeRat ^ 2 +
        (positions arrowD 1).card * ((2 + 2 * 7 * (1 / 20)) * doubleR.underflow 5 4 ^ 2) ≤ hugeNorm ^ 2 := by
      decide +kernel
    exact (add_le_add_left h4 _).trans h5)
  exact ⟨x, hx, h3⟩

/-- Also those of C57 and C58 on block tridiagonal matrices. -/
example : ∃ s T f, tridiagonalSparsity tridiagA tridiagB [1, 0] = .ok s ∧ arrowheadTypes s = .ok T ∧
    tridiagonalFactorize 2 (freshFactor s T ⟨0, 2, 0, 0⟩ 2 (0 : Double)) (tridiagDouble tridiagValuesA)
      (tridiagDouble tridiagValuesB) regularizationNone .entryWise = .ok f ∧
    ∀ b : List (List Double), BlockVector b 2 2 →
      (∀ t < 3, ∀ i < 2, (blockAt b t i).Finite ∧ |doubleR.v (blockAt b t i)| ≤ hugeRat) →
      ∃ x, tridiagonalSolveInPlace f b = .ok x ∧ ∀ t < 3, ∀ i < 2, (blockAt x t i).Finite := by
  obtain ⟨s, T, hs, hT, hc⟩ : ∃ s T, tridiagonalSparsity tridiagA tridiagB [1, 0] = .ok s ∧ arrowheadTypes s = .ok T ∧
      ∀ i < 2, T.tridiagDiag.rowEntries i + T.tridiagSubdiag.rowEntries i ≤ 5 ∧
        T.tridiagDiag.colEntries i + T.tridiagSubdiag.colEntries i < 4 := by
    have h : (do
        let s ← tridiagonalSparsity tridiagA tridiagB [1, 0]
        let T ← arrowheadTypes s
        return (List.range 2).all fun i => decide (T.tridiagDiag.rowEntries i + T.tridiagSubdiag.rowEntries i ≤ 5) &&
          decide (T.tridiagDiag.colEntries i + T.tridiagSubdiag.colEntries i < 4)) =
        (.ok true : Res Bool) := by decide +kernel
    obtain ⟨s, hs, h⟩ := bind_eq_ok.mp h
    obtain ⟨T, hT, h⟩ := bind_eq_ok.mp h
    have h' := Except.ok.inj h
    simp only [List.all_eq_true, List.mem_range, Bool.and_eq_true, decide_eq_true_eq] at h'
    exact ⟨s, T, hs, hT, h'⟩
  have hd : TridiagonalDeclared (freshFactor s T ⟨0, 2, 0, 0⟩ 2 (0 : Double)) tridiagA tridiagB [1, 0] T 2 2 :=
    ⟨s, hs, C21_constructible s _ T hT 2 0⟩
  obtain ⟨f, h1, h2⟩ := C58_tridiagonal doubleR tridiagA tridiagB [1, 0] 2 tridiag_valid 2 _ T hd (tridiagDouble tridiagValuesA)
    (tridiagDouble tridiagValuesB) (tridiag_fits _ hd) .entryWise 5 (fun i hi => (hc i hi).1) 4 (fun i hi => (hc i hi).2)
    _ 7 (1 / 20) 12 _ hugeNorm double_ample' double_ampleSolve'
    (fun k hk l hl => ⟨by
      have : ∀ k ∈ tridiagonalPositions 2 2, ∀ l ∈ tridiagonalPositions 2 2,
        (tridiagonalAssembled (tridiagDouble tridiagValuesA) (tridiagDouble tridiagValuesB) k l).Finite := by decide +kernel
      exact this k hk l hl, trivial⟩)
    (by decide +kernel)
    tridiagDouble_posDef regularizationNone (fun _ _ _ _ => rfl)
  refine ⟨s, T, f, hs, hT, h1, fun b hb hbf => ?_⟩
  obtain ⟨x, hx, -, h3, -⟩ := h2 b hb (fun t ht i hi => ⟨(hbf t ht i hi).1, trivial⟩) (by
    have h4 := sum_sq_le (s := tridiagonalPositions 2 2) (g := fun k => doubleR.v (blockAt b k.1 k.2)) fun k hk =>
      (hbf _ (Tridiagonal.mem_positions'.mp hk).1 _ (Tridiagonal.mem_positions'.mp hk).2).2
    have h5 : (tridiagonalPositions 2 2).card * hugeRat ^ 2 +
        ((2 + 1) * 2 : Nat) * ((2 + 2 * 7 * (1 / 20)) * doubleR.underflow 5 4 ^ 2) ≤ hugeNorm ^ 2 := by
      decide +kernel
    exact (add_le_add_left h4 _).trans h5)
  exact ⟨x, hx, h3⟩

end Ctldl
