import Verif.Lemmas.ForwardArrowhead
import Verif.Lemmas.ForwardSingle
import Verif.Lemmas.Range
import Verif.Lemmas.Inactive
import Verif.Props.DefiniteRounding
import Verif.Props.TridiagonalRounding
import Verif.Props.Factorize

/-! # C57: factorizations of definite matrices do not overflow -/

namespace Ctldl

open Finset

variable {K F : Type} [Zero K] [Sub K] [Mul K] [Div K] [Field F] [LinearOrder F] [IsStrictOrderedRing F]

/-! ### Single matrices -/

/-- The factorization without regularization. -/
theorem single_forward (R : Rounding K F) {s : Sparsity} {p : List Nat} (hv : ValidSparsity s p)
    {f : DiagFactor K} (hf : f.Declared s p) {m : MatIn K} (hm : m.Fits s p) (method : Method)
    {n : Nat} (hn : ∀ i < s.numRows, f.sparsity.rowEntries i ≤ n)
    {c : Nat} (hc : ∀ j < s.numRows, f.sparsity.colEntries j < c)
    {Ω α μ Λ ε : F} (hR : R.Ample n c Ω α μ Λ ε)
    (hfin : ∀ i < s.numRows, ∀ j < s.numRows, R.fin (m.sym i j) ∧ R.stored (m.sym i j))
    (hα : ∀ i < s.numRows, R.v (m.sym i i) ≤ α)
    (hpd : PosDef (range s.numRows) μ fun i j => R.v (m.sym i j) -
      if i = j then R.margin n c s.numRows ε (R.v (m.sym i i)) else 0) :
    ∃ f', f.factorize m (fun x _ => x) method = .ok f' ∧ f'.Declared s p ∧ f'.sparsity = f.sparsity ∧
      (∀ i < s.numRows, R.fin (f'.pivot i) ∧ μ < R.v (f'.pivot i) ∧ R.v (f'.pivot i) ≤ 3 * α) ∧
      f'.Entries (fun y => R.fin y ∧ |R.v y| ≤ Λ) ∧
      (∀ i j, f'.sparsity.toSparsity.Has i j → R.η * (1 + |R.v (f'.pivot j)| * (1 + |R.v (f'.lower i j)|)) ≤ ε) ∧
      (0 < s.numRows → 0 ≤ ε ∧ R.gamma (n + 2) < 1) ∧ (∀ i < s.numRows, R.stored (f'.pivot i)) ∧ f'.Entries R.stored := by
  classical
  obtain ⟨hcl, -⟩ := hf.closed1 hv
  have hm1 := fits_single hv hf hm
  obtain ⟨f', h, hd⟩ := C25_factorize_total s p hv f hf m hm (fun x _ => x) method
  obtain ⟨L, D, rfl, hL, hD, hrows⟩ := Sat.of_ok (factorize_sat hcl hm1 (fun x _ => x) method) h
  obtain ⟨w, hE⟩ := single_elim hcl hm1 (r := n) (fun i hi => by rw [← Csr.rowEntries_eq]; exact hn i hi) hrows
  obtain ⟨p1, p2, p3⟩ := perm_facts hv.perm
  have hB : Elim.Bounds R (range s.numRows) f.sparsity.Has
      (fun i j => m.sym (permAt f.permutation i) (permAt f.permutation j)) n c Ω α μ Λ ε
      (R.growth (n + 2) * ((n + 1) * ε)) := by
    rw [hf.perm]
    refine ⟨hR.range, ?_, ?_, ?_, hR.alpha, hR.pos, hR.nonneg, hR.entry, hR.small, rfl, ?_, hR.gamma, ?_, hR.max,
      hR.max_div⟩
    · exact fun i hi j hj => (hfin _ (mem_range.mp (p1 i hi)) _ (mem_range.mp (p1 j hj))).1
    · exact fun i hi j hj => (hfin _ (mem_range.mp (p1 i hi)) _ (mem_range.mp (p1 j hj))).2
    · exact fun i hi => hα _ (mem_range.mp (p1 i hi))
    · intro r hr t ht hh
      refine le_trans (card_le_card fun i hi => ?_) ((card_col_single (F := ℚ) (c := f.sparsity)
        (l := fun i j => if f.sparsity.Has i j then 1 else 0) (fun i j hij => ?_) s.numRows r).trans (hc r (mem_range.mp hr)))
      · refine mem_filter.mpr ⟨ht hi, ?_⟩
        rcases hh i hi with rfl | hi'
        · rw [unitLower_self]
          exact one_ne_zero
        · rw [unitLower]
          split
          · exact one_ne_zero
          · exact one_ne_zero
      · by_contra hn'
        exact hij (if_neg hn')
    · refine (hpd.reindex p1 p2 p3).congr fun i hi j hj => ?_
      congr 1
      by_cases hij : i = j
      · subst hij
        rw [if_pos rfl, if_pos rfl, card_range]
        rfl
      · rw [if_neg hij, if_neg fun h => hij (p2 i hi j hj h)]
  have hrow := hE.rows hB
  have hpiv : ∀ i < s.numRows, R.fin (D.getD i 0) ∧ μ < R.v (D.getD i 0) ∧ R.v (D.getD i 0) ≤ 3 * α := fun i hi =>
    ⟨(hrow i (mem_range.mpr hi)).fin, (hrow i (mem_range.mpr hi)).pos, (hrow i (mem_range.mpr hi)).le⟩
  have hent : ∀ i j, f.sparsity.Has i j → R.fin (val f.sparsity L i j) ∧ |R.v (val f.sparsity L i j)| ≤ Λ := by
    intro i j hij
    have := (hrow i (mem_range.mpr (hcl.ok.rows ▸ hcl.ok.good.row_lt hij))).entry j hij
    exact ⟨this.fin, this.le⟩
  refine ⟨_, h, hd, rfl, hpiv, hent, ?_, fun h0 => ?_, fun i hi => (hrow i (mem_range.mpr hi)).stored, ?_⟩
  · intro i j hij
    refine le_trans (mul_le_mul_of_nonneg_left ?_ R.η_nonneg) hR.small
    have hj := hpiv j (hcl.ok.cols ▸ hcl.ok.good.col_lt hij)
    have h1 : |R.v (D.getD j 0)| ≤ 3 * α := by
      rw [abs_of_pos (hR.pos.trans hj.2.1)]
      exact hj.2.2
    have := mul_le_mul h1 (add_le_add_right (hent i j hij).2 1) (by positivity) (by have := hR.alpha; positivity)
    exact add_le_add_right this 1
  · have hF := hE.facts hB (i₀ := 0) (mem_range.mpr h0)
    exact ⟨hF.ε0, hF.gamma1⟩
  · intro i j hij
    have := (hE.quot (i := i) (j := j) hij)
    show R.stored (val f.sparsity L i j)
    rw [this]
    exact R.stored_div _ _

/-- C57: the factorization of a matrix which is positive definite by a margin does not overflow and does not break down in
arithmetic with rounding: the pivots are finite and positive, the entries of the factor are finite and bounded, the
regularization does not change anything, and the product of the factors is close to the matrix. All conditions are on the
matrix and the arithmetic. -/
theorem C57_single (R : Rounding K F) (s : Sparsity) (p : List Nat) (hv : ValidSparsity s p)
    (f : DiagFactor K) (hf : f.Declared s p) (m : MatIn K) (hm : m.Fits s p) (method : Method)
    (n : Nat) (hn : ∀ i < s.numRows, f.sparsity.rowEntries i ≤ n)
    (c : Nat) (hc : ∀ j < s.numRows, f.sparsity.colEntries j < c)
    (Ω α μ Λ ε : F) (hR : R.Ample n c Ω α μ Λ ε)
    (hfin : ∀ i < s.numRows, ∀ j < s.numRows, R.fin (m.sym i j) ∧ R.stored (m.sym i j))
    (hα : ∀ i < s.numRows, R.v (m.sym i i) ≤ α)
    (hpd : PosDef (range s.numRows) μ fun i j => R.v (m.sym i j) -
      if i = j then R.margin n c s.numRows ε (R.v (m.sym i i)) else 0)
    (reg : K → Nat → K) (hreg : ∀ x i, R.fin x → μ < R.v x → reg x i = x) :
    ∃ f', f.factorize m reg method = .ok f' ∧
      (∀ i < s.numRows, R.fin (f'.pivot i) ∧ μ < R.v (f'.pivot i) ∧ R.v (f'.pivot i) ≤ 3 * α) ∧
      f'.Entries (fun y => R.fin y ∧ |R.v y| ≤ Λ) ∧
      ∀ i < s.numRows, ∀ j < s.numRows,
        |R.v (m.sym (permAt p i) (permAt p j)) -
            ldlt s.numRows (fun a b => R.v (f'.lower a b)) (fun a => R.v (f'.pivot a)) i j| ≤
          R.gamma (n + 2) / (1 - R.gamma (n + 2)) *
            ((R.v (m.sym (permAt p i) (permAt p i)) + R.v (m.sym (permAt p j) (permAt p j))) / 2 +
              R.growth (n + 2) * ((n + 1) * ε)) + R.growth (n + 2) * ((n + 1) * ε) := by
  have hm1 := fits_single hv hf hm
  obtain ⟨hcl, -⟩ := hf.closed1 hv
  obtain ⟨f', h, -, hsp, hpiv, hent, hε, h0, -⟩ := single_forward R hv hf hm method hn hc hR hfin hα hpd
  refine ⟨f', factorize_exchange hcl hm1 h fun i hi y hy => ?_, hpiv, hent, ?_⟩
  · subst hy
    exact hreg _ i (hpiv i hi).1 (hpiv i hi).2.1
  intro i hi j hj
  obtain ⟨h1, h2⟩ := h0 (by omega)
  exact (C53_single R s p hv f hf m hm (fun x _ => x) method _ h
    (fun i hi => ⟨(hpiv i hi).1, fun x hx => hx ▸ (hpiv i hi).1⟩) ε h1 hε n (by rw [hsp]; exact hn) c (by rw [hsp]; exact hc)
    hR.gamma h2 μ hR.pos.le (fun _ _ _ _ => rfl) hpd).2 i hi j hj

/-! ### Repeating block matrices -/

private theorem typesOk {s : ArrowheadSparsity} {T : ArrowheadTypes} {d : Dims} (hs : s.Valid d)
    (hT : arrowheadTypes s = .ok T) : TypesOk s T d := by
  obtain ⟨T', h, h'⟩ := arrowheadTypes_sat hs
  rw [hT] at h
  cases h
  exact h'

/-- C57: the same for repeating block matrices, for all numbers of repetitions. -/
theorem C57_repeating (R : Rounding K F) (s : ArrowheadSparsity) (d : Dims) (hs : s.Valid d) (T : ArrowheadTypes)
    (N : Nat) (f : ArrowheadFactor K) (hf : f.Declared s T d N) (m : ArrowheadMatrix K) (hm : m.Fits s T d N)
    (method : Method)
    (n : Nat) (hn : ∀ a ∈ blocks N, ∀ i < d.of a, T.rowEntries N a i ≤ n)
    (c : Nat) (hc : ∀ a ∈ blocks N, ∀ j < d.of a, T.colEntries N a j < c)
    (Ω α μ Λ ε : F) (hR : R.Ample n c Ω α μ Λ ε)
    (hfin : ∀ k ∈ positions d N, ∀ l ∈ positions d N, R.fin (m.assembled N k l) ∧ R.stored (m.assembled N k l))
    (hα : ∀ k ∈ positions d N, (m.map R.v).assembled N k k ≤ α)
    (hpd : PosDef (positions d N) μ fun k l => (m.map R.v).assembled N k l -
      if k = l then R.margin n c (positions d N).card ε ((m.map R.v).assembled N k k) else 0)
    (reg : K → Nat → K) (hreg : ∀ x i, R.fin x → μ < R.v x → reg x i = x) :
    ∃ f', f.factorize d.tridiag d.link d.outer m reg method = .ok f' ∧
      (∀ a ∈ blocks N, ∀ i < d.of a,
        R.fin (f'.pivotAt a i) ∧ μ < R.v (f'.pivotAt a i) ∧ R.v (f'.pivotAt a i) ≤ 3 * α) ∧
      f'.Entries (fun y => R.fin y ∧ |R.v y| ≤ Λ) ∧
      ∀ a ∈ blocks N, ∀ b ∈ blocks N, ∀ i < d.of a, ∀ j < d.of b,
        let A := fun a i b j => (m.map R.v).symElement N a b (permAt (s.perm a) i) (permAt (s.perm b) j)
        |A a i b j - (f'.map R.v).ldlt d N a b i j| ≤
          R.gamma (n + 2) / (1 - R.gamma (n + 2)) *
            ((A a i a i + A b j b j) / 2 + R.growth (n + 2) * ((n + 1) * ε)) +
            R.growth (n + 2) * ((n + 1) * ε) := by
  have hT := typesOk hs hf.types
  obtain ⟨f', h, -⟩ := arrowheadFactorize_sat hs hT hf hm.matrixOk (fun x _ => x) method
  obtain ⟨h1, h2, h3, h4, -⟩ := arrowhead_forward R hs hf hm h hn hc hR hfin hα hpd
  refine ⟨f', arrowheadFactorize_exchange hs hT hf hm.matrixOk h fun a ha i hi y hy => ?_, h1, h2, ?_⟩
  · subst hy
    exact hreg _ i (h1 a ha i hi).1 (h1 a ha i hi).2.1
  intro a ha b hb i hi j hj
  obtain ⟨h5, h6⟩ := h4 ⟨⟨a, i⟩, mem_positions.mpr ⟨ha, hi⟩⟩
  refine (C53_repeating R s d hs T N f hf m hm (fun x _ => x) method f' h (fun a ha i hi => ⟨(h1 a ha i hi).1, ?_⟩) ε h5 h3 n
    hn c hc hR.gamma h6 μ hR.pos.le (fun _ _ _ _ => rfl) hpd).2 a ha b hb i hi j hj
  intro x hx
  rw [← hx]
  exact (h1 a ha i hi).1

/-! ### Block tridiagonal matrices -/

section

open Tridiagonal

variable {A B : List (MatIn K)} {n N : Nat}

theorem assembled_finite {P : K → Prop} (hB : N ≤ B.length)
    (h : ∀ k ∈ tridiagonalPositions n N, ∀ l ∈ tridiagonalPositions n N, P (tridiagonalAssembled A B k l)) :
    ∀ k ∈ positions ⟨0, n, 0, 0⟩ N, ∀ l ∈ positions ⟨0, n, 0, 0⟩ N, P ((tridiagonalMatrix n N A B).assembled N k l) := by
  intro x hx y hy
  obtain ⟨k, hk, rfl⟩ := position_cases hx
  obtain ⟨l, hl, rfl⟩ := position_cases hy
  have h1 := symElement_eq (A := A) (n := n) hB (mem_positions'.mp hk).1 (mem_positions'.mp hl).1 k.2 l.2
  unfold ArrowheadMatrix.assembled
  rw [h1]
  exact h k hk l hl

theorem assembled_le {R : Rounding K F} {α : F} (hB : N ≤ B.length)
    (h : ∀ k ∈ tridiagonalPositions n N, tridiagonalAssembled (blockValues R A) (blockValues R B) k k ≤ α) :
    ∀ k ∈ positions ⟨0, n, 0, 0⟩ N, ((tridiagonalMatrix n N A B).map R.v).assembled N k k ≤ α := by
  intro x hx
  obtain ⟨k, hk, rfl⟩ := position_cases hx
  rw [matrix_map]
  have h1 := symElement_eq (A := A.map (·.map R.v)) (B := B.map (·.map R.v)) (n := n) (by rw [List.length_map]; exact hB)
    (mem_positions'.mp hk).1 (mem_positions'.mp hk).1 k.2 k.2
  unfold ArrowheadMatrix.assembled
  rw [h1]
  exact h k hk

end

open Tridiagonal in
/-- C57: the same for the class for block tridiagonal matrices. -/
theorem C57_tridiagonal (R : Rounding K F) (spA spB : Sparsity) (p : List Nat) (n : Nat)
    (h : ValidTridiagonal spA spB p n) (N : Nat) (f : ArrowheadFactor K) (T : ArrowheadTypes)
    (hf : TridiagonalDeclared f spA spB p T n N) (A B : List (MatIn K)) (hm : TridiagonalFits A B p T n N)
    (method : Method)
    (r : Nat) (hr : ∀ i < n, T.tridiagDiag.rowEntries i + T.tridiagSubdiag.rowEntries i ≤ r)
    (c : Nat) (hc : ∀ i < n, T.tridiagDiag.colEntries i + T.tridiagSubdiag.colEntries i < c)
    (Ω α μ Λ ε : F) (hR : R.Ample r c Ω α μ Λ ε)
    (hfin : ∀ k ∈ tridiagonalPositions n N, ∀ l ∈ tridiagonalPositions n N,
      R.fin (tridiagonalAssembled A B k l) ∧ R.stored (tridiagonalAssembled A B k l))
    (hα : ∀ k ∈ tridiagonalPositions n N, tridiagonalAssembled (blockValues R A) (blockValues R B) k k ≤ α)
    (hpd : PosDef (tridiagonalPositions n N) μ fun k l =>
      tridiagonalAssembled (blockValues R A) (blockValues R B) k l -
        if k = l then R.margin r c ((N + 1) * n) ε (tridiagonalAssembled (blockValues R A) (blockValues R B) k k) else 0)
    (reg : K → Nat → K) (hreg : ∀ x i, R.fin x → μ < R.v x → reg x i = x) :
    ∃ f', tridiagonalFactorize n f A B reg method = .ok f' ∧
      (∀ t < N + 1, ∀ i < n, R.fin (f'.pivotAt (.tridiag t) i) ∧ μ < R.v (f'.pivotAt (.tridiag t) i) ∧
        R.v (f'.pivotAt (.tridiag t) i) ≤ 3 * α) ∧
      f'.Entries (fun y => R.fin y ∧ |R.v y| ≤ Λ) ∧
      ∀ t < N + 1, ∀ u < N + 1, ∀ i < n, ∀ j < n,
        let A := fun t i u j => tridiagonalSym (blockValues R A) (blockValues R B) t u (permAt p i) (permAt p j)
        |A t i u j - tridiagonalLdlt (f'.map R.v) n N t u i j| ≤
          R.gamma (r + 2) / (1 - R.gamma (r + 2)) * ((A t i t i + A u j u j) / 2 + R.growth (r + 2) * ((r + 1) * ε)) +
            R.growth (r + 2) * ((r + 1) * ε) := by
  have hd := declared_of h hf
  obtain ⟨f', h1, h2, h3, h4⟩ := C57_repeating R _ _ (emptied_valid h) T N f hd _ (fits_of hm) method r
    (blocks_cases fun t ht i hi => (rowEntries_le h hd.types N t i).trans (hr i hi)) c
    (blocks_cases fun t ht i hi => (colEntries_le h hd.types N t i).trans_lt (hc i hi)) Ω α μ Λ ε hR
    (assembled_finite (P := fun y => R.fin y ∧ R.stored y) hm.numB hfin) (assembled_le hm.numB hα)
    (by
      rw [card_positions]
      exact reduced_posDef hm.numB hpd) reg hreg
  refine ⟨f', by rw [factorize_eq hd]; exact h1, fun t ht i hi => h2 _ (tridiag_mem ht) i hi, h3,
    fun t ht u hu i hi j hj => ?_⟩
  have h5 := h4 _ (tridiag_mem ht) _ (tridiag_mem hu) i hi j hj
  rw [matrix_map] at h5
  dsimp only at h5
  rw [symElement_eq (by rw [List.length_map]; exact hm.numB) ht hu,
    symElement_eq (by rw [List.length_map]; exact hm.numB) ht ht,
    symElement_eq (by rw [List.length_map]; exact hm.numB) hu hu, ldlt_eq] at h5
  exact h5

/-! ### Cases meeting the hypotheses, in IEEE double precision -/

theorem double_ample : doubleR.Ample 2 3 (2 ^ (1023 : Int)) 5 (1 / 2) 4 (2 ^ (-1068 : Int)) where
  range := Binary.range (fmt := .binary64) (by decide)
  alpha := by norm_num
  pos := by norm_num
  nonneg := by norm_num
  entry := by norm_num
  small := by decide +kernel
  gamma := by decide +kernel
  max := by decide +kernel
  max_div := by decide +kernel

/-- All hypotheses hold for a matrix of doubles; no part of the factorization is evaluated. -/
example : ∃ f', (witnessF.map (Binary.ofRat .binary64 false)).factorize definiteDoubleM regularizationNone .upLooking = .ok f' ∧
    ∀ i < 3, (f'.pivot i).Finite ∧ 1 / 2 < doubleR.v (f'.pivot i) ∧ doubleR.v (f'.pivot i) ≤ 3 * 5 := by
  have hc : ∀ i < 3, witnessF.sparsity.rowEntries i ≤ 2 ∧ witnessF.sparsity.colEntries i < 3 := by decide
  obtain ⟨f', h1, h2, -⟩ := C57_single doubleR witnessS [0, 2, 1] witness_valid _
    (show (witnessF.map (Binary.ofRat .binary64 false)).Declared witnessS [0, 2, 1] from
      ⟨witness_declared.pattern, rfl, rfl, rfl⟩) definiteDoubleM
    ⟨rfl, witness_valid.inRange, rfl, rfl, fun i j h => .base h h.1⟩ .upLooking 2 (fun i hi => (hc i hi).1) 3
    (fun i hi => (hc i hi).2) _ 5 (1 / 2) 4 _ double_ample
    (fun i hi j hj => ⟨by
      have : ∀ i < 3, ∀ j < 3, (definiteDoubleM.sym i j).Finite := by decide +kernel
      exact this i hi j hj, trivial⟩)
    (by
      have : ∀ i < 3, doubleR.v (definiteDoubleM.sym i i) ≤ 5 := by decide +kernel
      exact this)
    (reducedM_posDef.mono (fun i hi j hj hij => by
      rw [if_neg hij, sub_zero]
      have : ∀ i < 3, ∀ j < 3, i ≠ j → reducedM.sym i j = doubleR.v (definiteDoubleM.sym i j) := by decide +kernel
      exact this i (mem_range.mp hi) j (mem_range.mp hj) hij) fun i hi => by
      rw [if_pos rfl]
      have : ∀ i < 3, reducedM.sym i i ≤ doubleR.v (definiteDoubleM.sym i i) -
        doubleR.margin 2 3 3 (2 ^ (-1068 : Int)) (doubleR.v (definiteDoubleM.sym i i)) := by decide +kernel
      exact this i (mem_range.mp hi)) regularizationNone (fun _ _ _ _ => rfl)
  exact ⟨f', h1, h2⟩

theorem double_ample' : doubleR.Ample 5 4 (2 ^ (1023 : Int)) 7 (1 / 20) 12 (2 ^ (-1064 : Int)) where
  range := Binary.range (fmt := .binary64) (by decide)
  alpha := by norm_num
  pos := by norm_num
  nonneg := by norm_num
  entry := by norm_num
  small := by decide +kernel
  gamma := by decide +kernel
  max := by decide +kernel
  max_div := by decide +kernel

/-- All hypotheses hold for a repeating block matrix of doubles. -/
example : ∃ T f, arrowheadTypes arrowS = .ok T ∧
    (freshFactor arrowS T arrowD 1 (0 : Double)).factorize 2 1 1 doubleM regularizationNone .upLooking = .ok f ∧
    ∀ a ∈ blocks 1, ∀ i < arrowD.of a,
      (f.pivotAt a i).Finite ∧ 1 / 20 < doubleR.v (f.pivotAt a i) ∧ doubleR.v (f.pivotAt a i) ≤ 3 * 7 := by
  obtain ⟨T, hT, hc⟩ : ∃ T, arrowheadTypes arrowS = .ok T ∧
      ∀ a ∈ blocks 1, ∀ i < arrowD.of a, T.rowEntries 1 a i ≤ 5 ∧ T.colEntries 1 a i < 4 := by
    have h : (do
        let T ← arrowheadTypes arrowS
        return decide (∀ a ∈ blocks 1, ∀ i < arrowD.of a, T.rowEntries 1 a i ≤ 5 ∧ T.colEntries 1 a i < 4)) =
        (.ok true : Res Bool) := by decide +kernel
    obtain ⟨T, hT, h⟩ := bind_eq_ok.mp h
    exact ⟨T, hT, of_decide_eq_true (Except.ok.inj h)⟩
  have hpd : PosDef (positions arrowD 1) (0 + 1 / 20) fun k l => (doubleM.map doubleR.v).assembled 1 k l -
      if k = l then doubleR.margin 5 4 (positions arrowD 1).card (2 ^ (-1064 : Int))
        ((doubleM.map doubleR.v).assembled 1 k k) else 0 := by
    refine reducedArrow_posDef.shift (fun k hk l hl hne => ?_) fun k hk => ?_
    · rw [if_neg hne, sub_zero]
      have : ∀ k ∈ positions arrowD 1, ∀ l ∈ positions arrowD 1, k ≠ l →
          reducedArrowM.assembled 1 k l = (doubleM.map doubleR.v).assembled 1 k l := by decide +kernel
      exact this k hk l hl hne
    · rw [if_pos rfl]
      have : ∀ k ∈ positions arrowD 1, reducedArrowM.assembled 1 k k + 1 / 20 ≤ (doubleM.map doubleR.v).assembled 1 k k -
          doubleR.margin 5 4 (positions arrowD 1).card (2 ^ (-1064 : Int))
            ((doubleM.map doubleR.v).assembled 1 k k) := by decide +kernel
      exact this k hk
  rw [zero_add] at hpd
  obtain ⟨f, h1, h2, -⟩ := C57_repeating doubleR arrowS arrowD arrowS_valid T 1 _ (C21_constructible arrowS arrowD T hT 1 0)
    doubleM ((arrowM_fits hT).map _) .upLooking 5 (fun a ha i hi => (hc a ha i hi).1) 4 (fun a ha i hi => (hc a ha i hi).2)
    _ 7 (1 / 20) 12 _ double_ample'
    (fun k hk l hl => ⟨by
      have : ∀ k ∈ positions arrowD 1, ∀ l ∈ positions arrowD 1, (doubleM.assembled 1 k l).Finite := by decide +kernel
      exact this k hk l hl, trivial⟩)
    (by decide +kernel)
    hpd regularizationNone (fun _ _ _ _ => rfl)
  exact ⟨T, f, hT, h1, h2⟩

end Ctldl
