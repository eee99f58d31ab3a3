import Verif.Lemmas.RoundingArrowhead
import Verif.Lemmas.RoundingSingle
import Verif.Props.Arrowhead

/-! # The product of the computed factors approximates the matrix -/

namespace Ctldl

open Finset

variable {K F : Type} [Zero K] [Sub K] [Mul K] [Div K] [Field F] [LinearOrder F] [IsStrictOrderedRing F]

private theorem typesOk {s : ArrowheadSparsity} {T : ArrowheadTypes} {d : Dims} (hs : s.Valid d)
    (hT : arrowheadTypes s = .ok T) : TypesOk s T d := by
  obtain ⟨T', h, h'⟩ := arrowheadTypes_sat hs
  rw [hT] at h
  cases h
  exact h'

/-- Each element of the permuted matrix is approximately the one of the product of the computed factors, with the
change of the pivots taken back. -/
theorem Rounding.factorize_apx (R : Rounding K F) (s : ArrowheadSparsity) (d : Dims) (hs : s.Valid d) (T : ArrowheadTypes)
    (N : Nat) (f : ArrowheadFactor K) (hf : f.Declared s T d N) (m : ArrowheadMatrix K) (hm : m.Fits s T d N)
    (reg : K → Nat → K) (method : Method) (f' : ArrowheadFactor K)
    (h : f.factorize d.tridiag d.link d.outer m reg method = .ok f')
    (hfin : ∀ a ∈ blocks N, ∀ i < d.of a, R.fin (f'.pivotAt a i) ∧ ∀ x, f'.pivotAt a i = reg x i → R.fin x)
    (ε : F) (h0 : 0 ≤ ε)
    (hε : ∀ a ∈ blocks N, ∀ b ∈ blocks N, ∀ i j, T.Has N a i b j →
      R.η * (1 + |R.v (f'.pivotAt b j)| * (1 + |(f'.map R.v).lowerElement N a b i j|)) ≤ ε)
    (n : Nat) (hn : ∀ a ∈ blocks N, ∀ i < d.of a, T.rowEntries N a i ≤ n) :
    ∃ x : Blk → Nat → K, (∀ a ∈ blocks N, ∀ i < d.of a, f'.pivotAt a i = reg (x a i) i) ∧
      ∀ a ∈ blocks N, ∀ b ∈ blocks N, ∀ i < d.of a, ∀ j < d.of b,
        R.Apx (n + 2) ((m.map R.v).symElement N a b (permAt (s.perm a) i) (permAt (s.perm b) j))
          ((f'.map R.v).ldlt d N a b i j + if a = b ∧ i = j then R.v (x a i) - R.v (f'.pivotAt a i) else 0)
          ((f'.map R.av).ldlt d N a b i j + if a = b ∧ i = j then R.av (x a i) - R.av (f'.pivotAt a i) else 0)
          ((n + 1) * ε) := by
  have hT := typesOk hs hf.types
  have hX := chainPat_ok hT N
  obtain ⟨hd, hrows⟩ := Sat.of_ok (arrowheadFactorize_sat hs hT hf hm.matrixOk reg method) h
  have key : ∀ p ≤ N + 3, ∀ i < chainN (chainPat T d N) (N + 2) p, R.fin (chainD (f'.chainVals N) (N + 2) p i) ∧
      ∀ x, chainD (f'.chainVals N) (N + 2) p i = reg x i → R.fin x := by
    intro p hp i hi
    obtain ⟨a, ha, rfl⟩ := exists_rank (N := N) hp
    rw [← factor_pivotAt_eq hd ha]
    exact hfin a ha i (by rw [dims_of_eq ha]; exact hi)
  have hl : ∀ p ≤ N + 3, ∀ i < chainN (chainPat T d N) (N + 2) p, (chainPat T d N).rowLen (N + 2) p i ≤ n := by
    intro p hp i hi
    obtain ⟨a, ha, rfl⟩ := exists_rank (N := N) hp
    rw [rowLen_eq ha]
    exact hn a ha i (by rw [dims_of_eq ha]; exact hi)
  have hlow : ∀ p ≤ N + 2, ∀ i < (chainPat T d N).n p, R.fin ((f'.chainVals N).d p i) ∧
      ∀ x, (f'.chainVals N).d p i = reg x i → R.fin x := by
    intro p hp i hi
    have := key p (by omega) i (by rwa [chainN, if_pos hp])
    rwa [chainD, if_pos hp] at this
  have hout : ∀ i < (chainPat T d N).nO, R.fin ((f'.chainVals N).g i) ∧
      ∀ x, (f'.chainVals N).g i = reg x i → R.fin x := by
    intro i hi
    have := key (N + 3) (by omega) i (by rwa [chainN, if_neg (by omega)])
    rwa [chainD, if_neg (by omega)] at this
  obtain ⟨x, hx, hx', hA⟩ := Rounding.chainApx (R := R) hX hrows hm.zero (chainSmall_of R hT hd h0 hε (hrows.quotient R.stored_div hX)) hl
    (fun p hp i hi => (hlow p hp i hi).1) (fun i hi => (hout i hi).1) (fun p hp i hi => (hlow p hp i hi).2)
    (fun i hi => (hout i hi).2)
  have hreg : ∀ a ∈ blocks N, ∀ i < d.of a, f'.pivotAt a i = reg (x (a.rank N) i) i := by
    intro a ha i hi
    rw [factor_pivotAt_eq hd ha, chainD]
    rw [dims_of_eq (T := T) ha, chainN] at hi
    have hr := rank_le ha
    split
    · next hle => exact hx _ hle i (by rwa [if_pos hle] at hi)
    · next hle =>
      rw [if_neg hle] at hi
      obtain hr' : a.rank N = N + 3 := by omega
      rw [hr']
      exact hx' i hi
  refine ⟨fun a i => x (a.rank N) i, hreg, ?_⟩
  intro a ha b hb i hi j hj
  have hg : ∀ g : K → F, g 0 = 0 → ∀ i, chainD ((f'.chainVals N).map g) (N + 2) (a.rank N) i = g (f'.pivotAt a i) := by
    intro g hg i
    rw [← chainVals_map, ← factor_pivotAt_eq (hd.map g) ha, pivotAt_map hg]
  have := hA.assembled hX h0 (J := (m.map R.v).chainInput s N) (chainInput_map_a R.v_zero m s N)
    (chainInput_map_aD R.v_zero m s N) (chainInput_map_b R.v_zero m s N) (chainInput_map_c R.v_zero m s N)
    (chainInput_map_h R.v_zero m s N) (chainInput_map_hD R.v_zero m s N) (rank_le ha) (rank_le hb)
    (i := i) (j := j) (by rwa [← dims_of_eq ha]) (by rwa [← dims_of_eq hb])
  rw [← matrix_symElement_eq (m := m.map R.v) (by simp [ArrowheadMatrix.map, hm.numSubdiag])
    (by simp [ArrowheadMatrix.map, hm.numOuter]) ha hb, ← chainVals_map, ← chainVals_map,
    ← factor_ldlt_eq (hd.map R.v) ha hb, ← factor_ldlt_eq (hd.map R.av) ha hb, chainVals_map, chainVals_map,
    hg _ R.v_zero, hg _ R.av_zero] at this
  simp only [rank_inj ha hb] at this
  exact this

omit [Zero K] [Sub K] [Mul K] [Div K] in
private theorem fits1 {f : DiagFactor K} {s : Sparsity} {p : List Nat} (hv : ValidSparsity s p)
    (hf : f.Declared s p) {m : MatIn K} (hm : m.Fits s p) : Fits1 m f s.numRows := by
  refine ⟨hm.sized, ⟨hm.inRange, hm.rows, hm.cols⟩, ?_⟩
  intro i j hij
  rw [hf.perm] at hij
  have h1 := hm.subset i j hij
  rw [Csr.Has, (hf.closed1 hv).2.2.2.2]
  have h2 := hij.1
  have h3 := hij.2.1
  rw [hm.rows] at h3
  exact ⟨h3, by omega, h1⟩

/-- Each element of the permuted matrix is approximately the one of the product of the computed factors, with the
change of the pivots taken back. -/
theorem Rounding.single_apx (R : Rounding K F) (s : Sparsity) (p : List Nat) (hv : ValidSparsity s p)
    (f : DiagFactor K) (hf : f.Declared s p) (m : MatIn K) (hm : m.Fits s p) (reg : K → Nat → K) (method : Method)
    (f' : DiagFactor K) (h : f.factorize m reg method = .ok f')
    (hfin : ∀ i < s.numRows, R.fin (f'.pivot i) ∧ ∀ x, f'.pivot i = reg x i → R.fin x)
    (ε : F) (h0 : 0 ≤ ε)
    (hε : ∀ i j, f'.sparsity.toSparsity.Has i j →
      R.η * (1 + |R.v (f'.pivot j)| * (1 + |R.v (f'.lower i j)|)) ≤ ε)
    (n : Nat) (hn : ∀ i < s.numRows, f'.sparsity.rowEntries i ≤ n) :
    ∃ x : Nat → K, (∀ i < s.numRows, f'.pivot i = reg (x i) i) ∧ ∀ i < s.numRows, ∀ j < s.numRows,
      R.Apx (n + 2) (R.v (m.sym (permAt p i) (permAt p j)))
        (ldlt s.numRows (fun a b => R.v (f'.lower a b)) (fun a => R.v (f'.pivot a)) i j +
          if i = j then R.v (x i) - R.v (f'.pivot i) else 0)
        (ldlt s.numRows (fun a b => R.av (f'.lower a b)) (fun a => R.av (f'.pivot a)) i j +
          if i = j then R.av (x i) - R.av (f'.pivot i) else 0) ((n + 1) * ε) := by
  obtain ⟨hc, -⟩ := hf.closed1 hv
  obtain ⟨L, D, rfl, hL, hD, hrows⟩ := Sat.of_ok (factorize_sat hc (fits1 hv hf hm) reg method) h
  have hr : ∀ i, ∃ x, i < s.numRows → (∀ j < i, R.Apx (n + 2)
      (R.v (m.sym (permAt f.permutation i) (permAt f.permutation j)))
      (ldlt s.numRows (fun a b => R.v (val f.sparsity L a b)) (fun a => R.v (D.getD a 0)) i j)
      (ldlt s.numRows (fun a b => R.av (val f.sparsity L a b)) (fun a => R.av (D.getD a 0)) i j) ((n + 1) * ε)) ∧
      D.getD i 0 = reg x i ∧ R.Apx (n + 2) (R.v (m.sym (permAt f.permutation i) (permAt f.permutation i)))
      (ldlt s.numRows (fun a b => R.v (val f.sparsity L a b)) (fun a => R.v (D.getD a 0)) i i +
        (R.v x - R.v (D.getD i 0)))
      (ldlt s.numRows (fun a b => R.av (val f.sparsity L a b)) (fun a => R.av (D.getD a 0)) i i +
        (R.av x - R.av (D.getD i 0))) ((n + 1) * ε) := by
    intro i
    by_cases hi : i < s.numRows
    · obtain ⟨h1, x, h2⟩ := R.singleRow (r := n) h0 hc (fits1 hv hf hm) hi (fun j hj => (hfin j hj).1) (hfin i hi).2
        (fun j k hjk => ⟨singleRow_quotient R.stored_div (hrows j (hc.ok.rows ▸ hc.ok.good.row_lt hjk)) k hjk, hε j k hjk⟩)
        (by rw [← Csr.rowEntries_eq]; exact hn i hi) (hrows i hi)
      exact ⟨x, fun _ => ⟨h1, h2⟩⟩
    · exact ⟨0, fun h => absurd h hi⟩
  choose x hx using hr
  refine ⟨x, fun i hi => (hx i hi).2.1, ?_⟩
  rw [hf.perm] at hx
  intro i hi j hj
  rcases Nat.lt_trichotomy j i with hji | hji | hji
  · rw [if_neg (by omega), if_neg (by omega), add_zero, add_zero]
    exact ((hx i hi).1 j hji)
  · subst hji
    rw [if_pos rfl, if_pos rfl]
    exact ((hx j hj).2.2)
  · rw [if_neg (by omega), if_neg (by omega), add_zero, add_zero, ldlt_symm, ldlt_symm (i := i)]
    have := ((hx j hj).1 i hji)
    rw [show m.sym (permAt p i) (permAt p j) = m.sym (permAt p j) (permAt p i) by
      simp only [MatIn.sym, Nat.max_comm, Nat.min_comm]]
    exact this

end Ctldl
