import Verif.Lemmas.ArrowheadClosed

/-! # `L D Lᵀ` of the factor of the repeating block matrix -/

namespace Ctldl

section

variable {K : Type} {m : ArrowheadMatrix K} {s : ArrowheadSparsity} {T : ArrowheadTypes} {d : Dims} {N : Nat}

theorem pivotsOk_of [Field K] {f : ArrowheadFactor K} (hf : f.Declared s T d N)
    (hp : ∀ a b i j, T.Has N a i b j → f.pivotAt b j ≠ 0) :
    (f.chainVals N).PivotsOk (chainPat T d N) (N + 2) := by
  have key : ∀ p q i j, p ≤ N + 3 → q ≤ N + 3 → chainHas (chainPat T d N) (N + 2) p i q j →
      chainD (f.chainVals N) (N + 2) q j ≠ 0 := by
    intro p q i j hp' hq' h
    obtain ⟨a, ha, rfl⟩ := exists_rank (N := N) hp'
    obtain ⟨b, hb, rfl⟩ := exists_rank (N := N) hq'
    have := hp a b i j ((types_has_iff ha hb i j).mpr h)
    rwa [factor_pivotAt_eq hf hb] at this
  unfold chainD at key
  refine ⟨?_, ?_, ?_, ?_⟩
  · intro p hpN i j _ h
    have := key p p i j (by omega) (by omega) (Or.inl ⟨rfl, by rw [if_pos hpN]; exact h⟩)
    rwa [if_pos hpN] at this
  · intro p hpN i j _ h
    have := key (p + 1) p i j (by omega) (by omega)
      (Or.inr ⟨_, by unfold lowPos; rw [if_neg (by omega), if_pos ⟨rfl, by omega⟩], h⟩)
    rwa [if_pos (by omega)] at this
  · intro p hpN i j _ h
    have := key (N + 3) p i j (by omega) (by omega) (Or.inr ⟨_, by unfold lowPos; rw [if_pos ⟨rfl, hpN⟩], h⟩)
    rwa [if_pos hpN] at this
  · intro i j _ h
    have := key (N + 3) (N + 3) i j (by omega) (by omega) (Or.inl ⟨rfl, by rw [if_neg (by omega)]; exact h⟩)
    rwa [if_neg (by omega)] at this

theorem methodRow_reg [Field K] {method : Method} {c11 c21 c22 : Csr} {L11 : Nat → Nat → K} {d1 : Nat → K}
    {a21 a22 : Nat → Nat → K} {aD : Nat → K} {reg : K → Nat → K} {L21 L22 : Nat → Nat → K} {d2 : Nat → K} {i : Nat}
    (h : MethodRow method c11 c21 c22 L11 d1 a21 a22 aD reg L21 L22 d2 i) : ∃ x, d2 i = reg x i := by
  cases method with
  | upLooking =>
    obtain ⟨w1, w2, -, -, -, -, h5⟩ := h
    exact ⟨_, h5⟩
  | entryWise => exact ⟨_, h.2.2⟩

/-- Every pivot has been regularized. -/
theorem pivotAt_reg [Field K] {f : ArrowheadFactor K} {reg : K → Nat → K} {method : Method} {I : ChainInput K}
    (hf : f.Declared s T d N) (hr : ChainRows (chainPat T d N) (N + 2) (f.chainVals N) I reg method)
    {a : Blk} (ha : a ∈ blocks N) {i : Nat} (hi : i < d.of a) : ∃ x, f.pivotAt a i = reg x i := by
  rw [factor_pivotAt_eq hf ha]
  rw [dims_of_eq (T := T) ha] at hi
  unfold chainN at hi
  unfold chainD
  split at hi
  · next hp =>
    rw [if_pos hp]
    generalize a.rank N = p at hp hi ⊢
    cases p with
    | zero =>
      obtain ⟨c11, c21, -, -, -, -, L11, L21, d1, a21, h⟩ := hr.first i hi
      exact methodRow_reg h
    | succ p => exact methodRow_reg (hr.inner p (by omega) i hi)
  · next hp =>
    rw [if_neg hp]
    obtain ⟨x, e, eD, -, -, -, -, hlast⟩ := hr.outer
    exact methodRow_reg (hlast i hi)

/-- `L D Lᵀ` of the computed factor is the matrix. -/
theorem reproduces_of_pivotsOk [Field K] {f : ArrowheadFactor K} {reg : K → Nat → K} {method : Method}
    (hT : TypesOk s T d) (hf : f.Declared s T d N)
    (hm : m.Fits s T d N) (hr : ChainRows (chainPat T d N) (N + 2) (f.chainVals N) (m.chainInput s N) reg method)
    (hp : (f.chainVals N).PivotsOk (chainPat T d N) (N + 2)) : ∃ δ, f.Reproduces m s d N reg δ := by
  have hX := chainPat_ok hT (N := N)
  have hx := hr.exact hX hp hm.zero
  obtain ⟨δ, h1, h2⟩ := chainLdlt_exact hX hx
  refine ⟨fun a => δ (a.rank N), ?_, ?_⟩
  · intro a ha i hi
    rw [factor_pivotAt_eq hf ha]
    exact h1 _ (rank_le ha) i (by rwa [dims_of_eq (T := T) ha] at hi) trivial
  · intro a ha b hb i hi j hj
    rw [factor_ldlt_eq hf ha hb, h2 _ (rank_le ha) _ (rank_le hb) i (by rwa [dims_of_eq (T := T) ha] at hi) j
      (by rwa [dims_of_eq (T := T) hb] at hj) trivial trivial, matrix_symElement_eq hm.numSubdiag hm.numOuter ha hb,
      factor_pivotAt_eq hf ha]
    simp only [rank_inj ha hb]

theorem reproduces_of_rows [Field K] {f : ArrowheadFactor K} {reg : K → Nat → K} {method : Method}
    (hT : TypesOk s T d) (hf : f.Declared s T d N)
    (hm : m.Fits s T d N) (hr : ChainRows (chainPat T d N) (N + 2) (f.chainVals N) (m.chainInput s N) reg method)
    (hp : ∀ a b i j, T.Has N a i b j → f.pivotAt b j ≠ 0) : ∃ δ, f.Reproduces m s d N reg δ :=
  reproduces_of_pivotsOk hT hf hm hr (pivotsOk_of hf hp)

/-- The same if all pivots are non-zero. -/
theorem reproduces_of_nonzero [Field K] {f : ArrowheadFactor K} {reg : K → Nat → K} {method : Method}
    (hT : TypesOk s T d) (hf : f.Declared s T d N)
    (hm : m.Fits s T d N) (hr : ChainRows (chainPat T d N) (N + 2) (f.chainVals N) (m.chainInput s N) reg method)
    (hp : ∀ a ∈ blocks N, ∀ i < d.of a, f.pivotAt a i ≠ 0) : ∃ δ, f.Reproduces m s d N reg δ := by
  have hX := chainPat_ok hT N
  have hpo : (f.chainVals N).PivotsOk (chainPat T d N) (N + 2) := by
    have key : ∀ q j, q ≤ N + 3 → j < chainN (chainPat T d N) (N + 2) q →
        chainD (f.chainVals N) (N + 2) q j ≠ 0 := by
      intro q j hq hj
      obtain ⟨b, hb, rfl⟩ := exists_rank (N := N) hq
      rw [← dims_of_eq hb] at hj
      rw [← factor_pivotAt_eq hf hb]
      exact hp b hb j hj
    refine ⟨?_, ?_, ?_, ?_⟩
    · intro p hpN i j _ h
      have hh : chainHas (chainPat T d N) (N + 2) p i p j := Or.inl ⟨rfl, by rw [if_pos hpN]; exact h⟩
      have := key p j (by omega) (chainHas_range hX (by omega) hh).2
      unfold chainD at this
      rwa [if_pos hpN] at this
    · intro p hpN i j _ h
      have hh : chainHas (chainPat T d N) (N + 2) (p + 1) i p j :=
        Or.inr ⟨_, by unfold lowPos; rw [if_neg (by omega), if_pos ⟨rfl, by omega⟩], h⟩
      have := key p j (by omega) (chainHas_range hX (by omega) hh).2
      unfold chainD at this
      rwa [if_pos (by omega)] at this
    · intro p hpN i j _ h
      have hh : chainHas (chainPat T d N) (N + 2) (N + 3) i p j :=
        Or.inr ⟨_, by unfold lowPos; rw [if_pos ⟨rfl, hpN⟩], h⟩
      have := key p j (by omega) (chainHas_range hX (by omega) hh).2
      unfold chainD at this
      rwa [if_pos hpN] at this
    · intro i j _ h
      have hh : chainHas (chainPat T d N) (N + 2) (N + 3) i (N + 3) j :=
        Or.inl ⟨rfl, by rw [if_neg (by omega)]; exact h⟩
      have := key (N + 3) j (by omega) (chainHas_range hX (by omega) hh).2
      unfold chainD at this
      rwa [if_neg (by omega)] at this
  exact reproduces_of_pivotsOk hT hf hm hr hpo

end

end Ctldl
