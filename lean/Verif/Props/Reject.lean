import Verif.Lemmas.ArrowheadReject
import Verif.Props.Arrowhead

/-! # C38: undeclared non-zeros of repeating block matrices -/

namespace Ctldl

section

variable {K : Type} [Zero K] [Sub K] [Mul K] [Div K]

private theorem typesOk' {s : ArrowheadSparsity} {T : ArrowheadTypes} {d : Dims} (hs : s.Valid d)
    (hT : arrowheadTypes s = .ok T) : TypesOk s T d := by
  obtain ⟨T', h, h'⟩ := arrowheadTypes_sat hs
  rw [hT] at h
  cases h
  exact h'

/-- C38: a repeating block matrix with a non-zero outside of the pattern of the factor, in a block row which is not
the outer one, is rejected at compile time. -/
theorem C38_repeating_rejected (s : ArrowheadSparsity) (d : Dims) (hs : s.Valid d) (T : ArrowheadTypes) (N : Nat)
    (f : ArrowheadFactor K) (hf : f.Declared s T d N) (m : ArrowheadMatrix K) (hm : m.Shaped d N)
    (a b : Blk) (i j : Nat) (ha : a ∈ blocks N) (hne : a ≠ .outer) (h : m.PermutedHas s N a i b j)
    (hn : ¬ T.Has N a i b j) (reg : K → Nat → K) (method : Method) :
    f.factorize d.tridiag d.link d.outer m reg method = .error .staticAssert := by
  unfold ArrowheadFactor.factorize
  rcases factorizeInner_or hs (typesOk' hs hf.types) hf hm reg method with ⟨-, -, h'⟩ | h'
  · exact absurd (covered_of_matrixOk h' a i b j hne ha h) hn
  · rw [h']
    rfl

/-- C38: the outer block row is not checked. A repeating block matrix whose other block rows are within the pattern of the
factor is accepted, wherever the non-zeros of its outer block row are. -/
theorem C38_outer_accepted (s : ArrowheadSparsity) (d : Dims) (hs : s.Valid d) (T : ArrowheadTypes) (N : Nat)
    (f : ArrowheadFactor K) (hf : f.Declared s T d N) (m : ArrowheadMatrix K) (hm : m.Shaped d N)
    (h : ∀ a i b j, a ≠ .outer → a ∈ blocks N → m.PermutedHas s N a i b j → T.Has N a i b j) (reg : K → Nat → K)
    (method : Method) : ∃ f', f.factorize d.tridiag d.link d.outer m reg method = .ok f' := by
  obtain ⟨f', h1, -⟩ := arrowheadFactorize_sat hs (typesOk' hs hf.types) hf (matrixOk_of_covered hm h) reg method
  exact ⟨f', h1⟩

/-- C38: only the values at the positions of the pattern of the factor and the diagonal are used; in particular those of
undeclared non-zeros of the outer block row are silently ignored. -/
theorem C38_outer_ignored (s : ArrowheadSparsity) (d : Dims) (hs : s.Valid d) (T : ArrowheadTypes) (N : Nat)
    (f : ArrowheadFactor K) (hf : f.Declared s T d N) (m m' : ArrowheadMatrix K) (hm : m.Shaped d N)
    (hm' : m'.Shaped d N)
    (h : ∀ a i b j, a ≠ .outer → a ∈ blocks N → m.PermutedHas s N a i b j → T.Has N a i b j)
    (h' : ∀ a i b j, a ≠ .outer → a ∈ blocks N → m'.PermutedHas s N a i b j → T.Has N a i b j)
    (heq : ∀ a i b j, a ∈ blocks N → b ∈ blocks N → (T.Has N a i b j ∨ (a = b ∧ i = j ∧ i < d.of a)) →
      m.symElement N a b (permAt (s.perm a) i) (permAt (s.perm b) j) =
        m'.symElement N a b (permAt (s.perm a) i) (permAt (s.perm b) j))
    (reg : K → Nat → K) (method : Method) :
    f.factorize d.tridiag d.link d.outer m reg method = f.factorize d.tridiag d.link d.outer m' reg method := by
  have hdiag : ∀ a ∈ blocks N, ∀ i j, ((T.diagBlock a).Has i j ∨ (i = j ∧ i < d.of a)) →
      (m.diagBlock a).sym (permAt (s.perm a) i) (permAt (s.perm a) j) =
        (m'.diagBlock a).sym (permAt (s.perm a) i) (permAt (s.perm a) j) := by
    intro a ha i j hij
    have := heq a i a j ha ha (hij.imp (fun hh => Or.inl ⟨rfl, hh⟩) (fun hh => ⟨rfl, hh⟩))
    unfold ArrowheadMatrix.symElement assembledElement at this
    rwa [if_pos rfl, if_pos rfl] at this
  have hlow : ∀ a ∈ blocks N, ∀ b ∈ blocks N, ∀ q q' c, a ≠ b → m.lowerBlock N a b = some q →
      m'.lowerBlock N a b = some q' → T.lowerBlock N a b = some c → ∀ i j, c.Has i j →
      q.elem (permAt (s.perm a) i) (permAt (s.perm b) j) = q'.elem (permAt (s.perm a) i) (permAt (s.perm b) j) := by
    intro a ha b hb q q' c hab hq hq' hc i j hij
    have := heq a i b j ha hb (Or.inl (Or.inr ⟨_, by beta_reduce; rw [hc]; rfl, hij⟩))
    unfold ArrowheadMatrix.symElement assembledElement at this
    beta_reduce at this
    rw [if_neg hab, if_neg hab, hq, hq'] at this
    exact this
  refine factorize_unique hs (typesOk' hs hf.types) hf hf (matrixOk_of_covered hm h) (matrixOk_of_covered hm' h') reg
    method ⟨?_, ?_, ?_, ?_, ?_, ?_⟩
  · intro p hp i j hij
    rcases pos_cases hp with rfl | ⟨t, ht, rfl⟩ | rfl
    · exact hdiag .start (mem_start N) i j (Or.inl hij)
    · simp only [ArrowheadMatrix.chainInput, chainPat, sel_succ ht] at hij ⊢
      exact hdiag (.tridiag t) (mem_tridiag ht) i j (Or.inl hij)
    · simp only [ArrowheadMatrix.chainInput, chainPat, sel_last (Nat.le_refl _)] at hij ⊢
      exact hdiag .link (mem_link N) i j (Or.inl hij)
  · intro p hp i hi
    rcases pos_cases hp with rfl | ⟨t, ht, rfl⟩ | rfl
    · exact hdiag .start (mem_start N) i i (Or.inr ⟨rfl, hi⟩)
    · simp only [ArrowheadMatrix.chainInput, chainPat, sel_succ ht] at hi ⊢
      exact hdiag (.tridiag t) (mem_tridiag ht) i i (Or.inr ⟨rfl, hi⟩)
    · simp only [ArrowheadMatrix.chainInput, chainPat, sel_last (Nat.le_refl _)] at hi ⊢
      exact hdiag .link (mem_link N) i i (Or.inr ⟨rfl, hi⟩)
  · intro p hp i j hij
    rcases pos_cases' (N := N) (p := p) (by omega) with rfl | ⟨t, ht, rfl⟩ | rfl
    · exact hlow (.tridiag 0) (mem_tridiag (by omega)) .start (mem_start N) _ _ _ (by simp) rfl rfl rfl i j hij
    · simp only [ArrowheadMatrix.chainInput, chainPat, sel_succ ht] at hij ⊢
      refine hlow (.tridiag (t + 1)) (mem_tridiag (by omega)) (.tridiag t) (mem_tridiag (by omega)) _ _ _ (by simp)
        ?_ ?_ ?_ i j hij
      · simp only [ArrowheadMatrix.lowerBlock]
        rw [if_pos ⟨trivial, ht⟩, getElem?_eq_getD (by have := hm.numSubdiag; omega)]
      · simp only [ArrowheadMatrix.lowerBlock]
        rw [if_pos ⟨trivial, ht⟩, getElem?_eq_getD (by have := hm'.numSubdiag; omega)]
      · simp only [ArrowheadTypes.lowerBlock]
        rw [if_pos ⟨trivial, ht⟩]
    · simp only [ArrowheadMatrix.chainInput, chainPat, sel_last (Nat.le_refl _)] at hij ⊢
      exact hlow .link (mem_link N) (.tridiag N) (mem_tridiag (by omega)) _ _ _ (by simp) (if_pos rfl) (if_pos rfl)
        (if_pos rfl) i j hij
  · intro p hp i j hij
    rcases pos_cases hp with rfl | ⟨t, ht, rfl⟩ | rfl
    · exact hlow .outer (mem_outer N) .start (mem_start N) _ _ _ (by simp) rfl rfl rfl i j hij
    · simp only [ArrowheadMatrix.chainInput, chainPat, sel_succ ht] at hij ⊢
      refine hlow .outer (mem_outer N) (.tridiag t) (mem_tridiag ht) _ _ _ (by simp) ?_ ?_ ?_ i j hij
      · simp only [ArrowheadMatrix.lowerBlock]
        rw [if_pos (by omega), getElem?_eq_getD (by have := hm.numOuter; omega)]
      · simp only [ArrowheadMatrix.lowerBlock]
        rw [if_pos (by omega), getElem?_eq_getD (by have := hm'.numOuter; omega)]
      · simp only [ArrowheadTypes.lowerBlock]
        rw [if_pos (by omega)]
    · simp only [ArrowheadMatrix.chainInput, chainPat, sel_last (Nat.le_refl _)] at hij ⊢
      exact hlow .outer (mem_outer N) .link (mem_link N) _ _ _ (by simp) rfl rfl rfl i j hij
  · intro i j hij
    exact hdiag .outer (mem_outer N) i j (Or.inl hij)
  · intro i hi
    exact hdiag .outer (mem_outer N) i i (Or.inr ⟨rfl, hi⟩)

end

/-! ### The hypotheses can be met, and the claim fails for the outer block row -/

/-- The matrix of the example with a value 5 at an undeclared position of an outer block. -/
def arrowMOuter : ArrowheadMatrix ℚ :=
  { arrowM with outerSubdiag := [⟨⟨1, 2, [⟨0, 1⟩]⟩, [5]⟩, ⟨⟨1, 2, []⟩, []⟩] }

/-- The matrix of the example with a value 5 at an undeclared position of a subdiagonal block. -/
def arrowMSub : ArrowheadMatrix ℚ :=
  { arrowM with tridiagSubdiag := [⟨⟨2, 2, [⟨0, 1⟩, ⟨1, 0⟩]⟩, [1, 5]⟩] }

private def solved (m : ArrowheadMatrix ℚ) (method : Method) : Res (ArrowheadVector ℚ) := do
  let T ← arrowheadTypes arrowS
  let f ← (freshFactor arrowS T arrowD 1 (17 : ℚ)).factorize 2 1 1 m regularizationNone method
  f.solveInPlace ⟨[1], [[1, 2], [3, 4]], [5], [6]⟩

/-- C38 does not hold for the outer block row: an undeclared non-zero there is accepted and its value ignored, so that
the solution is that of another matrix. -/
theorem C38_outer_not_rejected :
    arrowMOuter.symElement 1 .outer (.tridiag 0) 0 1 = 5 ∧ arrowM.symElement 1 .outer (.tridiag 0) 0 1 = 0 ∧
    ∀ method, solved arrowMOuter method = solved arrowM method ∧ (solved arrowM method).isOk = true := by
  refine ⟨by decide +kernel, by decide +kernel, fun method => ?_⟩
  cases method <;> exact ⟨by decide +kernel, by decide +kernel⟩

example (method : Method) : solved arrowMSub method = .error .staticAssert := by
  cases method <;> decide +kernel

end Ctldl
