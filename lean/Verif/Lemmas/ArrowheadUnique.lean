import Verif.Lemmas.ArrowheadReproduce

/-! # Determinism of the factorization of the repeating block matrix -/

namespace Ctldl

section

variable {K : Type}

theorem DiagFactor.OfType.ext [Zero K] [Sub K] [Mul K] [Div K] {f g : DiagFactor K} {c : Csr} {p : List Nat} {n : Nat} (hf : f.OfType c p n)
    (hg : g.OfType c p n) (hc : c.Good) (hL : ∀ i j, c.Has i j → val c f.L i j = val c g.L i j)
    (hD : ∀ i < n, vec f.D i = vec g.D i) : f = g := by
  have h1 := val_ext hc hf.sizeL hg.sizeL hL
  have h2 := list_ext_getD hf.sizeD hg.sizeD hD
  obtain ⟨a1, a2, a3, a4⟩ := f
  obtain ⟨b1, b2, b3, b4⟩ := g
  have e1 := hf.pattern.trans hg.pattern.symm
  have e2 := hf.perm.trans hg.perm.symm
  simp only at e1 e2 h1 h2
  subst e1 e2 h1 h2
  rfl

theorem SubFactor.OfType.ext [Zero K] [Sub K] [Mul K] [Div K] {f g : SubFactor K} {c : Csr} {p q : List Nat} (hf : f.OfType c p q)
    (hg : g.OfType c p q) (hc : c.Good) (hL : ∀ i j, c.Has i j → val c f.L i j = val c g.L i j) : f = g := by
  have h1 := val_ext hc hf.sizeL hg.sizeL hL
  obtain ⟨a1, a2, a3, a4⟩ := f
  obtain ⟨b1, b2, b3, b4⟩ := g
  have e1 := hf.pattern.trans hg.pattern.symm
  have e2 := hf.permRow.trans hg.permRow.symm
  have e3 := hf.permCol.trans hg.permCol.symm
  simp only at e1 e2 e3 h1
  subst e1 e2 e3 h1
  rfl

theorem list_ext_of_getD {α : Type _} {v w : List α} {n : Nat} (hv : v.length = n) (hw : w.length = n) (x y : α)
    (h : ∀ t < n, v.getD t x = w.getD t y) : v = w := by
  apply List.ext_getElem (by omega)
  intro t h1 h2
  have := h t (by omega)
  rwa [← getElem_eq_getD h1, ← getElem_eq_getD h2] at this

variable {s : ArrowheadSparsity} {T : ArrowheadTypes} {d : Dims} {N : Nat}

/-- Two factors of the same type with the same values are the same. -/
theorem factor_ext [Zero K] [Sub K] [Mul K] [Div K] {f g : ArrowheadFactor K} (hT : TypesOk s T d) (hf : f.Declared s T d N)
    (hg : g.Declared s T d N)
    (h1 : ∀ p ≤ N + 2, (∀ i j, ((chainPat T d N).cD p).Has i j →
        (f.chainVals N).l (chainPat T d N) p i j = (g.chainVals N).l (chainPat T d N) p i j) ∧
      ∀ i < (chainPat T d N).n p, (f.chainVals N).d p i = (g.chainVals N).d p i)
    (h2 : ∀ p < N + 2, ∀ i j, ((chainPat T d N).cS p).Has i j →
        (f.chainVals N).s (chainPat T d N) p i j = (g.chainVals N).s (chainPat T d N) p i j)
    (h3 : ∀ p ≤ N + 2, ∀ i j, ((chainPat T d N).cO p).Has i j →
        (f.chainVals N).o (chainPat T d N) p i j = (g.chainVals N).o (chainPat T d N) p i j)
    (h4 : ∀ i j, T.outerDiag.Has i j →
        (f.chainVals N).e (chainPat T d N) i j = (g.chainVals N).e (chainPat T d N) i j)
    (h5 : ∀ i < d.outer, (f.chainVals N).g i = (g.chainVals N).g i) : f = g := by
  obtain ⟨fD, fS, fO⟩ := getD_ofType' hf
  obtain ⟨gD, gS, gO⟩ := getD_ofType' hg
  have e1 : f.startDiag = g.startDiag := hf.startDiag.ext hg.startDiag hT.startDiag.good
    (h1 0 (Nat.zero_le _)).1 (h1 0 (Nat.zero_le _)).2
  have e2 : f.startNext = g.startNext := hf.startNext.ext hg.startNext hT.startNext.good (h2 0 (by omega))
  have e3 : f.startOuter = g.startOuter := hf.startOuter.ext hg.startOuter hT.startOuter.good (h3 0 (by omega))
  have e4 : f.tridiagDiag = g.tridiagDiag := by
    refine list_ext_of_getD hf.numDiag hg.numDiag f.startDiag g.startDiag fun t ht => ?_
    have := h1 (t + 1) (by omega)
    simp only [chainPat, ChainVals.l, ChainVals.d, ArrowheadFactor.chainVals, sel_succ ht] at this
    exact (fD t ht).ext (gD t ht) hT.tridiagDiag.good this.1 this.2
  have e5 : f.tridiagSubdiag = g.tridiagSubdiag := by
    refine list_ext_of_getD hf.numSubdiag hg.numSubdiag f.startNext g.startNext fun t ht => ?_
    have := h2 (t + 1) (by omega)
    simp only [chainPat, ChainVals.s, ArrowheadFactor.chainVals, sel_succ ht] at this
    exact (fS t ht).ext (gS t ht) hT.tridiagSubdiag.good this
  have e6 : f.linkPrev = g.linkPrev := by
    have := h2 (N + 1) (by omega)
    simp only [chainPat, ChainVals.s, ArrowheadFactor.chainVals, sel_last (Nat.le_refl _)] at this
    exact hf.linkPrev.ext hg.linkPrev hT.linkPrev.good this
  have e7 : f.linkDiag = g.linkDiag := by
    have := h1 (N + 2) (by omega)
    simp only [chainPat, ChainVals.l, ChainVals.d, ArrowheadFactor.chainVals, sel_last (Nat.le_refl _)] at this
    exact hf.linkDiag.ext hg.linkDiag hT.linkDiag.good this.1 this.2
  have e8 : f.linkNext = g.linkNext := by
    have := h3 (N + 2) (by omega)
    simp only [chainPat, ChainVals.o, ArrowheadFactor.chainVals, sel_last (Nat.le_refl _)] at this
    exact hf.linkNext.ext hg.linkNext hT.linkNext.good this
  have e9 : f.outerSubdiag = g.outerSubdiag := by
    refine list_ext_of_getD hf.numOuter hg.numOuter f.startOuter g.startOuter fun t ht => ?_
    have := h3 (t + 1) (by omega)
    simp only [chainPat, ChainVals.o, ArrowheadFactor.chainVals, sel_succ ht] at this
    exact (fO t ht).ext (gO t ht) hT.outerSubdiag.good this
  have e10 : f.outerDiag = g.outerDiag := hf.outerDiag.ext hg.outerDiag hT.outerDiag.good h4 h5
  obtain ⟨⟩ := f
  obtain ⟨⟩ := g
  simp only at e1 e2 e3 e4 e5 e6 e7 e8 e9 e10
  subst e1 e2 e3 e4 e5 e6 e7 e8 e9 e10
  rfl

variable [Zero K] [Sub K] [Mul K] [Div K]

theorem factor_unique {f g : ArrowheadFactor K} (hT : TypesOk s T d) (hf : f.Declared s T d N)
    (hg : g.Declared s T d N) {I J : ChainInput K} {reg : K → Nat → K} {method : Method}
    (hF : ChainRows (chainPat T d N) (N + 2) (f.chainVals N) I reg method)
    (hG : ChainRows (chainPat T d N) (N + 2) (g.chainVals N) J reg method)
    (hIJ : I.Same J (chainPat T d N) (N + 2)) : f = g := by
  obtain ⟨h1, h2, h3, h4, h5⟩ := hF.unique (chainPat_ok hT N) hG hIJ
  exact factor_ext hT hf hg h1 h2 h3 h4 h5

/-- The factorization depends on the values of the matrix in the lower triangle only. -/
theorem factorize_unique {f g : ArrowheadFactor K} (hs : s.Valid d) (hT : TypesOk s T d) (hf : f.Declared s T d N)
    (hg : g.Declared s T d N) {m m' : ArrowheadMatrix K} (hm : MatrixOk m s T d N) (hm' : MatrixOk m' s T d N)
    (reg : K → Nat → K) (method : Method) (hI : (m.chainInput s N).Same (m'.chainInput s N) (chainPat T d N) (N + 2)) :
    f.factorize d.tridiag d.link d.outer m reg method = g.factorize d.tridiag d.link d.outer m' reg method := by
  obtain ⟨f', h1, h2, h3⟩ := arrowheadFactorize_sat hs hT hf hm reg method
  obtain ⟨g', h4, h5, h6⟩ := arrowheadFactorize_sat hs hT hg hm' reg method
  rw [h1, h4, factor_unique hT h2 h5 h3 h6 hI]

omit [Sub K] [Mul K] [Div K] in
theorem sym_congr {m m' : MatIn K} (h : ∀ i j, j ≤ i → m.elem i j = m'.elem i j) (i j : Nat) :
    m.sym i j = m'.sym i j := h _ _ (by omega)

omit [Sub K] [Mul K] [Div K] in
theorem chainInput_same {m m' : ArrowheadMatrix K} (s : ArrowheadSparsity) (X : ChainPat)
    (h1 : N ≤ m.tridiagSubdiag.length) (h2 : N + 1 ≤ m.outerSubdiag.length) (h1' : N ≤ m'.tridiagSubdiag.length)
    (h2' : N + 1 ≤ m'.outerSubdiag.length)
    (hd : ∀ a ∈ blocks N, ∀ i j, j ≤ i → (m.diagBlock a).elem i j = (m'.diagBlock a).elem i j)
    (hl : ∀ a b q q', m.lowerBlock N a b = some q → m'.lowerBlock N a b = some q' → ∀ i j, q.elem i j = q'.elem i j) :
    (m.chainInput s N).Same (m'.chainInput s N) X (N + 2) := by
  have hst := hd .start (mem_start N)
  have htr : ∀ t < N + 1, _ := fun t ht => hd (.tridiag t) (mem_tridiag ht)
  have hli := hd .link (mem_link N)
  have hou := hd .outer (mem_outer N)
  refine ⟨?_, ?_, ?_, ?_, ?_, ?_⟩
  · intro p hp i j _
    rcases pos_cases hp with rfl | ⟨t, ht, rfl⟩ | rfl
    · exact sym_congr hst _ _
    · simp only [ArrowheadMatrix.chainInput, sel_succ ht]
      exact sym_congr (htr t ht) _ _
    · simp only [ArrowheadMatrix.chainInput, sel_last (Nat.le_refl _)]
      exact sym_congr hli _ _
  · intro p hp i _
    rcases pos_cases hp with rfl | ⟨t, ht, rfl⟩ | rfl
    · exact sym_congr hst _ _
    · simp only [ArrowheadMatrix.chainInput, sel_succ ht]
      exact sym_congr (htr t ht) _ _
    · simp only [ArrowheadMatrix.chainInput, sel_last (Nat.le_refl _)]
      exact sym_congr hli _ _
  · intro p hp i j _
    rcases pos_cases' (N := N) (p := p) (by omega) with rfl | ⟨t, ht, rfl⟩ | rfl
    · exact hl (.tridiag 0) .start _ _ rfl rfl _ _
    · simp only [ArrowheadMatrix.chainInput, sel_succ ht]
      refine hl (.tridiag (t + 1)) (.tridiag t) _ _ ?_ ?_ _ _
      · simp only [ArrowheadMatrix.lowerBlock]
        rw [if_pos ⟨trivial, ht⟩, getElem?_eq_getD (by omega)]
      · simp only [ArrowheadMatrix.lowerBlock]
        rw [if_pos ⟨trivial, ht⟩, getElem?_eq_getD (by omega)]
    · simp only [ArrowheadMatrix.chainInput, sel_last (Nat.le_refl _)]
      exact hl .link (.tridiag N) _ _ (if_pos rfl) (if_pos rfl) _ _
  · intro p hp i j _
    rcases pos_cases hp with rfl | ⟨t, ht, rfl⟩ | rfl
    · exact hl .outer .start _ _ rfl rfl _ _
    · simp only [ArrowheadMatrix.chainInput, sel_succ ht]
      refine hl .outer (.tridiag t) _ _ ?_ ?_ _ _
      · simp only [ArrowheadMatrix.lowerBlock]
        rw [if_pos (by omega), getElem?_eq_getD (by omega)]
      · simp only [ArrowheadMatrix.lowerBlock]
        rw [if_pos (by omega), getElem?_eq_getD (by omega)]
    · simp only [ArrowheadMatrix.chainInput, sel_last (Nat.le_refl _)]
      exact hl .outer .link _ _ rfl rfl _ _
  · intro i j _
    exact sym_congr hou _ _
  · intro i _
    exact sym_congr hou _ _

omit [Sub K] [Mul K] [Div K] in
theorem chainInput_same_refl (I : ChainInput K) (X : ChainPat) (M : Nat) : I.Same I X M :=
  ⟨fun _ _ _ _ _ => rfl, fun _ _ _ _ => rfl, fun _ _ _ _ _ => rfl, fun _ _ _ _ _ => rfl, fun _ _ _ => rfl,
    fun _ _ => rfl⟩

end

section

variable {K : Type} [Field K] {s : ArrowheadSparsity} {T : ArrowheadTypes} {d : Dims} {N : Nat}

/-- With non-zero pivots both methods compute the same. -/
theorem factorize_method {f g : ArrowheadFactor K} (hs : s.Valid d) (hT : TypesOk s T d) (hf : f.Declared s T d N)
    {m : ArrowheadMatrix K} (hm : MatrixOk m s T d N) (reg : K → Nat → K) (method method' : Method)
    (h : f.factorize d.tridiag d.link d.outer m reg method = .ok g)
    (hp : ∀ a b i j, T.Has N a i b j → g.pivotAt b j ≠ 0) :
    f.factorize d.tridiag d.link d.outer m reg method' = .ok g := by
  obtain ⟨h2, h3⟩ := Sat.of_ok (arrowheadFactorize_sat hs hT hf hm reg method) h
  obtain ⟨g', h4, h5, h6⟩ := arrowheadFactorize_sat hs hT hf hm reg method'
  rw [h4]
  exact congrArg _ (factor_unique hT h5 h2 h6 (h3.method (chainPat_ok hT N) (pivotsOk_of h2 hp) method')
    (chainInput_same_refl _ _ _))

end

end Ctldl
