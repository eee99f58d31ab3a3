import Verif.Spec.Rounding
import Verif.Lemmas.ArrowheadFactorize
import Mathlib.Data.List.GetD

/-! # The entries of the lower triangular factors are quotients -/

namespace Ctldl

variable {K : Type} [Zero K] [Sub K] [Mul K] [Div K] {P : K → Prop}

theorem methodRow_quotient (hP : ∀ a b, P (a / b)) {method : Method} {c11 c21 c22 : Csr} {l11 : Nat → Nat → K}
    {d1 : Nat → K} {a21 a22 : Nat → Nat → K} {aD : Nat → K} {reg : K → Nat → K} {l21 l22 : Nat → Nat → K} {d2 : Nat → K}
    {i : Nat} (h : MethodRow method c11 c21 c22 l11 d1 a21 a22 aD reg l21 l22 d2 i) :
    (∀ j, c21.Has i j → P (l21 i j)) ∧ ∀ j, c22.Has i j → P (l22 i j) := by
  cases method with
  | upLooking =>
    obtain ⟨w1, w2, -, h1, -, h2, -⟩ := h
    exact ⟨fun j hj => h1 j hj ▸ hP _ _, fun j hj => h2 j hj ▸ hP _ _⟩
  | entryWise =>
    obtain ⟨h1, h2, -⟩ := h
    exact ⟨fun j hj => (h1 j hj : l21 i j = _) ▸ hP _ _, fun j hj => (h2 j hj : l22 i j = _) ▸ hP _ _⟩

theorem singleRow_quotient (hP : ∀ a b, P (a / b)) {method : Method} {c : Csr} {a : Nat → Nat → K} {aD : Nat → K}
    {reg : K → Nat → K} {l : Nat → Nat → K} {d : Nat → K} {i : Nat} (h : SingleRow method c a aD reg l d i) :
    ∀ j, c.Has i j → P (l i j) := by
  obtain ⟨_, _, -, -, -, -, _, _, _, _, h⟩ := h
  exact (methodRow_quotient hP h).2

/-- The entries of the factors of a chain of blocks have a property. -/
structure ChainVals.Entries (V : ChainVals K) (X : ChainPat) (M : Nat) (P : K → Prop) : Prop where
  l : ∀ p ≤ M, ∀ i j, (X.cD p).Has i j → P (V.l X p i j)
  s : ∀ p < M, ∀ i j, (X.cS p).Has i j → P (V.s X p i j)
  o : ∀ p ≤ M, ∀ i j, (X.cO p).Has i j → P (V.o X p i j)
  e : ∀ i j, X.cE.Has i j → P (V.e X i j)

theorem ChainRows.quotient (hP : ∀ a b, P (a / b)) {X : ChainPat} {M : Nat} (hX : X.Ok M) {V : ChainVals K}
    {I : ChainInput K} {reg : K → Nat → K} {method : Method} (h : ChainRows X M V I reg method) : V.Entries X M P := by
  obtain ⟨h1, h2, x, e, eD, -, -, -, h3, h4⟩ := h
  have lt : ∀ {c : Csr} {r k : Nat}, CsrOk c r k → ∀ {i j}, c.Has i j → i < r :=
    fun hc _ _ h => hc.rows ▸ hc.good.row_lt h
  refine ⟨fun p hp i j hh => ?_, fun p hp i j hh => ?_, fun p hp i j hh => ?_, fun i j hh => ?_⟩
  · have hi := lt (hX.hD p hp) hh
    cases p with
    | zero => exact singleRow_quotient hP (h1 i hi) j hh
    | succ p => exact (methodRow_quotient hP (h2 p hp i hi)).2 j hh
  · exact (methodRow_quotient hP (h2 p hp i (lt (hX.hS p hp) hh))).1 j hh
  · have hi := lt (hX.hO p hp) hh
    rcases Nat.lt_or_ge p M with hp' | hp'
    · obtain ⟨w, -, h5, -⟩ := (h3 p hp').2.2 i hi
      rw [h5 j hh]
      exact hP _ _
    · obtain rfl : p = M := Nat.le_antisymm hp hp'
      exact (methodRow_quotient hP (h4 i hi)).1 j hh
  · exact (methodRow_quotient hP (h4 i (lt hX.hE hh))).2 j hh

omit [Sub K] [Mul K] [Div K] in
theorem ArrowheadFactor.Entries.of_all (f : ArrowheadFactor K) (h : ∀ x, P x) : f.Entries P :=
  ⟨fun _ _ _ => h _, fun _ _ _ => h _, fun _ _ _ => h _, fun _ _ _ _ _ => h _, fun _ _ _ _ _ => h _, fun _ _ _ => h _,
    fun _ _ _ => h _, fun _ _ _ => h _, fun _ _ _ _ _ => h _, fun _ _ _ => h _⟩

omit [Sub K] [Mul K] [Div K] in
theorem ArrowheadFactor.entries_of_chain {f : ArrowheadFactor K} {s : ArrowheadSparsity} {T : ArrowheadTypes} {d : Dims}
    {N : Nat} (hf : f.Declared s T d N) (h : (f.chainVals N).Entries (chainPat T d N) (N + 2) P) : f.Entries P := by
  have key : ∀ {A : Type} {l : List A} {n : Nat} (_ : l.length = n) (q : A → Prop) (y : A)
      (_ : ∀ t < n, q (l.getD t y)), ∀ g ∈ l, q g := by
    intro A l n hn q y hq g hg
    obtain ⟨t, ht, rfl⟩ := List.mem_iff_getElem.mp hg
    have := hq t (hn ▸ ht)
    rwa [List.getD_eq_getElem _ _ ht] at this
  obtain ⟨hDt, hSt, hOt⟩ := getD_ofType' hf
  have hd : ∀ {g : DiagFactor K} {c : Csr} {p : List Nat} {n : Nat}, g.OfType c p n →
      (∀ i j, c.Has i j → P (val c g.L i j)) → g.Entries P := by
    intro g c p n hg hh i j hij
    change P (val g.sparsity g.L i j)
    rw [hg.pattern]
    exact hh i j (by rw [← hg.pattern]; exact hij)
  have hs : ∀ {g : SubFactor K} {c : Csr} {p q : List Nat}, g.OfType c p q →
      (∀ i j, c.Has i j → P (val c g.L i j)) → g.Entries P := by
    intro g c p q hg hh i j hij
    change P (val g.sparsity g.L i j)
    rw [hg.pattern]
    exact hh i j (by rw [← hg.pattern]; exact hij)
  refine ⟨hd hf.startDiag ?_, hs hf.startNext ?_, hs hf.startOuter ?_, key hf.numDiag _ f.startDiag fun t ht => hd (hDt t ht) ?_,
    key hf.numSubdiag _ f.startNext fun t ht => hs (hSt t ht) ?_, hs hf.linkPrev ?_, hd hf.linkDiag ?_, hs hf.linkNext ?_,
    key hf.numOuter _ f.startOuter fun t ht => hs (hOt t ht) ?_, hd hf.outerDiag ?_⟩
  · exact h.l 0 (by omega)
  · exact h.s 0 (by omega)
  · exact h.o 0 (by omega)
  · have := h.l (t + 1) (by omega)
    simpa only [ChainVals.l, ArrowheadFactor.chainVals, chainPat, sel_succ ht] using this
  · have := h.s (t + 1) (by omega)
    simpa only [ChainVals.s, ArrowheadFactor.chainVals, chainPat, sel_succ ht] using this
  · have := h.s (N + 1) (by omega)
    simpa only [ChainVals.s, ArrowheadFactor.chainVals, chainPat, sel_last (Nat.le_refl _)] using this
  · have := h.l (N + 2) (by omega)
    simpa only [ChainVals.l, ArrowheadFactor.chainVals, chainPat, sel_last (Nat.le_refl _)] using this
  · have := h.o (N + 2) (by omega)
    simpa only [ChainVals.o, ArrowheadFactor.chainVals, chainPat, sel_last (Nat.le_refl _)] using this
  · have := h.o (t + 1) (by omega)
    simpa only [ChainVals.o, ArrowheadFactor.chainVals, chainPat, sel_succ ht] using this
  · exact h.e

end Ctldl
