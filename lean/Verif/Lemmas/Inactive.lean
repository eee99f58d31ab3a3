import Verif.Lemmas.ArrowheadUnique

/-! # Exchanging the regularization -/

namespace Ctldl

variable {K : Type} [Zero K] [Sub K] [Mul K] [Div K]

theorem MethodRow.exchange {method : Method} {c11 c21 c22 : Csr} {l11 : Nat → Nat → K} {d1 : Nat → K}
    {a21 a22 : Nat → Nat → K} {aD : Nat → K} {reg reg' : K → Nat → K} {l21 l22 : Nat → Nat → K} {d2 : Nat → K} {i : Nat}
    (h : MethodRow method c11 c21 c22 l11 d1 a21 a22 aD reg l21 l22 d2 i)
    (hreg : ∀ y, reg y i = d2 i → reg' y i = d2 i) :
    MethodRow method c11 c21 c22 l11 d1 a21 a22 aD reg' l21 l22 d2 i := by
  cases method with
  | upLooking =>
    obtain ⟨w1, w2, h1, h2, h3, h4, h5⟩ := h
    exact ⟨w1, w2, h1, h2, h3, h4, (hreg _ h5.symm).symm⟩
  | entryWise =>
    obtain ⟨h1, h2, h3⟩ := h
    exact ⟨h1, h2, (hreg _ h3.symm).symm⟩

theorem SingleRow.exchange {method : Method} {c : Csr} {a : Nat → Nat → K} {aD : Nat → K} {reg reg' : K → Nat → K}
    {l : Nat → Nat → K} {d : Nat → K} {i : Nat} (h : SingleRow method c a aD reg l d i)
    (hreg : ∀ y, reg y i = d i → reg' y i = d i) : SingleRow method c a aD reg' l d i := by
  obtain ⟨c11, c21, h1, h2, h3, h4, L11, L21, d1, a21, h5⟩ := h
  exact ⟨c11, c21, h1, h2, h3, h4, L11, L21, d1, a21, h5.exchange hreg⟩

theorem ChainRows.exchange {X : ChainPat} {M : Nat} {V : ChainVals K} {I : ChainInput K} {reg reg' : K → Nat → K}
    {method : Method} (h : ChainRows X M V I reg method)
    (hd : ∀ p ≤ M, ∀ i < X.n p, ∀ y, reg y i = V.d p i → reg' y i = V.d p i)
    (hg : ∀ i < X.nO, ∀ y, reg y i = V.g i → reg' y i = V.g i) : ChainRows X M V I reg' method := by
  refine ⟨fun i hi => (h.first i hi).exchange (hd 0 (Nat.zero_le _) i hi),
    fun p hp i hi => (h.inner p hp i hi).exchange (hd (p + 1) hp i hi), ?_⟩
  obtain ⟨x, e, eD, x0, e0, eD0, hP, hlast⟩ := h.outer
  exact ⟨x, e, eD, x0, e0, eD0, hP, fun i hi => (hlast i hi).exchange (hg i hi)⟩

theorem factorize_exchange {f f' : DiagFactor K} {n : Nat} (h : Closed1 f n) {m : MatIn K} (hm : Fits1 m f n)
    {reg reg' : K → Nat → K} {method : Method} (hf : f.factorize m reg method = .ok f')
    (hreg : ∀ i < n, ∀ y, reg y i = f'.d i → reg' y i = f'.d i) : f.factorize m reg' method = .ok f' := by
  obtain ⟨L, D, rfl, hL, hD, hr⟩ := Sat.of_ok (factorize_sat h hm reg method) hf
  obtain ⟨g, hg, L', D', rfl, hL', hD', hr'⟩ := factorize_sat h hm reg' method
  rw [hg]
  have := singleRow_unique hr' (fun i hi => (hr i hi).exchange (hreg i hi)) h.ok.lower (fun _ _ _ => rfl)
    (fun _ _ => rfl)
  have q1 : L' = L := val_ext h.ok.good hL' hL fun i j hij => this.1 i j (h.ok.rows ▸ h.ok.good.row_lt hij) hij
  have q2 : D' = D := list_ext_getD hD' hD this.2
  rw [q1, q2]

theorem arrowheadFactorize_exchange {s : ArrowheadSparsity} {T : ArrowheadTypes} {d : Dims} {N : Nat}
    {f f' : ArrowheadFactor K} (hs : s.Valid d) (hT : TypesOk s T d) (hf : f.Declared s T d N) {m : ArrowheadMatrix K}
    (hm : MatrixOk m s T d N) {reg reg' : K → Nat → K} {method : Method}
    (h : f.factorize d.tridiag d.link d.outer m reg method = .ok f')
    (hreg : ∀ a ∈ blocks N, ∀ i < d.of a, ∀ y, reg y i = f'.pivotAt a i → reg' y i = f'.pivotAt a i) :
    f.factorize d.tridiag d.link d.outer m reg' method = .ok f' := by
  obtain ⟨h2, h3⟩ := Sat.of_ok (arrowheadFactorize_sat hs hT hf hm reg method) h
  obtain ⟨g, h4, h5, h6⟩ := arrowheadFactorize_sat hs hT hf hm reg' method
  rw [h4]
  have key : ∀ p ≤ N + 3, ∀ i < chainN (chainPat T d N) (N + 2) p, ∀ y,
      reg y i = chainD (f'.chainVals N) (N + 2) p i → reg' y i = chainD (f'.chainVals N) (N + 2) p i := by
    intro p hp i hi y hy
    obtain ⟨a, ha, rfl⟩ := exists_rank (N := N) hp
    rw [← dims_of_eq ha] at hi
    rw [← factor_pivotAt_eq h2 ha] at hy ⊢
    exact hreg a ha i hi y hy
  refine congrArg _ (factor_unique hT h5 h2 h6 (h3.exchange ?_ ?_) (chainInput_same_refl _ _ _))
  · intro p hp i hi y hy
    have := key p (by omega) i (by rw [chainN_le hp]; exact hi) y
    unfold chainD at this
    rw [if_pos hp] at this
    exact this hy
  · intro i hi y hy
    have := key (N + 3) (by omega) i (by rw [chainN_outer]; exact hi) y
    unfold chainD at this
    rw [if_neg (by omega)] at this
    exact this hy

end Ctldl
