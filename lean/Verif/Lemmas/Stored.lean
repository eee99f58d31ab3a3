import Verif.Lemmas.Quotients
import Verif.Lemmas.ArrowheadBlocks
import Verif.Lemmas.ArrowheadSolve

/-! # Which results are differences or quotients -/

namespace Ctldl

variable {K : Type} [Zero K] [Sub K] [Mul K] [Div K] {P : K → Prop}

omit [Zero K] [Mul K] [Div K] in
theorem subAll_closed (hP : ∀ a b, P (a - b)) {ι : Type} {ks : List ι} {f : ι → K} {a : K} (ha : P a) : P (subAll ks f a) := by
  induction ks generalizing a with
  | nil => exact ha
  | cons k ks ih => exact ih (hP _ _)

theorem methodRow_pivot (hP : ∀ a b, P (a - b)) {method : Method} {c11 c21 c22 : Csr} {l11 : Nat → Nat → K}
    {d1 : Nat → K} {a21 a22 : Nat → Nat → K} {aD : Nat → K} {reg : K → Nat → K} {l21 l22 : Nat → Nat → K} {d2 : Nat → K}
    {i : Nat} (h : MethodRow method c11 c21 c22 l11 d1 a21 a22 aD reg l21 l22 d2 i) (ha : P (aD i)) :
    ∃ x, P x ∧ d2 i = reg x i := by
  cases method with
  | upLooking =>
    obtain ⟨w1, w2, -, -, -, -, h⟩ := h
    exact ⟨_, subAll_closed hP (subAll_closed hP ha), h⟩
  | entryWise =>
    obtain ⟨-, -, h⟩ := h
    exact ⟨_, subAll_closed hP (subAll_closed hP ha), h⟩

theorem ChainRows.pivot (hP : ∀ a b, P (a - b)) {X : ChainPat} {M : Nat} {V : ChainVals K}
    {I : ChainInput K} {reg : K → Nat → K} {method : Method} (h : ChainRows X M V I reg method)
    (hD : ∀ p i, P (I.aD p i)) (hE : ∀ i, P (I.hD i)) {p : Nat} (hp : p ≤ M + 1) {i : Nat} (hi : i < chainN X M p) :
    ∃ x, P x ∧ chainD V M p i = reg x i := by
  obtain ⟨h1, h2, x, e, eD, -, -, e0, h3, h4⟩ := h
  unfold chainN at hi
  unfold chainD
  split
  · next hle =>
    rw [if_pos hle] at hi
    cases p with
    | zero =>
      obtain ⟨_, _, -, -, -, -, _, _, _, _, h⟩ := h1 i hi
      exact methodRow_pivot hP h (hD _ _)
    | succ p => exact methodRow_pivot hP (h2 p hle i hi) (hD _ _)
  · next hle =>
    rw [if_neg hle] at hi
    refine methodRow_pivot hP (h4 i hi) ?_
    have : ∀ q ≤ M, P (eD q i) := by
      intro q
      induction q with
      | zero => exact fun _ => e0 ▸ hE i
      | succ q ih =>
        intro hq
        obtain ⟨w, -, -, -, -, h5⟩ := (h3 q hq).2.2 i hi
        rw [h5]
        exact subAll_closed hP (ih (by omega))
    exact this M le_rfl

section

variable {c : Csr} {p pr pc : List Nat} {n r k : Nat}

theorem bwd_closed (hP : ∀ a b, P (a - b)) {f : SubFactor K} (h : f.OfType c pr pc) (hc : CsrOk c r k)
    (hpr : IsPerm pr r) (hpc : IsPerm pc k) {sol ps v : List K} (hsol : sol.length = r) (hps : ps.length = k)
    (hv : solveBackwardSubstitution f sol ps = .ok v) {j : Nat} (hj : j < k) (hx : P (ps.getD (permAt pc j) 0)) :
    P (v.getD (permAt pc j) 0) := by
  have ho := h.subOk hc hpr hpc
  obtain ⟨w, h1, -, h2⟩ := backward_sat ho (by rw [h.permRow]; exact hpr)
    (by rw [h.permCol]; exact hpc) hsol hps
  rw [hv] at h1
  cases h1
  rw [h.permRow, h.permCol] at h2
  rw [show v.getD (permAt pc j) 0 = _ from h2 j hj]
  exact subAll_closed hP hx

theorem bwdIn_closed (hP : ∀ a b, P (a - b)) {f : DiagFactor K} (h : f.OfType c p n) (hc : CsrOk c n n)
    (low : ∀ i j, c.Has i j → j < i) (hp : IsPerm p n) {rhs v : List K} (hr : rhs.length = n)
    (hv : solveBackwardSubstitutionInPlace f rhs = .ok v) {j : Nat} (hj : j < n) (hx : P (rhs.getD (permAt p j) 0)) :
    P (v.getD (permAt p j) 0) := by
  have ho := h.diagOk hc low hp
  obtain ⟨w, h1, -, h2⟩ := backwardInPlace_sat ho (by rw [h.perm]; exact hp) hr
  rw [hv] at h1
  cases h1
  rw [h.perm] at h2
  rw [show v.getD (permAt p j) 0 = _ from h2 j hj]
  exact subAll_closed hP hx

end

/-- Elements of the solution are differences or quotients. -/
theorem solve_closed (hP : ∀ a b, P (a - b)) (hP' : ∀ a b, P (a / b)) {f : ArrowheadFactor K} {s : ArrowheadSparsity}
    {T : ArrowheadTypes} {d : Dims} {N : Nat} (hs : s.Valid d) (hT : TypesOk s T d) (hf : f.Declared s T d N)
    {b : ArrowheadVector K} (hb : b.OfSize d N) :
    Sat (f.solveInPlace b) fun x => ∀ a ∈ blocks N, ∀ i < d.of a, P (x.at a (permAt (s.perm a) i)) := by
  obtain ⟨hDt, hSt, hOt⟩ := getD_ofType' hf
  unfold ArrowheadFactor.solveInPlace
  refine Sat.bind (forwardSolve_steps hs hT hf hb) ?_
  rintro y ⟨hy, -⟩
  refine Sat.bind (arrowheadDiagonalSolve_sat hs hT hf hy) ?_
  rintro z ⟨hr, hz⟩
  have hz' : ∀ a ∈ blocks N, ∀ i < d.of a, P (z.at a (permAt (s.perm a) i)) := by
    intro a ha i hi
    rw [hz a ha i hi]
    exact hP' _ _
  refine Sat.mono (backwardSolve_steps hs hT hf hr) ?_
  rintro v ⟨hv, l, ts, us, s1, s2, st, ll, lts, lus, ls1, ls2⟩ a ha i hi
  have h0 := hz' a ha i hi
  cases a with
  | start =>
    exact bwdIn_closed hP hf.startDiag hT.startDiag hT.lowStart hs.permStart ls2 st.start3 hi
      (bwd_closed hP hf.startNext hT.startNext hs.permTridiag hs.permStart (hv.block (by omega)) ls1 st.start2 hi
        (bwd_closed hP hf.startOuter hT.startOuter hs.permOuter hs.permStart hv.outer hr.start st.start1 hi h0))
  | link =>
    exact bwdIn_closed hP hf.linkDiag hT.linkDiag hT.lowLink hs.permLink ll st.link2 hi
      (bwd_closed hP hf.linkNext hT.linkNext hs.permOuter hs.permLink hv.outer hr.link st.link1 hi h0)
  | outer => exact bwdIn_closed hP hf.outerDiag hT.outerDiag hT.lowOuter hs.permOuter hr.outer st.outer hi h0
  | tridiag t =>
    have ht := mem_blocks.mp ha t rfl
    refine bwdIn_closed hP (hDt t ht) hT.tridiagDiag hT.lowTridiag hs.permTridiag (lus t ht) (st.tridiag3 t ht) hi ?_
    have h1 := bwd_closed hP (hOt t ht) hT.outerSubdiag hs.permOuter hs.permTridiag hv.outer (hr.block ht)
      (st.tridiag1 t ht) hi h0
    by_cases htN : t = N
    · subst htN
      exact bwd_closed hP hf.linkPrev hT.linkPrev hs.permLink hs.permTridiag hv.link (lts t ht) st.last hi h1
    · exact bwd_closed hP (hSt t (by omega)) hT.tridiagSubdiag hs.permTridiag hs.permTridiag
        (hv.block (by omega)) (lts t ht) (st.tridiag2 t (by omega)) hi h1

end Ctldl
