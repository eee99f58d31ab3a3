import Verif.Spec.Shaped
import Verif.Lemmas.ArrowheadUnique

/-! # Rejection of undeclared non-zeros by the factorization of the repeating block matrix -/

namespace Ctldl

section

variable {α β : Type _}

/-- Either a result with `P` or rejection at compile time. -/
def SatOr (m : Res α) (P : α → Prop) : Prop := Sat m P ∨ m = .error .staticAssert

theorem SatOr.ok {a : α} {P : α → Prop} (h : P a) : SatOr (.ok a : Res α) P := Or.inl (Sat.ok h)

theorem SatOr.bind {m : Res α} {f : α → Res β} {P : α → Prop} {Q : β → Prop} (hm : SatOr m P)
    (hf : ∀ a, P a → SatOr (f a) Q) : SatOr (m >>= f) Q := by
  rcases hm with ⟨a, rfl, ha⟩ | rfl
  · exact hf a ha
  · exact Or.inr rfl

theorem SatOr.mono {m : Res α} {P Q : α → Prop} (hm : SatOr m P) (h : ∀ a, P a → Q a) : SatOr m Q :=
  hm.imp (fun h' => h'.mono h) id

theorem foldlM_range_or {σ : Type _} {f : σ → Nat → Res σ} {n : Nat} {init : σ} (I : Nat → σ → Prop)
    (h0 : I 0 init) (hstep : ∀ i s, i < n → I i s → SatOr (f s i) (I (i + 1))) :
    SatOr ((List.range n).foldlM f init) (I n) := by
  induction n with
  | zero => exact SatOr.ok h0
  | succ n ih =>
    rw [List.range_succ, List.foldlM_append]
    refine SatOr.bind (ih fun i s hi => hstep i s (by omega)) fun s hs => ?_
    simp only [List.foldlM_cons, List.foldlM_nil]
    refine SatOr.bind (hstep n s (by omega) hs) fun s hs => SatOr.ok hs

end

section

variable {K : Type} [Zero K] [Sub K] [Mul K] [Div K]

theorem firstStep_or {c : Csr} {p : List Nat} {n : Nat} (hc : CsrOk c n n) (low : ∀ i j, c.Has i j → j < i)
    (hp : IsPerm p n) (small : n ≤ noParent)
    (closed : ∀ i j k, c.Has i j → c.Has k j → k < i → c.Has i k) {f : DiagFactor K} (h : f.OfType c p n)
    {m : MatIn K} (hm : m.Sized) (hd : m.sparsity.OfDims n n) (reg : K → Nat → K) (method : Method) :
    SatOr (f.factorize m reg method) (fun f' => f'.OfType c p n ∧ DiagFits m c p n) := by
  by_cases hsub : ∀ i j, LowerPermuted m.sparsity p i j → c.Has i j
  · have hfit : DiagFits m c p n := ⟨hm, hd, hsub⟩
    exact Or.inl ((firstStep_sat hc low hp small closed h hfit reg method).mono fun f' h' => ⟨h'.1, hfit⟩)
  · right
    have hf := h.diagOk hc low hp
    obtain ⟨c', p', L, D⟩ := f
    obtain ⟨h1, h2, h3, h4⟩ := h
    simp only at h1 h2 h3 h4
    subst h1 h2
    obtain ⟨f11, f21, h11, h21, hpr, hpc, z11, z21, hun⟩ := factorize_unfold ⟨hf, hp, small, closed⟩
    rw [hun m reg method _ rfl rfl]
    rcases staticAsserts_eq h11 h21 hf ⟨hp, hpr, hpc, by rw [Nat.zero_add]; exact small⟩
      (initDims_empty n 0) (init22 := .matrix m) hd with ⟨-, hs, -⟩ | ⟨-, he⟩
    · exact absurd hs.1 hsub
    · cases method with
      | upLooking =>
        simp only [factorizeBlocks, factorizeUpLooking]
        rw [he]
        rfl
      | entryWise =>
        simp only [factorizeBlocks, factorizeEntryWise]
        rw [he]
        rfl

theorem blockStep_or {c11 c21 c22 : Csr} {p1 p2 : List Nat} {n1 n2 : Nat} (k11 : CsrOk c11 n1 n1)
    (k21 : CsrOk c21 n2 n1) (k22 : CsrOk c22 n2 n2) (low11 : ∀ i j, c11.Has i j → j < i)
    (low22 : ∀ i j, c22.Has i j → j < i) (hp1 : IsPerm p1 n1) (hp2 : IsPerm p2 n2) (small : n1 + n2 ≤ noParent)
    (hcl : Closed2 c11.Has c21.Has c22.Has) {f11 : DiagFactor K} {f21 : SubFactor K} {f22 : DiagFactor K}
    (h11 : f11.OfType c11 p1 n1) (h21 : f21.OfType c21 p2 p1) (h22 : f22.OfType c22 p2 n2) {m21 m22 : MatIn K}
    (hm21 : m21.Sized) (hd21 : m21.sparsity.OfDims n2 n1) (hm22 : m22.Sized) (hd22 : m22.sparsity.OfDims n2 n2)
    (reg : K → Nat → K) (method : Method) :
    SatOr (factorizeBlocks f11 (.matrix m21) (.matrix m22) f21 f22 reg method) (fun st =>
      (st.1.OfType c21 p2 p1 ∧ st.2.OfType c22 p2 n2) ∧ SubFits m21 c21 p2 p1 n2 n1 ∧ DiagFits m22 c22 p2 n2) := by
  by_cases hsub : (∀ i j, LowerPermuted m22.sparsity p2 i j → c22.Has i j) ∧
      ∀ i j, RectPermuted m21.sparsity p2 p1 i j → c21.Has i j
  · have hf1 : SubFits m21 c21 p2 p1 n2 n1 := ⟨hm21, hd21, hsub.2⟩
    have hf2 : DiagFits m22 c22 p2 n2 := ⟨hm22, hd22, hsub.1⟩
    exact Or.inl ((blockStep_sat k11 k21 k22 low11 low22 hp1 hp2 small hcl h11 h21 h22 hf1 hf2 reg method).mono
      fun st h => ⟨⟨h.1, h.2.1⟩, hf1, hf2⟩)
  · right
    have g11 := h11.diagOk k11 low11 hp1
    have g21 := h21.subOk k21 hp2 hp1
    have g22 := h22.diagOk k22 low22 hp2
    obtain ⟨_, _, L11, D11⟩ := f11
    obtain ⟨_, _, _, L21⟩ := f21
    obtain ⟨_, _, L22, D22⟩ := f22
    obtain ⟨rfl, rfl, a3, a4⟩ := h11
    obtain ⟨rfl, rfl, e3, b4⟩ := h21
    obtain ⟨rfl, e4, d3, d4⟩ := h22
    simp only at e3 e4
    subst e3 e4
    rcases staticAsserts_eq (init21 := .matrix m21) (init22 := .matrix m22) g11 g21 g22 ⟨hp2, hp2, hp1, small⟩
      hd21 hd22 with ⟨-, hs, -⟩ | ⟨-, he⟩
    · exact absurd hs hsub
    · cases method with
      | upLooking =>
        simp only [factorizeBlocks, factorizeUpLooking]
        rw [he]
        rfl
      | entryWise =>
        simp only [factorizeBlocks, factorizeEntryWise]
        rw [he]
        rfl

variable {s : ArrowheadSparsity} {T : ArrowheadTypes} {d : Dims} {N : Nat} {m : ArrowheadMatrix K}

omit [Zero K] [Sub K] [Mul K] [Div K] in
theorem shaped_diag (h : m.Shaped d N) {b : Blk} (hb : b ∈ blocks N) {q : MatIn K} (hq : m.diagBlock b = q) :
    q.Sized ∧ q.sparsity.OfDims (d.of b) (d.of b) := hq ▸ h.diag b hb

omit [Zero K] [Sub K] [Mul K] [Div K] in
theorem shaped_subdiag (h : m.Shaped d N) {t : Nat} (ht : t < N) :
    (m.tridiagSubdiag.getD t (.empty K)).Sized ∧
      (m.tridiagSubdiag.getD t (.empty K)).sparsity.OfDims d.tridiag d.tridiag := by
  refine h.lower (.tridiag (t + 1)) (.tridiag t) _ ?_
  simp only [ArrowheadMatrix.lowerBlock]
  rw [if_pos ⟨trivial, ht⟩, getElem?_eq_getD (by have := h.numSubdiag; omega)]

omit [Zero K] [Sub K] [Mul K] [Div K] in
theorem shaped_outer (h : m.Shaped d N) {t : Nat} (ht : t < N + 1) :
    (m.outerSubdiag.getD t (.empty K)).Sized ∧
      (m.outerSubdiag.getD t (.empty K)).sparsity.OfDims d.outer d.tridiag := by
  refine h.lower .outer (.tridiag t) _ ?_
  simp only [ArrowheadMatrix.lowerBlock]
  rw [if_pos (by omega), getElem?_eq_getD (by have := h.numOuter; omega)]

/-- The part of `MatrixOk` which the first part of `factorize` checks. -/
theorem factorizeInner_or (hs : s.Valid d) (hT : TypesOk s T d) {f : ArrowheadFactor K} (hf : f.Declared s T d N)
    (hm : m.Shaped d N) (reg : K → Nat → K) (method : Method) :
    SatOr (f.factorizeInner m reg method) (fun _ => MatrixOk m s T d N) := by
  obtain ⟨hDt, hSt, -⟩ := getD_ofType' hf
  have hsm := hs.smallStart
  have hsm2 := hs.smallTridiag
  have hsm3 := hs.smallLink
  have q0 := shaped_diag hm (mem_start N) rfl
  have qt : ∀ t < N + 1, _ := fun t ht => shaped_diag hm (mem_tridiag (N := N) ht) rfl
  have ql := shaped_diag hm (mem_link N) rfl
  have qo := shaped_diag hm (mem_outer N) rfl
  have qn := hm.lower (.tridiag 0) .start _ rfl
  have qp := hm.lower .link (.tridiag N) _ (if_pos rfl)
  have qso := hm.lower .outer .start _ rfl
  have qlo := hm.lower .outer .link _ rfl
  unfold ArrowheadFactor.factorizeInner ArrowheadFactor.numRepetitions
  simp only [hf.numSubdiag]
  refine SatOr.bind (firstStep_or hT.startDiag hT.lowStart hs.permStart (by omega) hT.cStart.c11 hf.startDiag
    q0.1 q0.2 reg method) ?_
  rintro g0 ⟨t0, r0⟩
  rw [rd_getD_of_lt (show 0 < m.tridiagDiag.length by have := hm.numDiag; omega) (.empty K), ok_bind,
    rd_getD_of_lt (show 0 < f.tridiagDiag.length by rw [hf.numDiag]; omega) f.startDiag, ok_bind]
  refine SatOr.bind (blockStep_or hT.startDiag hT.startNext hT.tridiagDiag hT.lowStart hT.lowTridiag hs.permStart
    hs.permTridiag (by omega) hT.cStart t0 hf.startNext (hDt 0 (by omega)) qn.1 qn.2 (qt 0 (by omega)).1
    (qt 0 (by omega)).2 reg method) ?_
  rintro ⟨g1, g2⟩ ⟨⟨t1, t2⟩, r1, r2⟩
  simp only at t1 t2 ⊢
  rw [wr_ok (by rw [hf.numDiag]; omega), ok_bind]
  refine SatOr.bind (foldlM_range_or (fun k (st : List (DiagFactor K) × List (SubFactor K)) =>
      st.1.length = N + 1 ∧ st.2.length = N ∧
      (∀ g ∈ st.1, g.OfType T.tridiagDiag s.tridiag.permutation d.tridiag) ∧
      (∀ g ∈ st.2, g.OfType T.tridiagSubdiag s.tridiag.permutation s.tridiag.permutation) ∧
      (∀ t < k + 1, DiagFits (m.tridiagDiag.getD t (.empty K)) T.tridiagDiag s.tridiag.permutation d.tridiag) ∧
      ∀ t < k, SubFits (m.tridiagSubdiag.getD t (.empty K)) T.tridiagSubdiag s.tridiag.permutation
        s.tridiag.permutation d.tridiag d.tridiag) ?_ ?_) ?_
  · refine ⟨by simp [hf.numDiag], hf.numSubdiag, mem_set_imp hf.tridiagDiag t2, hf.tridiagSubdiag, ?_,
      fun t ht => by omega⟩
    intro t ht
    have : t = 0 := by omega
    subst this
    exact r2
  · rintro k ⟨v, w⟩ hk ⟨k1, k2, k3, k4, k5, k6⟩
    simp only at k1 k2 k3 k4 k5 k6 ⊢
    rw [rd_getD_of_lt (show k < v.length by omega) g0, ok_bind,
      rd_getD_of_lt (show k < m.tridiagSubdiag.length by have := hm.numSubdiag; omega) (.empty K), ok_bind,
      rd_getD_of_lt (show k + 1 < m.tridiagDiag.length by have := hm.numDiag; omega) (.empty K), ok_bind,
      rd_getD_of_lt (show k < w.length by omega) g1, ok_bind,
      rd_getD_of_lt (show k + 1 < v.length by omega) g0, ok_bind]
    refine SatOr.bind (blockStep_or hT.tridiagDiag hT.tridiagSubdiag hT.tridiagDiag hT.lowTridiag hT.lowTridiag
      hs.permTridiag hs.permTridiag (by omega) hT.cTridiag (k3 _ (getD_mem (by omega) _))
      (k4 _ (getD_mem (by omega) _)) (k3 _ (getD_mem (by omega) _)) (shaped_subdiag hm hk).1 (shaped_subdiag hm hk).2
      (qt (k + 1) (by omega)).1 (qt (k + 1) (by omega)).2 reg method) ?_
    rintro ⟨g3, g4⟩ ⟨⟨t3, t4⟩, r3, r4⟩
    simp only at t3 t4 ⊢
    rw [wr_ok (by omega), ok_bind, wr_ok (by omega), ok_bind]
    refine SatOr.ok ⟨by simp [k1], by simp [k2], mem_set_imp k3 t4, mem_set_imp k4 t3, ?_, ?_⟩
    · intro t ht
      rcases Nat.lt_or_eq_of_le (Nat.le_of_lt_succ ht) with hlt | rfl
      · exact k5 t hlt
      · exact r4
    · intro t ht
      rcases Nat.lt_or_eq_of_le (Nat.le_of_lt_succ ht) with hlt | rfl
      · exact k6 t hlt
      · exact r3
  rintro ⟨v, w⟩ ⟨k1, k2, k3, k4, k5, k6⟩
  simp only at k1 k2 k3 k4 k5 k6 ⊢
  rw [rd_getD_of_lt (show N < v.length by omega) g0, ok_bind]
  refine SatOr.bind (blockStep_or hT.tridiagDiag hT.linkPrev hT.linkDiag hT.lowTridiag hT.lowLink
      hs.permTridiag hs.permLink (by omega) hT.cLink (k3 _ (getD_mem (by omega) _)) hf.linkPrev hf.linkDiag
      qp.1 qp.2 ql.1 ql.2 reg method) ?_
  rintro ⟨g5, g6⟩ ⟨-, r5, r6⟩
  exact SatOr.ok ⟨hm.numDiag, hm.numSubdiag, hm.numOuter, r0, r1, k5, k6, r5, r6, qso.1,
    fun t ht => (shaped_outer hm ht).1, qlo.1, qo.1⟩

/-- The blocks which are not in the outer block row are within the declared pattern. -/
def InnerCovered (m : ArrowheadMatrix K) (s : ArrowheadSparsity) (T : ArrowheadTypes) (N : Nat) : Prop :=
  ∀ a i b j, a ≠ .outer → a ∈ blocks N → m.PermutedHas s N a i b j → T.Has N a i b j

omit [Zero K] [Sub K] [Mul K] [Div K] in
theorem diagBlock_has {b : Blk} {i j : Nat} (h : T.Has N b i b j) : (T.diagBlock b).Has i j := by
  rcases h with ⟨-, h⟩ | ⟨G, h, -⟩
  · exact h
  · rcases b with _ | (_ | t) | _ | _
    · cases h
    · cases h
    · simp only [ArrowheadTypes.lowerBlock] at h
      rw [if_neg (by omega)] at h
      cases h
    · cases h
    · cases h

omit [Zero K] [Sub K] [Mul K] [Div K] in
theorem lowerBlock_has {a b : Blk} {i j : Nat} {c : Csr} (hab : a ≠ b) (hc : T.lowerBlock N a b = some c)
    (h : T.Has N a i b j) : c.Has i j := by
  rcases h with ⟨h, -⟩ | ⟨G, h, h'⟩
  · exact absurd h hab
  · beta_reduce at h
    rw [hc] at h
    cases h
    exact h'

omit [Zero K] [Sub K] [Mul K] [Div K] in
theorem matrixOk_of_covered (hm : m.Shaped d N) (h : InnerCovered m s T N) : MatrixOk m s T d N := by
  have diag : ∀ b, b ≠ .outer → ∀ hb : b ∈ blocks N, DiagFits (m.diagBlock b) (T.diagBlock b) (s.perm b) (d.of b) :=
    fun b hne hb => ⟨(hm.diag b hb).1, (hm.diag b hb).2, fun i j hij =>
      diagBlock_has (h b i b j hne hb (Or.inl ⟨rfl, hij⟩))⟩
  have low : ∀ a b q c, a ≠ .outer → a ∈ blocks N → a ≠ b → m.lowerBlock N a b = some q →
      T.lowerBlock N a b = some c → SubFits q c (s.perm a) (s.perm b) (d.of a) (d.of b) :=
    fun a b q c hne ha hab hq hc => ⟨(hm.lower a b q hq).1, (hm.lower a b q hq).2, fun i j hij =>
      lowerBlock_has hab hc (h a i b j hne ha (Or.inr ⟨_, by beta_reduce; rw [hq]; rfl, hij⟩))⟩
  refine ⟨hm.numDiag, hm.numSubdiag, hm.numOuter, diag .start (by simp) (mem_start N),
    low (.tridiag 0) .start _ _ (by simp) (mem_tridiag (by omega)) (by simp) rfl rfl,
    fun t ht => diag (.tridiag t) (by simp) (mem_tridiag ht), fun t ht => ?_,
    low .link (.tridiag N) _ _ (by simp) (mem_link N) (by simp) (if_pos rfl) (if_pos rfl),
    diag .link (by simp) (mem_link N), (hm.lower .outer .start _ rfl).1, fun t ht => (shaped_outer hm ht).1,
    (hm.lower .outer .link _ rfl).1, (hm.diag .outer (mem_outer N)).1⟩
  refine low (.tridiag (t + 1)) (.tridiag t) _ _ (by simp) (mem_tridiag (by omega)) (by simp) ?_ ?_
  · simp only [ArrowheadMatrix.lowerBlock]
    rw [if_pos ⟨trivial, ht⟩, getElem?_eq_getD (by have := hm.numSubdiag; omega)]
  · simp only [ArrowheadTypes.lowerBlock]
    rw [if_pos ⟨trivial, ht⟩]

omit [Zero K] [Sub K] [Mul K] [Div K] in
theorem covered_of_matrixOk (h : MatrixOk m s T d N) : InnerCovered m s T N := by
  rintro a i b j hne ha (⟨rfl, hij⟩ | ⟨G, hG, hij⟩)
  · refine Or.inl ⟨rfl, ?_⟩
    cases a with
    | start => exact h.startDiag.subset i j hij
    | tridiag t => exact (h.tridiagDiag t (mem_blocks.mp ha t rfl)).subset i j hij
    | link => exact h.linkDiag.subset i j hij
    | outer => exact absurd rfl hne
  · refine Or.inr ?_
    rcases a with _ | (_ | t) | _ | _ <;> rcases b with _ | u | _ | _ <;>
      simp only [ArrowheadMatrix.lowerBlock] at hG <;> try contradiction
    · cases hG
      exact ⟨_, rfl, h.startNext.subset i j hij⟩
    · by_cases hu : u = t ∧ t < N
      · rw [if_pos hu, getElem?_eq_getD (by have := h.numSubdiag; omega) (.empty K)] at hG
        cases hG
        refine ⟨_, ?_, (h.tridiagSubdiag t hu.2).subset i j ?_⟩
        · simp only [ArrowheadTypes.lowerBlock]
          rw [if_pos hu]
          rfl
        · exact hij
      · rw [if_neg hu] at hG
        cases hG
    · by_cases hu : u = N
      · rw [if_pos hu] at hG
        cases hG
        refine ⟨_, ?_, h.linkPrev.subset i j hij⟩
        simp only [ArrowheadTypes.lowerBlock]
        rw [if_pos hu]
        rfl
      · rw [if_neg hu] at hG
        cases hG

end

end Ctldl
