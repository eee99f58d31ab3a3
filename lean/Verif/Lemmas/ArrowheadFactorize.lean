import Verif.Lemmas.ArrowheadSteps

/-! # The arrowhead factorization on values, for any arithmetic -/

namespace Ctldl

/-- Patterns of the chain start, tridiag 0, ..., tridiag N, link. -/
def chainPat (T : ArrowheadTypes) (d : Dims) (N : Nat) : ChainPat where
  n := sel (N + 1) d.start (fun _ => d.tridiag) d.link
  nO := d.outer
  cD := sel (N + 1) T.startDiag (fun _ => T.tridiagDiag) T.linkDiag
  cS := sel N T.startNext (fun _ => T.tridiagSubdiag) T.linkPrev
  cO := sel (N + 1) T.startOuter (fun _ => T.outerSubdiag) T.linkNext
  cE := T.outerDiag

theorem chainPat_ok {s : ArrowheadSparsity} {T : ArrowheadTypes} {d : Dims} (h : TypesOk s T d) (N : Nat) :
    (chainPat T d N).Ok (N + 2) := by
  refine ⟨?_, ?_, ?_, h.outerDiag, ?_, h.lowOuter, ?_, ?_, ?_, ?_, ?_, ?_⟩
  · intro p hp
    rcases pos_cases hp with rfl | ⟨t, ht, rfl⟩ | rfl
    · exact h.startDiag
    · simp only [chainPat, sel_succ ht]
      exact h.tridiagDiag
    · simp only [chainPat, sel_last (Nat.le_refl _)]
      exact h.linkDiag
  · intro p hp
    rcases pos_cases' hp with rfl | ⟨t, ht, rfl⟩ | rfl
    · simp only [chainPat, sel_zero, sel_succ (Nat.succ_pos N)]
      exact h.startNext
    · simp only [chainPat, sel_succ ht, sel_succ (show t < N + 1 by omega), sel_succ (show t + 1 < N + 1 by omega)]
      exact h.tridiagSubdiag
    · simp only [chainPat, sel_last (Nat.le_refl _), sel_succ (Nat.lt_succ_self N)]
      exact h.linkPrev
  · intro p hp
    rcases pos_cases hp with rfl | ⟨t, ht, rfl⟩ | rfl
    · exact h.startOuter
    · simp only [chainPat, sel_succ ht]
      exact h.outerSubdiag
    · simp only [chainPat, sel_last (Nat.le_refl _)]
      exact h.linkNext
  · intro p hp
    rcases pos_cases hp with rfl | ⟨t, ht, rfl⟩ | rfl
    · exact h.lowStart
    · simp only [chainPat, sel_succ ht]
      exact h.lowTridiag
    · simp only [chainPat, sel_last (Nat.le_refl _)]
      exact h.lowLink
  · exact h.cStart.c11
  · intro p hp
    rcases pos_cases' hp with rfl | ⟨t, ht, rfl⟩ | rfl
    · simp only [chainPat, sel_zero, sel_succ (Nat.succ_pos N)]
      exact h.cStart
    · simp only [chainPat, sel_succ ht, sel_succ (show t < N + 1 by omega), sel_succ (show t + 1 < N + 1 by omega)]
      exact h.cTridiag
    · simp only [chainPat, sel_last (Nat.le_refl _), sel_succ (Nat.lt_succ_self N)]
      exact h.cLink
  · simp only [chainPat, sel_last (Nat.le_refl _)]
    exact h.cOuter
  · intro p hp
    rcases pos_cases' hp with rfl | ⟨t, ht, rfl⟩ | rfl
    · exact h.oStart1
    · simp only [chainPat, sel_succ (show t < N + 1 by omega)]
      exact h.oTridiag1
    · simp only [chainPat, sel_succ (Nat.lt_succ_self N)]
      exact h.oTridiag1
  · intro p hp
    rcases pos_cases' hp with rfl | ⟨t, ht, rfl⟩ | rfl
    · simp only [chainPat, sel_zero, sel_succ (Nat.succ_pos N)]
      exact h.oStart2
    · simp only [chainPat, sel_succ ht, sel_succ (show t < N + 1 by omega), sel_succ (show t + 1 < N + 1 by omega)]
      exact h.oTridiag2
    · simp only [chainPat, sel_last (Nat.le_refl _), sel_succ (Nat.lt_succ_self N)]
      exact h.oLink2
  · intro p hp
    rcases pos_cases' hp with rfl | ⟨t, ht, rfl⟩ | rfl
    · exact h.oStart3
    · simp only [chainPat, sel_succ (show t < N + 1 by omega)]
      exact h.oTridiag3
    · simp only [chainPat, sel_succ (Nat.lt_succ_self N)]
      exact h.oTridiag3

section

variable {K : Type}

/-- Values of the chain. -/
def ArrowheadFactor.chainVals (f : ArrowheadFactor K) (N : Nat) : ChainVals K where
  L := sel (N + 1) f.startDiag.L (fun t => (f.tridiagDiag.getD t f.startDiag).L) f.linkDiag.L
  D := sel (N + 1) f.startDiag.D (fun t => (f.tridiagDiag.getD t f.startDiag).D) f.linkDiag.D
  S := sel N f.startNext.L (fun t => (f.tridiagSubdiag.getD t f.startNext).L) f.linkPrev.L
  O := sel (N + 1) f.startOuter.L (fun t => (f.outerSubdiag.getD t f.startOuter).L) f.linkNext.L
  E := f.outerDiag.L
  G := f.outerDiag.D

/-- Input of the chain. -/
def ArrowheadMatrix.chainInput [Zero K] (m : ArrowheadMatrix K) (s : ArrowheadSparsity) (N : Nat) : ChainInput K where
  a := sel (N + 1) (inA m.startDiag s.start.permutation)
    (fun t => inA (m.tridiagDiag.getD t (.empty K)) s.tridiag.permutation) (inA m.linkDiag s.link.permutation)
  aD := sel (N + 1) (inD m.startDiag s.start.permutation)
    (fun t => inD (m.tridiagDiag.getD t (.empty K)) s.tridiag.permutation) (inD m.linkDiag s.link.permutation)
  b := sel N (inB m.startNext s.tridiag.permutation s.start.permutation)
    (fun t => inB (m.tridiagSubdiag.getD t (.empty K)) s.tridiag.permutation s.tridiag.permutation)
    (inB m.linkPrev s.link.permutation s.tridiag.permutation)
  c := sel (N + 1) (inB m.startOuter s.outer.permutation s.start.permutation)
    (fun t => inB (m.outerSubdiag.getD t (.empty K)) s.outer.permutation s.tridiag.permutation)
    (inB m.linkNext s.outer.permutation s.link.permutation)
  h := inA m.outerDiag s.outer.permutation
  hD := inD m.outerDiag s.outer.permutation

/-- The input suits the blocks. -/
structure MatrixOk (m : ArrowheadMatrix K) (s : ArrowheadSparsity) (T : ArrowheadTypes) (d : Dims) (N : Nat) :
    Prop where
  numDiag : N + 1 ≤ m.tridiagDiag.length
  numSubdiag : N ≤ m.tridiagSubdiag.length
  numOuter : N + 1 ≤ m.outerSubdiag.length
  startDiag : DiagFits m.startDiag T.startDiag s.start.permutation d.start
  startNext : SubFits m.startNext T.startNext s.tridiag.permutation s.start.permutation d.tridiag d.start
  tridiagDiag : ∀ t < N + 1, DiagFits (m.tridiagDiag.getD t (.empty K)) T.tridiagDiag s.tridiag.permutation d.tridiag
  tridiagSubdiag : ∀ t < N, SubFits (m.tridiagSubdiag.getD t (.empty K)) T.tridiagSubdiag s.tridiag.permutation
    s.tridiag.permutation d.tridiag d.tridiag
  linkPrev : SubFits m.linkPrev T.linkPrev s.link.permutation s.tridiag.permutation d.link d.tridiag
  linkDiag : DiagFits m.linkDiag T.linkDiag s.link.permutation d.link
  startOuter : m.startOuter.Sized
  outerSubdiag : ∀ t < N + 1, (m.outerSubdiag.getD t (.empty K)).Sized
  linkNext : m.linkNext.Sized
  outerDiag : m.outerDiag.Sized

theorem getD_ofType' {f : ArrowheadFactor K} {s : ArrowheadSparsity} {T : ArrowheadTypes} {d : Dims} {N : Nat}
    (hf : f.Declared s T d N) :
    (∀ t < N + 1, (f.tridiagDiag.getD t f.startDiag).OfType T.tridiagDiag s.tridiag.permutation d.tridiag) ∧
    (∀ t < N, (f.tridiagSubdiag.getD t f.startNext).OfType T.tridiagSubdiag s.tridiag.permutation
      s.tridiag.permutation) ∧
    ∀ t < N + 1, (f.outerSubdiag.getD t f.startOuter).OfType T.outerSubdiag s.outer.permutation
      s.tridiag.permutation :=
  ⟨fun t ht => hf.tridiagDiag _ (getD_mem (by rw [hf.numDiag]; exact ht) _),
    fun t ht => hf.tridiagSubdiag _ (getD_mem (by rw [hf.numSubdiag]; exact ht) _),
    fun t ht => hf.outerSubdiag _ (getD_mem (by rw [hf.numOuter]; exact ht) _)⟩

variable [Zero K] [Sub K] [Mul K] [Div K]

theorem mem_set_imp {α : Type} {P : α → Prop} {v : List α} (h : ∀ g ∈ v, P g) {i : Nat} {x : α} (hx : P x) :
    ∀ g ∈ v.set i x, P g := by
  intro g hg
  rcases List.mem_or_eq_of_mem_set hg with h' | rfl
  · exact h g h'
  · exact hx

/-- The first part of `factorize`. -/
theorem factorizeInner_sat {f : ArrowheadFactor K} {s : ArrowheadSparsity} {T : ArrowheadTypes} {d : Dims} {N : Nat}
    (hs : s.Valid d) (hT : TypesOk s T d) (hf : f.Declared s T d N) {m : ArrowheadMatrix K}
    (hm : MatrixOk m s T d N) (reg : K → Nat → K) (method : Method) :
    Sat (f.factorizeInner m reg method) (fun f' => f'.Declared s T d N ∧
      (∀ i < d.start, SingleRow method T.startDiag (inA m.startDiag s.start.permutation)
        (inD m.startDiag s.start.permutation) reg (val T.startDiag f'.startDiag.L)
        (fun a => f'.startDiag.D.getD a 0) i) ∧
      ∀ p < N + 2, ∀ i < (chainPat T d N).n (p + 1), MethodRow method ((chainPat T d N).cD p) ((chainPat T d N).cS p)
        ((chainPat T d N).cD (p + 1)) ((f'.chainVals N).l (chainPat T d N) p) ((f'.chainVals N).d p)
        ((m.chainInput s N).b p) ((m.chainInput s N).a (p + 1)) ((m.chainInput s N).aD (p + 1)) reg
        ((f'.chainVals N).s (chainPat T d N) p) ((f'.chainVals N).l (chainPat T d N) (p + 1))
        ((f'.chainVals N).d (p + 1)) i) := by
  obtain ⟨hDt, hSt, -⟩ := getD_ofType' hf
  have hsm := hs.smallStart
  have hsm2 := hs.smallTridiag
  have hsm3 := hs.smallLink
  unfold ArrowheadFactor.factorizeInner ArrowheadFactor.numRepetitions
  simp only [hf.numSubdiag]
  refine Sat.bind (firstStep_sat hT.startDiag hT.lowStart hs.permStart (by omega) hT.cStart.c11 hf.startDiag
    hm.startDiag reg method) ?_
  rintro g0 ⟨t0, r0⟩
  rw [rd_getD_of_lt (show 0 < m.tridiagDiag.length by have := hm.numDiag; omega) (.empty K), ok_bind,
    rd_getD_of_lt (show 0 < f.tridiagDiag.length by rw [hf.numDiag]; omega) f.startDiag, ok_bind]
  refine Sat.bind (blockStep_sat hT.startDiag hT.startNext hT.tridiagDiag hT.lowStart hT.lowTridiag hs.permStart
    hs.permTridiag (by omega) hT.cStart t0 hf.startNext (hDt 0 (by omega)) hm.startNext
    (hm.tridiagDiag 0 (by omega)) reg method) ?_
  rintro ⟨g1, g2⟩ ⟨t1, t2, r1⟩
  simp only at t1 t2 r1 ⊢
  rw [wr_ok (by rw [hf.numDiag]; omega), ok_bind]
  refine Sat.bind (foldlM_range_inv (fun k (st : List (DiagFactor K) × List (SubFactor K)) =>
      st.1.length = N + 1 ∧ st.2.length = N ∧
      (∀ g ∈ st.1, g.OfType T.tridiagDiag s.tridiag.permutation d.tridiag) ∧
      (∀ g ∈ st.2, g.OfType T.tridiagSubdiag s.tridiag.permutation s.tridiag.permutation) ∧
      st.1.getD 0 g0 = g2 ∧
      ∀ t < k, ∀ i < d.tridiag, MethodRow method T.tridiagDiag T.tridiagSubdiag T.tridiagDiag
        (val T.tridiagDiag (st.1.getD t g0).L) (fun a => (st.1.getD t g0).D.getD a 0)
        (inB (m.tridiagSubdiag.getD t (.empty K)) s.tridiag.permutation s.tridiag.permutation)
        (inA (m.tridiagDiag.getD (t + 1) (.empty K)) s.tridiag.permutation)
        (inD (m.tridiagDiag.getD (t + 1) (.empty K)) s.tridiag.permutation) reg
        (val T.tridiagSubdiag (st.2.getD t g1).L) (val T.tridiagDiag (st.1.getD (t + 1) g0).L)
        (fun a => (st.1.getD (t + 1) g0).D.getD a 0) i) ?_ ?_) ?_
  · refine ⟨by simp [hf.numDiag], hf.numSubdiag, mem_set_imp hf.tridiagDiag t2, hf.tridiagSubdiag, ?_,
      fun t ht => by omega⟩
    rw [getD_set_if (by rw [hf.numDiag]; omega), if_pos rfl]
  · rintro k ⟨v, w⟩ hk ⟨k1, k2, k3, k4, k5, k6⟩
    simp only at k1 k2 k3 k4 k5 k6 ⊢
    rw [rd_getD_of_lt (show k < v.length by omega) g0, ok_bind,
      rd_getD_of_lt (show k < m.tridiagSubdiag.length by have := hm.numSubdiag; omega) (.empty K), ok_bind,
      rd_getD_of_lt (show k + 1 < m.tridiagDiag.length by have := hm.numDiag; omega) (.empty K), ok_bind,
      rd_getD_of_lt (show k < w.length by omega) g1, ok_bind,
      rd_getD_of_lt (show k + 1 < v.length by omega) g0, ok_bind]
    refine Sat.bind (blockStep_sat hT.tridiagDiag hT.tridiagSubdiag hT.tridiagDiag hT.lowTridiag hT.lowTridiag
      hs.permTridiag hs.permTridiag (by omega) hT.cTridiag (k3 _ (getD_mem (by omega) _))
      (k4 _ (getD_mem (by omega) _)) (k3 _ (getD_mem (by omega) _)) (hm.tridiagSubdiag k hk)
      (hm.tridiagDiag (k + 1) (by omega)) reg method) ?_
    rintro ⟨g3, g4⟩ ⟨t3, t4, r3⟩
    simp only at t3 t4 r3 ⊢
    rw [wr_ok (by omega), ok_bind, wr_ok (by omega), ok_bind]
    refine Sat.ok ⟨by simp [k1], by simp [k2], mem_set_imp k3 t4, mem_set_imp k4 t3, ?_, ?_⟩
    · simp only
      rw [getD_set_if (by omega), if_neg (by omega)]
      exact k5
    · intro t ht
      simp only
      rw [getD_set_if (by omega), getD_set_if (by omega), getD_set_if (by omega)]
      rcases Nat.lt_or_eq_of_le (Nat.le_of_lt_succ ht) with hlt | rfl
      · rw [if_neg (by omega), if_neg (by omega), if_neg (by omega)]
        exact k6 t hlt
      · rw [if_neg (by omega), if_pos rfl, if_pos rfl]
        exact r3
  rintro ⟨v, w⟩ ⟨k1, k2, k3, k4, k5, k6⟩
  simp only at k1 k2 k3 k4 k5 k6 ⊢
  rw [rd_getD_of_lt (show N < v.length by omega) g0, ok_bind]
  refine Sat.bind (blockStep_sat hT.tridiagDiag hT.linkPrev hT.linkDiag hT.lowTridiag hT.lowLink
      hs.permTridiag hs.permLink (by omega) hT.cLink (k3 _ (getD_mem (by omega) _)) hf.linkPrev hf.linkDiag
      hm.linkPrev hm.linkDiag reg method) ?_
  rintro ⟨g5, g6⟩ ⟨t5, t6, r5⟩
  simp only at t5 t6 r5 ⊢
  refine Sat.ok ⟨⟨hf.types, k1, k2, hf.numOuter, t0, t1, hf.startOuter, k3, k4, t5, t6, hf.linkNext,
    hf.outerSubdiag, hf.outerDiag⟩, r0, ?_⟩
  intro p hp
  rcases pos_cases' hp with rfl | ⟨t, ht, rfl⟩ | rfl
  · simp only [chainPat, ArrowheadFactor.chainVals, ArrowheadMatrix.chainInput, ChainVals.l, ChainVals.s, ChainVals.d,
      sel_zero, sel_succ (Nat.succ_pos N)]
    rw [k5]
    exact r1
  · simp only [chainPat, ArrowheadFactor.chainVals, ArrowheadMatrix.chainInput, ChainVals.l, ChainVals.s, ChainVals.d,
      sel_succ ht, sel_succ (show t < N + 1 by omega), sel_succ (show t + 1 < N + 1 by omega)]
    exact k6 t ht
  · simp only [chainPat, ArrowheadFactor.chainVals, ArrowheadMatrix.chainInput, ChainVals.l, ChainVals.s, ChainVals.d,
      sel_last (Nat.le_refl _), sel_succ (Nat.lt_succ_self N)]
    exact r5

/-- The first `k` steps of the elimination of the outer block row. -/
def OuterRows (X : ChainPat) (k : Nat) (l sb : Nat → Nat → Nat → K) (d : Nat → Nat → K) (I : ChainInput K)
    (o x e : Nat → Nat → Nat → K) (eD : Nat → Nat → K) : Prop :=
  x 0 = I.c 0 ∧ e 0 = I.h ∧ eD 0 = I.hD ∧
  ∀ p < k, (∃ L, x (p + 1) = val (X.cO (p + 1)) L) ∧ (∃ L, e (p + 1) = val X.cE L) ∧
    ∀ i < X.nO, PartialRow (X.cD p) (X.cS p) (X.cO p) (X.cO (p + 1)) X.cE (l p) (sb p) (d p) (x p)
      (I.c (p + 1)) (e p) (eD p) (o p) (x (p + 1)) (e (p + 1)) (eD (p + 1)) i

theorem OuterRows.congr {X : ChainPat} {k : Nat} {l sb : Nat → Nat → Nat → K} {d : Nat → Nat → K}
    {I : ChainInput K} {o o' x e : Nat → Nat → Nat → K} {eD : Nat → Nat → K} (h : OuterRows X k l sb d I o x e eD)
    (ho : ∀ p < k, o p = o' p) : OuterRows X k l sb d I o' x e eD := by
  obtain ⟨h1, h2, h3, h4⟩ := h
  refine ⟨h1, h2, h3, fun p hp => ?_⟩
  rw [← ho p hp]
  exact h4 p hp

theorem OuterRows.extend {X : ChainPat} {k : Nat} {l sb : Nat → Nat → Nat → K} {d : Nat → Nat → K}
    {I : ChainInput K} {o x e : Nat → Nat → Nat → K} {eD : Nat → Nat → K} (h : OuterRows X k l sb d I o x e eD)
    {L32 L33 D : List K}
    (hr : ∀ i < X.nO, PartialRow (X.cD k) (X.cS k) (X.cO k) (X.cO (k + 1)) X.cE (l k) (sb k) (d k) (x k)
      (I.c (k + 1)) (e k) (eD k) (o k) (val (X.cO (k + 1)) L32) (val X.cE L33) (vec D) i) :
    ∃ x' e' eD', OuterRows X (k + 1) l sb d I o x' e' eD' ∧ x' (k + 1) = val (X.cO (k + 1)) L32 ∧
      e' (k + 1) = val X.cE L33 ∧ eD' (k + 1) = vec D := by
  obtain ⟨h1, h2, h3, h4⟩ := h
  refine ⟨fun p => if p = k + 1 then val (X.cO (k + 1)) L32 else x p,
    fun p => if p = k + 1 then val X.cE L33 else e p, fun p => if p = k + 1 then vec D else eD p,
    ⟨?_, ?_, ?_, ?_⟩, by simp, by simp, by simp⟩
  · simpa using h1
  · simpa using h2
  · simpa using h3
  · intro p hp
    simp only
    rw [if_neg (show ¬ p = k + 1 by omega), if_neg (show ¬ p = k + 1 by omega), if_neg (show ¬ p = k + 1 by omega)]
    rcases Nat.lt_or_eq_of_le (Nat.le_of_lt_succ hp) with hlt | rfl
    · rw [if_neg (show ¬ p + 1 = k + 1 by omega), if_neg (show ¬ p + 1 = k + 1 by omega),
        if_neg (show ¬ p + 1 = k + 1 by omega)]
      exact h4 p hlt
    · rw [if_pos rfl, if_pos rfl, if_pos rfl]
      exact ⟨⟨_, rfl⟩, ⟨_, rfl⟩, hr⟩

/-- Values of the outer block row. -/
def outerVals (T : ArrowheadTypes) (N : Nat) (so : SubFactor K) (v : List (SubFactor K)) (ln : SubFactor K) :
    Nat → Nat → Nat → K :=
  sel (N + 1) (val T.startOuter so.L) (fun t => val T.outerSubdiag (v.getD t so).L) (val T.linkNext ln.L)

/-- The second part of `factorize`. -/
theorem factorizeOuter_sat {f : ArrowheadFactor K} {s : ArrowheadSparsity} {T : ArrowheadTypes} {d : Dims} {N : Nat}
    (hs : s.Valid d) (hT : TypesOk s T d) (hf : f.Declared s T d N) {m : ArrowheadMatrix K}
    (hm : MatrixOk m s T d N) (reg : K → Nat → K) (method : Method) :
    Sat (f.factorizeOuter d.tridiag d.link d.outer m reg method) (fun f' => f'.Declared s T d N ∧
      f'.startDiag = f.startDiag ∧ f'.startNext = f.startNext ∧ f'.tridiagDiag = f.tridiagDiag ∧
      f'.tridiagSubdiag = f.tridiagSubdiag ∧ f'.linkPrev = f.linkPrev ∧ f'.linkDiag = f.linkDiag ∧
      ∃ x e eD, OuterRows (chainPat T d N) (N + 2) ((f.chainVals N).l (chainPat T d N))
          ((f.chainVals N).s (chainPat T d N)) (f.chainVals N).d (m.chainInput s N)
          (outerVals T N f'.startOuter f'.outerSubdiag f'.linkNext) x e eD ∧
        ∀ i < d.outer, MethodRow method T.linkDiag T.linkNext T.outerDiag (val T.linkDiag f.linkDiag.L)
          (vec f.linkDiag.D) (x (N + 2)) (e (N + 2)) (eD (N + 2)) reg (val T.linkNext f'.linkNext.L)
          (val T.outerDiag f'.outerDiag.L) (vec f'.outerDiag.D) i) := by
  obtain ⟨hDt, hSt, hOt⟩ := getD_ofType' hf
  have hsm := hs.smallStart
  have hsm2 := hs.smallTridiag
  have hsm3 := hs.smallLink
  have hN1 : 0 < N + 1 := by omega
  unfold ArrowheadFactor.factorizeOuter ArrowheadFactor.numRepetitions
  simp only [hf.numSubdiag]
  refine Sat.bind (fillIncludingDiagonal_sat hf.outerDiag hT.outerDiag hT.lowOuter hs.permOuter hm.outerDiag) ?_
  rintro q0 ⟨u0, w0, w0'⟩
  rw [rd_getD_of_lt (show 0 < m.outerSubdiag.length by have := hm.numOuter; omega) (.empty K), ok_bind,
    rd_getD_of_lt (show 0 < f.outerSubdiag.length by rw [hf.numOuter]; omega) f.startOuter, ok_bind]
  refine Sat.bind (partialStep_sat (init31 := .matrix m.startOuter) hT.startDiag hT.startNext hT.startOuter
    hT.outerSubdiag hT.outerDiag hT.lowStart
    hT.lowOuter hs.permStart hs.permTridiag hs.permOuter hT.oStart1 hT.oStart2 hT.oStart3 hf.startDiag hf.startNext
    hf.startOuter (hOt 0 (by omega)) u0 hm.startOuter (hm.outerSubdiag 0 (by omega))) ?_
  rintro ⟨so, g1, q1⟩ ⟨t1, t2, t3, r1⟩
  simp only at t1 t2 t3 r1 ⊢
  rw [wr_ok (by rw [hf.numOuter]; omega), ok_bind]
  refine Sat.bind (foldlM_range_inv (fun k (st : List (SubFactor K) × DiagFactor K) =>
      st.1.length = N + 1 ∧ (∀ g ∈ st.1, g.OfType T.outerSubdiag s.outer.permutation s.tridiag.permutation) ∧
      st.2.OfType T.outerDiag s.outer.permutation d.outer ∧
      ∃ x e eD, OuterRows (chainPat T d N) (k + 1) ((f.chainVals N).l (chainPat T d N))
        ((f.chainVals N).s (chainPat T d N)) (f.chainVals N).d (m.chainInput s N)
        (outerVals T N so st.1 f.linkNext) x e eD ∧
        x (k + 1) = val T.outerSubdiag (st.1.getD k so).L ∧
        e (k + 1) = val T.outerDiag st.2.L ∧ eD (k + 1) = vec st.2.D) ?_ ?_) ?_
  · refine ⟨by simp [hf.numOuter], mem_set_imp hf.outerSubdiag t2, t3, ?_⟩
    have h0 : OuterRows (chainPat T d N) 0 ((f.chainVals N).l (chainPat T d N))
        ((f.chainVals N).s (chainPat T d N)) (f.chainVals N).d (m.chainInput s N)
        (outerVals T N so (f.outerSubdiag.set 0 g1) f.linkNext) (fun _ => (m.chainInput s N).c 0)
        (fun _ => (m.chainInput s N).h) (fun _ => (m.chainInput s N).hD) := ⟨rfl, rfl, rfl, fun p hp => by omega⟩
    obtain ⟨x, e, eD, h1, h2, h3, h4⟩ := h0.extend (L32 := g1.L) (L33 := q1.L) (D := q1.D) (by
      simp only [chainPat, ArrowheadFactor.chainVals, ArrowheadMatrix.chainInput, outerVals, ChainVals.l, ChainVals.s,
        ChainVals.d, sel_zero, sel_succ hN1]
      intro i hi
      exact (r1 i hi).congr_on (fun _ _ => rfl) (fun _ _ => rfl) (fun j hj => w0 i j hj) (w0' i hi))
    refine ⟨x, e, eD, h1, ?_, h3, h4⟩
    rw [h2]
    simp only [chainPat, sel_succ hN1]
    rw [getD_set_if (by rw [hf.numOuter]; omega), if_pos rfl]
  · rintro k ⟨v, q⟩ hk ⟨k1, k2, k3, x, e, eD, k4, k5, k6, k7⟩
    simp only at k1 k2 k3 k4 k5 k6 k7 ⊢
    rw [rd_getD_of_lt (show k < f.tridiagDiag.length by rw [hf.numDiag]; omega) f.startDiag, ok_bind,
      rd_getD_of_lt (show k < f.tridiagSubdiag.length by rw [hf.numSubdiag]; omega) f.startNext, ok_bind,
      rd_getD_of_lt (show k + 1 < m.outerSubdiag.length by have := hm.numOuter; omega) (.empty K), ok_bind,
      rd_getD_of_lt (show k < v.length by omega) so, ok_bind,
      rd_getD_of_lt (show k + 1 < v.length by omega) so, ok_bind]
    refine Sat.bind (partialStep_sat (init31 := .none d.outer d.tridiag) hT.tridiagDiag hT.tridiagSubdiag hT.outerSubdiag
      hT.outerSubdiag hT.outerDiag hT.lowTridiag
      hT.lowOuter hs.permTridiag hs.permTridiag hs.permOuter hT.oTridiag1 hT.oTridiag2 hT.oTridiag3
      (hDt k (by omega)) (hSt k hk) (k2 _ (getD_mem (by omega) _)) (k2 _ (getD_mem (by omega) _)) k3
      ⟨hT.outerSubdiag.rows.symm, hT.outerSubdiag.cols.symm⟩ (hm.outerSubdiag (k + 1) (by omega))) ?_
    rintro ⟨g3, g4, q3⟩ ⟨t4, t5, t6, r3⟩
    simp only at t4 t5 t6 r3 ⊢
    rw [wr_ok (by omega), ok_bind, wr_ok (by simp; omega), ok_bind]
    refine Sat.ok ⟨by simp [k1], mem_set_imp (mem_set_imp k2 t4) t5, t6, ?_⟩
    have hset : ∀ t, ((v.set k g3).set (k + 1) g4).getD t so =
        if t = k + 1 then g4 else if t = k then g3 else v.getD t so := by
      intro t
      rw [getD_set_if (by simp; omega), getD_set_if (by omega)]
    have h0 := k4.congr (o' := outerVals T N so ((v.set k g3).set (k + 1) g4) f.linkNext) (by
      intro p hp
      unfold outerVals
      refine sel_congr (fun _ => rfl) (fun t ht1 ht2 => ?_) (fun _ => rfl)
      rw [hset, if_neg (by omega), if_neg (by omega)])
    obtain ⟨x', e', eD', h1, h2, h3, h4⟩ := h0.extend (L32 := g4.L) (L33 := q3.L) (D := q3.D) (by
      simp only [k5, k6, k7]
      simp only [chainPat, ArrowheadFactor.chainVals, ArrowheadMatrix.chainInput, outerVals, ChainVals.l, ChainVals.s,
        ChainVals.d, sel_succ hk, sel_succ (show k < N + 1 by omega), sel_succ (show k + 1 < N + 1 by omega)]
      rw [hset, if_neg (by omega), if_pos rfl]
      exact r3)
    refine ⟨x', e', eD', h1, ?_, h3, h4⟩
    rw [h2, hset, if_pos rfl]
    simp only [chainPat, sel_succ (show k + 1 < N + 1 by omega)]
  rintro ⟨v, q⟩ ⟨k1, k2, k3, x, e, eD, k4, k5, k6, k7⟩
  simp only at k1 k2 k3 k4 k5 k6 k7 ⊢
  rw [rd_getD_of_lt (show N < f.tridiagDiag.length by rw [hf.numDiag]; omega) f.startDiag, ok_bind,
    rd_getD_of_lt (show N < v.length by omega) so, ok_bind]
  refine Sat.bind (partialStep_sat (init31 := .none d.outer d.tridiag) hT.tridiagDiag hT.linkPrev hT.outerSubdiag
      hT.linkNext hT.outerDiag hT.lowTridiag
      hT.lowOuter hs.permTridiag hs.permLink hs.permOuter hT.oTridiag1 hT.oLink2 hT.oTridiag3
      (hDt N (by omega)) hf.linkPrev (k2 _ (getD_mem (by omega) _)) hf.linkNext k3
      ⟨hT.outerSubdiag.rows.symm, hT.outerSubdiag.cols.symm⟩ hm.linkNext) ?_
  rintro ⟨g5, ln, q5⟩ ⟨t7, t8, t9, r5⟩
  simp only at t7 t8 t9 r5 ⊢
  rw [wr_ok (by omega), ok_bind]
  refine Sat.bind (blockStepNone_sat hT.linkDiag hT.linkNext hT.outerDiag hT.lowLink hT.lowOuter hs.permLink
    hs.permOuter (by omega) hT.cOuter hf.linkDiag t8 t9 reg method) ?_
  rintro ⟨ln', q6⟩ ⟨t10, t11, r6⟩
  simp only at t10 t11 r6 ⊢
  refine Sat.ok ⟨⟨hf.types, hf.numDiag, hf.numSubdiag, by simp [k1], hf.startDiag, hf.startNext, t1, hf.tridiagDiag,
    hf.tridiagSubdiag, hf.linkPrev, hf.linkDiag, t10, mem_set_imp k2 t7, t11⟩, rfl, rfl, rfl, rfl, rfl, rfl, ?_⟩
  simp only
  have hset : ∀ t, (v.set N g5).getD t so = if t = N then g5 else v.getD t so := by
    intro t
    rw [getD_set_if (by omega)]
  have h0 := k4.congr (o' := outerVals T N so (v.set N g5) ln') (by
    intro p hp
    unfold outerVals
    refine sel_congr (fun _ => rfl) (fun t ht1 ht2 => ?_) (fun _ => by omega)
    rw [hset, if_neg (by omega)])
  obtain ⟨x', e', eD', h1, h2, h3, h4⟩ := h0.extend (L32 := ln.L) (L33 := q5.L) (D := q5.D) (by
    simp only [k5, k6, k7]
    simp only [chainPat, ArrowheadFactor.chainVals, ArrowheadMatrix.chainInput, outerVals, ChainVals.l, ChainVals.s,
      ChainVals.d, sel_last (Nat.le_refl _), sel_succ (Nat.lt_succ_self N)]
    rw [hset, if_pos rfl]
    exact r5)
  refine ⟨x', e', eD', h1, ?_⟩
  have e1 : N + 2 = N + 1 + 1 := rfl
  rw [e1, h2, h3, h4]
  simp only [chainPat, sel_last (Nat.le_refl _)]
  exact r6

/-- `factorize` on values. -/
theorem arrowheadFactorize_sat {f : ArrowheadFactor K} {s : ArrowheadSparsity} {T : ArrowheadTypes} {d : Dims}
    {N : Nat} (hs : s.Valid d) (hT : TypesOk s T d) (hf : f.Declared s T d N) {m : ArrowheadMatrix K}
    (hm : MatrixOk m s T d N) (reg : K → Nat → K) (method : Method) :
    Sat (f.factorize d.tridiag d.link d.outer m reg method) (fun f' => f'.Declared s T d N ∧
      ChainRows (chainPat T d N) (N + 2) (f'.chainVals N) (m.chainInput s N) reg method) := by
  unfold ArrowheadFactor.factorize
  refine Sat.bind (factorizeInner_sat hs hT hf hm reg method) ?_
  rintro f1 ⟨hf1, r1, r2⟩
  refine Sat.mono (factorizeOuter_sat hs hT hf1 hm reg method) ?_
  rintro f2 ⟨hf2, e1, e2, e3, e4, e5, e6, x, e, eD, hr, hl⟩
  refine ⟨hf2, ?_⟩
  obtain ⟨sd, sn, so, td, ts, lp, ld, ln, os, od⟩ := f2
  simp only at e1 e2 e3 e4 e5 e6
  subst e1 e2 e3 e4 e5 e6
  refine ⟨r1, r2, x, e, eD, hr.1, hr.2.1, hr.2.2.1, ?_, ?_⟩
  · have := hr.congr (o' := (({ f1 with startOuter := so, outerSubdiag := os, linkNext := ln, outerDiag := od } :
      ArrowheadFactor K).chainVals N).o (chainPat T d N)) (by
      intro p hp
      unfold outerVals
      simp only [ChainVals.o, chainPat, ArrowheadFactor.chainVals]
      rw [sel_map₂ (f := val)])
    exact this.2.2.2
  · simp only [chainPat, ArrowheadFactor.chainVals, ChainVals.l, ChainVals.o, ChainVals.d, ChainVals.e, ChainVals.g]
    have e1 : N + 2 = N + 1 + 1 := rfl
    rw [e1, sel_last (Nat.le_refl _), sel_last (Nat.le_refl _), sel_last (Nat.le_refl _), sel_last (Nat.le_refl _),
      sel_last (Nat.le_refl _)]
    exact hl

end

end Ctldl
