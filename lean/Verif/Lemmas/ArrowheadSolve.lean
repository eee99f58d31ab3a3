import Verif.Lemmas.ArrowheadExact
import Verif.Lemmas.SolveExact

/-! # The triangular solves of the repeating block factor, block by block -/

namespace Ctldl

open Finset

/-! ### The substitutions for blocks of given type -/

section

variable {K : Type} [Zero K] [Sub K] [Mul K] [Div K]
variable {c cl : Csr} {p pr pc : List Nat} {n r k : Nat}

theorem fwdIn_ok {f : DiagFactor K} (h : f.OfType c p n) (hc : CsrOk c n n) (low : ∀ i j, c.Has i j → j < i)
    (hp : IsPerm p n) {rhs : List K} (hr : rhs.length = n) :
    Sat (solveForwardSubstitutionInPlace f rhs) fun v => solveForwardSubstitutionInPlace f rhs = .ok v ∧ v.length = n := by
  obtain ⟨v, h1, h2, -⟩ := forwardInPlace_sat (h.diagOk hc low hp) (by rw [h.perm]; exact hp) hr
  exact ⟨v, h1, h1, h2⟩

theorem bwdIn_ok {f : DiagFactor K} (h : f.OfType c p n) (hc : CsrOk c n n) (low : ∀ i j, c.Has i j → j < i)
    (hp : IsPerm p n) {rhs : List K} (hr : rhs.length = n) :
    Sat (solveBackwardSubstitutionInPlace f rhs)
      fun v => solveBackwardSubstitutionInPlace f rhs = .ok v ∧ v.length = n := by
  obtain ⟨v, h1, h2, -⟩ := backwardInPlace_sat (h.diagOk hc low hp) (by rw [h.perm]; exact hp) hr
  exact ⟨v, h1, h1, h2⟩

theorem diagS_ok {f : DiagFactor K} (h : f.OfType c p n) (hc : CsrOk c n n) (low : ∀ i j, c.Has i j → j < i)
    (hp : IsPerm p n) {rhs : List K} (hr : rhs.length = n) :
    Sat (f.diagonalSolve rhs) fun v => v.length = n ∧
      ∀ i < n, v.getD (permAt p i) 0 = rhs.getD (permAt p i) 0 / f.pivot i := by
  obtain ⟨v, h1, h2, h3⟩ := diagonalSolve_sat (h.diagOk hc low hp) (by rw [h.perm]; exact hp) hr
  rw [h.perm] at h3
  exact ⟨v, h1, h2, h3⟩

theorem fwdLeft_ok {f : DiagFactor K} (h : f.OfType c p n) (hc : CsrOk c n n) (low : ∀ i j, c.Has i j → j < i)
    (hp : IsPerm p n) {left : SubFactor K} (hl : left.OfType cl p pc) (hcl : CsrOk cl n k) (hpc : IsPerm pc k)
    {rhs sol : List K} (hr : rhs.length = n) (hsol : sol.length = k) :
    Sat (solveForwardSubstitutionLeft f rhs left sol)
      fun v => solveForwardSubstitutionLeft f rhs left sol = .ok v ∧ v.length = n := by
  obtain ⟨v, h1, h2, -⟩ := forwardLeft_sat (h.diagOk hc low hp) (by rw [h.perm]; exact hp) (hl.subOk hcl hp hpc)
    (by rw [hl.permRow, h.perm]) (by rw [hl.permCol]; exact hpc) hr hsol
  exact ⟨v, h1, h1, h2⟩

theorem fwd_ok {f : SubFactor K} (h : f.OfType c pr pc) (hc : CsrOk c r k) (hpr : IsPerm pr r) (hpc : IsPerm pc k)
    {sol ps : List K} (hsol : sol.length = k) (hps : ps.length = r) :
    Sat (solveForwardSubstitution f sol ps) fun v => solveForwardSubstitution f sol ps = .ok v ∧ v.length = r := by
  obtain ⟨v, h1, h2, -⟩ := forward_sat (h.subOk hc hpr hpc) (by rw [h.permRow]; exact hpr)
    (by rw [h.permCol]; exact hpc) hsol hps
  exact ⟨v, h1, h1, h2⟩

theorem bwd_ok {f : SubFactor K} (h : f.OfType c pr pc) (hc : CsrOk c r k) (hpr : IsPerm pr r) (hpc : IsPerm pc k)
    {sol ps : List K} (hsol : sol.length = r) (hps : ps.length = k) :
    Sat (solveBackwardSubstitution f sol ps) fun v => solveBackwardSubstitution f sol ps = .ok v ∧ v.length = k := by
  obtain ⟨v, h1, h2, -⟩ := backward_sat (h.subOk hc hpr hpc) (by rw [h.permRow]; exact hpr)
    (by rw [h.permCol]; exact hpc) hsol hps
  exact ⟨v, h1, h1, h2⟩

end

/-! ### Steps -/

section

variable {K : Type} [Zero K] [Sub K] [Mul K] [Div K]

omit [Zero K] [Sub K] [Mul K] [Div K] in
theorem ofSize_of {v : ArrowheadVector K} {d : Dims} {N : Nat} (h1 : v.tridiag.length = N + 1)
    (h2 : v.start.length = d.start) (h3 : ∀ t < N + 1, (v.tridiag.getD t []).length = d.tridiag)
    (h4 : v.link.length = d.link) (h5 : v.outer.length = d.outer) : v.OfSize d N := by
  refine ⟨h1, h2, fun b hb => ?_, h4, h5⟩
  obtain ⟨t, ht, rfl⟩ := List.getElem_of_mem hb
  have := h3 t (by omega)
  rw [List.getD_eq_getElem?_getD, List.getElem?_eq_getElem ht] at this
  exact this

omit [Zero K] [Sub K] [Mul K] [Div K] in
theorem ArrowheadVector.OfSize.block {v : ArrowheadVector K} {d : Dims} {N : Nat} (h : v.OfSize d N) {t : Nat}
    (ht : t < N + 1) : (v.tridiag.getD t []).length = d.tridiag := by
  have hlt : t < v.tridiag.length := by rw [h.num]; exact ht
  rw [List.getD_eq_getElem?_getD, List.getElem?_eq_getElem hlt]
  exact h.tridiag _ (List.getElem_mem _)

/-- What `forwardSolve` computes, block by block. -/
structure ForwardSteps (f : ArrowheadFactor K) (N : Nat) (rhs v : ArrowheadVector K) (os : Nat → List K)
    (o : List K) : Prop where
  start : solveForwardSubstitutionInPlace f.startDiag rhs.start = .ok v.start
  first : solveForwardSubstitutionLeft (f.tridiagDiag.getD 0 f.startDiag) (rhs.tridiag.getD 0 []) f.startNext v.start =
    .ok (v.tridiag.getD 0 [])
  next : ∀ t < N, solveForwardSubstitutionLeft (f.tridiagDiag.getD (t + 1) f.startDiag) (rhs.tridiag.getD (t + 1) [])
    (f.tridiagSubdiag.getD t f.startNext) (v.tridiag.getD t []) = .ok (v.tridiag.getD (t + 1) [])
  link : solveForwardSubstitutionLeft f.linkDiag rhs.link f.linkPrev (v.tridiag.getD N []) = .ok v.link
  outer0 : solveForwardSubstitution f.startOuter v.start rhs.outer = .ok (os 0)
  outer1 : ∀ t < N + 1, solveForwardSubstitution (f.outerSubdiag.getD t f.startOuter) (v.tridiag.getD t []) (os t) =
    .ok (os (t + 1))
  outer2 : solveForwardSubstitution f.linkNext v.link (os (N + 1)) = .ok o
  outer3 : solveForwardSubstitutionInPlace f.outerDiag o = .ok v.outer

omit [Zero K] [Sub K] [Mul K] [Div K] in
theorem checkInvariant_ok {f : ArrowheadFactor K} {s : ArrowheadSparsity} {T : ArrowheadTypes} {d : Dims} {N : Nat}
    (hf : f.Declared s T d N) : f.checkInvariant = .ok () := by
  unfold ArrowheadFactor.checkInvariant ArrowheadFactor.numRepetitions
  simp [hf.numDiag, hf.numSubdiag, hf.numOuter, assert']
  rfl

theorem forwardSolve_steps {f : ArrowheadFactor K} {s : ArrowheadSparsity} {T : ArrowheadTypes} {d : Dims} {N : Nat}
    (hs : s.Valid d) (hT : TypesOk s T d) (hf : f.Declared s T d N) {rhs : ArrowheadVector K} (hr : rhs.OfSize d N) :
    Sat (f.forwardSolve rhs) fun v => v.OfSize d N ∧ ∃ os o, ForwardSteps f N rhs v os o ∧
      (∀ t < N + 2, (os t).length = d.outer) ∧ o.length = d.outer := by
  obtain ⟨hDt, hSt, hOt⟩ := getD_ofType' hf
  unfold ArrowheadFactor.forwardSolve
  rw [checkInvariant_ok hf, ok_bind]
  unfold ArrowheadFactor.numRepetitions
  simp only [hf.numSubdiag]
  refine Sat.bind (fwdIn_ok hf.startDiag hT.startDiag hT.lowStart hs.permStart hr.start) ?_
  rintro st ⟨hst, lst⟩
  rw [rd_getD_of_lt (show 0 < f.tridiagDiag.length by rw [hf.numDiag]; omega) f.startDiag, ok_bind,
    rd_getD_of_lt (show 0 < rhs.tridiag.length by rw [hr.num]; omega) [], ok_bind]
  refine Sat.bind (fwdLeft_ok (hDt 0 (by omega)) hT.tridiagDiag hT.lowTridiag hs.permTridiag hf.startNext hT.startNext
    hs.permStart (hr.block (by omega)) lst) ?_
  rintro t0 ⟨ht0, lt0⟩
  rw [wr_ok (show 0 < rhs.tridiag.length by rw [hr.num]; omega), ok_bind]
  refine Sat.bind (foldlM_range'_inv (fun k (v : List (List K)) => v.length = N + 1 ∧
    (∀ t < N + 1, (v.getD t []).length = d.tridiag) ∧ v.getD 0 [] = t0 ∧
    (∀ t, t + 1 < k → solveForwardSubstitutionLeft (f.tridiagDiag.getD (t + 1) f.startDiag)
      (rhs.tridiag.getD (t + 1) []) (f.tridiagSubdiag.getD t f.startNext) (v.getD t []) = .ok (v.getD (t + 1) [])) ∧
    ∀ t < N + 1, k ≤ t → v.getD t [] = rhs.tridiag.getD t []) ?_ ?_) ?_
  · refine ⟨by rw [List.length_set, hr.num], fun t ht => ?_, ?_, fun t ht => absurd ht (by omega), fun t ht h1 => ?_⟩
    · rw [getD_set_if (by rw [hr.num]; omega)]
      split
      · exact lt0
      · exact hr.block ht
    · rw [getD_set_if (by rw [hr.num]; omega), if_pos rfl]
    · rw [getD_set_if (by rw [hr.num]; omega), if_neg (by omega)]
  · rintro i v hi1 hi2 ⟨h1, h2, h3, h4, h5⟩
    rw [rd_getD_of_lt (show i < f.tridiagDiag.length by rw [hf.numDiag]; omega) f.startDiag, ok_bind,
      rd_getD_of_lt (show i < v.length by rw [h1]; omega) [], ok_bind,
      rd_getD_of_lt (show i - 1 < f.tridiagSubdiag.length by rw [hf.numSubdiag]; omega) f.startNext, ok_bind,
      rd_getD_of_lt (show i - 1 < v.length by rw [h1]; omega) [], ok_bind]
    refine Sat.bind (fwdLeft_ok (hDt i (by omega)) hT.tridiagDiag hT.lowTridiag hs.permTridiag (hSt (i - 1) (by omega))
      hT.tridiagSubdiag hs.permTridiag (h2 i (by omega)) (h2 (i - 1) (by omega))) ?_
    rintro w ⟨hw, lw⟩
    rw [wr_ok (show i < v.length by rw [h1]; omega)]
    have hset : ∀ a, (v.set i w).getD a [] = if a = i then w else v.getD a [] :=
      fun a => getD_set_if (by rw [h1]; omega) w a []
    refine ⟨_, rfl, by rw [List.length_set, h1], fun t ht => ?_, ?_, fun t ht => ?_, fun t ht hle => ?_⟩
    · rw [hset]
      split
      · exact lw
      · exact h2 t ht
    · rw [hset, if_neg (by omega), h3]
    · rw [hset, hset, if_neg (by omega)]
      by_cases hti : t + 1 = i
      · rw [if_pos hti, ← hw, ← hti, ← h5 (t + 1) (by omega) (by omega)]
        rfl
      · rw [if_neg hti]
        exact h4 t (by omega)
    · rw [hset, if_neg (by omega)]
      exact h5 t ht (by omega)
  rintro v ⟨h1, h2, h3, h4, -⟩
  rw [rd_getD_of_lt (show N < v.length by rw [h1]; omega) [], ok_bind]
  refine Sat.bind (fwdLeft_ok hf.linkDiag hT.linkDiag hT.lowLink hs.permLink hf.linkPrev hT.linkPrev hs.permTridiag
    hr.link (h2 N (by omega))) ?_
  rintro li ⟨hli, lli⟩
  refine Sat.bind (fwd_ok hf.startOuter hT.startOuter hs.permOuter hs.permStart lst hr.outer) ?_
  rintro o0 ⟨ho0, lo0⟩
  refine Sat.bind (foldlM_range_inv (fun k (o : List K) => ∃ os : Nat → List K, os 0 = o0 ∧ os k = o ∧
    (∀ t ≤ k, (os t).length = d.outer) ∧ ∀ t < k, solveForwardSubstitution (f.outerSubdiag.getD t f.startOuter)
      (v.getD t []) (os t) = .ok (os (t + 1))) ?_ ?_) ?_
  · exact ⟨fun _ => o0, rfl, rfl, fun _ _ => lo0, fun t ht => absurd ht (by omega)⟩
  · rintro i o hi ⟨os, g1, g2, g3, g4⟩
    rw [rd_getD_of_lt (show i < f.outerSubdiag.length by rw [hf.numOuter]; omega) f.startOuter, ok_bind,
      rd_getD_of_lt (show i < v.length by rw [h1]; omega) [], ok_bind]
    obtain ⟨w, hw, -, lw⟩ := fwd_ok (hOt i (by omega)) hT.outerSubdiag hs.permOuter hs.permTridiag (h2 i (by omega))
      (show o.length = d.outer by rw [← g2]; exact g3 i (by omega))
    refine ⟨w, hw, fun t => if t = i + 1 then w else os t, ?_, ?_, fun t ht => ?_, fun t ht => ?_⟩
    · simp only
      rw [if_neg (by omega), g1]
    · simp
    · simp only
      split
      · exact lw
      · exact g3 t (by omega)
    · simp only
      rw [if_neg (by omega)]
      by_cases hti : t = i
      · rw [hti, if_pos rfl, g2, hw]
      · rw [if_neg (by omega)]
        exact g4 t (by omega)
  rintro o1 ⟨os, g1, g2, g3, g4⟩
  refine Sat.bind (fwd_ok hf.linkNext hT.linkNext hs.permOuter hs.permLink lli
    (show o1.length = d.outer by rw [← g2]; exact g3 _ (by omega))) ?_
  rintro o2 ⟨ho2, lo2⟩
  refine Sat.bind (fwdIn_ok hf.outerDiag hT.outerDiag hT.lowOuter hs.permOuter lo2) ?_
  rintro o3 ⟨ho3, lo3⟩
  refine Sat.pure ⟨ofSize_of h1 lst h2 lli lo3, os, o2, ?_, fun t ht => g3 t (by omega), lo2⟩
  exact ⟨hst, by simp only [h3]; exact ht0, fun t ht => h4 t (by omega), hli, by rw [g1]; exact ho0, g4,
    by rw [g2]; exact ho2, ho3⟩

/-- What `backwardSolve` computes, block by block. -/
structure BackwardSteps (f : ArrowheadFactor K) (N : Nat) (rhs v : ArrowheadVector K) (l : List K)
    (ts us : Nat → List K) (s1 s2 : List K) : Prop where
  outer : solveBackwardSubstitutionInPlace f.outerDiag rhs.outer = .ok v.outer
  link1 : solveBackwardSubstitution f.linkNext v.outer rhs.link = .ok l
  link2 : solveBackwardSubstitutionInPlace f.linkDiag l = .ok v.link
  tridiag1 : ∀ t < N + 1, solveBackwardSubstitution (f.outerSubdiag.getD t f.startOuter) v.outer
    (rhs.tridiag.getD t []) = .ok (ts t)
  last : solveBackwardSubstitution f.linkPrev v.link (ts N) = .ok (us N)
  tridiag2 : ∀ t < N, solveBackwardSubstitution (f.tridiagSubdiag.getD t f.startNext) (v.tridiag.getD (t + 1) [])
    (ts t) = .ok (us t)
  tridiag3 : ∀ t < N + 1, solveBackwardSubstitutionInPlace (f.tridiagDiag.getD t f.startDiag) (us t) =
    .ok (v.tridiag.getD t [])
  start1 : solveBackwardSubstitution f.startOuter v.outer rhs.start = .ok s1
  start2 : solveBackwardSubstitution f.startNext (v.tridiag.getD 0 []) s1 = .ok s2
  start3 : solveBackwardSubstitutionInPlace f.startDiag s2 = .ok v.start

theorem backwardSolve_steps {f : ArrowheadFactor K} {s : ArrowheadSparsity} {T : ArrowheadTypes} {d : Dims} {N : Nat}
    (hs : s.Valid d) (hT : TypesOk s T d) (hf : f.Declared s T d N) {rhs : ArrowheadVector K} (hr : rhs.OfSize d N) :
    Sat (f.backwardSolve rhs) fun v => v.OfSize d N ∧ ∃ l ts us s1 s2, BackwardSteps f N rhs v l ts us s1 s2 ∧
      l.length = d.link ∧ (∀ t < N + 1, (ts t).length = d.tridiag) ∧ (∀ t < N + 1, (us t).length = d.tridiag) ∧
      s1.length = d.start ∧ s2.length = d.start := by
  obtain ⟨hDt, hSt, hOt⟩ := getD_ofType' hf
  unfold ArrowheadFactor.backwardSolve
  rw [checkInvariant_ok hf, ok_bind]
  unfold ArrowheadFactor.numRepetitions
  simp only [hf.numSubdiag]
  refine Sat.bind (bwdIn_ok hf.outerDiag hT.outerDiag hT.lowOuter hs.permOuter hr.outer) ?_
  rintro ou ⟨hou, lou⟩
  refine Sat.bind (bwd_ok hf.linkNext hT.linkNext hs.permOuter hs.permLink lou hr.link) ?_
  rintro l ⟨hl, ll⟩
  refine Sat.bind (bwdIn_ok hf.linkDiag hT.linkDiag hT.lowLink hs.permLink ll) ?_
  rintro li ⟨hli, lli⟩
  rw [rd_getD_of_lt (show N < f.outerSubdiag.length by rw [hf.numOuter]; omega) f.startOuter, ok_bind,
    rd_getD_of_lt (show N < rhs.tridiag.length by rw [hr.num]; omega) [], ok_bind]
  refine Sat.bind (bwd_ok (hOt N (by omega)) hT.outerSubdiag hs.permOuter hs.permTridiag lou (hr.block (by omega))) ?_
  rintro tN ⟨htN, ltN⟩
  refine Sat.bind (bwd_ok hf.linkPrev hT.linkPrev hs.permLink hs.permTridiag lli ltN) ?_
  rintro uN ⟨huN, luN⟩
  rw [rd_getD_of_lt (show N < f.tridiagDiag.length by rw [hf.numDiag]; omega) f.startDiag, ok_bind]
  refine Sat.bind (bwdIn_ok (hDt N (by omega)) hT.tridiagDiag hT.lowTridiag hs.permTridiag luN) ?_
  rintro vN ⟨hvN, lvN⟩
  rw [wr_ok (show N < rhs.tridiag.length by rw [hr.num]; omega), ok_bind]
  refine Sat.bind (foldlM_range_reverse_inv (fun k (v : List (List K)) => v.length = N + 1 ∧
    (∀ t < N + 1, (v.getD t []).length = d.tridiag) ∧ (∀ t < k, v.getD t [] = rhs.tridiag.getD t []) ∧
    ∃ ts us : Nat → List K, (∀ t < N + 1, (ts t).length = d.tridiag) ∧ (∀ t < N + 1, (us t).length = d.tridiag) ∧
      (∀ t < N + 1, k ≤ t → solveBackwardSubstitution (f.outerSubdiag.getD t f.startOuter) ou
        (rhs.tridiag.getD t []) = .ok (ts t)) ∧
      solveBackwardSubstitution f.linkPrev li (ts N) = .ok (us N) ∧
      (∀ t < N, k ≤ t → solveBackwardSubstitution (f.tridiagSubdiag.getD t f.startNext) (v.getD (t + 1) []) (ts t) =
        .ok (us t)) ∧
      ∀ t < N + 1, k ≤ t → solveBackwardSubstitutionInPlace (f.tridiagDiag.getD t f.startDiag) (us t) =
        .ok (v.getD t [])) ?_ ?_) ?_
  · have hset : ∀ a, (rhs.tridiag.set N vN).getD a [] = if a = N then vN else rhs.tridiag.getD a [] :=
      fun a => getD_set_if (by rw [hr.num]; omega) vN a []
    refine ⟨by rw [List.length_set, hr.num], fun t ht => ?_, fun t ht => ?_, fun _ => tN, fun _ => uN, fun _ _ => ltN,
      fun _ _ => luN, fun t ht h1 => ?_, huN, fun t ht h1 => absurd ht (by omega), fun t ht h1 => ?_⟩
    · rw [hset]
      split
      · exact lvN
      · exact hr.block ht
    · rw [hset, if_neg (by omega)]
    · have : t = N := by omega
      subst this
      exact htN
    · have : t = N := by omega
      subst this
      rw [hset, if_pos rfl]
      exact hvN
  · rintro i v hi ⟨h1, h2, h3, ts, us, g1, g2, g3, g4, g5, g6⟩
    rw [rd_getD_of_lt (show i < f.outerSubdiag.length by rw [hf.numOuter]; omega) f.startOuter, ok_bind,
      rd_getD_of_lt (show i < v.length by rw [h1]; omega) [], ok_bind]
    refine Sat.bind (bwd_ok (hOt i (by omega)) hT.outerSubdiag hs.permOuter hs.permTridiag lou (h2 i (by omega))) ?_
    rintro ti ⟨hti, lti⟩
    rw [rd_getD_of_lt (show i < f.tridiagSubdiag.length by rw [hf.numSubdiag]; omega) f.startNext, ok_bind,
      rd_getD_of_lt (show i + 1 < v.length by rw [h1]; omega) [], ok_bind]
    refine Sat.bind (bwd_ok (hSt i hi) hT.tridiagSubdiag hs.permTridiag hs.permTridiag (h2 (i + 1) (by omega)) lti) ?_
    rintro ui ⟨hui, lui⟩
    rw [rd_getD_of_lt (show i < f.tridiagDiag.length by rw [hf.numDiag]; omega) f.startDiag, ok_bind]
    refine Sat.bind (bwdIn_ok (hDt i (by omega)) hT.tridiagDiag hT.lowTridiag hs.permTridiag lui) ?_
    rintro vi ⟨hvi, lvi⟩
    rw [wr_ok (show i < v.length by rw [h1]; omega)]
    have hset : ∀ a, (v.set i vi).getD a [] = if a = i then vi else v.getD a [] :=
      fun a => getD_set_if (by rw [h1]; omega) vi a []
    refine ⟨_, rfl, by rw [List.length_set, h1], fun t ht => ?_, fun t ht => ?_,
      fun t => if t = i then ti else ts t, fun t => if t = i then ui else us t, fun t ht => ?_, fun t ht => ?_,
      fun t ht hle => ?_, ?_, fun t ht hle => ?_, fun t ht hle => ?_⟩
    · rw [hset]
      split
      · exact lvi
      · exact h2 t ht
    · rw [hset, if_neg (by omega)]
      exact h3 t (by omega)
    · simp only
      split
      · exact lti
      · exact g1 t ht
    · simp only
      split
      · exact lui
      · exact g2 t ht
    · by_cases h : t = i
      · subst h
        simp only [if_true]
        rw [← h3 t (by omega)]
        exact hti
      · simp only [if_neg h]
        exact g3 t ht (by omega)
    · simp only
      rw [if_neg (by omega), if_neg (by omega)]
      exact g4
    · rw [hset, if_neg (by omega)]
      by_cases h : t = i
      · subst h
        simp only [if_true]
        exact hui
      · simp only [if_neg h]
        exact g5 t ht (by omega)
    · rw [hset]
      by_cases h : t = i
      · subst h
        simp only [if_true]
        exact hvi
      · simp only [if_neg h]
        exact g6 t ht (by omega)
  rintro v ⟨h1, h2, -, ts, us, g1, g2, g3, g4, g5, g6⟩
  refine Sat.bind (bwd_ok hf.startOuter hT.startOuter hs.permOuter hs.permStart lou hr.start) ?_
  rintro s1 ⟨hs1, ls1⟩
  rw [rd_getD_of_lt (show 0 < v.length by rw [h1]; omega) [], ok_bind]
  refine Sat.bind (bwd_ok hf.startNext hT.startNext hs.permTridiag hs.permStart (h2 0 (by omega)) ls1) ?_
  rintro s2 ⟨hs2, ls2⟩
  refine Sat.bind (bwdIn_ok hf.startDiag hT.startDiag hT.lowStart hs.permStart ls2) ?_
  rintro st ⟨hst, lst⟩
  refine Sat.pure ⟨ofSize_of h1 lst h2 lli lou, l, ts, us, s1, s2, ?_, ll, g1, g2, ls1, ls2⟩
  exact ⟨hou, hl, hli, fun t ht => g3 t ht (by omega), g4, fun t ht => g5 t ht (by omega),
    fun t ht => g6 t ht (by omega), hs1, hs2, hst⟩

/-- `diagonalSolve` divides each element by its pivot. -/
theorem arrowheadDiagonalSolve_sat {f : ArrowheadFactor K} {s : ArrowheadSparsity} {T : ArrowheadTypes} {d : Dims}
    {N : Nat} (hs : s.Valid d) (hT : TypesOk s T d) (hf : f.Declared s T d N) {rhs : ArrowheadVector K}
    (hr : rhs.OfSize d N) :
    Sat (f.diagonalSolve rhs) fun v => v.OfSize d N ∧ ∀ a ∈ blocks N, ∀ i < d.of a,
      v.at a (permAt (s.perm a) i) = rhs.at a (permAt (s.perm a) i) / f.pivotAt a i := by
  obtain ⟨hDt, -, -⟩ := getD_ofType' hf
  unfold ArrowheadFactor.diagonalSolve
  rw [checkInvariant_ok hf, ok_bind]
  unfold ArrowheadFactor.numRepetitions
  simp only [hf.numSubdiag]
  refine Sat.bind (diagS_ok hf.startDiag hT.startDiag hT.lowStart hs.permStart hr.start) ?_
  rintro st ⟨lst, hst⟩
  refine Sat.bind (foldlM_range_inv (fun k (v : List (List K)) => v.length = N + 1 ∧
    (∀ t < N + 1, (v.getD t []).length = d.tridiag) ∧
    (∀ t < N + 1, k ≤ t → v.getD t [] = rhs.tridiag.getD t []) ∧
    ∀ t < k, ∀ i < d.tridiag, (v.getD t []).getD (permAt s.tridiag.permutation i) 0 =
      (rhs.tridiag.getD t []).getD (permAt s.tridiag.permutation i) 0 / (f.tridiagDiag.getD t f.startDiag).pivot i)
    ⟨hr.num, fun t ht => hr.block ht, fun _ _ _ => rfl, fun t ht => absurd ht (by omega)⟩ ?_) ?_
  · rintro i v hi ⟨h1, h2, h3, h4⟩
    rw [rd_getD_of_lt (show i < f.tridiagDiag.length by rw [hf.numDiag]; omega) f.startDiag, ok_bind,
      rd_getD_of_lt (show i < v.length by rw [h1]; omega) [], ok_bind]
    refine Sat.bind (diagS_ok (hDt i hi) hT.tridiagDiag hT.lowTridiag hs.permTridiag (h2 i hi)) ?_
    rintro w ⟨lw, hw⟩
    rw [wr_ok (show i < v.length by rw [h1]; omega)]
    have hset : ∀ a, (v.set i w).getD a [] = if a = i then w else v.getD a [] :=
      fun a => getD_set_if (by rw [h1]; omega) w a []
    refine ⟨_, rfl, by rw [List.length_set, h1], fun t ht => ?_, fun t ht hle => ?_, fun t ht j hj => ?_⟩
    · rw [hset]
      split
      · exact lw
      · exact h2 t ht
    · rw [hset, if_neg (by omega)]
      exact h3 t ht (by omega)
    · rw [hset]
      by_cases h : t = i
      · subst h
        rw [if_pos rfl, hw j hj, h3 t hi (by omega)]
      · rw [if_neg h]
        exact h4 t (by omega) j hj
  rintro v ⟨h1, h2, -, h4⟩
  refine Sat.bind (diagS_ok hf.linkDiag hT.linkDiag hT.lowLink hs.permLink hr.link) ?_
  rintro li ⟨lli, hli⟩
  refine Sat.bind (diagS_ok hf.outerDiag hT.outerDiag hT.lowOuter hs.permOuter hr.outer) ?_
  rintro ou ⟨lou, hou⟩
  refine Sat.pure ⟨ofSize_of h1 lst h2 lli lou, fun a ha i hi => ?_⟩
  cases a with
  | start => exact hst i hi
  | link => exact hli i hi
  | outer => exact hou i hi
  | tridiag t =>
    have ht := mem_blocks.mp ha t rfl
    have := h4 t ht i hi
    unfold ArrowheadFactor.pivotAt ArrowheadFactor.diagBlock
    simp only
    rw [getElem?_eq_getD (show t < f.tridiagDiag.length by rw [hf.numDiag]; exact ht) f.startDiag]
    exact this

end

end Ctldl
