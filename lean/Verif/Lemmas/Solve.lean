import Verif.Lemmas.Blocks
import Verif.Model.Solve

/-! # Substitutions: what they compute, for any arithmetic -/

namespace Ctldl

section

variable {K : Type} [Zero K] [Sub K] [Mul K] [Div K]

/-- Element `i` of a vector in permuted order. -/
def atp (p : List Nat) (v : List K) (i : Nat) : K := v.getD (permAt p i) 0

omit [Sub K] [Mul K] [Div K] in
theorem atp_set {p : List Nat} {n : Nat} (hp : IsPerm p n) {v : List K} (hv : v.length = n) {i : Nat} (hi : i < n)
    (x : K) {k : Nat} (hk : k < n) : atp p (v.set (permAt p i) x) k = if k = i then x else atp p v k := by
  unfold atp
  rw [getD_set (by rw [hv]; exact hp.lt hi)]
  by_cases h : k = i
  · rw [h, if_pos rfl, if_pos rfl]
  · rw [if_neg h, if_neg]
    exact fun h' => h (hp.inj hk hi h')

omit [Sub K] [Mul K] [Div K] in
theorem rd_atp {p : List Nat} {n : Nat} (hp : IsPerm p n) {v : List K} (hv : v.length = n) {i : Nat} (hi : i < n) :
    rd v (permAt p i) = .ok (atp p v i) := rd_getD (by rw [hv]; exact hp.lt hi)

omit [Sub K] [Mul K] [Div K] in
/-- Vectors are determined by their elements in permuted order. -/
theorem atp_ext {p : List Nat} {n : Nat} (hp : IsPerm p n) {v w : List K} (hv : v.length = n) (hw : w.length = n)
    (h : ∀ i < n, atp p v i = atp p w i) : v = w := by
  apply List.ext_getElem (by omega)
  intro k h1 h2
  obtain ⟨i, hi, rfl⟩ := hp.surj (a := k) (by omega)
  have := h i hi
  unfold atp at this
  rw [List.getD_eq_getElem?_getD, List.getD_eq_getElem?_getD, List.getElem?_eq_getElem h1,
    List.getElem?_eq_getElem h2] at this
  simpa using this

/-- One row of a forward substitution. -/
theorem forwardRow_eq {f : SubFactor K} {r c : Nat} (h : SubOk f r c) (hpc : IsPerm f.permutationCol c) {i : Nat}
    (hi : i < r) {sol : List K} (hs : sol.length = c) (init : K) :
    solveForwardSubstitutionRow i f sol init =
      .ok (subAll (f.sparsity.cols i) (fun j => f.l i j * atp f.permutationCol sol j) init) := by
  unfold solveForwardSubstitutionRow
  rw [h.good.rowLoop (by rw [h.rows]; exact hi)]
  unfold subAll
  refine foldlM_eq_foldl (fun _ => True) trivial (fun a j hj _ => ⟨?_, trivial⟩)
  have hj' := Csr.mem_cols.mp hj
  have hjc : j < c := h.cols ▸ h.good.col_lt hj'
  rw [hj'.rd, ok_bind]
  simp only
  rw [rd_permAt (by rw [h.pcol]; exact hjc), ok_bind, rd_val h.lenL hj', ok_bind, rd_atp hpc hs hjc, ok_bind]
  rfl

/-- Forward substitution with an off-diagonal block. -/
theorem forward_sat {f : SubFactor K} {r c : Nat} (h : SubOk f r c) (hpr : IsPerm f.permutationRow r)
    (hpc : IsPerm f.permutationCol c) {sol ps : List K} (hs : sol.length = c) (hps : ps.length = r) :
    Sat (solveForwardSubstitution f sol ps) (fun v => v.length = r ∧ ∀ i < r, atp f.permutationRow v i =
      subAll (f.sparsity.cols i) (fun j => f.l i j * atp f.permutationCol sol j) (atp f.permutationRow ps i)) := by
  unfold solveForwardSubstitution
  rw [h.rows]
  refine Sat.mono (foldlM_range_inv (fun k v => v.length = r ∧ ∀ i < r, atp f.permutationRow v i =
    if i < k then subAll (f.sparsity.cols i) (fun j => f.l i j * atp f.permutationCol sol j)
      (atp f.permutationRow ps i) else atp f.permutationRow ps i) ⟨hps, fun i _ => by simp⟩ ?_) ?_
  · rintro k v hk ⟨hv, hval⟩
    rw [rd_permAt (by rw [hpr.length]; exact hk), ok_bind, rd_atp hpr hv hk, ok_bind, forwardRow_eq h hpc hk hs,
      ok_bind, wr_ok (by rw [hv]; exact hpr.lt hk)]
    refine Sat.ok ⟨by simpa using hv, fun i hi => ?_⟩
    rw [atp_set hpr hv hk _ hi]
    by_cases hik : i = k
    · subst hik
      rw [if_pos rfl, if_pos (by omega), hval i hi, if_neg (by omega)]
    · rw [if_neg hik, hval i hi]
      by_cases hlt : i < k
      · rw [if_pos hlt, if_pos (by omega)]
      · rw [if_neg hlt, if_neg (by omega)]
  · rintro v ⟨hv, hval⟩
    exact ⟨hv, fun i hi => by rw [hval i hi, if_pos hi]⟩

omit [Zero K] [Sub K] [Mul K] [Div K] in
theorem DiagOk.toBlock {f : DiagFactor K} {n : Nat} (h : DiagOk f n) : SubOk f.toBlock n n :=
  ⟨h.good, h.rows, h.cols, h.perm, h.perm, h.lenL⟩

/-- Forward substitution in place with a diagonal block and an off-diagonal block left of it. -/
theorem forwardLeft_sat {f : DiagFactor K} {n : Nat} (h : DiagOk f n) (hp : IsPerm f.permutation n)
    {left : SubFactor K} {c : Nat} (hl : SubOk left n c) (hpl : left.permutationRow = f.permutation)
    (hpc : IsPerm left.permutationCol c) {rhs sol : List K} (hr : rhs.length = n) (hs : sol.length = c) :
    Sat (solveForwardSubstitutionLeft f rhs left sol) (fun v => v.length = n ∧ ∀ i < n, atp f.permutation v i =
      subAll (f.sparsity.cols i) (fun j => f.l i j * atp f.permutation v j)
        (subAll (left.sparsity.cols i) (fun j => left.l i j * atp left.permutationCol sol j)
          (atp f.permutation rhs i))) := by
  unfold solveForwardSubstitutionLeft
  rw [staticAssert_true (by rw [h.rows, hl.rows]; simp), ok_bind,
    staticAssert_true (by rw [hpl]; simp [permutationEq]), ok_bind, h.rows]
  refine Sat.mono (foldlM_range_inv (fun k v => v.length = n ∧ (∀ i < n, k ≤ i → atp f.permutation v i =
    atp f.permutation rhs i) ∧ ∀ i < n, i < k → atp f.permutation v i =
      subAll (f.sparsity.cols i) (fun j => f.l i j * atp f.permutation v j)
        (subAll (left.sparsity.cols i) (fun j => left.l i j * atp left.permutationCol sol j)
          (atp f.permutation rhs i))) ⟨hr, fun i _ _ => rfl, fun i _ h => by omega⟩ ?_) ?_
  · rintro k v hk ⟨hv, hge, hlt⟩
    rw [rd_permAt (by rw [hp.length]; exact hk), ok_bind, rd_atp hp hv hk, ok_bind, forwardRow_eq hl hpc hk hs,
      ok_bind, forwardRow_eq h.toBlock hp hk hv, ok_bind, wr_ok (by rw [hv]; exact hp.lt hk)]
    refine Sat.ok ⟨by simpa using hv, fun i hi hki => ?_, fun i hi hik => ?_⟩
    · rw [atp_set hp hv hk _ hi, if_neg (by omega), hge i hi (by omega)]
    · have hcongr : ∀ x, ∀ init, subAll (f.sparsity.cols i)
          (fun j => f.l i j * atp f.permutation (v.set (permAt f.permutation k) x) j) init =
          subAll (f.sparsity.cols i) (fun j => f.l i j * atp f.permutation v j) init := by
        intro x init
        refine subAll_congr (fun j hj => ?_) init
        have := h.lower i j (Csr.mem_cols.mp hj)
        rw [atp_set hp hv hk _ (by omega), if_neg (by omega)]
      rw [hcongr, atp_set hp hv hk _ hi]
      by_cases hk' : i = k
      · subst hk'
        rw [if_pos rfl, hge i hi (le_refl _)]
        rfl
      · rw [if_neg hk', hlt i hi (by omega)]
  · rintro v ⟨hv, -, hlt⟩
    exact ⟨hv, fun i hi => hlt i hi hi⟩

/-- Forward substitution in place with a diagonal block. -/
theorem forwardInPlace_sat {f : DiagFactor K} {n : Nat} (h : DiagOk f n) (hp : IsPerm f.permutation n)
    {rhs : List K} (hr : rhs.length = n) :
    Sat (solveForwardSubstitutionInPlace f rhs) (fun v => v.length = n ∧ ∀ i < n, atp f.permutation v i =
      subAll (f.sparsity.cols i) (fun j => f.l i j * atp f.permutation v j) (atp f.permutation rhs i)) := by
  unfold solveForwardSubstitutionInPlace
  rw [h.rows]
  refine Sat.mono (foldlM_range_inv (fun k v => v.length = n ∧ (∀ i < n, k ≤ i → atp f.permutation v i =
    atp f.permutation rhs i) ∧ ∀ i < n, i < k → atp f.permutation v i =
      subAll (f.sparsity.cols i) (fun j => f.l i j * atp f.permutation v j)
          (atp f.permutation rhs i)) ⟨hr, fun i _ _ => rfl, fun i _ h => by omega⟩ ?_) ?_
  · rintro k v hk ⟨hv, hge, hlt⟩
    rw [rd_permAt (by rw [hp.length]; exact hk), ok_bind, rd_atp hp hv hk, ok_bind,
      forwardRow_eq h.toBlock hp hk hv, ok_bind, wr_ok (by rw [hv]; exact hp.lt hk)]
    refine Sat.ok ⟨by simpa using hv, fun i hi hki => ?_, fun i hi hik => ?_⟩
    · rw [atp_set hp hv hk _ hi, if_neg (by omega), hge i hi (by omega)]
    · have hcongr : ∀ x, ∀ init, subAll (f.sparsity.cols i)
          (fun j => f.l i j * atp f.permutation (v.set (permAt f.permutation k) x) j) init =
          subAll (f.sparsity.cols i) (fun j => f.l i j * atp f.permutation v j) init := by
        intro x init
        refine subAll_congr (fun j hj => ?_) init
        have := h.lower i j (Csr.mem_cols.mp hj)
        rw [atp_set hp hv hk _ (by omega), if_neg (by omega)]
      rw [hcongr, atp_set hp hv hk _ hi]
      by_cases hk' : i = k
      · subst hk'
        rw [if_pos rfl, hge i hi (le_refl _)]
        rfl
      · rw [if_neg hk', hlt i hi (by omega)]
  · rintro v ⟨hv, -, hlt⟩
    exact ⟨hv, fun i hi => hlt i hi hi⟩

/-- One row of a backward substitution. -/
theorem backwardRow_sat {f : SubFactor K} {r c : Nat} (h : SubOk f r c) (hpc : IsPerm f.permutationCol c) {i : Nat}
    (hi : i < r) (x : K) {ps : List K} (hps : ps.length = c) :
    Sat (solveBackwardSubstitutionRow i f x ps) (fun v => v.length = c ∧ ∀ j < c, atp f.permutationCol v j =
      if f.sparsity.Has i j then atp f.permutationCol ps j - f.l i j * x else atp f.permutationCol ps j) := by
  unfold solveBackwardSubstitutionRow
  rw [h.good.rowLoop (by rw [h.rows]; exact hi)]
  refine Sat.mono (foldlM_inv (fun pre v => v.length = c ∧ ∀ j < c, atp f.permutationCol v j =
      if j ∈ pre then atp f.permutationCol ps j - f.l i j * x else atp f.permutationCol ps j)
      ⟨hps, fun j _ => by simp⟩ ?_) ?_
  · rintro pre j suf v hcols ⟨hv, hval⟩
    have hnd := h.good.cols_nodup i
    rw [hcols] at hnd
    have hj : f.sparsity.Has i j := Csr.mem_cols.mp (by rw [hcols]; simp)
    have hjn : j ∉ pre := fun hh => by
      have := List.nodup_append.mp hnd
      exact this.2.2 j hh j (by simp) rfl
    have hjc : j < c := h.cols ▸ h.good.col_lt hj
    rw [hj.rd, ok_bind]
    simp only
    rw [rd_permAt (by rw [h.pcol]; exact hjc), ok_bind, rd_atp hpc hv hjc, ok_bind, rd_val h.lenL hj, ok_bind,
      wr_ok (by rw [hv]; exact hpc.lt hjc)]
    refine Sat.ok ⟨by simpa using hv, fun k hk => ?_⟩
    rw [atp_set hpc hv hjc _ hk]
    by_cases hkj : k = j
    · subst hkj
      rw [if_pos rfl, if_pos (by simp), hval k hk, if_neg hjn]
    · rw [if_neg hkj, hval k hk]
      by_cases hm : k ∈ pre
      · rw [if_pos hm, if_pos (by simp [hm])]
      · rw [if_neg hm, if_neg (by simp [hm, hkj])]
  · rintro v ⟨hv, hval⟩
    refine ⟨hv, fun j hj => ?_⟩
    rw [hval j hj]
    by_cases hh : f.sparsity.Has i j
    · rw [if_pos hh, if_pos (Csr.mem_cols.mpr hh)]
    · rw [if_neg hh, if_neg fun h => hh (Csr.mem_cols.mp h)]

/-- The rows below row `k` in column `j`, from the last to the first. -/
def rowsDown (c : Csr) (j k n : Nat) : List Nat := ((List.range' k (n - k)).reverse).filter (c.Has · j)

theorem rowsDown_last (c : Csr) (j n : Nat) : rowsDown c j n n = [] := by simp [rowsDown]

theorem rowsDown_step {c : Csr} {j k n : Nat} (h : k < n) :
    rowsDown c j k n = rowsDown c j (k + 1) n ++ (if c.Has k j then [k] else []) := by
  unfold rowsDown
  have : n - k = (n - (k + 1)) + 1 := by omega
  rw [this, List.range'_succ, List.reverse_cons, List.filter_append, List.filter_singleton]
  by_cases hh : c.Has k j <;> simp [hh]

/-- Backward substitution with an off-diagonal block. -/
theorem backward_sat {f : SubFactor K} {r c : Nat} (h : SubOk f r c) (hpr : IsPerm f.permutationRow r)
    (hpc : IsPerm f.permutationCol c) {sol ps : List K} (hs : sol.length = r) (hps : ps.length = c) :
    Sat (solveBackwardSubstitution f sol ps) (fun v => v.length = c ∧ ∀ j < c, atp f.permutationCol v j =
      subAll (rowsDown f.sparsity j 0 r) (fun i => f.l i j * atp f.permutationRow sol i)
        (atp f.permutationCol ps j)) := by
  unfold solveBackwardSubstitution
  rw [h.rows]
  refine foldlM_range_reverse_inv (fun k v => v.length = c ∧ ∀ j < c, atp f.permutationCol v j =
      subAll (rowsDown f.sparsity j k r) (fun i => f.l i j * atp f.permutationRow sol i)
        (atp f.permutationCol ps j)) ⟨hps, fun j _ => by rw [rowsDown_last]; rfl⟩ ?_
  rintro k v hk ⟨hv, hval⟩
  rw [rd_permAt (by rw [hpr.length]; exact hk), ok_bind, rd_atp hpr hs hk, ok_bind]
  refine Sat.mono (backwardRow_sat h hpc hk _ hv) ?_
  rintro w ⟨hw, hwval⟩
  refine ⟨hw, fun j hj => ?_⟩
  rw [hwval j hj, rowsDown_step hk, subAll_append, hval j hj]
  by_cases hh : f.sparsity.Has k j
  · rw [if_pos hh, if_pos hh, subAll_single]
  · rw [if_neg hh, if_neg hh, subAll_nil]

/-- Backward substitution in place with a diagonal block. -/
theorem backwardInPlace_sat {f : DiagFactor K} {n : Nat} (h : DiagOk f n) (hp : IsPerm f.permutation n)
    {rhs : List K} (hr : rhs.length = n) :
    Sat (solveBackwardSubstitutionInPlace f rhs) (fun v => v.length = n ∧ ∀ j < n, atp f.permutation v j =
      subAll (rowsDown f.sparsity j 0 n) (fun i => f.l i j * atp f.permutation v i)
        (atp f.permutation rhs j)) := by
  unfold solveBackwardSubstitutionInPlace
  rw [h.rows]
  refine foldlM_range_reverse_inv (fun k v => v.length = n ∧ ∀ j < n, atp f.permutation v j =
      subAll (rowsDown f.sparsity j k n) (fun i => f.l i j * atp f.permutation v i)
        (atp f.permutation rhs j)) ⟨hr, fun j _ => by rw [rowsDown_last]; rfl⟩ ?_
  rintro k v hk ⟨hv, hval⟩
  rw [rd_permAt (by rw [hp.length]; exact hk), ok_bind, rd_atp hp hv hk, ok_bind]
  refine Sat.mono (backwardRow_sat h.toBlock hp hk _ hv) ?_
  rintro w ⟨hw, hwval⟩
  refine ⟨hw, fun j hj => ?_⟩
  have hsame : ∀ i < n, k ≤ i → atp f.permutation w i = atp f.permutation v i := by
    intro i hi hki
    have := hwval i hi
    rw [if_neg] at this
    · exact this
    · intro hh
      have := h.lower k i hh
      omega
  have hcongr : ∀ init, subAll (rowsDown f.sparsity j k n) (fun i => f.l i j * atp f.permutation w i) init =
      subAll (rowsDown f.sparsity j k n) (fun i => f.l i j * atp f.permutation v i) init := by
    intro init
    refine subAll_congr (fun i hi => ?_) init
    have hi' : k ≤ i ∧ i < k + (n - k) := by
      have := (List.mem_filter.mp hi).1
      rw [List.mem_reverse, List.mem_range'_1] at this
      exact this
    rw [hsame i (by omega) hi'.1]
  rw [hcongr, rowsDown_step hk, subAll_append, ← hval j hj]
  have := hwval j hj
  by_cases hh : f.sparsity.Has k j
  · rw [if_pos hh, subAll_single]
    rw [if_pos (show f.toBlock.sparsity.Has k j from hh)] at this
    exact this
  · rw [if_neg hh, subAll_nil]
    rw [if_neg (show ¬ f.toBlock.sparsity.Has k j from hh)] at this
    exact this

/-- Division by the pivots. -/
theorem diagonalSolve_sat {f : DiagFactor K} {n : Nat} (h : DiagOk f n) (hp : IsPerm f.permutation n)
    {rhs : List K} (hr : rhs.length = n) :
    Sat (f.diagonalSolve rhs) (fun v => v.length = n ∧ ∀ i < n, atp f.permutation v i =
      atp f.permutation rhs i / f.d i) := by
  unfold DiagFactor.diagonalSolve
  rw [h.rows]
  refine Sat.mono (foldlM_range_inv (fun k v => v.length = n ∧ ∀ i < n, atp f.permutation v i =
    if i < k then atp f.permutation rhs i / f.d i else atp f.permutation rhs i) ⟨hr, fun i _ => by simp⟩ ?_) ?_
  · rintro k v hk ⟨hv, hval⟩
    unfold DiagFactor.origRowIndex
    rw [rd_permAt (by rw [hp.length]; exact hk), ok_bind, rd_atp hp hv hk, ok_bind,
      rd_getD (by rw [h.lenD]; exact hk), ok_bind, wr_ok (by rw [hv]; exact hp.lt hk)]
    refine Sat.ok ⟨by simpa using hv, fun i hi => ?_⟩
    rw [atp_set hp hv hk _ hi]
    by_cases hik : i = k
    · subst hik
      rw [if_pos rfl, if_pos (by omega), hval i hi, if_neg (by omega)]
    · rw [if_neg hik, hval i hi]
      by_cases hlt : i < k
      · rw [if_pos hlt, if_pos (by omega)]
      · rw [if_neg hlt, if_neg (by omega)]
  · rintro v ⟨hv, hval⟩
    exact ⟨hv, fun i hi => by rw [hval i hi, if_pos hi]⟩

end

end Ctldl
