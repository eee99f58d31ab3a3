import Verif.Lemmas.Solve
import Verif.Lemmas.Single
import Verif.Lemmas.Triangular

/-! # Solving with a single factor in exact arithmetic -/

namespace Ctldl

open Finset

section

variable {K : Type} [Field K]

theorem val_off_mul {c : Csr} {L : List K} {i j : Nat} (h : ¬ c.Has i j) (x : K) : val c L i j * x = 0 := by
  rw [val_off h, zero_mul]

theorem sum_rowsDown {c : Csr} (hc : c.Good) (j : Nat) {f : Nat → K} (hf : ∀ k, ¬ c.Has k j → f k = 0) :
    ((rowsDown c j 0 c.numRows).map f).sum = ∑ k ∈ range c.numRows, f k := by
  unfold rowsDown
  refine sum_map_filter ?_ ?_ _ ?_
  · rw [List.nodup_reverse]
    exact List.nodup_range'
  · intro k hk
    rw [List.mem_reverse, List.mem_range'_1] at hk
    omega
  · intro k hk
    by_cases hh : c.Has k j
    · exact absurd ⟨by rw [List.mem_reverse, List.mem_range'_1]; have := hc.row_lt hh; omega, by simpa using hh⟩ hk
    · exact hf k hh

theorem sum_unitLower {n : Nat} {l : Nat → Nat → K} (hl : ∀ i j, i ≤ j → l i j = 0) {i : Nat} (hi : i < n)
    (x : Nat → K) : ∑ j ∈ range n, unitLower l i j * x j = x i + ∑ j ∈ range n, l i j * x j := by
  have : ∀ j ∈ range n, unitLower l i j * x j = (if i = j then x j else 0) + l i j * x j := by
    intro j _
    rw [unitLower_eq hl]
    by_cases h : i = j
    · simp [h]
      ring
    · simp [h]
  rw [sum_congr rfl this, sum_add_distrib, sum_ite_eq, if_pos (by simpa using hi)]

theorem sum_unitLower_transposed {n : Nat} {l : Nat → Nat → K} (hl : ∀ i j, i ≤ j → l i j = 0) {j : Nat}
    (hj : j < n) (x : Nat → K) :
    ∑ i ∈ range n, unitLower l i j * x i = x j + ∑ i ∈ range n, l i j * x i := by
  have : ∀ i ∈ range n, unitLower l i j * x i = (if j = i then x i else 0) + l i j * x i := by
    intro i _
    rw [unitLower_eq hl]
    by_cases h : j = i
    · simp [h]
      ring
    · simp [h, Ne.symm h]
  rw [sum_congr rfl this, sum_add_distrib, sum_ite_eq, if_pos (by simpa using hj)]

theorem DiagOk.l_zero {f : DiagFactor K} {n : Nat} (h : DiagOk f n) : ∀ i j, i ≤ j → f.l i j = 0 :=
  fun a b hab => val_off fun hh => by
    have := h.lower a b hh
    omega

/-- Forward substitution inverts the unit lower triangular matrix. -/
theorem forwardInPlace_exact {f : DiagFactor K} {n : Nat} (h : DiagOk f n) (hp : IsPerm f.permutation n)
    {rhs : List K} (hr : rhs.length = n) :
    Sat (solveForwardSubstitutionInPlace f rhs) (fun v => v.length = n ∧ ∀ i < n,
      ∑ j ∈ range n, unitLower f.l i j * atp f.permutation v j = atp f.permutation rhs i) := by
  refine Sat.mono (forwardInPlace_sat h hp hr) ?_
  rintro v ⟨hv, hval⟩
  refine ⟨hv, fun i hi => ?_⟩
  rw [sum_unitLower h.l_zero hi]
  have := hval i hi
  rw [subAll_eq_sub_sum, sum_map_cols h.good i (fun k hk => val_off_mul hk _), h.cols] at this
  linear_combination this

/-- Forward substitution with a left neighbour. -/
theorem forwardLeft_exact {f : DiagFactor K} {n : Nat} (h : DiagOk f n) (hp : IsPerm f.permutation n)
    {left : SubFactor K} {c : Nat} (hl : SubOk left n c) (hpl : left.permutationRow = f.permutation)
    (hpc : IsPerm left.permutationCol c) {rhs sol : List K} (hr : rhs.length = n) (hs : sol.length = c) :
    Sat (solveForwardSubstitutionLeft f rhs left sol) (fun v => v.length = n ∧ ∀ i < n,
      ∑ j ∈ range c, left.l i j * atp left.permutationCol sol j +
      ∑ j ∈ range n, unitLower f.l i j * atp f.permutation v j = atp f.permutation rhs i) := by
  refine Sat.mono (forwardLeft_sat h hp hl hpl hpc hr hs) ?_
  rintro v ⟨hv, hval⟩
  refine ⟨hv, fun i hi => ?_⟩
  rw [sum_unitLower h.l_zero hi]
  have := hval i hi
  rw [subAll_eq_sub_sum, sum_map_cols h.good i (fun k hk => val_off_mul hk _), h.cols,
    subAll_eq_sub_sum, sum_map_cols hl.good i (fun k hk => val_off_mul hk _), hl.cols] at this
  linear_combination this

/-- Forward substitution with an off-diagonal block. -/
theorem forward_exact {f : SubFactor K} {r c : Nat} (h : SubOk f r c) (hpr : IsPerm f.permutationRow r)
    (hpc : IsPerm f.permutationCol c) {sol ps : List K} (hs : sol.length = c) (hps : ps.length = r) :
    Sat (solveForwardSubstitution f sol ps) (fun v => v.length = r ∧ ∀ i < r, atp f.permutationRow v i =
      atp f.permutationRow ps i - ∑ j ∈ range c, f.l i j * atp f.permutationCol sol j) := by
  refine Sat.mono (forward_sat h hpr hpc hs hps) ?_
  rintro v ⟨hv, hval⟩
  refine ⟨hv, fun i hi => ?_⟩
  rw [hval i hi, subAll_eq_sub_sum, sum_map_cols h.good i (fun k hk => val_off_mul hk _), h.cols]

/-- Backward substitution with an off-diagonal block. -/
theorem backward_exact {f : SubFactor K} {r c : Nat} (h : SubOk f r c) (hpr : IsPerm f.permutationRow r)
    (hpc : IsPerm f.permutationCol c) {sol ps : List K} (hs : sol.length = r) (hps : ps.length = c) :
    Sat (solveBackwardSubstitution f sol ps) (fun v => v.length = c ∧ ∀ j < c, atp f.permutationCol v j =
      atp f.permutationCol ps j - ∑ i ∈ range r, f.l i j * atp f.permutationRow sol i) := by
  refine Sat.mono (backward_sat h hpr hpc hs hps) ?_
  rintro v ⟨hv, hval⟩
  refine ⟨hv, fun j hj => ?_⟩
  have := sum_rowsDown h.good j (f := fun i => f.l i j * atp f.permutationRow sol i)
    (fun k hk => val_off_mul hk _)
  rw [h.rows] at this
  rw [hval j hj, subAll_eq_sub_sum, this]

/-- Backward substitution inverts the transposed unit lower triangular matrix. -/
theorem backwardInPlace_exact {f : DiagFactor K} {n : Nat} (h : DiagOk f n) (hp : IsPerm f.permutation n)
    {rhs : List K} (hr : rhs.length = n) :
    Sat (solveBackwardSubstitutionInPlace f rhs) (fun v => v.length = n ∧ ∀ j < n,
      ∑ i ∈ range n, unitLower f.l i j * atp f.permutation v i = atp f.permutation rhs j) := by
  refine Sat.mono (backwardInPlace_sat h hp hr) ?_
  rintro v ⟨hv, hval⟩
  refine ⟨hv, fun j hj => ?_⟩
  rw [sum_unitLower_transposed h.l_zero hj]
  have h1 := sum_rowsDown h.good j (f := fun i => f.l i j * atp f.permutation v i)
    (fun k hk => val_off_mul hk _)
  rw [h.rows] at h1
  have := hval j hj
  rw [subAll_eq_sub_sum, h1] at this
  linear_combination this

/-- Solving with a single factor. -/
theorem solveInPlace_exact {f : DiagFactor K} {n : Nat} (h : DiagOk f n) (hp : IsPerm f.permutation n)
    (hpiv : ∀ i < n, f.d i ≠ 0) {rhs : List K} (hr : rhs.length = n) :
    Sat (f.solveInPlace rhs) (fun x => x.length = n ∧ ∀ i < n,
      ∑ j ∈ range n, ldlt n f.l f.d i j * atp f.permutation x j = atp f.permutation rhs i) := by
  unfold DiagFactor.solveInPlace
  refine Sat.bind (forwardInPlace_exact h hp hr) ?_
  rintro y ⟨hy, hyv⟩
  refine Sat.bind (diagonalSolve_sat h hp hy) ?_
  rintro z ⟨hz, hzv⟩
  refine Sat.mono (backwardInPlace_exact h hp hz) ?_
  rintro x ⟨hx, hxv⟩
  refine ⟨hx, fun i hi => ?_⟩
  unfold ldlt
  rw [ldlt_mul, ← hyv i hi]
  refine sum_congr rfl fun k hk => ?_
  rw [hxv k (by simpa using hk), hzv k (by simpa using hk), mul_div_cancel₀ _ (hpiv k (by simpa using hk))]

/-- A symmetric matrix with a factorization with non-zero pivots is regular. -/
theorem ldlt_inj {n : Nat} {l : Nat → Nat → K} {d : Nat → K} (hl : ∀ i j, i ≤ j → l i j = 0)
    (hpiv : ∀ i < n, d i ≠ 0) {w : Nat → K} (h : ∀ i < n, ∑ j ∈ range n, ldlt n l d i j * w j = 0) :
    ∀ i < n, w i = 0 := by
  unfold ldlt at h
  have h1 : ∀ k ∈ range n, d k * ∑ j ∈ range n, unitLower l j k * w j = 0 := by
    refine triangular_inj (r := (· < ·)) Nat.lt_wfRel.wf (range n) (l := l) ?_ ?_
    · intro x _ y _ hxy
      by_contra hlt
      exact hxy (hl x y (by omega))
    · intro x hx
      rw [← sum_unitLower hl (by simpa using hx) (fun k => d k * ∑ j ∈ range n, unitLower l j k * w j), ← ldlt_mul]
      exact h x (by simpa using hx)
  have h2 : ∀ k ∈ range n, w k + ∑ j ∈ range n, l j k * w j = 0 := by
    intro k hk
    have hk' : k < n := by simpa using hk
    rw [← sum_unitLower_transposed hl hk']
    exact (mul_eq_zero.mp (h1 k hk)).resolve_left (hpiv k hk')
  have h3 : ∀ k ∈ range n, w k = 0 := by
    refine triangular_inj (r := fun a b => n - a < n - b) (measure (fun a => n - a)).wf (range n)
      (l := fun a b => l b a) ?_ h2
    intro x hx y hy hxy
    by_contra hlt
    have : y < n := by simpa using hy
    exact hxy (hl y x (by omega))
  exact fun i hi => h3 i (by simpa using hi)

/-- Sums over a permuted range. -/
theorem sum_perm {p : List Nat} {n : Nat} (hp : IsPerm p n) (g : Nat → K) :
    ∑ i ∈ range n, g (permAt p i) = ∑ a ∈ range n, g a := by
  refine sum_bij (fun i _ => permAt p i) ?_ ?_ ?_ (fun _ _ => rfl)
  · intro i hi
    simpa using hp.lt (by simpa using hi)
  · intro i hi j hj hij
    exact hp.inj (by simpa using hi) (by simpa using hj) hij
  · intro a ha
    obtain ⟨i, hi, h⟩ := hp.surj (a := a) (by simpa using ha)
    exact ⟨i, by simpa using hi, h⟩

end

end Ctldl
