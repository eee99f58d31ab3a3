import Verif.Lemmas.SolveExact
import Verif.Props.Factorize

/-! # C28 - C31: solving with single factors -/

namespace Ctldl

open Finset

section

variable {K : Type}

/-- An off-diagonal block of the given size, with arbitrary stored values. -/
structure SubFactor.Declared (f : SubFactor K) (numRows numCols : Nat) : Prop where
  pattern : f.sparsity.Valid numRows numCols
  permRow : IsPerm f.permutationRow numRows
  permCol : IsPerm f.permutationCol numCols
  size : f.L.length = f.sparsity.entries.length

/-- A diagonal block of the given size with a strictly lower triangular pattern and arbitrary stored values. -/
structure DiagFactor.Shaped (f : DiagFactor K) (n : Nat) : Prop where
  pattern : f.sparsity.Valid n n
  low : ∀ i j, f.sparsity.toSparsity.Has i j → j < i
  perm : IsPerm f.permutation n
  sizeL : f.L.length = f.sparsity.entries.length
  sizeD : f.D.length = n

private theorem SubFactor.Declared.ok {f : SubFactor K} {r c : Nat} (h : f.Declared r c) : SubOk f r c :=
  ⟨h.pattern.good.1, h.pattern.good.2.1, h.pattern.good.2.2, h.permRow.length, h.permCol.length, h.size⟩

private theorem DiagFactor.Shaped.ok {f : DiagFactor K} {n : Nat} (h : f.Shaped n) : DiagOk f n :=
  ⟨h.pattern.good.1, h.pattern.good.2.1, h.pattern.good.2.2, h.low, h.perm.length, h.sizeL, h.sizeD⟩

/-- Declared factors have that shape. -/
theorem DiagFactor.Declared.shaped {f : DiagFactor K} {s : Sparsity} {p : List Nat} (h : f.Declared s p)
    (hv : ValidSparsity s p) : f.Shaped s.numRows := by
  obtain ⟨hc, hpat⟩ := h.closed1 hv
  refine ⟨⟨f.sparsity.toSparsity, hpat.inRange, hpat.2.2.1, hpat.1, hpat.2.1, ?_⟩, hc.ok.lower, hc.perm, h.sizeL,
    h.sizeD⟩
  have hp := h.pattern
  unfold factorizationSparsity at hp
  rw [staticAssert_true (by simp [isSquare, hv.square]), ok_bind] at hp
  obtain ⟨t, ht, htc⟩ := bind_eq_ok.mp hp
  have htp := Sat.of_ok (getFilledInSparsity_sat hv.inRange hv.square hv.perm hv.small) ht
  obtain ⟨-, h2⟩ := Csr.Good.of_toCsr htp.inRange htp.2.2.1 htc
  rw [h2]
  exact htc

/-! ### C31 -/

/-- C31: forward substitution with an off-diagonal block succeeds for any arithmetic. -/
theorem C31_substitutions_total [Zero K] [Sub K] [Mul K] [Div K] (f : SubFactor K) (r c : Nat) (h : f.Declared r c)
    (x y : List K) (hx : x.length = c) (hy : y.length = r) :
    (∃ v, solveForwardSubstitution f x y = .ok v ∧ v.length = r) ∧
    (∃ v, solveBackwardSubstitution f y x = .ok v ∧ v.length = c) := by
  obtain ⟨v, h1, h2, -⟩ := forward_sat h.ok h.permRow h.permCol hx hy
  obtain ⟨w, h3, h4, -⟩ := backward_sat h.ok h.permRow h.permCol hy hx
  exact ⟨⟨v, h1, h2⟩, ⟨w, h3, h4⟩⟩

/-- C31: forward substitution with an off-diagonal block subtracts the product of the block with the solution; row
`i` and column `j` of the block belong to the elements `permutationRow[i]` and `permutationCol[j]`. -/
theorem C31_forward [Field K] (f : SubFactor K) (r c : Nat) (h : f.Declared r c) (x y : List K)
    (hx : x.length = c) (hy : y.length = r) :
    ∃ v, solveForwardSubstitution f x y = .ok v ∧ v.length = r ∧ ∀ i < r,
      v.getD (permAt f.permutationRow i) 0 = y.getD (permAt f.permutationRow i) 0 -
        ∑ j ∈ range c, f.entry i j * x.getD (permAt f.permutationCol j) 0 :=
  forward_exact h.ok h.permRow h.permCol hx hy

/-- C31: backward substitution with an off-diagonal block subtracts the product of the transposed block with the
solution. -/
theorem C31_backward [Field K] (f : SubFactor K) (r c : Nat) (h : f.Declared r c) (x y : List K)
    (hx : x.length = c) (hy : y.length = r) :
    ∃ v, solveBackwardSubstitution f y x = .ok v ∧ v.length = c ∧ ∀ j < c,
      v.getD (permAt f.permutationCol j) 0 = x.getD (permAt f.permutationCol j) 0 -
        ∑ i ∈ range r, f.entry i j * y.getD (permAt f.permutationRow i) 0 :=
  backward_exact h.ok h.permRow h.permCol hy hx

/-- C31: forward substitution in place maps `L w` to `w`, for every `w`. -/
theorem C31_forward_in_place [Field K] (f : DiagFactor K) (n : Nat) (h : f.Shaped n) (w b : List K)
    (hw : w.length = n) (hb : b.length = n)
    (heq : ∀ i < n, b.getD (permAt f.permutation i) 0 =
      ∑ j ∈ range n, unitLower f.lower i j * w.getD (permAt f.permutation j) 0) :
    solveForwardSubstitutionInPlace f b = .ok w := by
  obtain ⟨v, h1, h2, h3⟩ := forwardInPlace_exact h.ok h.perm hb
  rw [h1]
  congr 1
  refine atp_ext h.perm h2 hw fun i hi => ?_
  have hz := triangular_inj (r := (· < ·)) Nat.lt_wfRel.wf (range n) (l := f.l)
    (w := fun j => atp f.permutation v j - atp f.permutation w j) (fun x _ y _ hxy => by
      by_contra hlt
      exact hxy (h.ok.l_zero x y (by omega))) (fun x hx => by
      have hx' : x < n := by simpa using hx
      rw [← sum_unitLower h.ok.l_zero hx' (fun j => atp f.permutation v j - atp f.permutation w j)]
      simp only [mul_sub, sum_sub_distrib]
      rw [h3 x hx', sub_eq_zero]
      exact heq x hx') i (by simpa using hi)
  exact sub_eq_zero.mp hz

/-- C31: backward substitution in place maps `Lᵀ w` to `w`, for every `w`. -/
theorem C31_backward_in_place [Field K] (f : DiagFactor K) (n : Nat) (h : f.Shaped n) (w b : List K)
    (hw : w.length = n) (hb : b.length = n)
    (heq : ∀ j < n, b.getD (permAt f.permutation j) 0 =
      ∑ i ∈ range n, unitLower f.lower i j * w.getD (permAt f.permutation i) 0) :
    solveBackwardSubstitutionInPlace f b = .ok w := by
  obtain ⟨v, h1, h2, h3⟩ := backwardInPlace_exact h.ok h.perm hb
  rw [h1]
  congr 1
  refine atp_ext h.perm h2 hw fun i hi => ?_
  have hz := triangular_inj (r := fun a b => n - a < n - b) (measure (fun a => n - a)).wf (range n)
    (l := fun a b => f.l b a) (w := fun j => atp f.permutation v j - atp f.permutation w j) (fun x hx y hy hxy => by
      by_contra hlt
      have : y < n := by simpa using hy
      exact hxy (h.ok.l_zero y x (by omega))) (fun x hx => by
      have hx' : x < n := by simpa using hx
      rw [← sum_unitLower_transposed h.ok.l_zero hx' (fun j => atp f.permutation v j - atp f.permutation w j)]
      simp only [mul_sub, sum_sub_distrib]
      rw [h3 x hx', sub_eq_zero]
      exact heq x hx') i (by simpa using hi)
  exact sub_eq_zero.mp hz

/-- C31: forward substitution in place with a left neighbour: the result solves `L₂₁ y₁ + L₂₂ v = b`. -/
theorem C31_forward_left [Field K] (f : DiagFactor K) (n : Nat) (h : f.Shaped n) (left : SubFactor K) (c : Nat)
    (hl : left.Declared n c) (hpl : left.permutationRow = f.permutation) (y b : List K) (hy : y.length = c)
    (hb : b.length = n) :
    ∃ v, solveForwardSubstitutionLeft f b left y = .ok v ∧ v.length = n ∧ ∀ i < n,
      ∑ j ∈ range c, left.entry i j * y.getD (permAt left.permutationCol j) 0 +
      ∑ j ∈ range n, unitLower f.lower i j * v.getD (permAt f.permutation j) 0 = b.getD (permAt f.permutation i) 0 :=
  forwardLeft_exact h.ok h.perm hl.ok hpl hl.permCol hb hy

/-- C31: division by the pivots, for any arithmetic. -/
theorem C31_diagonal [Zero K] [Sub K] [Mul K] [Div K] (f : DiagFactor K) (n : Nat) (h : f.Shaped n) (b : List K)
    (hb : b.length = n) :
    ∃ v, f.diagonalSolve b = .ok v ∧ v.length = n ∧ ∀ i < n,
      v.getD (permAt f.permutation i) 0 = b.getD (permAt f.permutation i) 0 / f.pivot i :=
  diagonalSolve_sat h.ok h.perm hb

/-! ### C29, C30 -/

private theorem solve_original [Field K] {f : DiagFactor K} {s : Sparsity} {p : List Nat} (hv : ValidSparsity s p)
    (hf : f.Declared s p) {m : MatIn K} {reg : K → Nat → K} {δ : Nat → K}
    (hr : Reproduces f m p s.numRows reg δ) (hpiv : ∀ i < s.numRows, f.pivot i ≠ 0) (b : List K)
    (hb : b.length = s.numRows) :
    ∃ x, f.solveInPlace b = .ok x ∧ x.length = s.numRows ∧ ∀ i < s.numRows,
      ∑ j ∈ range s.numRows, m.sym (permAt p i) j * x.getD j 0 + (f.pivot i - δ i) * x.getD (permAt p i) 0 =
        b.getD (permAt p i) 0 := by
  have hs := hf.shaped hv
  obtain ⟨x, h1, h2, h3⟩ := solveInPlace_exact hs.ok hs.perm hpiv hb
  refine ⟨x, h1, h2, fun i hi => ?_⟩
  have := h3 i hi
  rw [hf.perm] at this
  unfold atp at this
  rw [← this, ← sum_perm hv.perm]
  have hterm : ∀ j ∈ range s.numRows, ldlt s.numRows f.l f.d i j * x.getD (permAt p j) 0 =
      m.sym (permAt p i) (permAt p j) * x.getD (permAt p j) 0 +
        if i = j then (f.pivot i - δ i) * x.getD (permAt p j) 0 else 0 := by
    intro j hj
    have := hr.2 i hi j (by simpa using hj)
    rw [show ldlt s.numRows f.l f.d i j = _ from this, add_mul]
    by_cases hij : i = j
    · rw [if_pos hij, if_pos hij]
    · rw [if_neg hij, if_neg hij, zero_mul]
  rw [sum_congr rfl hterm, sum_add_distrib, sum_ite_eq, if_pos (by simpa using hi)]

/-- C29: after a factorization whose pivots are not zero, `solveInPlace` solves the system with the symmetric matrix
given by the lower triangle, with the diagonal perturbed by what the regularization changed: element `p[i]` of the
right-hand side belongs to pivot `i`. -/
theorem C29_solve [Field K] (s : Sparsity) (p : List Nat) (hv : ValidSparsity s p)
    (f : DiagFactor K) (hf : f.Declared s p) (m : MatIn K) (hm : m.Fits s p) (reg : K → Nat → K) (method : Method)
    (f' : DiagFactor K) (h : f.factorize m reg method = .ok f') (hpiv : ∀ i < s.numRows, f'.pivot i ≠ 0)
    (b : List K) (hb : b.length = s.numRows) :
    ∃ x δ, f'.solveInPlace b = .ok x ∧ x.length = s.numRows ∧ Reproduces f' m p s.numRows reg δ ∧
      ∀ i < s.numRows, ∑ j ∈ range s.numRows, m.sym (permAt p i) j * x.getD j 0 +
        (f'.pivot i - δ i) * x.getD (permAt p i) 0 = b.getD (permAt p i) 0 := by
  have hpiv' : ∀ i j, f'.sparsity.toSparsity.Has i j → f'.pivot j ≠ 0 := by
    obtain ⟨f'', h1, h2⟩ := C25_factorize_total s p hv f hf m hm reg method
    rw [h] at h1
    cases h1
    intro i j hij
    have hk := (h2.closed1 hv).1.ok
    exact hpiv j (hk.cols ▸ hk.good.col_lt hij)
  have hrep : f'.Declared s p ∧ ∃ δ, Reproduces f' m p s.numRows reg δ := by
    cases method with
    | upLooking => exact C22_upLooking_reproduces s p hv f hf m hm reg f' h hpiv'
    | entryWise => exact C23_entryWise_reproduces s p hv f hf m hm reg f' h hpiv'
  obtain ⟨hf', δ, hδ⟩ := hrep
  obtain ⟨x, h1, h2, h3⟩ := solve_original hv hf' hδ hpiv b hb
  exact ⟨x, δ, h1, h2, hδ, h3⟩

/-- C29: without regularization the computed vector solves `A x = b`, in the original ordering. -/
theorem C29_solve_unregularized [Field K] (s : Sparsity) (p : List Nat) (hv : ValidSparsity s p)
    (f : DiagFactor K) (hf : f.Declared s p) (m : MatIn K) (hm : m.Fits s p) (method : Method)
    (f' : DiagFactor K) (h : f.factorize m regularizationNone method = .ok f')
    (hpiv : ∀ i < s.numRows, f'.pivot i ≠ 0) (b : List K) (hb : b.length = s.numRows) :
    ∃ x, f'.solveInPlace b = .ok x ∧ x.length = s.numRows ∧
      ∀ a < s.numRows, ∑ j ∈ range s.numRows, m.sym a j * x.getD j 0 = b.getD a 0 := by
  obtain ⟨x, δ, h1, h2, h3, h4⟩ := C29_solve s p hv f hf m hm regularizationNone method f' h hpiv b hb
  refine ⟨x, h1, h2, fun a ha => ?_⟩
  obtain ⟨i, hi, rfl⟩ := hv.perm.surj ha
  have := h4 i hi
  rw [show f'.pivot i = δ i from h3.1 i hi, sub_self, zero_mul, add_zero] at this
  exact this

/-- C29: the solution is the only one: whenever `A x = b`, solving with right-hand side `b` returns `x`. -/
theorem C29_solve_unique [Field K] (s : Sparsity) (p : List Nat) (hv : ValidSparsity s p)
    (f : DiagFactor K) (hf : f.Declared s p) (m : MatIn K) (hm : m.Fits s p) (method : Method)
    (f' : DiagFactor K) (h : f.factorize m regularizationNone method = .ok f')
    (hpiv : ∀ i < s.numRows, f'.pivot i ≠ 0) (x b : List K) (hx : x.length = s.numRows) (hb : b.length = s.numRows)
    (heq : ∀ a < s.numRows, ∑ j ∈ range s.numRows, m.sym a j * x.getD j 0 = b.getD a 0) :
    f'.solveInPlace b = .ok x := by
  obtain ⟨y, δ, h1, h2, h3, -⟩ := C29_solve s p hv f hf m hm regularizationNone method f' h hpiv b hb
  obtain ⟨y', h1', h2', h4⟩ := C29_solve_unregularized s p hv f hf m hm method f' h hpiv b hb
  rw [h1] at h1'
  cases h1'
  rw [h1]
  congr 1
  obtain ⟨f'', g1, g2⟩ := C25_factorize_total s p hv f hf m hm regularizationNone method
  rw [h] at g1
  cases g1
  have hs := g2.shaped hv
  refine atp_ext hv.perm h2 hx fun i hi => ?_
  have hz := ldlt_inj (n := s.numRows) (l := f'.lower) (d := f'.pivot)
    (w := fun j => atp p y j - atp p x j) hs.ok.l_zero hpiv (fun i hi => by
      have e1 : ∀ j ∈ range s.numRows, ldlt s.numRows f'.lower f'.pivot i j * (atp p y j - atp p x j) =
          m.sym (permAt p i) (permAt p j) * (y.getD (permAt p j) 0 - x.getD (permAt p j) 0) := by
        intro j hj
        have := h3.2 i hi j (by simpa using hj)
        rw [show f'.pivot i = δ i from h3.1 i hi, sub_self, ite_self, add_zero] at this
        rw [this]
        rfl
      rw [sum_congr rfl e1,
        sum_perm hv.perm (fun a => m.sym (permAt p i) a * (y.getD a 0 - x.getD a 0))]
      simp only [mul_sub, sum_sub_distrib]
      rw [h4 _ (hv.perm.lt hi), heq _ (hv.perm.lt hi), sub_self]) i hi
  exact sub_eq_zero.mp hz

/-- C30: with two permutations (and declared patterns and methods) for matrices with the same lower triangle the
computed solutions are the same, if no pivot is zero and none is changed. -/
theorem C30_independent_of_permutation [Field K] (s t : Sparsity) (p q : List Nat) (hv : ValidSparsity s p)
    (hw : ValidSparsity t q) (hn : s.numRows = t.numRows)
    (f : DiagFactor K) (hf : f.Declared s p) (g : DiagFactor K) (hg : g.Declared t q)
    (m m' : MatIn K) (hm : m.Fits s p) (hm' : m'.Fits t q) (hlow : ∀ i j, j ≤ i → m.elem i j = m'.elem i j)
    (method method' : Method)
    (f' g' : DiagFactor K) (h : f.factorize m regularizationNone method = .ok f')
    (h' : g.factorize m' regularizationNone method' = .ok g')
    (hpiv : ∀ i < s.numRows, f'.pivot i ≠ 0) (hpiv' : ∀ i < t.numRows, g'.pivot i ≠ 0)
    (b : List K) (hb : b.length = s.numRows) :
    ∃ x, f'.solveInPlace b = .ok x ∧ g'.solveInPlace b = .ok x := by
  obtain ⟨x, h1, h2, h3⟩ := C29_solve_unregularized s p hv f hf m hm method f' h hpiv b hb
  refine ⟨x, h1, C29_solve_unique t q hw g hg m' hm' method' g' h' hpiv' x b (by omega) (by omega) ?_⟩
  intro a ha
  rw [← h3 a (by omega), hn]
  refine sum_congr rfl fun j _ => ?_
  unfold MatIn.sym
  rw [hlow _ _ (by omega)]

/-- C28: with the small positive constant regularization `solveInPlace` always solves the system perturbed at
exactly those diagonal positions whose pivot was below the tolerance. -/
theorem C28_solve [Field K] [LinearOrder K] [IsStrictOrderedRing K]
    (s : Sparsity) (p : List Nat) (hv : ValidSparsity s p) (f : DiagFactor K) (hf : f.Declared s p) (m : MatIn K)
    (hm : m.Fits s p) (tol c : K) (ht : 0 < tol) (hc : 0 < c) (method : Method) (b : List K)
    (hb : b.length = s.numRows) :
    ∃ f' x, ∃ δ : Nat → K, f.factorize m (regularizationSmallPositiveConstant (fun x => |x|) tol c) method = .ok f' ∧
      f'.solveInPlace b = .ok x ∧
      (∀ i < s.numRows, (|δ i| < tol → f'.pivot i = c) ∧ (tol ≤ |δ i| → f'.pivot i = δ i)) ∧
      ∀ i < s.numRows, ∑ j ∈ range s.numRows, m.sym (permAt p i) j * x.getD j 0 +
        (f'.pivot i - δ i) * x.getD (permAt p i) 0 = b.getD (permAt p i) 0 := by
  obtain ⟨f', h1, -, h2, -⟩ := C28_small_positive_constant s p hv f hf m hm tol c ht hc method
  obtain ⟨x, δ, h3, -, h4, h5⟩ := C29_solve s p hv f hf m hm _ method f' h1 h2 b hb
  refine ⟨f', x, δ, h1, h3, fun i hi => ?_, h5⟩
  have := h4.1 i hi
  unfold regularizationSmallPositiveConstant at this
  constructor
  · intro hlt
    rwa [if_pos hlt] at this
  · intro hge
    rwa [if_neg (not_lt.mpr hge)] at this

/-- C25: for any arithmetic `solveInPlace` succeeds. -/
theorem C25_solve_total [Zero K] [Sub K] [Mul K] [Div K] (f : DiagFactor K) (n : Nat) (h : f.Shaped n)
    (b : List K) (hb : b.length = n) : ∃ x, f.solveInPlace b = .ok x ∧ x.length = n := by
  obtain ⟨y, h1, h2, -⟩ := forwardInPlace_sat h.ok h.perm hb
  obtain ⟨z, h3, h4, -⟩ := diagonalSolve_sat h.ok h.perm h2
  obtain ⟨x, h5, h6, -⟩ := backwardInPlace_sat h.ok h.perm h4
  refine ⟨x, ?_, h6⟩
  unfold DiagFactor.solveInPlace
  rw [h1, ok_bind, h3, ok_bind, h5]

/-- A case meeting the hypotheses: the witness of the factorization, whose three pivots are not zero. -/
example : (do
    let f ← witnessF.factorize witnessM regularizationNone .entryWise
    let x ← f.solveInPlace [1, 2, 3]
    return (f.D, x) : Res (List ℚ × List ℚ)) = .ok ([4, 4, 43 / 16], [7 / 43, 31 / 43, 23 / 43]) := by
  decide +kernel

/-- The witness has the shape required of a diagonal block. -/
example : witnessF.Shaped 3 := witness_declared.shaped witness_valid

end

end Ctldl
