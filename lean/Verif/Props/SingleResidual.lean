import Verif.Props.DefiniteRounding

/-! # C47: rounding errors of factorizing and solving with a single matrix -/

namespace Ctldl

open Finset

variable {K F : Type} [Zero K] [Sub K] [Mul K] [Div K] [Field F] [LinearOrder F] [IsStrictOrderedRing F]

private theorem stored_entries {s : Sparsity} {p : List Nat} (hv : ValidSparsity s p) {f : DiagFactor K} (hf : f.Declared s p)
    {f' : DiagFactor K} (R : Rounding K F) {m : MatIn K} (hm : m.Fits s p) {reg : K → Nat → K} {method : Method}
    (h : f.factorize m reg method = .ok f') : f'.Entries R.stored := by
  obtain ⟨hcl, -⟩ := hf.closed1 hv
  obtain ⟨L, D, rfl, hL, hD, hrows⟩ := Sat.of_ok (factorize_sat hcl (fits_single hv hf hm) reg method) h
  intro a b hab
  exact singleRow_quotient R.stored_div (hrows a (hcl.ok.rows ▸ hcl.ok.good.row_lt hab)) b hab

/-- C47: a system of equations with a single matrix is solved with the same bound as with repeating matrices. If the
computed pivots (and the values they come from) and the computed solution are finite, then the residual of the system
with the given matrix, to the diagonal of which each regularized pivot adds its change, is at most of the order of
`(gamma (n + c + 3) + gamma (n + 2)) |L| |D| |Lᵀ| |x|`, up to underflow. -/
theorem C47_single_residual (R : Rounding K F) (s : Sparsity) (p : List Nat) (hv : ValidSparsity s p)
    (f : DiagFactor K) (hf : f.Declared s p) (m : MatIn K) (hm : m.Fits s p) (reg : K → Nat → K) (method : Method)
    (f' : DiagFactor K) (h : f.factorize m reg method = .ok f')
    (hfin : ∀ i < s.numRows, R.fin (f'.pivot i) ∧ ∀ x, f'.pivot i = reg x i → R.fin x)
    (ε : F) (h0 : 0 ≤ ε)
    (hε : ∀ i j, f'.sparsity.toSparsity.Has i j →
      R.η * (1 + |R.v (f'.pivot j)| * (1 + |R.v (f'.lower i j)|)) ≤ ε)
    (b : List K) (hb : b.length = s.numRows) (x : List K) (hx : f'.solveInPlace b = .ok x)
    (hxfin : ∀ i < s.numRows, R.fin (x.getD i 0))
    (n : Nat) (hn : ∀ i < s.numRows, f'.sparsity.rowEntries i ≤ n)
    (c : Nat) (hc : ∀ j < s.numRows, f'.sparsity.colEntries j ≤ c) :
    ∃ w : Nat → K, (∀ i < s.numRows, f'.pivot i = reg (w i) i) ∧ ∀ i < s.numRows,
      |R.v (b.getD (permAt p i) 0) - ∑ j ∈ range s.numRows, (R.v (m.sym (permAt p i) (permAt p j)) +
          if i = j then R.v (f'.pivot i) - R.v (w i) else 0) * R.v (x.getD (permAt p j) 0)| ≤
        R.gamma (n + c + 3) * ∑ j ∈ range s.numRows,
          ldlt s.numRows (fun a b => |R.v (f'.lower a b)|) (fun a => |R.v (f'.pivot a)|) i j *
            |R.v (x.getD (permAt p j) 0)| +
        R.gamma (n + 2) * ∑ j ∈ range s.numRows,
          (ldlt s.numRows (fun a b => |R.v (f'.lower a b)|) (fun a => |R.v (f'.pivot a)|) i j +
            if i = j then |R.v (w i)| - |R.v (f'.pivot i)| else 0) * |R.v (x.getD (permAt p j) 0)| +
        (R.growth (n + c + 3) * (n * R.η + ∑ j ∈ range s.numRows,
          unitLower (fun a b => |R.v (f'.lower a b)|) i j * (|R.v (f'.pivot j)| * ((c + 1) * R.η))) +
        R.growth (n + 2) * ((n + 1) * ε) * ∑ j ∈ range s.numRows, |R.v (x.getD (permAt p j) 0)|) := by
  obtain ⟨w, hw, hA⟩ := C46_single_backward_error R s p hv f hf m hm reg method f' h hfin ε h0 hε n hn
  obtain ⟨f'', h', hd⟩ := C25_factorize_total s p hv f hf m hm reg method
  obtain rfl : f'' = f' := by rw [h] at h'; cases h'; rfl
  have hsol := C47_single_solve R s p hv f'' hd (stored_entries hv hf R hm h) b hb x hx (fun i hi => (hfin i hi).1) hxfin
    n hn c hc
  refine ⟨w, hw, fun i hi => ?_⟩
  have h1 := hsol i hi
  generalize R.v (b.getD (permAt p i) 0) = β at h1 ⊢
  generalize R.gamma (n + c + 3) * _ = B1 at h1 ⊢
  generalize R.growth (n + c + 3) * _ = B2 at h1 ⊢
  set X : Nat → F := fun j => R.v (x.getD (permAt p j) 0) with hX
  set P : Nat → F := fun j => ldlt s.numRows (fun a b => R.v (f''.lower a b)) (fun a => R.v (f''.pivot a)) i j with hP
  set Q : Nat → F := fun j => ldlt s.numRows (fun a b => |R.v (f''.lower a b)|) (fun a => |R.v (f''.pivot a)|) i j +
    if i = j then |R.v (w i)| - |R.v (f''.pivot i)| else 0 with hQ
  set M : Nat → F := fun j => R.v (m.sym (permAt p i) (permAt p j)) +
    if i = j then R.v (f''.pivot i) - R.v (w i) else 0 with hM
  change |β - ∑ j ∈ range s.numRows, M j * X j| ≤ B1 + R.gamma (n + 2) * ∑ j ∈ range s.numRows, Q j * |X j| +
    (B2 + R.growth (n + 2) * ((n + 1) * ε) * ∑ j ∈ range s.numRows, |X j|)
  change |β - ∑ j ∈ range s.numRows, P j * X j| ≤ B1 + B2 at h1
  have h2 : ∀ j ∈ range s.numRows, |(M j - P j) * X j| ≤
      R.gamma (n + 2) * (Q j * |X j|) + R.growth (n + 2) * ((n + 1) * ε) * |X j| := by
    intro j hj
    have h3 := hA i hi j (mem_range.mp hj)
    rw [abs_mul, ← mul_assoc, ← add_mul]
    refine mul_le_mul_of_nonneg_right (le_trans (le_of_eq (congrArg _ ?_)) h3) (abs_nonneg _)
    simp only [hM, hP]
    split <;> ring
  have h4 : β - ∑ j ∈ range s.numRows, M j * X j =
      (β - ∑ j ∈ range s.numRows, P j * X j) - ∑ j ∈ range s.numRows, (M j - P j) * X j := by
    simp only [sub_mul, sum_sub_distrib]
    ring
  have h5 : |∑ j ∈ range s.numRows, (M j - P j) * X j| ≤
      ∑ j ∈ range s.numRows, (R.gamma (n + 2) * (Q j * |X j|) + R.growth (n + 2) * ((n + 1) * ε) * |X j|) :=
    (abs_sum_le_sum_abs _ _).trans (sum_le_sum h2)
  simp only [sum_add_distrib, ← mul_sum] at h5
  rw [h4]
  refine (abs_sub _ _).trans ((add_le_add h1 h5).trans_eq ?_)
  ring

/-- C47: without regularization and without underflow the residual of the given system is at most
`(gamma (n + c + 3) + gamma (n + 2)) |L| |D| |Lᵀ| |x|`. -/
theorem C47_single_residual_unregularized (R : Rounding K F) (hη : R.η = 0) (s : Sparsity) (p : List Nat)
    (hv : ValidSparsity s p) (f : DiagFactor K) (hf : f.Declared s p) (m : MatIn K) (hm : m.Fits s p) (method : Method)
    (f' : DiagFactor K) (h : f.factorize m regularizationNone method = .ok f')
    (hfin : ∀ i < s.numRows, R.fin (f'.pivot i))
    (b : List K) (hb : b.length = s.numRows) (x : List K) (hx : f'.solveInPlace b = .ok x)
    (hxfin : ∀ i < s.numRows, R.fin (x.getD i 0))
    (n : Nat) (hn : ∀ i < s.numRows, f'.sparsity.rowEntries i ≤ n)
    (c : Nat) (hc : ∀ j < s.numRows, f'.sparsity.colEntries j ≤ c) :
    ∀ i < s.numRows,
      |R.v (b.getD (permAt p i) 0) - ∑ j ∈ range s.numRows, R.v (m.sym (permAt p i) j) * R.v (x.getD j 0)| ≤
        (R.gamma (n + c + 3) + R.gamma (n + 2)) * ∑ j ∈ range s.numRows,
          ldlt s.numRows (fun a b => |R.v (f'.lower a b)|) (fun a => |R.v (f'.pivot a)|) i j *
            |R.v (x.getD (permAt p j) 0)| := by
  obtain ⟨w, hw, hr⟩ := C47_single_residual R s p hv f hf m hm regularizationNone method f' h
    (fun i hi => ⟨hfin i hi, fun y hy => (show f'.pivot i = y from hy) ▸ hfin i hi⟩) 0 le_rfl
    (fun _ _ _ => by rw [hη, zero_mul]) b hb x hx hxfin n hn c hc
  intro i hi
  have h1 := hr i hi
  rw [← show f'.pivot i = w i from hw i hi] at h1
  simp only [sub_self, ite_self, add_zero, hη, mul_zero, zero_mul, sum_const_zero] at h1
  rw [add_mul, ← sum_perm hv.perm (fun j => R.v (m.sym (permAt p i) j) * R.v (x.getD j 0))]
  exact h1

/-- Checked for the example: finite numbers, number of entries and underflow. -/
def doubleSingleHyps (r : DiagFactor Double × List Double) : Bool :=
  decide (∀ i ∈ List.range 3, (r.1.pivot i).Finite ∧ (r.2.getD i 0).Finite ∧ r.1.sparsity.rowEntries i ≤ 2 ∧
    r.1.sparsity.colEntries i ≤ 2) &&
  decide (∀ e ∈ r.1.sparsity.entries, doubleR.η * (1 + |doubleR.v (r.1.pivot e.col)| *
    (1 + |doubleR.v (r.1.lower e.row e.col)|)) ≤ 2 ^ (-1072 : Int))

/-- The hypotheses are met by the example of C22 with double precision numbers, in which rounding takes place. -/
example : ∃ f x, doubleSingle = .ok (f, x) ∧ ∃ w : Nat → Double, (∀ i < 3, f.pivot i = w i) ∧ ∀ i < 3,
    |doubleR.v (([1, 2, 3].map (Binary.ofRat .binary64 false)).getD (permAt [0, 2, 1] i) 0) - ∑ j ∈ range 3,
      (doubleR.v ((witnessM.map (Binary.ofRat .binary64 false)).sym (permAt [0, 2, 1] i) (permAt [0, 2, 1] j)) +
        if i = j then doubleR.v (f.pivot i) - doubleR.v (w i) else 0) * doubleR.v (x.getD (permAt [0, 2, 1] j) 0)| ≤
      doubleR.gamma (2 + 2 + 3) * ∑ j ∈ range 3,
        ldlt 3 (fun a b => |doubleR.v (f.lower a b)|) (fun a => |doubleR.v (f.pivot a)|) i j *
          |doubleR.v (x.getD (permAt [0, 2, 1] j) 0)| +
      doubleR.gamma (2 + 2) * ∑ j ∈ range 3,
        (ldlt 3 (fun a b => |doubleR.v (f.lower a b)|) (fun a => |doubleR.v (f.pivot a)|) i j +
          if i = j then |doubleR.v (w i)| - |doubleR.v (f.pivot i)| else 0) *
          |doubleR.v (x.getD (permAt [0, 2, 1] j) 0)| +
      (doubleR.growth (2 + 2 + 3) * ((2 : Nat) * doubleR.η + ∑ j ∈ range 3,
        unitLower (fun a b => |doubleR.v (f.lower a b)|) i j *
          (|doubleR.v (f.pivot j)| * (((2 : Nat) + 1) * doubleR.η))) +
      doubleR.growth (2 + 2) * (((2 : Nat) + 1) * 2 ^ (-1072 : Int)) *
        ∑ j ∈ range 3, |doubleR.v (x.getD (permAt [0, 2, 1] j) 0)|) := by
  have h1 : doubleSingle.map doubleSingleHyps = .ok true := by decide +kernel
  rcases hr : doubleSingle with e | ⟨f, x⟩
  · rw [hr] at h1
    cases h1
  · rw [hr] at h1
    obtain ⟨h1, h2⟩ := (Bool.and_eq_true _ _).mp (Except.ok.inj h1)
    replace h1 : ∀ i < 3, _ := fun i hi => of_decide_eq_true h1 i (List.mem_range.mpr hi)
    replace h2 := of_decide_eq_true h2
    unfold doubleSingle at hr
    obtain ⟨f', hf, hr⟩ := bind_eq_ok.mp hr
    obtain ⟨x', hx, hr⟩ := bind_eq_ok.mp hr
    cases hr
    exact ⟨f, x, rfl, C47_single_residual doubleR witnessS [0, 2, 1] witness_valid _
      (show (witnessF.map (Binary.ofRat .binary64 false)).Declared witnessS [0, 2, 1] from
        ⟨witness_declared.pattern, rfl, rfl, rfl⟩) (witnessM.map (Binary.ofRat .binary64 false))
      ⟨rfl, witness_valid.inRange, rfl, rfl, fun i j h => .base h h.1⟩ regularizationNone .entryWise f hf
      (fun i hi => ⟨(h1 i hi).1, fun x hx => (show f.pivot i = x from hx) ▸ (h1 i hi).1⟩) (2 ^ (-1072 : Int))
      (two_zpow_pos _).le (fun i j hij => h2 ⟨i, j⟩ hij) _ rfl x hx (fun i hi => (h1 i hi).2.1)
      2 (fun i hi => (h1 i hi).2.2.1) 2 (fun i hi => (h1 i hi).2.2.2)⟩

end Ctldl
