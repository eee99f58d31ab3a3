import Verif.Lemmas.ScalingSingle
import Verif.Lemmas.TridiagonalPositions
import Verif.Spec.BinaryOrder
import Verif.Props.TridiagonalRounding

/-! # C68: scaling rows and columns by powers of two

The matrix with rows and columns scaled by powers of two (`2 ^ α i` for row and column `i`) and multiplied by `2 ^ c` has
the same factors and solutions in floating point arithmetic, scaled accordingly, without any rounding error due to the
scaling: except for values on which underflow or overflow had an influence in one of the two executions. -/

namespace Ctldl

open Tridiagonal

variable {fmt : Format}

private theorem typesOk {s : ArrowheadSparsity} {T : ArrowheadTypes} {d : Dims} (hs : s.Valid d)
    (hT : arrowheadTypes s = .ok T) : TypesOk s T d := by
  obtain ⟨T', h, h'⟩ := arrowheadTypes_sat hs
  rw [hT] at h
  cases h
  exact h'

private theorem getD_map {K F : Type} [Zero K] [Zero F] {g : K → F} (hg : g 0 = 0) (l : List K) (i : Nat) :
    (l.map g).getD i 0 = g (l.getD i 0) := by rw [← hg, List.getD_map]

/-- C68: single matrices. The executions with flags `t`, `y` and `t'`, `y'` compute the values of the program, and tell
which of them are influenced by underflow or overflow. All others are scaled exactly. -/
theorem C68_single (s : Sparsity) (p : List Nat) (hv : ValidSparsity s p) (f f' : DiagFactor (Binary fmt))
    (hf : f.Declared s p) (hf' : f'.Declared s p) (m m' : MatIn (Binary fmt)) (hm : m.Fits s p) (hm' : m'.Fits s p)
    (hmm : m.sparsity = m'.sparsity) (c : Int) (α : Nat → Int)
    (hA : ∀ i < s.numRows, ∀ j < s.numRows, Scaled (c + α i + α j) (m.sym i j) (m'.sym i j))
    (reg reg' : Binary fmt → Nat → Binary fmt)
    (hreg : ∀ i < s.numRows, ∀ x x', Scaled (c + α (permAt p i) + α (permAt p i)) x x' →
      Scaled (c + α (permAt p i) + α (permAt p i)) (reg x i) (reg' x' i)) (method : Method)
    (b b' : List (Binary fmt)) (hb : b.length = s.numRows) (hb' : b'.length = s.numRows) (e : Int)
    (hw : ∀ i < s.numRows, Scaled (e + α i) (b.getD i 0) (b'.getD i 0)) :
    ∃ (t t' : DiagFactor (Tracked fmt)) (y y' : List (Tracked fmt)),
      (f.map Tracked.given).factorize (m.map Tracked.given) (Tracked.lift reg) method = .ok t ∧
      t.solveInPlace (b.map Tracked.given) = .ok y ∧
      (f'.map Tracked.given).factorize (m'.map Tracked.given) (Tracked.lift reg') method = .ok t' ∧
      t'.solveInPlace (b'.map Tracked.given) = .ok y' ∧
      f.factorize m reg method = .ok (t.map Tracked.value) ∧
      (t.map Tracked.value).solveInPlace b = .ok (y.map Tracked.value) ∧
      f'.factorize m' reg' method = .ok (t'.map Tracked.value) ∧
      (t'.map Tracked.value).solveInPlace b' = .ok (y'.map Tracked.value) ∧
      (∀ i < s.numRows, ∀ j < s.numRows,
        TrackedScaled (α (permAt p i) - α (permAt p j)) (t.lower i j, t'.lower i j)) ∧
      (∀ i < s.numRows, TrackedScaled (c + α (permAt p i) + α (permAt p i)) (t.pivot i, t'.pivot i)) ∧
      ∀ i < s.numRows, TrackedScaled (e - c - α i) (y.getD i 0, y'.getD i 0) := by
  obtain ⟨z, h1, h2, h3, h4⟩ := pair_factorize_single hv hf hf' hm hm' hmm method hA hreg
  obtain ⟨v, h5, h6, h7⟩ := pair_solve_single hv h1 h2 hb hb' hw
  refine ⟨_, _, _, _, h3, h6, h4, h7, tracked_factorize_single h3, tracked_solve_single h6,
    tracked_factorize_single h4, tracked_solve_single h7, fun i hi j hj => ?_, fun i hi => ?_, fun i hi => ?_⟩
  · have e1 : (z.map Prod.fst).lower i j = (z.lower i j).1 := elem_map rfl (⟨z.sparsity.toSparsity, z.L⟩ : MatIn _) i j
    have e2 : (z.map Prod.snd).lower i j = (z.lower i j).2 := elem_map rfl (⟨z.sparsity.toSparsity, z.L⟩ : MatIn _) i j
    rw [e1, e2]
    exact h2.entry i hi j hj
  · have e1 : (z.map Prod.fst).pivot i = (z.pivot i).1 := getD_map rfl _ _
    have e2 : (z.map Prod.snd).pivot i = (z.pivot i).2 := getD_map rfl _ _
    rw [e1, e2]
    exact h2.pivot i hi
  · rw [getD_map rfl, getD_map rfl]
    exact h5 i hi

/-- C68: repeating block matrices, for every number of repetitions. -/
theorem C68_repeating (s : ArrowheadSparsity) (d : Dims) (hs : s.Valid d) (T : ArrowheadTypes) (N : Nat)
    (f f' : ArrowheadFactor (Binary fmt)) (hf : f.Declared s T d N) (hf' : f'.Declared s T d N)
    (m m' : ArrowheadMatrix (Binary fmt)) (hm : m.Fits s T d N) (hm' : m'.Fits s T d N)
    (hmm : m.map (fun _ => ()) = m'.map (fun _ => ())) (c : Int) (α : Blk → Nat → Int)
    (hA : ∀ a₁ ∈ blocks N, ∀ a₂ ∈ blocks N, ∀ i < d.of a₁, ∀ j < d.of a₂,
      Scaled (c + α a₁ i + α a₂ j) (m.symElement N a₁ a₂ i j) (m'.symElement N a₁ a₂ i j))
    (reg reg' : Binary fmt → Nat → Binary fmt)
    (hreg : ∀ k ∈ positions d N, ∀ x x',
      Scaled (c + α k.1 (permAt (s.perm k.1) k.2) + α k.1 (permAt (s.perm k.1) k.2)) x x' →
      Scaled (c + α k.1 (permAt (s.perm k.1) k.2) + α k.1 (permAt (s.perm k.1) k.2)) (reg x k.2) (reg' x' k.2))
    (method : Method) (b b' : ArrowheadVector (Binary fmt)) (hb : b.OfSize d N) (hb' : b'.OfSize d N) (e : Int)
    (hw : ∀ a ∈ blocks N, ∀ i < d.of a, Scaled (e + α a i) (b.at a i) (b'.at a i)) :
    ∃ (t t' : ArrowheadFactor (Tracked fmt)) (y y' : ArrowheadVector (Tracked fmt)),
      (f.map Tracked.given).factorize d.tridiag d.link d.outer (m.map Tracked.given) (Tracked.lift reg) method = .ok t ∧
      t.solveInPlace (b.map Tracked.given) = .ok y ∧
      (f'.map Tracked.given).factorize d.tridiag d.link d.outer (m'.map Tracked.given) (Tracked.lift reg') method =
        .ok t' ∧
      t'.solveInPlace (b'.map Tracked.given) = .ok y' ∧
      f.factorize d.tridiag d.link d.outer m reg method = .ok (t.map Tracked.value) ∧
      (t.map Tracked.value).solveInPlace b = .ok (y.map Tracked.value) ∧
      f'.factorize d.tridiag d.link d.outer m' reg' method = .ok (t'.map Tracked.value) ∧
      (t'.map Tracked.value).solveInPlace b' = .ok (y'.map Tracked.value) ∧
      (∀ k ∈ positions d N, ∀ l ∈ positions d N,
        TrackedScaled (α k.1 (permAt (s.perm k.1) k.2) - α l.1 (permAt (s.perm l.1) l.2))
          (t.storedAt N k l, t'.storedAt N k l)) ∧
      (∀ k ∈ positions d N,
        TrackedScaled (c + α k.1 (permAt (s.perm k.1) k.2) + α k.1 (permAt (s.perm k.1) k.2))
          (t.pivotAt k.1 k.2, t'.pivotAt k.1 k.2)) ∧
      ∀ a ∈ blocks N, ∀ i < d.of a, TrackedScaled (e - c - α a i) (y.at a i, y'.at a i) := by
  have hT := typesOk hs hf.types
  obtain ⟨z, h1, h2, h3, h4⟩ := pair_factorize hs hT hf hf' hm hm' hmm method hA hreg
  obtain ⟨v, h5, h6, h7⟩ := pair_solve hs hT h1 h2 hb hb' hw
  refine ⟨_, _, _, _, h3, h6, h4, h7, tracked_factorize h3, tracked_solve h6, tracked_factorize h4, tracked_solve h7,
    fun k hk l hl => ?_, fun k hk => ?_, fun a ha i hi => ?_⟩
  · rw [storedAt_map rfl, storedAt_map rfl]
    exact h2.entry k hk l hl
  · rw [pivotAt_map rfl, pivotAt_map rfl]
    exact h2.pivot k hk
  · rw [ArrowheadVector.at_map rfl, ArrowheadVector.at_map rfl]
    exact h5 a ha i hi

/-- C68: the class for block tridiagonal matrices. -/
theorem C68_tridiagonal (spA spB : Sparsity) (p : List Nat) (n : Nat) (h : ValidTridiagonal spA spB p n) (N : Nat)
    (f f' : ArrowheadFactor (Binary fmt)) (T : ArrowheadTypes) (hf : TridiagonalDeclared f spA spB p T n N)
    (hf' : TridiagonalDeclared f' spA spB p T n N) (A B A' B' : List (MatIn (Binary fmt)))
    (hm : TridiagonalFits A B p T n N) (hm' : TridiagonalFits A' B' p T n N)
    (hAA : A.map (fun q => q.map fun _ => ()) = A'.map (fun q => q.map fun _ => ()))
    (hBB : B.map (fun q => q.map fun _ => ()) = B'.map (fun q => q.map fun _ => ())) (c : Int) (α : Nat → Nat → Int)
    (hA : ∀ t < N + 1, ∀ u < N + 1, ∀ i < n, ∀ j < n,
      Scaled (c + α t i + α u j) (tridiagonalSym A B t u i j) (tridiagonalSym A' B' t u i j))
    (reg reg' : Binary fmt → Nat → Binary fmt)
    (hreg : ∀ t < N + 1, ∀ i < n, ∀ x x', Scaled (c + α t (permAt p i) + α t (permAt p i)) x x' →
      Scaled (c + α t (permAt p i) + α t (permAt p i)) (reg x i) (reg' x' i))
    (method : Method) (b b' : List (List (Binary fmt))) (hb : BlockVector b n N) (hb' : BlockVector b' n N) (e : Int)
    (hw : ∀ t < N + 1, ∀ i < n, Scaled (e + α t i) (blockAt b t i) (blockAt b' t i)) :
    ∃ (t t' : ArrowheadFactor (Tracked fmt)) (y y' : List (List (Tracked fmt))),
      tridiagonalFactorize n (f.map Tracked.given) (A.map fun q => q.map Tracked.given)
        (B.map fun q => q.map Tracked.given) (Tracked.lift reg) method = .ok t ∧
      tridiagonalSolveInPlace t (b.map (List.map Tracked.given)) = .ok y ∧
      tridiagonalFactorize n (f'.map Tracked.given) (A'.map fun q => q.map Tracked.given)
        (B'.map fun q => q.map Tracked.given) (Tracked.lift reg') method = .ok t' ∧
      tridiagonalSolveInPlace t' (b'.map (List.map Tracked.given)) = .ok y' ∧
      tridiagonalFactorize n f A B reg method = .ok (t.map Tracked.value) ∧
      tridiagonalSolveInPlace (t.map Tracked.value) b = .ok (y.map (List.map Tracked.value)) ∧
      tridiagonalFactorize n f' A' B' reg' method = .ok (t'.map Tracked.value) ∧
      tridiagonalSolveInPlace (t'.map Tracked.value) b' = .ok (y'.map (List.map Tracked.value)) ∧
      (∀ v < N + 1, ∀ u < N + 1, ∀ i < n, ∀ j < n, TrackedScaled (α v (permAt p i) - α u (permAt p j))
        (t.storedAt N ⟨.tridiag v, i⟩ ⟨.tridiag u, j⟩, t'.storedAt N ⟨.tridiag v, i⟩ ⟨.tridiag u, j⟩)) ∧
      (∀ v < N + 1, ∀ i < n, TrackedScaled (c + α v (permAt p i) + α v (permAt p i))
        (t.pivotAt (.tridiag v) i, t'.pivotAt (.tridiag v) i)) ∧
      ∀ v < N + 1, ∀ i < n, TrackedScaled (e - c - α v i) (blockAt y v i, blockAt y' v i) := by
  have hd := declared_of h hf
  have hd' := declared_of h hf'
  let β : Blk → Nat → Int := fun a i => match a with
    | .tridiag t => α t i
    | _ => 0
  have hA' : ∀ a₁ ∈ blocks N, ∀ a₂ ∈ blocks N, ∀ i < (⟨0, n, 0, 0⟩ : Dims).of a₁, ∀ j < (⟨0, n, 0, 0⟩ : Dims).of a₂,
      Scaled (c + β a₁ i + β a₂ j) ((tridiagonalMatrix n N A B).symElement N a₁ a₂ i j)
        ((tridiagonalMatrix n N A' B').symElement N a₁ a₂ i j) := by
    intro a₁ h1 a₂ h2 i hi j hj
    revert j
    refine blocks_cases (P := fun a₂ j => Scaled (c + β a₁ i + β a₂ j)
      ((tridiagonalMatrix n N A B).symElement N a₁ a₂ i j) ((tridiagonalMatrix n N A' B').symElement N a₁ a₂ i j))
      (fun u hu j hj => ?_) a₂ h2
    refine blocks_cases (P := fun a₁ i => Scaled (c + β a₁ i + β (.tridiag u) j)
      ((tridiagonalMatrix n N A B).symElement N a₁ (.tridiag u) i j)
      ((tridiagonalMatrix n N A' B').symElement N a₁ (.tridiag u) i j)) (fun t ht i hi => ?_) a₁ h1 i hi
    rw [symElement_eq hm.numB ht hu, symElement_eq hm'.numB ht hu]
    exact hA t ht u hu i hi j hj
  have hreg' : ∀ k ∈ positions ⟨0, n, 0, 0⟩ N, ∀ x x',
      Scaled (c + β k.1 (permAt ((emptied spA spB p n).perm k.1) k.2) +
        β k.1 (permAt ((emptied spA spB p n).perm k.1) k.2)) x x' →
      Scaled (c + β k.1 (permAt ((emptied spA spB p n).perm k.1) k.2) +
        β k.1 (permAt ((emptied spA spB p n).perm k.1) k.2)) (reg x k.2) (reg' x' k.2) := by
    rintro ⟨a, i⟩ hk
    obtain ⟨ha, hi⟩ := mem_positions.mp hk
    exact blocks_cases (P := fun a i => ∀ x x', Scaled (c + β a (permAt ((emptied spA spB p n).perm a) i) +
      β a (permAt ((emptied spA spB p n).perm a) i)) x x' → Scaled (c + β a (permAt ((emptied spA spB p n).perm a) i) +
      β a (permAt ((emptied spA spB p n).perm a) i)) (reg x i) (reg' x' i)) (fun t ht i hi => hreg t ht i hi) a ha i hi
  have solved : ∀ {K : Type} [Zero K] [Sub K] [Mul K] [Div K] {t : ArrowheadFactor K} {b : List (List K)}
      {y : ArrowheadVector K}, t.solveInPlace ⟨[], b, [], []⟩ = .ok y → tridiagonalSolveInPlace t b = .ok y.tridiag := by
    intro K _ _ _ _ t b y hy
    unfold tridiagonalSolveInPlace
    rw [hy]
    rfl
  obtain ⟨t, t', y, y', h1, h2, h3, h4, h5, h6, h7, h8, h9, h10, h11⟩ := C68_repeating _ _ (emptied_valid h) T N f f' hd hd'
    _ _ (fits_of hm) (fits_of hm') (by
      rw [matrix_map, matrix_map, hAA, hBB]) c β
    hA' reg reg' hreg' method _ _ (vector_of hb) (vector_of hb') e (blocks_cases fun t ht i hi => hw t ht i hi)
  have m1 : ∀ (q : List (MatIn (Binary fmt))) (r : List (MatIn (Binary fmt))),
      tridiagonalMatrix n N (q.map fun q => q.map Tracked.given) (r.map fun q => q.map Tracked.given) =
        (tridiagonalMatrix n N q r).map Tracked.given := fun q r => (matrix_map n N q r _).symm
  have pos : ∀ {v i}, v < N + 1 → i < n → (⟨.tridiag v, i⟩ : Σ _ : Blk, Nat) ∈ positions ⟨0, n, 0, 0⟩ N :=
    fun hv hi => mem_positions.mpr ⟨tridiag_mem hv, hi⟩
  refine ⟨t, t', y.tridiag, y'.tridiag, ?_, ?_, ?_, ?_, ?_, ?_, ?_, ?_,
    fun v hv u hu i hi j hj => h9 _ (pos hv hi) _ (pos hu hj), fun v hv i hi => h10 _ (pos hv hi),
    fun v hv i hi => h11 _ (tridiag_mem hv) i hi⟩
  · rw [factorize_eq (hd.map _), m1]
    exact h1
  · exact solved h2
  · rw [factorize_eq (hd'.map _), m1]
    exact h3
  · exact solved h4
  · rw [factorize_eq hd]
    exact h5
  · exact solved h6
  · rw [factorize_eq hd']
    exact h7
  · exact solved h8

/-! ### Regularization -/

private theorem scaled_lt {w : Int} {a a' b b' : Binary fmt} (ha : Scaled w a a') (hb : Scaled w b b') :
    a' < b' ↔ a < b := by
  have hpos : (0 : ℚ) < 2 ^ w := two_zpow_pos w
  change Binary.lt a' b' = true ↔ Binary.lt a b = true
  have h1 := ha.toRat
  have h2 := hb.toRat
  have key : b'.toRat > a'.toRat ↔ b.toRat > a.toRat := by
    rw [h1, h2]
    exact mul_lt_mul_iff_right₀ hpos
  cases ha <;> cases hb <;> simp only [Binary.lt, decide_eq_true_eq] <;> exact key

private theorem scaled_abs {w : Int} {a a' : Binary fmt} (ha : Scaled w a a') : Scaled w a.abs a'.abs := by
  cases ha with
  | zero s => exact .zero false
  | num hx hr hy hs h => exact .num _ _ _ _ (by rw [h, abs_mul, abs_of_pos (two_zpow_pos w)])
  | inf s => exact .inf false
  | nan => exact .nan

/-- C68: the condition on regularizations holds for the replacement of small pivots if both constants are multiplied by
the same power of two as the pivots. -/
theorem C68_small_constant {w : Int} {tol tol' const const' : Binary fmt} (ht : Scaled w tol tol')
    (hc : Scaled w const const') (x x' : Binary fmt) (h : Scaled w x x') (i : Nat) :
    Scaled w (regularizationSmallPositiveConstant Binary.abs tol const x i)
      (regularizationSmallPositiveConstant Binary.abs tol' const' x' i) := by
  unfold regularizationSmallPositiveConstant
  by_cases hlt : x.abs < tol
  · rw [if_pos hlt, if_pos ((scaled_lt (scaled_abs h) ht).mpr hlt)]
    exact hc
  · rw [if_neg hlt, if_neg (fun h' => hlt ((scaled_lt (scaled_abs h) ht).mp h'))]
    exact h

/-! ### The hypotheses can be met, and are needed -/

/-- Witness: scales of rows and columns. -/
def scalesOf (i : Nat) : Int := [3, -5, 7].getD i 0

/-- Multiply the elements of a matrix by powers of two. -/
def scaleMat (w : Nat → Nat → Int) (m : MatIn ℚ) : MatIn ℚ :=
  { m with values := List.zipWith (fun e x => 2 ^ w e.row e.col * x) m.sparsity.entries m.values }

/-- Witness: a matrix and a scaled one. -/
def scalingM (w : Nat → Nat → Int) : MatIn Double := (scaleMat w witnessM).map (Binary.ofRat .binary64 false)

/-- Witness: a right-hand side. -/
def scalingB (w : Nat → Int) : List Double :=
  [Binary.ofRat .binary64 false (2 ^ w 0), Binary.ofRat .binary64 false (2 ^ w 1 / 3), Binary.ofRat .binary64 false (2 ^ w 2 * 7)]

def scalingF : DiagFactor Double := witnessF.map (Binary.ofRat .binary64 false)

theorem scalingF_declared : scalingF.Declared witnessS [0, 2, 1] := witness_declared.map' _

theorem scalingM_sparsity (w : Nat → Nat → Int) : (scalingM w).sparsity = witnessS := rfl

theorem scalingM_fits (w : Nat → Nat → Int) : (scalingM w).Fits witnessS [0, 2, 1] :=
  ⟨rfl, witness_valid.inRange, rfl, rfl, fun _ _ h => .base h h.1⟩

/-- Execution with flags for the values of the solution. -/
def scalingRun (m : MatIn Double) (b : List Double) (reg : Double → Nat → Double) : Res (List Bool × List Double) := do
  let t ← (scalingF.map Tracked.given).factorize (m.map Tracked.given) (Tracked.lift reg) .upLooking
  let y ← t.solveInPlace (b.map Tracked.given)
  return (y.map Tracked.raised, y.map Tracked.value)

/-- The solution for the scaled matrix is the scaled solution. -/
example : ∃ f x f' x', scalingF.factorize (scalingM fun _ _ => 0) regularizationNone .upLooking = .ok f ∧
    f.solveInPlace (scalingB fun _ => 0) = .ok x ∧
    scalingF.factorize (scalingM fun i j => 100 + scalesOf i + scalesOf j) regularizationNone .upLooking = .ok f' ∧
    f'.solveInPlace (scalingB fun i => 9 + scalesOf i) = .ok x' ∧
    ∀ i < 3, Scaled (9 - 100 - scalesOf i) (x.getD i 0) (x'.getD i 0) := by
  obtain ⟨t, t', y, y', h1, h2, h3, h4, h5, h6, h7, h8, -, -, h9⟩ := C68_single witnessS [0, 2, 1] witness_valid scalingF
    scalingF scalingF_declared scalingF_declared _ _ (scalingM_fits fun _ _ => 0)
    (scalingM_fits fun i j => 100 + scalesOf i + scalesOf j)
    ((scalingM_sparsity _).trans (scalingM_sparsity _).symm) 100 scalesOf (by decide +kernel) regularizationNone
    regularizationNone (fun _ _ _ _ h => h) .upLooking (scalingB fun _ => 0) (scalingB fun i => 9 + scalesOf i) rfl rfl 9
    (by decide +kernel)
  have e1 : (scalingRun (scalingM fun _ _ => 0) (scalingB fun _ => 0) regularizationNone).map Prod.fst =
    .ok [false, false, false] := by decide +kernel
  have e2 : (scalingRun (scalingM fun i j => 100 + scalesOf i + scalesOf j) (scalingB fun i => 9 + scalesOf i)
    regularizationNone).map Prod.fst = .ok [false, false, false] := by decide +kernel
  unfold scalingRun at e1 e2
  rw [h1, ok_bind, h2] at e1
  rw [h3, ok_bind, h4] at e2
  replace e1 : y.map Tracked.raised = [false, false, false] := Except.ok.inj e1
  replace e2 : y'.map Tracked.raised = [false, false, false] := Except.ok.inj e2
  refine ⟨_, _, _, _, h5, h6, h7, h8, fun i hi => ?_⟩
  have key : ∀ (y : List (Tracked .binary64)), y.map Tracked.raised = [false, false, false] →
      (y.getD i 0).raised = false := by
    intro y hy
    have h : (y.map Tracked.raised).getD i false = (y.getD i 0).raised :=
      List.getD_map (f := Tracked.raised) (d := 0) ..
    rw [hy] at h
    rw [← h]
    have : ∀ i < 3, [false, false, false].getD i false = false := by decide
    exact this i hi
  have := h9 i hi (key y e1) (key y' e2)
  rw [getD_map rfl, getD_map rfl]
  exact this

/-- The solutions `x` of the first system and `x'` of the second one, with a power of two for each element. -/
def scalingCheck (m m' : MatIn Double) (b b' : List Double) (reg reg' : Double → Nat → Double) (w : Nat → Int) :
    Res (List Bool) := do
  let f ← scalingF.factorize m reg .upLooking
  let x ← f.solveInPlace b
  let f' ← scalingF.factorize m' reg' .upLooking
  let x' ← f'.solveInPlace b'
  return (List.range 3).map fun i => decide (Scaled (w i) (x.getD i 0) (x'.getD i 0))

/-- The condition on the range of exponents is needed: if the matrix is multiplied by `2 ^ (-1073)` instead, which does
not change any of its digits, then underflow changes the solution. -/
theorem C68_range_needed : (∀ i < 3, ∀ j < 3, Scaled (-1073) ((scalingM fun _ _ => 0).sym i j) ((scalingM fun _ _ => -1073).sym i j)) ∧
    scalingCheck (scalingM fun _ _ => 0) (scalingM fun _ _ => -1073) (scalingB fun _ => 0) (scalingB fun _ => -100)
      regularizationNone regularizationNone (fun _ => -100 + 1073) = .ok [false, false, false] ∧
    (scalingRun (scalingM fun _ _ => -1073) (scalingB fun _ => -100) regularizationNone).map Prod.fst =
      .ok [true, true, true] := by
  decide +kernel

/-- The regularization for small pivots with fixed constants does not meet the condition: it changes the solution if the
matrix is multiplied by `2 ^ (-100)`. -/
theorem C68_fixed_constants : scalingCheck (scalingM fun _ _ => 0) (scalingM fun _ _ => -100) (scalingB fun _ => 0) (scalingB fun _ => 0)
      (regularizationSmallPositiveConstant Binary.abs (Binary.ofRat .binary64 false (2 ^ (-33 : Int)))
        (Binary.ofRat .binary64 false (2 ^ (-26 : Int))))
      (regularizationSmallPositiveConstant Binary.abs (Binary.ofRat .binary64 false (2 ^ (-33 : Int)))
        (Binary.ofRat .binary64 false (2 ^ (-26 : Int)))) (fun _ => 100) = .ok [false, false, false] := by
  decide +kernel

/-- With constants which are scaled as well, it does. -/
example : scalingCheck (scalingM fun _ _ => 0) (scalingM fun _ _ => -100) (scalingB fun _ => 0) (scalingB fun _ => 0)
      (regularizationSmallPositiveConstant Binary.abs (Binary.ofRat .binary64 false 3)
        (Binary.ofRat .binary64 false (2 ^ (-26 : Int))))
      (regularizationSmallPositiveConstant Binary.abs (Binary.ofRat .binary64 false (3 * 2 ^ (-100 : Int)))
        (Binary.ofRat .binary64 false (2 ^ (-126 : Int)))) (fun _ => 100) = .ok [true, true, true] := by
  decide +kernel

/-- Witness: scales of the rows of a repeating block matrix. -/
def arrowScales : Blk → Nat → Int
  | .start, _ => 1
  | .tridiag t, i => t - 3 * i
  | .link, _ => -2
  | .outer, _ => 3

/-- Witness: the matrix of C29, scaled. -/
def arrowScaled (w : Blk → Nat → Blk → Nat → Int) : ArrowheadMatrix Double :=
  let at' (a b : Blk) (m : MatIn ℚ) : MatIn ℚ := scaleMat (fun i j => w a i b j) m
  ({ startDiag := at' .start .start arrowM.startDiag
     startNext := at' (.tridiag 0) .start arrowM.startNext
     startOuter := at' .outer .start arrowM.startOuter
     tridiagDiag := arrowM.tridiagDiag.mapIdx fun t m => at' (.tridiag t) (.tridiag t) m
     tridiagSubdiag := arrowM.tridiagSubdiag.mapIdx fun t m => at' (.tridiag (t + 1)) (.tridiag t) m
     linkPrev := at' .link (.tridiag 1) arrowM.linkPrev
     linkDiag := at' .link .link arrowM.linkDiag
     linkNext := at' .outer .link arrowM.linkNext
     outerSubdiag := arrowM.outerSubdiag.mapIdx fun t m => at' .outer (.tridiag t) m
     outerDiag := at' .outer .outer arrowM.outerDiag } : ArrowheadMatrix ℚ).map (Binary.ofRat .binary64 false)

theorem arrowScaled_shape (w : Blk → Nat → Blk → Nat → Int) :
    (arrowScaled w).map (fun _ => ()) = arrowM.map (fun _ => ()) := rfl

theorem arrowScaled_fits (w : Blk → Nat → Blk → Nat → Int) {T : ArrowheadTypes} (hT : arrowheadTypes arrowS = .ok T) :
    (arrowScaled w).Fits arrowS T arrowD 1 :=
  ArrowheadMatrix.Fits.of_map (g := fun _ => ()) (by rw [arrowScaled_shape]; exact (arrowM_fits hT).map _)

/-- Witness: a right-hand side, scaled. -/
def arrowScaledB (w : Blk → Nat → Int) : ArrowheadVector Double :=
  (⟨[2 ^ w .start 0], [[-2 * 2 ^ w (.tridiag 0) 0, 2 ^ w (.tridiag 0) 1], [4 * 2 ^ w (.tridiag 1) 0, 7 * 2 ^ w (.tridiag 1) 1]],
    [3 * 2 ^ w .link 0], [5 * 2 ^ w .outer 0]⟩ : ArrowheadVector ℚ).map (Binary.ofRat .binary64 false)

/-- Which values of the solution are influenced by the range of exponents. -/
def arrowScaledRun (m : ArrowheadMatrix Double) (b : ArrowheadVector Double) : Res Bool := do
  let T ← arrowheadTypes arrowS
  let t ← ((freshFactor arrowS T arrowD 1 (0 : Double)).map Tracked.given).factorize 2 1 1 (m.map Tracked.given)
    (Tracked.lift regularizationNone) .upLooking
  let y ← t.solveInPlace (b.map Tracked.given)
  return decide (∀ a ∈ blocks 1, ∀ i < arrowD.of a, (y.at a i).raised = false)

/-- The solution for the scaled repeating block matrix is the scaled solution. -/
example : ∃ T f x f' x', (freshFactor arrowS T arrowD 1 (0 : Double)).Declared arrowS T arrowD 1 ∧
    (freshFactor arrowS T arrowD 1 (0 : Double)).factorize 2 1 1 (arrowScaled fun _ _ _ _ => 0) regularizationNone
      .upLooking = .ok f ∧
    f.solveInPlace (arrowScaledB fun _ _ => 0) = .ok x ∧
    (freshFactor arrowS T arrowD 1 (0 : Double)).factorize 2 1 1
      (arrowScaled fun a i b j => 100 + arrowScales a i + arrowScales b j) regularizationNone .upLooking = .ok f' ∧
    f'.solveInPlace (arrowScaledB fun a i => 9 + arrowScales a i) = .ok x' ∧
    ∀ a ∈ blocks 1, ∀ i < arrowD.of a, Scaled (9 - 100 - arrowScales a i) (x.at a i) (x'.at a i) := by
  have e1 : arrowScaledRun (arrowScaled fun _ _ _ _ => 0) (arrowScaledB fun _ _ => 0) = .ok true := by decide +kernel
  have e2 : arrowScaledRun (arrowScaled fun a i b j => 100 + arrowScales a i + arrowScales b j)
    (arrowScaledB fun a i => 9 + arrowScales a i) = .ok true := by decide +kernel
  unfold arrowScaledRun at e1 e2
  obtain ⟨T, hT, e1⟩ := bind_eq_ok.mp e1
  rw [hT, ok_bind] at e2
  have hF := C21_constructible arrowS arrowD T hT 1 (0 : Double)
  obtain ⟨t, t', y, y', h1, h2, h3, h4, h5, h6, h7, h8, -, -, h9⟩ := C68_repeating arrowS arrowD arrowS_valid T 1 _ _
    hF hF _ _ (arrowScaled_fits (fun _ _ _ _ => 0) hT)
    (arrowScaled_fits (fun a i b j => 100 + arrowScales a i + arrowScales b j) hT)
    ((arrowScaled_shape _).trans (arrowScaled_shape _).symm) 100 arrowScales (by decide +kernel) regularizationNone
    regularizationNone (fun _ _ _ _ h => h) .upLooking (arrowScaledB fun _ _ => 0)
    (arrowScaledB fun a i => 9 + arrowScales a i) (by constructor <;> decide +kernel) (by constructor <;> decide +kernel) 9
    (by decide +kernel)
  replace h1 : ((freshFactor arrowS T arrowD 1 (0 : Double)).map Tracked.given).factorize 2 1 1 _ _ _ = _ := h1
  replace h3 : ((freshFactor arrowS T arrowD 1 (0 : Double)).map Tracked.given).factorize 2 1 1 _ _ _ = _ := h3
  rw [h1, ok_bind, h2] at e1
  rw [h3, ok_bind, h4] at e2
  replace e1 := of_decide_eq_true (Except.ok.inj e1)
  replace e2 := of_decide_eq_true (Except.ok.inj e2)
  refine ⟨T, _, _, _, _, hF, h5, h6, h7, h8, fun a ha i hi => ?_⟩
  rw [ArrowheadVector.at_map rfl, ArrowheadVector.at_map rfl]
  exact h9 a ha i hi (e1 a ha i hi) (e2 a ha i hi)

/-- Witness: scales of the rows of a block tridiagonal matrix. -/
def tridiagScales (t i : Nat) : Int := 2 * t - 5 * i

/-- Witness: blocks of a block tridiagonal matrix, scaled. -/
def tridiagScaled (k : Nat) (w : Nat → Nat → Nat → Nat → Int) (A : List (MatIn ℚ)) : List (MatIn Double) :=
  A.mapIdx fun t q => (scaleMat (fun i j => w (t + k) i t j) q).map (Binary.ofRat .binary64 false)

def tridiagScaledB (w : Nat → Nat → Int) : List (List Double) :=
  [[1, 2], [3, 4], [5, 7]].mapIdx fun t l => l.mapIdx fun i x => Binary.ofRat .binary64 false (2 ^ w t i * x)

theorem tridiagScaled_fits (w : Nat → Nat → Nat → Nat → Int) {f : ArrowheadFactor Double} {T : ArrowheadTypes}
    (hf : TridiagonalDeclared f tridiagA tridiagB [1, 0] T 2 2) :
    TridiagonalFits (tridiagScaled 0 w tridiagValuesA) (tridiagScaled 1 w tridiagValuesB) [1, 0] T 2 2 :=
  C37_declared_fits tridiagA tridiagB [1, 0] 2 tridiag_valid 2 f T hf _ _ le_rfl le_rfl
    (fun t ht => by rcases t with _ | _ | _ | t <;> first | exact ⟨rfl, rfl⟩ | omega)
    (fun t ht => by rcases t with _ | _ | t <;> first | exact ⟨rfl, rfl⟩ | omega)

theorem tridiagScaled_shape (w : Nat → Nat → Nat → Nat → Int) :
    (tridiagScaled 0 w tridiagValuesA).map (fun q => q.map fun _ => ()) =
      tridiagValuesA.map (fun q => q.map fun _ => ()) ∧
    (tridiagScaled 1 w tridiagValuesB).map (fun q => q.map fun _ => ()) =
      tridiagValuesB.map (fun q => q.map fun _ => ()) := ⟨rfl, rfl⟩

def tridiagScaledRun (A B : List (MatIn Double)) (b : List (List Double)) : Res Bool := do
  let s ← tridiagonalSparsity tridiagA tridiagB [1, 0]
  let T ← arrowheadTypes s
  let t ← tridiagonalFactorize 2 ((freshFactor s T ⟨0, 2, 0, 0⟩ 2 (0 : Double)).map Tracked.given)
    (A.map fun q => q.map Tracked.given) (B.map fun q => q.map Tracked.given) (Tracked.lift regularizationNone) .entryWise
  let y ← tridiagonalSolveInPlace t (b.map (List.map Tracked.given))
  return decide (∀ v < 2 + 1, ∀ i < 2, (blockAt y v i).raised = false)

/-- The solution for the scaled block tridiagonal matrix is the scaled solution. -/
example : ∃ f₀ T f x f' x', TridiagonalDeclared f₀ tridiagA tridiagB [1, 0] T 2 2 ∧
    tridiagonalFactorize 2 f₀ (tridiagScaled 0 (fun _ _ _ _ => 0) tridiagValuesA)
      (tridiagScaled 1 (fun _ _ _ _ => 0) tridiagValuesB) regularizationNone .entryWise = .ok f ∧
    tridiagonalSolveInPlace f (tridiagScaledB fun _ _ => 0) = .ok x ∧
    tridiagonalFactorize 2 f₀
      (tridiagScaled 0 (fun t i u j => 100 + tridiagScales t i + tridiagScales u j) tridiagValuesA)
      (tridiagScaled 1 (fun t i u j => 100 + tridiagScales t i + tridiagScales u j) tridiagValuesB)
      regularizationNone .entryWise = .ok f' ∧
    tridiagonalSolveInPlace f' (tridiagScaledB fun t i => 9 + tridiagScales t i) = .ok x' ∧
    ∀ t < 2 + 1, ∀ i < 2, Scaled (9 - 100 - tridiagScales t i) (blockAt x t i) (blockAt x' t i) := by
  have e1 : tridiagScaledRun (tridiagScaled 0 (fun _ _ _ _ => 0) tridiagValuesA)
    (tridiagScaled 1 (fun _ _ _ _ => 0) tridiagValuesB) (tridiagScaledB fun _ _ => 0) = .ok true := by decide +kernel
  have e2 : tridiagScaledRun (tridiagScaled 0 (fun t i u j => 100 + tridiagScales t i + tridiagScales u j) tridiagValuesA)
    (tridiagScaled 1 (fun t i u j => 100 + tridiagScales t i + tridiagScales u j) tridiagValuesB)
    (tridiagScaledB fun t i => 9 + tridiagScales t i) = .ok true := by decide +kernel
  unfold tridiagScaledRun at e1 e2
  obtain ⟨s, hs, e1⟩ := bind_eq_ok.mp e1
  obtain ⟨T, hT, e1⟩ := bind_eq_ok.mp e1
  rw [hs, ok_bind, hT, ok_bind] at e2
  have hF : TridiagonalDeclared (freshFactor s T ⟨0, 2, 0, 0⟩ 2 (0 : Double)) tridiagA tridiagB [1, 0] T 2 2 :=
    ⟨s, hs, C21_constructible s _ T hT 2 0⟩
  have sh := tridiagScaled_shape (fun _ _ _ _ => 0)
  have sh' := tridiagScaled_shape (fun t i u j => 100 + tridiagScales t i + tridiagScales u j)
  obtain ⟨t, t', y, y', h1, h2, h3, h4, h5, h6, h7, h8, -, -, h9⟩ := C68_tridiagonal tridiagA tridiagB [1, 0] 2
    tridiag_valid 2 _ _ T hF hF _ _ _ _ (tridiagScaled_fits (fun _ _ _ _ => 0) hF)
    (tridiagScaled_fits (fun t i u j => 100 + tridiagScales t i + tridiagScales u j) hF) (sh.1.trans sh'.1.symm)
    (sh.2.trans sh'.2.symm) 100 tridiagScales (by decide +kernel) regularizationNone
    regularizationNone (fun _ _ _ _ _ _ h => h) .entryWise (tridiagScaledB fun _ _ => 0)
    (tridiagScaledB fun t i => 9 + tridiagScales t i) (by constructor <;> decide +kernel) (by constructor <;> decide +kernel) 9
    (by decide +kernel)
  rw [h1, ok_bind, h2] at e1
  rw [h3, ok_bind, h4] at e2
  replace e1 := of_decide_eq_true (Except.ok.inj e1)
  replace e2 := of_decide_eq_true (Except.ok.inj e2)
  refine ⟨_, T, _, _, _, _, hF, h5, h6, h7, h8, fun t ht i hi => ?_⟩
  have key : ∀ (y : List (List (Tracked .binary64))) t i,
      blockAt (y.map (List.map Tracked.value)) t i = (blockAt y t i).value := by
    intro y t i
    exact ArrowheadVector.at_map (g := Tracked.value) rfl ⟨[], y, [], []⟩ (.tridiag t) i
  rw [key, key]
  exact h9 t ht i hi (e1 t ht i hi) (e2 t ht i hi)

end Ctldl
