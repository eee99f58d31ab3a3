import Verif.Lemmas.TestDouble
import Verif.Model.TestSuite
import Verif.Props.ForwardError
import Verif.Props.Laplace
import Verif.Props.EndToEnd

/-! # C63: the tests with the tridiagonal test matrix pass in double precision -/

namespace Ctldl

open Finset

/-- Arithmetic with the precision and range of `double`. -/
structure RoundingAdd.Double {K : Type} [Zero K] [Add K] [Sub K] [Mul K] [Div K] (R : RoundingAdd K ℚ) : Prop where
  u : R.u = 2 ^ (-53 : Int)
  η : R.η ≤ 2 ^ (-1074 : Int)
  range : R.Range (2 ^ (1023 : Int))

/-- `double` is such an arithmetic. -/
theorem C63_binary64 : (Binary.roundingAdd .binary64).Double := ⟨rfl, by decide +kernel, double_rangeAdd⟩

/-- So is `double` with fused multiply-adds wherever the compiler likes. -/
theorem C63_contracted (C : Contraction) : (Contracted.roundingAdd .binary64 C).Double :=
  ⟨rfl, le_rfl, Contracted.rangeAdd (by decide)⟩

section

variable {M K : Type} [Zero M] [Zero K] [Add K] [Sub K] [Mul K] [Div K]

/-! The constants, with up to 64 unknowns. -/

def testRange : ℚ := 2 ^ (1023 : Int)
def testNorm : ℚ := 2 ^ (990 : Int)
def testUnderflow : ℚ := 2 ^ (-1065 : Int)
def testSize : ℚ := 2 ^ (980 : Int)
def testEta : ℚ := 2 ^ (-1074 : Int)
def testRelative : ℚ := 2 ^ (-25 : Int)
def testAbsolute : ℚ := 2 ^ (-1040 : Int)

variable {R : RoundingAdd K ℚ} (hR : R.Double)

include hR

private theorem growth_eq (n : Nat) : R.growth n = doubleR.growth n := by
  unfold Rounding.growth
  rw [hR.u]
  rfl

private theorem gamma_eq (n : Nat) : R.gamma n = doubleR.gamma n := by
  unfold Rounding.gamma
  rw [growth_eq hR]

private theorem test_ample : R.Ample 128 129 testRange 2 (1 / 2100) 65 testUnderflow where
  range := hR.range.toRange
  alpha := by norm_num
  pos := by norm_num
  nonneg := by norm_num
  entry := by norm_num
  small := (mul_le_mul_of_nonneg_right hR.η (by norm_num)).trans (by decide +kernel)
  gamma := by rw [gamma_eq hR]; decide +kernel
  max := by decide +kernel
  max_div := by decide +kernel

private theorem test_ampleSolve : R.AmpleSolve 128 129 testRange 2 (1 / 2100) 65 testNorm where
  gamma := by rw [gamma_eq hR]; decide +kernel
  condition := by rw [gamma_eq hR]; decide +kernel
  nonneg := by decide +kernel
  max := by decide +kernel
  max_div := by decide +kernel

private theorem test_margin {m : Nat} (hm : m ≤ 64) : R.margin 128 129 m testUnderflow 2 ≤ 1 / 2081 - 1 / 2100 := by
  unfold Rounding.margin
  rw [gamma_eq hR, growth_eq hR]
  refine le_trans (add_le_add_right (mul_le_mul_of_nonneg_right (Nat.cast_le.mpr hm) ?_) _) ?_ <;> decide +kernel

private theorem test_product {X : ℚ} (hX : X ≤ testSize) : R.productBound 3 2 X ≤ 2 ^ (982 : Int) := by
  unfold Rounding.productBound
  rw [growth_eq hR]
  refine le_trans (mul_le_mul_of_nonneg_left (add_le_add (mul_le_mul_of_nonneg_left hX (by norm_num))
    (mul_le_mul_of_nonneg_left hR.η (by norm_num))) ?_) ?_ <;> decide +kernel

private theorem test_rel : R.relError 128 129 3 2 testUnderflow = doubleR.relError 128 129 3 2 testUnderflow := by
  unfold Rounding.relError Rounding.absBound
  simp only [gamma_eq hR, growth_eq hR]

private theorem test_abs {m : Nat} (hm : m ≤ 64) : R.absError 128 129 3 m 2 testUnderflow ≤ 2 ^ (-1059 : Int) := by
  unfold Rounding.absError Rounding.absBound
  simp only [gamma_eq hR, growth_eq hR]
  refine le_trans (mul_le_mul (add_le_add_right (mul_le_mul_of_nonneg_left (add_le_add_right (mul_le_mul_of_nonneg_left
    (mul_le_mul_of_nonneg_right (Nat.cast_le.mpr hm) ?_) ?_) _) ?_) _) hR.η R.η_nonneg ?_) ?_ <;> decide +kernel

private theorem test_underflow : R.underflow 128 129 ^ 2 ≤ 1 := by
  have h0 : 0 ≤ R.underflow 128 129 := mul_nonneg (by norm_num) R.η_nonneg
  have h1 : R.underflow 128 129 ≤ 1 := by
    unfold Rounding.underflow
    exact (mul_le_mul_of_nonneg_left hR.η (by norm_num)).trans (by decide +kernel)
  exact pow_le_one₀ h0 h1

omit hR

private theorem numbers_diag {n : Nat} {a : ℚ} (h : a ∈ (testMatrixTridiagonal ℚ n).numbers) : a = 2 ∨ a = -1 := by
  unfold testMatrixTridiagonal at h
  rcases List.mem_append.mp h with h | h
  · exact Or.inl (List.eq_of_mem_replicate h)
  · exact Or.inr (List.eq_of_mem_replicate h)

private theorem numbers_sub {n : Nat} {a : ℚ} (h : a ∈ (testMatrixSingleEntryTopRight ℚ n).numbers) : a = 2 ∨ a = -1 :=
  Or.inr (List.mem_singleton.mp h)

private theorem map_eq {α β : Type} {m : MatIn α} {g h : α → β} (H : ∀ a ∈ m.numbers, g a = h a) : m.map g = m.map h := by
  unfold MatIn.map
  exact congrArg _ (List.map_congr_left H)

private theorem map_self {α : Type} {m : MatIn α} {g : α → α} (H : ∀ a ∈ m.numbers, g a = a) : m.map g = m := by
  refine (map_eq (h := id) H).trans ?_
  unfold MatIn.map
  rw [List.map_id]

private theorem map_values {g : ℚ → K} (h2 : R.v (g 2) = 2) (h1 : R.v (g (-1)) = -1) {m : MatIn ℚ}
    (hm : ∀ a ∈ m.numbers, a = 2 ∨ a = -1) (N : Nat) :
    blockValues R.toRounding (List.replicate N (m.map g)) = List.replicate N m := by
  unfold blockValues
  rw [List.map_replicate]
  congr 1
  have : (m.map g).map R.v = m.map fun a => R.v (g a) := by
    unfold MatIn.map
    rw [List.map_map]
    rfl
  rw [this]
  refine map_self fun a ha => ?_
  rcases hm a ha with rfl | rfl
  · exact h2
  · exact h1

private def isEntry (a : ℚ) : Nat := if a = 0 then 0 else 1

private theorem map_ones {g : ℚ → K} {m : MatIn ℚ} (hm : ∀ a ∈ m.numbers, a = 2 ∨ a = -1) (N : Nat) :
    (List.replicate N (m.map g)).map (·.map fun _ => 1) =
      (List.replicate N m).map (·.map isEntry) := by
  rw [List.map_replicate, List.map_replicate]
  congr 1
  have : (m.map g).map (fun _ => 1) = m.map fun _ => 1 := by
    unfold MatIn.map
    rw [List.map_map]
    rfl
  rw [this]
  refine map_eq fun a ha => ?_
  rcases hm a ha with rfl | rfl <;> rfl

private theorem test_count {n N : Nat} (hn : 0 < n) (g : ℚ → K) (i : Nat × Nat) (hi : i ∈ tridiagonalPositions n N) :
    ∑ j ∈ tridiagonalPositions n N, tridiagonalAssembled
      ((List.replicate (N + 1) ((testMatrixTridiagonal ℚ n).map g)).map (·.map fun _ => 1))
      ((List.replicate N ((testMatrixSingleEntryTopRight ℚ n).map g)).map (·.map fun _ => 1)) i j ≤ 3 := by
  rw [map_ones (fun _ => numbers_diag), map_ones (fun _ => numbers_sub)]
  refine le_trans (le_of_eq ?_) (laplace_count ((N + 1) * n) (i.1 * n + i.2))
  change _ = ∑ b ∈ range ((N + 1) * n), isEntry (laplace (i.1 * n + i.2) b)
  rw [← sum_linear_positions n N hn fun b => isEntry (laplace (i.1 * n + i.2) b)]
  refine sum_congr rfl fun j hj => ?_
  unfold tridiagonalPositions at hi hj
  rw [mem_product, mem_range, mem_range] at hi hj
  rw [tridiagonalAssembled_map (g := isEntry) rfl]
  unfold tridiagonalAssembled
  rw [C56_elements n N i.1 j.1 i.2 j.2 hi.1 hj.1 hi.2 hj.2]

include hR

/-- C63: the functor that runs the tests of the repeating block tridiagonal class succeeds with the tridiagonal test
matrix in double precision, with or without fused multiply-adds: for up to 64 unknowns, every block dimension,
permutation, number of repetitions, method, right-hand side and type of the input with the same values, it computes a
finite solution with a small error. -/
theorem C63_error (cast : M → K) (h0 : cast 0 = 0) (g : ℚ → M) (v2 : R.v (cast (g 2)) = 2) (v1 : R.v (cast (g (-1))) = -1)
    (f2 : R.fin (cast (g 2)) ∧ R.stored (cast (g 2))) (f1 : R.fin (cast (g (-1))) ∧ R.stored (cast (g (-1))))
    (n : Nat) (hn : 0 < n) (p : List Nat) (hp : IsPerm p n) (N : Nat) (hm : (N + 1) * n ≤ 64) (f : ArrowheadFactor K)
    (T : ArrowheadTypes) (hf : TridiagonalDeclared f (testMatrixTridiagonal ℚ n).sparsity
      (testMatrixSingleEntryTopRight ℚ n).sparsity p T n N) (method : Method) (reg : K → Nat → K)
    (hreg : ∀ x i, R.fin x → 1 / 2100 < R.v x → reg x i = x) (v : List K) (hv : v.length = (N + 1) * n)
    (fv : ∀ a ∈ v, R.fin a ∧ R.stored a) (hX : ∑ i ∈ range ((N + 1) * n), |R.v (v.getD i 0)| ≤ testSize) :
    ∃ y, testRepeating cast cast id (testMatrixTridiagonal ℚ n).sparsity (testMatrixSingleEntryTopRight ℚ n).sparsity p f
        (List.replicate (N + 1) ((testMatrixTridiagonal ℚ n).map g))
        (List.replicate N ((testMatrixSingleEntryTopRight ℚ n).map g)) reg method v = .ok (y, v) ∧
      y.length = (N + 1) * n ∧ (∀ a ∈ y, R.fin a) ∧
      ∑ i ∈ range ((N + 1) * n), |R.v (y.getD i 0) - R.v (v.getD i 0)| ≤
        testRelative * ∑ i ∈ range ((N + 1) * n), |R.v (v.getD i 0)| + testAbsolute := by
  have hn64 : n ≤ 64 := (Nat.le_mul_of_pos_left n (Nat.succ_pos N)).trans hm
  have hs : 2 * n ≤ noParent := (Nat.mul_le_mul_left 2 hn64).trans (by decide)
  obtain ⟨h1, h2, h3, h4, h5⟩ := C56_valid (K := ℚ) n hn p hp hs
  let A := List.replicate (N + 1) ((testMatrixTridiagonal ℚ n).map fun a => cast (g a))
  let B := List.replicate N ((testMatrixSingleEntryTopRight ℚ n).map fun a => cast (g a))
  have sized : ∀ {m : MatIn ℚ} (h : ℚ → K), m.Sized → (m.map h).Sized := fun h hm => by
    unfold MatIn.Sized MatIn.map
    rw [List.length_map]
    exact hm
  have hfit : TridiagonalFits A B p T n N := by
    refine C37_declared_fits _ _ p n h1 N f T hf _ _ (by simp [A]) (by simp [B]) (fun t ht => ?_) fun t ht => ?_
    · rw [List.getD_eq_getElem _ _ (by rw [List.length_replicate]; exact ht), List.getElem_replicate]
      exact ⟨sized _ h3, rfl⟩
    · rw [List.getD_eq_getElem _ _ (by rw [List.length_replicate]; exact ht), List.getElem_replicate]
      exact ⟨sized _ h5, rfl⟩
  obtain ⟨x, hx, hxv, hrun⟩ := testRepeating_cast h0 h1 hn (f := f) (reg := reg) (method := method) (v := v) (N := N)
    (A := List.replicate (N + 1) ((testMatrixTridiagonal ℚ n).map g))
    (B := List.replicate N ((testMatrixSingleEntryTopRight ℚ n).map g)) hv
  have eA : (List.replicate (N + 1) ((testMatrixTridiagonal ℚ n).map g)).map (·.map cast) = A := by
    rw [List.map_replicate]
    unfold MatIn.map
    rw [List.map_map]
    rfl
  have eB : (List.replicate N ((testMatrixSingleEntryTopRight ℚ n).map g)).map (·.map cast) = B := by
    rw [List.map_replicate]
    unfold MatIn.map
    rw [List.map_map]
    rfl
  rw [eA, eB] at hrun
  have hz : BlockVector (List.replicate (N + 1) (List.replicate n (0 : K))) n N :=
    ⟨by simp, fun b hb => by rw [List.eq_of_mem_replicate hb, List.length_replicate]⟩
  have flat : ∀ {w : List (List K)}, BlockVector w n N → ∀ t < N + 1, ∀ i < n,
      (flatten w).getD (t * n + i) 0 = blockAt w t i := fun hw t ht i hi => by
    rw [C39_flatten]
    exact flatten_getD _ n hw.size t (by rw [hw.num]; exact ht) i hi
  have mem : ∀ {w : List (List K)}, (∀ b ∈ w, ∀ a ∈ b, a ∈ flatten w) := fun b hb a ha => by
    rw [C39_flatten]
    exact List.mem_flatten.mpr ⟨b, hb, ha⟩
  have sumX : ∑ i ∈ tridiagonalPositions n N, |R.v (blockAt x i.1 i.2)| = ∑ i ∈ range ((N + 1) * n), |R.v (v.getD i 0)| := by
    rw [← sum_linear_positions n N hn fun a => |R.v (v.getD a 0)|]
    refine sum_congr rfl fun k hk => ?_
    unfold tridiagonalPositions at hk
    rw [mem_product, mem_range, mem_range] at hk
    rw [← flat hx k.1 hk.1 k.2 hk.2, hxv]
  have hX0 : 0 ≤ ∑ i ∈ range ((N + 1) * n), |R.v (v.getD i 0)| := sum_nonneg fun _ _ => abs_nonneg _
  have hb := test_product hR hX
  have hb0 := Rounding.productBound_nonneg (R := R.toRounding) (k := 3) (α := 2) (by norm_num) hX0
  have vA : blockValues R.toRounding A = List.replicate (N + 1) (testMatrixTridiagonal ℚ n) :=
    map_values (R := R) (g := fun a => cast (g a)) v2 v1 (fun _ => numbers_diag) _
  have vB : blockValues R.toRounding B = List.replicate N (testMatrixSingleEntryTopRight ℚ n) :=
    map_values (R := R) (g := fun a => cast (g a)) v2 v1 (fun _ => numbers_sub) _
  have two : ∀ k ∈ tridiagonalPositions n N, tridiagonalAssembled (List.replicate (N + 1) (testMatrixTridiagonal ℚ n))
      (List.replicate N (testMatrixSingleEntryTopRight ℚ n)) k k = 2 := fun k hk => by
    unfold tridiagonalPositions at hk
    rw [mem_product, mem_range, mem_range] at hk
    unfold tridiagonalAssembled
    rw [C56_elements n N k.1 k.1 k.2 k.2 hk.1 hk.1 hk.2 hk.2]
    exact if_pos rfl
  have hmq : (((N + 1) * n : Nat) : ℚ) ≤ 64 := (Nat.cast_le (α := ℚ).mpr hm).trans (by norm_num)
  have hm0 : (0 : ℚ) ≤ ((N + 1) * n : Nat) := Nat.cast_nonneg _
  have hpd0 : PosDef (tridiagonalPositions n N) (1 / 2081) (tridiagonalAssembled
      (List.replicate (N + 1) (testMatrixTridiagonal ℚ n)) (List.replicate N (testMatrixSingleEntryTopRight ℚ n))) := by
    refine C56_positive_definite n N hn (1 / 2081) ?_
    have : (((N + 1) * n : Nat) : ℚ) * ((((N + 1) * n : Nat) : ℚ) + 1) ≤ 64 * (64 + 1) :=
      mul_le_mul hmq (by linarith) (by linarith) (by norm_num)
    linarith
  have hpd : PosDef (tridiagonalPositions n N) (1 / 2100) fun k l =>
      tridiagonalAssembled (blockValues R.toRounding A) (blockValues R.toRounding B) k l -
        if k = l then R.margin 128 129 ((N + 1) * n) testUnderflow
          (tridiagonalAssembled (blockValues R.toRounding A) (blockValues R.toRounding B) k k) else 0 := by
    rw [vA, vB]
    have := hpd0.shift (ν := 1 / 2100 - 1 / 2081) (B := fun k l =>
      tridiagonalAssembled (List.replicate (N + 1) (testMatrixTridiagonal ℚ n))
        (List.replicate N (testMatrixSingleEntryTopRight ℚ n)) k l -
        if k = l then R.margin 128 129 ((N + 1) * n) testUnderflow
          (tridiagonalAssembled (List.replicate (N + 1) (testMatrixTridiagonal ℚ n))
            (List.replicate N (testMatrixSingleEntryTopRight ℚ n)) k k) else 0)
      (fun i _ j _ hij => by rw [if_neg hij, sub_zero])
      (fun i hi => by
        simp only
        rw [if_pos trivial, two i hi]
        have := test_margin hR hm
        linarith)
    rwa [show (1 / 2081 + (1 / 2100 - 1 / 2081) : ℚ) = 1 / 2100 by norm_num] at this
  have hrel : R.relError 128 129 3 2 testUnderflow ≤ testRelative / (128 * 2100) := by
    rw [test_rel hR]
    decide +kernel
  have fmat : ∀ {m : MatIn ℚ}, (∀ a ∈ m.numbers, a = 2 ∨ a = -1) → ∀ a ∈ (m.map fun a => cast (g a)).numbers,
      R.fin a ∧ R.stored a := fun h a ha => by
    obtain ⟨b, hb, rfl⟩ := List.mem_map.mp ha
    rcases h b hb with rfl | rfl
    · exact f2
    · exact f1
  obtain ⟨f', b, y, g1, g2, g3, g4, g5, g6⟩ := C62_tridiagonal R _ _ p n h1 N f T hf A B hfit (by simp [A]) (by simp [B])
    (fun m hm => by
      rw [List.eq_of_mem_replicate hm]
      exact ⟨h2.2.1, h2.2.2.1⟩)
    (fun m hm => by
      rw [List.eq_of_mem_replicate hm]
      exact h4) method 128 (fun i _ => (tridiagonal_entries_le h1 hf i).1.trans (by omega)) 129
    (fun i _ => Nat.lt_succ_of_le ((tridiagonal_entries_le h1 hf i).2.trans (by omega))) 3
    (fun i hi => test_count hn (fun a => cast (g a)) i hi) testRange 2 (1 / 2100) 65 testUnderflow testNorm (test_ample hR)
    (test_ampleSolve hR) hR.range
    (fun b hb => by
      rw [List.eq_of_mem_replicate hb]
      exact fmat fun _ => numbers_diag)
    (fun b hb => by
      rw [List.eq_of_mem_replicate hb]
      exact fmat fun _ => numbers_sub)
    (fun k hk => by rw [vA, vB]; exact (two k hk).le) hpd reg hreg x _ hx hz
    (fun b hb a ha => by
      rw [List.eq_of_mem_replicate hb] at ha
      exact List.eq_of_mem_replicate ha)
    (fun b hb a ha => fv a (hxv ▸ mem b hb a ha)) (by
      rw [sumX]
      exact hb.trans (by decide +kernel))
    (by
      rw [sumX]
      refine (mul_le_mul hmq (add_le_add (pow_le_pow_left₀ hb0 hb 2) (mul_le_mul_of_nonneg_left (test_underflow hR)
        (by norm_num))) (add_nonneg (sq_nonneg _) (mul_nonneg (by norm_num) (sq_nonneg _))) (by norm_num)).trans ?_
      decide +kernel)
    (by
      have h1 : R.relError 128 129 3 2 testUnderflow ≤ 1 / 2100 / 128 := hrel.trans (by decide +kernel)
      have h2 := (mul_le_mul_of_nonneg_left h1 hm0).trans (mul_le_mul_of_nonneg_right hmq (by norm_num))
      linarith)
  refine ⟨flatten y, hrun f' b y g1 g2 g3, ?_, fun a ha => ?_, ?_⟩
  · rw [C39_flatten, flatten_length y n g4.size, g4.num]
  · rw [C39_flatten] at ha
    obtain ⟨w, hw, ha⟩ := List.mem_flatten.mp ha
    obtain ⟨t, ht, rfl⟩ := List.getElem_of_mem hw
    obtain ⟨i, hi, rfl⟩ := List.getElem_of_mem ha
    have := g5 t (by rw [← g4.num]; exact ht) i (by rw [← g4.size _ hw]; exact hi)
    unfold blockAt at this
    rwa [List.getD_eq_getElem _ _ ht, List.getD_eq_getElem _ _ hi] at this
  · have sumE : ∑ i ∈ tridiagonalPositions n N, |R.v (blockAt y i.1 i.2) - R.v (blockAt x i.1 i.2)| =
        ∑ i ∈ range ((N + 1) * n), |R.v ((flatten y).getD i 0) - R.v (v.getD i 0)| := by
      rw [← sum_linear_positions n N hn fun a => |R.v ((flatten y).getD a 0) - R.v (v.getD a 0)|]
      refine sum_congr rfl fun k hk => ?_
      unfold tridiagonalPositions at hk
      rw [mem_product, mem_range, mem_range] at hk
      rw [← flat hx k.1 hk.1 k.2 hk.2, hxv, ← flat g4 k.1 hk.1 k.2 hk.2]
    rw [sumX, sumE] at g6
    have e1 := mul_le_mul_of_nonneg_right hrel hX0
    have e2 := test_abs hR hm
    have e3 : (0 : ℚ) ≤ testRelative / (128 * 2100) * ∑ i ∈ range ((N + 1) * n), |R.v (v.getD i 0)| + 2 ^ (-1059 : Int) :=
      add_nonneg (mul_nonneg (by decide +kernel) hX0) (by decide +kernel)
    have e4 : (128 * 2100 * 2 ^ (-1059 : Int) : ℚ) ≤ testAbsolute := by decide +kernel
    have e5 := (mul_le_mul_of_nonneg_left (add_le_add e1 e2) hm0).trans (mul_le_mul_of_nonneg_right hmq e3)
    linarith

end

/-- The tolerance of the comparison in the test, `2 ^ (-13)`, less an eighth for rounding errors of the comparison. -/
def testTolerance : ℚ := 7 / 8 * 2 ^ (-13 : Int)

def testSmallest : ℚ := 2 ^ (-1000 : Int)

/-- Small errors of the sum are small errors of every number that is not too small. -/
theorem error_within {x y X : ℚ} (h : |y - x| ≤ testRelative * X + testAbsolute) (hX : X ≤ 3000 * |x|)
    (hx : testSmallest ≤ |x|) : |y - x| ≤ testTolerance * |x| ∧ |y - x| ≤ testTolerance * |y| := by
  have e1 : testAbsolute ≤ 2 ^ (-40 : Int) * testSmallest := by decide +kernel
  have e2 : |y - x| ≤ (testRelative * 3000 + 2 ^ (-40 : Int)) * |x| := by
    have h1 := mul_le_mul_of_nonneg_left hX (show (0 : ℚ) ≤ testRelative by decide +kernel)
    have h2 := mul_le_mul_of_nonneg_left hx (show (0 : ℚ) ≤ 2 ^ (-40 : Int) by decide +kernel)
    linarith
  have e3 : |x| ≤ |y| + |y - x| := by
    have := abs_sub_abs_le_abs_sub x y
    rw [abs_sub_comm] at this
    linarith
  have e4 : testRelative * 3000 + 2 ^ (-40 : Int) ≤ 9 / 100000 := by decide +kernel
  have e5 : 9 / 100000 / (1 - 9 / 100000) ≤ testTolerance := by decide +kernel
  have e6 := e2.trans (mul_le_mul_of_nonneg_right e4 (abs_nonneg x))
  have e7 : |y - x| ≤ 9 / 100000 / (1 - 9 / 100000) * |y| := by linarith
  exact ⟨e6.trans (mul_le_mul_of_nonneg_right (le_trans (by norm_num) e5) (abs_nonneg x)),
    e7.trans (mul_le_mul_of_nonneg_right e5 (abs_nonneg y))⟩

private theorem generated {normal : Nat → Nat → Double} {g : SolutionGenerator} (hg : g = .allOnes ∨ g = .iota) {m : Nat}
    (hm : m ≤ 64) : (g.generate normal m).length = m ∧ (∀ a ∈ g.generate normal m, a.Finite) ∧
      ∀ i < m, 1 ≤ |((g.generate normal m).getD i 0).toRat| ∧ |((g.generate normal m).getD i 0).toRat| ≤ i + 1 := by
  have iota : ∀ i < 64, ((fun x : Double => x + 1)^[i] 1).Finite ∧ ((fun x : Double => x + 1)^[i] 1).toRat = i + 1 := by
    decide +kernel
  rcases hg with rfl | rfl
  · unfold SolutionGenerator.generate
    refine ⟨List.length_replicate, fun a ha => ?_, fun i hi => ?_⟩
    · rw [List.eq_of_mem_replicate ha]
      exact (iota 0 (by decide)).1
    · simp only
      rw [List.getD_eq_getElem _ _ (by rwa [List.length_replicate]), List.getElem_replicate,
        show (1 : Double).toRat = 1 from (iota 0 (by decide)).2.trans (by norm_num), abs_one]
      have : (0 : ℚ) ≤ i := Nat.cast_nonneg i
      exact ⟨le_rfl, by linarith⟩
  · unfold SolutionGenerator.generate
    refine ⟨by rw [List.length_map, List.length_range], fun a ha => ?_, fun i hi => ?_⟩
    · obtain ⟨i, hi, rfl⟩ := List.mem_map.mp ha
      exact (iota i ((List.mem_range.mp hi).trans_le hm)).1
    · simp only
      rw [List.getD_eq_getElem _ _ (by rwa [List.length_map, List.length_range]), List.getElem_map, List.getElem_range,
        (iota i (hi.trans_le hm)).2]
      have : (0 : ℚ) ≤ i := Nat.cast_nonneg i
      rw [abs_of_nonneg (by linarith)]
      exact ⟨by linarith, le_rfl⟩

private theorem sum_succ_le {m : Nat} (hm : m ≤ 64) : ∑ i ∈ range m, ((i : ℚ) + 1) ≤ 3000 :=
  (sum_le_sum_of_subset_of_nonneg (range_subset_range.mpr hm) fun i _ _ => add_nonneg (Nat.cast_nonneg i) zero_le_one).trans
    (by decide +kernel)

/-- C63: in double precision with the regularization of the tests, the solutions of the tests with the tridiagonal test
matrix with all ones or increasing numbers agree with the generated ones within the tolerance. -/
theorem C63_passes {M : Type} [Zero M] (cast : M → Double) (h0 : cast 0 = 0) (g : ℚ → M)
    (h2 : (cast (g 2)).Finite ∧ (cast (g 2)).toRat = 2) (h1 : (cast (g (-1))).Finite ∧ (cast (g (-1))).toRat = -1)
    (n : Nat) (hn : 0 < n) (p : List Nat) (hp : IsPerm p n) (N : Nat) (hm : (N + 1) * n ≤ 64) (f : ArrowheadFactor Double)
    (T : ArrowheadTypes) (hf : TridiagonalDeclared f (testMatrixTridiagonal ℚ n).sparsity
      (testMatrixSingleEntryTopRight ℚ n).sparsity p T n N) (method : Method) (tol c : Double) (ht : tol.Finite)
    (htol : tol.toRat ≤ 2 ^ (-32 : Int)) (normal : Nat → Nat → Double) (gen : SolutionGenerator)
    (hgen : gen = .allOnes ∨ gen = .iota) :
    ∃ y v, testRepeating cast cast id (testMatrixTridiagonal ℚ n).sparsity (testMatrixSingleEntryTopRight ℚ n).sparsity p f
        (List.replicate (N + 1) ((testMatrixTridiagonal ℚ n).map g))
        (List.replicate N ((testMatrixSingleEntryTopRight ℚ n).map g))
        (regularizationSmallPositiveConstant Binary.abs tol c) method (gen.generate normal ((N + 1) * n)) = .ok (y, v) ∧
      v = gen.generate normal ((N + 1) * n) ∧ y.length = v.length ∧ ∀ i < y.length, (y.getD i 0).Finite ∧
        |(y.getD i 0).toRat - (v.getD i 0).toRat| ≤ testTolerance * |(v.getD i 0).toRat| ∧
        |(y.getD i 0).toRat - (v.getD i 0).toRat| ≤ testTolerance * |(y.getD i 0).toRat| := by
  obtain ⟨k1, k2, k3⟩ := generated (normal := normal) hgen hm
  have hX : ∑ i ∈ range ((N + 1) * n), |((gen.generate normal ((N + 1) * n)).getD i 0).toRat| ≤ 3000 :=
    (sum_le_sum fun i hi => (k3 i (mem_range.mp hi)).2).trans (sum_succ_le hm)
  obtain ⟨y, r1, r2, r3, r4⟩ := C63_error C63_binary64 cast h0 g h2.2 h1.2 ⟨h2.1, trivial⟩ ⟨h1.1, trivial⟩ n hn p hp N hm f T
    hf method (regularizationSmallPositiveConstant Binary.abs tol c)
    (fun x i hx hv => by
      unfold regularizationSmallPositiveConstant
      rw [if_neg (Binary.not_abs_lt hx ht (htol.trans ((show (2 ^ (-32 : Int) : ℚ) ≤ 1 / 2100 by norm_num).trans hv.le)))])
    _ k1 (fun a ha => ⟨k2 a ha, trivial⟩) (hX.trans (by decide +kernel))
  refine ⟨y, _, r1, rfl, r2.trans k1.symm, fun i hi => ⟨?_, ?_⟩⟩
  · rw [List.getD_eq_getElem _ _ hi]
    exact r3 _ (List.getElem_mem hi)
  · rw [r2] at hi
    refine error_within ((single_le_sum (f := fun i => |(y.getD i 0).toRat -
      ((gen.generate normal ((N + 1) * n)).getD i 0).toRat|) (fun _ _ => abs_nonneg _) (mem_range.mpr hi)).trans r4)
      (hX.trans ?_) (le_trans (by decide +kernel) (k3 i hi).1)
    have := (k3 i hi).1
    linarith

/-- Such objects exist: the claims are not about nothing. -/
example : ∃ (f : ArrowheadFactor Double) (T : ArrowheadTypes) (y v : List Double),
    TridiagonalDeclared f (testMatrixTridiagonal ℚ 3).sparsity (testMatrixSingleEntryTopRight ℚ 3).sparsity [2, 0, 1] T 3 9 ∧
    testRepeating id id id (testMatrixTridiagonal ℚ 3).sparsity (testMatrixSingleEntryTopRight ℚ 3).sparsity [2, 0, 1] f
      (List.replicate 10 ((testMatrixTridiagonal ℚ 3).map (Binary.ofRat .binary64 false)))
      (List.replicate 9 ((testMatrixSingleEntryTopRight ℚ 3).map (Binary.ofRat .binary64 false)))
      (regularizationSmallPositiveConstant Binary.abs (.ofRat .binary64 false (2 ^ (-33 : Int))) 1) .upLooking
      (SolutionGenerator.iota.generate (fun _ _ => 0) 30) = .ok (y, v) := by
  have hp : IsPerm [2, 0, 1] 3 := by unfold IsPerm; decide
  obtain ⟨h1, -⟩ := C56_valid (K := ℚ) 3 (by decide) [2, 0, 1] hp (by decide)
  obtain ⟨f, T, hf⟩ := C37_constructible (K := Double) _ _ [2, 0, 1] 3 h1 9 0
  obtain ⟨y, v, h, -⟩ := C63_passes id rfl (Binary.ofRat .binary64 false) (by decide +kernel) (by decide +kernel) 3 (by decide)
    [2, 0, 1] hp 9 (by decide) f T hf .upLooking (.ofRat .binary64 false (2 ^ (-33 : Int))) 1 (by decide +kernel)
    (by decide +kernel) (fun _ _ => 0) .iota (Or.inr rfl)
  exact ⟨f, T, y, v, hf, h⟩

end Ctldl
