import Verif.Lemmas.Contracted
import Verif.Lemmas.Stored
import Verif.Lemmas.Mixed
import Verif.Props.RoundingSolve

/-! # C50: rounding errors when the compiler contracts expressions to fused multiply-adds -/

namespace Ctldl

open Finset

variable {fmt : Format} {C : Contraction}

private theorem typesOk {s : ArrowheadSparsity} {T : ArrowheadTypes} {d : Dims} (hs : s.Valid d)
    (hT : arrowheadTypes s = .ok T) : TypesOk s T d := by
  obtain ⟨T', h, h'⟩ := arrowheadTypes_sat hs
  rw [hT] at h
  cases h
  exact h'

/-- C50: whatever products the compiler decides not to round, all numbers which stay in the factor and in the solution
are rounded ones. -/
theorem C50_stored (fmt : Format) (C : Contraction) (s : ArrowheadSparsity) (d : Dims) (hs : s.Valid d)
    (T : ArrowheadTypes) (N : Nat) (f : ArrowheadFactor (Contracted fmt C)) (hf : f.Declared s T d N)
    (A : ArrowheadMatrix (C.Tag × Binary fmt)) (hA : A.Fits s T d N) (method : Method)
    (f' : ArrowheadFactor (Contracted fmt C))
    (hfact : f.factorize d.tridiag d.link d.outer (A.map Contracted.ofTagged) regularizationNone method = .ok f')
    (b : ArrowheadVector (Contracted fmt C)) (hb : b.OfSize d N) (x : ArrowheadVector (Contracted fmt C))
    (h : f'.solveInPlace b = .ok x) :
    f'.Entries Contracted.Stored ∧ (∀ a ∈ blocks N, ∀ i < d.of a, (f'.pivotAt a i).Stored) ∧
      ∀ a ∈ blocks N, ∀ i < d.of a, (x.at a i).Stored := by
  have hT := typesOk hs hf.types
  have hX := chainPat_ok hT N
  obtain ⟨hd, hrows⟩ := Sat.of_ok (arrowheadFactorize_sat hs hT hf (hA.map Contracted.ofTagged).matrixOk
    regularizationNone method) hfact
  have hdiv : ∀ a b : Contracted fmt C, (a / b).Stored := (Contracted.rounding fmt C).stored_div
  have hsub : ∀ a b : Contracted fmt C, (a - b).Stored := by
    intro a b
    cases a <;> cases b <;> trivial
  have g0 : (Contracted.ofTagged 0 : Contracted fmt C) = 0 := rfl
  refine ⟨ArrowheadFactor.entries_of_chain hd (hrows.quotient hdiv hX), fun a ha i hi => ?_, fun a ha i hi => ?_⟩
  · obtain ⟨y, hy, e⟩ := hrows.pivot (P := Contracted.Stored) hsub
      (fun p i => by rw [chainInput_map_aD g0]; trivial) (fun i => by rw [chainInput_map_hD g0]; trivial)
      (rank_le ha) (i := i) (by rwa [← dims_of_eq ha])
    rw [factor_pivotAt_eq hd ha, e]
    exact hy
  · have := Sat.of_ok (solve_closed (P := Contracted.Stored) hsub hdiv hs hT hd hb) h a ha
    obtain ⟨j, hj, rfl⟩ := (valid_perm hs a).surj hi
    exact this j hj

/-- C50: residual after factorizing and solving, without regularization, in a binary format with contraction of any
products: if the pivots and the solution are finite, then it is at most `(gamma (n + m + 3) + gamma (n + 2)) |L| |D| |Lᵀ|
|x|` up to underflow errors, where `gamma k = 1 / (1 - 2 ^ -p) ^ k - 1` for the precision `p`. -/
theorem C50_residual (fmt : Format) (C : Contraction) (s : ArrowheadSparsity) (d : Dims) (hs : s.Valid d)
    (T : ArrowheadTypes) (N : Nat) (f : ArrowheadFactor (Contracted fmt C)) (hf : f.Declared s T d N)
    (A : ArrowheadMatrix (C.Tag × Binary fmt)) (hA : A.Fits s T d N) (method : Method)
    (f' : ArrowheadFactor (Contracted fmt C))
    (hfact : f.factorize d.tridiag d.link d.outer (A.map Contracted.ofTagged) regularizationNone method = .ok f')
    (hpiv : ∀ a ∈ blocks N, ∀ i < d.of a, (f'.pivotAt a i).Finite)
    (ε : ℚ) (h0 : 0 ≤ ε)
    (hε : ∀ a ∈ blocks N, ∀ b ∈ blocks N, ∀ i j, T.Has N a i b j →
      2 ^ fmt.minExp * (1 + |(f'.pivotAt b j).toRat| * (1 + |(f'.map Contracted.toRat).lowerElement N a b i j|)) ≤ ε)
    (b : ArrowheadVector (C.Tag × Binary fmt)) (hb : b.OfSize d N) (x : ArrowheadVector (Contracted fmt C))
    (h : f'.solveInPlace (b.map Contracted.ofTagged) = .ok x)
    (hfin : ∀ a ∈ blocks N, ∀ i < d.of a, (x.at a i).Finite)
    (n : Nat) (hn : ∀ a ∈ blocks N, ∀ i < d.of a, T.rowEntries N a i ≤ n)
    (m : Nat) (hm : ∀ a ∈ blocks N, ∀ i < d.of a, T.colEntries N a i ≤ m) :
    let growth (k : Nat) : ℚ := 1 / (1 - 2 ^ (-fmt.precision : Int)) ^ k
    ∀ a ∈ blocks N, ∀ i < d.of a,
      |(b.at a (permAt (s.perm a) i)).2.toRat - ∑ c ∈ blocks N, ∑ j ∈ range (d.of c),
          (A.map (fun y => y.2.toRat)).symElement N a c (permAt (s.perm a) i) j * (x.at c j).toRat| ≤
        ((growth (n + m + 3) - 1) + (growth (n + 2) - 1)) * ∑ c ∈ blocks N, ∑ j ∈ range (d.of c),
          (f'.map (fun y => |y.toRat|)).ldlt d N a c i j * |(x.at c (permAt (s.perm c) j)).toRat| +
        (growth (n + m + 3) * (n * 2 ^ fmt.minExp + ∑ c ∈ blocks N, ∑ j ∈ range (d.of c),
          (f'.map (fun y => |y.toRat|)).lowerElement N a c i j *
            (|(f'.pivotAt c j).toRat| * ((m + 1) * 2 ^ fmt.minExp))) +
        growth (n + 2) * ((n + 1) * ε) * ∑ c ∈ blocks N, ∑ j ∈ range (d.of c),
          |(x.at c (permAt (s.perm c) j)).toRat|) := by
  have hb' : (b.map (Contracted.ofTagged (fmt := fmt) (C := C))).OfSize d N :=
    ⟨by simp [ArrowheadVector.map, hb.num], by simp [ArrowheadVector.map, hb.start], by
      intro l hl
      obtain ⟨l', hl', rfl⟩ := List.mem_map.mp hl
      rw [List.length_map]
      exact hb.tridiag l' hl', by simp [ArrowheadVector.map, hb.link], by simp [ArrowheadVector.map, hb.outer]⟩
  obtain ⟨w, hw, hr⟩ := C47_residual (Contracted.rounding fmt C) s d hs T N f hf (A.map Contracted.ofTagged)
    (hA.map _) regularizationNone method f' hfact
    (fun a ha i hi => ⟨hpiv a ha i hi, fun y hy => (show f'.pivotAt a i = y from hy) ▸ hpiv a ha i hi⟩) ε h0 hε
    _ hb' x h hfin n hn m hm
  intro growth a ha i hi
  have h1 := hr a ha i hi
  rw [← show f'.pivotAt a i = w a i from hw a ha i hi] at h1
  simp only [sub_self, ite_self, add_zero] at h1
  rw [add_mul, ← sum_congr rfl fun c _ => sum_perm (valid_perm hs c)
    (fun j => (A.map (fun y => y.2.toRat)).symElement N a c (permAt (s.perm a) i) j * (x.at c j).toRat)]
  rw [ArrowheadVector.at_map rfl, ArrowheadMatrix.map_map] at h1
  exact h1

/-! ### A case meeting the hypotheses: some products are contracted, others are not -/

/-- Witness: tags count operations, and products of numbers with an even sum of tags are contracted. -/
def someFused : Contraction := ⟨Nat, 0, fun a b => a + b + 1, fun a b => a + b + 1, fun a b => a + b + 1, fun a b => (a + b) % 2 = 0⟩

/-- Witness: a number with its tag. -/
def tagged (x : ℚ) : someFused.Tag × Binary .binary64 := (x.num.natAbs, Binary.ofRat .binary64 false x)

/-- Witness: a right-hand side. -/
def contractedB : ArrowheadVector ℚ := ⟨[1 / 10], [[-2 / 3, 1 / 7], [4 / 9, 7]], [1 / 3], [5 / 7]⟩

/-- The numbers of the example. -/
abbrev Fused : Type := Contracted .binary64 someFused

def contractedRun : Res (ArrowheadTypes × ArrowheadFactor Fused × ArrowheadVector Fused) := do
  let T ← arrowheadTypes arrowS
  let f ← (freshFactor arrowS T arrowD 1 (0 : Fused)).factorize 2 1 1 ((arrowM.map tagged).map Contracted.ofTagged)
    regularizationNone .upLooking
  let x ← f.solveInPlace ((contractedB.map tagged).map Contracted.ofTagged)
  return (T, f, x)

instance (x : Fused) : Decidable x.Finite :=
  match x with
  | .val _ x => inferInstanceAs (Decidable x.Finite)
  | .prod _ x y => inferInstanceAs (Decidable (x.Finite ∧ y.Finite))

/-- The bound of the underflow errors. -/
def fusedSmall (f : ArrowheadFactor Fused) (a b : Blk) (i j : Nat) : Prop :=
  2 ^ Format.binary64.minExp * (1 + |(f.pivotAt b j).toRat| * (1 + |(f.map Contracted.toRat).lowerElement 1 a b i j|)) ≤
    2 ^ (-1071 : Int)

instance (f : ArrowheadFactor Fused) (a b : Blk) (i j : Nat) : Decidable (fusedSmall f a b i j) := by
  unfold fusedSmall
  infer_instance

/-- The solution without contraction. -/
def uncontracted : Res (ArrowheadVector Double) := do
  let T ← arrowheadTypes arrowS
  let f ← (freshFactor arrowS T arrowD 1 (0 : Double)).factorize 2 1 1 doubleM regularizationNone .upLooking
  f.solveInPlace (contractedB.map (Binary.ofRat .binary64 false))

def contractedCheck : Bool :=
  match contractedRun, uncontracted with
  | .ok (T, f, x), .ok y => decide ((∀ a ∈ blocks 1,
      (∀ i < arrowD.of a, (f.pivotAt a i).Finite ∧ (x.at a i).Finite ∧ T.rowEntries 1 a i ≤ 5 ∧ T.colEntries 1 a i ≤ 3) ∧
    (∀ e ∈ (T.diagBlock a).entries, fusedSmall f a a e.row e.col) ∧
    ∀ b ∈ blocks 1, ∀ e ∈ (T.lowerBlock 1 a b).elim [] (fun c => c.entries), fusedSmall f a b e.row e.col) ∧
      (x.at .link 0).toRat ≠ (y.at .link 0).toRat)
  | _, _ => false

/-- The hypotheses are met by a factorization and solve, the result of which is not the one without contraction. -/
example : ∃ T f x y, (arrowM.map tagged).Fits arrowS T arrowD 1 ∧
    (freshFactor arrowS T arrowD 1 (0 : Fused)).Declared arrowS T arrowD 1 ∧
    (freshFactor arrowS T arrowD 1 (0 : Fused)).factorize 2 1 1 ((arrowM.map tagged).map Contracted.ofTagged)
      regularizationNone .upLooking = .ok f ∧
    f.solveInPlace ((contractedB.map tagged).map Contracted.ofTagged) = .ok x ∧ (contractedB.map tagged).OfSize arrowD 1 ∧
    (∀ a ∈ blocks 1, ∀ i < arrowD.of a, (f.pivotAt a i).Finite ∧
      (x.at a i).Finite ∧ T.rowEntries 1 a i ≤ 5 ∧ T.colEntries 1 a i ≤ 3) ∧
    (∀ a ∈ blocks 1, ∀ b ∈ blocks 1, ∀ i j, T.Has 1 a i b j → fusedSmall f a b i j) ∧
    uncontracted = .ok y ∧ (x.at .link 0).toRat ≠ (y.at .link 0).toRat := by
  have h : contractedCheck = true := by decide +kernel
  unfold contractedCheck at h
  split at h
  · next T f x y hrun hy =>
    unfold contractedRun at hrun
    obtain ⟨T', hT, hrun⟩ := bind_eq_ok.mp hrun
    obtain ⟨f', hf, hrun⟩ := bind_eq_ok.mp hrun
    obtain ⟨x', hx, hrun⟩ := bind_eq_ok.mp hrun
    cases hrun
    obtain ⟨h, hne⟩ := of_decide_eq_true h
    refine ⟨T, f, x, y, (arrowM_fits hT).map _, C21_constructible arrowS arrowD T hT 1 0, hf, hx,
      by constructor <;> decide, fun a ha => (h a ha).1, ?_, hy, hne⟩
    intro a ha b hb i j hh
    rcases hh with ⟨rfl, hh⟩ | ⟨G, hG, hh⟩
    · exact (h a ha).2.1 ⟨i, j⟩ hh
    · obtain ⟨c, hc, rfl⟩ := Option.map_eq_some_iff.mp hG
      have := (h a ha).2.2 b hb
      rw [hc] at this
      exact this ⟨i, j⟩ hh
  · cases h

end Ctldl
