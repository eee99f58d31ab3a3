import Verif.Lemmas.Extended
import Verif.Props.Contracted
import Verif.Props.RangeSolve
import Verif.Props.Environment

/-! # C88: rounding errors when intermediate results have extended precision -/

namespace Ctldl

open Finset

/-- C88: residual after factorizing and solving, without regularization, when expressions are evaluated in a wider format
and any of the results are rounded to the type and others are not: if the pivots and the solution are finite, then it is at
most `(gamma (n + m + 3) + gamma (n + 2)) |L| |D| |Lᵀ| |x|` up to underflow errors, where
`gamma k = 1 / (1 - (2 ^ -p + 2 ^ -q + 2 ^ -p * 2 ^ -q)) ^ k - 1` for the precisions `p` of the type and `q` of the wider
format. -/
theorem C88_residual (fmt ext : Format) (hw : fmt.Wider ext) (hp : 2 ≤ fmt.precision) (C : Excess) (s : ArrowheadSparsity)
    (d : Dims) (hs : s.Valid d) (T : ArrowheadTypes) (N : Nat) (f : ArrowheadFactor (Extended fmt ext C))
    (hf : f.Declared s T d N) (A : ArrowheadMatrix (Extended fmt ext C)) (hA : A.Fits s T d N) (method : Method)
    (f' : ArrowheadFactor (Extended fmt ext C))
    (hfact : f.factorize d.tridiag d.link d.outer A regularizationNone method = .ok f')
    (hpiv : ∀ a ∈ blocks N, ∀ i < d.of a, (f'.pivotAt a i).Finite)
    (ε : ℚ) (h0 : 0 ≤ ε)
    (hε : ∀ a ∈ blocks N, ∀ b ∈ blocks N, ∀ i j, T.Has N a i b j →
      2 ^ (fmt.minExp + 1) * (1 + |(f'.pivotAt b j).toRat| * (1 + |(f'.map Extended.toRat).lowerElement N a b i j|)) ≤ ε)
    (b : ArrowheadVector (Extended fmt ext C)) (hb : b.OfSize d N) (x : ArrowheadVector (Extended fmt ext C))
    (h : f'.solveInPlace b = .ok x)
    (hfin : ∀ a ∈ blocks N, ∀ i < d.of a, (x.at a i).Finite)
    (n : Nat) (hn : ∀ a ∈ blocks N, ∀ i < d.of a, T.rowEntries N a i ≤ n)
    (m : Nat) (hm : ∀ a ∈ blocks N, ∀ i < d.of a, T.colEntries N a i ≤ m) :
    let u : ℚ := 2 ^ (-ext.precision : Int) + 2 ^ (-fmt.precision : Int) +
      2 ^ (-ext.precision : Int) * 2 ^ (-fmt.precision : Int)
    let growth (k : Nat) : ℚ := 1 / (1 - u) ^ k
    ∀ a ∈ blocks N, ∀ i < d.of a,
      |(b.at a (permAt (s.perm a) i)).toRat - ∑ c ∈ blocks N, ∑ j ∈ range (d.of c),
          (A.map Extended.toRat).symElement N a c (permAt (s.perm a) i) j * (x.at c j).toRat| ≤
        ((growth (n + m + 3) - 1) + (growth (n + 2) - 1)) * ∑ c ∈ blocks N, ∑ j ∈ range (d.of c),
          (f'.map (fun y => |y.toRat|)).ldlt d N a c i j * |(x.at c (permAt (s.perm c) j)).toRat| +
        (growth (n + m + 3) * (n * 2 ^ (fmt.minExp + 1) + ∑ c ∈ blocks N, ∑ j ∈ range (d.of c),
          (f'.map (fun y => |y.toRat|)).lowerElement N a c i j *
            (|(f'.pivotAt c j).toRat| * ((m + 1) * 2 ^ (fmt.minExp + 1)))) +
        growth (n + 2) * ((n + 1) * ε) * ∑ c ∈ blocks N, ∑ j ∈ range (d.of c),
          |(x.at c (permAt (s.perm c) j)).toRat|) := by
  obtain ⟨w, hw, hr⟩ := C47_residual (Extended.rounding fmt ext C hw hp) s d hs T N f hf A
    hA regularizationNone method f' hfact
    (fun a ha i hi => ⟨hpiv a ha i hi, fun y hy => (show f'.pivotAt a i = y from hy) ▸ hpiv a ha i hi⟩) ε h0 hε
    _ hb x h hfin n hn m hm
  intro u growth a ha i hi
  have h1 := hr a ha i hi
  rw [← show f'.pivotAt a i = w a i from hw a ha i hi] at h1
  simp only [sub_self, ite_self, add_zero] at h1
  rw [add_mul, ← sum_congr rfl fun c _ => sum_perm (valid_perm hs c)
    (fun j => (A.map Extended.toRat).symElement N a c (permAt (s.perm a) i) j * (x.at c j).toRat)]
  exact h1

/-- C88: a repeating block matrix which is positive definite by a margin is factorized, and systems with it are solved,
without overflow and accurately, whatever intermediate results have extended precision. All conditions are on the matrix,
the right hand side and the arithmetic, as in C57 and C58. -/
theorem C88_definite (fmt ext : Format) (hw : fmt.Wider ext) (hp : 2 ≤ fmt.precision) (C : Excess) (s : ArrowheadSparsity)
    (d : Dims) (hs : s.Valid d) (T : ArrowheadTypes) (N : Nat) (f : ArrowheadFactor (Extended fmt ext C))
    (hf : f.Declared s T d N) (m : ArrowheadMatrix (Extended fmt ext C)) (hm : m.Fits s T d N) (method : Method)
    (n : Nat) (hn : ∀ a ∈ blocks N, ∀ i < d.of a, T.rowEntries N a i ≤ n)
    (c : Nat) (hc : ∀ a ∈ blocks N, ∀ j < d.of a, T.colEntries N a j < c)
    (Ω α μ Λ ε β : ℚ) (hR : (Extended.rounding fmt ext C hw hp).Ample n c Ω α μ Λ ε)
    (hS : (Extended.rounding fmt ext C hw hp).AmpleSolve n c Ω α μ Λ β)
    (hfin : ∀ k ∈ positions d N, ∀ l ∈ positions d N, (m.assembled N k l).Finite)
    (hα : ∀ k ∈ positions d N, (m.map Extended.toRat).assembled N k k ≤ α)
    (hpd : PosDef (positions d N) μ fun k l => (m.map Extended.toRat).assembled N k l -
      if k = l then (Extended.rounding fmt ext C hw hp).margin n c (positions d N).card ε
        ((m.map Extended.toRat).assembled N k k) else 0)
    (reg : Extended fmt ext C → Nat → Extended fmt ext C)
    (hreg : ∀ x i, x.Finite → μ < x.toRat → reg x i = x) :
    ∃ f', f.factorize d.tridiag d.link d.outer m reg method = .ok f' ∧
      (∀ a ∈ blocks N, ∀ i < d.of a,
        (f'.pivotAt a i).Finite ∧ μ < (f'.pivotAt a i).toRat ∧ (f'.pivotAt a i).toRat ≤ 3 * α) ∧
      ∀ b : ArrowheadVector (Extended fmt ext C), b.OfSize d N →
        (∀ a ∈ blocks N, ∀ i < d.of a, (b.at a i).Finite) →
        ∑ k ∈ positions d N, (b.at k.1 k.2).toRat ^ 2 +
          (positions d N).card * ((2 + 2 * α * μ) * (2 * (n + c) * 2 ^ (fmt.minExp + 1)) ^ 2) ≤ β ^ 2 →
        ∃ x, f'.solveInPlace b = .ok x ∧ x.OfSize d N ∧ (∀ a ∈ blocks N, ∀ i < d.of a, (x.at a i).Finite) ∧
          μ ^ 2 * ∑ k ∈ positions d N, (x.at k.1 k.2).toRat ^ 2 ≤ (9 * β) ^ 2 ∧
          let u : ℚ := 2 ^ (-ext.precision : Int) + 2 ^ (-fmt.precision : Int) +
            2 ^ (-ext.precision : Int) * 2 ^ (-fmt.precision : Int)
          let growth (k : Nat) : ℚ := 1 / (1 - u) ^ k
          let A := (m.map Extended.toRat).assembled N
          let e' := growth (n + 2) * ((n + 1) * ε)
          let B := fun k l => ((A k k + A l l) / 2 + e') / (1 - (growth (n + 2) - 1))
          ∀ k ∈ positions d N, |(b.at k.1 k.2).toRat - ∑ l ∈ positions d N, A k l * (x.at l.1 l.2).toRat| ≤
            ((growth (n + c + 2) - 1) + (growth (n + 2) - 1)) * ∑ l ∈ positions d N, B k l * |(x.at l.1 l.2).toRat| +
            (growth (n + c + 2) * 2 ^ (fmt.minExp + 1) * (n + c * ∑ l ∈ positions d N, B k l) +
              e' * ∑ l ∈ positions d N, |(x.at l.1 l.2).toRat|) := by
  obtain ⟨t, h1, h2, -⟩ := C57_repeating (Extended.rounding fmt ext C hw hp) s d hs T N _ hf m
    hm method n hn c hc Ω α μ Λ ε hR (fun k hk l hl => ⟨hfin k hk l hl, trivial⟩) hα hpd reg hreg
  obtain ⟨t', h1', h3⟩ := C58_repeating (Extended.rounding fmt ext C hw hp) s d hs T N _ hf m
    hm method n hn c hc Ω α μ Λ ε β hR hS (fun k hk l hl => ⟨hfin k hk l hl, trivial⟩) hα hpd reg hreg
  rw [h1] at h1'
  cases h1'
  exact ⟨t, h1, h2, fun b hb hbf hβ => h3 b hb (fun a ha i hi => ⟨hbf a ha i hi, trivial⟩) hβ⟩

/-- C88: the same for single matrices. -/
theorem C88_definite_single (fmt ext : Format) (hw : fmt.Wider ext) (hp : 2 ≤ fmt.precision) (C : Excess) (s : Sparsity)
    (p : List Nat) (hv : ValidSparsity s p) (f : DiagFactor (Extended fmt ext C)) (hf : f.Declared s p)
    (m : MatIn (Extended fmt ext C)) (hm : m.Fits s p) (method : Method)
    (n : Nat) (hn : ∀ i < s.numRows, f.sparsity.rowEntries i ≤ n)
    (c : Nat) (hc : ∀ j < s.numRows, f.sparsity.colEntries j < c)
    (Ω α μ Λ ε β : ℚ) (hR : (Extended.rounding fmt ext C hw hp).Ample n c Ω α μ Λ ε)
    (hS : (Extended.rounding fmt ext C hw hp).AmpleSolve n c Ω α μ Λ β)
    (hfin : ∀ i < s.numRows, ∀ j < s.numRows, (m.sym i j).Finite)
    (hα : ∀ i < s.numRows, (m.sym i i).toRat ≤ α)
    (hpd : PosDef (range s.numRows) μ fun i j => (m.sym i j).toRat -
      if i = j then (Extended.rounding fmt ext C hw hp).margin n c s.numRows ε (m.sym i i).toRat else 0)
    (reg : Extended fmt ext C → Nat → Extended fmt ext C)
    (hreg : ∀ x i, x.Finite → μ < x.toRat → reg x i = x) :
    ∃ f', f.factorize m reg method = .ok f' ∧
      (∀ i < s.numRows, (f'.pivot i).Finite ∧ μ < (f'.pivot i).toRat ∧ (f'.pivot i).toRat ≤ 3 * α) ∧
      ∀ b : List (Extended fmt ext C), b.length = s.numRows → (∀ i < s.numRows, (b.getD i 0).Finite) →
        ∑ i ∈ range s.numRows, (b.getD i 0).toRat ^ 2 +
          s.numRows * ((2 + 2 * α * μ) * (2 * (n + c) * 2 ^ (fmt.minExp + 1)) ^ 2) ≤ β ^ 2 →
        ∃ x, f'.solveInPlace b = .ok x ∧ x.length = s.numRows ∧ (∀ i < s.numRows, (x.getD i 0).Finite) ∧
          μ ^ 2 * ∑ i ∈ range s.numRows, (x.getD i 0).toRat ^ 2 ≤ (9 * β) ^ 2 ∧
          let u : ℚ := 2 ^ (-ext.precision : Int) + 2 ^ (-fmt.precision : Int) +
            2 ^ (-ext.precision : Int) * 2 ^ (-fmt.precision : Int)
          let growth (k : Nat) : ℚ := 1 / (1 - u) ^ k
          let A := fun i j => (m.sym i j).toRat
          let e' := growth (n + 2) * ((n + 1) * ε)
          let B := fun i j => ((A i i + A j j) / 2 + e') / (1 - (growth (n + 2) - 1))
          ∀ i < s.numRows, |(b.getD i 0).toRat - ∑ j ∈ range s.numRows, A i j * (x.getD j 0).toRat| ≤
            ((growth (n + c + 2) - 1) + (growth (n + 2) - 1)) * ∑ j ∈ range s.numRows, B i j * |(x.getD j 0).toRat| +
            (growth (n + c + 2) * 2 ^ (fmt.minExp + 1) * (n + c * ∑ j ∈ range s.numRows, B i j) +
              e' * ∑ j ∈ range s.numRows, |(x.getD j 0).toRat|) := by
  obtain ⟨t, h1, h2, -⟩ := C57_single (Extended.rounding fmt ext C hw hp) s p hv _ hf m hm method n hn c hc Ω α μ Λ ε hR
    (fun k hk l hl => ⟨hfin k hk l hl, trivial⟩) hα hpd reg hreg
  obtain ⟨t', h1', h3⟩ := C58_single (Extended.rounding fmt ext C hw hp) s p hv _ hf m hm method n hn c hc Ω α μ Λ ε β hR hS
    (fun k hk l hl => ⟨hfin k hk l hl, trivial⟩) hα hpd reg hreg
  rw [h1] at h1'
  cases h1'
  exact ⟨t, h1, h2, fun b hb hbf hβ => h3 b hb (fun i hi => ⟨hbf i hi, trivial⟩) hβ⟩

/-! ### Cases meeting the hypotheses: doubles evaluated with the precision and range of the x87 processor -/

/-- The extended format of the x87 processor. -/
def Format.x87 : Format := ⟨64, -16445, 16384, by decide⟩

theorem Format.double_x87 : Format.binary64.Wider Format.x87 := ⟨by decide, by decide, by decide⟩

/-- Tags count operations, and results are kept if the sum of the tags of the operands is even. -/
def someKept : Excess := ⟨Nat, 0, fun a b => a + b + 1, fun a b => a + b + 1, fun a b => a + b + 1, fun a b => (a + b) % 2 = 0,
  fun a b => (a + b) % 2 = 0, fun a b => (a + b) % 2 = 0⟩

/-- The numbers of the example. -/
abbrev Kept : Type := Extended .binary64 .x87 someKept

/-- A number of the example. -/
def kept (x : ℚ) : Kept := Extended.ofTagged (x.num.natAbs, Binary.ofRat .binary64 false x)

instance (x : Kept) : Decidable x.Finite := inferInstanceAs (Decidable x.value.Finite)

def keptRun : Res (ArrowheadTypes × ArrowheadFactor Kept × ArrowheadVector Kept) := do
  let T ← arrowheadTypes arrowS
  let f ← (freshFactor arrowS T arrowD 1 (0 : Kept)).factorize 2 1 1 (arrowM.map kept) regularizationNone .upLooking
  let x ← f.solveInPlace (contractedB.map kept)
  return (T, f, x)

/-- The bound of the underflow errors. -/
def keptSmall (f : ArrowheadFactor Kept) (a b : Blk) (i j : Nat) : Prop :=
  2 ^ (Format.binary64.minExp + 1) *
    (1 + |(f.pivotAt b j).toRat| * (1 + |(f.map Extended.toRat).lowerElement 1 a b i j|)) ≤ 2 ^ (-1068 : Int)

instance (f : ArrowheadFactor Kept) (a b : Blk) (i j : Nat) : Decidable (keptSmall f a b i j) := by
  unfold keptSmall
  infer_instance

def keptCheck : Bool :=
  match keptRun, uncontracted with
  | .ok (T, f, x), .ok y => decide ((∀ a ∈ blocks 1,
      (∀ i < arrowD.of a, (f.pivotAt a i).Finite ∧ (x.at a i).Finite ∧ T.rowEntries 1 a i ≤ 5 ∧ T.colEntries 1 a i ≤ 3) ∧
    (∀ e ∈ (T.diagBlock a).entries, keptSmall f a a e.row e.col) ∧
    ∀ b ∈ blocks 1, ∀ e ∈ (T.lowerBlock 1 a b).elim [] (fun c => c.entries), keptSmall f a b e.row e.col) ∧
      (x.at .link 0).toRat ≠ (y.at .link 0).toRat)
  | _, _ => false

/-- The hypotheses are met by a factorization and solve, the result of which is not the one without extended precision. -/
example : ∃ T f x y, (arrowM.map kept).Fits arrowS T arrowD 1 ∧
    (freshFactor arrowS T arrowD 1 (0 : Kept)).Declared arrowS T arrowD 1 ∧
    (freshFactor arrowS T arrowD 1 (0 : Kept)).factorize 2 1 1 (arrowM.map kept) regularizationNone .upLooking = .ok f ∧
    f.solveInPlace (contractedB.map kept) = .ok x ∧ (contractedB.map kept).OfSize arrowD 1 ∧
    (∀ a ∈ blocks 1, ∀ i < arrowD.of a, (f.pivotAt a i).Finite ∧
      (x.at a i).Finite ∧ T.rowEntries 1 a i ≤ 5 ∧ T.colEntries 1 a i ≤ 3) ∧
    (∀ a ∈ blocks 1, ∀ b ∈ blocks 1, ∀ i j, T.Has 1 a i b j → keptSmall f a b i j) ∧
    uncontracted = .ok y ∧ (x.at .link 0).toRat ≠ (y.at .link 0).toRat := by
  have h : keptCheck = true := by decide +kernel
  unfold keptCheck at h
  split at h
  · next T f x y hrun hy =>
    unfold keptRun at hrun
    obtain ⟨T', hT, hrun⟩ := bind_eq_ok.mp hrun
    obtain ⟨f', hf, hrun⟩ := bind_eq_ok.mp hrun
    obtain ⟨x', hx, hrun⟩ := bind_eq_ok.mp hrun
    cases hrun
    obtain ⟨h, hne⟩ := of_decide_eq_true h
    refine ⟨T, f, x, y, (arrowM_fits hT).map _, C21_constructible arrowS arrowD T hT 1 0, hf, hx,
      by constructor <;> decide, fun a ha => (h a ha).1, ?_, hy, hne⟩
    intro a ha b hb i j hh
    rcases hh with ⟨rfl, hh⟩ | ⟨G, hG, hh⟩
    · exact (h a ha).2.1 ⟨i, j⟩ hh
    · obtain ⟨c, hc, rfl⟩ := Option.map_eq_some_iff.mp hG
      have := (h a ha).2.2 b hb
      rw [hc] at this
      exact this ⟨i, j⟩ hh
  · cases h

/-- The arithmetic of the example. -/
abbrev keptR : Rounding Kept ℚ := Extended.rounding .binary64 .x87 someKept Format.double_x87 (by decide)

private theorem kept_ample : keptR.Ample 2 3 (2 ^ (1023 : Int)) 5 (1 / 2) 4 (2 ^ (-1000 : Int)) where
  range := Extended.range (fmt := .binary64) (ext := .x87) Format.double_x87 (by decide) (by decide)
  alpha := by norm_num
  pos := by norm_num
  nonneg := by norm_num
  entry := by norm_num
  small := by decide +kernel
  gamma := by decide +kernel
  max := by decide +kernel
  max_div := by decide +kernel

private theorem kept_ampleSolve : keptR.AmpleSolve 2 3 (2 ^ (1023 : Int)) 5 (1 / 2) 4 hugeNorm where
  gamma := by decide +kernel
  condition := by decide +kernel
  nonneg := by decide +kernel
  max := by decide +kernel
  max_div := by decide +kernel

/-- A matrix of the example. -/
def keptM : MatIn (Kept) := definiteDoubleM.map fun x => Extended.ofTagged (someKept.zero, x)

example : ∃ f', (witnessF.map kept).factorize keptM
      regularizationNone .upLooking = .ok f' ∧
    (∀ i < 3, (f'.pivot i).Finite ∧ 1 / 2 < (f'.pivot i).toRat ∧ (f'.pivot i).toRat ≤ 3 * 5) ∧
    ∀ b : List (Kept), b.length = 3 →
      (∀ i < 3, (b.getD i 0).Finite ∧ |(b.getD i 0).toRat| ≤ hugeRat) →
      ∃ x, f'.solveInPlace b = .ok x ∧ ∀ i < 3, (x.getD i 0).Finite := by
  have hc : ∀ i < 3, witnessF.sparsity.rowEntries i ≤ 2 ∧ witnessF.sparsity.colEntries i < 3 := by decide
  obtain ⟨f', h1, h2, h3⟩ := C88_definite_single .binary64 .x87 Format.double_x87 (by decide) someKept witnessS [0, 2, 1] witness_valid _
    (show (witnessF.map kept).Declared witnessS
      [0, 2, 1] from ⟨witness_declared.pattern, rfl, rfl, rfl⟩) keptM
    ⟨rfl, witness_valid.inRange, rfl, rfl, fun i j h => .base h h.1⟩ .upLooking 2 (fun i hi => (hc i hi).1) 3
    (fun i hi => (hc i hi).2) _ 5 (1 / 2) 4 _ hugeNorm kept_ample kept_ampleSolve
    (by
      have : ∀ i < 3, ∀ j < 3, (keptM.sym i j).Finite := by decide +kernel
      exact this)
    (by
      have : ∀ i < 3, (keptM.sym i i).toRat ≤ 5 := by decide +kernel
      exact this)
    (reducedM_posDef.mono (fun i hi j hj hij => by
      rw [if_neg hij, sub_zero]
      have : ∀ i < 3, ∀ j < 3, i ≠ j → reducedM.sym i j = (keptM.sym i j).toRat := by decide +kernel
      exact this i (mem_range.mp hi) j (mem_range.mp hj) hij) fun i hi => by
      rw [if_pos rfl]
      have : ∀ i < 3, reducedM.sym i i ≤ (keptM.sym i i).toRat -
        keptR.margin 2 3 3 (2 ^ (-1000 : Int)) (keptM.sym i i).toRat := by decide +kernel
      exact this i (mem_range.mp hi)) regularizationNone (fun _ _ _ _ => rfl)
  refine ⟨f', h1, h2, fun b hb hbf => ?_⟩
  obtain ⟨x, hx, -, h3, -⟩ := h3 b hb (fun i hi => (hbf i hi).1) (by
    have h4 := sum_sq_le (s := range 3) fun i hi => (hbf i (mem_range.mp hi)).2
    rw [card_range] at h4
    have h5 : (3 : Nat) * hugeRat ^ 2 + (3 : Nat) * ((2 + 2 * 5 * (1 / 2)) *
        (2 * ((2 : Nat) + (3 : Nat)) * (2 ^ (Format.binary64.minExp + 1))) ^ 2) ≤ hugeNorm ^ 2 := by
      decide +kernel
    exact (add_le_add_left h4 _).trans h5)
  exact ⟨x, hx, h3⟩

private theorem kept_ample' : keptR.Ample 5 4 (2 ^ (1023 : Int)) 7 (1 / 20) 12 (2 ^ (-1000 : Int)) where
  range := Extended.range (fmt := .binary64) (ext := .x87) Format.double_x87 (by decide) (by decide)
  alpha := by norm_num
  pos := by norm_num
  nonneg := by norm_num
  entry := by norm_num
  small := by decide +kernel
  gamma := by decide +kernel
  max := by decide +kernel
  max_div := by decide +kernel

private theorem kept_ampleSolve' : keptR.AmpleSolve 5 4 (2 ^ (1023 : Int)) 7 (1 / 20) 12 hugeNorm where
  gamma := by decide +kernel
  condition := by decide +kernel
  nonneg := by decide +kernel
  max := by decide +kernel
  max_div := by decide +kernel

/-- A repeating block matrix of the example. -/
def keptArrow : ArrowheadMatrix (Kept) :=
  arrowM.map kept

private theorem keptArrow_posDef : PosDef (positions arrowD 1) (1 / 20) fun k l =>
    (keptArrow.map Extended.toRat).assembled 1 k l - if k = l then
      keptR.margin 5 4 (positions arrowD 1).card (2 ^ (-1000 : Int)) ((keptArrow.map Extended.toRat).assembled 1 k k)
    else 0 := by
  have hpd : PosDef (positions arrowD 1) (0 + 1 / 20) fun k l =>
      (keptArrow.map Extended.toRat).assembled 1 k l - if k = l then
        keptR.margin 5 4 (positions arrowD 1).card (2 ^ (-1000 : Int)) ((keptArrow.map Extended.toRat).assembled 1 k k)
      else 0 := by
    refine reducedArrow_posDef.shift (fun k hk l hl hne => ?_) fun k hk => ?_
    · rw [if_neg hne, sub_zero]
      have : ∀ k ∈ positions arrowD 1, ∀ l ∈ positions arrowD 1, k ≠ l →
          reducedArrowM.assembled 1 k l = (keptArrow.map Extended.toRat).assembled 1 k l := by decide +kernel
      exact this k hk l hl hne
    · rw [if_pos rfl]
      have : ∀ k ∈ positions arrowD 1, reducedArrowM.assembled 1 k k + 1 / 20 ≤
          (keptArrow.map Extended.toRat).assembled 1 k k - keptR.margin 5 4 (positions arrowD 1).card (2 ^ (-1000 : Int))
            ((keptArrow.map Extended.toRat).assembled 1 k k) := by decide +kernel
      exact this k hk
  rw [zero_add] at hpd
  exact hpd

example : ∃ T f, arrowheadTypes arrowS = .ok T ∧
    (freshFactor arrowS T arrowD 1 (0 : Kept)).factorize 2 1 1 keptArrow regularizationNone
      .upLooking = .ok f ∧
    ∀ b : ArrowheadVector (Kept), b.OfSize arrowD 1 →
      (∀ a ∈ blocks 1, ∀ i < arrowD.of a, (b.at a i).Finite ∧ |(b.at a i).toRat| ≤ hugeRat) →
      ∃ x, f.solveInPlace b = .ok x ∧ ∀ a ∈ blocks 1, ∀ i < arrowD.of a, (x.at a i).Finite := by
  obtain ⟨T, hT, hc⟩ : ∃ T, arrowheadTypes arrowS = .ok T ∧
      ∀ a ∈ blocks 1, ∀ i < arrowD.of a, T.rowEntries 1 a i ≤ 5 ∧ T.colEntries 1 a i < 4 := by
    have h : (do
        let T ← arrowheadTypes arrowS
        return decide (∀ a ∈ blocks 1, ∀ i < arrowD.of a, T.rowEntries 1 a i ≤ 5 ∧ T.colEntries 1 a i < 4)) =
        (.ok true : Res Bool) := by decide +kernel
    obtain ⟨T, hT, h⟩ := bind_eq_ok.mp h
    exact ⟨T, hT, of_decide_eq_true (Except.ok.inj h)⟩
  obtain ⟨f, h1, -, h2⟩ := C88_definite .binary64 .x87 Format.double_x87 (by decide) someKept arrowS arrowD arrowS_valid T 1 _
    (C21_constructible arrowS arrowD T hT 1 0)
    keptArrow ((arrowM_fits hT).map _) .upLooking 5 (fun a ha i hi => (hc a ha i hi).1) 4 (fun a ha i hi => (hc a ha i hi).2)
    _ 7 (1 / 20) 12 _ hugeNorm kept_ample' kept_ampleSolve'
    (by decide +kernel) (by decide +kernel) keptArrow_posDef regularizationNone (fun _ _ _ _ => rfl)
  refine ⟨T, f, hT, h1, fun b hb hbf => ?_⟩
  obtain ⟨x, hx, -, h3, -⟩ := h2 b hb (fun a ha i hi => (hbf a ha i hi).1) (by
    have h4 := sum_sq_le (s := positions arrowD 1) fun k hk => (hbf _ (mem_positions.mp hk).1 _ (mem_positions.mp hk).2).2
    have h5 : (positions arrowD 1).card * hugeRat ^ 2 + (positions arrowD 1).card * ((2 + 2 * 7 * (1 / 20)) *
        (2 * ((5 : Nat) + (4 : Nat)) * (2 ^ (Format.binary64.minExp + 1))) ^ 2) ≤ hugeNorm ^ 2 := by
      decide +kernel
    exact (add_le_add_left h4 _).trans h5)
  exact ⟨x, hx, h3⟩

end Ctldl
