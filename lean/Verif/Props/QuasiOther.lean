import Verif.Lemmas.Contracted
import Verif.Props.Environment
import Verif.Props.Extended
import Verif.Props.QuasiRangeSolve

/-! # C91: quasidefinite systems, whatever compiler and environment do

Factorizing and solving with quasidefinite matrices does not overflow and is accurate if products are contracted, if
intermediate results have extended precision, and in all floating point environments. -/

namespace Ctldl

open Finset

/-! ### Whatever products are contracted -/

/-- C91: a repeating block matrix which is quasidefinite by a margin is factorized, with pivots of the right signs, and
systems with it are solved, without overflow and accurately, whatever products are contracted.
All conditions are on the matrix, the right hand side and the arithmetic, as in C75 and C76. -/
theorem C91_contracted (fmt : Format) (C : Contraction) (s : ArrowheadSparsity)
    (d : Dims) (hs : s.Valid d) (T : ArrowheadTypes) (N : Nat) (f : ArrowheadFactor (Contracted fmt C))
    (hf : f.Declared s T d N) (m : ArrowheadMatrix (Contracted fmt C)) (hm : m.Fits s T d N) (method : Method)
    (n : Nat) (hn : ∀ a ∈ blocks N, ∀ i < d.of a, T.rowEntries N a i ≤ n)
    (c : Nat) (hc : ∀ a ∈ blocks N, ∀ j < d.of a, T.colEntries N a j < c)
    (Ω ρ μ β ε q B Y X : ℚ) (hR : (Contracted.rounding fmt C).AmpleQuasi n c (positions d N).card Ω ρ μ β ε)
    (hS : (Contracted.rounding fmt C).AmpleQuasiSolve n c (positions d N).card Ω μ β q B Y X)
    (hfin : ∀ k ∈ positions d N, ∀ l ∈ positions d N, (m.assembled N k l).Finite ∧ (m.assembled N k l).Stored)
    (hρ : ∀ k ∈ positions d N, ∑ l ∈ positions d N, |(m.map Contracted.toRat).assembled N k l| ≤ ρ)
    (S : (Σ _ : Blk, Nat) → Prop) (hq : QuasiDef (positions d N) S (2 * μ) ((m.map Contracted.toRat).assembled N))
    (reg : Contracted fmt C → Nat → Contracted fmt C) (hreg : ∀ x i, (x).Finite → μ < |x.toRat| → reg x i = x) :
    ∃ f', f.factorize d.tridiag d.link d.outer m reg method = .ok f' ∧
      (∀ a ∈ blocks N, ∀ i < d.of a, (f'.pivotAt a i).Finite ∧
        (S ⟨a, permAt (s.perm a) i⟩ → μ < (f'.pivotAt a i).toRat) ∧
        (¬ S ⟨a, permAt (s.perm a) i⟩ → (f'.pivotAt a i).toRat < -μ) ∧ |(f'.pivotAt a i).toRat| ≤ β) ∧
      ∀ b : ArrowheadVector (Contracted fmt C), b.OfSize d N →
        (∀ a ∈ blocks N, ∀ i < d.of a, (b.at a i).Finite ∧ (b.at a i).Stored ∧ |(b.at a i).toRat| ≤ B) →
        ∃ x, f'.solveInPlace b = .ok x ∧ x.OfSize d N ∧
          (∀ a ∈ blocks N, ∀ i < d.of a, (x.at a i).Finite ∧ |(x.at a i).toRat| ≤ X) ∧
          ∀ ξ, (∀ a ∈ blocks N, ∀ i < d.of a, |(x.at a i).toRat| ≤ ξ) →
            (∀ k ∈ positions d N,
              |(b.at k.1 k.2).toRat - ∑ l ∈ positions d N, (m.map Contracted.toRat).assembled N k l * (x.at l.1 l.2).toRat| ≤
                (Contracted.rounding fmt C).quasiResidual n c (positions d N).card μ β ε ξ) ∧
            ∀ z : (Σ _ : Blk, Nat) → ℚ,
              (∀ k ∈ positions d N, ∑ l ∈ positions d N, (m.map Contracted.toRat).assembled N k l * z l = (b.at k.1 k.2).toRat) →
              (2 * μ) ^ 2 * ∑ k ∈ positions d N, ((x.at k.1 k.2).toRat - z k) ^ 2 ≤
                (positions d N).card * (Contracted.rounding fmt C).quasiResidual n c (positions d N).card μ β ε ξ ^ 2 := by
  obtain ⟨t, h1, h2, -⟩ := C75_repeating (Contracted.rounding fmt C) s d hs T N _ hf m hm method n hn c hc Ω ρ μ β ε hR
    hfin hρ S hq reg hreg
  obtain ⟨t', h1', h3⟩ := C76_repeating (Contracted.rounding fmt C) s d hs T N _ hf m hm method n hn c hc Ω ρ μ β ε q B Y X hR hS
    hfin hρ S hq reg hreg
  rw [h1] at h1'
  cases h1'
  exact ⟨t, h1, h2, h3⟩

/-- C91: the same for single matrices. -/
theorem C91_contracted_single (fmt : Format) (C : Contraction) (s : Sparsity) (p : List Nat)
    (hv : ValidSparsity s p) (f : DiagFactor (Contracted fmt C)) (hf : f.Declared s p) (m : MatIn (Contracted fmt C)) (hm : m.Fits s p)
    (method : Method) (n : Nat) (hn : ∀ i < s.numRows, f.sparsity.rowEntries i ≤ n)
    (c : Nat) (hc : ∀ j < s.numRows, f.sparsity.colEntries j < c)
    (Ω ρ μ β ε q B Y X : ℚ) (hR : (Contracted.rounding fmt C).AmpleQuasi n c s.numRows Ω ρ μ β ε)
    (hS : (Contracted.rounding fmt C).AmpleQuasiSolve n c s.numRows Ω μ β q B Y X)
    (hfin : ∀ i < s.numRows, ∀ j < s.numRows, (m.sym i j).Finite ∧ (m.sym i j).Stored)
    (hρ : ∀ i < s.numRows, ∑ j ∈ range s.numRows, |(m.sym i j).toRat| ≤ ρ)
    (S : Nat → Prop) (hq : QuasiDef (range s.numRows) S (2 * μ) fun i j => (m.sym i j).toRat)
    (reg : Contracted fmt C → Nat → Contracted fmt C) (hreg : ∀ x i, (x).Finite → μ < |x.toRat| → reg x i = x) :
    ∃ f', f.factorize m reg method = .ok f' ∧
      (∀ i < s.numRows, (f'.pivot i).Finite ∧ (S (permAt p i) → μ < (f'.pivot i).toRat) ∧
        (¬ S (permAt p i) → (f'.pivot i).toRat < -μ) ∧ |(f'.pivot i).toRat| ≤ β) ∧
      ∀ b : List (Contracted fmt C), b.length = s.numRows →
        (∀ i < s.numRows, (b.getD i 0).Finite ∧ (b.getD i 0).Stored ∧ |(b.getD i 0).toRat| ≤ B) →
        ∃ x, f'.solveInPlace b = .ok x ∧ x.length = s.numRows ∧
          (∀ i < s.numRows, (x.getD i 0).Finite ∧ |(x.getD i 0).toRat| ≤ X) ∧
          ∀ ξ, (∀ i < s.numRows, |(x.getD i 0).toRat| ≤ ξ) →
            (∀ i < s.numRows, |(b.getD i 0).toRat - ∑ j ∈ range s.numRows, (m.sym i j).toRat * (x.getD j 0).toRat| ≤
              (Contracted.rounding fmt C).quasiResidual n c s.numRows μ β ε ξ) ∧
            ∀ z : Nat → ℚ, (∀ i < s.numRows, ∑ j ∈ range s.numRows, (m.sym i j).toRat * z j = (b.getD i 0).toRat) →
              (2 * μ) ^ 2 * ∑ i ∈ range s.numRows, ((x.getD i 0).toRat - z i) ^ 2 ≤
                s.numRows * (Contracted.rounding fmt C).quasiResidual n c s.numRows μ β ε ξ ^ 2 := by
  obtain ⟨t, h1, h2, -⟩ := C75_single (Contracted.rounding fmt C) s p hv _ hf m hm method n hn c hc Ω ρ μ β ε hR
    hfin hρ S hq reg hreg
  obtain ⟨t', h1', h3⟩ := C76_single (Contracted.rounding fmt C) s p hv _ hf m hm method n hn c hc Ω ρ μ β ε q B Y X hR hS
    hfin hρ S hq reg hreg
  rw [h1] at h1'
  cases h1'
  exact ⟨t, h1, h2, h3⟩

/-! ### Whatever intermediate results have extended precision -/

/-- C91: a repeating block matrix which is quasidefinite by a margin is factorized, with pivots of the right signs, and
systems with it are solved, without overflow and accurately, whatever intermediate results have extended precision.
All conditions are on the matrix, the right hand side and the arithmetic, as in C75 and C76. -/
theorem C91_extended (fmt ext : Format) (hw : fmt.Wider ext) (hp : 2 ≤ fmt.precision) (C : Excess) (s : ArrowheadSparsity)
    (d : Dims) (hs : s.Valid d) (T : ArrowheadTypes) (N : Nat) (f : ArrowheadFactor (Extended fmt ext C))
    (hf : f.Declared s T d N) (m : ArrowheadMatrix (Extended fmt ext C)) (hm : m.Fits s T d N) (method : Method)
    (n : Nat) (hn : ∀ a ∈ blocks N, ∀ i < d.of a, T.rowEntries N a i ≤ n)
    (c : Nat) (hc : ∀ a ∈ blocks N, ∀ j < d.of a, T.colEntries N a j < c)
    (Ω ρ μ β ε q B Y X : ℚ) (hR : (Extended.rounding fmt ext C hw hp).AmpleQuasi n c (positions d N).card Ω ρ μ β ε)
    (hS : (Extended.rounding fmt ext C hw hp).AmpleQuasiSolve n c (positions d N).card Ω μ β q B Y X)
    (hfin : ∀ k ∈ positions d N, ∀ l ∈ positions d N, (m.assembled N k l).Finite)
    (hρ : ∀ k ∈ positions d N, ∑ l ∈ positions d N, |(m.map Extended.toRat).assembled N k l| ≤ ρ)
    (S : (Σ _ : Blk, Nat) → Prop) (hq : QuasiDef (positions d N) S (2 * μ) ((m.map Extended.toRat).assembled N))
    (reg : Extended fmt ext C → Nat → Extended fmt ext C) (hreg : ∀ x i, (x).Finite → μ < |x.toRat| → reg x i = x) :
    ∃ f', f.factorize d.tridiag d.link d.outer m reg method = .ok f' ∧
      (∀ a ∈ blocks N, ∀ i < d.of a, (f'.pivotAt a i).Finite ∧
        (S ⟨a, permAt (s.perm a) i⟩ → μ < (f'.pivotAt a i).toRat) ∧
        (¬ S ⟨a, permAt (s.perm a) i⟩ → (f'.pivotAt a i).toRat < -μ) ∧ |(f'.pivotAt a i).toRat| ≤ β) ∧
      ∀ b : ArrowheadVector (Extended fmt ext C), b.OfSize d N →
        (∀ a ∈ blocks N, ∀ i < d.of a, (b.at a i).Finite ∧ |(b.at a i).toRat| ≤ B) →
        ∃ x, f'.solveInPlace b = .ok x ∧ x.OfSize d N ∧
          (∀ a ∈ blocks N, ∀ i < d.of a, (x.at a i).Finite ∧ |(x.at a i).toRat| ≤ X) ∧
          ∀ ξ, (∀ a ∈ blocks N, ∀ i < d.of a, |(x.at a i).toRat| ≤ ξ) →
            (∀ k ∈ positions d N,
              |(b.at k.1 k.2).toRat - ∑ l ∈ positions d N, (m.map Extended.toRat).assembled N k l * (x.at l.1 l.2).toRat| ≤
                (Extended.rounding fmt ext C hw hp).quasiResidual n c (positions d N).card μ β ε ξ) ∧
            ∀ z : (Σ _ : Blk, Nat) → ℚ,
              (∀ k ∈ positions d N, ∑ l ∈ positions d N, (m.map Extended.toRat).assembled N k l * z l = (b.at k.1 k.2).toRat) →
              (2 * μ) ^ 2 * ∑ k ∈ positions d N, ((x.at k.1 k.2).toRat - z k) ^ 2 ≤
                (positions d N).card * (Extended.rounding fmt ext C hw hp).quasiResidual n c (positions d N).card μ β ε ξ ^ 2 := by
  obtain ⟨t, h1, h2, -⟩ := C75_repeating (Extended.rounding fmt ext C hw hp) s d hs T N _ hf m hm method n hn c hc Ω ρ μ β ε hR
    (fun k hk l hl => ⟨hfin k hk l hl, trivial⟩) hρ S hq reg hreg
  obtain ⟨t', h1', h3⟩ := C76_repeating (Extended.rounding fmt ext C hw hp) s d hs T N _ hf m hm method n hn c hc Ω ρ μ β ε q B Y X hR hS
    (fun k hk l hl => ⟨hfin k hk l hl, trivial⟩) hρ S hq reg hreg
  rw [h1] at h1'
  cases h1'
  exact ⟨t, h1, h2, fun b hb hbf => h3 b hb fun a ha i hi => ⟨(hbf a ha i hi).1, trivial, (hbf a ha i hi).2⟩⟩

/-- C91: the same for single matrices. -/
theorem C91_extended_single (fmt ext : Format) (hw : fmt.Wider ext) (hp : 2 ≤ fmt.precision) (C : Excess) (s : Sparsity) (p : List Nat)
    (hv : ValidSparsity s p) (f : DiagFactor (Extended fmt ext C)) (hf : f.Declared s p) (m : MatIn (Extended fmt ext C)) (hm : m.Fits s p)
    (method : Method) (n : Nat) (hn : ∀ i < s.numRows, f.sparsity.rowEntries i ≤ n)
    (c : Nat) (hc : ∀ j < s.numRows, f.sparsity.colEntries j < c)
    (Ω ρ μ β ε q B Y X : ℚ) (hR : (Extended.rounding fmt ext C hw hp).AmpleQuasi n c s.numRows Ω ρ μ β ε)
    (hS : (Extended.rounding fmt ext C hw hp).AmpleQuasiSolve n c s.numRows Ω μ β q B Y X)
    (hfin : ∀ i < s.numRows, ∀ j < s.numRows, (m.sym i j).Finite)
    (hρ : ∀ i < s.numRows, ∑ j ∈ range s.numRows, |(m.sym i j).toRat| ≤ ρ)
    (S : Nat → Prop) (hq : QuasiDef (range s.numRows) S (2 * μ) fun i j => (m.sym i j).toRat)
    (reg : Extended fmt ext C → Nat → Extended fmt ext C) (hreg : ∀ x i, (x).Finite → μ < |x.toRat| → reg x i = x) :
    ∃ f', f.factorize m reg method = .ok f' ∧
      (∀ i < s.numRows, (f'.pivot i).Finite ∧ (S (permAt p i) → μ < (f'.pivot i).toRat) ∧
        (¬ S (permAt p i) → (f'.pivot i).toRat < -μ) ∧ |(f'.pivot i).toRat| ≤ β) ∧
      ∀ b : List (Extended fmt ext C), b.length = s.numRows →
        (∀ i < s.numRows, (b.getD i 0).Finite ∧ |(b.getD i 0).toRat| ≤ B) →
        ∃ x, f'.solveInPlace b = .ok x ∧ x.length = s.numRows ∧
          (∀ i < s.numRows, (x.getD i 0).Finite ∧ |(x.getD i 0).toRat| ≤ X) ∧
          ∀ ξ, (∀ i < s.numRows, |(x.getD i 0).toRat| ≤ ξ) →
            (∀ i < s.numRows, |(b.getD i 0).toRat - ∑ j ∈ range s.numRows, (m.sym i j).toRat * (x.getD j 0).toRat| ≤
              (Extended.rounding fmt ext C hw hp).quasiResidual n c s.numRows μ β ε ξ) ∧
            ∀ z : Nat → ℚ, (∀ i < s.numRows, ∑ j ∈ range s.numRows, (m.sym i j).toRat * z j = (b.getD i 0).toRat) →
              (2 * μ) ^ 2 * ∑ i ∈ range s.numRows, ((x.getD i 0).toRat - z i) ^ 2 ≤
                s.numRows * (Extended.rounding fmt ext C hw hp).quasiResidual n c s.numRows μ β ε ξ ^ 2 := by
  obtain ⟨t, h1, h2, -⟩ := C75_single (Extended.rounding fmt ext C hw hp) s p hv _ hf m hm method n hn c hc Ω ρ μ β ε hR
    (fun k hk l hl => ⟨hfin k hk l hl, trivial⟩) hρ S hq reg hreg
  obtain ⟨t', h1', h3⟩ := C76_single (Extended.rounding fmt ext C hw hp) s p hv _ hf m hm method n hn c hc Ω ρ μ β ε q B Y X hR hS
    (fun k hk l hl => ⟨hfin k hk l hl, trivial⟩) hρ S hq reg hreg
  rw [h1] at h1'
  cases h1'
  exact ⟨t, h1, h2, fun b hb hbf => h3 b hb fun i hi => ⟨(hbf i hi).1, trivial, (hbf i hi).2⟩⟩

/-! ### In all floating point environments -/

/-- C91: a repeating block matrix which is quasidefinite by a margin is factorized, with pivots of the right signs, and
systems with it are solved, without overflow and accurately, in any rounding direction, and if subnormal numbers are
replaced by zero.
All conditions are on the matrix, the right hand side and the arithmetic, as in C75 and C76. -/
theorem C91_environment (fmt : Format) (hp : 2 ≤ fmt.precision) (e : Environment) (s : ArrowheadSparsity)
    (d : Dims) (hs : s.Valid d) (T : ArrowheadTypes) (N : Nat) (f : ArrowheadFactor (Directed fmt e))
    (hf : f.Declared s T d N) (m : ArrowheadMatrix (Directed fmt e)) (hm : m.Fits s T d N) (method : Method)
    (n : Nat) (hn : ∀ a ∈ blocks N, ∀ i < d.of a, T.rowEntries N a i ≤ n)
    (c : Nat) (hc : ∀ a ∈ blocks N, ∀ j < d.of a, T.colEntries N a j < c)
    (Ω ρ μ β ε q B Y X : ℚ) (hR : (Flagged.rounding fmt e hp).AmpleQuasi n c (positions d N).card Ω ρ μ β ε)
    (hS : (Flagged.rounding fmt e hp).AmpleQuasiSolve n c (positions d N).card Ω μ β q B Y X)
    (hfin : ∀ k ∈ positions d N, ∀ l ∈ positions d N, (m.assembled N k l).value.Finite)
    (hρ : ∀ k ∈ positions d N, ∑ l ∈ positions d N, |(m.map Directed.toRat).assembled N k l| ≤ ρ)
    (S : (Σ _ : Blk, Nat) → Prop) (hq : QuasiDef (positions d N) S (2 * μ) ((m.map Directed.toRat).assembled N))
    (reg : Directed fmt e → Nat → Directed fmt e) (hreg : ∀ x i, (x).value.Finite → μ < |x.toRat| → reg x i = x) :
    ∃ f', f.factorize d.tridiag d.link d.outer m reg method = .ok f' ∧
      (∀ a ∈ blocks N, ∀ i < d.of a, (f'.pivotAt a i).value.Finite ∧
        (S ⟨a, permAt (s.perm a) i⟩ → μ < (f'.pivotAt a i).toRat) ∧
        (¬ S ⟨a, permAt (s.perm a) i⟩ → (f'.pivotAt a i).toRat < -μ) ∧ |(f'.pivotAt a i).toRat| ≤ β) ∧
      ∀ b : ArrowheadVector (Directed fmt e), b.OfSize d N →
        (∀ a ∈ blocks N, ∀ i < d.of a, (b.at a i).value.Finite ∧ |(b.at a i).toRat| ≤ B) →
        ∃ x, f'.solveInPlace b = .ok x ∧ x.OfSize d N ∧
          (∀ a ∈ blocks N, ∀ i < d.of a, (x.at a i).value.Finite ∧ |(x.at a i).toRat| ≤ X) ∧
          ∀ ξ, (∀ a ∈ blocks N, ∀ i < d.of a, |(x.at a i).toRat| ≤ ξ) →
            (∀ k ∈ positions d N,
              |(b.at k.1 k.2).toRat - ∑ l ∈ positions d N, (m.map Directed.toRat).assembled N k l * (x.at l.1 l.2).toRat| ≤
                (Flagged.rounding fmt e hp).quasiResidual n c (positions d N).card μ β ε ξ) ∧
            ∀ z : (Σ _ : Blk, Nat) → ℚ,
              (∀ k ∈ positions d N, ∑ l ∈ positions d N, (m.map Directed.toRat).assembled N k l * z l = (b.at k.1 k.2).toRat) →
              (2 * μ) ^ 2 * ∑ k ∈ positions d N, ((x.at k.1 k.2).toRat - z k) ^ 2 ≤
                (positions d N).card * (Flagged.rounding fmt e hp).quasiResidual n c (positions d N).card μ β ε ξ ^ 2 := by
  have hmv : (m.map Flagged.given).map (Flagged.rounding fmt e hp).v = m.map Directed.toRat := by
    rw [ArrowheadMatrix.map_map]
    rfl
  have hfin' : ∀ k ∈ positions d N, ∀ l ∈ positions d N, (Flagged.rounding fmt e hp).fin
      ((m.map Flagged.given).assembled N k l) ∧ (Flagged.rounding fmt e hp).stored ((m.map Flagged.given).assembled N k l) :=
    fun k hk l hl => ⟨by
      rw [ArrowheadMatrix.assembled, matrix_symElement_map (g := Flagged.given) rfl]
      exact ⟨hfin k hk l hl, rfl⟩, trivial⟩
  have hreg' : ∀ x i, (Flagged.rounding fmt e hp).fin x → μ < |(Flagged.rounding fmt e hp).v x| → Flagged.lift reg x i = x :=
    fun x i h1 h2 => by
      have h3 := hreg x.value i h1.1 h2
      rw [Flagged.lift, h3]
  rw [← hmv] at hρ hq
  obtain ⟨t, h1, h2, -⟩ := C75_repeating (Flagged.rounding fmt e hp) s d hs T N _ (hf.map _) (m.map Flagged.given)
    (hm.map _) method n hn c hc Ω ρ μ β ε hR hfin' hρ S hq (Flagged.lift reg) hreg'
  obtain ⟨t', h1', h3⟩ := C76_repeating (Flagged.rounding fmt e hp) s d hs T N _ (hf.map _) (m.map Flagged.given)
    (hm.map _) method n hn c hc Ω ρ μ β ε q B Y X hR hS hfin' hρ S hq (Flagged.lift reg) hreg'
  rw [h1] at h1'
  cases h1'
  refine ⟨t.map Flagged.value, flagged_factorize h1, fun a ha i hi => ?_, fun b hb hbf => ?_⟩
  · rw [pivotAt_map (g := Flagged.value) rfl]
    exact ⟨(h2 a ha i hi).1.1, (h2 a ha i hi).2⟩
  have hat : ∀ a i, (b.map Flagged.given).at a i = Flagged.given (b.at a i) := fun a i =>
    ArrowheadVector.at_map (g := Flagged.given) rfl b a i
  obtain ⟨x, hx, x1, x2, x3⟩ := h3 (b.map Flagged.given) (ofSize_map _ hb)
    (fun a ha i hi => by rw [hat]; exact ⟨⟨(hbf a ha i hi).1, rfl⟩, trivial, (hbf a ha i hi).2⟩)
  have hat' : ∀ a i, (x.map Flagged.value).at a i = (x.at a i).value := fun a i =>
    ArrowheadVector.at_map (g := Flagged.value) rfl x a i
  refine ⟨x.map Flagged.value, flagged_solve hx, ofSize_map _ x1, fun a ha i hi => ?_, fun ξ hξ => ?_⟩
  · rw [hat']
    exact ⟨(x2 a ha i hi).1.1, (x2 a ha i hi).2⟩
  · simp only [hat'] at hξ ⊢
    have h5 := x3 ξ hξ
    rw [hmv] at h5
    simp only [hat] at h5
    exact h5

/-- C91: the same for single matrices. -/
theorem C91_environment_single (fmt : Format) (hp : 2 ≤ fmt.precision) (e : Environment) (s : Sparsity) (p : List Nat)
    (hv : ValidSparsity s p) (f : DiagFactor (Directed fmt e)) (hf : f.Declared s p) (m : MatIn (Directed fmt e)) (hm : m.Fits s p)
    (method : Method) (n : Nat) (hn : ∀ i < s.numRows, f.sparsity.rowEntries i ≤ n)
    (c : Nat) (hc : ∀ j < s.numRows, f.sparsity.colEntries j < c)
    (Ω ρ μ β ε q B Y X : ℚ) (hR : (Flagged.rounding fmt e hp).AmpleQuasi n c s.numRows Ω ρ μ β ε)
    (hS : (Flagged.rounding fmt e hp).AmpleQuasiSolve n c s.numRows Ω μ β q B Y X)
    (hfin : ∀ i < s.numRows, ∀ j < s.numRows, (m.sym i j).value.Finite)
    (hρ : ∀ i < s.numRows, ∑ j ∈ range s.numRows, |(m.sym i j).toRat| ≤ ρ)
    (S : Nat → Prop) (hq : QuasiDef (range s.numRows) S (2 * μ) fun i j => (m.sym i j).toRat)
    (reg : Directed fmt e → Nat → Directed fmt e) (hreg : ∀ x i, (x).value.Finite → μ < |x.toRat| → reg x i = x) :
    ∃ f', f.factorize m reg method = .ok f' ∧
      (∀ i < s.numRows, (f'.pivot i).value.Finite ∧ (S (permAt p i) → μ < (f'.pivot i).toRat) ∧
        (¬ S (permAt p i) → (f'.pivot i).toRat < -μ) ∧ |(f'.pivot i).toRat| ≤ β) ∧
      ∀ b : List (Directed fmt e), b.length = s.numRows →
        (∀ i < s.numRows, (b.getD i 0).value.Finite ∧ |(b.getD i 0).toRat| ≤ B) →
        ∃ x, f'.solveInPlace b = .ok x ∧ x.length = s.numRows ∧
          (∀ i < s.numRows, (x.getD i 0).value.Finite ∧ |(x.getD i 0).toRat| ≤ X) ∧
          ∀ ξ, (∀ i < s.numRows, |(x.getD i 0).toRat| ≤ ξ) →
            (∀ i < s.numRows, |(b.getD i 0).toRat - ∑ j ∈ range s.numRows, (m.sym i j).toRat * (x.getD j 0).toRat| ≤
              (Flagged.rounding fmt e hp).quasiResidual n c s.numRows μ β ε ξ) ∧
            ∀ z : Nat → ℚ, (∀ i < s.numRows, ∑ j ∈ range s.numRows, (m.sym i j).toRat * z j = (b.getD i 0).toRat) →
              (2 * μ) ^ 2 * ∑ i ∈ range s.numRows, ((x.getD i 0).toRat - z i) ^ 2 ≤
                s.numRows * (Flagged.rounding fmt e hp).quasiResidual n c s.numRows μ β ε ξ ^ 2 := by
  have hsym : ∀ i j, (m.map Flagged.given).sym i j = Flagged.given (m.sym i j) := fun i j => sym_map rfl m i j
  have hfin' : ∀ i < s.numRows, ∀ j < s.numRows, (Flagged.rounding fmt e hp).fin ((m.map Flagged.given).sym i j) ∧
      (Flagged.rounding fmt e hp).stored ((m.map Flagged.given).sym i j) := fun i hi j hj => ⟨by
      rw [hsym]
      exact ⟨hfin i hi j hj, rfl⟩, trivial⟩
  have hρ' : ∀ i < s.numRows, ∑ j ∈ range s.numRows,
      |(Flagged.rounding fmt e hp).v ((m.map Flagged.given).sym i j)| ≤ ρ := fun i hi => by
    simp only [hsym]
    exact hρ i hi
  have hreg' : ∀ x i, (Flagged.rounding fmt e hp).fin x → μ < |(Flagged.rounding fmt e hp).v x| → Flagged.lift reg x i = x :=
    fun x i h1 h2 => by
      have h3 := hreg x.value i h1.1 h2
      rw [Flagged.lift, h3]
  have hq' : QuasiDef (range s.numRows) S (2 * μ) fun i j =>
      (Flagged.rounding fmt e hp).v ((m.map Flagged.given).sym i j) := by
    simp only [hsym]
    exact hq
  have hd : (f.map Flagged.given).Declared s p := hf.map' _
  obtain ⟨t, h1, h2, -⟩ := C75_single (Flagged.rounding fmt e hp) s p hv _ hd (m.map Flagged.given)
    (hm.map' _) method n hn c hc Ω ρ μ β ε hR hfin' hρ' S hq' (Flagged.lift reg) hreg'
  obtain ⟨t', h1', h3⟩ := C76_single (Flagged.rounding fmt e hp) s p hv _ hd (m.map Flagged.given)
    (hm.map' _) method n hn c hc Ω ρ μ β ε q B Y X hR hS hfin' hρ' S hq' (Flagged.lift reg) hreg'
  rw [h1] at h1'
  cases h1'
  refine ⟨t.map Flagged.value, flagged_factorize_single h1, fun i hi => ?_, fun b hb hbf => ?_⟩
  · rw [show (t.map Flagged.value).pivot i = (t.pivot i).value from getD_value t.D i]
    exact ⟨(h2 i hi).1.1, (h2 i hi).2⟩
  obtain ⟨x, hx, x1, x2, x3⟩ := h3 (b.map Flagged.given) (by rw [List.length_map, hb])
    (fun i hi => by rw [getD_given]; exact ⟨⟨(hbf i hi).1, rfl⟩, trivial, (hbf i hi).2⟩)
  refine ⟨x.map Flagged.value, flagged_solve_single hx, by rw [List.length_map, x1], fun i hi => ?_, fun ξ hξ => ?_⟩
  · rw [getD_value]
    exact ⟨(x2 i hi).1.1, (x2 i hi).2⟩
  · simp only [getD_value] at hξ ⊢
    have h5 := x3 ξ hξ
    simp only [hsym, getD_given] at h5
    exact h5

/-! ### Cases meeting the hypotheses

No part of the factorizations or solutions is evaluated: they hold for all right hand sides of doubles up to `2 ^ 940`. -/

/-- The number of entries of the factor of the examples. -/
private theorem arrow_entries : ∃ T, arrowheadTypes arrowS = .ok T ∧
    ∀ a ∈ blocks 1, ∀ i < arrowD.of a, T.rowEntries 1 a i ≤ 5 ∧ T.colEntries 1 a i < 4 := by
  have h : (do
      let T ← arrowheadTypes arrowS
      return decide (∀ a ∈ blocks 1, ∀ i < arrowD.of a, T.rowEntries 1 a i ≤ 5 ∧ T.colEntries 1 a i < 4)) =
      (.ok true : Res Bool) := by decide +kernel
  obtain ⟨T, hT, h⟩ := bind_eq_ok.mp h
  exact ⟨T, hT, of_decide_eq_true (Except.ok.inj h)⟩

/-- The arithmetic of the example of C50, in which some products are contracted and others are not. -/
abbrev fusedR : Rounding Fused ℚ := Contracted.rounding .binary64 someFused

/-- A number of the example. -/
def fused (x : ℚ) : Fused := Contracted.ofTagged (tagged x)

instance (x : Fused) : Decidable x.Stored :=
  match x with
  | .val _ _ => isTrue trivial
  | .prod _ _ _ => isFalse fun h => h

private theorem fused_ampleQuasi :
    fusedR.AmpleQuasi 2 3 3 (2 ^ (1023 : Int)) 8 (1 / 2) 768 (2 ^ (-990 : Int)) where
  range := Contracted.range (fmt := .binary64) (by decide)
  pos := by norm_num
  bound := by norm_num
  small := by decide +kernel
  gamma := by decide +kernel
  accuracy := by decide +kernel
  max := by decide +kernel
  max_div := by decide +kernel

private theorem fused_ampleQuasiSolve :
    fusedR.AmpleQuasiSolve 2 3 3 (2 ^ (1023 : Int)) (1 / 2) 768 2 quasiRhs (2 ^ (953 : Int)) (2 ^ (971 : Int)) where
  gamma := by decide +kernel
  nonneg := by decide +kernel
  root := by decide +kernel
  condition := by decide +kernel
  forward := by decide +kernel
  backward := by decide +kernel
  max := by decide +kernel
  max_back := by decide +kernel

private theorem fused_ampleQuasi' :
    fusedR.AmpleQuasi 5 4 (positions arrowD 1).card (2 ^ (1023 : Int)) 9 (1 / 4) 1944 (2 ^ (-990 : Int)) where
  range := Contracted.range (fmt := .binary64) (by decide)
  pos := by norm_num
  bound := by norm_num
  small := by decide +kernel
  gamma := by decide +kernel
  accuracy := by decide +kernel
  max := by decide +kernel
  max_div := by decide +kernel

private theorem fused_ampleQuasiSolve' :
    fusedR.AmpleQuasiSolve 5 4 (positions arrowD 1).card (2 ^ (1023 : Int)) (1 / 4) 1944 3 quasiRhs (2 ^ (956 : Int)) (2 ^ (978 : Int)) where
  gamma := by decide +kernel
  nonneg := by decide +kernel
  root := by decide +kernel
  condition := by decide +kernel
  forward := by decide +kernel
  backward := by decide +kernel
  max := by decide +kernel
  max_back := by decide +kernel

/-- With contraction: a matrix. -/
def fusedQuasiM : MatIn (Fused) := quasiM.map fused

/-- With contraction: a repeating block matrix. -/
def fusedQuasiArrow : ArrowheadMatrix (Fused) := quasiArrowM.map fused

example : ∃ f', (witnessF.map fused).factorize fusedQuasiM regularizationNone .upLooking = .ok f' ∧
    1 / 2 < (f'.pivot 0).toRat ∧ (f'.pivot 1).toRat < -(1 / 2) ∧ 1 / 2 < (f'.pivot 2).toRat ∧
    ∀ b : List (Fused), b.length = 3 →
      (∀ i < 3, (b.getD i 0).Finite ∧ (b.getD i 0).Stored ∧ |(b.getD i 0).toRat| ≤ quasiRhs) →
      ∃ x, f'.solveInPlace b = .ok x ∧ ∀ i < 3, (x.getD i 0).Finite := by
  have hc : ∀ i < 3, witnessF.sparsity.rowEntries i ≤ 2 ∧ witnessF.sparsity.colEntries i < 3 := by decide
  have hv : ∀ i < 3, ∀ j < 3, (fusedQuasiM.sym i j).toRat = quasiM.sym i j := by decide +kernel
  have hq : QuasiDef (range 3) (fun i => i < 2) (2 * (1 / 2)) fun i j => (fusedQuasiM.sym i j).toRat := by
    rw [show (2 * (1 / 2 : ℚ)) = 1 by norm_num]
    refine ⟨fun x hx h0 => ?_, fun x hx h0 => ?_⟩
    · have := quasiM_quasiDef.1 x hx h0
      refine this.trans_le (le_of_eq (sum_congr rfl fun i hi => sum_congr rfl fun j hj => ?_))
      beta_reduce
      rw [hv i (mem_range.mp hi) j (mem_range.mp hj)]
    · have := quasiM_quasiDef.2 x hx h0
      refine lt_of_le_of_lt (le_of_eq (sum_congr rfl fun i hi => sum_congr rfl fun j hj => ?_)) this
      beta_reduce
      rw [hv i (mem_range.mp hi) j (mem_range.mp hj)]
  have hr : ∀ i < 3, ∑ j ∈ range 3, |(fusedQuasiM.sym i j).toRat| ≤ 8 := by decide +kernel
  obtain ⟨f', h1, h2, h3⟩ := C91_contracted_single .binary64 someFused witnessS [0, 2, 1] witness_valid _
    (show (witnessF.map fused).Declared witnessS [0, 2, 1] from
      ⟨witness_declared.pattern, rfl, rfl, rfl⟩) fusedQuasiM
    ⟨rfl, witness_valid.inRange, rfl, rfl, fun i j h => .base h h.1⟩ .upLooking 2 (fun i hi => (hc i hi).1) 3
    (fun i hi => (hc i hi).2) _ 8 (1 / 2) 768 _ 2 quasiRhs _ _ fused_ampleQuasi fused_ampleQuasiSolve
    (by
      have : ∀ i < 3, ∀ j < 3, (fusedQuasiM.sym i j).Finite ∧ (fusedQuasiM.sym i j).Stored := by decide +kernel
      exact this)
    hr _ hq regularizationNone (fun _ _ _ _ => rfl)
  refine ⟨f', h1, (h2 0 (by decide)).2.1 (by decide), (h2 1 (by decide)).2.2.1 (by decide), (h2 2 (by decide)).2.1 (by decide),
    fun b hb hb' => ?_⟩
  obtain ⟨x, hx, -, h4, -⟩ := h3 b hb hb'
  exact ⟨x, hx, fun i hi => (h4 i hi).1⟩

example : ∃ T f, arrowheadTypes arrowS = .ok T ∧
    (freshFactor arrowS T arrowD 1 (0 : Fused)).factorize 2 1 1 fusedQuasiArrow regularizationNone .upLooking = .ok f ∧
    (∀ t < 2, (f.pivotAt (.tridiag t) 0).toRat < -(1 / 4) ∧ 1 / 4 < (f.pivotAt (.tridiag t) 1).toRat) ∧
    ∀ b : ArrowheadVector (Fused), b.OfSize arrowD 1 →
      (∀ a ∈ blocks 1, ∀ i < arrowD.of a, (b.at a i).Finite ∧ (b.at a i).Stored ∧ |(b.at a i).toRat| ≤ quasiRhs) →
      ∃ x, f.solveInPlace b = .ok x ∧ ∀ a ∈ blocks 1, ∀ i < arrowD.of a, (x.at a i).Finite := by
  obtain ⟨T, hT, hc⟩ := arrow_entries
  have hq : QuasiDef (positions arrowD 1) (fun k => arrowPrimal k) (2 * (1 / 4))
      ((fusedQuasiArrow.map Contracted.toRat).assembled 1) := by
    refine quasiDef_of_dominant ?_ ?_ ?_ <;> decide +kernel
  obtain ⟨f, h1, h2, h3⟩ := C91_contracted .binary64 someFused arrowS arrowD arrowS_valid T 1 _
    (C21_constructible arrowS arrowD T hT 1 0)
    fusedQuasiArrow ((quasiArrowM_fits hT).map _) .upLooking 5 (fun a ha i hi => (hc a ha i hi).1) 4
    (fun a ha i hi => (hc a ha i hi).2) _ 9 (1 / 4) 1944 _ 3 quasiRhs _ _ fused_ampleQuasi' fused_ampleQuasiSolve'
    (by
      have : ∀ k ∈ positions arrowD 1, ∀ l ∈ positions arrowD 1, (fusedQuasiArrow.assembled 1 k l).Finite ∧ (fusedQuasiArrow.assembled 1 k l).Stored := by
        decide +kernel
      exact this)
    (by decide +kernel) _ hq regularizationNone (fun _ _ _ _ => rfl)
  refine ⟨T, f, hT, h1, fun t ht => ⟨?_, ?_⟩, fun b hb hb' => ?_⟩
  · exact (h2 (.tridiag t) ((by decide : ∀ t < 2, Blk.tridiag t ∈ blocks 1) t ht) 0 (show 0 < 2 by decide)).2.2.1
      fun h => Bool.false_ne_true h
  · exact (h2 (.tridiag t) ((by decide : ∀ t < 2, Blk.tridiag t ∈ blocks 1) t ht) 1 (show 1 < 2 by decide)).2.1 rfl
  obtain ⟨x, hx, -, h4, -⟩ := h3 b hb hb'
  exact ⟨x, hx, fun a ha i hi => (h4 a ha i hi).1⟩

private theorem kept_ampleQuasi :
    keptR.AmpleQuasi 2 3 3 (2 ^ (1023 : Int)) 8 (1 / 2) 768 (2 ^ (-990 : Int)) where
  range := Extended.range (fmt := .binary64) (ext := .x87) Format.double_x87 (by decide) (by decide)
  pos := by norm_num
  bound := by norm_num
  small := by decide +kernel
  gamma := by decide +kernel
  accuracy := by decide +kernel
  max := by decide +kernel
  max_div := by decide +kernel

private theorem kept_ampleQuasiSolve :
    keptR.AmpleQuasiSolve 2 3 3 (2 ^ (1023 : Int)) (1 / 2) 768 2 quasiRhs (2 ^ (953 : Int)) (2 ^ (971 : Int)) where
  gamma := by decide +kernel
  nonneg := by decide +kernel
  root := by decide +kernel
  condition := by decide +kernel
  forward := by decide +kernel
  backward := by decide +kernel
  max := by decide +kernel
  max_back := by decide +kernel

private theorem kept_ampleQuasi' :
    keptR.AmpleQuasi 5 4 (positions arrowD 1).card (2 ^ (1023 : Int)) 9 (1 / 4) 1944 (2 ^ (-990 : Int)) where
  range := Extended.range (fmt := .binary64) (ext := .x87) Format.double_x87 (by decide) (by decide)
  pos := by norm_num
  bound := by norm_num
  small := by decide +kernel
  gamma := by decide +kernel
  accuracy := by decide +kernel
  max := by decide +kernel
  max_div := by decide +kernel

private theorem kept_ampleQuasiSolve' :
    keptR.AmpleQuasiSolve 5 4 (positions arrowD 1).card (2 ^ (1023 : Int)) (1 / 4) 1944 3 quasiRhs (2 ^ (956 : Int)) (2 ^ (978 : Int)) where
  gamma := by decide +kernel
  nonneg := by decide +kernel
  root := by decide +kernel
  condition := by decide +kernel
  forward := by decide +kernel
  backward := by decide +kernel
  max := by decide +kernel
  max_back := by decide +kernel

/-- With extended precision: a matrix. -/
def keptQuasiM : MatIn (Kept) := quasiM.map kept

/-- With extended precision: a repeating block matrix. -/
def keptQuasiArrow : ArrowheadMatrix (Kept) := quasiArrowM.map kept

example : ∃ f', (witnessF.map kept).factorize keptQuasiM regularizationNone .upLooking = .ok f' ∧
    1 / 2 < (f'.pivot 0).toRat ∧ (f'.pivot 1).toRat < -(1 / 2) ∧ 1 / 2 < (f'.pivot 2).toRat ∧
    ∀ b : List (Kept), b.length = 3 →
      (∀ i < 3, (b.getD i 0).Finite ∧ |(b.getD i 0).toRat| ≤ quasiRhs) →
      ∃ x, f'.solveInPlace b = .ok x ∧ ∀ i < 3, (x.getD i 0).Finite := by
  have hc : ∀ i < 3, witnessF.sparsity.rowEntries i ≤ 2 ∧ witnessF.sparsity.colEntries i < 3 := by decide
  have hv : ∀ i < 3, ∀ j < 3, (keptQuasiM.sym i j).toRat = quasiM.sym i j := by decide +kernel
  have hq : QuasiDef (range 3) (fun i => i < 2) (2 * (1 / 2)) fun i j => (keptQuasiM.sym i j).toRat := by
    rw [show (2 * (1 / 2 : ℚ)) = 1 by norm_num]
    refine ⟨fun x hx h0 => ?_, fun x hx h0 => ?_⟩
    · have := quasiM_quasiDef.1 x hx h0
      refine this.trans_le (le_of_eq (sum_congr rfl fun i hi => sum_congr rfl fun j hj => ?_))
      beta_reduce
      rw [hv i (mem_range.mp hi) j (mem_range.mp hj)]
    · have := quasiM_quasiDef.2 x hx h0
      refine lt_of_le_of_lt (le_of_eq (sum_congr rfl fun i hi => sum_congr rfl fun j hj => ?_)) this
      beta_reduce
      rw [hv i (mem_range.mp hi) j (mem_range.mp hj)]
  have hr : ∀ i < 3, ∑ j ∈ range 3, |(keptQuasiM.sym i j).toRat| ≤ 8 := by decide +kernel
  obtain ⟨f', h1, h2, h3⟩ := C91_extended_single .binary64 .x87 Format.double_x87 (by decide) someKept witnessS [0, 2, 1] witness_valid _
    (show (witnessF.map kept).Declared witnessS [0, 2, 1] from
      ⟨witness_declared.pattern, rfl, rfl, rfl⟩) keptQuasiM
    ⟨rfl, witness_valid.inRange, rfl, rfl, fun i j h => .base h h.1⟩ .upLooking 2 (fun i hi => (hc i hi).1) 3
    (fun i hi => (hc i hi).2) _ 8 (1 / 2) 768 _ 2 quasiRhs _ _ kept_ampleQuasi kept_ampleQuasiSolve
    (by
      have : ∀ i < 3, ∀ j < 3, (keptQuasiM.sym i j).Finite := by decide +kernel
      exact this)
    hr _ hq regularizationNone (fun _ _ _ _ => rfl)
  refine ⟨f', h1, (h2 0 (by decide)).2.1 (by decide), (h2 1 (by decide)).2.2.1 (by decide), (h2 2 (by decide)).2.1 (by decide),
    fun b hb hb' => ?_⟩
  obtain ⟨x, hx, -, h4, -⟩ := h3 b hb hb'
  exact ⟨x, hx, fun i hi => (h4 i hi).1⟩

example : ∃ T f, arrowheadTypes arrowS = .ok T ∧
    (freshFactor arrowS T arrowD 1 (0 : Kept)).factorize 2 1 1 keptQuasiArrow regularizationNone .upLooking = .ok f ∧
    (∀ t < 2, (f.pivotAt (.tridiag t) 0).toRat < -(1 / 4) ∧ 1 / 4 < (f.pivotAt (.tridiag t) 1).toRat) ∧
    ∀ b : ArrowheadVector (Kept), b.OfSize arrowD 1 →
      (∀ a ∈ blocks 1, ∀ i < arrowD.of a, (b.at a i).Finite ∧ |(b.at a i).toRat| ≤ quasiRhs) →
      ∃ x, f.solveInPlace b = .ok x ∧ ∀ a ∈ blocks 1, ∀ i < arrowD.of a, (x.at a i).Finite := by
  obtain ⟨T, hT, hc⟩ := arrow_entries
  have hq : QuasiDef (positions arrowD 1) (fun k => arrowPrimal k) (2 * (1 / 4))
      ((keptQuasiArrow.map Extended.toRat).assembled 1) := by
    refine quasiDef_of_dominant ?_ ?_ ?_ <;> decide +kernel
  obtain ⟨f, h1, h2, h3⟩ := C91_extended .binary64 .x87 Format.double_x87 (by decide) someKept arrowS arrowD arrowS_valid T 1 _
    (C21_constructible arrowS arrowD T hT 1 0)
    keptQuasiArrow ((quasiArrowM_fits hT).map _) .upLooking 5 (fun a ha i hi => (hc a ha i hi).1) 4
    (fun a ha i hi => (hc a ha i hi).2) _ 9 (1 / 4) 1944 _ 3 quasiRhs _ _ kept_ampleQuasi' kept_ampleQuasiSolve'
    (by
      have : ∀ k ∈ positions arrowD 1, ∀ l ∈ positions arrowD 1, (keptQuasiArrow.assembled 1 k l).Finite := by
        decide +kernel
      exact this)
    (by decide +kernel) _ hq regularizationNone (fun _ _ _ _ => rfl)
  refine ⟨T, f, hT, h1, fun t ht => ⟨?_, ?_⟩, fun b hb hb' => ?_⟩
  · exact (h2 (.tridiag t) ((by decide : ∀ t < 2, Blk.tridiag t ∈ blocks 1) t ht) 0 (show 0 < 2 by decide)).2.2.1
      fun h => Bool.false_ne_true h
  · exact (h2 (.tridiag t) ((by decide : ∀ t < 2, Blk.tridiag t ∈ blocks 1) t ht) 1 (show 1 < 2 by decide)).2.1 rfl
  obtain ⟨x, hx, -, h4, -⟩ := h3 b hb hb'
  exact ⟨x, hx, fun a ha i hi => (h4 a ha i hi).1⟩

/-- A number of the example of C81, rounded upwards, with subnormal numbers flushed to zero. -/
def up (x : ℚ) : Directed .binary64 upwards := ⟨Binary.ofRat .binary64 false x⟩

private theorem upwards_ampleQuasi :
    upwardsR.AmpleQuasi 2 3 3 (2 ^ (1023 : Int)) 8 (1 / 2) 768 (2 ^ (-990 : Int)) where
  range := Flagged.range (fmt := .binary64) (by decide) (by decide)
  pos := by norm_num
  bound := by norm_num
  small := by decide +kernel
  gamma := by decide +kernel
  accuracy := by decide +kernel
  max := by decide +kernel
  max_div := by decide +kernel

private theorem upwards_ampleQuasiSolve :
    upwardsR.AmpleQuasiSolve 2 3 3 (2 ^ (1023 : Int)) (1 / 2) 768 2 quasiRhs (2 ^ (953 : Int)) (2 ^ (971 : Int)) where
  gamma := by decide +kernel
  nonneg := by decide +kernel
  root := by decide +kernel
  condition := by decide +kernel
  forward := by decide +kernel
  backward := by decide +kernel
  max := by decide +kernel
  max_back := by decide +kernel

private theorem upwards_ampleQuasi' :
    upwardsR.AmpleQuasi 5 4 (positions arrowD 1).card (2 ^ (1023 : Int)) 9 (1 / 4) 1944 (2 ^ (-990 : Int)) where
  range := Flagged.range (fmt := .binary64) (by decide) (by decide)
  pos := by norm_num
  bound := by norm_num
  small := by decide +kernel
  gamma := by decide +kernel
  accuracy := by decide +kernel
  max := by decide +kernel
  max_div := by decide +kernel

private theorem upwards_ampleQuasiSolve' :
    upwardsR.AmpleQuasiSolve 5 4 (positions arrowD 1).card (2 ^ (1023 : Int)) (1 / 4) 1944 3 quasiRhs (2 ^ (956 : Int)) (2 ^ (978 : Int)) where
  gamma := by decide +kernel
  nonneg := by decide +kernel
  root := by decide +kernel
  condition := by decide +kernel
  forward := by decide +kernel
  backward := by decide +kernel
  max := by decide +kernel
  max_back := by decide +kernel

/-- With another environment: a matrix. -/
def upwardsQuasiM : MatIn (Directed .binary64 upwards) := quasiM.map up

/-- With another environment: a repeating block matrix. -/
def upwardsQuasiArrow : ArrowheadMatrix (Directed .binary64 upwards) := quasiArrowM.map up

example : ∃ f', (witnessF.map up).factorize upwardsQuasiM regularizationNone .upLooking = .ok f' ∧
    1 / 2 < (f'.pivot 0).toRat ∧ (f'.pivot 1).toRat < -(1 / 2) ∧ 1 / 2 < (f'.pivot 2).toRat ∧
    ∀ b : List (Directed .binary64 upwards), b.length = 3 →
      (∀ i < 3, (b.getD i 0).value.Finite ∧ |(b.getD i 0).toRat| ≤ quasiRhs) →
      ∃ x, f'.solveInPlace b = .ok x ∧ ∀ i < 3, (x.getD i 0).value.Finite := by
  have hc : ∀ i < 3, witnessF.sparsity.rowEntries i ≤ 2 ∧ witnessF.sparsity.colEntries i < 3 := by decide
  have hv : ∀ i < 3, ∀ j < 3, (upwardsQuasiM.sym i j).toRat = quasiM.sym i j := by decide +kernel
  have hq : QuasiDef (range 3) (fun i => i < 2) (2 * (1 / 2)) fun i j => (upwardsQuasiM.sym i j).toRat := by
    rw [show (2 * (1 / 2 : ℚ)) = 1 by norm_num]
    refine ⟨fun x hx h0 => ?_, fun x hx h0 => ?_⟩
    · have := quasiM_quasiDef.1 x hx h0
      refine this.trans_le (le_of_eq (sum_congr rfl fun i hi => sum_congr rfl fun j hj => ?_))
      beta_reduce
      rw [hv i (mem_range.mp hi) j (mem_range.mp hj)]
    · have := quasiM_quasiDef.2 x hx h0
      refine lt_of_le_of_lt (le_of_eq (sum_congr rfl fun i hi => sum_congr rfl fun j hj => ?_)) this
      beta_reduce
      rw [hv i (mem_range.mp hi) j (mem_range.mp hj)]
  have hr : ∀ i < 3, ∑ j ∈ range 3, |(upwardsQuasiM.sym i j).toRat| ≤ 8 := by decide +kernel
  obtain ⟨f', h1, h2, h3⟩ := C91_environment_single .binary64 (by decide) upwards witnessS [0, 2, 1] witness_valid _
    (show (witnessF.map up).Declared witnessS [0, 2, 1] from
      ⟨witness_declared.pattern, rfl, rfl, rfl⟩) upwardsQuasiM
    ⟨rfl, witness_valid.inRange, rfl, rfl, fun i j h => .base h h.1⟩ .upLooking 2 (fun i hi => (hc i hi).1) 3
    (fun i hi => (hc i hi).2) _ 8 (1 / 2) 768 _ 2 quasiRhs _ _ upwards_ampleQuasi upwards_ampleQuasiSolve
    (by
      have : ∀ i < 3, ∀ j < 3, (upwardsQuasiM.sym i j).value.Finite := by decide +kernel
      exact this)
    hr _ hq regularizationNone (fun _ _ _ _ => rfl)
  refine ⟨f', h1, (h2 0 (by decide)).2.1 (by decide), (h2 1 (by decide)).2.2.1 (by decide), (h2 2 (by decide)).2.1 (by decide),
    fun b hb hb' => ?_⟩
  obtain ⟨x, hx, -, h4, -⟩ := h3 b hb hb'
  exact ⟨x, hx, fun i hi => (h4 i hi).1⟩

example : ∃ T f, arrowheadTypes arrowS = .ok T ∧
    (freshFactor arrowS T arrowD 1 (0 : Directed .binary64 upwards)).factorize 2 1 1 upwardsQuasiArrow regularizationNone .upLooking = .ok f ∧
    (∀ t < 2, (f.pivotAt (.tridiag t) 0).toRat < -(1 / 4) ∧ 1 / 4 < (f.pivotAt (.tridiag t) 1).toRat) ∧
    ∀ b : ArrowheadVector (Directed .binary64 upwards), b.OfSize arrowD 1 →
      (∀ a ∈ blocks 1, ∀ i < arrowD.of a, (b.at a i).value.Finite ∧ |(b.at a i).toRat| ≤ quasiRhs) →
      ∃ x, f.solveInPlace b = .ok x ∧ ∀ a ∈ blocks 1, ∀ i < arrowD.of a, (x.at a i).value.Finite := by
  obtain ⟨T, hT, hc⟩ := arrow_entries
  have hq : QuasiDef (positions arrowD 1) (fun k => arrowPrimal k) (2 * (1 / 4))
      ((upwardsQuasiArrow.map Directed.toRat).assembled 1) := by
    refine quasiDef_of_dominant ?_ ?_ ?_ <;> decide +kernel
  obtain ⟨f, h1, h2, h3⟩ := C91_environment .binary64 (by decide) upwards arrowS arrowD arrowS_valid T 1 _
    (C21_constructible arrowS arrowD T hT 1 0)
    upwardsQuasiArrow ((quasiArrowM_fits hT).map _) .upLooking 5 (fun a ha i hi => (hc a ha i hi).1) 4
    (fun a ha i hi => (hc a ha i hi).2) _ 9 (1 / 4) 1944 _ 3 quasiRhs _ _ upwards_ampleQuasi' upwards_ampleQuasiSolve'
    (by
      have : ∀ k ∈ positions arrowD 1, ∀ l ∈ positions arrowD 1, (upwardsQuasiArrow.assembled 1 k l).value.Finite := by
        decide +kernel
      exact this)
    (by decide +kernel) _ hq regularizationNone (fun _ _ _ _ => rfl)
  refine ⟨T, f, hT, h1, fun t ht => ⟨?_, ?_⟩, fun b hb hb' => ?_⟩
  · exact (h2 (.tridiag t) ((by decide : ∀ t < 2, Blk.tridiag t ∈ blocks 1) t ht) 0 (show 0 < 2 by decide)).2.2.1
      fun h => Bool.false_ne_true h
  · exact (h2 (.tridiag t) ((by decide : ∀ t < 2, Blk.tridiag t ∈ blocks 1) t ht) 1 (show 1 < 2 by decide)).2.1 rfl
  obtain ⟨x, hx, -, h4, -⟩ := h3 b hb hb'
  exact ⟨x, hx, fun a ha i hi => (h4 a ha i hi).1⟩

end Ctldl
