import Verif.Lemmas.SolveQuasi
import Verif.Props.QuasiRange
import Verif.Props.TridiagonalRounding

/-! # C76: systems with quasidefinite matrices are solved without overflow -/

namespace Ctldl

open Finset

variable {K F : Type} [Zero K] [Sub K] [Mul K] [Div K] [Field F] [LinearOrder F] [IsStrictOrderedRing F]

/-! ### Single matrices -/

/-- C76: the system with a matrix which is quasidefinite by a margin is solved without overflow in arithmetic with rounding,
for every permutation and without pivoting: for every right hand side with entries up to `B`, the computed solution is finite,
its entries are at most `X`, its residual is small compared to its entries, and it is close to the exact solution. All
conditions are on the matrix, the right hand side and the arithmetic. -/
theorem C76_single (R : Rounding K F) (s : Sparsity) (p : List Nat) (hv : ValidSparsity s p)
    (f : DiagFactor K) (hf : f.Declared s p) (m : MatIn K) (hm : m.Fits s p) (method : Method)
    (n : Nat) (hn : ∀ i < s.numRows, f.sparsity.rowEntries i ≤ n)
    (c : Nat) (hc : ∀ j < s.numRows, f.sparsity.colEntries j < c)
    (Ω ρ μ β ε q B Y X : F) (hR : R.AmpleQuasi n c s.numRows Ω ρ μ β ε)
    (hS : R.AmpleQuasiSolve n c s.numRows Ω μ β q B Y X)
    (hfin : ∀ i < s.numRows, ∀ j < s.numRows, R.fin (m.sym i j) ∧ R.stored (m.sym i j))
    (hρ : ∀ i < s.numRows, ∑ j ∈ range s.numRows, |R.v (m.sym i j)| ≤ ρ)
    (S : Nat → Prop) (hq : QuasiDef (range s.numRows) S (2 * μ) fun i j => R.v (m.sym i j))
    (reg : K → Nat → K) (hreg : ∀ x i, R.fin x → μ < |R.v x| → reg x i = x) :
    ∃ f', f.factorize m reg method = .ok f' ∧
      ∀ b : List K, b.length = s.numRows →
        (∀ i < s.numRows, R.fin (b.getD i 0) ∧ R.stored (b.getD i 0) ∧ |R.v (b.getD i 0)| ≤ B) →
        ∃ x, f'.solveInPlace b = .ok x ∧ x.length = s.numRows ∧
          (∀ i < s.numRows, R.fin (x.getD i 0) ∧ |R.v (x.getD i 0)| ≤ X) ∧
          ∀ ξ, (∀ i < s.numRows, |R.v (x.getD i 0)| ≤ ξ) →
            (∀ i < s.numRows, |R.v (b.getD i 0) - ∑ j ∈ range s.numRows, R.v (m.sym i j) * R.v (x.getD j 0)| ≤
              R.quasiResidual n c s.numRows μ β ε ξ) ∧
            ∀ z : Nat → F, (∀ i < s.numRows, ∑ j ∈ range s.numRows, R.v (m.sym i j) * z j = R.v (b.getD i 0)) →
              (2 * μ) ^ 2 * ∑ i ∈ range s.numRows, (R.v (x.getD i 0) - z i) ^ 2 ≤
                s.numRows * R.quasiResidual n c s.numRows μ β ε ξ ^ 2 := by
  have hm1 := fits_single hv hf hm
  obtain ⟨hcl, -⟩ := hf.closed1 hv
  obtain ⟨f', h, hd, hsp, hpiv, hent, hps, hst, herr, hsum⟩ := single_forward_quasi R hv hf hm method hn hc hR hfin hρ hq
  rw [← hsp] at hn hc
  refine ⟨f', factorize_exchange hcl hm1 h fun i hi y hy => ?_, fun b hb hb' => ?_⟩
  · subst hy
    exact hreg _ i (hpiv i hi).1 (lt_abs_of_signs (hpiv i hi).2.1 (hpiv i hi).2.2.1)
  have hTm := single_firm hv hd hc hR hq hpiv hent herr hsum
  obtain ⟨x, hx, x1, x2⟩ := single_solve_quasi hv hd hn hc hR.range hS hTm (fun i hi => ⟨(hpiv i hi).1, hps i hi⟩) hst hent hb
    (fun i hi => ⟨(hb' i hi).1, (hb' i hi).2.1⟩) fun i hi => (hb' i hi).2.2
  refine ⟨x, hx, x1, x2, fun ξ hξ => ?_⟩
  have hε : 0 ≤ ε ∨ s.numRows = 0 := by
    rcases Nat.eq_zero_or_pos s.numRows with h0 | h0
    · exact Or.inr h0
    · refine Or.inl (le_trans ?_ hR.small)
      have := (abs_nonneg _).trans (hpiv 0 h0).2.2.2
      have := R.η_nonneg
      positivity
  have hres : ∀ i < s.numRows, |R.v (b.getD i 0) - ∑ j ∈ range s.numRows, R.v (m.sym i j) * R.v (x.getD j 0)| ≤
      R.quasiResidual n c s.numRows μ β ε ξ := by
    intro k hk
    have hcp := hc k hk
    have hξ0 : 0 ≤ ξ := (abs_nonneg _).trans (hξ k hk)
    have hε0 : 0 ≤ ε := hε.resolve_right (by omega)
    obtain ⟨c, rfl⟩ : ∃ c', c = c' + 1 := ⟨c - 1, by omega⟩
    obtain ⟨p1, p2, p3⟩ := perm_facts hv.perm
    obtain ⟨i, hi, rfl⟩ := p3 k (mem_range.mpr hk)
    have hi' := mem_range.mp hi
    have h3 := C47_single_solve R s p hv f' hd hst b hb x hx (fun i hi => (hpiv i hi).1) (fun i hi => (x2 i hi).1) n hn c
      (fun j hj => Nat.le_of_lt_succ (hc j hj)) i hi'
    simp only [← mul_assoc (unitLower _ _ _)] at h3
    have hη := R.η_nonneg
    have h4 := residual_of_sums (A := fun j => R.v (m.sym (permAt p i) (permAt p j))) (γ' := R.gamma (n + 2))
      (e := R.slip n ε) (R.gamma_nonneg _) (R.gamma_nonneg _) (R.growth_pos _).le hξ0
      (mul_nonneg (R.growth_pos _).le (by positivity)) (by positivity) h3
      (fun j hj => herr i hi' j (mem_range.mp hj))
      (fun j _ => by
        unfold ldlt
        refine sum_nonneg fun r _ => ?_
        simp only [← DiagFactor.unit_abs]
        positivity)
      (hsum i hi').1 (hsum i hi').2 fun j hj => hξ _ (mem_range.mp (p1 j hj))
    rw [← sum_reindex p1 p2 p3 fun l => R.v (m.sym (permAt p i) l) * R.v (x.getD l 0)]
    refine h4.trans (le_of_eq ?_)
    unfold Rounding.quasiResidual
    rw [show n + (c + 1) + 2 = n + c + 3 from by omega, card_range]
    push_cast
    rfl
  refine ⟨hres, fun z hz => ?_⟩
  have := (hq.signed fun i _ j _ => by rw [sym_comm]).error (fun i => rowSign_abs _ _) (by have := hR.pos; positivity)
    (b := fun i => R.v (b.getD i 0)) (x := fun i => R.v (x.getD i 0)) (z := z)
    (fun i hi => hres i (mem_range.mp hi)) (fun i hi => hz i (mem_range.mp hi))
  rwa [card_range] at this

/-! ### Repeating block matrices -/

private theorem typesOk {s : ArrowheadSparsity} {T : ArrowheadTypes} {d : Dims} (hs : s.Valid d)
    (hT : arrowheadTypes s = .ok T) : TypesOk s T d := by
  obtain ⟨T', h, h'⟩ := arrowheadTypes_sat hs
  rw [hT] at h
  cases h
  exact h'

omit [LinearOrder F] [IsStrictOrderedRing F] in
private theorem sum_positions {d : Dims} {N : Nat} (g : Blk → Nat → F) :
    ∑ a ∈ blocks N, ∑ j ∈ range (d.of a), g a j = ∑ l ∈ positions d N, g l.1 l.2 := by
  unfold positions
  rw [sum_sigma]

/-- C76: the same for repeating block matrices, for all numbers of repetitions. -/
theorem C76_repeating (R : Rounding K F) (s : ArrowheadSparsity) (d : Dims) (hs : s.Valid d) (T : ArrowheadTypes)
    (N : Nat) (f : ArrowheadFactor K) (hf : f.Declared s T d N) (m : ArrowheadMatrix K) (hm : m.Fits s T d N)
    (method : Method)
    (n : Nat) (hn : ∀ a ∈ blocks N, ∀ i < d.of a, T.rowEntries N a i ≤ n)
    (c : Nat) (hc : ∀ a ∈ blocks N, ∀ j < d.of a, T.colEntries N a j < c)
    (Ω ρ μ β ε q B Y X : F) (hR : R.AmpleQuasi n c (positions d N).card Ω ρ μ β ε)
    (hS : R.AmpleQuasiSolve n c (positions d N).card Ω μ β q B Y X)
    (hfin : ∀ k ∈ positions d N, ∀ l ∈ positions d N, R.fin (m.assembled N k l) ∧ R.stored (m.assembled N k l))
    (hρ : ∀ k ∈ positions d N, ∑ l ∈ positions d N, |(m.map R.v).assembled N k l| ≤ ρ)
    (S : (Σ _ : Blk, Nat) → Prop) (hq : QuasiDef (positions d N) S (2 * μ) ((m.map R.v).assembled N))
    (reg : K → Nat → K) (hreg : ∀ x i, R.fin x → μ < |R.v x| → reg x i = x) :
    ∃ f', f.factorize d.tridiag d.link d.outer m reg method = .ok f' ∧
      ∀ b : ArrowheadVector K, b.OfSize d N →
        (∀ a ∈ blocks N, ∀ i < d.of a, R.fin (b.at a i) ∧ R.stored (b.at a i) ∧ |R.v (b.at a i)| ≤ B) →
        ∃ x, f'.solveInPlace b = .ok x ∧ x.OfSize d N ∧
          (∀ a ∈ blocks N, ∀ i < d.of a, R.fin (x.at a i) ∧ |R.v (x.at a i)| ≤ X) ∧
          ∀ ξ, (∀ a ∈ blocks N, ∀ i < d.of a, |R.v (x.at a i)| ≤ ξ) →
            (∀ k ∈ positions d N,
              |R.v (b.at k.1 k.2) - ∑ l ∈ positions d N, (m.map R.v).assembled N k l * R.v (x.at l.1 l.2)| ≤
                R.quasiResidual n c (positions d N).card μ β ε ξ) ∧
            ∀ z : (Σ _ : Blk, Nat) → F,
              (∀ k ∈ positions d N, ∑ l ∈ positions d N, (m.map R.v).assembled N k l * z l = R.v (b.at k.1 k.2)) →
              (2 * μ) ^ 2 * ∑ k ∈ positions d N, (R.v (x.at k.1 k.2) - z k) ^ 2 ≤
                (positions d N).card * R.quasiResidual n c (positions d N).card μ β ε ξ ^ 2 := by
  have hT := typesOk hs hf.types
  obtain ⟨f', h, hd, hrows⟩ := arrowheadFactorize_sat hs hT hf hm.matrixOk (fun x _ => x) method
  obtain ⟨h1, h2, h3, h4, h5, h6⟩ := arrowhead_forward_quasi R hs hf hm h hn hc hR hfin hρ hq
  have hk : ∀ {a i}, a ∈ blocks N → i < d.of a → (⟨a, i⟩ : Σ _ : Blk, Nat) ∈ positions d N := fun ha hi =>
    mem_positions.mpr ⟨ha, hi⟩
  refine ⟨f', arrowheadFactorize_exchange hs hT hf hm.matrixOk h fun a ha i hi y hy => ?_, fun b hb hb' => ?_⟩
  · subst hy
    have := h1 _ (hk ha hi)
    exact hreg _ i this.1 (lt_abs_of_signs this.2.1 this.2.2.1)
  have hst := ArrowheadFactor.entries_of_chain hd (hrows.quotient R.stored_div (chainPat_ok hT N))
  have hTm := arrowhead_firm hs hT hd hm hc hR hq h1 h4 h5 h6
  obtain ⟨x, hx, x1, x2⟩ := arrowhead_solve_quasi hs hT hd hn hc hR.range hS hTm
    (fun a ha i hi => ⟨(h1 _ (hk ha hi)).1, h3 a ha i hi⟩) hst h2 hb
    (fun a ha i hi => ⟨(hb' a ha i hi).1, (hb' a ha i hi).2.1⟩) fun a ha i hi => (hb' a ha i hi).2.2
  refine ⟨x, hx, x1, x2, fun ξ hξ => ?_⟩
  have hres : ∀ k ∈ positions d N,
      |R.v (b.at k.1 k.2) - ∑ l ∈ positions d N, (m.map R.v).assembled N k l * R.v (x.at l.1 l.2)| ≤
        R.quasiResidual n c (positions d N).card μ β ε ξ := by
    intro k' hk'
    have hcp := hc _ (mem_positions.mp hk').1 _ (mem_positions.mp hk').2
    have hξ0 : 0 ≤ ξ := (abs_nonneg _).trans (hξ _ (mem_positions.mp hk').1 _ (mem_positions.mp hk').2)
    have hε0 : 0 ≤ ε := by
      refine le_trans ?_ hR.small
      have := (abs_nonneg _).trans (h1 k' hk').2.2.2
      have := R.η_nonneg
      positivity
    obtain ⟨c, rfl⟩ : ∃ c', c = c' + 1 := ⟨c - 1, by omega⟩
    obtain ⟨p1, p2, p3⟩ := permPos_facts hs N
    obtain ⟨k, hk, rfl⟩ := p3 k' hk'
    have h7 := C47_solve R s d hs T N f' hd hst b hb x hx (fun a ha i hi => (h1 ⟨a, i⟩ (mem_positions.mpr ⟨ha, hi⟩)).1)
      (fun a ha i hi => (x2 a ha i hi).1) n hn c (fun a ha j hj => Nat.le_of_lt_succ (hc a ha j hj)) k.1
      (mem_positions.mp hk).1 k.2 (mem_positions.mp hk).2
    rw [sum_positions fun a j => (f'.map R.v).ldlt d N k.1 a k.2 j * R.v (x.at a (permAt (s.perm a) j)),
      sum_positions fun a j => (f'.map fun y => |R.v y|).ldlt d N k.1 a k.2 j * |R.v (x.at a (permAt (s.perm a) j))|,
      sum_positions fun a j => (f'.map fun y => |R.v y|).lowerElement N k.1 a k.2 j *
        (|R.v (f'.pivotAt a j)| * ((c + 1) * R.η))] at h7
    have e7 : ∀ l : Σ _ : Blk, Nat, (f'.map fun y => |R.v y|).lowerElement N k.1 l.1 k.2 l.2 *
        (|R.v (f'.pivotAt l.1 l.2)| * ((c + 1) * R.η)) =
        |(f'.map R.v).lowerElement N k.1 l.1 k.2 l.2| * |R.v (f'.pivotAt l.1 l.2)| * ((c + 1) * R.η) := fun l => by
      rw [← mul_assoc]
      exact congrArg₂ (· * ·) (congrArg₂ (· * ·) (Rounding.lowerElement_abs (R := R) (f := f') (N := N) _ _ _ _) rfl) rfl
    rw [sum_congr rfl fun l _ => e7 l] at h7
    have hη := R.η_nonneg
    have h8 := residual_of_sums (A := fun l => (m.map R.v).assembled N (s.permPos k) (s.permPos l))
      (γ' := R.gamma (n + 2)) (e := R.slip n ε) (R.gamma_nonneg _) (R.gamma_nonneg _) (R.growth_pos _).le hξ0
      (mul_nonneg (R.growth_pos _).le (by positivity)) (by positivity) h7 (fun l hl => h4 k hk l hl)
      (fun l _ => by
        rw [← (ldlt_positions f' R d N k l).2]
        exact sum_nonneg fun r _ => by positivity)
      (h5 k hk).1 (h5 k hk).2 fun l hl => hξ _ (mem_positions.mp (p1 l hl)).1 _ (mem_positions.mp (p1 l hl)).2
    rw [← sum_reindex p1 p2 p3 fun l => (m.map R.v).assembled N (s.permPos k) l * R.v (x.at l.1 l.2)]
    refine h8.trans (le_of_eq ?_)
    unfold Rounding.quasiResidual
    rw [show n + (c + 1) + 2 = n + c + 3 from by omega]
    push_cast
    rfl
  refine ⟨hres, fun z hz => ?_⟩
  exact (hq.signed fun k hk l hl => assembled_symm hs (hm.map R.v) k l hk hl).error (fun i => rowSign_abs _ _)
    (by have := hR.pos; positivity) (b := fun k => R.v (b.at k.1 k.2)) (x := fun k => R.v (x.at k.1 k.2)) (z := z)
    hres hz

/-! ### Block tridiagonal matrices -/

open Tridiagonal in
/-- C76: the same for the class for block tridiagonal matrices. -/
theorem C76_tridiagonal (R : Rounding K F) (spA spB : Sparsity) (p : List Nat) (n : Nat)
    (h : ValidTridiagonal spA spB p n) (N : Nat) (f : ArrowheadFactor K) (T : ArrowheadTypes)
    (hf : TridiagonalDeclared f spA spB p T n N) (A B : List (MatIn K)) (hm : TridiagonalFits A B p T n N)
    (method : Method)
    (r : Nat) (hr : ∀ i < n, T.tridiagDiag.rowEntries i + T.tridiagSubdiag.rowEntries i ≤ r)
    (c : Nat) (hc : ∀ i < n, T.tridiagDiag.colEntries i + T.tridiagSubdiag.colEntries i < c)
    (Ω ρ μ β ε q b' Y X : F) (hR : R.AmpleQuasi r c ((N + 1) * n) Ω ρ μ β ε)
    (hS : R.AmpleQuasiSolve r c ((N + 1) * n) Ω μ β q b' Y X)
    (hfin : ∀ k ∈ tridiagonalPositions n N, ∀ l ∈ tridiagonalPositions n N,
      R.fin (tridiagonalAssembled A B k l) ∧ R.stored (tridiagonalAssembled A B k l))
    (hρ : ∀ k ∈ tridiagonalPositions n N, ∑ l ∈ tridiagonalPositions n N,
      |tridiagonalAssembled (blockValues R A) (blockValues R B) k l| ≤ ρ)
    (S : Nat × Nat → Prop)
    (hq : QuasiDef (tridiagonalPositions n N) S (2 * μ) (tridiagonalAssembled (blockValues R A) (blockValues R B)))
    (reg : K → Nat → K) (hreg : ∀ x i, R.fin x → μ < |R.v x| → reg x i = x) :
    ∃ f', tridiagonalFactorize n f A B reg method = .ok f' ∧
      ∀ b : List (List K), BlockVector b n N →
        (∀ t < N + 1, ∀ i < n, R.fin (blockAt b t i) ∧ R.stored (blockAt b t i) ∧ |R.v (blockAt b t i)| ≤ b') →
        ∃ x, tridiagonalSolveInPlace f' b = .ok x ∧ BlockVector x n N ∧
          (∀ t < N + 1, ∀ i < n, R.fin (blockAt x t i) ∧ |R.v (blockAt x t i)| ≤ X) ∧
          let A := tridiagonalAssembled (blockValues R A) (blockValues R B)
          ∀ ξ, (∀ t < N + 1, ∀ i < n, |R.v (blockAt x t i)| ≤ ξ) →
            (∀ k ∈ tridiagonalPositions n N,
              |R.v (blockAt b k.1 k.2) - ∑ l ∈ tridiagonalPositions n N, A k l * R.v (blockAt x l.1 l.2)| ≤
                R.quasiResidual r c ((N + 1) * n) μ β ε ξ) ∧
            ∀ z : Nat × Nat → F,
              (∀ k ∈ tridiagonalPositions n N,
                ∑ l ∈ tridiagonalPositions n N, A k l * z l = R.v (blockAt b k.1 k.2)) →
              (2 * μ) ^ 2 * ∑ k ∈ tridiagonalPositions n N, (R.v (blockAt x k.1 k.2) - z k) ^ 2 ≤
                ((N + 1) * n : Nat) * R.quasiResidual r c ((N + 1) * n) μ β ε ξ ^ 2 := by
  have hd := declared_of h hf
  obtain ⟨f', h1, h2⟩ := C76_repeating R _ _ (emptied_valid h) T N f hd _ (fits_of hm) method r
    (blocks_cases fun t ht i hi => (rowEntries_le h hd.types N t i).trans (hr i hi)) c
    (blocks_cases fun t ht i hi => (colEntries_le h hd.types N t i).trans_lt (hc i hi)) Ω ρ μ β ε q b' Y X
    (by rw [card_positions]; exact hR) (by rw [card_positions]; exact hS)
    (assembled_finite (P := fun y => R.fin y ∧ R.stored y) hm.numB hfin) (assembled_sum hm.numB hρ) (onTridiag S)
    (quasiDef_of (fun k hk l hl => assembled_values hm.numB hk hl) (fun _ => Iff.rfl) hq) reg hreg
  refine ⟨f', by rw [factorize_eq hd]; exact h1, fun b hb hb' => ?_⟩
  obtain ⟨y, h3, h4, h5, h6⟩ := h2 ⟨[], b, [], []⟩ (vector_of hb) (blocks_cases hb')
  refine ⟨y.tridiag, ?_, ⟨h4.num, h4.tridiag⟩, fun t ht i hi => h5 _ (tridiag_mem ht) i hi, ?_⟩
  · unfold tridiagonalSolveInPlace
    rw [h3]
    rfl
  intro A' ξ hξ
  obtain ⟨h7, h8⟩ := h6 ξ (blocks_cases hξ)
  rw [card_positions] at h7 h8
  constructor
  · intro k hk
    have h9 := h7 _ (position_mem hk)
    rw [Tridiagonal.sum_positions] at h9
    rw [sum_congr rfl fun l hl => by rw [assembled_values hm.numB hk hl]] at h9
    exact h9
  · intro z hz
    have h9 := h8 (fun k => match k.1 with | .tridiag t => z (t, k.2) | _ => 0) fun y hy => by
      obtain ⟨k, hk, rfl⟩ := position_cases hy
      rw [Tridiagonal.sum_positions]
      refine Eq.trans (sum_congr rfl fun l hl => ?_) (hz k hk)
      rw [assembled_values hm.numB hk hl]
    rw [Tridiagonal.sum_positions] at h9
    exact h9

/-! ### Cases meeting the hypotheses, in IEEE double precision

No part of the factorization or solution is evaluated: they hold for all right hand sides of doubles up to `2 ^ 940`. -/

/-- A bound of the entries of right hand sides. -/
def quasiRhs : ℚ := 2 ^ (940 : Int)

theorem double_ampleQuasiSolve : doubleR.AmpleQuasiSolve 2 3 3 (2 ^ (1023 : Int)) (1 / 2) 768 2 quasiRhs
    (2 ^ (953 : Int)) (2 ^ (971 : Int)) where
  gamma := by decide +kernel
  nonneg := by decide +kernel
  root := by decide +kernel
  condition := by decide +kernel
  forward := by decide +kernel
  backward := by decide +kernel
  max := by decide +kernel
  max_back := by decide +kernel

theorem double_ampleQuasiSolve' {dim : Nat} (hdim : dim ≤ 9) :
    doubleR.AmpleQuasiSolve 5 4 dim (2 ^ (1023 : Int)) (1 / 4) 1944 3 quasiRhs (2 ^ (956 : Int)) (2 ^ (978 : Int)) where
  gamma := by decide +kernel
  nonneg := by decide +kernel
  root := by
    have : (dim : ℚ) ≤ 9 := by exact_mod_cast hdim
    linarith
  condition := by decide +kernel
  forward := by decide +kernel
  backward := by decide +kernel
  max := by decide +kernel
  max_back := by decide +kernel

theorem quasiDouble_quasiDef :
    QuasiDef (range 3) (fun i => i < 2) (2 * (1 / 2)) fun i j => doubleR.v (quasiDoubleM.sym i j) := by
  have hv : ∀ i < 3, ∀ j < 3, doubleR.v (quasiDoubleM.sym i j) = quasiM.sym i j := by decide +kernel
  rw [show (2 * (1 / 2 : ℚ)) = 1 by norm_num]
  refine ⟨fun x hx h0 => ?_, fun x hx h0 => ?_⟩
  · have := quasiM_quasiDef.1 x hx h0
    refine this.trans_le (le_of_eq (sum_congr rfl fun i hi => sum_congr rfl fun j hj => ?_))
    beta_reduce
    rw [hv i (mem_range.mp hi) j (mem_range.mp hj)]
  · have := quasiM_quasiDef.2 x hx h0
    refine lt_of_le_of_lt (le_of_eq (sum_congr rfl fun i hi => sum_congr rfl fun j hj => ?_)) this
    beta_reduce
    rw [hv i (mem_range.mp hi) j (mem_range.mp hj)]

example : ∃ f', (witnessF.map (Binary.ofRat .binary64 false)).factorize quasiDoubleM regularizationNone .upLooking = .ok f' ∧
    ∀ b : List Double, b.length = 3 → (∀ i < 3, (b.getD i 0).Finite ∧ |doubleR.v (b.getD i 0)| ≤ quasiRhs) →
      ∃ x, f'.solveInPlace b = .ok x ∧ ∀ i < 3, (x.getD i 0).Finite := by
  have hc : ∀ i < 3, witnessF.sparsity.rowEntries i ≤ 2 ∧ witnessF.sparsity.colEntries i < 3 := by decide
  obtain ⟨f', h1, h2⟩ := C76_single doubleR witnessS [0, 2, 1] witness_valid _
    (show (witnessF.map (Binary.ofRat .binary64 false)).Declared witnessS [0, 2, 1] from
      ⟨witness_declared.pattern, rfl, rfl, rfl⟩) quasiDoubleM
    ⟨rfl, witness_valid.inRange, rfl, rfl, fun i j h => .base h h.1⟩ .upLooking 2 (fun i hi => (hc i hi).1) 3
    (fun i hi => (hc i hi).2) _ 8 (1 / 2) 768 _ 2 quasiRhs _ _ double_ampleQuasi double_ampleQuasiSolve
    (fun i hi j hj => ⟨by
      have : ∀ i < 3, ∀ j < 3, (quasiDoubleM.sym i j).Finite := by decide +kernel
      exact this i hi j hj, trivial⟩)
    (by
      have : ∀ i < 3, ∑ j ∈ range 3, |doubleR.v (quasiDoubleM.sym i j)| ≤ 8 := by decide +kernel
      exact this)
    (fun i => i < 2) quasiDouble_quasiDef regularizationNone (fun _ _ _ _ => rfl)
  refine ⟨f', h1, fun b hb hb' => ?_⟩
  obtain ⟨x, hx, -, h3, -⟩ := h2 b hb fun i hi => ⟨(hb' i hi).1, trivial, (hb' i hi).2⟩
  exact ⟨x, hx, fun i hi => (h3 i hi).1⟩

example : ∃ T f, arrowheadTypes arrowS = .ok T ∧
    (freshFactor arrowS T arrowD 1 (0 : Double)).factorize 2 1 1 quasiArrowDoubleM regularizationNone .upLooking = .ok f ∧
    ∀ b : ArrowheadVector Double, b.OfSize arrowD 1 →
      (∀ a ∈ blocks 1, ∀ i < arrowD.of a, (b.at a i).Finite ∧ |doubleR.v (b.at a i)| ≤ quasiRhs) →
      ∃ x, f.solveInPlace b = .ok x ∧ ∀ a ∈ blocks 1, ∀ i < arrowD.of a, (x.at a i).Finite := by
  obtain ⟨T, hT, hc⟩ : ∃ T, arrowheadTypes arrowS = .ok T ∧
      ∀ a ∈ blocks 1, ∀ i < arrowD.of a, T.rowEntries 1 a i ≤ 5 ∧ T.colEntries 1 a i < 4 := by
    have h : (do
        let T ← arrowheadTypes arrowS
        return decide (∀ a ∈ blocks 1, ∀ i < arrowD.of a, T.rowEntries 1 a i ≤ 5 ∧ T.colEntries 1 a i < 4)) =
        (.ok true : Res Bool) := by decide +kernel
    obtain ⟨T, hT, h⟩ := bind_eq_ok.mp h
    exact ⟨T, hT, of_decide_eq_true (Except.ok.inj h)⟩
  obtain ⟨f, h1, h2⟩ := C76_repeating doubleR arrowS arrowD arrowS_valid T 1 _ (C21_constructible arrowS arrowD T hT 1 0)
    quasiArrowDoubleM ((quasiArrowM_fits hT).map _) .upLooking 5 (fun a ha i hi => (hc a ha i hi).1) 4
    (fun a ha i hi => (hc a ha i hi).2) _ 9 (1 / 4) 1944 _ 3 quasiRhs _ _ double_ampleQuasi'
    (double_ampleQuasiSolve' (by decide +kernel))
    (fun k hk l hl => ⟨by
      have : ∀ k ∈ positions arrowD 1, ∀ l ∈ positions arrowD 1, (quasiArrowDoubleM.assembled 1 k l).Finite := by
        decide +kernel
      exact this k hk l hl, trivial⟩)
    (by decide +kernel) _ quasiArrowDouble_quasiDef regularizationNone (fun _ _ _ _ => rfl)
  refine ⟨T, f, hT, h1, fun b hb hb' => ?_⟩
  obtain ⟨x, hx, -, h3, -⟩ := h2 b hb fun a ha i hi => ⟨(hb' a ha i hi).1, trivial, (hb' a ha i hi).2⟩
  exact ⟨x, hx, fun a ha i hi => (h3 a ha i hi).1⟩

/-- Witness: an indefinite block tridiagonal matrix with three diagonal blocks; the second variables are multipliers. -/
def quasiTridiagA : List (MatIn ℚ) := [⟨tridiagA, [3, 1, -4]⟩, ⟨tridiagA, [5, 1, -4]⟩, ⟨tridiagA, [5, 1, -6]⟩]

theorem quasiTridiag_quasiDef :
    QuasiDef (tridiagonalPositions 2 2) (fun k => k.2 = 0) (2 * (1 / 4))
      (tridiagonalAssembled (blockValues doubleR (tridiagDouble quasiTridiagA))
        (blockValues doubleR (tridiagDouble tridiagValuesB))) := by
  refine quasiDef_of_dominant ?_ ?_ ?_ <;> decide +kernel

theorem double_ampleQuasi'' :
    doubleR.AmpleQuasi 5 4 ((2 + 1) * 2) (2 ^ (1023 : Int)) 9 (1 / 4) 1944 (2 ^ (-1060 : Int)) where
  range := Binary.range (fmt := .binary64) (by decide)
  pos := by norm_num
  bound := by norm_num
  small := by decide +kernel
  gamma := by decide +kernel
  accuracy := by decide +kernel
  max := by decide +kernel
  max_div := by decide +kernel

/-- Also those of C75 and C76 on block tridiagonal matrices. -/
example : ∃ s T f, tridiagonalSparsity tridiagA tridiagB [1, 0] = .ok s ∧ arrowheadTypes s = .ok T ∧
    tridiagonalFactorize 2 (freshFactor s T ⟨0, 2, 0, 0⟩ 2 (0 : Double)) (tridiagDouble quasiTridiagA)
      (tridiagDouble tridiagValuesB) regularizationNone .entryWise = .ok f ∧
    ∀ b : List (List Double), BlockVector b 2 2 →
      (∀ t < 3, ∀ i < 2, (blockAt b t i).Finite ∧ |doubleR.v (blockAt b t i)| ≤ quasiRhs) →
      ∃ x, tridiagonalSolveInPlace f b = .ok x ∧ ∀ t < 3, ∀ i < 2, (blockAt x t i).Finite := by
  obtain ⟨s, T, hs, hT, hc⟩ : ∃ s T, tridiagonalSparsity tridiagA tridiagB [1, 0] = .ok s ∧ arrowheadTypes s = .ok T ∧
      ∀ i < 2, T.tridiagDiag.rowEntries i + T.tridiagSubdiag.rowEntries i ≤ 5 ∧
        T.tridiagDiag.colEntries i + T.tridiagSubdiag.colEntries i < 4 := by
    have h : (do
        let s ← tridiagonalSparsity tridiagA tridiagB [1, 0]
        let T ← arrowheadTypes s
        return (List.range 2).all fun i => decide (T.tridiagDiag.rowEntries i + T.tridiagSubdiag.rowEntries i ≤ 5) &&
          decide (T.tridiagDiag.colEntries i + T.tridiagSubdiag.colEntries i < 4)) =
        (.ok true : Res Bool) := by decide +kernel
    obtain ⟨s, hs, h⟩ := bind_eq_ok.mp h
    obtain ⟨T, hT, h⟩ := bind_eq_ok.mp h
    have h' := Except.ok.inj h
    simp only [List.all_eq_true, List.mem_range, Bool.and_eq_true, decide_eq_true_eq] at h'
    exact ⟨s, T, hs, hT, h'⟩
  have hd : TridiagonalDeclared (freshFactor s T ⟨0, 2, 0, 0⟩ 2 (0 : Double)) tridiagA tridiagB [1, 0] T 2 2 :=
    ⟨s, hs, C21_constructible s _ T hT 2 0⟩
  have hfits : TridiagonalFits (tridiagDouble quasiTridiagA) (tridiagDouble tridiagValuesB) [1, 0] T 2 2 :=
    C37_declared_fits tridiagA tridiagB [1, 0] 2 tridiag_valid 2 _ T hd _ _ le_rfl le_rfl
      (fun t ht => by rcases t with _ | _ | _ | t <;> first | exact ⟨rfl, rfl⟩ | omega)
      (fun t ht => by rcases t with _ | _ | t <;> first | exact ⟨rfl, rfl⟩ | omega)
  obtain ⟨f, h1, h2⟩ := C76_tridiagonal doubleR tridiagA tridiagB [1, 0] 2 tridiag_valid 2 _ T hd
    (tridiagDouble quasiTridiagA) (tridiagDouble tridiagValuesB) hfits .entryWise 5 (fun i hi => (hc i hi).1) 4
    (fun i hi => (hc i hi).2) _ 9 (1 / 4) 1944 _ 3 quasiRhs _ _ double_ampleQuasi'' (double_ampleQuasiSolve' (by decide))
    (fun k hk l hl => ⟨by
      have : ∀ k ∈ tridiagonalPositions 2 2, ∀ l ∈ tridiagonalPositions 2 2,
        (tridiagonalAssembled (tridiagDouble quasiTridiagA) (tridiagDouble tridiagValuesB) k l).Finite := by decide +kernel
      exact this k hk l hl, trivial⟩)
    (by decide +kernel) _ quasiTridiag_quasiDef regularizationNone (fun _ _ _ _ => rfl)
  refine ⟨s, T, f, hs, hT, h1, fun b hb hb' => ?_⟩
  obtain ⟨x, hx, -, h3, -⟩ := h2 b hb fun t ht i hi => ⟨(hb' t ht i hi).1, trivial, (hb' t ht i hi).2⟩
  exact ⟨x, hx, fun t ht i hi => (h3 t ht i hi).1⟩

end Ctldl
