import Verif.Lemmas.DefiniteFactor
import Verif.Props.ArrowheadSolve
import Verif.Props.Solve

/-! # C48: pivots of definite and quasidefinite matrices -/

namespace Ctldl

open Finset

variable {K : Type}

private theorem fits1 [Zero K] [Sub K] [Mul K] [Div K] {f : DiagFactor K} {s : Sparsity} {p : List Nat}
    (hv : ValidSparsity s p)
    (hf : f.Declared s p) {m : MatIn K} (hm : m.Fits s p) : Fits1 m f s.numRows := by
  refine ⟨hm.sized, ⟨hm.inRange, hm.rows, hm.cols⟩, ?_⟩
  intro i j hij
  rw [hf.perm] at hij
  have h1 := hm.subset i j hij
  rw [Csr.Has, (hf.closed1 hv).2.2.2.2]
  have h2 := hij.1
  have h3 := hij.2.1
  rw [hm.rows] at h3
  exact ⟨h3, by omega, h1⟩

theorem leadingExact_factorize [Field K] {f : DiagFactor K} {s : Sparsity} {p : List Nat} (hv : ValidSparsity s p)
    (hf : f.Declared s p) {m : MatIn K} (hm : m.Fits s p) (reg : K → Nat → K) (method : Method)
    {f' : DiagFactor K} (h : f.factorize m reg method = .ok f') :
    f'.Declared s p ∧ LeadingExact (range s.numRows) (fun i => i) (unitLower f'.lower) f'.pivot
      (fun i j => m.sym (permAt p i) (permAt p j)) reg := by
  obtain ⟨hc, -⟩ := hf.closed1 hv
  obtain ⟨L, D, rfl, hL, hD, hrows⟩ := Sat.of_ok (factorize_sat hc (fits1 hv hf hm) reg method) h
  refine ⟨⟨hf.pattern, hf.perm, hL, hD⟩, ?_⟩
  have := leadingExact_single hc (fits1 hv hf hm) hrows
  rw [hf.perm] at this
  exact this

theorem perm_facts {p : List Nat} {n : Nat} (hp : IsPerm p n) :
    (∀ i ∈ range n, permAt p i ∈ range n) ∧
    (∀ i ∈ range n, ∀ j ∈ range n, permAt p i = permAt p j → i = j) ∧
    ∀ i ∈ range n, ∃ j ∈ range n, permAt p j = i := by
  refine ⟨fun i hi => mem_range.mpr (hp.lt (mem_range.mp hi)), fun i hi j hj h => ?_, fun i hi => ?_⟩
  · exact hp.inj (mem_range.mp hi) (mem_range.mp hj) h
  · obtain ⟨j, hj, h⟩ := hp.surj (mem_range.mp hi)
    exact ⟨j, mem_range.mpr hj, h⟩

/-! ### Single matrices -/

/-- C48: without regularization, no pivot is zero exactly if all leading principal submatrices of the permuted matrix
are regular. -/
theorem C48_nonzero_iff [Field K] (s : Sparsity) (p : List Nat) (hv : ValidSparsity s p)
    (f : DiagFactor K) (hf : f.Declared s p) (m : MatIn K) (hm : m.Fits s p) (method : Method)
    (f' : DiagFactor K) (h : f.factorize m regularizationNone method = .ok f') :
    (∀ i < s.numRows, f'.pivot i ≠ 0) ↔ ∀ k < s.numRows, LeadingNonsingular (range s.numRows) (· < ·)
      (fun i j => m.sym (permAt p i) (permAt p j)) k := by
  have hx := (leadingExact_factorize hv hf hm regularizationNone method h).2.ne_zero_iff
  simp only [mem_range] at hx
  rw [hx]
  refine forall_congr' fun k => forall_congr' fun hk => ?_
  exact (leadingNonsingular_iff (fun _ _ _ _ => Iff.rfl) (mem_range.mpr hk)).symm

/-- C48: quasidefinite matrices are factorized without a zero pivot and without any change by the regularization,
whatever the permutation and the method; the signs of the pivots are those of the diagonal blocks. -/
theorem C48_quasidefinite [Field K] [LinearOrder K] [IsStrictOrderedRing K] (s : Sparsity) (p : List Nat)
    (hv : ValidSparsity s p) (f : DiagFactor K) (hf : f.Declared s p) (m : MatIn K) (hm : m.Fits s p)
    (S : Nat → Prop) (μ : K) (hμ : 0 ≤ μ) (hS : QuasiDef (range s.numRows) S μ m.sym)
    (reg : K → Nat → K) (hreg : ∀ x i, μ < |x| → reg x i = x) (method : Method) :
    ∃ f', f.factorize m reg method = .ok f' ∧ f'.Declared s p ∧
      (∀ i < s.numRows, (S (permAt p i) → μ < f'.pivot i) ∧ (¬ S (permAt p i) → f'.pivot i < -μ) ∧
        f'.pivot i ≠ 0) ∧
      ∀ i < s.numRows, ∀ j < s.numRows, ldlt s.numRows f'.lower f'.pivot i j = m.sym (permAt p i) (permAt p j) := by
  obtain ⟨f', h, -⟩ := C25_factorize_total s p hv f hf m hm reg method
  obtain ⟨hd, hx⟩ := leadingExact_factorize hv hf hm reg method h
  obtain ⟨p1, p2, p3⟩ := perm_facts hv.perm
  obtain ⟨h1, h2⟩ := hx.quasiDef (fun i _ j _ => sym_comm m _ _) hμ hreg (hS.reindex p1 p2 p3)
  exact ⟨f', h, hd, fun i hi => h1 i (mem_range.mpr hi), fun i hi j hj => h2 i (mem_range.mpr hi) j (mem_range.mpr hj)⟩

/-- C48: without regularization all pivots are positive exactly if the matrix is positive definite. -/
theorem C48_positive_iff [Field K] [LinearOrder K] [IsStrictOrderedRing K] (s : Sparsity) (p : List Nat)
    (hv : ValidSparsity s p) (f : DiagFactor K) (hf : f.Declared s p) (m : MatIn K) (hm : m.Fits s p)
    (method : Method) (f' : DiagFactor K) (h : f.factorize m regularizationNone method = .ok f') :
    (∀ i < s.numRows, 0 < f'.pivot i) ↔ PosDef (range s.numRows) 0 m.sym := by
  obtain ⟨p1, p2, p3⟩ := perm_facts hv.perm
  constructor
  · intro hpos
    obtain ⟨hd, hx⟩ := leadingExact_factorize hv hf hm regularizationNone method h
    have hne : ∀ k ∈ range s.numRows, f'.pivot k ≠ 0 := fun k hk => (hpos k (mem_range.mp hk)).ne'
    have hall : ∀ i ∈ range s.numRows, ∀ j ∈ range s.numRows,
        ∑ r ∈ range s.numRows, unitLower f'.lower i r * f'.pivot r * unitLower f'.lower j r =
          m.sym (permAt p i) (permAt p j) := by
      intro i hi j hj
      refine LdltUpTo.all (rk := fun i => i) (A := fun i j => m.sym (permAt p i) (permAt p j)) (fun k hk => ?_) hi hj
      obtain ⟨δ, h1, h2⟩ := hx.upTo k hk fun j hj _ => hne j hj
      intro i hi hik j hj hjk
      rw [h2 i hi hik j hj hjk]
      beta_reduce
      rw [show f'.pivot i = δ i from h1 i hi hik, sub_self, ite_self, add_zero]
    have hp := posDef_of_pivots hx.unit hall fun k hk => hpos k (mem_range.mp hk)
    intro x hx
    have := hp (fun i => x (permAt p i)) (by
      obtain ⟨i, hi, hne⟩ := hx
      obtain ⟨j, hj, rfl⟩ := p3 i hi
      exact ⟨j, hj, hne⟩)
    rw [zero_mul]
    rw [← sum_reindex p1 p2 p3 fun i => ∑ j ∈ range s.numRows, x i * m.sym i j * x j]
    refine lt_of_lt_of_eq this (sum_congr rfl fun i _ => ?_)
    rw [← sum_reindex p1 p2 p3 fun j => x (permAt p i) * m.sym (permAt p i) j * x j]
  · intro hS i hi
    obtain ⟨f'', h', -, h1, -⟩ := C48_quasidefinite s p hv f hf m hm _ 0 (le_refl _) hS.quasiDef regularizationNone
      (fun _ _ _ => rfl) method
    rw [h] at h'
    cases h'
    exact (h1 i hi).1 trivial

/-- C48: systems with quasidefinite matrices (in particular positive or negative definite ones) are solved, with any
regularization which does not change pivots above the margin. -/
theorem C48_solve [Field K] [LinearOrder K] [IsStrictOrderedRing K] (s : Sparsity) (p : List Nat)
    (hv : ValidSparsity s p) (f : DiagFactor K) (hf : f.Declared s p) (m : MatIn K) (hm : m.Fits s p)
    (S : Nat → Prop) (μ : K) (hμ : 0 ≤ μ) (hS : QuasiDef (range s.numRows) S μ m.sym)
    (reg : K → Nat → K) (hreg : ∀ x i, μ < |x| → reg x i = x) (method : Method) (b : List K)
    (hb : b.length = s.numRows) :
    ∃ f' x, f.factorize m reg method = .ok f' ∧ f'.solveInPlace b = .ok x ∧ x.length = s.numRows ∧
      ∀ a < s.numRows, ∑ j ∈ range s.numRows, m.sym a j * x.getD j 0 = b.getD a 0 := by
  obtain ⟨f', h, -, h1, h2⟩ := C48_quasidefinite s p hv f hf m hm S μ hμ hS reg hreg method
  obtain ⟨x, δ, g1, g2, g3, g4⟩ := C29_solve s p hv f hf m hm reg method f' h (fun i hi => (h1 i hi).2.2) b hb
  refine ⟨f', x, h, g1, g2, fun a ha => ?_⟩
  obtain ⟨i, hi, rfl⟩ := hv.perm.surj ha
  have e1 := g4 i hi
  have e2 := g3.2 i hi i hi
  rw [if_pos rfl, h2 i hi i hi] at e2
  have : f'.pivot i - δ i = 0 := by linear_combination -e2
  rwa [this, zero_mul, add_zero] at e1

/-! ### Repeating block matrices -/

private theorem typesOk {s : ArrowheadSparsity} {T : ArrowheadTypes} {d : Dims} (hs : s.Valid d)
    (hT : arrowheadTypes s = .ok T) : TypesOk s T d := by
  obtain ⟨T', h, h'⟩ := arrowheadTypes_sat hs
  rw [hT] at h
  cases h
  exact h'

/-- The assembled symmetric matrix over the positions, in the original order. -/
def ArrowheadMatrix.assembled [Zero K] (m : ArrowheadMatrix K) (N : Nat) (x y : Σ _ : Blk, Nat) : K :=
  m.symElement N x.1 y.1 x.2 y.2

/-- The position to which a position is mapped by the permutation of its block. -/
def ArrowheadSparsity.permPos (s : ArrowheadSparsity) (x : Σ _ : Blk, Nat) : Σ _ : Blk, Nat :=
  ⟨x.1, permAt (s.perm x.1) x.2⟩

theorem permPos_facts {s : ArrowheadSparsity} {d : Dims} (hs : s.Valid d) (N : Nat) :
    (∀ i ∈ positions d N, s.permPos i ∈ positions d N) ∧
    (∀ i ∈ positions d N, ∀ j ∈ positions d N, s.permPos i = s.permPos j → i = j) ∧
    ∀ i ∈ positions d N, ∃ j ∈ positions d N, s.permPos j = i := by
  refine ⟨fun x hx => ?_, fun x hx y hy h => ?_, fun x hx => ?_⟩
  · obtain ⟨h1, h2⟩ := mem_positions.mp hx
    exact mem_positions.mpr ⟨h1, (valid_perm hs x.1).lt h2⟩
  · obtain ⟨a, i⟩ := x
    obtain ⟨b, j⟩ := y
    simp only [ArrowheadSparsity.permPos, Sigma.mk.injEq, heq_eq_eq] at h
    obtain ⟨rfl, h⟩ := h
    have e : i = j := (valid_perm hs a).inj (mem_positions.mp hx).2 (mem_positions.mp hy).2 h
    rw [e]
  · obtain ⟨a, i⟩ := x
    obtain ⟨h1, h2⟩ := mem_positions.mp hx
    obtain ⟨j, hj, rfl⟩ := (valid_perm hs a).surj h2
    exact ⟨⟨a, j⟩, mem_positions.mpr ⟨h1, hj⟩, rfl⟩

theorem leadingExact_assembled [Field K] {s : ArrowheadSparsity} {d : Dims} (hs : s.Valid d) {T : ArrowheadTypes}
    {N : Nat} {f : ArrowheadFactor K} (hf : f.Declared s T d N) {m : ArrowheadMatrix K} (hm : m.Fits s T d N)
    (reg : K → Nat → K) (method : Method) {f' : ArrowheadFactor K}
    (h : f.factorize d.tridiag d.link d.outer m reg method = .ok f') :
    f'.Declared s T d N ∧ LeadingExact (positions d N) (posRank d N) (fun x y => f'.lowerElement N x.1 y.1 x.2 y.2)
      (fun x => f'.pivotAt x.1 x.2) (fun x y => m.assembled N (s.permPos x) (s.permPos y)) (fun v x => reg v x.2) := by
  have hT := typesOk hs hf.types
  obtain ⟨hd, hr⟩ := Sat.of_ok (arrowheadFactorize_sat hs hT hf hm.matrixOk reg method) h
  exact ⟨hd, leadingExact_arrowhead hT hd hm hr⟩

theorem assembled_symm [Field K] {s : ArrowheadSparsity} {d : Dims} (hs : s.Valid d) {T : ArrowheadTypes}
    {N : Nat} {m : ArrowheadMatrix K} (hm : m.Fits s T d N) (x y : Σ _ : Blk, Nat) (hx : x ∈ positions d N)
    (hy : y ∈ positions d N) : m.assembled N x y = m.assembled N y x := by
  obtain ⟨h1, h2⟩ := mem_positions.mp hx
  obtain ⟨h3, h4⟩ := mem_positions.mp hy
  exact symElement_symm hs hm h1 h3 h2 h4

/-- C48: for repeating block matrices, no pivot is zero exactly if all leading principal submatrices in the order of
elimination are regular. -/
theorem C48_repeating_nonzero_iff [Field K] (s : ArrowheadSparsity) (d : Dims) (hs : s.Valid d) (T : ArrowheadTypes)
    (N : Nat) (f : ArrowheadFactor K) (hf : f.Declared s T d N) (m : ArrowheadMatrix K) (hm : m.Fits s T d N)
    (method : Method) (f' : ArrowheadFactor K)
    (h : f.factorize d.tridiag d.link d.outer m regularizationNone method = .ok f') :
    (∀ a ∈ blocks N, ∀ i < d.of a, f'.pivotAt a i ≠ 0) ↔
      ∀ k ∈ positions d N, LeadingNonsingular (positions d N) (fun x y => Before N x.1 x.2 y.1 y.2)
        (fun x y => m.assembled N (s.permPos x) (s.permPos y)) k := by
  have hx := (leadingExact_assembled hs hf hm regularizationNone method h).2.ne_zero_iff
  have e : (∀ a ∈ blocks N, ∀ i < d.of a, f'.pivotAt a i ≠ 0) ↔ ∀ k ∈ positions d N, f'.pivotAt k.1 k.2 ≠ 0 :=
    ⟨fun h k hk => h k.1 (mem_positions.mp hk).1 k.2 (mem_positions.mp hk).2,
      fun h a ha i hi => h ⟨a, i⟩ (mem_positions.mpr ⟨ha, hi⟩)⟩
  rw [e, hx]
  refine forall_congr' fun k => forall_congr' fun hk => ?_
  exact (leadingNonsingular_iff (rk := posRank d N) (fun x hx y hy => posRank_before hx hy) hk).symm

/-- C48: quasidefinite repeating block matrices are factorized without a zero pivot and without any change by the
regularization, whatever the permutations, the method and the number of repetitions; the signs of the pivots are those
of the diagonal blocks. -/
theorem C48_repeating_quasidefinite [Field K] [LinearOrder K] [IsStrictOrderedRing K] (s : ArrowheadSparsity)
    (d : Dims) (hs : s.Valid d) (T : ArrowheadTypes) (N : Nat) (f : ArrowheadFactor K) (hf : f.Declared s T d N)
    (m : ArrowheadMatrix K) (hm : m.Fits s T d N) (S : (Σ _ : Blk, Nat) → Prop) (μ : K) (hμ : 0 ≤ μ)
    (hS : QuasiDef (positions d N) S μ (m.assembled N)) (reg : K → Nat → K) (hreg : ∀ x i, μ < |x| → reg x i = x)
    (method : Method) :
    ∃ f', f.factorize d.tridiag d.link d.outer m reg method = .ok f' ∧ f'.Declared s T d N ∧
      (∀ a ∈ blocks N, ∀ i < d.of a, (S ⟨a, permAt (s.perm a) i⟩ → μ < f'.pivotAt a i) ∧
        (¬ S ⟨a, permAt (s.perm a) i⟩ → f'.pivotAt a i < -μ) ∧ f'.pivotAt a i ≠ 0) ∧
      ∀ a ∈ blocks N, ∀ b ∈ blocks N, ∀ i < d.of a, ∀ j < d.of b,
        f'.ldlt d N a b i j = m.symElement N a b (permAt (s.perm a) i) (permAt (s.perm b) j) := by
  obtain ⟨f', h, -⟩ := arrowheadFactorize_sat hs (typesOk hs hf.types) hf hm.matrixOk reg method
  obtain ⟨hd, hx⟩ := leadingExact_assembled hs hf hm reg method h
  obtain ⟨p1, p2, p3⟩ := permPos_facts hs N
  obtain ⟨h1, h2⟩ := hx.quasiDef (fun x hx y hy => assembled_symm hs hm _ _ (p1 x hx) (p1 y hy)) hμ
    (fun x i => hreg x i.2) (hS.reindex p1 p2 p3)
  refine ⟨f', h, hd, fun a ha i hi => h1 ⟨a, i⟩ (mem_positions.mpr ⟨ha, hi⟩), fun a ha b hb i hi j hj => ?_⟩
  have := h2 ⟨a, i⟩ (mem_positions.mpr ⟨ha, hi⟩) ⟨b, j⟩ (mem_positions.mpr ⟨hb, hj⟩)
  refine Eq.trans ?_ this
  unfold positions ArrowheadFactor.ldlt
  rw [sum_sigma]

/-- C48: without regularization all pivots of a repeating block matrix are positive exactly if the assembled matrix is
positive definite. -/
theorem C48_repeating_positive_iff [Field K] [LinearOrder K] [IsStrictOrderedRing K] (s : ArrowheadSparsity)
    (d : Dims) (hs : s.Valid d) (T : ArrowheadTypes) (N : Nat) (f : ArrowheadFactor K) (hf : f.Declared s T d N)
    (m : ArrowheadMatrix K) (hm : m.Fits s T d N) (method : Method) (f' : ArrowheadFactor K)
    (h : f.factorize d.tridiag d.link d.outer m regularizationNone method = .ok f') :
    (∀ a ∈ blocks N, ∀ i < d.of a, 0 < f'.pivotAt a i) ↔ PosDef (positions d N) 0 (m.assembled N) := by
  obtain ⟨p1, p2, p3⟩ := permPos_facts hs N
  constructor
  · intro hpos
    have hpos : ∀ k ∈ positions d N, 0 < f'.pivotAt k.1 k.2 := fun k hk =>
      hpos k.1 (mem_positions.mp hk).1 k.2 (mem_positions.mp hk).2
    obtain ⟨hd, hx⟩ := leadingExact_assembled hs hf hm regularizationNone method h
    have hall : ∀ x ∈ positions d N, ∀ y ∈ positions d N,
        ∑ r ∈ positions d N, f'.lowerElement N x.1 r.1 x.2 r.2 * f'.pivotAt r.1 r.2 *
          f'.lowerElement N y.1 r.1 y.2 r.2 = m.assembled N (s.permPos x) (s.permPos y) := by
      intro x hx' y hy'
      refine LdltUpTo.all (rk := posRank d N) (u := fun x y => f'.lowerElement N x.1 y.1 x.2 y.2)
        (d := fun x => f'.pivotAt x.1 x.2) (A := fun x y => m.assembled N (s.permPos x) (s.permPos y))
        (fun k hk => ?_) hx' hy'
      obtain ⟨δ, h1, h2⟩ := hx.upTo k hk fun j hj _ => (hpos j hj).ne'
      intro i hi hik j hj hjk
      rw [h2 i hi hik j hj hjk]
      beta_reduce
      rw [show f'.pivotAt i.1 i.2 = δ i from h1 i hi hik, sub_self, ite_self, add_zero]
    have hp := posDef_of_pivots hx.unit hall hpos
    intro x hx
    have := hp (fun i => x (s.permPos i)) (by
      obtain ⟨i, hi, hne⟩ := hx
      obtain ⟨j, hj, rfl⟩ := p3 i hi
      exact ⟨j, hj, hne⟩)
    rw [zero_mul]
    rw [← sum_reindex p1 p2 p3 fun i => ∑ j ∈ positions d N, x i * m.assembled N i j * x j]
    refine lt_of_lt_of_eq this (sum_congr rfl fun i _ => ?_)
    rw [← sum_reindex p1 p2 p3 fun j => x (s.permPos i) * m.assembled N (s.permPos i) j * x j]
  · intro hS a ha i hi
    obtain ⟨f'', h', -, h1, -⟩ := C48_repeating_quasidefinite s d hs T N f hf m hm _ 0 (le_refl _) hS.quasiDef
      regularizationNone (fun _ _ _ => rfl) method
    rw [h] at h'
    cases h'
    exact (h1 a ha i hi).1 trivial

/-- C48: systems with quasidefinite repeating block matrices are solved, with any regularization which does not change
pivots above the margin. -/
theorem C48_repeating_solve [Field K] [LinearOrder K] [IsStrictOrderedRing K] (s : ArrowheadSparsity)
    (d : Dims) (hs : s.Valid d) (T : ArrowheadTypes) (N : Nat) (f : ArrowheadFactor K) (hf : f.Declared s T d N)
    (m : ArrowheadMatrix K) (hm : m.Fits s T d N) (S : (Σ _ : Blk, Nat) → Prop) (μ : K) (hμ : 0 ≤ μ)
    (hS : QuasiDef (positions d N) S μ (m.assembled N)) (reg : K → Nat → K) (hreg : ∀ x i, μ < |x| → reg x i = x)
    (method : Method) (b : ArrowheadVector K) (hb : b.OfSize d N) :
    ∃ f' x, f.factorize d.tridiag d.link d.outer m reg method = .ok f' ∧ f'.solveInPlace b = .ok x ∧
      x.OfSize d N ∧ ∀ a ∈ blocks N, ∀ i < d.of a,
        ∑ c ∈ blocks N, ∑ j ∈ range (d.of c), m.symElement N a c i j * x.at c j = b.at a i := by
  obtain ⟨f', h, -, h1, h2⟩ := C48_repeating_quasidefinite s d hs T N f hf m hm S μ hμ hS reg hreg method
  obtain ⟨x, δ, g1, g2, g3, g4⟩ := C35_solve s d hs T N f hf m hm reg method f' h
    (fun a ha i hi => (h1 a ha i hi).2.2) b hb
  refine ⟨f', x, h, g1, g2, fun a ha k hk => ?_⟩
  obtain ⟨i, hi, rfl⟩ := (valid_perm hs a).surj hk
  have e1 := g4 a ha i hi
  have e2 := g3.2 a ha a ha i hi i hi
  rw [if_pos ⟨rfl, rfl⟩, h2 a ha a ha i hi i hi] at e2
  have : f'.pivotAt a i - δ a i = 0 := by linear_combination -e2
  rwa [this, zero_mul, add_zero] at e1

/-! ### The hypotheses can be met -/

/-- The matrix of C22 with values making it indefinite. -/
def quasiM : MatIn ℚ := ⟨witnessS, [3, 2, -1, 4, 100, -5]⟩

/-- It is quasidefinite with margin one, the last row being the negative one. -/
theorem quasiM_quasiDef : QuasiDef (range witnessS.numRows) (fun i => i < 2) 1 quasiM.sym := by
  have e : ∀ x : Nat → ℚ, ∑ i ∈ range 3, ∑ j ∈ range 3, x i * quasiM.sym i j * x j =
      quasiM.sym 0 0 * x 0 ^ 2 + quasiM.sym 1 1 * x 1 ^ 2 + quasiM.sym 2 2 * x 2 ^ 2 +
      2 * quasiM.sym 1 0 * x 0 * x 1 + 2 * quasiM.sym 2 0 * x 0 * x 2 + 2 * quasiM.sym 2 1 * x 1 * x 2 := by
    intro x
    simp only [sum_range_succ, range_zero, sum_empty]
    rw [sym_comm quasiM 0 1, sym_comm quasiM 0 2, sym_comm quasiM 1 2]
    ring
  have v : quasiM.sym 0 0 = 4 ∧ quasiM.sym 1 1 = 3 ∧ quasiM.sym 2 2 = -5 ∧ quasiM.sym 1 0 = -1 := by decide +kernel
  obtain ⟨v0, v1, v2, v3⟩ := v
  constructor
  · intro x hx hS
    have h2 : x 2 = 0 := hS 2 (by decide) (by omega)
    show 1 * ∑ i ∈ range 3, x i ^ 2 < ∑ i ∈ range 3, ∑ j ∈ range 3, x i * quasiM.sym i j * x j
    rw [e x, h2, v0, v1, v3]
    simp only [sum_range_succ, range_zero, sum_empty, h2]
    have : x 0 ≠ 0 ∨ x 1 ≠ 0 := by
      obtain ⟨i, hi, hne⟩ := hx
      have hi : i < 3 := mem_range.mp hi
      rcases i with _ | _ | _ | i
      · exact Or.inl hne
      · exact Or.inr hne
      · exact absurd h2 hne
      · omega
    rcases this with h | h
    · nlinarith [sq_pos_of_ne_zero h, sq_nonneg (x 0 - x 1), sq_nonneg (x 1)]
    · nlinarith [sq_pos_of_ne_zero h, sq_nonneg (x 0 - x 1), sq_nonneg (x 0)]
  · intro x hx hS
    have h0 : x 0 = 0 := hS 0 (by decide) (by omega)
    have h1 : x 1 = 0 := hS 1 (by decide) (by omega)
    show ∑ i ∈ range 3, ∑ j ∈ range 3, x i * quasiM.sym i j * x j < -(1 * ∑ i ∈ range 3, x i ^ 2)
    rw [e x, h0, h1, v2]
    simp only [sum_range_succ, range_zero, sum_empty, h0, h1]
    have : x 2 ≠ 0 := by
      obtain ⟨i, hi, hne⟩ := hx
      have hi : i < 3 := mem_range.mp hi
      rcases i with _ | _ | _ | i
      · exact absurd h0 hne
      · exact absurd h1 hne
      · exact hne
      · omega
    nlinarith [sq_pos_of_ne_zero this]

/-- The hypotheses of the theorems on single matrices are met, and the pivots have the signs claimed. -/
example : quasiM.Fits witnessS [0, 2, 1] ∧ (do
    let f ← witnessF.factorize quasiM (regularizationSmallPositiveConstant (fun x => if x < 0 then -x else x) 1 2) .upLooking
    return f.D : Res (List ℚ)) = .ok [4, -6, 67 / 24] :=
  ⟨⟨rfl, witness_valid.inRange, rfl, rfl, fun i j h => .base h h.1⟩, by decide +kernel⟩

/-- Witness: the factor of C34. -/
def definiteRun : Res (ArrowheadTypes × ArrowheadFactor ℚ) := do
  let T ← arrowheadTypes arrowS
  let f ← (freshFactor arrowS T arrowD 1 (17 : ℚ)).factorize 2 1 1 arrowM regularizationNone .upLooking
  return (T, f)

def definiteCheck : Bool :=
  match definiteRun with
  | .ok (_, f) => decide (∀ a ∈ blocks 1, ∀ i < arrowD.of a, 0 < f.pivotAt a i)
  | _ => false

/-- The matrix of C34 is positive definite, which meets the hypothesis of the theorems on repeating block matrices. -/
theorem arrowM_posDef : PosDef (positions arrowD 1) 0 (arrowM.assembled 1) := by
  have h : definiteCheck = true := by decide +kernel
  unfold definiteCheck at h
  split at h
  · next T f hrun =>
    unfold definiteRun at hrun
    obtain ⟨T', hT, hrun⟩ := bind_eq_ok.mp hrun
    obtain ⟨f', hf, hrun⟩ := bind_eq_ok.mp hrun
    cases hrun
    exact (C48_repeating_positive_iff arrowS arrowD arrowS_valid T 1 _ (C21_constructible arrowS arrowD T hT 1 17)
      arrowM (arrowM_fits hT) .upLooking f hf).mp (of_decide_eq_true h)
  · cases h

/-- A matrix with a zero leading principal submatrix: its pivot is zero, although the matrix is regular. -/
example : ¬ LeadingNonsingular (range 2) (· < ·) (fun i j : Nat => if i = j then (0 : ℚ) else 1) 0 := by
  intro h
  have := h (fun i => if i = 0 then 1 else 0) (fun j _ hj => if_neg (by omega)) (fun i _ hi => by
    obtain rfl : i = 0 := by omega
    simp) 0 (by decide)
  simp at this

end Ctldl
