import Verif.Lemmas.DefiniteRounding
import Verif.Lemmas.ColumnCount
import Verif.Props.Definite
import Verif.Props.RoundingSolve

/-! # C53: pivots of definite matrices in arithmetic with rounding -/

namespace Ctldl

open Finset

variable {K F : Type} [Zero K] [Sub K] [Mul K] [Div K] [Field F] [LinearOrder F] [IsStrictOrderedRing F]

/-- The amount by which the diagonal element `a` has to be reducible without the matrix losing its definiteness, for it
to keep positive pivots in arithmetic with rounding: `n` and `c` bound the number of entries in a row and in a column of
the factor, `dim` is the number of rows of the matrix and `ε` bounds the errors by underflow. -/
def Rounding.margin (R : Rounding K F) (n c dim : Nat) (ε a : F) : F :=
  c * R.gamma (n + 2) / (1 - R.gamma (n + 2)) * (a + R.growth (n + 2) * ((n + 1) * ε)) +
    dim * (R.growth (n + 2) * ((n + 1) * ε))

omit [Zero K] [Sub K] [Mul K] [Div K] in
theorem PosDef.reindex {ι : Type} {s : Finset ι} {e : ι → ι} (h1 : ∀ i ∈ s, e i ∈ s)
    (h2 : ∀ i ∈ s, ∀ j ∈ s, e i = e j → i = j) (h3 : ∀ i ∈ s, ∃ j ∈ s, e j = i) {μ : F}
    {A : ι → ι → F} (h : PosDef s μ A) : PosDef s μ (fun i j => A (e i) (e j)) :=
  fun x hx => (h.quasiDef.reindex h1 h2 h3).1 x hx fun _ _ hn => absurd trivial hn

omit [Zero K] [Sub K] [Mul K] [Div K] in
theorem fits_single {f : DiagFactor K} {s : Sparsity} {p : List Nat} (hv : ValidSparsity s p)
    (hf : f.Declared s p) {m : MatIn K} (hm : m.Fits s p) : Fits1 m f s.numRows := by
  refine ⟨hm.sized, ⟨hm.inRange, hm.rows, hm.cols⟩, ?_⟩
  intro i j hij
  rw [hf.perm] at hij
  have h1 := hm.subset i j hij
  rw [Csr.Has, (hf.closed1 hv).2.2.2.2]
  have h2 := hij.1
  have h3 := hij.2.1
  rw [hm.rows] at h3
  exact ⟨h3, by omega, h1⟩

private theorem definite_single (R : Rounding K F) (s : Sparsity) (p : List Nat) (hv : ValidSparsity s p)
    (f : DiagFactor K) (hf : f.Declared s p) (m : MatIn K) (hm : m.Fits s p) (reg : K → Nat → K) (method : Method)
    (f' : DiagFactor K) (h : f.factorize m reg method = .ok f')
    (hfin : ∀ i < s.numRows, R.fin (f'.pivot i) ∧ ∀ x, f'.pivot i = reg x i → R.fin x)
    (ε : F) (h0 : 0 ≤ ε)
    (hε : ∀ i j, f'.sparsity.toSparsity.Has i j →
      R.η * (1 + |R.v (f'.pivot j)| * (1 + |R.v (f'.lower i j)|)) ≤ ε)
    (n : Nat) (hn : ∀ i < s.numRows, f'.sparsity.rowEntries i ≤ n)
    (c : Nat) (hc : ∀ j < s.numRows, f'.sparsity.colEntries j < c)
    (hγ : (2 * c + 1) * R.gamma (n + 2) ≤ 1) (hγ1 : R.gamma (n + 2) < 1)
    (μ : F) (hμ : 0 ≤ μ) (hreg : ∀ x i, R.fin x → μ < R.v x → reg x i = x)
    (hpd : PosDef (range s.numRows) μ fun i j => R.v (m.sym i j) -
      if i = j then R.margin n c s.numRows ε (R.v (m.sym i i)) else 0) :
    (∀ i < s.numRows, μ < R.v (f'.pivot i)) ∧ ∀ i < s.numRows, ∀ j < s.numRows,
      let M := fun i j => R.v (m.sym (permAt p i) (permAt p j))
      let e := R.growth (n + 2) * ((n + 1) * ε)
      let H := ldlt s.numRows (fun a b => |R.v (f'.lower a b)|) (fun a => |R.v (f'.pivot a)|) i j
      |M i j - ldlt s.numRows (fun a b => R.v (f'.lower a b)) (fun a => R.v (f'.pivot a)) i j| ≤
          R.gamma (n + 2) * H + e ∧ H ≤ ((M i i + M j j) / 2 + e) / (1 - R.gamma (n + 2)) ∧
        |M i j - ldlt s.numRows (fun a b => R.v (f'.lower a b)) (fun a => R.v (f'.pivot a)) i j| ≤
          R.gamma (n + 2) / (1 - R.gamma (n + 2)) * ((M i i + M j j) / 2 + e) + e := by
  obtain ⟨x, hx, hA⟩ := C46_single_backward_error R s p hv f hf m hm reg method f' h hfin ε h0 hε n hn
  obtain ⟨f'', h', hd⟩ := C25_factorize_total s p hv f hf m hm reg method
  obtain rfl : f'' = f' := by rw [h] at h'; cases h'; rfl
  obtain ⟨hcl, -⟩ := hd.closed1 hv
  obtain ⟨p1, p2, p3⟩ := perm_facts hv.perm
  have hu : UnitLower (range s.numRows) (fun i => i) (unitLower fun a b => R.v (f''.lower a b)) := by
    refine ⟨fun x _ y _ h => h, fun x _ => unitLower_self x, fun x _ y _ h => ?_⟩
    rw [unitLower_ne (by omega)]
    have : f''.lower x y = 0 := val_off fun hh => by
      have := hcl.ok.lower x y hh
      omega
    rw [this, R.v_zero]
  have hcol : ∀ r ∈ range s.numRows,
      ({i ∈ range s.numRows | unitLower (fun a b => R.v (f''.lower a b)) i r ≠ 0} : Finset Nat).card ≤ c := by
    intro r hr
    refine (card_col_single (c := f''.sparsity) (fun i j hij => ?_) _ r).trans (hc r (mem_range.mp hr))
    by_contra hn
    refine hij ?_
    have : f''.lower i j = 0 := val_off hn
    beta_reduce
    rw [this, R.v_zero]
  have hE : 0 ≤ R.growth (n + 2) * ((n + 1) * ε) := mul_nonneg (R.growth_pos _).le (by positivity)
  have hul : ∀ a b : Nat, |unitLower (fun a b => R.v (f''.lower a b)) a b| =
      unitLower (fun a b => |R.v (f''.lower a b)|) a b := fun a b => by
    unfold unitLower
    split
    · exact abs_one
    · rfl
  have key := approx_pivots_pos (s := range s.numRows) (rk := fun i => i)
    (u := unitLower fun a b => R.v (f''.lower a b)) (d := fun i => R.v (f''.pivot i)) (p := fun i => R.v (x i))
    (A := fun i j => R.v (m.sym (permAt p i) (permAt p j))) hu (R.gamma_nonneg _) hE hμ
    (fun i hi j hj => by
      simp only [hul]
      exact hA i (mem_range.mp hi) j (mem_range.mp hj))
    (fun i hi hlt => by
      have := hx i (mem_range.mp hi)
      rw [hreg (x i) i ((hfin i (mem_range.mp hi)).2 _ this) hlt] at this
      beta_reduce
      rw [this]) hcol hγ hγ1
    ((hpd.reindex p1 p2 p3).congr fun i hi j hj => by
      congr 1
      by_cases hij : i = j
      · subst hij
        rw [if_pos rfl, if_pos rfl, card_range]
        rfl
      · rw [if_neg hij, if_neg fun h => hij (p2 i hi j hj h)])
  have hpos : ∀ i < s.numRows, μ < R.v (f''.pivot i) ∧ R.v (x i) = R.v (f''.pivot i) := fun i hi => by
    obtain ⟨k1, k2⟩ := key i (mem_range.mpr hi)
    exact ⟨by beta_reduce at k1 k2; rw [k2]; exact k1, k2.symm⟩
  have hA' : ∀ i < s.numRows, ∀ j < s.numRows,
      |R.v (m.sym (permAt p i) (permAt p j)) -
          ldlt s.numRows (fun a b => R.v (f''.lower a b)) (fun a => R.v (f''.pivot a)) i j| ≤
        R.gamma (n + 2) * ldlt s.numRows (fun a b => |R.v (f''.lower a b)|) (fun a => |R.v (f''.pivot a)|) i j +
          R.growth (n + 2) * ((n + 1) * ε) := by
    intro i hi j hj
    have := hA i hi j hj
    rwa [(hpos i hi).2, sub_self, sub_self, ite_self, add_zero, add_zero] at this
  refine ⟨fun i hi => (hpos i hi).1, fun i hi j hj => ?_⟩
  have h1 := approx_stable (s := range s.numRows) (u := unitLower fun a b => R.v (f''.lower a b))
    (d := fun i => R.v (f''.pivot i)) (A := fun i j => R.v (m.sym (permAt p i) (permAt p j)))
    (R.gamma_nonneg _) hγ1 (fun i hi => (hμ.trans_lt (hpos i (mem_range.mp hi)).1).le) (fun i hi j hj => by
      have := hA' i (mem_range.mp hi) j (mem_range.mp hj)
      simp only [hul]
      exact this)
    (mem_range.mpr hi) (mem_range.mpr hj)
  simp only [hul] at h1
  exact ⟨hA' i hi j hj, h1⟩

/-- C53: a matrix which is positive definite by a margin is factorized with positive pivots also in arithmetic with
rounding, as long as the pivots are finite. The regularization does not change anything and the product of the computed
factors differs from the matrix by little more than a unit roundoff of the diagonal elements, without any growth. -/
theorem C53_single (R : Rounding K F) (s : Sparsity) (p : List Nat) (hv : ValidSparsity s p)
    (f : DiagFactor K) (hf : f.Declared s p) (m : MatIn K) (hm : m.Fits s p) (reg : K → Nat → K) (method : Method)
    (f' : DiagFactor K) (h : f.factorize m reg method = .ok f')
    (hfin : ∀ i < s.numRows, R.fin (f'.pivot i) ∧ ∀ x, f'.pivot i = reg x i → R.fin x)
    (ε : F) (h0 : 0 ≤ ε)
    (hε : ∀ i j, f'.sparsity.toSparsity.Has i j →
      R.η * (1 + |R.v (f'.pivot j)| * (1 + |R.v (f'.lower i j)|)) ≤ ε)
    (n : Nat) (hn : ∀ i < s.numRows, f'.sparsity.rowEntries i ≤ n)
    (c : Nat) (hc : ∀ j < s.numRows, f'.sparsity.colEntries j < c)
    (hγ : (2 * c + 1) * R.gamma (n + 2) ≤ 1) (hγ1 : R.gamma (n + 2) < 1)
    (μ : F) (hμ : 0 ≤ μ) (hreg : ∀ x i, R.fin x → μ < R.v x → reg x i = x)
    (hpd : PosDef (range s.numRows) μ fun i j => R.v (m.sym i j) -
      if i = j then R.margin n c s.numRows ε (R.v (m.sym i i)) else 0) :
    (∀ i < s.numRows, μ < R.v (f'.pivot i)) ∧ ∀ i < s.numRows, ∀ j < s.numRows,
      |R.v (m.sym (permAt p i) (permAt p j)) -
          ldlt s.numRows (fun a b => R.v (f'.lower a b)) (fun a => R.v (f'.pivot a)) i j| ≤
        R.gamma (n + 2) / (1 - R.gamma (n + 2)) *
          ((R.v (m.sym (permAt p i) (permAt p i)) + R.v (m.sym (permAt p j) (permAt p j))) / 2 +
            R.growth (n + 2) * ((n + 1) * ε)) + R.growth (n + 2) * ((n + 1) * ε) := by
  obtain ⟨h1, h2⟩ := definite_single R s p hv f hf m hm reg method f' h hfin ε h0 hε n hn c hc hγ hγ1 μ hμ hreg hpd
  exact ⟨h1, fun i hi j hj => (h2 i hi j hj).2.2⟩

/-- C53: the residual of a computed solution is bounded by the diagonal elements of the matrix. -/
theorem C53_single_residual (R : Rounding K F) (s : Sparsity) (p : List Nat) (hv : ValidSparsity s p)
    (f : DiagFactor K) (hf : f.Declared s p) (m : MatIn K) (hm : m.Fits s p) (reg : K → Nat → K) (method : Method)
    (f' : DiagFactor K) (h : f.factorize m reg method = .ok f')
    (hfin : ∀ i < s.numRows, R.fin (f'.pivot i) ∧ ∀ x, f'.pivot i = reg x i → R.fin x)
    (ε : F) (h0 : 0 ≤ ε)
    (hε : ∀ i j, f'.sparsity.toSparsity.Has i j →
      R.η * (1 + |R.v (f'.pivot j)| * (1 + |R.v (f'.lower i j)|)) ≤ ε)
    (n : Nat) (hn : ∀ i < s.numRows, f'.sparsity.rowEntries i ≤ n)
    (c : Nat) (hc : ∀ j < s.numRows, f'.sparsity.colEntries j ≤ c)
    (hγ : (2 * c + 3) * R.gamma (n + 2) ≤ 1) (hγ1 : R.gamma (n + 2) < 1)
    (μ : F) (hμ : 0 ≤ μ) (hreg : ∀ x i, R.fin x → μ < R.v x → reg x i = x)
    (hpd : PosDef (range s.numRows) μ fun i j => R.v (m.sym i j) -
      if i = j then R.margin n (c + 1) s.numRows ε (R.v (m.sym i i)) else 0)
    (b : List K) (hb : b.length = s.numRows) (x : List K) (hx : f'.solveInPlace b = .ok x)
    (hxfin : ∀ i < s.numRows, R.fin (x.getD i 0)) :
    let A := fun i j => R.v (m.sym i j)
    let e := R.growth (n + 2) * ((n + 1) * ε)
    let B := fun i j => ((A i i + A j j) / 2 + e) / (1 - R.gamma (n + 2))
    ∀ i < s.numRows, |R.v (b.getD i 0) - ∑ j ∈ range s.numRows, A i j * R.v (x.getD j 0)| ≤
      (R.gamma (n + c + 3) + R.gamma (n + 2)) * ∑ j ∈ range s.numRows, B i j * |R.v (x.getD j 0)| +
      (R.growth (n + c + 3) * R.η * (n + (c + 1) * ∑ j ∈ range s.numRows, B i j) +
        e * ∑ j ∈ range s.numRows, |R.v (x.getD j 0)|) := by
  intro A e B i hi
  obtain ⟨h1, h2⟩ := definite_single R s p hv f hf m hm reg method f' h hfin ε h0 hε n hn (c + 1)
    (fun j hj => Nat.lt_succ_of_le (hc j hj)) (by push_cast; linarith) hγ1 μ hμ hreg hpd
  obtain ⟨f'', h', hd⟩ := C25_factorize_total s p hv f hf m hm reg method
  obtain rfl : f'' = f' := by rw [h] at h'; cases h'; rfl
  have hst : f''.Entries R.stored := by
    obtain ⟨hcl, -⟩ := hf.closed1 hv
    obtain ⟨L, D, rfl, hL, hD, hrows⟩ := Sat.of_ok (factorize_sat hcl (fits_single hv hf hm) reg method) h
    intro a b hab
    exact singleRow_quotient R.stored_div (hrows a (hcl.ok.rows ▸ hcl.ok.good.row_lt hab)) b hab
  obtain ⟨p1, p2, p3⟩ := perm_facts hv.perm
  obtain ⟨k, hk', rfl⟩ := p3 i (mem_range.mpr hi)
  have hk := mem_range.mp hk'
  have h3 := C47_single_solve R s p hv f'' hd hst b hb x hx (fun i hi => (hfin i hi).1) hxfin n hn c hc k hk
  rw [← sum_perm hv.perm fun j => A (permAt p k) j * R.v (x.getD j 0),
    ← sum_perm hv.perm fun j => B (permAt p k) j * |R.v (x.getD j 0)|,
    ← sum_perm hv.perm fun j => B (permAt p k) j, ← sum_perm hv.perm fun j => |R.v (x.getD j 0)|]
  set X : Nat → F := fun j => R.v (x.getD (permAt p j) 0) with hX
  set H : Nat → F := fun j => ldlt s.numRows (fun a b => |R.v (f''.lower a b)|) (fun a => |R.v (f''.pivot a)|) k j with hH
  set P : Nat → F := fun j => ldlt s.numRows (fun a b => R.v (f''.lower a b)) (fun a => R.v (f''.pivot a)) k j with hP
  have hHB : ∀ j ∈ range s.numRows, H j ≤ B (permAt p k) (permAt p j) := fun j hj => (h2 k hk j (mem_range.mp hj)).2.1
  have hdiff : ∀ j ∈ range s.numRows, |A (permAt p k) (permAt p j) - P j| ≤
      R.gamma (n + 2) * B (permAt p k) (permAt p j) + e := fun j hj =>
    (h2 k hk j (mem_range.mp hj)).1.trans (add_le_add_left (mul_le_mul_of_nonneg_left (hHB j hj) (R.gamma_nonneg _)) _)
  have hLD : ∀ j ∈ range s.numRows, unitLower (fun a b => |R.v (f''.lower a b)|) k j * |R.v (f''.pivot j)| ≤
      B (permAt p k) (permAt p j) := by
    intro j hj
    refine le_trans ?_ (hHB j hj)
    have h0 : ∀ a b, 0 ≤ unitLower (fun a b => |R.v (f''.lower a b)|) a b := fun a b => by
      unfold unitLower
      split
      · exact zero_le_one
      · exact abs_nonneg _
    have := single_le_sum (f := fun r => unitLower (fun a b => |R.v (f''.lower a b)|) k r * |R.v (f''.pivot r)| *
      unitLower (fun a b => |R.v (f''.lower a b)|) j r)
      (fun r _ => mul_nonneg (mul_nonneg (h0 _ _) (abs_nonneg _)) (h0 _ _)) hj
    refine le_trans (le_of_eq ?_) this
    beta_reduce
    rw [unitLower_self, mul_one]
  have h5 : |∑ j ∈ range s.numRows, (A (permAt p k) (permAt p j) - P j) * X j| ≤
      R.gamma (n + 2) * ∑ j ∈ range s.numRows, B (permAt p k) (permAt p j) * |X j| +
        e * ∑ j ∈ range s.numRows, |X j| := by
    rw [mul_sum, mul_sum, ← sum_add_distrib]
    refine (abs_sum_le_sum_abs _ _).trans (sum_le_sum fun j hj => ?_)
    rw [abs_mul]
    have := mul_le_mul_of_nonneg_right (hdiff j hj) (abs_nonneg (X j))
    linarith
  have h6 : R.gamma (n + c + 3) * ∑ j ∈ range s.numRows, H j * |X j| ≤
      R.gamma (n + c + 3) * ∑ j ∈ range s.numRows, B (permAt p k) (permAt p j) * |X j| :=
    mul_le_mul_of_nonneg_left (sum_le_sum fun j hj => mul_le_mul_of_nonneg_right (hHB j hj) (abs_nonneg _)) (R.gamma_nonneg _)
  have h7 : ∑ j ∈ range s.numRows, unitLower (fun a b => |R.v (f''.lower a b)|) k j *
        (|R.v (f''.pivot j)| * ((c + 1) * R.η)) ≤
      (c + 1) * R.η * ∑ j ∈ range s.numRows, B (permAt p k) (permAt p j) := by
    rw [mul_sum]
    refine sum_le_sum fun j hj => ?_
    have := mul_le_mul_of_nonneg_left (hLD j hj) (show 0 ≤ ((c : F) + 1) * R.η from mul_nonneg (by positivity) R.η_nonneg)
    linarith
  have h8 := mul_le_mul_of_nonneg_left h7 (R.growth_pos (n + c + 3)).le
  have h9 : R.v (b.getD (permAt p k) 0) - ∑ j ∈ range s.numRows, A (permAt p k) (permAt p j) * X j =
      (R.v (b.getD (permAt p k) 0) - ∑ j ∈ range s.numRows, P j * X j) -
      ∑ j ∈ range s.numRows, (A (permAt p k) (permAt p j) - P j) * X j := by
    simp only [sub_mul, sum_sub_distrib]
    ring
  change |_ - ∑ j ∈ range s.numRows, A (permAt p k) (permAt p j) * X j| ≤
    (R.gamma (n + c + 3) + R.gamma (n + 2)) * ∑ j ∈ range s.numRows, B (permAt p k) (permAt p j) * |X j| +
      (R.growth (n + c + 3) * R.η * (n + (c + 1) * ∑ j ∈ range s.numRows, B (permAt p k) (permAt p j)) +
        e * ∑ j ∈ range s.numRows, |X j|)
  rw [h9]
  refine (abs_sub _ _).trans ((add_le_add h3 h5).trans ?_)
  rw [mul_add] at *
  linarith

/-! ### Repeating block matrices -/

private theorem typesOk {s : ArrowheadSparsity} {T : ArrowheadTypes} {d : Dims} (hs : s.Valid d)
    (hT : arrowheadTypes s = .ok T) : TypesOk s T d := by
  obtain ⟨T', h, h'⟩ := arrowheadTypes_sat hs
  rw [hT] at h
  cases h
  exact h'

/-- The value `|L| |D| |Lᵀ|` of the factors of a repeating block matrix over the positions. -/
theorem ldlt_positions (f : ArrowheadFactor K) (R : Rounding K F) (d : Dims) (N : Nat) (x y : Σ _ : Blk, Nat) :
    (∑ r ∈ positions d N, (f.map R.v).lowerElement N x.1 r.1 x.2 r.2 * R.v (f.pivotAt r.1 r.2) *
        (f.map R.v).lowerElement N y.1 r.1 y.2 r.2 = (f.map R.v).ldlt d N x.1 y.1 x.2 y.2) ∧
    ∑ r ∈ positions d N, |(f.map R.v).lowerElement N x.1 r.1 x.2 r.2| * |R.v (f.pivotAt r.1 r.2)| *
        |(f.map R.v).lowerElement N y.1 r.1 y.2 r.2| = (f.map fun y => |R.v y|).ldlt d N x.1 y.1 x.2 y.2 := by
  unfold positions ArrowheadFactor.ldlt
  rw [sum_sigma, sum_sigma]
  constructor
  · refine sum_congr rfl fun a _ => sum_congr rfl fun i _ => ?_
    rw [pivotAt_map R.v_zero]
  · refine sum_congr rfl fun a _ => sum_congr rfl fun i _ => ?_
    rw [pivotAt_map (g := fun y => |R.v y|) (by rw [R.v_zero, abs_zero])]
    have e : ∀ a b i j, (f.map fun y => |R.v y|).lowerElement N a b i j = |(f.map R.v).lowerElement N a b i j| :=
      Rounding.lowerElement_abs (R := R) (f := f) (N := N)
    rw [e, e]

/-- The pivots, and the bound of the product of the absolute values of the factors. -/
private theorem definite (R : Rounding K F) (s : ArrowheadSparsity) (d : Dims) (hs : s.Valid d) (T : ArrowheadTypes)
    (N : Nat) (f : ArrowheadFactor K) (hf : f.Declared s T d N) (m : ArrowheadMatrix K) (hm : m.Fits s T d N)
    (reg : K → Nat → K) (method : Method) (f' : ArrowheadFactor K)
    (h : f.factorize d.tridiag d.link d.outer m reg method = .ok f')
    (hfin : ∀ a ∈ blocks N, ∀ i < d.of a, R.fin (f'.pivotAt a i) ∧ ∀ x, f'.pivotAt a i = reg x i → R.fin x)
    (ε : F) (h0 : 0 ≤ ε)
    (n : Nat) (c : Nat) (hc : ∀ a ∈ blocks N, ∀ j < d.of a, T.colEntries N a j < c)
    (hγ : (2 * c + 1) * R.gamma (n + 2) ≤ 1) (hγ1 : R.gamma (n + 2) < 1)
    (μ : F) (hμ : 0 ≤ μ) (hreg : ∀ x i, R.fin x → μ < R.v x → reg x i = x)
    (hpd : PosDef (positions d N) μ fun k l => (m.map R.v).assembled N k l -
      if k = l then R.margin n c (positions d N).card ε ((m.map R.v).assembled N k k) else 0)
    (w : Blk → Nat → K) (hw : ∀ a ∈ blocks N, ∀ i < d.of a, f'.pivotAt a i = reg (w a i) i)
    (hA : ∀ a ∈ blocks N, ∀ b ∈ blocks N, ∀ i < d.of a, ∀ j < d.of b,
        |(m.map R.v).symElement N a b (permAt (s.perm a) i) (permAt (s.perm b) j) -
          ((f'.map R.v).ldlt d N a b i j +
            if a = b ∧ i = j then R.v (w a i) - R.v (f'.pivotAt a i) else 0)| ≤
        R.gamma (n + 2) * ((f'.map (fun y => |R.v y|)).ldlt d N a b i j +
            if a = b ∧ i = j then |R.v (w a i)| - |R.v (f'.pivotAt a i)| else 0) +
          R.growth (n + 2) * ((n + 1) * ε)) :
    (∀ k ∈ positions d N, μ < R.v (f'.pivotAt k.1 k.2) ∧ w k.1 k.2 = f'.pivotAt k.1 k.2) ∧
    ∀ k ∈ positions d N, ∀ l ∈ positions d N,
      (f'.map (fun y => |R.v y|)).ldlt d N k.1 l.1 k.2 l.2 ≤
        (((m.map R.v).assembled N (s.permPos k) (s.permPos k) + (m.map R.v).assembled N (s.permPos l) (s.permPos l)) / 2 +
          R.growth (n + 2) * ((n + 1) * ε)) / (1 - R.gamma (n + 2)) := by
  have hT := typesOk hs hf.types
  obtain ⟨hd, -⟩ := Sat.of_ok (arrowheadFactorize_sat hs hT hf hm.matrixOk reg method) h
  obtain ⟨p1, p2, p3⟩ := permPos_facts hs N
  have hu := unitLower_arrowhead hT (hd.map R.v)
  have hE : 0 ≤ R.growth (n + 2) * ((n + 1) * ε) := mul_nonneg (R.growth_pos _).le (by positivity)
  have heq : ∀ k l : Σ _ : Blk, Nat, (k.1 = l.1 ∧ k.2 = l.2) ↔ k = l := by
    rintro ⟨a, i⟩ ⟨b, j⟩
    simp
  have key := approx_pivots_pos (s := positions d N) (rk := posRank d N)
    (u := fun x y => (f'.map R.v).lowerElement N x.1 y.1 x.2 y.2) (d := fun k => R.v (f'.pivotAt k.1 k.2))
    (p := fun k => R.v (w k.1 k.2)) (A := fun k l => (m.map R.v).assembled N (s.permPos k) (s.permPos l)) hu
    (R.gamma_nonneg _) hE hμ
    (fun k hk l hl => by
      obtain ⟨k1, k2⟩ := mem_positions.mp hk
      obtain ⟨l1, l2⟩ := mem_positions.mp hl
      have := hA _ k1 _ l1 _ k2 _ l2
      simp only [heq] at this
      rw [← (ldlt_positions f' R d N k l).1, ← (ldlt_positions f' R d N k l).2] at this
      exact this)
    (fun k hk hlt => by
      obtain ⟨k1, k2⟩ := mem_positions.mp hk
      have := hw _ k1 _ k2
      rw [hreg (w k.1 k.2) k.2 ((hfin _ k1 _ k2).2 _ this) hlt] at this
      beta_reduce
      rw [this])
    (fun l hl => (card_col_arrowhead (T := T) (l := fun x y => (f'.map R.v).lowerElement N x.1 y.1 x.2 y.2)
      (fun x hx y hy hne => by
        rw [← heq x y]
        exact lowerElement_has (hd.map R.v) (mem_positions.mp hx).1 (mem_positions.mp hy).1 hne) hl).trans
      (hc _ (mem_positions.mp hl).1 _ (mem_positions.mp hl).2)) hγ hγ1
    ((hpd.reindex p1 p2 p3).congr fun k hk l hl => by
      congr 1
      by_cases hkl : k = l
      · subst hkl
        rw [if_pos rfl, if_pos rfl]
        rfl
      · rw [if_neg hkl, if_neg fun h => hkl (p2 k hk l hl h)])
  have hpos : ∀ k ∈ positions d N, μ < R.v (f'.pivotAt k.1 k.2) ∧ w k.1 k.2 = f'.pivotAt k.1 k.2 := fun k hk => by
    obtain ⟨k1, k2⟩ := key k hk
    obtain ⟨k3, k4⟩ := mem_positions.mp hk
    beta_reduce at k1 k2
    refine ⟨k2 ▸ k1, ?_⟩
    have := hw _ k3 _ k4
    rw [hreg (w k.1 k.2) k.2 ((hfin _ k3 _ k4).2 _ this) k1] at this
    exact this.symm
  refine ⟨hpos, fun k hk l hl => ?_⟩
  rw [← (ldlt_positions f' R d N k l).2]
  refine (approx_stable (s := positions d N) (u := fun x y => (f'.map R.v).lowerElement N x.1 y.1 x.2 y.2)
    (d := fun k => R.v (f'.pivotAt k.1 k.2)) (A := fun k l => (m.map R.v).assembled N (s.permPos k) (s.permPos l))
    (R.gamma_nonneg _) hγ1 (fun k hk => (hμ.trans_lt (hpos k hk).1).le) (fun k hk l hl => ?_) hk hl).1
  obtain ⟨k1, k2⟩ := mem_positions.mp hk
  obtain ⟨l1, l2⟩ := mem_positions.mp hl
  have := hA _ k1 _ l1 _ k2 _ l2
  rw [(hpos k hk).2, sub_self, sub_self, ite_self, add_zero, add_zero, ← (ldlt_positions f' R d N k l).1,
    ← (ldlt_positions f' R d N k l).2] at this
  exact this

/-- C53: the same for repeating block matrices, for all numbers of repetitions. -/
theorem C53_repeating (R : Rounding K F) (s : ArrowheadSparsity) (d : Dims) (hs : s.Valid d) (T : ArrowheadTypes)
    (N : Nat) (f : ArrowheadFactor K) (hf : f.Declared s T d N) (m : ArrowheadMatrix K) (hm : m.Fits s T d N)
    (reg : K → Nat → K) (method : Method) (f' : ArrowheadFactor K)
    (h : f.factorize d.tridiag d.link d.outer m reg method = .ok f')
    (hfin : ∀ a ∈ blocks N, ∀ i < d.of a, R.fin (f'.pivotAt a i) ∧ ∀ x, f'.pivotAt a i = reg x i → R.fin x)
    (ε : F) (h0 : 0 ≤ ε)
    (hε : ∀ a ∈ blocks N, ∀ b ∈ blocks N, ∀ i j, T.Has N a i b j →
      R.η * (1 + |R.v (f'.pivotAt b j)| * (1 + |(f'.map R.v).lowerElement N a b i j|)) ≤ ε)
    (n : Nat) (hn : ∀ a ∈ blocks N, ∀ i < d.of a, T.rowEntries N a i ≤ n)
    (c : Nat) (hc : ∀ a ∈ blocks N, ∀ j < d.of a, T.colEntries N a j < c)
    (hγ : (2 * c + 1) * R.gamma (n + 2) ≤ 1) (hγ1 : R.gamma (n + 2) < 1)
    (μ : F) (hμ : 0 ≤ μ) (hreg : ∀ x i, R.fin x → μ < R.v x → reg x i = x)
    (hpd : PosDef (positions d N) μ fun k l => (m.map R.v).assembled N k l -
      if k = l then R.margin n c (positions d N).card ε ((m.map R.v).assembled N k k) else 0) :
    (∀ a ∈ blocks N, ∀ i < d.of a, μ < R.v (f'.pivotAt a i)) ∧
    ∀ a ∈ blocks N, ∀ b ∈ blocks N, ∀ i < d.of a, ∀ j < d.of b,
      let A := fun a i b j => (m.map R.v).symElement N a b (permAt (s.perm a) i) (permAt (s.perm b) j)
      |A a i b j - (f'.map R.v).ldlt d N a b i j| ≤
        R.gamma (n + 2) / (1 - R.gamma (n + 2)) * ((A a i a i + A b j b j) / 2 + R.growth (n + 2) * ((n + 1) * ε)) +
          R.growth (n + 2) * ((n + 1) * ε) := by
  obtain ⟨w, hw, hA⟩ := C46_backward_error R s d hs T N f hf m hm reg method f' h hfin ε h0 hε n hn
  obtain ⟨h1, h2⟩ := definite R s d hs T N f hf m hm reg method f' h hfin ε h0 n c hc hγ hγ1 μ hμ hreg hpd w hw hA
  refine ⟨fun a ha i hi => (h1 ⟨a, i⟩ (mem_positions.mpr ⟨ha, hi⟩)).1, fun a ha b hb i hi j hj => ?_⟩
  have h3 := hA a ha b hb i hi j hj
  have hk : (⟨a, i⟩ : Σ _ : Blk, Nat) ∈ positions d N := mem_positions.mpr ⟨ha, hi⟩
  rw [show w a i = f'.pivotAt a i from (h1 ⟨a, i⟩ hk).2, sub_self, sub_self, ite_self, add_zero, add_zero] at h3
  have h4 := mul_le_mul_of_nonneg_left (h2 ⟨a, i⟩ hk ⟨b, j⟩ (mem_positions.mpr ⟨hb, hj⟩)) (R.gamma_nonneg (n + 2))
  refine h3.trans ?_
  rw [div_mul_eq_mul_div, mul_div_assoc]
  exact add_le_add_left h4 _

/-- C53: so the residual of the solution computed for a positive definite matrix is small compared with the matrix, with
no growth of the factors. -/
theorem C53_residual (R : Rounding K F) (s : ArrowheadSparsity) (d : Dims) (hs : s.Valid d) (T : ArrowheadTypes)
    (N : Nat) (f : ArrowheadFactor K) (hf : f.Declared s T d N) (m : ArrowheadMatrix K) (hm : m.Fits s T d N)
    (reg : K → Nat → K) (method : Method) (f' : ArrowheadFactor K)
    (h : f.factorize d.tridiag d.link d.outer m reg method = .ok f')
    (hfin : ∀ a ∈ blocks N, ∀ i < d.of a, R.fin (f'.pivotAt a i) ∧ ∀ x, f'.pivotAt a i = reg x i → R.fin x)
    (ε : F) (h0 : 0 ≤ ε)
    (hε : ∀ a ∈ blocks N, ∀ b ∈ blocks N, ∀ i j, T.Has N a i b j →
      R.η * (1 + |R.v (f'.pivotAt b j)| * (1 + |(f'.map R.v).lowerElement N a b i j|)) ≤ ε)
    (n : Nat) (hn : ∀ a ∈ blocks N, ∀ i < d.of a, T.rowEntries N a i ≤ n)
    (c : Nat) (hc : ∀ a ∈ blocks N, ∀ j < d.of a, T.colEntries N a j ≤ c)
    (hγ : (2 * c + 3) * R.gamma (n + 2) ≤ 1) (hγ1 : R.gamma (n + 2) < 1)
    (μ : F) (hμ : 0 ≤ μ) (hreg : ∀ x i, R.fin x → μ < R.v x → reg x i = x)
    (hpd : PosDef (positions d N) μ fun k l => (m.map R.v).assembled N k l -
      if k = l then R.margin n (c + 1) (positions d N).card ε ((m.map R.v).assembled N k k) else 0)
    (b : ArrowheadVector K) (hb : b.OfSize d N) (x : ArrowheadVector K) (hx : f'.solveInPlace b = .ok x)
    (hxfin : ∀ a ∈ blocks N, ∀ i < d.of a, R.fin (x.at a i)) :
    let A := (m.map R.v).assembled N
    let e := R.growth (n + 2) * ((n + 1) * ε)
    let B := fun k l => ((A k k + A l l) / 2 + e) / (1 - R.gamma (n + 2))
    ∀ k ∈ positions d N, |R.v (b.at k.1 k.2) - ∑ l ∈ positions d N, A k l * R.v (x.at l.1 l.2)| ≤
      (R.gamma (n + c + 3) + R.gamma (n + 2)) * ∑ l ∈ positions d N, B k l * |R.v (x.at l.1 l.2)| +
      (R.growth (n + c + 3) * R.η * (n + (c + 1) * ∑ l ∈ positions d N, B k l) +
        e * ∑ l ∈ positions d N, |R.v (x.at l.1 l.2)|) := by
  intro A e B k hk
  obtain ⟨w, hw, hA⟩ := C46_backward_error R s d hs T N f hf m hm reg method f' h hfin ε h0 hε n hn
  obtain ⟨h1, h2⟩ := definite R s d hs T N f hf m hm reg method f' h hfin ε h0 n (c + 1)
    (fun a ha j hj => Nat.lt_succ_of_le (hc a ha j hj)) (by push_cast; linarith) hγ1 μ hμ hreg hpd w hw hA
  obtain ⟨p1, p2, p3⟩ := permPos_facts hs N
  have hT := typesOk hs hf.types
  obtain ⟨hd, hrows⟩ := Sat.of_ok (arrowheadFactorize_sat hs hT hf hm.matrixOk reg method) h
  have hst := ArrowheadFactor.entries_of_chain hd (hrows.quotient R.stored_div (chainPat_ok hT N))
  obtain ⟨k, hk', rfl⟩ := p3 k hk
  obtain ⟨k1, k2⟩ := mem_positions.mp hk'
  have h3 := C47_solve R s d hs T N f' hd hst b hb x hx (fun a ha i hi => (hfin a ha i hi).1) hxfin n hn c hc k.1 k1 k.2 k2
  have eA : ∀ g : (Σ _ : Blk, Nat) → F, ∑ a ∈ blocks N, ∑ j ∈ range (d.of a), g ⟨a, j⟩ = ∑ l ∈ positions d N, g l :=
    fun g => by
      unfold positions
      rw [sum_sigma]
  rw [eA fun l => (f'.map R.v).ldlt d N k.1 l.1 k.2 l.2 * R.v (x.at l.1 (permAt (s.perm l.1) l.2)),
    eA fun l => (f'.map fun y => |R.v y|).ldlt d N k.1 l.1 k.2 l.2 * |R.v (x.at l.1 (permAt (s.perm l.1) l.2))|,
    eA fun l => (f'.map fun y => |R.v y|).lowerElement N k.1 l.1 k.2 l.2 * (|R.v (f'.pivotAt l.1 l.2)| * ((c + 1) * R.η))]
    at h3
  have hH : ∀ l ∈ positions d N, (f'.map fun y => |R.v y|).ldlt d N k.1 l.1 k.2 l.2 ≤ B (s.permPos k) (s.permPos l) :=
    fun l hl => h2 k hk' l hl
  have hLD : ∀ l ∈ positions d N, (f'.map fun y => |R.v y|).lowerElement N k.1 l.1 k.2 l.2 * |R.v (f'.pivotAt l.1 l.2)| ≤
      B (s.permPos k) (s.permPos l) := by
    intro l hl
    refine le_trans ?_ (hH l hl)
    rw [← (ldlt_positions f' R d N k l).2]
    have := single_le_sum (f := fun r : Σ _ : Blk, Nat => |(f'.map R.v).lowerElement N k.1 r.1 k.2 r.2| *
      |R.v (f'.pivotAt r.1 r.2)| * |(f'.map R.v).lowerElement N l.1 r.1 l.2 r.2|) (fun r _ => by positivity) hl
    refine le_trans (le_of_eq ?_) this
    beta_reduce
    rw [(unitLower_arrowhead hT (hd.map R.v)).one l hl, abs_one, mul_one]
    rw [show (f'.map fun y => |R.v y|).lowerElement N k.1 l.1 k.2 l.2 = |(f'.map R.v).lowerElement N k.1 l.1 k.2 l.2| from
      Rounding.lowerElement_abs (R := R) (f := f') (N := N) _ _ _ _]
  have hdiff : ∀ l ∈ positions d N, |A (s.permPos k) (s.permPos l) - (f'.map R.v).ldlt d N k.1 l.1 k.2 l.2| ≤
      R.gamma (n + 2) * B (s.permPos k) (s.permPos l) + e := by
    intro l hl
    obtain ⟨l1, l2⟩ := mem_positions.mp hl
    have h4 := hA k.1 k1 l.1 l1 k.2 k2 l.2 l2
    rw [(h1 k hk').2, sub_self, sub_self, ite_self, add_zero, add_zero] at h4
    exact h4.trans (add_le_add_left (mul_le_mul_of_nonneg_left (hH l hl) (R.gamma_nonneg _)) _)
  rw [← sum_reindex p1 p2 p3 fun l => A (s.permPos k) l * R.v (x.at l.1 l.2),
    ← sum_reindex p1 p2 p3 fun l => B (s.permPos k) l * |R.v (x.at l.1 l.2)|,
    ← sum_reindex p1 p2 p3 fun l => B (s.permPos k) l, ← sum_reindex p1 p2 p3 fun l => |R.v (x.at l.1 l.2)|]
  let X : (Σ _ : Blk, Nat) → F := fun l => R.v (x.at l.1 (permAt (s.perm l.1) l.2))
  have h5 : |∑ l ∈ positions d N, (A (s.permPos k) (s.permPos l) - (f'.map R.v).ldlt d N k.1 l.1 k.2 l.2) * X l| ≤
      R.gamma (n + 2) * ∑ l ∈ positions d N, B (s.permPos k) (s.permPos l) * |X l| +
        e * ∑ l ∈ positions d N, |X l| := by
    rw [mul_sum, mul_sum, ← sum_add_distrib]
    refine (abs_sum_le_sum_abs _ _).trans (sum_le_sum fun l hl => ?_)
    rw [abs_mul]
    have := mul_le_mul_of_nonneg_right (hdiff l hl) (abs_nonneg (X l))
    linarith
  have h6 : R.gamma (n + c + 3) * ∑ l ∈ positions d N, (f'.map fun y => |R.v y|).ldlt d N k.1 l.1 k.2 l.2 * |X l| ≤
      R.gamma (n + c + 3) * ∑ l ∈ positions d N, B (s.permPos k) (s.permPos l) * |X l| :=
    mul_le_mul_of_nonneg_left (sum_le_sum fun l hl => mul_le_mul_of_nonneg_right (hH l hl) (abs_nonneg _)) (R.gamma_nonneg _)
  have h7 : ∑ l ∈ positions d N, (f'.map fun y => |R.v y|).lowerElement N k.1 l.1 k.2 l.2 *
        (|R.v (f'.pivotAt l.1 l.2)| * ((c + 1) * R.η)) ≤
      (c + 1) * R.η * ∑ l ∈ positions d N, B (s.permPos k) (s.permPos l) := by
    rw [mul_sum]
    refine sum_le_sum fun l hl => ?_
    have := mul_le_mul_of_nonneg_left (hLD l hl) (show 0 ≤ ((c : F) + 1) * R.η from mul_nonneg (by positivity) R.η_nonneg)
    linarith
  have h8 := mul_le_mul_of_nonneg_left h7 (R.growth_pos (n + c + 3)).le
  have h9 : R.v (b.at (s.permPos k).1 (s.permPos k).2) - ∑ l ∈ positions d N, A (s.permPos k) (s.permPos l) * X l =
      (R.v (b.at k.1 (permAt (s.perm k.1) k.2)) - ∑ l ∈ positions d N, (f'.map R.v).ldlt d N k.1 l.1 k.2 l.2 * X l) -
      ∑ l ∈ positions d N, (A (s.permPos k) (s.permPos l) - (f'.map R.v).ldlt d N k.1 l.1 k.2 l.2) * X l := by
    simp only [sub_mul, sum_sub_distrib]
    show R.v (b.at k.1 (permAt (s.perm k.1) k.2)) - _ = _
    ring
  change |_ - ∑ l ∈ positions d N, A (s.permPos k) (s.permPos l) * X l| ≤
    (R.gamma (n + c + 3) + R.gamma (n + 2)) * ∑ l ∈ positions d N, B (s.permPos k) (s.permPos l) * |X l| +
      (R.growth (n + c + 3) * R.η * (n + (c + 1) * ∑ l ∈ positions d N, B (s.permPos k) (s.permPos l)) +
        e * ∑ l ∈ positions d N, |X l|)
  rw [h9]
  refine (abs_sub _ _).trans ((add_le_add h3 h5).trans ?_)
  rw [mul_add] at *
  linarith

/-! ### A case meeting the hypotheses, in IEEE double precision -/

/-- Witness: the matrix of C22 with the diagonal reduced by one. -/
def reducedM : MatIn ℚ := ⟨witnessS, [2, 2, -1, 3, 100, 4]⟩

theorem reducedM_posDef : PosDef (range 3) (1 / 2) reducedM.sym := by
  have hv : reducedM.sym 0 0 = 3 ∧ reducedM.sym 0 1 = -1 ∧ reducedM.sym 0 2 = 2 ∧ reducedM.sym 1 0 = -1 ∧
      reducedM.sym 1 1 = 2 ∧ reducedM.sym 1 2 = 0 ∧ reducedM.sym 2 0 = 2 ∧ reducedM.sym 2 1 = 0 ∧
      reducedM.sym 2 2 = 4 := by decide +kernel
  obtain ⟨v00, v01, v02, v10, v11, v12, v20, v21, v22⟩ := hv
  intro x hx
  simp only [sum_range_succ, range_zero, sum_empty, v00, v01, v02, v10, v11, v12, v20, v21, v22]
  have hpos : 0 < x 0 ^ 2 + x 1 ^ 2 + x 2 ^ 2 := by
    obtain ⟨i, hi, hne⟩ := hx
    have hi : i < 3 := mem_range.mp hi
    have := sq_pos_of_ne_zero hne
    have h0 := sq_nonneg (x 0)
    have h1 := sq_nonneg (x 1)
    have h2 := sq_nonneg (x 2)
    rcases i with _ | _ | _ | i
    · linarith
    · linarith
    · linarith
    · omega
  nlinarith [sq_nonneg (3 * x 0 - 4 * x 1), sq_nonneg (2 * x 0 + 3 * x 2)]

def definiteDoubleM : MatIn Double := witnessM.map (Binary.ofRat .binary64 false)

def definiteDouble : Res (DiagFactor Double) :=
  (witnessF.map (Binary.ofRat .binary64 false)).factorize definiteDoubleM regularizationNone .upLooking

def definiteSmall (f : DiagFactor Double) (i j : Nat) : Prop :=
  doubleR.η * (1 + |doubleR.v (f.pivot j)| * (1 + |doubleR.v (f.lower i j)|)) ≤ 2 ^ (-1072 : Int)

instance (f : DiagFactor Double) (i j : Nat) : Decidable (definiteSmall f i j) := by
  unfold definiteSmall
  infer_instance

def definiteCounts (f : DiagFactor Double) (i : Nat) : Prop :=
  (f.pivot i).Finite ∧ f.sparsity.rowEntries i ≤ 2 ∧ f.sparsity.colEntries i < 3

instance (f : DiagFactor Double) (i : Nat) : Decidable (definiteCounts f i) := by
  unfold definiteCounts
  infer_instance

def definiteDoubleOk (f : DiagFactor Double) : Bool :=
  (List.range 3).all (fun i => decide (definiteCounts f i)) && decide (∀ e ∈ f.sparsity.entries, definiteSmall f e.row e.col)

/-- All hypotheses hold; the pivots exceed `1 / 2` by the theorem. -/
example : ∃ f, definiteDouble = .ok f ∧ ∀ i < 3, 1 / 2 < doubleR.v (f.pivot i) := by
  have h1 : definiteDouble.map definiteDoubleOk = .ok true := by decide +kernel
  match hf : definiteDouble with
  | .error e => rw [hf] at h1; cases h1
  | .ok f =>
    refine ⟨f, rfl, ?_⟩
    rw [hf] at h1
    obtain ⟨h2, h3⟩ := (Bool.and_eq_true _ _).mp (Except.ok.inj h1)
    replace h2 : ∀ i < 3, definiteCounts f i := fun i hi =>
      of_decide_eq_true (List.all_eq_true.mp h2 i (List.mem_range.mpr hi))
    replace h3 := of_decide_eq_true h3
    refine (C53_single doubleR witnessS [0, 2, 1] witness_valid _
      (show (witnessF.map (Binary.ofRat .binary64 false)).Declared witnessS [0, 2, 1] from
        ⟨witness_declared.pattern, rfl, rfl, rfl⟩) definiteDoubleM
      ⟨rfl, witness_valid.inRange, rfl, rfl, fun i j h => .base h h.1⟩ regularizationNone .upLooking f hf
      (fun i hi => ⟨(h2 i hi).1, fun x hx => (show f.pivot i = x from hx) ▸ (h2 i hi).1⟩) (2 ^ (-1072 : Int)) (two_zpow_pos _).le
      (fun i j hij => h3 ⟨i, j⟩ hij) 2 (fun i hi => (h2 i hi).2.1) 3 (fun i hi => (h2 i hi).2.2) (by decide +kernel)
      (by decide +kernel) (1 / 2) (by norm_num) (fun _ _ _ _ => rfl) ?_).1
    refine reducedM_posDef.mono (fun i hi j hj hij => ?_) fun i hi => ?_
    · rw [if_neg hij, sub_zero]
      have : ∀ i < 3, ∀ j < 3, i ≠ j → reducedM.sym i j = doubleR.v (definiteDoubleM.sym i j) := by decide +kernel
      exact this i (mem_range.mp hi) j (mem_range.mp hj) hij
    · rw [if_pos rfl]
      have : ∀ i < 3, reducedM.sym i i ≤ doubleR.v (definiteDoubleM.sym i i) -
        doubleR.margin 2 3 3 (2 ^ (-1072 : Int)) (doubleR.v (definiteDoubleM.sym i i)) := by decide +kernel
      exact this i (mem_range.mp hi)

/-- The bound of the residual for the solution `x`. -/
def definiteBound (x : List Double) (i : Nat) : ℚ :=
  let A := fun i j => doubleR.v (definiteDoubleM.sym i j)
  let e := doubleR.growth 4 * ((2 + 1) * 2 ^ (-1072 : Int))
  let B := fun i j => ((A i i + A j j) / 2 + e) / (1 - doubleR.gamma 4)
  (doubleR.gamma 7 + doubleR.gamma 4) * ∑ j ∈ range 3, B i j * |doubleR.v (x.getD j 0)| +
    (doubleR.growth 7 * doubleR.η * (2 + (2 + 1) * ∑ j ∈ range 3, B i j) + e * ∑ j ∈ range 3, |doubleR.v (x.getD j 0)|)

/-- The bound of the residual applies to the computed solution of the system with right-hand side `(1, 2, 3)`. -/
example : ∃ f x, definiteDouble = .ok f ∧ f.solveInPlace ([1, 2, 3].map (Binary.ofRat .binary64 false)) = .ok x ∧
    ∀ i < 3, |doubleR.v (([1, 2, 3].map (Binary.ofRat .binary64 false)).getD i 0) -
      ∑ j ∈ range 3, doubleR.v (definiteDoubleM.sym i j) * doubleR.v (x.getD j 0)| ≤ 1 / 10 ^ 12 := by
  have h1 : (do
      let f ← definiteDouble
      let x ← f.solveInPlace ([1, 2, 3].map (Binary.ofRat .binary64 false))
      return definiteDoubleOk f && (List.range 3).all fun i => decide ((x.getD i 0).Finite ∧ definiteBound x i ≤ 1 / 10 ^ 12)) =
        .ok true := by decide +kernel
  obtain ⟨f, hf, h1⟩ := bind_eq_ok.mp h1
  obtain ⟨x, hx, h1⟩ := bind_eq_ok.mp h1
  refine ⟨f, x, hf, hx, fun i hi => ?_⟩
  obtain ⟨h1, hxf⟩ := (Bool.and_eq_true _ _).mp (Except.ok.inj h1)
  replace hxf : ∀ i < 3, (x.getD i 0).Finite ∧ definiteBound x i ≤ 1 / 10 ^ 12 := fun i hi =>
    of_decide_eq_true (List.all_eq_true.mp hxf i (List.mem_range.mpr hi))
  obtain ⟨h2, h3⟩ := (Bool.and_eq_true _ _).mp h1
  replace h2 : ∀ i < 3, definiteCounts f i := fun i hi =>
    of_decide_eq_true (List.all_eq_true.mp h2 i (List.mem_range.mpr hi))
  replace h3 := of_decide_eq_true h3
  have key := C53_single_residual doubleR witnessS [0, 2, 1] witness_valid _
    (show (witnessF.map (Binary.ofRat .binary64 false)).Declared witnessS [0, 2, 1] from
      ⟨witness_declared.pattern, rfl, rfl, rfl⟩) definiteDoubleM
    ⟨rfl, witness_valid.inRange, rfl, rfl, fun i j h => .base h h.1⟩ regularizationNone .upLooking f hf
    (fun i hi => ⟨(h2 i hi).1, fun x hx => (show f.pivot i = x from hx) ▸ (h2 i hi).1⟩) (2 ^ (-1072 : Int)) (two_zpow_pos _).le
    (fun i j hij => h3 ⟨i, j⟩ hij) 2 (fun i hi => (h2 i hi).2.1) 2 (fun i hi => Nat.le_of_lt_succ (h2 i hi).2.2)
    (by decide +kernel) (by decide +kernel) (1 / 2) (by norm_num) (fun _ _ _ _ => rfl) ?_ _ rfl x hx
    (fun i hi => (hxf i hi).1) i hi
  · exact key.trans (hxf i hi).2
  · refine reducedM_posDef.mono (fun i hi j hj hij => ?_) fun i hi => ?_
    · rw [if_neg hij, sub_zero]
      have : ∀ i < 3, ∀ j < 3, i ≠ j → reducedM.sym i j = doubleR.v (definiteDoubleM.sym i j) := by decide +kernel
      exact this i (mem_range.mp hi) j (mem_range.mp hj) hij
    · rw [if_pos rfl]
      have : ∀ i < 3, reducedM.sym i i ≤ doubleR.v (definiteDoubleM.sym i i) -
        doubleR.margin 2 3 3 (2 ^ (-1072 : Int)) (doubleR.v (definiteDoubleM.sym i i)) := by decide +kernel
      exact this i (mem_range.mp hi)

/-- Witness: the matrix of C29 with reduced diagonal elements, which are those greater than one. -/
def reducedArrowM : ArrowheadMatrix ℚ := arrowM.map fun x => if x ≤ 1 then x else x - 1 / 10

/-- The matrix with reduced diagonal is positive definite, by C48. -/
theorem reducedArrow_posDef : PosDef (positions arrowD 1) 0 (reducedArrowM.assembled 1) := by
  obtain ⟨T, f, hT, hf, hpos⟩ : ∃ T f, arrowheadTypes arrowS = .ok T ∧
      (freshFactor arrowS T arrowD 1 (0 : ℚ)).factorize 2 1 1 reducedArrowM regularizationNone .upLooking = .ok f ∧
      ∀ a ∈ blocks 1, ∀ i < arrowD.of a, 0 < f.pivotAt a i := by
    have h : (do
        let T ← arrowheadTypes arrowS
        let f ← (freshFactor arrowS T arrowD 1 (0 : ℚ)).factorize 2 1 1 reducedArrowM regularizationNone .upLooking
        return decide (∀ a ∈ blocks 1, ∀ i < arrowD.of a, 0 < f.pivotAt a i)) = (.ok true : Res Bool) := by
      decide +kernel
    obtain ⟨T, hT, h⟩ := bind_eq_ok.mp h
    obtain ⟨f, hf, h⟩ := bind_eq_ok.mp h
    exact ⟨T, f, hT, hf, of_decide_eq_true (Except.ok.inj h)⟩
  exact (C48_repeating_positive_iff arrowS arrowD arrowS_valid T 1 _ (C21_constructible arrowS arrowD T hT 1 0)
    reducedArrowM ((arrowM_fits hT).map _) .upLooking f hf).mp hpos

/-- All hypotheses of the theorems on repeating block matrices are met by the double precision matrix of C46 and C47. -/
example : ∃ T f x, doubleM.Fits arrowS T arrowD 1 ∧
    (freshFactor arrowS T arrowD 1 (0 : Double)).factorize 2 1 1 doubleM regularizationNone .upLooking = .ok f ∧
    f.solveInPlace doubleB = .ok x ∧
    (2 * 3 + 3) * doubleR.gamma (5 + 2) ≤ 1 ∧ doubleR.gamma (5 + 2) < 1 ∧
    PosDef (positions arrowD 1) 0 (fun k l => (doubleM.map doubleR.v).assembled 1 k l -
      if k = l then doubleR.margin 5 4 (positions arrowD 1).card (2 ^ (-1072 : Int))
        ((doubleM.map doubleR.v).assembled 1 k k) else 0) := by
  have h : doubleCheck = true := by decide +kernel
  unfold doubleCheck at h
  split at h
  · next T f x hrun =>
    unfold doubleRun at hrun
    obtain ⟨T', hT, hrun⟩ := bind_eq_ok.mp hrun
    obtain ⟨f', hf, hrun⟩ := bind_eq_ok.mp hrun
    obtain ⟨x', hx, hrun⟩ := bind_eq_ok.mp hrun
    cases hrun
    refine ⟨T, f, x, (arrowM_fits hT).map _, hf, hx, by decide +kernel, by decide +kernel, ?_⟩
    refine reducedArrow_posDef.mono (fun k hk l hl hne => ?_) fun k hk => ?_
    · rw [if_neg hne, sub_zero]
      have : ∀ k ∈ positions arrowD 1, ∀ l ∈ positions arrowD 1, k ≠ l →
          reducedArrowM.assembled 1 k l = (doubleM.map doubleR.v).assembled 1 k l := by decide +kernel
      exact this k hk l hl hne
    · rw [if_pos rfl]
      have : ∀ k ∈ positions arrowD 1, reducedArrowM.assembled 1 k k ≤ (doubleM.map doubleR.v).assembled 1 k k -
          doubleR.margin 5 4 (positions arrowD 1).card (2 ^ (-1072 : Int))
            ((doubleM.map doubleR.v).assembled 1 k k) := by decide +kernel
      exact this k hk
  · cases h

end Ctldl
