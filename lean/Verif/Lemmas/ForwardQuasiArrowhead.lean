import Verif.Lemmas.ForwardArrowhead
import Verif.Lemmas.ForwardSingle
import Verif.Lemmas.ForwardQuasi
import Verif.Spec.QuasiRange
import Verif.Props.Range

/-! # The factorization of quasidefinite matrices does not overflow -/

namespace Ctldl

open Finset

section

variable {ι ι' F : Type} [Field F] [LinearOrder F] [IsStrictOrderedRing F]

theorem SignedDef.submatrix {s : Finset ι} {t : Finset ι'} {e : ι → ι'} (h1 : ∀ i ∈ s, e i ∈ t)
    (h2 : ∀ i ∈ s, ∀ j ∈ s, e i = e j → i = j) {σ : ι' → F} {μ : F} {A : ι' → ι' → F} (h : SignedDef t σ μ A) :
    SignedDef s (fun i => σ (e i)) μ (fun i j => A (e i) (e j)) := by
  have h' : PosDef t μ fun i j => σ i * A i j := by
    intro x hx
    refine (h x hx).trans_le (le_of_eq (sum_congr rfl fun i _ => sum_congr rfl fun j _ => ?_))
    ring
  intro x hx
  refine (h'.submatrix h1 h2 x hx).trans_le (le_of_eq (sum_congr rfl fun i _ => sum_congr rfl fun j _ => ?_))
  ring

theorem SignedDef.congr {s : Finset ι} {σ : ι → F} {μ : F} {A B : ι → ι → F} (h : SignedDef s σ μ A)
    (hAB : ∀ i ∈ s, ∀ j ∈ s, A i j = B i j) : SignedDef s σ μ B := by
  intro x hx
  refine (h x hx).trans_le (le_of_eq (sum_congr rfl fun i hi => sum_congr rfl fun j hj => ?_))
  rw [hAB i hi j hj]

open Classical in
/-- The signs of the rows of a quasidefinite matrix. -/
noncomputable def rowSign (S : ι → Prop) (i : ι) : F := if S i then 1 else -1

theorem rowSign_abs (S : ι → Prop) (i : ι) : |rowSign (F := F) S i| = 1 := by
  unfold rowSign
  split
  · exact abs_one
  · rw [abs_neg, abs_one]

theorem rowSign_lt {S : ι → Prop} {i : ι} {μ x : F} (h : μ < rowSign S i * x) : (S i → μ < x) ∧ (¬ S i → x < -μ) := by
  unfold rowSign at h
  constructor
  · intro hS
    rwa [if_pos hS, one_mul] at h
  · intro hS
    rw [if_neg hS] at h
    linarith

theorem QuasiDef.signed {s : Finset ι} {S : ι → Prop} {μ : F} {A : ι → ι → F} (h : QuasiDef s S μ A)
    (hsymm : ∀ i ∈ s, ∀ j ∈ s, A i j = A j i) : SignedDef s (rowSign S) μ A := by
  classical
  intro x hx
  have := quasi_sign S μ hsymm h.1 h.2 x hx
  refine this.trans_le (le_of_eq (sum_congr rfl fun i _ => sum_congr rfl fun j _ => ?_))
  congr 3

end

variable {K F : Type} [Zero K] [Sub K] [Mul K] [Div K] [Field F] [LinearOrder F] [IsStrictOrderedRing F]

/-- The factorization of a single matrix without regularization. -/
theorem single_forward_quasi (R : Rounding K F) {s : Sparsity} {p : List Nat} (hv : ValidSparsity s p)
    {f : DiagFactor K} (hf : f.Declared s p) {m : MatIn K} (hm : m.Fits s p) (method : Method)
    {n : Nat} (hn : ∀ i < s.numRows, f.sparsity.rowEntries i ≤ n)
    {c : Nat} (hc : ∀ j < s.numRows, f.sparsity.colEntries j < c)
    {Ω ρ μ β ε : F} (hR : R.AmpleQuasi n c s.numRows Ω ρ μ β ε)
    (hfin : ∀ i < s.numRows, ∀ j < s.numRows, R.fin (m.sym i j) ∧ R.stored (m.sym i j))
    (hρ : ∀ i < s.numRows, ∑ j ∈ range s.numRows, |R.v (m.sym i j)| ≤ ρ)
    {S : Nat → Prop} (hq : QuasiDef (range s.numRows) S (2 * μ) fun i j => R.v (m.sym i j)) :
    ∃ f', f.factorize m (fun x _ => x) method = .ok f' ∧ f'.Declared s p ∧ f'.sparsity = f.sparsity ∧
      (∀ i < s.numRows, R.fin (f'.pivot i) ∧ (S (permAt p i) → μ < R.v (f'.pivot i)) ∧
        (¬ S (permAt p i) → R.v (f'.pivot i) < -μ) ∧ |R.v (f'.pivot i)| ≤ β) ∧
      f'.Entries (fun y => R.fin y ∧ |R.v y| ≤ β / μ) ∧
      (∀ i < s.numRows, R.stored (f'.pivot i)) ∧ f'.Entries R.stored ∧
      (∀ i < s.numRows, ∀ j < s.numRows,
        |R.v (m.sym (permAt p i) (permAt p j)) -
            ldlt s.numRows (fun a b => R.v (f'.lower a b)) (fun a => R.v (f'.pivot a)) i j| ≤
          R.gamma (n + 2) * ldlt s.numRows (fun a b => |R.v (f'.lower a b)|) (fun a => |R.v (f'.pivot a)|) i j +
            R.slip n ε) ∧
      (∀ i < s.numRows,
        ∑ j ∈ range s.numRows, ldlt s.numRows (fun a b => |R.v (f'.lower a b)|) (fun a => |R.v (f'.pivot a)|) i j ≤
          quasiGrowth n c μ β ∧
        ∑ j ∈ range s.numRows, unitLower (fun a b => |R.v (f'.lower a b)|) i j * |R.v (f'.pivot j)| ≤ (n + 1) * β) := by
  classical
  obtain ⟨hcl, -⟩ := hf.closed1 hv
  have hm1 := fits_single hv hf hm
  obtain ⟨f', h, hd⟩ := C25_factorize_total s p hv f hf m hm (fun x _ => x) method
  obtain ⟨L, D, rfl, hL, hD, hrows⟩ := Sat.of_ok (factorize_sat hcl hm1 (fun x _ => x) method) h
  obtain ⟨w, hE⟩ := single_elim hcl hm1 (r := n) (fun i hi => by rw [← Csr.rowEntries_eq]; exact hn i hi) hrows
  obtain ⟨p1, p2, p3⟩ := perm_facts hv.perm
  have hB : Elim.QuasiBounds R (range s.numRows) f.sparsity.Has
      (fun i j => m.sym (permAt f.permutation i) (permAt f.permutation j)) n c (fun i => rowSign S (permAt p i)) Ω ρ μ β ε
      (R.growth (n + 2) * ((n + 1) * ε)) := by
    rw [hf.perm]
    refine ⟨hR.range, ?_, ?_, ?_, hR.pos, hR.bound, hR.small, rfl, ?_, hR.gamma, ?_, fun i => rowSign_abs _ _, ?_, hR.max,
      hR.max_div⟩
    · exact fun i hi j hj => (hfin _ (mem_range.mp (p1 i hi)) _ (mem_range.mp (p1 j hj))).1
    · exact fun i hi j hj => (hfin _ (mem_range.mp (p1 i hi)) _ (mem_range.mp (p1 j hj))).2
    · intro i hi
      rw [sum_perm hv.perm fun j => |R.v (m.sym (permAt p i) j)|]
      exact hρ _ (mem_range.mp (p1 i hi))
    · intro r hr t ht hh
      refine le_trans (card_le_card fun i hi => ?_) ((card_col_single (F := ℚ) (c := f.sparsity)
        (l := fun i j => if f.sparsity.Has i j then 1 else 0) (fun i j hij => ?_) s.numRows r).trans (hc r (mem_range.mp hr)))
      · refine mem_filter.mpr ⟨ht hi, ?_⟩
        rcases hh i hi with rfl | hi'
        · rw [unitLower_self]
          exact one_ne_zero
        · rw [unitLower]
          split
          · exact one_ne_zero
          · exact one_ne_zero
      · by_contra hn'
        exact hij (if_neg hn')
    · have := hR.accuracy
      unfold quasiGrowth Rounding.slip at this
      rw [card_range]
      exact this
    · exact (hq.signed fun i _ j _ => by rw [sym_comm]).submatrix p1 p2
  have hrow := hE.quasi_rows hB
  have hent : ∀ i j, f.sparsity.Has i j → R.fin (val f.sparsity L i j) ∧ |R.v (val f.sparsity L i j)| ≤ β / μ := by
    intro i j hij
    have hi := (hE.lower hij).1
    have := (hrow i hi).entry j hij
    refine ⟨this.fin, ?_⟩
    have := (hE.quasi_le hB hi (hE.lower hij).2.1).2
    rwa [hE.has_unit hij] at this
  have hul : ∀ a b : Nat, |Elim.unit R (val f.sparsity L) a b| =
      unitLower (fun a b => |R.v (val f.sparsity L a b)|) a b := fun a b => by
    unfold unitLower Elim.unit
    split
    · exact abs_one
    · rfl
  refine ⟨_, h, hd, rfl, ?_, hent, fun i hi => (hrow i (mem_range.mpr hi)).stored, ?_, ?_, ?_⟩
  · intro i hi
    have := hrow i (mem_range.mpr hi)
    obtain ⟨h1, h2⟩ := rowSign_lt this.sign
    exact ⟨this.fin, h1, h2, this.le⟩
  · intro i j hij
    have := (hE.quot (i := i) (j := j) hij)
    show R.stored (val f.sparsity L i j)
    rw [this]
    exact R.stored_div _ _
  · intro i hi j hj
    have := hE.quasi_err hB (mem_range.mpr hi) (mem_range.mpr hj)
    unfold Elim.Err at this
    simp only [hul] at this
    rw [hf.perm] at this
    exact this
  · intro i hi
    have := hE.quasi_sum hB (mem_range.mpr hi)
    simp only [hul] at this
    exact this

private theorem typesOk {s : ArrowheadSparsity} {T : ArrowheadTypes} {d : Dims} (hs : s.Valid d)
    (hT : arrowheadTypes s = .ok T) : TypesOk s T d := by
  obtain ⟨T', h, h'⟩ := arrowheadTypes_sat hs
  rw [hT] at h
  cases h
  exact h'

/-- The factorization of a repeating block matrix without regularization. -/
theorem arrowhead_forward_quasi (R : Rounding K F) {s : ArrowheadSparsity} {d : Dims} (hs : s.Valid d) {T : ArrowheadTypes}
    {N : Nat} {f : ArrowheadFactor K} (hf : f.Declared s T d N) {m : ArrowheadMatrix K} (hm : m.Fits s T d N)
    {method : Method} {f' : ArrowheadFactor K}
    (h : f.factorize d.tridiag d.link d.outer m (fun x _ => x) method = .ok f')
    {n : Nat} (hn : ∀ a ∈ blocks N, ∀ i < d.of a, T.rowEntries N a i ≤ n)
    {c : Nat} (hc : ∀ a ∈ blocks N, ∀ j < d.of a, T.colEntries N a j < c)
    {Ω ρ μ β ε : F} (hR : R.AmpleQuasi n c (positions d N).card Ω ρ μ β ε)
    (hfin : ∀ k ∈ positions d N, ∀ l ∈ positions d N, R.fin (m.assembled N k l) ∧ R.stored (m.assembled N k l))
    (hρ : ∀ k ∈ positions d N, ∑ l ∈ positions d N, |(m.map R.v).assembled N k l| ≤ ρ)
    {S : (Σ _ : Blk, Nat) → Prop} (hq : QuasiDef (positions d N) S (2 * μ) ((m.map R.v).assembled N)) :
    (∀ k ∈ positions d N, R.fin (f'.pivotAt k.1 k.2) ∧ (S (s.permPos k) → μ < R.v (f'.pivotAt k.1 k.2)) ∧
      (¬ S (s.permPos k) → R.v (f'.pivotAt k.1 k.2) < -μ) ∧ |R.v (f'.pivotAt k.1 k.2)| ≤ β) ∧
    f'.Entries (fun y => R.fin y ∧ |R.v y| ≤ β / μ) ∧
    (∀ a ∈ blocks N, ∀ i < d.of a, R.stored (f'.pivotAt a i)) ∧
    (∀ k ∈ positions d N, ∀ l ∈ positions d N,
      |(m.map R.v).assembled N (s.permPos k) (s.permPos l) - (f'.map R.v).ldlt d N k.1 l.1 k.2 l.2| ≤
        R.gamma (n + 2) * (f'.map fun y => |R.v y|).ldlt d N k.1 l.1 k.2 l.2 + R.slip n ε) ∧
    (∀ k ∈ positions d N,
      ∑ l ∈ positions d N, (f'.map fun y => |R.v y|).ldlt d N k.1 l.1 k.2 l.2 ≤ quasiGrowth n c μ β ∧
      ∑ l ∈ positions d N, |(f'.map R.v).lowerElement N k.1 l.1 k.2 l.2| * |R.v (f'.pivotAt l.1 l.2)| ≤ (n + 1) * β) ∧
    (∀ k ∈ positions d N, ∀ l ∈ positions d N, |(f'.map R.v).lowerElement N k.1 l.1 k.2 l.2| ≤ β / μ) := by
  classical
  have hT := typesOk hs hf.types
  have hX := chainPat_ok hT N
  obtain ⟨hd, hrows⟩ := Sat.of_ok (arrowheadFactorize_sat hs hT hf hm.matrixOk (fun x _ => x) method) h
  obtain ⟨B, hB⟩ : ∃ B, ∀ p ≤ N + 2 + 1, chainN (chainPat T d N) (N + 2) p ≤ B :=
    ⟨∑ p ∈ range (N + 4), chainN (chainPat T d N) (N + 2) p, fun p hp =>
      single_le_sum (f := fun p => chainN (chainPat T d N) (N + 2) p) (fun _ _ => Nat.zero_le _)
        (mem_range.mpr (by omega))⟩
  obtain ⟨w, hE⟩ := ChainRows.elim hX hrows hm.zero hB (n := n) (fun p hp i hi => by
    obtain ⟨a, ha, rfl⟩ := exists_rank (N := N) hp
    rw [rowLen_eq ha]
    exact hn a ha i (by rw [dims_of_eq ha]; exact hi))
  obtain ⟨p1, p2, p3⟩ := permPos_facts hs N
  have hA : ∀ k ∈ positions d N, ∀ l ∈ positions d N, posA (N + 2) (m.chainInput s N) (chainPos N k) (chainPos N l) =
      m.assembled N (s.permPos k) (s.permPos l) := fun k hk l hl =>
    (matrix_symElement_eq hm.numSubdiag hm.numOuter (mem_positions.mp hk).1 (mem_positions.mp hl).1
      k.2 l.2).symm
  have hAv : ∀ k ∈ positions d N, ∀ l ∈ positions d N,
      R.v (posA (N + 2) (m.chainInput s N) (chainPos N k) (chainPos N l)) =
      (m.map R.v).assembled N (s.permPos k) (s.permPos l) := fun k hk l hl => by
    unfold posA
    rw [← chainA_map R.v_zero]
    exact (matrix_symElement_eq (by simp [ArrowheadMatrix.map, hm.numSubdiag]) (by simp [ArrowheadMatrix.map, hm.numOuter])
      (mem_positions.mp hk).1 (mem_positions.mp hl).1 k.2 l.2).symm
  have hex : ∀ x, ∃ k, x ∈ chainPositions (chainPat T d N) (N + 2) → k ∈ positions d N ∧ chainPos N k = x := fun x => by
    by_cases hx : x ∈ chainPositions (chainPat T d N) (N + 2)
    · obtain ⟨k, hk, h⟩ := exists_chainPos hx
      exact ⟨k, fun _ => ⟨hk, h⟩⟩
    · exact ⟨⟨.start, 0⟩, fun h => absurd h hx⟩
  choose e he using hex
  have he' : ∀ k ∈ positions d N, e (chainPos N k) = k := fun k hk => by
    obtain ⟨h1, h2⟩ := he _ (chainPos_mem (T := T) hk)
    exact chainPos_inj h1 hk h2
  have hcard : (chainPositions (chainPat T d N) (N + 2)).card = (positions d N).card := by
    symm
    refine card_bij (fun k _ => chainPos N k) (fun k hk => chainPos_mem hk) (fun k hk l hl h => chainPos_inj hk hl h) ?_
    intro x hx
    obtain ⟨k, hk, h⟩ := exists_chainPos hx
    exact ⟨k, hk, h⟩
  have hsum : ∀ g : (Σ _ : Nat, Nat) → F, ∑ x ∈ chainPositions (chainPat T d N) (N + 2), g x =
      ∑ k ∈ positions d N, g (chainPos N k) := by
    intro g
    symm
    refine sum_bij (fun k _ => chainPos N k) (fun k hk => chainPos_mem hk) (fun k hk l hl h => chainPos_inj hk hl h) ?_
      fun _ _ => rfl
    intro x hx
    obtain ⟨k, hk, h⟩ := exists_chainPos hx
    exact ⟨k, hk, h⟩
  have hsymm : ∀ k ∈ positions d N, ∀ l ∈ positions d N, (m.map R.v).assembled N k l = (m.map R.v).assembled N l k := by
    intro k hk l hl
    obtain ⟨k', hk', rfl⟩ := p3 k hk
    obtain ⟨l', hl', rfl⟩ := p3 l hl
    rw [← hAv k' hk' l' hl', ← hAv l' hl' k' hk', hE.symm]
  have hBd : Elim.QuasiBounds R (chainPositions (chainPat T d N) (N + 2)) (posHas (chainPat T d N) (N + 2))
      (posA (N + 2) (m.chainInput s N)) n c (fun x => rowSign S (s.permPos (e x))) Ω ρ μ β ε
      (R.growth (n + 2) * ((n + 1) * ε)) := by
    refine ⟨hR.range, ?_, ?_, ?_, hR.pos, hR.bound, hR.small, rfl, ?_, hR.gamma, ?_, fun i => rowSign_abs _ _, ?_, hR.max,
      hR.max_div⟩
    · intro x hx y hy
      obtain ⟨k, hk, rfl⟩ := exists_chainPos hx
      obtain ⟨l, hl, rfl⟩ := exists_chainPos hy
      rw [hA k hk l hl]
      exact (hfin _ (p1 k hk) _ (p1 l hl)).1
    · intro x hx y hy
      obtain ⟨k, hk, rfl⟩ := exists_chainPos hx
      obtain ⟨l, hl, rfl⟩ := exists_chainPos hy
      rw [hA k hk l hl]
      exact (hfin _ (p1 k hk) _ (p1 l hl)).2
    · intro x hx
      obtain ⟨k, hk, rfl⟩ := exists_chainPos hx
      rw [hsum]
      rw [sum_congr rfl fun l hl => by rw [hAv k hk l hl],
        sum_reindex p1 p2 p3 fun l => |(m.map R.v).assembled N (s.permPos k) l|]
      exact hρ _ (p1 k hk)
    · intro r hr t ht hh
      obtain ⟨l, hl, rfl⟩ := exists_chainPos hr
      refine le_trans ?_ ((card_col_arrowhead (F := ℚ) (T := T) (d := d) (N := N)
        (l := fun k l => if k = l ∨ T.Has N k.1 k.2 l.1 l.2 then 1 else 0) (fun x _ y _ hxy => ?_) hl).trans
        (hc l.1 (mem_positions.mp hl).1 l.2 (mem_positions.mp hl).2))
      · refine card_le_card_of_injOn e (fun x hx => ?_) (fun x hx y hy hxy => ?_)
        · obtain ⟨h1, h2⟩ := he x (ht hx)
          refine mem_coe.mpr (mem_filter.mpr ⟨h1, ?_⟩)
          rw [if_pos]
          · exact one_ne_zero
          rcases hh x hx with h3 | h3
          · exact Or.inl (chainPos_inj h1 hl (h2.trans h3))
          · rw [← h2] at h3
            exact Or.inr ((posHas_chainPos (mem_positions.mp h1).1 (mem_positions.mp hl).1).mp h3)
        · rw [← (he x (ht hx)).2, ← (he y (ht hy)).2, hxy]
      · by_contra hn'
        exact hxy (if_neg hn')
    · have := hR.accuracy
      unfold quasiGrowth Rounding.slip at this
      rw [hcard]
      exact this
    · refine ((hq.signed hsymm).submatrix (e := fun x => s.permPos (e x)) (fun x hx => p1 _ (he x hx).1)
        (fun x hx y hy hxy => ?_)).congr fun x hx y hy => ?_
      · have := p2 _ (he x hx).1 _ (he y hy).1 hxy
        rw [← (he x hx).2, ← (he y hy).2, this]
      · rw [← hAv _ (he x hx).1 _ (he y hy).1, (he x hx).2, (he y hy).2]
  have hrow := hE.quasi_rows hBd
  have hent : ∀ x y, posHas (chainPat T d N) (N + 2) x y →
      R.fin (posVal (chainPat T d N) (N + 2) (f'.chainVals N) x y) ∧
      |R.v (posVal (chainPat T d N) (N + 2) (f'.chainVals N) x y)| ≤ β / μ := by
    intro x y hxy
    obtain ⟨q1, q2, -⟩ := hE.lower hxy
    refine ⟨((hrow x q1).entry y hxy).fin, ?_⟩
    have := (hE.quasi_le hBd q1 q2).2
    rwa [hE.has_unit hxy] at this
  have hunit : ∀ k ∈ positions d N, ∀ l ∈ positions d N,
      Elim.unit R (posVal (chainPat T d N) (N + 2) (f'.chainVals N)) (chainPos N k) (chainPos N l) =
        (f'.map R.v).lowerElement N k.1 l.1 k.2 l.2 := by
    intro k hk l hl
    by_cases hkl : k = l
    · subst hkl
      rw [Elim.unit_self, (unitLower_arrowhead hT (hd.map R.v)).one k hk]
    · rw [Elim.unit_ne fun h' => hkl (chainPos_inj hk hl h')]
      by_cases hh : T.Has N k.1 k.2 l.1 l.2
      · rw [posVal_chainPos R.v_zero hd hk hl hh hkl]
      · have h1 : ¬ posHas (chainPat T d N) (N + 2) (chainPos N k) (chainPos N l) := fun h' =>
          hh ((posHas_chainPos (mem_positions.mp hk).1 (mem_positions.mp hl).1).mp h')
        rw [hE.off h1, R.v_zero]
        by_contra hne
        rcases lowerElement_has (hd.map R.v) (mem_positions.mp hk).1 (mem_positions.mp hl).1 (Ne.symm hne) with ⟨h2, h3⟩ | h2
        · refine hkl ?_
          obtain ⟨a, i⟩ := k
          obtain ⟨b, j⟩ := l
          dsimp only at h2 h3
          rw [h2, h3]
        · exact hh h2
  have hpiv : ∀ k ∈ positions d N, posD (N + 2) (f'.chainVals N) (chainPos N k) = f'.pivotAt k.1 k.2 := fun k hk =>
    (factor_pivotAt_eq hd (mem_positions.mp hk).1 k.2).symm
  have habs : ∀ k l : Σ _ : Blk, Nat, (f'.map fun y => |R.v y|).ldlt d N k.1 l.1 k.2 l.2 =
      ∑ r ∈ positions d N, |(f'.map R.v).lowerElement N k.1 r.1 k.2 r.2| * |R.v (f'.pivotAt r.1 r.2)| *
        |(f'.map R.v).lowerElement N l.1 r.1 l.2 r.2| := by
    intro k l
    unfold ArrowheadFactor.ldlt positions
    rw [sum_sigma]
    refine sum_congr rfl fun b _ => sum_congr rfl fun j _ => ?_
    rw [pivotAt_map (by rw [R.v_zero, abs_zero])]
    exact congrArg₂ (· * ·) (congrArg₂ (· * ·) (Rounding.lowerElement_abs (R := R) (f := f') (N := N) _ _ _ _) rfl)
      (Rounding.lowerElement_abs (R := R) (f := f') (N := N) _ _ _ _)
  refine ⟨?_, ArrowheadFactor.entries_of_chain hd ⟨?_, ?_, ?_, ?_⟩, ?_, ?_, ?_, ?_⟩
  · intro k hk
    have := hrow (chainPos N k) (chainPos_mem hk)
    obtain ⟨h1, h2⟩ := rowSign_lt this.sign
    rw [he' k hk, hpiv k hk] at h1 h2
    have h3 := this.fin
    have h4 := this.le
    rw [hpiv k hk] at h3 h4
    exact ⟨h3, h1, h2, h4⟩
  · intro p hp i j hij
    rw [← posVal_D hp]
    exact hent _ _ ((posHas_D hp).mpr hij)
  · intro p hp i j hij
    rw [← posVal_S hp]
    exact hent _ _ ((posHas_S hp).mpr hij)
  · intro p hp i j hij
    rw [← posVal_O hp]
    exact hent _ _ ((posHas_O hp).mpr hij)
  · intro i j hij
    rw [← posVal_E]
    exact hent _ _ (posHas_E.mpr hij)
  · intro a ha i hi
    rw [factor_pivotAt_eq hd ha]
    exact (hrow (chainPos N ⟨a, i⟩) (chainPos_mem (mem_positions.mpr ⟨ha, hi⟩))).stored
  · intro k hk l hl
    have := hE.quasi_err hBd (chainPos_mem (T := T) hk) (chainPos_mem (T := T) hl)
    unfold Elim.Err at this
    rw [hAv k hk l hl, hsum, hsum] at this
    rw [habs]
    have e1 : (f'.map R.v).ldlt d N k.1 l.1 k.2 l.2 = ∑ r ∈ positions d N,
        (f'.map R.v).lowerElement N k.1 r.1 k.2 r.2 * R.v (f'.pivotAt r.1 r.2) *
          (f'.map R.v).lowerElement N l.1 r.1 l.2 r.2 := by
      unfold ArrowheadFactor.ldlt positions
      rw [sum_sigma]
      refine sum_congr rfl fun b _ => sum_congr rfl fun j _ => ?_
      rw [pivotAt_map R.v_zero]
    rw [e1]
    refine le_trans (le_of_eq ?_) (this.trans (le_of_eq ?_))
    · congr 2
      exact sum_congr rfl fun r hr => by rw [hunit k hk r hr, hunit l hl r hr, hpiv r hr]
    · unfold Rounding.slip
      congr 2
      exact sum_congr rfl fun r hr => by rw [hunit k hk r hr, hunit l hl r hr, hpiv r hr]
  · intro k hk
    obtain ⟨h1, h2⟩ := hE.quasi_sum hBd (chainPos_mem (T := T) hk)
    rw [hsum] at h1 h2
    constructor
    · unfold quasiGrowth
      refine le_trans (le_of_eq (sum_congr rfl fun l hl => ?_)) h1
      rw [habs, hsum]
      exact sum_congr rfl fun r hr => by rw [hunit k hk r hr, hunit l hl r hr, hpiv r hr]
    · refine le_trans (le_of_eq (sum_congr rfl fun l hl => ?_)) h2
      rw [hunit k hk l hl, hpiv l hl]
  · intro k hk l hl
    rw [← hunit k hk l hl]
    exact (hE.quasi_le hBd (chainPos_mem (T := T) hk) (chainPos_mem (T := T) hl)).2

end Ctldl
