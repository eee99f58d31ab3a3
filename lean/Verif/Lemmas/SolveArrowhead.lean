import Verif.Lemmas.SolveLists
import Verif.Lemmas.ForwardFinite
import Verif.Lemmas.ForwardArrowhead
import Verif.Props.DefiniteRounding

/-! # Solving systems with definite repeating block matrices without overflow -/

namespace Ctldl

open Finset

variable {K F : Type} [Zero K] [Sub K] [Mul K] [Div K] [Field F] [LinearOrder F] [IsStrictOrderedRing F]

omit [Sub K] [Mul K] [Div K] in
theorem ArrowheadFactor.Entries.and {f : ArrowheadFactor K} {P Q : K → Prop} (h : f.Entries P) (h' : f.Entries Q) :
    f.Entries fun y => P y ∧ Q y :=
  ⟨fun i j hij => ⟨h.startDiag i j hij, h'.startDiag i j hij⟩,
    fun i j hij => ⟨h.startNext i j hij, h'.startNext i j hij⟩,
    fun i j hij => ⟨h.startOuter i j hij, h'.startOuter i j hij⟩,
    fun g hg i j hij => ⟨h.tridiagDiag g hg i j hij, h'.tridiagDiag g hg i j hij⟩,
    fun g hg i j hij => ⟨h.tridiagSubdiag g hg i j hij, h'.tridiagSubdiag g hg i j hij⟩,
    fun i j hij => ⟨h.linkPrev i j hij, h'.linkPrev i j hij⟩,
    fun i j hij => ⟨h.linkDiag i j hij, h'.linkDiag i j hij⟩,
    fun i j hij => ⟨h.linkNext i j hij, h'.linkNext i j hij⟩,
    fun g hg i j hij => ⟨h.outerSubdiag g hg i j hij, h'.outerSubdiag g hg i j hij⟩,
    fun i j hij => ⟨h.outerDiag i j hij, h'.outerDiag i j hij⟩⟩

/-- The error of a substitution, in the terms of the conditions on the arithmetic. -/
theorem Rounding.Dot.error {R : Rounding K F} {n c : Nat} {Ω α μ Λ β : F} (hS : R.AmpleSolve n c Ω α μ Λ β) {q : Nat}
    (hq : q ≤ n + c) {x S A : F} (h : R.Dot q x S A) : |x - S| ≤ R.gamma (n + c + 2) * A + R.underflow n c := by
  refine h.err.trans (add_le_add ?_ ?_)
  · exact mul_le_mul_of_nonneg_right (R.gamma_mono (by omega)) ((abs_nonneg _).trans h.abs_le)
  · have h1 : R.growth (q + 1) ≤ 2 := (hS.growth (by omega)).trans (by norm_num)
    have h2 : (q : F) ≤ n + c := by exact_mod_cast hq
    have h3 := mul_le_mul_of_nonneg_right h2 R.η_nonneg
    have h4 := mul_le_mul h1 h3 (mul_nonneg (by positivity) R.η_nonneg) (by norm_num)
    refine h4.trans (le_of_eq ?_)
    unfold underflow
    ring

omit [LinearOrder F] [IsStrictOrderedRing F] in
private theorem sum_positions {d : Dims} {N : Nat} (g : Blk → Nat → F) :
    ∑ a ∈ blocks N, ∑ j ∈ range (d.of a), g a j = ∑ l ∈ positions d N, g l.1 l.2 := by
  unfold positions
  rw [sum_sigma]

private theorem typesOk {s : ArrowheadSparsity} {T : ArrowheadTypes} {d : Dims} (hs : s.Valid d)
    (hT : arrowheadTypes s = .ok T) : TypesOk s T d := by
  obtain ⟨T', h, h'⟩ := arrowheadTypes_sat hs
  rw [hT] at h
  cases h
  exact h'

/-- The factors of a definite matrix. -/
theorem arrowhead_tame (R : Rounding K F) {s : ArrowheadSparsity} {d : Dims} (hs : s.Valid d) {T : ArrowheadTypes}
    {N : Nat} {f : ArrowheadFactor K} (hf : f.Declared s T d N) {m : ArrowheadMatrix K} (hm : m.Fits s T d N)
    {method : Method} {f' : ArrowheadFactor K}
    (h : f.factorize d.tridiag d.link d.outer m (fun x _ => x) method = .ok f')
    {n : Nat} (hn : ∀ a ∈ blocks N, ∀ i < d.of a, T.rowEntries N a i ≤ n)
    {c : Nat} (hc : ∀ a ∈ blocks N, ∀ j < d.of a, T.colEntries N a j < c)
    {Ω α μ Λ ε β : F} (hR : R.Ample n c Ω α μ Λ ε) (hS : R.AmpleSolve n c Ω α μ Λ β)
    (hfin : ∀ k ∈ positions d N, ∀ l ∈ positions d N, R.fin (m.assembled N k l) ∧ R.stored (m.assembled N k l))
    (hα : ∀ k ∈ positions d N, (m.map R.v).assembled N k k ≤ α)
    (hpd : PosDef (positions d N) μ fun k l => (m.map R.v).assembled N k l -
      if k = l then R.margin n c (positions d N).card ε ((m.map R.v).assembled N k k) else 0)
    (hne : (positions d N).Nonempty) :
    Tame (positions d N) (posRank d N) (fun x y => (f'.map R.v).lowerElement N x.1 y.1 x.2 y.2)
      (fun k => R.v (f'.pivotAt k.1 k.2)) c μ (3 * α) := by
  have hT := typesOk hs hf.types
  obtain ⟨hd, -⟩ := Sat.of_ok (arrowheadFactorize_sat hs hT hf hm.matrixOk (fun x _ => x) method) h
  obtain ⟨h1, -, h3, h4, -⟩ := arrowhead_forward R hs hf hm h hn hc hR hfin hα hpd
  obtain ⟨h5, h6⟩ := h4 hne
  obtain ⟨p1, p2, p3⟩ := permPos_facts hs N
  have heq : ∀ k l : Σ _ : Blk, Nat, (k.1 = l.1 ∧ k.2 = l.2) ↔ k = l := by
    rintro ⟨a, i⟩ ⟨b, j⟩
    simp
  obtain ⟨w, hw, hA⟩ := C46_backward_error R s d hs T N f hf m hm (fun x _ => x) method f' h
    (fun a ha i hi => ⟨(h1 a ha i hi).1, fun x hx => hx ▸ (h1 a ha i hi).1⟩) ε h5 h3 n hn
  refine tame_of_approx (A := fun k l => (m.map R.v).assembled N (s.permPos k) (s.permPos l))
    (unitLower_arrowhead hT (hd.map R.v)) (R.gamma_nonneg (n + 2)) ?_
    (e := R.growth (n + 2) * ((n + 1) * ε)) (mul_nonneg (R.growth_pos _).le (by positivity)) hR.pos ?_ ?_ ?_ ?_ ?_
  · exact (mul_le_mul_of_nonneg_left (R.gamma_mono (by omega)) (by norm_num)).trans hS.gamma
  · intro k hk l hl
    obtain ⟨k1, k2⟩ := mem_positions.mp hk
    obtain ⟨l1, l2⟩ := mem_positions.mp hl
    have := hA _ k1 _ l1 _ k2 _ l2
    rw [← hw _ k1 _ k2, sub_self, sub_self, ite_self, add_zero, add_zero, ← (ldlt_positions f' R d N k l).1,
      ← (ldlt_positions f' R d N k l).2] at this
    exact this
  · exact fun k hk => (h1 _ (mem_positions.mp hk).1 _ (mem_positions.mp hk).2).2.1
  · exact fun k hk => hα _ (p1 k hk)
  · exact fun l hl => (card_col_arrowhead (T := T) (l := fun x y => (f'.map R.v).lowerElement N x.1 y.1 x.2 y.2)
      (fun x hx y hy hne => by
        rw [← heq x y]
        exact lowerElement_has (hd.map R.v) (mem_positions.mp hx).1 (mem_positions.mp hy).1 hne) hl).trans
      (hc _ (mem_positions.mp hl).1 _ (mem_positions.mp hl).2)
  · refine (hpd.reindex p1 p2 p3).congr fun k hk l hl => ?_
    congr 1
    by_cases hkl : k = l
    · subst hkl
      rw [if_pos rfl, if_pos rfl]
      rfl
    · rw [if_neg hkl, if_neg fun h => hkl (p2 k hk l hl h)]

/-- Solving with factors of a definite matrix. -/
theorem arrowhead_solve {R : Rounding K F} {s : ArrowheadSparsity} {d : Dims} (hs : s.Valid d) {T : ArrowheadTypes}
    (hT : TypesOk s T d) {N : Nat} {f : ArrowheadFactor K} (hf : f.Declared s T d N)
    {n : Nat} (hn : ∀ a ∈ blocks N, ∀ i < d.of a, T.rowEntries N a i ≤ n)
    {c : Nat} (hc : ∀ a ∈ blocks N, ∀ j < d.of a, T.colEntries N a j < c)
    {Ω α μ Λ ε β : F} (hR : R.Ample n c Ω α μ Λ ε) (hS : R.AmpleSolve n c Ω α μ Λ β)
    (ht : (positions d N).Nonempty → Tame (positions d N) (posRank d N)
      (fun x y => (f.map R.v).lowerElement N x.1 y.1 x.2 y.2) (fun k => R.v (f.pivotAt k.1 k.2)) c μ (3 * α))
    (hpiv : ∀ a ∈ blocks N, ∀ i < d.of a, R.fin (f.pivotAt a i) ∧ R.stored (f.pivotAt a i))
    (hst : f.Entries R.stored) (hent : f.Entries fun y => R.fin y ∧ |R.v y| ≤ Λ)
    {b : ArrowheadVector K} (hb : b.OfSize d N)
    (hbfin : ∀ a ∈ blocks N, ∀ i < d.of a, R.fin (b.at a i) ∧ R.stored (b.at a i))
    (hβ : ∑ k ∈ positions d N, R.v (b.at k.1 k.2) ^ 2 +
      (positions d N).card * ((2 + 2 * α * μ) * R.underflow n c ^ 2) ≤ β ^ 2) :
    Sat (f.solveInPlace b) fun x => x.OfSize d N ∧ (∀ a ∈ blocks N, ∀ i < d.of a, R.fin (x.at a i)) ∧
      μ ^ 2 * ∑ k ∈ positions d N, R.v (x.at k.1 k.2) ^ 2 ≤ (9 * β) ^ 2 := by
  obtain ⟨p1, p2, p3⟩ := permPos_facts hs N
  obtain ⟨y, hy, hyS, hyd⟩ := Rounding.forwardSolve_dot (R := R) hs hT hf hst hb
  have hyl := Sat.of_ok (forwardSolve_lists hs hT hf (hent.and hst) hb) hy
  obtain ⟨z, hz, hzS, hze⟩ := arrowheadDiagonalSolve_sat hs hT hf hyS
  obtain ⟨x, hx, hxS, hxd⟩ := Rounding.backwardSolve_dot (R := R) hs hT hf hst hzS
  have hxl := Sat.of_ok (backwardSolve_lists hs hT hf (hent.and hst) hzS) hx
  refine ⟨x, ?_, hxS, ?_⟩
  · unfold ArrowheadFactor.solveInPlace
    rw [hy]
    show f.diagonalSolve y >>= _ = _
    rw [hz]
    exact hx
  rcases (positions d N).eq_empty_or_nonempty with h0 | hne
  · refine ⟨fun a ha i hi => ?_, ?_⟩
    · have : (⟨a, i⟩ : Σ _ : Blk, Nat) ∈ positions d N := mem_positions.mpr ⟨ha, hi⟩
      rw [h0] at this
      exact absurd this (notMem_empty _)
    · rw [h0, sum_empty, mul_zero]
      exact sq_nonneg _
  have hTm := ht hne
  have hc1 : 1 ≤ c := by
    obtain ⟨k, hk⟩ := hne
    have := hc _ (mem_positions.mp hk).1 _ (mem_positions.mp hk).2
    omega
  have hne' : ∀ k l : Σ _ : Blk, Nat, posRank d N l < posRank d N k → k ≠ l := fun k l h h' => by
    rw [h'] at h
    exact lt_irrefl _ h
  have hU0 : 0 ≤ (positions d N).card * ((2 + 2 * α * μ) * R.underflow n c ^ 2) := by
    have := hR.alpha
    have := hR.pos
    positivity
  have hq0 : 0 ≤ ∑ k ∈ positions d N, R.v (b.at k.1 k.2) ^ 2 := sum_nonneg fun _ _ => sq_nonneg _
  obtain ⟨fy, ey⟩ := Rounding.forward_fin (L := f.storedAt N) (b := permAt' s b) (y := permAt' s y) hR.range hTm hS hR.alpha
    hR.nonneg hR.entry
    (fun k hk => by
      obtain ⟨ks, k1, k2, k3, k4⟩ := hyl k hk
      obtain ⟨ka, ki⟩ := mem_positions.mp hk
      refine ⟨ks, k1, fun l hl => ?_, k3.trans (hn _ ka _ ki), k4⟩
      obtain ⟨l1, l2, l3, l4⟩ := k2 l hl
      exact ⟨l1, l2, lowerElement_stored R.v_zero f N (hne' k l l2), l3.1, l4⟩)
    (fun k hk hfk => by
      obtain ⟨ka, ki⟩ := mem_positions.mp hk
      have := ((hyd _ ka _ ki hfk).2).error hS ((hn _ ka _ ki).trans (by omega))
      unfold rowMul at this
      rw [sum_positions fun a j => (f.map R.v).lowerElement N k.1 a k.2 j * Rounding.permVec R.v y s a j,
        sum_positions fun a j => (f.map R.av).lowerElement N k.1 a k.2 j * Rounding.permVec R.av y s a j] at this
      simp only [Rounding.lowerElement_abs] at this
      exact this)
    (fun k hk => hbfin _ (mem_positions.mp (p1 k hk)).1 _ (mem_positions.mp (p1 k hk)).2)
    (by
      refine le_trans (le_of_eq ?_) hβ
      rw [← sum_reindex p1 p2 p3 fun k => R.v (b.at k.1 k.2) ^ 2]
      rfl)
  obtain ⟨fz, ez⟩ := Rounding.diagonal_fin (D := fun k => f.pivotAt k.1 k.2) (y := permAt' s y) (z := permAt' s z) hR.range hTm hS
    hR.alpha hR.nonneg
    (fun k hk => ⟨rfl, hpiv _ (mem_positions.mp hk).1 _ (mem_positions.mp hk).2⟩) fy ey
    (fun k hk => hze _ (mem_positions.mp hk).1 _ (mem_positions.mp hk).2)
  obtain ⟨fx, ex⟩ := Rounding.backward_fin (L := f.storedAt N) (z := permAt' s z) (x := permAt' s x) hR.range hTm hS hR.alpha
    hR.nonneg hc1
    (fun k hk => by
      obtain ⟨ks, k1, k2, k3, k4⟩ := hxl k hk
      obtain ⟨ka, ki⟩ := mem_positions.mp hk
      refine ⟨ks, k1, fun l hl => ?_, k3.trans (hc _ ka _ ki).le, k4⟩
      obtain ⟨l1, l2, l3, l4⟩ := k2 l hl
      exact ⟨l1, l2, l3.2, l3.1, l4⟩)
    (fun k hk hfk => by
      obtain ⟨ka, ki⟩ := mem_positions.mp hk
      have := ((hxd _ ka _ ki hfk).2).error hS ((hc _ ka _ ki).le.trans (by omega))
      unfold colMul at this
      rw [sum_positions fun a j => (f.map R.v).lowerElement N a k.1 j k.2 * Rounding.permVec R.v x s a j,
        sum_positions fun a j => (f.map R.av).lowerElement N a k.1 j k.2 * Rounding.permVec R.av x s a j] at this
      simp only [Rounding.lowerElement_abs] at this
      exact this)
    fz ez (by linarith)
  refine ⟨fun a ha i hi => ?_, ?_⟩
  · obtain ⟨k, hk, hk'⟩ := p3 ⟨a, i⟩ (mem_positions.mpr ⟨ha, hi⟩)
    have := (fx k hk).1
    unfold permAt' at this
    have e : x.at k.1 (permAt (s.perm k.1) k.2) = x.at a i := by
      have : (⟨k.1, permAt (s.perm k.1) k.2⟩ : Σ _ : Blk, Nat) = ⟨a, i⟩ := hk'
      cases this
      rfl
    rwa [e] at this
  · rw [← sum_reindex p1 p2 p3 fun k => R.v (x.at k.1 k.2) ^ 2]
    exact ex

end Ctldl
