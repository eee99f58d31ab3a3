import Verif.Lemmas.RoundingArrowhead
import Verif.Lemmas.ArrowheadSolveExact
import Mathlib.Data.List.Perm.Subperm

/-! # Rounding errors of the triangular solves -/

namespace Ctldl

open Finset

variable {K F : Type} [Zero K] [Sub K] [Mul K] [Div K] [Field F] [LinearOrder F] [IsStrictOrderedRing F]

theorem Csr.rowsDown_le (c : Csr) (j n : Nat) : (rowsDown c j 0 n).length ≤ c.colEntries j := by
  have hnd : (rowsDown c j 0 n).Nodup := by
    unfold rowsDown
    refine List.Nodup.filter _ ?_
    rw [List.nodup_reverse]
    exact List.nodup_range'
  have hsub : rowsDown c j 0 n ⊆ (c.entries.filter (·.col == j)).map (·.row) := by
    intro i hi
    have := (List.mem_filter.mp hi).2
    have hh : c.Has i j := by simpa using this
    exact List.mem_map.mpr ⟨_, List.mem_filter.mpr ⟨hh, by simp⟩, rfl⟩
  have := (List.subperm_of_subset hnd hsub).length_le
  rwa [List.length_map] at this

namespace Rounding

variable {R : Rounding K F}

/-- An approximation by a sum of `q` rounded products, each subtracted. -/
def Dot (R : Rounding K F) (q : Nat) (x S A : F) : Prop := R.Apx (q + 1) x S A (q * R.η)

theorem Dot.refl (x : F) : R.Dot 0 x x |x| := by
  have := Apx.refl (R := R) 1 x
  unfold Dot
  rwa [Nat.cast_zero, zero_mul]

theorem Dot.le {p q : Nat} {x S A : F} (h : R.Dot p x S A) (hq : p ≤ q) : R.Dot q x S A :=
  Apx.mono h (by omega) le_rfl (mul_le_mul_of_nonneg_right (by exact_mod_cast hq) R.η_nonneg)

theorem Dot.congr {p q : Nat} {x S A S' A' : F} (h : R.Dot p x S A) (hq : p = q) (hS : S = S') (hA : A = A') :
    R.Dot q x S' A' := hq ▸ hS ▸ hA ▸ h

theorem dot_subAll {ks : List Nat} {l z : Nat → K} {a y : K} (hy : y = subAll ks (fun k => l k * z k) a)
    (hst : ∀ k ∈ ks, R.stored (l k)) (hf : R.fin y) : R.fin a ∧ (∀ k ∈ ks, R.fin (z k)) ∧ ∀ {q : Nat} {S A : F}, R.Dot q (R.v y) S A →
      R.Dot (q + ks.length) (R.v a) (S + (ks.map fun k => R.v (l k) * R.v (z k)).sum)
        (A + (ks.map fun k => R.av (l k) * R.av (z k)).sum) := by
  obtain ⟨h1, h2, h3⟩ := apx_subAll_const hy hf
  refine ⟨h1, fun k hk => (R.fin_mul (h2 k hk)).2, fun {q S A} h => ?_⟩
  have := h3 h (T := fun k => R.v (l k) * R.v (z k)) (AT := fun k => R.av (l k) * R.av (z k)) (ε := R.η) (by
    intro k hk
    obtain ⟨δ, e, hδ, he, h4⟩ := R.mul (hst k hk) (h2 k hk)
    have := ((Apx.refl (R := R) 0 (R.v (l k) * R.v (z k))).mul_round hδ).add_err
      (le_trans he (le_sub_iff_add_le.mpr R.μ_add_σ))
    rw [← h4, abs_mul, _root_.zero_add (R.η - R.σ)] at this
    exact this.le (Nat.add_le_add_right (Nat.zero_le q) 1))
  refine Apx.mono this (by omega) le_rfl (le_of_eq ?_)
  push_cast
  ring

section

variable {c cl : Csr} {p pr pc : List Nat} {n r k : Nat}

omit [Sub K] [Mul K] [Div K] [LinearOrder F] [IsStrictOrderedRing F] in
theorem entry_map {g : K → F} (hg : g 0 = 0) (f : SubFactor K) (i j : Nat) : (f.map g).entry i j = g (f.entry i j) :=
  val_map hg _ _ _ _

omit [Sub K] [Mul K] [Div K] [LinearOrder F] [IsStrictOrderedRing F] in
theorem lower_map {g : K → F} (hg : g 0 = 0) (f : DiagFactor K) (i j : Nat) : (f.map g).lower i j = g (f.lower i j) :=
  val_map hg _ _ _ _

/-- Forward substitution with an off-diagonal block. -/
theorem fwd_dot {f : SubFactor K} (hst : f.Entries R.stored) (h : f.OfType c pr pc) (hc : CsrOk c r k) (hpr : IsPerm pr r) (hpc : IsPerm pc k)
    {sol ps v : List K} (hsol : sol.length = k) (hps : ps.length = r) (hv : solveForwardSubstitution f sol ps = .ok v)
    {i : Nat} (hi : i < r) (hfin : R.fin (v.getD (permAt pr i) 0)) :
    R.fin (ps.getD (permAt pr i) 0) ∧ ∀ {q : Nat} {S A : F}, R.Dot q (R.v (v.getD (permAt pr i) 0)) S A →
      R.Dot (q + c.rowEntries i) (R.v (ps.getD (permAt pr i) 0))
        (S + ∑ j ∈ range k, (f.map R.v).entry i j * R.v (sol.getD (permAt pc j) 0))
        (A + ∑ j ∈ range k, (f.map R.av).entry i j * R.av (sol.getD (permAt pc j) 0)) := by
  have ho := h.subOk hc hpr hpc
  obtain ⟨w, h1, -, h2⟩ := forward_sat ho (by rw [h.permRow]; exact hpr)
    (by rw [h.permCol]; exact hpc) hsol hps
  rw [hv] at h1
  cases h1
  rw [h.permRow, h.permCol] at h2
  obtain ⟨g1, g2, g3⟩ := dot_subAll (R := R) (h2 i hi) (fun k hk => hst i k (Csr.mem_cols.mp hk)) hfin
  refine ⟨g1, fun {q S A} hd => ?_⟩
  have := g3 hd
  rw [sum_map_cols ho.good i (fun j hj => by rw [show f.l i j = 0 from val_off hj, R.v_zero, zero_mul]),
    sum_map_cols ho.good i (fun j hj => by rw [show f.l i j = 0 from val_off hj, R.av_zero, zero_mul]), ho.cols] at this
  simp only [entry_map R.v_zero, entry_map R.av_zero]
  rw [Csr.rowEntries_eq, ← h.pattern]
  exact this

/-- Backward substitution with an off-diagonal block. -/
theorem bwd_dot {f : SubFactor K} (hst : f.Entries R.stored) (h : f.OfType c pr pc) (hc : CsrOk c r k) (hpr : IsPerm pr r) (hpc : IsPerm pc k)
    {sol ps v : List K} (hsol : sol.length = r) (hps : ps.length = k) (hv : solveBackwardSubstitution f sol ps = .ok v)
    {j : Nat} (hj : j < k) (hfin : R.fin (v.getD (permAt pc j) 0)) :
    R.fin (ps.getD (permAt pc j) 0) ∧ ∀ {q : Nat} {S A : F}, R.Dot q (R.v (v.getD (permAt pc j) 0)) S A →
      R.Dot (q + c.colEntries j) (R.v (ps.getD (permAt pc j) 0))
        (S + ∑ i ∈ range r, (f.map R.v).entry i j * R.v (sol.getD (permAt pr i) 0))
        (A + ∑ i ∈ range r, (f.map R.av).entry i j * R.av (sol.getD (permAt pr i) 0)) := by
  have ho := h.subOk hc hpr hpc
  obtain ⟨w, h1, -, h2⟩ := backward_sat ho (by rw [h.permRow]; exact hpr)
    (by rw [h.permCol]; exact hpc) hsol hps
  rw [hv] at h1
  cases h1
  rw [h.permRow, h.permCol] at h2
  obtain ⟨g1, g2, g3⟩ := dot_subAll (R := R) (h2 j hj)
    (fun k hk => hst k j (by simpa using (List.mem_filter.mp hk).2)) hfin
  refine ⟨g1, fun {q S A} hd => ?_⟩
  have := g3 hd
  rw [← ho.rows, sum_rowsDown ho.good j (fun i hi => by rw [show f.l i j = 0 from val_off hi, R.v_zero, zero_mul]),
    sum_rowsDown ho.good j (fun i hi => by rw [show f.l i j = 0 from val_off hi, R.av_zero, zero_mul]), ho.rows] at this
  simp only [entry_map R.v_zero, entry_map R.av_zero]
  refine Dot.le this ?_
  rw [← h.pattern]
  exact Nat.add_le_add_left (Csr.rowsDown_le _ _ _) _

/-- Forward substitution with a diagonal block. -/
theorem fwdIn_dot {f : DiagFactor K} (hst : f.Entries R.stored) (h : f.OfType c p n) (hc : CsrOk c n n) (low : ∀ i j, c.Has i j → j < i)
    (hp : IsPerm p n) {rhs v : List K} (hr : rhs.length = n) (hv : solveForwardSubstitutionInPlace f rhs = .ok v)
    {i : Nat} (hi : i < n) (hfin : R.fin (v.getD (permAt p i) 0)) :
    R.fin (rhs.getD (permAt p i) 0) ∧ R.Dot (c.rowEntries i) (R.v (rhs.getD (permAt p i) 0))
      (∑ j ∈ range n, unitLower (f.map R.v).lower i j * R.v (v.getD (permAt p j) 0))
      (∑ j ∈ range n, unitLower (f.map R.av).lower i j * R.av (v.getD (permAt p j) 0)) := by
  have ho := h.diagOk hc low hp
  obtain ⟨w, h1, -, h2⟩ := forwardInPlace_sat ho (by rw [h.perm]; exact hp) hr
  rw [hv] at h1
  cases h1
  rw [h.perm] at h2
  obtain ⟨g1, g2, g3⟩ := dot_subAll (R := R) (h2 i hi) (fun k hk => hst i k (Csr.mem_cols.mp hk)) hfin
  refine ⟨g1, ?_⟩
  have := g3 (Dot.refl _)
  have hz : ∀ g : K → F, ∀ i j, i ≤ j → (f.map g).lower i j = 0 :=
    fun g => DiagOk.l_zero ((h.map g).diagOk hc low hp)
  rw [sum_map_cols ho.good i (fun j hj => by rw [show f.l i j = 0 from val_off hj, R.v_zero, zero_mul]),
    sum_map_cols ho.good i (fun j hj => by rw [show f.l i j = 0 from val_off hj, R.av_zero, zero_mul]), ho.cols,
    zero_add] at this
  rw [Csr.rowEntries_eq, sum_unitLower (hz _) hi, sum_unitLower (hz _) hi]
  simp only [lower_map R.v_zero, lower_map R.av_zero]
  rw [← h.pattern]
  exact this

/-- Forward substitution with a diagonal block and the block left of it. -/
theorem fwdLeft_dot {f : DiagFactor K} (hst : f.Entries R.stored) (h : f.OfType c p n) (hc : CsrOk c n n) (low : ∀ i j, c.Has i j → j < i)
    (hp : IsPerm p n) {left : SubFactor K} (hstl : left.Entries R.stored) (hl : left.OfType cl p pc) (hcl : CsrOk cl n k) (hpc : IsPerm pc k)
    {rhs sol v : List K} (hr : rhs.length = n) (hsol : sol.length = k)
    (hv : solveForwardSubstitutionLeft f rhs left sol = .ok v)
    {i : Nat} (hi : i < n) (hfin : R.fin (v.getD (permAt p i) 0)) :
    R.fin (rhs.getD (permAt p i) 0) ∧ R.Dot (c.rowEntries i + cl.rowEntries i) (R.v (rhs.getD (permAt p i) 0))
      (∑ j ∈ range k, (left.map R.v).entry i j * R.v (sol.getD (permAt pc j) 0) +
        ∑ j ∈ range n, unitLower (f.map R.v).lower i j * R.v (v.getD (permAt p j) 0))
      (∑ j ∈ range k, (left.map R.av).entry i j * R.av (sol.getD (permAt pc j) 0) +
        ∑ j ∈ range n, unitLower (f.map R.av).lower i j * R.av (v.getD (permAt p j) 0)) := by
  have ho := h.diagOk hc low hp
  have hol := hl.subOk hcl hp hpc
  obtain ⟨w, h1, -, h2⟩ := forwardLeft_sat ho (by rw [h.perm]; exact hp) hol
    (by rw [hl.permRow, h.perm]) (by rw [hl.permCol]; exact hpc) hr hsol
  rw [hv] at h1
  cases h1
  rw [h.perm, hl.permCol] at h2
  obtain ⟨g1, -, g3⟩ := dot_subAll (R := R) (h2 i hi) (fun k hk => hst i k (Csr.mem_cols.mp hk)) hfin
  obtain ⟨g4, -, g5⟩ := dot_subAll (R := R) (l := fun k => left.l i k) rfl (fun k hk => hstl i k (Csr.mem_cols.mp hk)) g1
  refine ⟨g4, ?_⟩
  have := g5 (g3 (Dot.refl _))
  have hz : ∀ g : K → F, ∀ i j, i ≤ j → (f.map g).lower i j = 0 :=
    fun g => DiagOk.l_zero ((h.map g).diagOk hc low hp)
  rw [sum_map_cols ho.good i (fun j hj => by rw [show f.l i j = 0 from val_off hj, R.v_zero, zero_mul]),
    sum_map_cols ho.good i (fun j hj => by rw [show f.l i j = 0 from val_off hj, R.av_zero, zero_mul]), ho.cols,
    sum_map_cols hol.good i (fun j hj => by rw [show left.l i j = 0 from val_off hj, R.v_zero, zero_mul]),
    sum_map_cols hol.good i (fun j hj => by rw [show left.l i j = 0 from val_off hj, R.av_zero, zero_mul]), hol.cols,
    zero_add] at this
  rw [Csr.rowEntries_eq, Csr.rowEntries_eq, sum_unitLower (hz _) hi, sum_unitLower (hz _) hi,
    add_comm (∑ j ∈ range k, _), add_comm (∑ j ∈ range k, _)]
  simp only [entry_map R.v_zero, entry_map R.av_zero, lower_map R.v_zero, lower_map R.av_zero]
  rw [← h.pattern, ← hl.pattern]
  exact this

/-- Backward substitution with a diagonal block. -/
theorem bwdIn_dot {f : DiagFactor K} (hst : f.Entries R.stored) (h : f.OfType c p n) (hc : CsrOk c n n) (low : ∀ i j, c.Has i j → j < i)
    (hp : IsPerm p n) {rhs v : List K} (hr : rhs.length = n) (hv : solveBackwardSubstitutionInPlace f rhs = .ok v)
    {j : Nat} (hj : j < n) (hfin : R.fin (v.getD (permAt p j) 0)) :
    R.fin (rhs.getD (permAt p j) 0) ∧ R.Dot (c.colEntries j) (R.v (rhs.getD (permAt p j) 0))
      (∑ i ∈ range n, unitLower (f.map R.v).lower i j * R.v (v.getD (permAt p i) 0))
      (∑ i ∈ range n, unitLower (f.map R.av).lower i j * R.av (v.getD (permAt p i) 0)) := by
  have ho := h.diagOk hc low hp
  obtain ⟨w, h1, -, h2⟩ := backwardInPlace_sat ho (by rw [h.perm]; exact hp) hr
  rw [hv] at h1
  cases h1
  rw [h.perm] at h2
  obtain ⟨g1, g2, g3⟩ := dot_subAll (R := R) (h2 j hj)
    (fun k hk => hst k j (by simpa using (List.mem_filter.mp hk).2)) hfin
  refine ⟨g1, ?_⟩
  have := g3 (Dot.refl _)
  have hz : ∀ g : K → F, ∀ i j, i ≤ j → (f.map g).lower i j = 0 :=
    fun g => DiagOk.l_zero ((h.map g).diagOk hc low hp)
  rw [← ho.rows, sum_rowsDown ho.good j (fun i hi => by rw [show f.l i j = 0 from val_off hi, R.v_zero, zero_mul]),
    sum_rowsDown ho.good j (fun i hi => by rw [show f.l i j = 0 from val_off hi, R.av_zero, zero_mul]), ho.rows,
    zero_add] at this
  rw [sum_unitLower_transposed (hz _) hj, sum_unitLower_transposed (hz _) hj]
  simp only [lower_map R.v_zero, lower_map R.av_zero]
  refine Dot.le this ?_
  rw [← h.pattern]
  exact Csr.rowsDown_le _ _ _

end

/-! ### Number of entries in rows and columns -/

section

variable {T : ArrowheadTypes} {N : Nat}

theorem rowEntries_start (i : Nat) : T.startDiag.rowEntries i ≤ T.rowEntries N .start i := Nat.le_add_right _ _

theorem rowEntries_first (i : Nat) :
    T.tridiagDiag.rowEntries i + T.startNext.rowEntries i ≤ T.rowEntries N (.tridiag 0) i :=
  Nat.add_le_add_left (single_le_sum (f := fun b => (T.lowerBlock N (.tridiag 0) b).elim 0 (fun c => c.rowEntries i))
    (fun _ _ => Nat.zero_le _) start_mem) _

theorem rowEntries_next {t : Nat} (ht : t < N) (i : Nat) :
    T.tridiagDiag.rowEntries i + T.tridiagSubdiag.rowEntries i ≤ T.rowEntries N (.tridiag (t + 1)) i := by
  refine Nat.add_le_add_left ?_ _
  refine le_trans (le_of_eq ?_) (single_le_sum
    (f := fun b => (T.lowerBlock N (.tridiag (t + 1)) b).elim 0 (fun c => c.rowEntries i))
    (fun _ _ => Nat.zero_le _) (tridiag_mem (t := t) (by omega)))
  simp [ArrowheadTypes.lowerBlock, ht]

theorem rowEntries_link (i : Nat) :
    T.linkDiag.rowEntries i + T.linkPrev.rowEntries i ≤ T.rowEntries N .link i := by
  refine Nat.add_le_add_left ?_ _
  refine le_trans (le_of_eq ?_) (single_le_sum
    (f := fun b => (T.lowerBlock N .link b).elim 0 (fun c => c.rowEntries i))
    (fun _ _ => Nat.zero_le _) (tridiag_mem (t := N) (by omega)))
  simp [ArrowheadTypes.lowerBlock]

theorem rowEntries_outer (i : Nat) :
    T.outerDiag.rowEntries i + T.linkNext.rowEntries i + (N + 1) * T.outerSubdiag.rowEntries i +
      T.startOuter.rowEntries i = T.rowEntries N .outer i := by
  unfold ArrowheadTypes.rowEntries
  rw [sum_blocks]
  have : ∀ t ∈ range (N + 1), (T.lowerBlock N .outer (.tridiag t)).elim 0 (fun c => c.rowEntries i) =
      T.outerSubdiag.rowEntries i := by
    intro t ht
    have := mem_range.mp ht
    simp [ArrowheadTypes.lowerBlock, show t ≤ N by omega]
  rw [sum_congr rfl this, sum_const, card_range, smul_eq_mul]
  simp only [ArrowheadTypes.lowerBlock, ArrowheadTypes.diagBlock, Option.elim]
  omega

theorem colEntries_outer (j : Nat) : T.outerDiag.colEntries j ≤ T.colEntries N .outer j := Nat.le_add_right _ _

theorem colEntries_link (j : Nat) : T.linkDiag.colEntries j + T.linkNext.colEntries j ≤ T.colEntries N .link j :=
  Nat.add_le_add_left (single_le_sum (f := fun a => (T.lowerBlock N a .link).elim 0 (fun c => c.colEntries j))
    (fun _ _ => Nat.zero_le _) outer_mem) _

theorem colEntries_start (j : Nat) :
    T.startDiag.colEntries j + T.startNext.colEntries j + T.startOuter.colEntries j ≤ T.colEntries N .start j := by
  unfold ArrowheadTypes.colEntries
  rw [sum_blocks]
  have := single_le_sum (f := fun t => (T.lowerBlock N (.tridiag t) .start).elim 0 (fun c => c.colEntries j))
    (fun _ _ => Nat.zero_le _) (show 0 ∈ range (N + 1) by simp)
  simp only [ArrowheadTypes.lowerBlock, ArrowheadTypes.diagBlock, Option.elim] at this ⊢
  omega

theorem colEntries_tridiag {t : Nat} (ht : t < N) (j : Nat) :
    T.tridiagDiag.colEntries j + T.tridiagSubdiag.colEntries j + T.outerSubdiag.colEntries j ≤
      T.colEntries N (.tridiag t) j := by
  unfold ArrowheadTypes.colEntries
  rw [sum_blocks]
  have := single_le_sum (f := fun u => (T.lowerBlock N (.tridiag u) (.tridiag t)).elim 0 (fun c => c.colEntries j))
    (fun _ _ => Nat.zero_le _) (show t + 1 ∈ range (N + 1) by simp; omega)
  simp only [ArrowheadTypes.lowerBlock, ArrowheadTypes.diagBlock, true_and, if_pos ht, if_pos (show t ≤ N by omega),
    Option.elim] at this ⊢
  omega

theorem colEntries_last (j : Nat) :
    T.tridiagDiag.colEntries j + T.linkPrev.colEntries j + T.outerSubdiag.colEntries j ≤
      T.colEntries N (.tridiag N) j := by
  unfold ArrowheadTypes.colEntries
  rw [sum_blocks]
  simp only [ArrowheadTypes.lowerBlock, ArrowheadTypes.diagBlock, if_pos (le_refl N), if_true, Option.elim]
  omega

end

/-! ### Elements of the assembled factor -/

section

variable {f : ArrowheadFactor K} {s : ArrowheadSparsity} {T : ArrowheadTypes} {d : Dims} {N : Nat}

omit [Zero K] [Sub K] [Mul K] [Div K] [Field F] [LinearOrder F] [IsStrictOrderedRing F] in
theorem tridiagDiag_map (g : K → F) (t : Nat) :
    (f.map g).tridiagDiag.getD t (f.map g).startDiag = (f.tridiagDiag.getD t f.startDiag).map g :=
  List.getD_map _ _ _

omit [Zero K] [Sub K] [Mul K] [Div K] [Field F] [LinearOrder F] [IsStrictOrderedRing F] in
theorem tridiagSubdiag_map (g : K → F) (t : Nat) :
    (f.map g).tridiagSubdiag.getD t (f.map g).startNext = (f.tridiagSubdiag.getD t f.startNext).map g :=
  List.getD_map _ _ _

omit [Zero K] [Sub K] [Mul K] [Div K] [Field F] [LinearOrder F] [IsStrictOrderedRing F] in
theorem outerSubdiag_map (g : K → F) (t : Nat) :
    (f.map g).outerSubdiag.getD t (f.map g).startOuter = (f.outerSubdiag.getD t f.startOuter).map g :=
  List.getD_map _ _ _

omit [Zero K] [Sub K] [Mul K] [Div K] [Field F] [LinearOrder F] [IsStrictOrderedRing F] in
theorem diagBlock_map (g : K → F) (a : Blk) : (f.map g).diagBlock a = (f.diagBlock a).map (·.map g) := by
  cases a <;> simp [ArrowheadFactor.diagBlock, ArrowheadFactor.map]

omit [Zero K] [Sub K] [Mul K] [Div K] [Field F] [LinearOrder F] [IsStrictOrderedRing F] in
theorem lowerBlock_map (g : K → F) (a b : Blk) : (f.map g).lowerBlock N a b = (f.lowerBlock N a b).map (·.map g) := by
  rcases a with _ | (_ | t) | _ | _ <;> rcases b with _ | u | _ | _ <;>
    simp only [ArrowheadFactor.lowerBlock, ArrowheadFactor.map, Option.map_none, Option.map_some, apply_ite (Option.map _),
      List.getElem?_map]

/-- The absolute values of the assembled unit lower triangular matrix. -/
theorem lowerElement_abs (a b : Blk) (i j : Nat) :
    (f.map R.av).lowerElement N a b i j = |(f.map R.v).lowerElement N a b i j| := by
  unfold ArrowheadFactor.lowerElement
  split
  · rw [diagBlock_map, diagBlock_map]
    cases f.diagBlock a with
    | none => exact abs_zero.symm
    | some x =>
      simp only [Option.map_some, unitLower, lower_map R.v_zero, lower_map R.av_zero]
      split
      · exact abs_one.symm
      · rfl
  · rw [lowerBlock_map, lowerBlock_map]
    cases f.lowerBlock N a b with
    | none => exact abs_zero.symm
    | some x =>
      simp only [Option.map_some, entry_map R.v_zero, entry_map R.av_zero]
      rfl

/-- The vector in the order of elimination. -/
def permVec (g : K → F) (v : ArrowheadVector K) (s : ArrowheadSparsity) (a : Blk) (i : Nat) : F :=
  g (v.at a (permAt (s.perm a) i))

/-- Forward substitution. -/
theorem forwardSolve_dot (hs : s.Valid d) (hT : TypesOk s T d) (hf : f.Declared s T d N)
    (hst : f.Entries R.stored) {rhs : ArrowheadVector K}
    (hr : rhs.OfSize d N) :
    Sat (f.forwardSolve rhs) fun v => v.OfSize d N ∧ ∀ a ∈ blocks N, ∀ i < d.of a,
      R.fin (v.at a (permAt (s.perm a) i)) → R.fin (rhs.at a (permAt (s.perm a) i)) ∧
      R.Dot (T.rowEntries N a i) (R.v (rhs.at a (permAt (s.perm a) i)))
        (rowMul (f.map R.v) d N (permVec R.v v s) a i) (rowMul (f.map R.av) d N (permVec R.av v s) a i) := by
  obtain ⟨hDt, hSt, hOt⟩ := getD_ofType' hf
  have hDs : ∀ t < N + 1, (f.tridiagDiag.getD t f.startDiag).Entries R.stored :=
    fun t ht => hst.tridiagDiag _ (getD_mem (by rw [hf.numDiag]; exact ht) _)
  have hSs : ∀ t < N, (f.tridiagSubdiag.getD t f.startNext).Entries R.stored :=
    fun t ht => hst.tridiagSubdiag _ (getD_mem (by rw [hf.numSubdiag]; exact ht) _)
  have hOs : ∀ t < N + 1, (f.outerSubdiag.getD t f.startOuter).Entries R.stored :=
    fun t ht => hst.outerSubdiag _ (getD_mem (by rw [hf.numOuter]; exact ht) _)
  refine Sat.mono (forwardSolve_steps hs hT hf hr) ?_
  rintro v ⟨hv, os, o, st, los, lo⟩
  refine ⟨hv, fun a ha i hi hfin => ?_⟩
  rcases a with _ | (_ | t) | _ | _
  · rw [rowMul_start, rowMul_start]
    obtain ⟨h1, h2⟩ := fwdIn_dot hst.startDiag hf.startDiag hT.startDiag hT.lowStart hs.permStart hr.start st.start hi hfin
    exact ⟨h1, h2.le (rowEntries_start i)⟩
  · rw [rowMul_first (hf.map _), rowMul_first (hf.map _), tridiagDiag_map, tridiagDiag_map]
    obtain ⟨h1, h2⟩ := fwdLeft_dot (hDs _ (by omega)) (hDt 0 (by omega)) hT.tridiagDiag hT.lowTridiag hs.permTridiag hst.startNext hf.startNext
      hT.startNext hs.permStart (hr.block (by omega)) hv.start st.first hi hfin
    exact ⟨h1, h2.le (rowEntries_first i)⟩
  · have ht := mem_blocks.mp ha _ rfl
    rw [rowMul_next (hf.map _) _ (by omega), rowMul_next (hf.map _) _ (by omega), tridiagDiag_map, tridiagDiag_map,
      tridiagSubdiag_map, tridiagSubdiag_map]
    obtain ⟨h1, h2⟩ := fwdLeft_dot (hDs _ (by omega)) (hDt (t + 1) (by omega)) hT.tridiagDiag hT.lowTridiag hs.permTridiag
      (hSs t (by omega)) (hSt t (by omega)) hT.tridiagSubdiag hs.permTridiag (hr.block (by omega)) (hv.block (by omega))
      (st.next t (by omega)) hi hfin
    exact ⟨h1, h2.le (rowEntries_next (by omega) i)⟩
  · rw [rowMul_link, rowMul_link]
    obtain ⟨h1, h2⟩ := fwdLeft_dot hst.linkDiag hf.linkDiag hT.linkDiag hT.lowLink hs.permLink hst.linkPrev hf.linkPrev hT.linkPrev hs.permTridiag
      hr.link (hv.block (by omega)) st.link hi hfin
    exact ⟨h1, h2.le (rowEntries_link i)⟩
  · rw [rowMul_outer (hf.map _), rowMul_outer (hf.map _)]
    simp only [outerSubdiag_map]
    obtain ⟨f3, h3⟩ := fwdIn_dot hst.outerDiag hf.outerDiag hT.outerDiag hT.lowOuter hs.permOuter lo st.outer3 hi hfin
    obtain ⟨f2, h2⟩ := fwd_dot hst.linkNext hf.linkNext hT.linkNext hs.permOuter hs.permLink hv.link (los (N + 1) (by omega))
      st.outer2 hi f3
    have h1 : ∀ n, n ≤ N + 1 → R.fin ((os n).getD (permAt s.outer.permutation i) 0) →
        R.fin ((os 0).getD (permAt s.outer.permutation i) 0) ∧ ∀ {q : Nat} {S A : F},
        R.Dot q (R.v ((os n).getD (permAt s.outer.permutation i) 0)) S A →
        R.Dot (q + n * T.outerSubdiag.rowEntries i) (R.v ((os 0).getD (permAt s.outer.permutation i) 0))
          (S + ∑ t ∈ range n, ∑ j ∈ range d.tridiag, ((f.outerSubdiag.getD t f.startOuter).map R.v).entry i j *
            R.v ((v.tridiag.getD t []).getD (permAt s.tridiag.permutation j) 0))
          (A + ∑ t ∈ range n, ∑ j ∈ range d.tridiag, ((f.outerSubdiag.getD t f.startOuter).map R.av).entry i j *
            R.av ((v.tridiag.getD t []).getD (permAt s.tridiag.permutation j) 0)) := by
      intro n
      induction n with
      | zero => exact fun _ h => ⟨h, fun {q S A} h => by simpa using h⟩
      | succ n ih =>
        intro hn hfn
        obtain ⟨g1, g2⟩ := fwd_dot (hOs _ (by omega)) (hOt n (by omega)) hT.outerSubdiag hs.permOuter hs.permTridiag (hv.block (by omega))
          (los n (by omega)) (st.outer1 n (by omega)) hi hfn
        obtain ⟨g3, g4⟩ := ih (by omega) g1
        refine ⟨g3, fun {q S A} h => ?_⟩
        have := g4 (g2 h)
        rw [sum_range_succ, sum_range_succ]
        refine Dot.congr this (by rw [Nat.succ_mul]; omega) (by ring) (by ring)
    obtain ⟨f1, h1⟩ := h1 _ le_rfl f2
    obtain ⟨f0, h0⟩ := fwd_dot hst.startOuter hf.startOuter hT.startOuter hs.permOuter hs.permStart hv.start hr.outer st.outer0 hi f1
    refine ⟨f0, ?_⟩
    have := h0 (h1 (h2 h3))
    rw [← rowEntries_outer]
    simp only [permVec, ArrowheadVector.at, ArrowheadSparsity.perm, blockAt]
    refine Dot.congr this rfl ?_ ?_
    · simp only [ArrowheadFactor.map]
      ring
    · simp only [ArrowheadFactor.map]
      ring

/-- Backward substitution. -/
theorem backwardSolve_dot (hs : s.Valid d) (hT : TypesOk s T d) (hf : f.Declared s T d N)
    (hst : f.Entries R.stored) {rhs : ArrowheadVector K}
    (hr : rhs.OfSize d N) :
    Sat (f.backwardSolve rhs) fun v => v.OfSize d N ∧ ∀ a ∈ blocks N, ∀ i < d.of a,
      R.fin (v.at a (permAt (s.perm a) i)) → R.fin (rhs.at a (permAt (s.perm a) i)) ∧
      R.Dot (T.colEntries N a i) (R.v (rhs.at a (permAt (s.perm a) i)))
        (colMul (f.map R.v) d N (permVec R.v v s) a i) (colMul (f.map R.av) d N (permVec R.av v s) a i) := by
  obtain ⟨hDt, hSt, hOt⟩ := getD_ofType' hf
  have hDs : ∀ t < N + 1, (f.tridiagDiag.getD t f.startDiag).Entries R.stored :=
    fun t ht => hst.tridiagDiag _ (getD_mem (by rw [hf.numDiag]; exact ht) _)
  have hSs : ∀ t < N, (f.tridiagSubdiag.getD t f.startNext).Entries R.stored :=
    fun t ht => hst.tridiagSubdiag _ (getD_mem (by rw [hf.numSubdiag]; exact ht) _)
  have hOs : ∀ t < N + 1, (f.outerSubdiag.getD t f.startOuter).Entries R.stored :=
    fun t ht => hst.outerSubdiag _ (getD_mem (by rw [hf.numOuter]; exact ht) _)
  refine Sat.mono (backwardSolve_steps hs hT hf hr) ?_
  rintro v ⟨hv, l, ts, us, s1, s2, st, ll, lts, lus, ls1, ls2⟩
  refine ⟨hv, fun a ha i hi hfin => ?_⟩
  cases a with
  | start =>
    rw [colMul_start, colMul_start]
    obtain ⟨f3, h3⟩ := bwdIn_dot hst.startDiag hf.startDiag hT.startDiag hT.lowStart hs.permStart ls2 st.start3 hi hfin
    obtain ⟨f2, h2⟩ := bwd_dot hst.startNext hf.startNext hT.startNext hs.permTridiag hs.permStart (hv.block (by omega)) ls1
      st.start2 hi f3
    obtain ⟨f1, h1⟩ := bwd_dot hst.startOuter hf.startOuter hT.startOuter hs.permOuter hs.permStart hv.outer hr.start st.start1 hi f2
    exact ⟨f1, (h1 (h2 h3)).le (colEntries_start i)⟩
  | link =>
    rw [colMul_link, colMul_link]
    obtain ⟨f3, h3⟩ := bwdIn_dot hst.linkDiag hf.linkDiag hT.linkDiag hT.lowLink hs.permLink ll st.link2 hi hfin
    obtain ⟨f1, h1⟩ := bwd_dot hst.linkNext hf.linkNext hT.linkNext hs.permOuter hs.permLink hv.outer hr.link st.link1 hi f3
    exact ⟨f1, (h1 h3).le (colEntries_link i)⟩
  | outer =>
    rw [colMul_outer, colMul_outer]
    obtain ⟨f3, h3⟩ := bwdIn_dot hst.outerDiag hf.outerDiag hT.outerDiag hT.lowOuter hs.permOuter hr.outer st.outer hi hfin
    exact ⟨f3, h3.le (colEntries_outer i)⟩
  | tridiag t =>
    have ht := mem_blocks.mp ha t rfl
    obtain ⟨f3, h3⟩ := bwdIn_dot (hDs _ (by omega)) (hDt t ht) hT.tridiagDiag hT.lowTridiag hs.permTridiag (lus t ht) (st.tridiag3 t ht)
      hi hfin
    by_cases htN : t = N
    · subst htN
      rw [colMul_last (hf.map _), colMul_last (hf.map _), tridiagDiag_map, tridiagDiag_map, outerSubdiag_map,
        outerSubdiag_map]
      obtain ⟨f2, h2⟩ := bwd_dot hst.linkPrev hf.linkPrev hT.linkPrev hs.permLink hs.permTridiag hv.link (lts t ht) st.last hi f3
      obtain ⟨f1, h1⟩ := bwd_dot (hOs _ (by omega)) (hOt t ht) hT.outerSubdiag hs.permOuter hs.permTridiag hv.outer (hr.block ht)
        (st.tridiag1 t ht) hi f2
      exact ⟨f1, (h1 (h2 h3)).le (colEntries_last i)⟩
    · have ht' : t < N := by omega
      rw [colMul_tridiag (hf.map _) _ ht', colMul_tridiag (hf.map _) _ ht', tridiagDiag_map, tridiagDiag_map,
        outerSubdiag_map, outerSubdiag_map, tridiagSubdiag_map, tridiagSubdiag_map]
      obtain ⟨f2, h2⟩ := bwd_dot (hSs _ (by omega)) (hSt t (by omega)) hT.tridiagSubdiag hs.permTridiag hs.permTridiag
        (hv.block (by omega)) (lts t ht) (st.tridiag2 t (by omega)) hi f3
      obtain ⟨f1, h1⟩ := bwd_dot (hOs _ (by omega)) (hOt t ht) hT.outerSubdiag hs.permOuter hs.permTridiag hv.outer (hr.block ht)
        (st.tridiag1 t ht) hi f2
      exact ⟨f1, (h1 (h2 h3)).le (colEntries_tridiag ht' i)⟩

end

end Rounding

end Ctldl
