import Verif.Lemmas.ArrowheadSolve
import Verif.Lemmas.Triangular
import Mathlib.Tactic.Abel

/-! # The triangular solves of the repeating block factor, over a field -/

namespace Ctldl

open Finset

variable {K : Type} [Field K]

/-! ### The substitutions for blocks of given type -/

section

variable {c cl : Csr} {p pr pc : List Nat} {n r k : Nat}

theorem fwdIn_exact {f : DiagFactor K} (h : f.OfType c p n) (hc : CsrOk c n n) (low : ∀ i j, c.Has i j → j < i)
    (hp : IsPerm p n) {rhs v : List K} (hr : rhs.length = n) (hv : solveForwardSubstitutionInPlace f rhs = .ok v) :
    ∀ i < n, ∑ j ∈ range n, unitLower f.lower i j * v.getD (permAt p j) 0 = rhs.getD (permAt p i) 0 := by
  obtain ⟨w, h1, -, h2⟩ := forwardInPlace_exact (h.diagOk hc low hp) (by rw [h.perm]; exact hp) hr
  rw [hv] at h1
  cases h1
  rw [h.perm] at h2
  exact h2

theorem bwdIn_exact {f : DiagFactor K} (h : f.OfType c p n) (hc : CsrOk c n n) (low : ∀ i j, c.Has i j → j < i)
    (hp : IsPerm p n) {rhs v : List K} (hr : rhs.length = n) (hv : solveBackwardSubstitutionInPlace f rhs = .ok v) :
    ∀ j < n, ∑ i ∈ range n, unitLower f.lower i j * v.getD (permAt p i) 0 = rhs.getD (permAt p j) 0 := by
  obtain ⟨w, h1, -, h2⟩ := backwardInPlace_exact (h.diagOk hc low hp) (by rw [h.perm]; exact hp) hr
  rw [hv] at h1
  cases h1
  rw [h.perm] at h2
  exact h2

theorem fwdLeft_exact {f : DiagFactor K} (h : f.OfType c p n) (hc : CsrOk c n n) (low : ∀ i j, c.Has i j → j < i)
    (hp : IsPerm p n) {left : SubFactor K} (hl : left.OfType cl p pc) (hcl : CsrOk cl n k) (hpc : IsPerm pc k)
    {rhs sol v : List K} (hr : rhs.length = n) (hsol : sol.length = k)
    (hv : solveForwardSubstitutionLeft f rhs left sol = .ok v) :
    ∀ i < n, ∑ j ∈ range k, left.entry i j * sol.getD (permAt pc j) 0 +
      ∑ j ∈ range n, unitLower f.lower i j * v.getD (permAt p j) 0 = rhs.getD (permAt p i) 0 := by
  obtain ⟨w, h1, -, h2⟩ := forwardLeft_exact (h.diagOk hc low hp) (by rw [h.perm]; exact hp) (hl.subOk hcl hp hpc)
    (by rw [hl.permRow, h.perm]) (by rw [hl.permCol]; exact hpc) hr hsol
  rw [hv] at h1
  cases h1
  rw [h.perm, hl.permCol] at h2
  exact h2

theorem fwd_exact {f : SubFactor K} (h : f.OfType c pr pc) (hc : CsrOk c r k) (hpr : IsPerm pr r) (hpc : IsPerm pc k)
    {sol ps v : List K} (hsol : sol.length = k) (hps : ps.length = r) (hv : solveForwardSubstitution f sol ps = .ok v) :
    ∀ i < r, v.getD (permAt pr i) 0 =
      ps.getD (permAt pr i) 0 - ∑ j ∈ range k, f.entry i j * sol.getD (permAt pc j) 0 := by
  obtain ⟨w, h1, -, h2⟩ := forward_exact (h.subOk hc hpr hpc) (by rw [h.permRow]; exact hpr)
    (by rw [h.permCol]; exact hpc) hsol hps
  rw [hv] at h1
  cases h1
  rw [h.permRow, h.permCol] at h2
  exact h2

theorem bwd_exact {f : SubFactor K} (h : f.OfType c pr pc) (hc : CsrOk c r k) (hpr : IsPerm pr r) (hpc : IsPerm pc k)
    {sol ps v : List K} (hsol : sol.length = r) (hps : ps.length = k) (hv : solveBackwardSubstitution f sol ps = .ok v) :
    ∀ j < k, v.getD (permAt pc j) 0 =
      ps.getD (permAt pc j) 0 - ∑ i ∈ range r, f.entry i j * sol.getD (permAt pr i) 0 := by
  obtain ⟨w, h1, -, h2⟩ := backward_exact (h.subOk hc hpr hpc) (by rw [h.permRow]; exact hpr)
    (by rw [h.permCol]; exact hpc) hsol hps
  rw [hv] at h1
  cases h1
  rw [h.permRow, h.permCol] at h2
  exact h2

end

/-! ### Elements of the assembled factor -/

section

variable {f : ArrowheadFactor K} {s : ArrowheadSparsity} {T : ArrowheadTypes} {d : Dims} {N : Nat}

theorem sum_three {S : Finset Blk} {F : Blk → K} {x y z : Blk} (hx : x ∈ S) (hy : y ∈ S)
    (hz : z ∈ S) (hxy : x ≠ y) (hxz : x ≠ z) (hyz : y ≠ z) (h : ∀ b ∈ S, b ≠ x → b ≠ y → b ≠ z → F b = 0) :
    ∑ b ∈ S, F b = F x + F y + F z := by
  rw [← sum_subset (s₁ := {x, y, z}) (by
    intro b hb
    simp only [mem_insert, mem_singleton] at hb
    rcases hb with rfl | rfl | rfl <;> assumption) (fun b hb hn => by
      simp only [mem_insert, mem_singleton, not_or] at hn
      exact h b hb hn.1 hn.2.1 hn.2.2),
    sum_insert (by simp [hxy, hxz]), sum_insert (by simp [hyz]), sum_singleton, add_assoc]

theorem lowerElement_start (i j : Nat) : f.lowerElement N .start .start i j = unitLower f.startDiag.lower i j := rfl

theorem lowerElement_link (i j : Nat) : f.lowerElement N .link .link i j = unitLower f.linkDiag.lower i j := rfl

theorem lowerElement_outer (i j : Nat) : f.lowerElement N .outer .outer i j = unitLower f.outerDiag.lower i j := rfl

theorem lowerElement_tridiag (hf : f.Declared s T d N) {t : Nat} (ht : t < N + 1) (i j : Nat) :
    f.lowerElement N (.tridiag t) (.tridiag t) i j =
      unitLower (f.tridiagDiag.getD t f.startDiag).lower i j := by
  unfold ArrowheadFactor.lowerElement ArrowheadFactor.diagBlock
  rw [if_pos rfl]
  simp only
  rw [getElem?_eq_getD (show t < f.tridiagDiag.length by rw [hf.numDiag]; exact ht) f.startDiag]

theorem lowerElement_next (hf : f.Declared s T d N) {t : Nat} (ht : t < N) (i j : Nat) :
    f.lowerElement N (.tridiag (t + 1)) (.tridiag t) i j = (f.tridiagSubdiag.getD t f.startNext).entry i j := by
  unfold ArrowheadFactor.lowerElement ArrowheadFactor.lowerBlock
  rw [if_neg (by simp)]
  simp only [true_and, if_pos ht]
  rw [getElem?_eq_getD (show t < f.tridiagSubdiag.length by rw [hf.numSubdiag]; exact ht) f.startNext]

theorem lowerElement_outerSub (hf : f.Declared s T d N) {t : Nat} (ht : t < N + 1) (i j : Nat) :
    f.lowerElement N .outer (.tridiag t) i j = (f.outerSubdiag.getD t f.startOuter).entry i j := by
  unfold ArrowheadFactor.lowerElement ArrowheadFactor.lowerBlock
  rw [if_neg (by simp)]
  simp only [if_pos (show t ≤ N by omega)]
  rw [getElem?_eq_getD (show t < f.outerSubdiag.length by rw [hf.numOuter]; exact ht) f.startOuter]

theorem lowerElement_linkPrev (i j : Nat) : f.lowerElement N .link (.tridiag N) i j = f.linkPrev.entry i j := by
  unfold ArrowheadFactor.lowerElement ArrowheadFactor.lowerBlock
  simp

theorem lowerElement_startNext (i j : Nat) : f.lowerElement N (.tridiag 0) .start i j = f.startNext.entry i j := rfl

theorem lowerElement_startOuter (i j : Nat) : f.lowerElement N .outer .start i j = f.startOuter.entry i j := rfl

theorem lowerElement_linkNext (i j : Nat) : f.lowerElement N .outer .link i j = f.linkNext.entry i j := rfl

/-- Product of a row of the assembled unit lower triangular matrix with a vector. -/
def rowMul (f : ArrowheadFactor K) (d : Dims) (N : Nat) (y : Blk → Nat → K) (a : Blk) (i : Nat) : K :=
  ∑ b ∈ blocks N, ∑ j ∈ range (d.of b), f.lowerElement N a b i j * y b j

/-- Product of a column of the assembled unit lower triangular matrix with a vector. -/
def colMul (f : ArrowheadFactor K) (d : Dims) (N : Nat) (y : Blk → Nat → K) (b : Blk) (j : Nat) : K :=
  ∑ a ∈ blocks N, ∑ i ∈ range (d.of a), f.lowerElement N a b i j * y a i

theorem tridiag_mem {t : Nat} (h : t < N + 1) : Blk.tridiag t ∈ blocks N :=
  mem_blocks.mpr fun u hu => by cases hu; exact h

theorem start_mem : Blk.start ∈ blocks N := mem_blocks.mpr fun u hu => by cases hu

theorem link_mem : Blk.link ∈ blocks N := mem_blocks.mpr fun u hu => by cases hu

theorem outer_mem : Blk.outer ∈ blocks N := mem_blocks.mpr fun u hu => by cases hu

theorem rowMul_start (y : Blk → Nat → K) (i : Nat) :
    rowMul f d N y .start i = ∑ j ∈ range d.start, unitLower f.startDiag.lower i j * y .start j := by
  refine sum_eq_single (f := fun b => ∑ j ∈ range (d.of b), f.lowerElement N .start b i j * y b j) Blk.start ?_ ?_
  · intro b _ hb
    refine sum_eq_zero fun j _ => ?_
    cases b <;> first | exact absurd rfl hb | simp [ArrowheadFactor.lowerElement, ArrowheadFactor.lowerBlock]
  · exact fun h => absurd start_mem h

theorem rowMul_first (hf : f.Declared s T d N) (y : Blk → Nat → K) (i : Nat) :
    rowMul f d N y (.tridiag 0) i = ∑ j ∈ range d.start, f.startNext.entry i j * y .start j +
      ∑ j ∈ range d.tridiag, unitLower (f.tridiagDiag.getD 0 f.startDiag).lower i j * y (.tridiag 0) j := by
  have := sum_eq_add_of_mem (s := blocks N)
    (f := fun b => ∑ j ∈ range (d.of b), f.lowerElement N (.tridiag 0) b i j * y b j) Blk.start (.tridiag 0)
    start_mem (tridiag_mem (by omega)) (by simp) (fun b _ hb => by
      refine sum_eq_zero fun j _ => ?_
      rcases b with _ | t | _ | _
      · exact absurd rfl hb.1
      · simp only [ArrowheadFactor.lowerElement, ArrowheadFactor.lowerBlock, if_neg hb.2.symm, zero_mul]
      · simp [ArrowheadFactor.lowerElement, ArrowheadFactor.lowerBlock]
      · simp [ArrowheadFactor.lowerElement, ArrowheadFactor.lowerBlock])
  refine this.trans ?_
  congr 1
  exact sum_congr rfl fun j _ => by rw [lowerElement_tridiag hf (by omega)]

theorem rowMul_next (hf : f.Declared s T d N) (y : Blk → Nat → K) {t : Nat} (ht : t < N) (i : Nat) :
    rowMul f d N y (.tridiag (t + 1)) i =
      ∑ j ∈ range d.tridiag, (f.tridiagSubdiag.getD t f.startNext).entry i j * y (.tridiag t) j +
      ∑ j ∈ range d.tridiag,
        unitLower (f.tridiagDiag.getD (t + 1) f.startDiag).lower i j * y (.tridiag (t + 1)) j := by
  have := sum_eq_add_of_mem (s := blocks N)
    (f := fun b => ∑ j ∈ range (d.of b), f.lowerElement N (.tridiag (t + 1)) b i j * y b j) (.tridiag t)
    (.tridiag (t + 1)) (tridiag_mem (by omega)) (tridiag_mem (by omega)) (by simp) (fun b _ hb => by
      refine sum_eq_zero fun j _ => ?_
      rcases b with _ | u | _ | _
      · simp [ArrowheadFactor.lowerElement, ArrowheadFactor.lowerBlock]
      · simp only [ArrowheadFactor.lowerElement, ArrowheadFactor.lowerBlock, if_neg hb.2.symm]
        rw [if_neg (fun h => hb.1 (by rw [h.1])), zero_mul]
      · simp [ArrowheadFactor.lowerElement, ArrowheadFactor.lowerBlock]
      · simp [ArrowheadFactor.lowerElement, ArrowheadFactor.lowerBlock])
  refine this.trans ?_
  congr 1
  · exact sum_congr rfl fun j _ => by rw [lowerElement_next hf ht]
  · exact sum_congr rfl fun j _ => by rw [lowerElement_tridiag hf (by omega)]

theorem rowMul_link (y : Blk → Nat → K) (i : Nat) :
    rowMul f d N y .link i = ∑ j ∈ range d.tridiag, f.linkPrev.entry i j * y (.tridiag N) j +
      ∑ j ∈ range d.link, unitLower f.linkDiag.lower i j * y .link j := by
  have := sum_eq_add_of_mem (s := blocks N)
    (f := fun b => ∑ j ∈ range (d.of b), f.lowerElement N .link b i j * y b j) (.tridiag N) .link
    (tridiag_mem (by omega)) link_mem (by simp) (fun b _ hb => by
      refine sum_eq_zero fun j _ => ?_
      rcases b with _ | u | _ | _
      · simp [ArrowheadFactor.lowerElement, ArrowheadFactor.lowerBlock]
      · simp only [ArrowheadFactor.lowerElement, ArrowheadFactor.lowerBlock, if_neg hb.2.symm]
        rw [if_neg (fun h => hb.1 (by rw [h])), zero_mul]
      · exact absurd rfl hb.2
      · simp [ArrowheadFactor.lowerElement, ArrowheadFactor.lowerBlock])
  refine this.trans ?_
  congr 1
  exact sum_congr rfl fun j _ => by rw [lowerElement_linkPrev]

theorem rowMul_outer (hf : f.Declared s T d N) (y : Blk → Nat → K) (i : Nat) :
    rowMul f d N y .outer i = ∑ j ∈ range d.start, f.startOuter.entry i j * y .start j +
      ∑ t ∈ range (N + 1), ∑ j ∈ range d.tridiag, (f.outerSubdiag.getD t f.startOuter).entry i j * y (.tridiag t) j +
      ∑ j ∈ range d.link, f.linkNext.entry i j * y .link j +
      ∑ j ∈ range d.outer, unitLower f.outerDiag.lower i j * y .outer j := by
  unfold rowMul
  rw [sum_blocks]
  have : ∑ t ∈ range (N + 1), ∑ j ∈ range (d.of (.tridiag t)),
      f.lowerElement N .outer (.tridiag t) i j * y (.tridiag t) j = ∑ t ∈ range (N + 1), ∑ j ∈ range d.tridiag,
        (f.outerSubdiag.getD t f.startOuter).entry i j * y (.tridiag t) j :=
    sum_congr rfl fun t ht => sum_congr rfl fun j _ => by rw [lowerElement_outerSub hf (mem_range.mp ht)]
  rw [this]
  rfl

theorem colMul_outer (y : Blk → Nat → K) (j : Nat) :
    colMul f d N y .outer j = ∑ i ∈ range d.outer, unitLower f.outerDiag.lower i j * y .outer i := by
  refine sum_eq_single (f := fun a => ∑ i ∈ range (d.of a), f.lowerElement N a .outer i j * y a i) Blk.outer ?_ ?_
  · intro b _ hb
    refine sum_eq_zero fun i _ => ?_
    rcases b with _ | (_ | t) | _ | _
    · simp [ArrowheadFactor.lowerElement, ArrowheadFactor.lowerBlock]
    · simp [ArrowheadFactor.lowerElement, ArrowheadFactor.lowerBlock]
    · simp [ArrowheadFactor.lowerElement, ArrowheadFactor.lowerBlock]
    · simp [ArrowheadFactor.lowerElement, ArrowheadFactor.lowerBlock]
    · exact absurd rfl hb
  · exact fun h => absurd outer_mem h

theorem colMul_link (y : Blk → Nat → K) (j : Nat) :
    colMul f d N y .link j = ∑ i ∈ range d.link, unitLower f.linkDiag.lower i j * y .link i +
      ∑ i ∈ range d.outer, f.linkNext.entry i j * y .outer i := by
  have := sum_eq_add_of_mem (s := blocks N)
    (f := fun a => ∑ i ∈ range (d.of a), f.lowerElement N a .link i j * y a i) .link .outer
    link_mem outer_mem (by simp) (fun b _ hb => by
      refine sum_eq_zero fun i _ => ?_
      rcases b with _ | (_ | t) | _ | _
      · simp [ArrowheadFactor.lowerElement, ArrowheadFactor.lowerBlock]
      · simp [ArrowheadFactor.lowerElement, ArrowheadFactor.lowerBlock]
      · simp [ArrowheadFactor.lowerElement, ArrowheadFactor.lowerBlock]
      · exact absurd rfl hb.1
      · exact absurd rfl hb.2)
  exact this

theorem colMul_start (y : Blk → Nat → K) (j : Nat) :
    colMul f d N y .start j = ∑ i ∈ range d.start, unitLower f.startDiag.lower i j * y .start i +
      ∑ i ∈ range d.tridiag, f.startNext.entry i j * y (.tridiag 0) i +
      ∑ i ∈ range d.outer, f.startOuter.entry i j * y .outer i := by
  have := sum_three (S := blocks N)
    (F := fun a => ∑ i ∈ range (d.of a), f.lowerElement N a .start i j * y a i) (x := .start) (y := .tridiag 0)
    (z := .outer) start_mem (tridiag_mem (by omega)) outer_mem (by simp) (by simp) (by simp)
    (fun b _ h1 h2 h3 => by
      refine sum_eq_zero fun i _ => ?_
      rcases b with _ | (_ | t) | _ | _
      · exact absurd rfl h1
      · exact absurd rfl h2
      · simp [ArrowheadFactor.lowerElement, ArrowheadFactor.lowerBlock]
      · simp [ArrowheadFactor.lowerElement, ArrowheadFactor.lowerBlock]
      · exact absurd rfl h3)
  exact this

theorem colMul_tridiag (hf : f.Declared s T d N) (y : Blk → Nat → K) {t : Nat} (ht : t < N) (j : Nat) :
    colMul f d N y (.tridiag t) j =
      ∑ i ∈ range d.tridiag, unitLower (f.tridiagDiag.getD t f.startDiag).lower i j * y (.tridiag t) i +
      ∑ i ∈ range d.tridiag, (f.tridiagSubdiag.getD t f.startNext).entry i j * y (.tridiag (t + 1)) i +
      ∑ i ∈ range d.outer, (f.outerSubdiag.getD t f.startOuter).entry i j * y .outer i := by
  have := sum_three (S := blocks N)
    (F := fun a => ∑ i ∈ range (d.of a), f.lowerElement N a (.tridiag t) i j * y a i) (x := .tridiag t)
    (y := .tridiag (t + 1)) (z := .outer) (tridiag_mem (by omega)) (tridiag_mem (by omega)) outer_mem (by simp)
    (by simp) (by simp) (fun b _ h1 h2 h3 => by
      refine sum_eq_zero fun i _ => ?_
      rcases b with _ | (_ | u) | _ | _
      · simp [ArrowheadFactor.lowerElement, ArrowheadFactor.lowerBlock]
      · simp only [ArrowheadFactor.lowerElement, ArrowheadFactor.lowerBlock, if_neg h1, zero_mul]
      · simp only [ArrowheadFactor.lowerElement, ArrowheadFactor.lowerBlock, if_neg h1]
        rw [if_neg (fun h => h2 (by rw [h.1])), zero_mul]
      · simp only [ArrowheadFactor.lowerElement, ArrowheadFactor.lowerBlock, if_neg h1]
        rw [if_neg (by omega), zero_mul]
      · exact absurd rfl h3)
  refine this.trans ?_
  congr 1
  · congr 1
    · exact sum_congr rfl fun j _ => by rw [lowerElement_tridiag hf (by omega)]
    · exact sum_congr rfl fun j _ => by rw [lowerElement_next hf ht]
  · exact sum_congr rfl fun j _ => by rw [lowerElement_outerSub hf (by omega)]

theorem colMul_last (hf : f.Declared s T d N) (y : Blk → Nat → K) (j : Nat) :
    colMul f d N y (.tridiag N) j =
      ∑ i ∈ range d.tridiag, unitLower (f.tridiagDiag.getD N f.startDiag).lower i j * y (.tridiag N) i +
      ∑ i ∈ range d.link, f.linkPrev.entry i j * y .link i +
      ∑ i ∈ range d.outer, (f.outerSubdiag.getD N f.startOuter).entry i j * y .outer i := by
  have := sum_three (S := blocks N)
    (F := fun a => ∑ i ∈ range (d.of a), f.lowerElement N a (.tridiag N) i j * y a i) (x := .tridiag N)
    (y := .link) (z := .outer) (tridiag_mem (by omega)) link_mem outer_mem (by simp)
    (by simp) (by simp) (fun b hb h1 h2 h3 => by
      refine sum_eq_zero fun i _ => ?_
      rcases b with _ | (_ | u) | _ | _
      · simp [ArrowheadFactor.lowerElement, ArrowheadFactor.lowerBlock]
      · simp only [ArrowheadFactor.lowerElement, ArrowheadFactor.lowerBlock, if_neg h1, zero_mul]
      · have := mem_blocks.mp hb _ rfl
        simp only [ArrowheadFactor.lowerElement, ArrowheadFactor.lowerBlock, if_neg h1]
        rw [if_neg (by omega), zero_mul]
      · exact absurd rfl h2
      · exact absurd rfl h3)
  refine this.trans ?_
  congr 1
  · congr 1
    · exact sum_congr rfl fun j _ => by rw [lowerElement_tridiag hf (by omega)]
    · exact sum_congr rfl fun j _ => by rw [lowerElement_linkPrev]
  · exact sum_congr rfl fun j _ => by rw [lowerElement_outerSub hf (by omega)]

/-- The vector in the order of elimination. -/
def ArrowheadVector.perm (v : ArrowheadVector K) (s : ArrowheadSparsity) (a : Blk) (i : Nat) : K :=
  v.at a (permAt (s.perm a) i)

/-- Forward substitution inverts the assembled unit lower triangular matrix. -/
theorem forwardSolve_exact (hs : s.Valid d) (hT : TypesOk s T d) (hf : f.Declared s T d N) {rhs : ArrowheadVector K}
    (hr : rhs.OfSize d N) :
    Sat (f.forwardSolve rhs) fun v => v.OfSize d N ∧ ∀ a ∈ blocks N, ∀ i < d.of a,
      rowMul f d N (v.perm s) a i = rhs.perm s a i := by
  obtain ⟨hDt, hSt, hOt⟩ := getD_ofType' hf
  refine Sat.mono (forwardSolve_steps hs hT hf hr) ?_
  rintro v ⟨hv, os, o, st, los, lo⟩
  refine ⟨hv, fun a ha i hi => ?_⟩
  rcases a with _ | (_ | t) | _ | _
  · rw [rowMul_start]
    exact fwdIn_exact hf.startDiag hT.startDiag hT.lowStart hs.permStart hr.start st.start i hi
  · rw [rowMul_first hf]
    exact fwdLeft_exact (hDt 0 (by omega)) hT.tridiagDiag hT.lowTridiag hs.permTridiag hf.startNext hT.startNext
      hs.permStart (hr.block (by omega)) hv.start st.first i hi
  · have ht := mem_blocks.mp ha _ rfl
    rw [rowMul_next hf _ (by omega)]
    exact fwdLeft_exact (hDt (t + 1) (by omega)) hT.tridiagDiag hT.lowTridiag hs.permTridiag (hSt t (by omega))
      hT.tridiagSubdiag hs.permTridiag (hr.block (by omega)) (hv.block (by omega)) (st.next t (by omega)) i hi
  · rw [rowMul_link]
    exact fwdLeft_exact hf.linkDiag hT.linkDiag hT.lowLink hs.permLink hf.linkPrev hT.linkPrev hs.permTridiag
      hr.link (hv.block (by omega)) st.link i hi
  · rw [rowMul_outer hf]
    have h0 := fwd_exact hf.startOuter hT.startOuter hs.permOuter hs.permStart hv.start hr.outer st.outer0 i hi
    have h1 : ∀ n, n ≤ N + 1 → (os n).getD (permAt s.outer.permutation i) 0 =
        (os 0).getD (permAt s.outer.permutation i) 0 - ∑ t ∈ range n, ∑ j ∈ range d.tridiag,
          (f.outerSubdiag.getD t f.startOuter).entry i j *
            (v.tridiag.getD t []).getD (permAt s.tridiag.permutation j) 0 := by
      intro n
      induction n with
      | zero => intro; simp
      | succ n ih =>
        intro hn
        rw [fwd_exact (hOt n (by omega)) hT.outerSubdiag hs.permOuter hs.permTridiag (hv.block (by omega))
          (los n (by omega)) (st.outer1 n (by omega)) i hi, ih (by omega), sum_range_succ]
        ring
    have h2 := fwd_exact hf.linkNext hT.linkNext hs.permOuter hs.permLink hv.link (los (N + 1) (by omega)) st.outer2 i hi
    have h3 := fwdIn_exact hf.outerDiag hT.outerDiag hT.lowOuter hs.permOuter lo st.outer3 i hi
    rw [h2, h1 _ le_rfl, h0] at h3
    change _ + _ + _ + ∑ j ∈ range d.outer,
      unitLower f.outerDiag.lower i j * v.outer.getD (permAt s.outer.permutation j) 0 =
        rhs.outer.getD (permAt s.outer.permutation i) 0
    rw [h3]
    simp only [ArrowheadVector.perm, ArrowheadVector.at, ArrowheadSparsity.perm, blockAt]
    ring

/-- Backward substitution inverts the transposed assembled unit lower triangular matrix. -/
theorem backwardSolve_exact (hs : s.Valid d) (hT : TypesOk s T d) (hf : f.Declared s T d N) {rhs : ArrowheadVector K}
    (hr : rhs.OfSize d N) :
    Sat (f.backwardSolve rhs) fun v => v.OfSize d N ∧ ∀ a ∈ blocks N, ∀ i < d.of a,
      colMul f d N (v.perm s) a i = rhs.perm s a i := by
  obtain ⟨hDt, hSt, hOt⟩ := getD_ofType' hf
  refine Sat.mono (backwardSolve_steps hs hT hf hr) ?_
  rintro v ⟨hv, l, ts, us, s1, s2, st, ll, lts, lus, ls1, ls2⟩
  refine ⟨hv, fun a ha i hi => ?_⟩
  cases a with
  | start =>
    rw [colMul_start]
    have h1 := bwd_exact hf.startOuter hT.startOuter hs.permOuter hs.permStart hv.outer hr.start st.start1 i hi
    have h2 := bwd_exact hf.startNext hT.startNext hs.permTridiag hs.permStart (hv.block (by omega)) ls1 st.start2 i hi
    have h3 := bwdIn_exact hf.startDiag hT.startDiag hT.lowStart hs.permStart ls2 st.start3 i hi
    rw [h2, h1] at h3
    change ∑ j ∈ range d.start, unitLower f.startDiag.lower j i * v.start.getD (permAt s.start.permutation j) 0 +
      _ + _ = rhs.start.getD (permAt s.start.permutation i) 0
    rw [h3]
    simp only [ArrowheadVector.perm, ArrowheadVector.at, ArrowheadSparsity.perm, blockAt]
    ring
  | link =>
    rw [colMul_link]
    have h1 := bwd_exact hf.linkNext hT.linkNext hs.permOuter hs.permLink hv.outer hr.link st.link1 i hi
    have h3 := bwdIn_exact hf.linkDiag hT.linkDiag hT.lowLink hs.permLink ll st.link2 i hi
    rw [h1] at h3
    change ∑ j ∈ range d.link, unitLower f.linkDiag.lower j i * v.link.getD (permAt s.link.permutation j) 0 +
      _ = rhs.link.getD (permAt s.link.permutation i) 0
    rw [h3]
    simp only [ArrowheadVector.perm, ArrowheadVector.at, ArrowheadSparsity.perm]
    ring
  | outer =>
    rw [colMul_outer]
    exact bwdIn_exact hf.outerDiag hT.outerDiag hT.lowOuter hs.permOuter hr.outer st.outer i hi
  | tridiag t =>
    have ht := mem_blocks.mp ha t rfl
    have h1 := bwd_exact (hOt t ht) hT.outerSubdiag hs.permOuter hs.permTridiag hv.outer (hr.block ht)
      (st.tridiag1 t ht) i hi
    have h3 := bwdIn_exact (hDt t ht) hT.tridiagDiag hT.lowTridiag hs.permTridiag (lus t ht) (st.tridiag3 t ht) i hi
    by_cases htN : t = N
    · subst htN
      rw [colMul_last hf]
      have h2 := bwd_exact hf.linkPrev hT.linkPrev hs.permLink hs.permTridiag hv.link (lts t ht) st.last i hi
      rw [h2, h1] at h3
      change ∑ j ∈ range d.tridiag, unitLower (f.tridiagDiag.getD t f.startDiag).lower j i *
        (v.tridiag.getD t []).getD (permAt s.tridiag.permutation j) 0 + _ + _ =
          (rhs.tridiag.getD t []).getD (permAt s.tridiag.permutation i) 0
      rw [h3]
      simp only [ArrowheadVector.perm, ArrowheadVector.at, ArrowheadSparsity.perm]
      ring
    · rw [colMul_tridiag hf _ (show t < N by omega)]
      have h2 := bwd_exact (hSt t (by omega)) hT.tridiagSubdiag hs.permTridiag hs.permTridiag (hv.block (by omega))
        (lts t ht) (st.tridiag2 t (by omega)) i hi
      rw [h2, h1] at h3
      change ∑ j ∈ range d.tridiag, unitLower (f.tridiagDiag.getD t f.startDiag).lower j i *
        (v.tridiag.getD t []).getD (permAt s.tridiag.permutation j) 0 + _ + _ =
          (rhs.tridiag.getD t []).getD (permAt s.tridiag.permutation i) 0
      rw [h3]
      simp only [ArrowheadVector.perm, ArrowheadVector.at, ArrowheadSparsity.perm, blockAt]
      ring

/-- The product of the assembled `L D Lᵀ` with a vector. -/
theorem arrowhead_ldlt_mul (y : Blk → Nat → K) (a : Blk) (i : Nat) :
    ∑ b ∈ blocks N, ∑ j ∈ range (d.of b), f.ldlt d N a b i j * y b j =
      rowMul f d N (fun c k => f.pivotAt c k * colMul f d N y c k) a i := by
  have h := ldlt_mul ((blocks N).sigma fun b => range (d.of b))
    (fun x z : (_ : Blk) × Nat => f.lowerElement N x.1 z.1 x.2 z.2) (fun x => f.pivotAt x.1 x.2)
    (fun x => y x.1 x.2) ⟨a, i⟩
  simp only [sum_sigma] at h
  exact h

/-- `solveInPlace` solves with the assembled `L D Lᵀ`. -/
theorem arrowheadSolve_exact (hs : s.Valid d) (hT : TypesOk s T d) (hf : f.Declared s T d N)
    (hpiv : ∀ a ∈ blocks N, ∀ i < d.of a, f.pivotAt a i ≠ 0) {rhs : ArrowheadVector K} (hr : rhs.OfSize d N) :
    Sat (f.solveInPlace rhs) fun x => x.OfSize d N ∧ ∀ a ∈ blocks N, ∀ i < d.of a,
      ∑ b ∈ blocks N, ∑ j ∈ range (d.of b), f.ldlt d N a b i j * x.perm s b j = rhs.perm s a i := by
  unfold ArrowheadFactor.solveInPlace
  refine Sat.bind (forwardSolve_exact hs hT hf hr) ?_
  rintro y ⟨hy, hyv⟩
  refine Sat.bind (arrowheadDiagonalSolve_sat hs hT hf hy) ?_
  rintro z ⟨hz, hzv⟩
  refine Sat.mono (backwardSolve_exact hs hT hf hz) ?_
  rintro x ⟨hx, hxv⟩
  refine ⟨hx, fun a ha i hi => ?_⟩
  rw [arrowhead_ldlt_mul, ← hyv a ha i hi]
  unfold rowMul
  refine sum_congr rfl fun b hb => sum_congr rfl fun j hj => ?_
  have hj' := mem_range.mp hj
  have hz' : z.perm s b j = y.perm s b j / f.pivotAt b j := hzv b hb j hj'
  beta_reduce
  rw [hxv b hb j hj', hz', mul_div_cancel₀ _ (hpiv b hb j hj')]

/-! ### Regularity of the assembled factor -/

theorem lowerElement_self (hf : f.Declared s T d N) {a : Blk} (ha : a ∈ blocks N) (i : Nat) :
    f.lowerElement N a a i i = 1 := by
  rw [factor_lowerElement_eq hf ha ha]
  simp [chainL, unitLower]

/-- The assembled factor is lower triangular in the order of elimination. -/
theorem lowerElement_lower (hT : TypesOk s T d) (hf : f.Declared s T d N) {a b : Blk} (ha : a ∈ blocks N)
    (hb : b ∈ blocks N) {i j : Nat} (h : f.lowerElement N a b i j ≠ 0) (hne : ¬ (a = b ∧ i = j)) :
    b.rank N < a.rank N ∨ (a = b ∧ j < i) := by
  have hX := chainPat_ok hT N
  have hra := rank_le ha
  have hrb := rank_le hb
  rw [factor_lowerElement_eq hf ha hb] at h
  by_cases hab : a = b
  · subst hab
    refine Or.inr ⟨rfl, ?_⟩
    by_contra hlt
    have hij : i ≠ j := fun h => hne ⟨rfl, h⟩
    refine h ?_
    unfold chainL unitLower
    rw [if_pos rfl, if_neg hij]
    split
    · next hle => exact val_off fun hh => hlt (hX.lowD _ hle _ _ hh)
    · exact val_off fun hh => hlt (hX.lowE _ _ hh)
  · left
    have hr : a.rank N ≠ b.rank N := fun h => hab ((rank_inj ha hb).mp h)
    by_contra hlt
    refine h ?_
    rw [chainL_zero (by omega) (by omega) (by omega)]

/-- Rows of the assembled factor. -/
theorem rowMul_inj (hT : TypesOk s T d) (hf : f.Declared s T d N) {w : Blk → Nat → K}
    (h : ∀ a ∈ blocks N, ∀ i < d.of a, rowMul f d N w a i = 0) : ∀ a ∈ blocks N, ∀ i < d.of a, w a i = 0 := by
  have key := triangular_inj (ι := (_ : Blk) × Nat) (K := K)
    (r := fun y x => Prod.Lex (· < ·) (· < ·) (y.1.rank N, y.2) (x.1.rank N, x.2))
    (InvImage.wf (fun x : (_ : Blk) × Nat => (x.1.rank N, x.2)) (Prod.lex Nat.lt_wfRel Nat.lt_wfRel).wf)
    ((blocks N).sigma fun b => range (d.of b))
    (l := fun x y => if x = y then 0 else f.lowerElement N x.1 y.1 x.2 y.2) (w := fun x => w x.1 x.2) ?_ ?_
  · intro a ha i hi
    exact key ⟨a, i⟩ (mem_sigma.mpr ⟨ha, mem_range.mpr hi⟩)
  · rintro ⟨a, i⟩ hx ⟨b, j⟩ hy hne
    have ha := (mem_sigma.mp hx).1
    have hb := (mem_sigma.mp hy).1
    simp only at ha hb
    split at hne
    · exact absurd rfl hne
    · next hxy =>
      simp only at hne
      rcases lowerElement_lower hT hf ha hb hne (fun hh => hxy (by rw [hh.1, hh.2])) with h1 | ⟨h1, h2⟩
      · exact Prod.Lex.left _ _ h1
      · subst h1
        exact Prod.Lex.right _ h2
  · rintro ⟨a, i⟩ hx
    obtain ⟨ha, hi⟩ := mem_sigma.mp hx
    have := h a ha i (mem_range.mp hi)
    unfold rowMul at this
    rw [sum_sigma' (blocks N) (fun b => range (d.of b)) (fun b j => f.lowerElement N a b i j * w b j)] at this
    rw [← add_sum_erase _ _ hx] at this ⊢
    rw [if_pos rfl, zero_mul, zero_add, ← this]
    congr 1
    · simp only
      rw [lowerElement_self hf ha, one_mul]
    · refine sum_congr rfl fun y hy => ?_
      rw [if_neg (mem_erase.mp hy).1.symm]

/-- Columns of the assembled factor. -/
theorem colMul_inj (hT : TypesOk s T d) (hf : f.Declared s T d N) {w : Blk → Nat → K}
    (h : ∀ a ∈ blocks N, ∀ i < d.of a, colMul f d N w a i = 0) : ∀ a ∈ blocks N, ∀ i < d.of a, w a i = 0 := by
  have key := triangular_inj (ι := (_ : Blk) × Nat) (K := K)
    (r := fun y x => Prod.Lex (· < ·) (· < ·) (N + 3 - y.1.rank N, d.of y.1 - y.2) (N + 3 - x.1.rank N, d.of x.1 - x.2))
    (InvImage.wf (fun x : (_ : Blk) × Nat => (N + 3 - x.1.rank N, d.of x.1 - x.2))
      (Prod.lex Nat.lt_wfRel Nat.lt_wfRel).wf)
    ((blocks N).sigma fun b => range (d.of b))
    (l := fun x y => if x = y then 0 else f.lowerElement N y.1 x.1 y.2 x.2) (w := fun x => w x.1 x.2) ?_ ?_
  · intro a ha i hi
    exact key ⟨a, i⟩ (mem_sigma.mpr ⟨ha, mem_range.mpr hi⟩)
  · rintro ⟨a, i⟩ hx ⟨b, j⟩ hy hne
    obtain ⟨ha, hi⟩ := mem_sigma.mp hx
    obtain ⟨hb, hj⟩ := mem_sigma.mp hy
    simp only [mem_range] at ha hb hi hj
    split at hne
    · exact absurd rfl hne
    · next hxy =>
      simp only at hne
      rcases lowerElement_lower hT hf hb ha hne (fun hh => hxy (by rw [hh.1, hh.2])) with h1 | ⟨h1, h2⟩
      · refine Prod.Lex.left _ _ ?_
        have := rank_le hb
        simp only
        omega
      · subst h1
        exact Prod.Lex.right _ (show d.of b - j < d.of b - i by omega)
  · rintro ⟨a, i⟩ hx
    obtain ⟨ha, hi⟩ := mem_sigma.mp hx
    have := h a ha i (mem_range.mp hi)
    unfold colMul at this
    rw [sum_sigma' (blocks N) (fun b => range (d.of b)) (fun b j => f.lowerElement N b a j i * w b j)] at this
    rw [← add_sum_erase _ _ hx] at this ⊢
    rw [if_pos rfl, zero_mul, zero_add, ← this]
    congr 1
    · simp only
      rw [lowerElement_self hf ha, one_mul]
    · refine sum_congr rfl fun y hy => ?_
      rw [if_neg (mem_erase.mp hy).1.symm]

/-- The assembled `L D Lᵀ` with non-zero pivots is regular. -/
theorem arrowhead_ldlt_inj (hT : TypesOk s T d) (hf : f.Declared s T d N)
    (hpiv : ∀ a ∈ blocks N, ∀ i < d.of a, f.pivotAt a i ≠ 0) {w : Blk → Nat → K}
    (h : ∀ a ∈ blocks N, ∀ i < d.of a, ∑ b ∈ blocks N, ∑ j ∈ range (d.of b), f.ldlt d N a b i j * w b j = 0) :
    ∀ a ∈ blocks N, ∀ i < d.of a, w a i = 0 := by
  refine colMul_inj hT hf fun a ha i hi => ?_
  have := rowMul_inj hT hf (w := fun c k => f.pivotAt c k * colMul f d N w c k) (fun a ha i hi => by
    rw [← arrowhead_ldlt_mul]
    exact h a ha i hi) a ha i hi
  exact (mul_eq_zero.mp this).resolve_left (hpiv a ha i hi)

omit [Field K] in
theorem vector_ext [Zero K] {v w : ArrowheadVector K} (hv : v.OfSize d N) (hw : w.OfSize d N)
    (h : ∀ a ∈ blocks N, ∀ i < d.of a, v.at a i = w.at a i) : v = w := by
  have key : ∀ {x y : List K} {n : Nat}, x.length = n → y.length = n → (∀ i < n, x.getD i 0 = y.getD i 0) → x = y := by
    intro x y n hx hy hxy
    refine List.ext_getElem (by omega) fun i h1 h2 => ?_
    have := hxy i (by omega)
    rwa [← getElem_eq_getD h1, ← getElem_eq_getD h2] at this
  obtain ⟨a1, a2, a3, a4⟩ := v
  obtain ⟨b1, b2, b3, b4⟩ := w
  have e1 : a1 = b1 := key hv.start hw.start (h .start start_mem)
  have e3 : a3 = b3 := key hv.link hw.link (h .link link_mem)
  have e4 : a4 = b4 := key hv.outer hw.outer (h .outer outer_mem)
  have e2 : a2 = b2 := by
    have l1 := hv.num
    have l2 := hw.num
    simp only at l1 l2
    refine List.ext_getElem (by omega) fun t h1 h2 => ?_
    have := key (hv.block (t := t) (by omega)) (hw.block (t := t) (by omega)) (h (.tridiag t) (tridiag_mem (by omega)))
    simp only at this
    rwa [← getElem_eq_getD h1, ← getElem_eq_getD h2] at this
  rw [e1, e2, e3, e4]

omit [Field K] in
/-- Permutations of the blocks. -/
theorem valid_perm (hs : s.Valid d) (a : Blk) : IsPerm (s.perm a) (d.of a) := by
  cases a with
  | start => exact hs.permStart
  | tridiag t => exact hs.permTridiag
  | link => exact hs.permLink
  | outer => exact hs.permOuter

end

end Ctldl
