import Verif.Lemmas.ArrowheadBlocks

/-! # The factorization of the repeating block matrix reproduces it -/

namespace Ctldl

open Finset

theorem mem_tridiag {N t : Nat} (h : t < N + 1) : Blk.tridiag t ∈ blocks N :=
  mem_blocks.mpr fun _ e => by
    injection e with e
    omega

theorem mem_start (N : Nat) : Blk.start ∈ blocks N := mem_blocks.mpr fun _ e => by cases e
theorem mem_link (N : Nat) : Blk.link ∈ blocks N := mem_blocks.mpr fun _ e => by cases e
theorem mem_outer (N : Nat) : Blk.outer ∈ blocks N := mem_blocks.mpr fun _ e => by cases e

/-- Induction over the blocks in the order of elimination. -/
theorem exists_rank {N p : Nat} (h : p ≤ N + 3) : ∃ a ∈ blocks N, a.rank N = p := by
  by_cases h0 : p = 0
  · exact ⟨.start, mem_start N, h0.symm⟩
  · by_cases h1 : p ≤ N + 1
    · exact ⟨.tridiag (p - 1), mem_tridiag (by omega), by simp only [Blk.rank]; omega⟩
    · by_cases h2 : p = N + 2
      · exact ⟨.link, mem_link N, h2.symm⟩
      · exact ⟨.outer, mem_outer N, by simp only [Blk.rank]; omega⟩

section

variable {K : Type}

theorem ArrowheadMatrix.Fits.diagFits {m : ArrowheadMatrix K} {s : ArrowheadSparsity} {T : ArrowheadTypes} {d : Dims} {N : Nat}
    (h : m.Fits s T d N) {b : Blk} (hb : b ∈ blocks N) :
    DiagFits (m.diagBlock b) (T.diagBlock b) (s.perm b) (d.of b) :=
  ⟨(h.diag b hb).1, (h.diag b hb).2.1, (h.diag b hb).2.2⟩

theorem ArrowheadMatrix.Fits.subFits {m : ArrowheadMatrix K} {s : ArrowheadSparsity} {T : ArrowheadTypes} {d : Dims} {N : Nat}
    (h : m.Fits s T d N) {a b : Blk} {q : MatIn K} {c : Csr} (hq : m.lowerBlock N a b = some q)
    (hc : T.lowerBlock N a b = some c) : SubFits q c (s.perm a) (s.perm b) (d.of a) (d.of b) :=
  ⟨(h.lower a b q c hq hc).1, (h.lower a b q c hq hc).2.1, (h.lower a b q c hq hc).2.2⟩

variable {m : ArrowheadMatrix K} {s : ArrowheadSparsity} {T : ArrowheadTypes} {d : Dims} {N : Nat}

theorem ArrowheadMatrix.Fits.subdiag (h : m.Fits s T d N) {t : Nat} (ht : t < N) :
    SubFits (m.tridiagSubdiag.getD t (.empty K)) T.tridiagSubdiag s.tridiag.permutation s.tridiag.permutation
      d.tridiag d.tridiag := by
  have e1 : m.lowerBlock N (.tridiag (t + 1)) (.tridiag t) = some (m.tridiagSubdiag.getD t (.empty K)) := by
    have := h.numSubdiag
    simp only [ArrowheadMatrix.lowerBlock]
    rw [if_pos ⟨trivial, ht⟩, getElem?_eq_getD (by omega)]
  have e2 : T.lowerBlock N (.tridiag (t + 1)) (.tridiag t) = some T.tridiagSubdiag := by
    simp only [ArrowheadTypes.lowerBlock]
    rw [if_pos ⟨trivial, ht⟩]
  exact ArrowheadMatrix.Fits.subFits h e1 e2

theorem ArrowheadMatrix.Fits.prev (h : m.Fits s T d N) :
    SubFits m.linkPrev T.linkPrev s.link.permutation s.tridiag.permutation d.link d.tridiag := by
  have e1 : m.lowerBlock N .link (.tridiag N) = some m.linkPrev := if_pos rfl
  have e2 : T.lowerBlock N .link (.tridiag N) = some T.linkPrev := if_pos rfl
  exact ArrowheadMatrix.Fits.subFits h e1 e2

theorem ArrowheadMatrix.Fits.outerSub (h : m.Fits s T d N) {t : Nat} (ht : t < N + 1) :
    SubFits (m.outerSubdiag.getD t (.empty K)) T.outerSubdiag s.outer.permutation s.tridiag.permutation
      d.outer d.tridiag := by
  have e1 : m.lowerBlock N .outer (.tridiag t) = some (m.outerSubdiag.getD t (.empty K)) := by
    have := h.numOuter
    simp only [ArrowheadMatrix.lowerBlock]
    rw [if_pos (by omega), getElem?_eq_getD (by omega)]
  have e2 : T.lowerBlock N .outer (.tridiag t) = some T.outerSubdiag := by
    simp only [ArrowheadTypes.lowerBlock]
    rw [if_pos (by omega)]
  exact ArrowheadMatrix.Fits.subFits h e1 e2

theorem ArrowheadMatrix.Fits.matrixOk (h : m.Fits s T d N) : MatrixOk m s T d N where
  numDiag := h.numDiag
  numSubdiag := h.numSubdiag
  numOuter := h.numOuter
  startDiag := ArrowheadMatrix.Fits.diagFits h (mem_start N)
  startNext := ArrowheadMatrix.Fits.subFits h (a := .tridiag 0) (b := .start) rfl rfl
  tridiagDiag := fun _ ht => ArrowheadMatrix.Fits.diagFits h (mem_tridiag ht)
  tridiagSubdiag := fun _ ht => h.subdiag ht
  linkPrev := h.prev
  linkDiag := ArrowheadMatrix.Fits.diagFits h (mem_link N)
  startOuter := (ArrowheadMatrix.Fits.subFits h (a := .outer) (b := .start) rfl rfl).sized
  outerSubdiag := fun _ ht => (h.outerSub ht).sized
  linkNext := (ArrowheadMatrix.Fits.subFits h (a := .outer) (b := .link) rfl rfl).sized
  outerDiag := (ArrowheadMatrix.Fits.diagFits h (mem_outer N)).sized

theorem ArrowheadMatrix.Fits.zero [Zero K] (h : m.Fits s T d N) : (m.chainInput s N).Zero (chainPat T d N) (N + 2) where
  a := by
    intro p hp i hi j hj hn
    rcases pos_cases hp with rfl | ⟨t, ht, rfl⟩ | rfl
    · exact (ArrowheadMatrix.Fits.diagFits h (mem_start N)).zero hi hj hn
    · simp only [ArrowheadMatrix.chainInput, chainPat, sel_succ ht] at hi hn ⊢
      exact (ArrowheadMatrix.Fits.diagFits h (mem_tridiag ht)).zero hi hj hn
    · simp only [ArrowheadMatrix.chainInput, chainPat, sel_last (Nat.le_refl (N + 1))] at hi hn ⊢
      exact (ArrowheadMatrix.Fits.diagFits h (mem_link N)).zero hi hj hn
  b := by
    intro p hp i hi j hj hn
    rcases pos_cases' (N := N) (p := p) (by omega) with rfl | ⟨t, ht, rfl⟩ | rfl
    · simp only [ArrowheadMatrix.chainInput, chainPat, sel_zero, sel_succ (Nat.succ_pos N)] at hi hj hn ⊢
      exact (ArrowheadMatrix.Fits.subFits h (a := .tridiag 0) (b := .start) rfl rfl).zero hi hj hn
    · simp only [ArrowheadMatrix.chainInput, chainPat, sel_succ ht, sel_succ (show t < N + 1 by omega),
        sel_succ (show t + 1 < N + 1 by omega)] at hi hj hn ⊢
      exact (h.subdiag ht).zero hi hj hn
    · simp only [ArrowheadMatrix.chainInput, chainPat, sel_last (Nat.le_refl _), sel_succ (Nat.lt_succ_self N)]
        at hi hj hn ⊢
      exact h.prev.zero hi hj hn
  c := by
    intro p hp i hi j hj hn
    rcases pos_cases hp with rfl | ⟨t, ht, rfl⟩ | rfl
    · exact (ArrowheadMatrix.Fits.subFits h (a := .outer) (b := .start) rfl rfl).zero hi hj hn
    · simp only [ArrowheadMatrix.chainInput, chainPat, sel_succ ht] at hi hj hn ⊢
      exact (h.outerSub ht).zero hi hj hn
    · simp only [ArrowheadMatrix.chainInput, chainPat, sel_last (Nat.le_refl (N + 1))] at hi hj hn ⊢
      exact (ArrowheadMatrix.Fits.subFits h (a := .outer) (b := .link) rfl rfl).zero hi hj hn
  h := fun i hi j hj hn => (ArrowheadMatrix.Fits.diagFits h (mem_outer N)).zero hi hj hn

end

end Ctldl
