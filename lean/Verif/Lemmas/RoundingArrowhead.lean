import Verif.Lemmas.RoundingChain
import Verif.Lemmas.ArrowheadReproduce
import Verif.Lemmas.Quotients

/-! # Rounding errors of the factorization of the repeating block matrix -/

namespace Ctldl

open Finset

section

variable {K F : Type}

theorem DiagFactor.OfType.map {f : DiagFactor K} {c : Csr} {p : List Nat} {n : Nat} (h : f.OfType c p n) (g : K → F) :
    (f.map g).OfType c p n :=
  ⟨h.pattern, h.perm, by simp [DiagFactor.map, h.sizeL], by simp [DiagFactor.map, h.sizeD]⟩

theorem SubFactor.OfType.map {f : SubFactor K} {c : Csr} {pr pc : List Nat} (h : f.OfType c pr pc) (g : K → F) :
    (f.map g).OfType c pr pc :=
  ⟨h.pattern, h.permRow, h.permCol, by simp [SubFactor.map, h.sizeL]⟩

theorem ArrowheadFactor.Declared.map {f : ArrowheadFactor K} {s : ArrowheadSparsity} {T : ArrowheadTypes} {d : Dims}
    {N : Nat} (h : f.Declared s T d N) (g : K → F) : (f.map g).Declared s T d N where
  types := h.types
  numDiag := by simp [ArrowheadFactor.map, h.numDiag]
  numSubdiag := by simp [ArrowheadFactor.map, h.numSubdiag]
  numOuter := by simp [ArrowheadFactor.map, h.numOuter]
  startDiag := h.startDiag.map g
  startNext := h.startNext.map g
  startOuter := h.startOuter.map g
  tridiagDiag := by
    intro x hx
    obtain ⟨y, hy, rfl⟩ := List.mem_map.mp hx
    exact (h.tridiagDiag y hy).map g
  tridiagSubdiag := by
    intro x hx
    obtain ⟨y, hy, rfl⟩ := List.mem_map.mp hx
    exact (h.tridiagSubdiag y hy).map g
  linkPrev := h.linkPrev.map g
  linkDiag := h.linkDiag.map g
  linkNext := h.linkNext.map g
  outerSubdiag := by
    intro x hx
    obtain ⟨y, hy, rfl⟩ := List.mem_map.mp hx
    exact (h.outerSubdiag y hy).map g
  outerDiag := h.outerDiag.map g

theorem sel_map' {α β : Type _} {n : Nat} {a c : α} {b : Nat → α} (f : α → β) :
    (fun p => f (sel n a b c p)) = sel n (f a) (fun t => f (b t)) (f c) := by
  funext p
  exact sel_map n a b c f p

theorem chainVals_map [Zero K] [Field F] (f : ArrowheadFactor K) (g : K → F) (N : Nat) :
    (f.map g).chainVals N = (f.chainVals N).map g := by
  unfold ArrowheadFactor.chainVals ChainVals.map
  simp only [sel_map' (f := List.map g)]
  congr 1 <;> (first | rfl | skip)
  all_goals
    congr 1
    funext t
    simp only [ArrowheadFactor.map, List.getD_map]
    rfl

theorem elem_map [Zero K] [Zero F] {g : K → F} (hg : g 0 = 0) (m : MatIn K) (i j : Nat) :
    (m.map g).elem i j = g (m.elem i j) := by
  unfold MatIn.elem MatIn.map
  simp only
  split
  · rw [← hg, List.getD_map]
  · exact hg.symm

theorem sym_map [Zero K] [Zero F] {g : K → F} (hg : g 0 = 0) (m : MatIn K) (i j : Nat) :
    (m.map g).sym i j = g (m.sym i j) := elem_map hg m _ _

theorem getD_empty_map (l : List (MatIn K)) (g : K → F) (t : Nat) :
    (l.map (·.map g)).getD t (.empty F) = (l.getD t (.empty K)).map g := by
  have : (MatIn.empty F) = (MatIn.empty K).map g := rfl
  rw [this, List.getD_map]

end

section

variable {K F : Type} [Zero K] [Zero F] {g : K → F} (hg : g 0 = 0) (m : ArrowheadMatrix K) (s : ArrowheadSparsity)
  (N : Nat)
include hg

theorem chainInput_map_a (p i j : Nat) :
    ((m.map g).chainInput s N).a p i j = g ((m.chainInput s N).a p i j) := by
  simp only [ArrowheadMatrix.chainInput]
  unfold sel
  split <;> [skip; split] <;> simp only [inA, ArrowheadMatrix.map, getD_empty_map, sym_map hg]

theorem chainInput_map_aD (p i : Nat) :
    ((m.map g).chainInput s N).aD p i = g ((m.chainInput s N).aD p i) := by
  simp only [ArrowheadMatrix.chainInput]
  unfold sel
  split <;> [skip; split] <;> simp only [inD, ArrowheadMatrix.map, getD_empty_map, sym_map hg]

theorem chainInput_map_b (p i j : Nat) :
    ((m.map g).chainInput s N).b p i j = g ((m.chainInput s N).b p i j) := by
  simp only [ArrowheadMatrix.chainInput]
  unfold sel
  split <;> [skip; split] <;> simp only [inB, ArrowheadMatrix.map, getD_empty_map, elem_map hg]

theorem chainInput_map_c (p i j : Nat) :
    ((m.map g).chainInput s N).c p i j = g ((m.chainInput s N).c p i j) := by
  simp only [ArrowheadMatrix.chainInput]
  unfold sel
  split <;> [skip; split] <;> simp only [inB, ArrowheadMatrix.map, getD_empty_map, elem_map hg]

theorem chainInput_map_h (i j : Nat) :
    ((m.map g).chainInput s N).h i j = g ((m.chainInput s N).h i j) := by
  simp only [ArrowheadMatrix.chainInput, inA, ArrowheadMatrix.map, sym_map hg]

theorem chainInput_map_hD (i : Nat) :
    ((m.map g).chainInput s N).hD i = g ((m.chainInput s N).hD i) := by
  simp only [ArrowheadMatrix.chainInput, inD, ArrowheadMatrix.map, sym_map hg]

end

theorem Csr.rowEntries_eq (c : Csr) (i : Nat) : c.rowEntries i = (c.cols i).length := by
  simp only [Csr.rowEntries, Csr.cols, rowOf, List.length_map]
  congr 2

theorem types_diagBlock_eq {T : ArrowheadTypes} {d : Dims} {N : Nat} {a : Blk} (ha : a ∈ blocks N) :
    T.diagBlock a = if a.rank N ≤ N + 2 then (chainPat T d N).cD (a.rank N) else (chainPat T d N).cE := by
  have := rank_sel ha T.startDiag (fun _ => T.tridiagDiag) T.linkDiag T.outerDiag
  refine Eq.trans ?_ this
  cases a <;> rfl

theorem rowLen_eq {T : ArrowheadTypes} {d : Dims} {N : Nat} {a : Blk} (ha : a ∈ blocks N) (i : Nat) :
    (chainPat T d N).rowLen (N + 2) (a.rank N) i = T.rowEntries N a i := by
  have hl : ∀ b ∈ blocks N, (T.lowerBlock N a b).elim 0 (fun c => c.rowEntries i) =
      (lowPos (N + 2) (chainPat T d N).cS (chainPat T d N).cO (a.rank N) (b.rank N)).elim 0
        (fun c => (c.cols i).length) := by
    intro b hb
    rw [types_lowerBlock_eq ha hb]
    simp only [Csr.rowEntries_eq]
    rfl
  unfold ArrowheadTypes.rowEntries
  rw [sum_congr rfl hl, sum_rank (F := fun q => (lowPos (N + 2) (chainPat T d N).cS (chainPat T d N).cO
    (a.rank N) q).elim 0 (fun c => (c.cols i).length)), types_diagBlock_eq (d := d) ha, Csr.rowEntries_eq]
  have hp := rank_le ha
  generalize a.rank N = p at hp
  generalize chainPat T d N = X
  unfold ChainPat.rowLen
  by_cases h : p ≤ N + 2
  · rw [if_pos h, if_pos h, add_comm]
    congr 1
    cases p with
    | zero =>
      symm
      apply sum_eq_zero
      intro q _
      unfold lowPos
      rw [if_neg (by omega), if_neg (by omega)]
      rfl
    | succ r =>
      rw [sum_eq_single r]
      · unfold lowPos
        rw [if_neg (by omega), if_pos ⟨rfl, h⟩]
        rfl
      · intro q _ hq
        unfold lowPos
        rw [if_neg (by omega), if_neg (by omega)]
        rfl
      · intro hr
        exact absurd (mem_range.mpr (by omega)) hr
  · rw [if_neg h, if_neg h, add_comm, sum_range_succ (n := N + 3)]
    obtain rfl : p = N + 3 := by omega
    congr 1
    have : ∀ q ∈ range (N + 3), (lowPos (N + 2) X.cS X.cO (N + 3) q).elim 0 (fun c => (c.cols i).length) = ((X.cO q).cols i).length := by
      intro q hq
      have := mem_range.mp hq
      unfold lowPos
      rw [if_pos ⟨rfl, by omega⟩]
      rfl
    rw [sum_congr rfl this]
    unfold lowPos
    rw [if_neg (by omega), if_neg (by omega)]
    rfl

theorem pivotAt_map {K F : Type} [Zero K] [Zero F] {f : ArrowheadFactor K} {g : K → F} (hg : g 0 = 0) (a : Blk) (i : Nat) :
    (f.map g).pivotAt a i = g (f.pivotAt a i) := by
  have hd : ∀ x : DiagFactor K, (x.map g).pivot i = g (x.pivot i) := by
    intro x
    simp only [DiagFactor.pivot, DiagFactor.map]
    rw [← hg, List.getD_map]
  cases a with
  | tridiag t =>
    simp only [ArrowheadFactor.pivotAt, ArrowheadFactor.diagBlock, ArrowheadFactor.map, List.getElem?_map]
    cases f.tridiagDiag[t]? with
    | none => exact hg.symm
    | some x => exact hd x
  | start => exact hd _
  | link => exact hd _
  | outer => exact hd _

section

variable {K F : Type} [Zero K] [Sub K] [Mul K] [Div K] [Field F] [LinearOrder F] [IsStrictOrderedRing F]

theorem chainSmall_of (R : Rounding K F) {s : ArrowheadSparsity} {T : ArrowheadTypes} {d : Dims} {N : Nat}
    (hT : TypesOk s T d) {f : ArrowheadFactor K} (hf : f.Declared s T d N) {ε : F} (h0 : 0 ≤ ε)
    (hε : ∀ a ∈ blocks N, ∀ b ∈ blocks N, ∀ i j, T.Has N a i b j →
      R.η * (1 + |R.v (f.pivotAt b j)| * (1 + |(f.map R.v).lowerElement N a b i j|)) ≤ ε)
    (hst : (f.chainVals N).Entries (chainPat T d N) (N + 2) R.stored) :
    R.ChainSmall ε (chainPat T d N) (N + 2) (f.chainVals N) := by
  have hX := chainPat_ok hT N
  have key : ∀ p q i j, p ≤ N + 3 → q ≤ N + 3 → chainHas (chainPat T d N) (N + 2) p i q j →
      R.η * (1 + |R.v (chainD (f.chainVals N) (N + 2) q j)| *
        (1 + |chainL (chainPat T d N) ((f.chainVals N).map R.v) (N + 2) p q i j|)) ≤ ε := by
    intro p q i j hp' hq' h
    obtain ⟨a, ha, rfl⟩ := exists_rank (N := N) hp'
    obtain ⟨b, hb, rfl⟩ := exists_rank (N := N) hq'
    have := hε a ha b hb i j ((types_has_iff ha hb i j).mpr h)
    rwa [factor_pivotAt_eq hf hb, factor_lowerElement_eq (hf.map R.v) ha hb, chainVals_map] at this
  unfold chainD chainL at key
  refine ⟨h0, ?_, ?_, ?_, ?_⟩
  · intro p hpN i j h
    refine ⟨hst.l p hpN i j h, ?_⟩
    have := key p p i j (by omega) (by omega) (Or.inl ⟨rfl, by rw [if_pos hpN]; exact h⟩)
    have hlt := hX.lowD p hpN i j h
    rwa [if_pos rfl, if_pos hpN, if_pos hpN, unitLower, if_neg (by omega), ChainVals.map, ChainVals.l, val_map R.v_zero]
      at this
  · intro p hpN i j h
    refine ⟨hst.s p hpN i j h, ?_⟩
    have := key (p + 1) p i j (by omega) (by omega)
      (Or.inr ⟨_, by unfold lowPos; rw [if_neg (by omega), if_pos ⟨rfl, by omega⟩], h⟩)
    rwa [if_pos (by omega), if_neg (by omega), if_neg (by omega), if_pos rfl, ChainVals.map, ChainVals.s,
      val_map R.v_zero] at this
  · intro p hpN i j h
    refine ⟨hst.o p hpN i j h, ?_⟩
    have := key (N + 3) p i j (by omega) (by omega) (Or.inr ⟨_, by unfold lowPos; rw [if_pos ⟨rfl, hpN⟩], h⟩)
    rwa [if_pos hpN, if_neg (by omega), if_pos rfl, ChainVals.map, ChainVals.o, val_map R.v_zero] at this
  · intro i j h
    refine ⟨hst.e i j h, ?_⟩
    have := key (N + 3) (N + 3) i j (by omega) (by omega) (Or.inl ⟨rfl, by rw [if_neg (by omega)]; exact h⟩)
    have hlt := hX.lowE i j h
    rwa [if_neg (by omega), if_pos rfl, if_neg (by omega), unitLower, if_neg (by omega), ChainVals.map, ChainVals.e,
      val_map R.v_zero] at this

end

/-- Replacing the stored numbers of a matrix does not change its pattern. -/
theorem ArrowheadMatrix.Fits.map {K F : Type} {m : ArrowheadMatrix K} {s : ArrowheadSparsity} {T : ArrowheadTypes}
    {d : Dims} {N : Nat} (h : m.Fits s T d N) (g : K → F) : (m.map g).Fits s T d N where
  numDiag := by simp [ArrowheadMatrix.map, h.numDiag]
  numSubdiag := by simp [ArrowheadMatrix.map, h.numSubdiag]
  numOuter := by simp [ArrowheadMatrix.map, h.numOuter]
  diag := by
    intro b hb
    have e : (m.map g).diagBlock b = (m.diagBlock b).map g := by
      cases b <;> simp only [ArrowheadMatrix.diagBlock, ArrowheadMatrix.map, getD_empty_map]
    rw [e]
    obtain ⟨h1, h2⟩ := h.diag b hb
    refine ⟨?_, h2⟩
    simp only [MatIn.Sized, MatIn.map, List.length_map]
    exact h1
  lower := by
    intro a b q c hq hc
    have e : (m.map g).lowerBlock N a b = (m.lowerBlock N a b).map (·.map g) := by
      rcases a with _ | (_ | t) | _ | _ <;> rcases b with _ | u | _ | _ <;>
        simp only [ArrowheadMatrix.lowerBlock, ArrowheadMatrix.map, Option.map_none, Option.map_some,
          apply_ite (Option.map _), List.getElem?_map]
    rw [e, Option.map_eq_some_iff] at hq
    obtain ⟨q', hq', rfl⟩ := hq
    obtain ⟨h1, h2⟩ := h.lower a b q' c hq' hc
    refine ⟨?_, h2⟩
    simp only [MatIn.Sized, MatIn.map, List.length_map]
    exact h1

section

variable {K : Type} [Zero K] {P : K → Prop}

theorem DiagFactor.Entries.map {M : Type} [Zero M] {g : M → K} (g0 : g 0 = 0) (h : ∀ x, P (g x)) (f : DiagFactor M) :
    (f.map g).Entries P := by
  intro i j _
  rw [show (f.map g).lower i j = _ from elem_map g0 (⟨f.sparsity.toSparsity, f.L⟩ : MatIn M) i j]
  exact h _

theorem SubFactor.Entries.map {M : Type} [Zero M] {g : M → K} (g0 : g 0 = 0) (h : ∀ x, P (g x)) (f : SubFactor M) :
    (f.map g).Entries P := by
  intro i j _
  rw [show (f.map g).entry i j = _ from elem_map g0 (⟨f.sparsity.toSparsity, f.L⟩ : MatIn M) i j]
  exact h _

theorem ArrowheadFactor.Entries.map {M : Type} [Zero M] {g : M → K} (g0 : g 0 = 0) (h : ∀ x, P (g x))
    (f : ArrowheadFactor M) : (f.map g).Entries P := by
  have hd := DiagFactor.Entries.map (P := P) g0 h
  have hs := SubFactor.Entries.map (P := P) g0 h
  refine ⟨hd _, hs _, hs _, ?_, ?_, hs _, hd _, hs _, ?_, hd _⟩
  · intro x hx
    obtain ⟨y, -, rfl⟩ := List.mem_map.mp hx
    exact hd _
  · intro x hx
    obtain ⟨y, -, rfl⟩ := List.mem_map.mp hx
    exact hs _
  · intro x hx
    obtain ⟨y, -, rfl⟩ := List.mem_map.mp hx
    exact hs _

end

end Ctldl
