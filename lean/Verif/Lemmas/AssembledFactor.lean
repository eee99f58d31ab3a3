import Verif.Lemmas.Placed
import Verif.Lemmas.ForwardArrowhead
import Verif.Lemmas.SolveLists
import Verif.Props.EndToEnd
import Verif.Props.Factorize
import Verif.Spec.Assembled

/-! # The factorizations of a repeating block matrix and of the assembled matrix -/

namespace Ctldl

open Finset

section

variable {T : ArrowheadTypes} {d : Dims} {N : Nat}

/-- Number of rows before a block of the chain. -/
def chainOff (d : Dims) (N : Nat) : Nat → Nat
  | 0 => 0
  | p + 1 => if p < N + 2 then d.start + p * d.tridiag else d.start + (N + 1) * d.tridiag + d.link

theorem chainOff_offsets (T : ArrowheadTypes) (d : Dims) (N : Nat) : Offsets (chainPat T d N) (N + 2) (chainOff d N) := by
  refine ⟨rfl, fun p hp => ?_⟩
  cases p with
  | zero => simp [chainOff, chainPat, sel]
  | succ p =>
    show (if p + 1 < N + 2 then d.start + (p + 1) * d.tridiag else d.start + (N + 1) * d.tridiag + d.link) =
      (if p < N + 2 then d.start + p * d.tridiag else d.start + (N + 1) * d.tridiag + d.link) +
        (if p < N + 1 then d.tridiag else d.link)
    rw [if_pos (show p < N + 2 by omega)]
    by_cases h : p < N + 1
    · rw [if_pos h, if_pos (by omega), Nat.succ_mul, ← Nat.add_assoc]
    · obtain rfl : p = N + 1 := by omega
      rw [if_neg h, if_neg (by omega)]

theorem chainOff_total (T : ArrowheadTypes) (d : Dims) (N : Nat) :
    chainOff d N (N + 2 + 1) + (chainPat T d N).nO = d.total N := by
  simp [chainOff, chainPat, Dims.total]

theorem place_eq {k : Σ _ : Blk, Nat} (hk : k.1 ∈ blocks N) : d.place N k = placeAt (chainOff d N) (chainPos N k) := by
  obtain ⟨a, i⟩ := k
  unfold Dims.place placeAt chainPos
  dsimp only at hk ⊢
  congr 1
  cases a with
  | start => rfl
  | tridiag t =>
    have := mem_blocks.mp hk t rfl
    show _ = if t < N + 2 then d.start + t * d.tridiag else d.start + (N + 1) * d.tridiag + d.link
    rw [if_pos (by omega)]
    rfl
  | link =>
    show _ = if N + 1 < N + 2 then d.start + (N + 1) * d.tridiag else d.start + (N + 1) * d.tridiag + d.link
    rw [if_pos (by omega)]
    rfl
  | outer =>
    show _ = if N + 2 < N + 2 then d.start + (N + 2) * d.tridiag else d.start + (N + 1) * d.tridiag + d.link
    rw [if_neg (by omega)]
    rfl

theorem place_lt {k : Σ _ : Blk, Nat} (hk : k ∈ positions d N) (T : ArrowheadTypes) : d.place N k < d.total N := by
  rw [place_eq (mem_positions.mp hk).1, ← chainOff_total T]
  exact (chainOff_offsets T d N).lt_total (chainPos_mem hk)

/-- Every row is a row of a block. -/
theorem exists_place {r : Nat} (hr : r < d.total N) (T : ArrowheadTypes) : ∃ k ∈ positions d N, d.place N k = r := by
  rw [← chainOff_total T] at hr
  obtain ⟨x, hx, rfl⟩ := (chainOff_offsets T d N).surj hr
  obtain ⟨k, hk, rfl⟩ := exists_chainPos hx
  exact ⟨k, hk, place_eq (mem_positions.mp hk).1⟩

end

private theorem typesOk {s : ArrowheadSparsity} {T : ArrowheadTypes} {d : Dims} (hs : s.Valid d)
    (hT : arrowheadTypes s = .ok T) : TypesOk s T d := by
  obtain ⟨T', h, h'⟩ := arrowheadTypes_sat hs
  rw [hT] at h
  cases h
  exact h'

private theorem fits1 {K : Type} {f : DiagFactor K} {s : Sparsity} {p : List Nat} (hv : ValidSparsity s p)
    (hf : f.Declared s p) {m : MatIn K} (hm : m.Fits s p) : Fits1 m f s.numRows := by
  refine ⟨hm.sized, ⟨hm.inRange, hm.rows, hm.cols⟩, ?_⟩
  intro i j hij
  rw [hf.perm] at hij
  have h1 := hm.subset i j hij
  rw [Csr.Has, (hf.closed1 hv).2.2.2.2]
  have h2 := hij.1
  have h3 := hij.2.1
  rw [hm.rows] at h3
  exact ⟨h3, by omega, h1⟩

section

variable {K : Type} [Zero K] {s : ArrowheadSparsity} {T : ArrowheadTypes} {d : Dims} {N : Nat} {S : Sparsity} {P : List Nat}

/-- The factor of the assembled matrix has the pattern of the blocks. -/
theorem Sparsity.Assembles.csr (hA : S.Assembles P s T d N) (hv : ValidSparsity S P) {g : DiagFactor K} (hg : g.Declared S P) :
    ChainAssembles (chainPat T d N) (N + 2) (chainOff d N) g.sparsity := by
  obtain ⟨hc, hp⟩ := hg.closed1 hv
  refine ⟨⟨hc.ok.good, ?_, ?_⟩, ?_⟩
  · rw [chainOff_total, ← hA.size]
    exact hc.ok.rows
  · rw [chainOff_total, ← hA.size]
    exact hc.ok.cols
  · intro x hx y hy
    obtain ⟨k, hk, rfl⟩ := exists_chainPos hx
    obtain ⟨l, hl, rfl⟩ := exists_chainPos hy
    have k1 := (mem_positions.mp hk).1
    have l1 := (mem_positions.mp hl).1
    rw [posHas_chainPos k1 l1, ← place_eq k1, ← place_eq l1, Csr.Has, hp.2.2.2, hA.pattern k hk l hl, hA.size]
    exact ⟨fun h => h.2.2, fun h => ⟨place_lt hk T, place_lt hl T, h⟩⟩

theorem storedAt_chainPos {f : ArrowheadFactor K} (hf : f.Declared s T d N) {k l : Σ _ : Blk, Nat} (hk : k.1 ∈ blocks N)
    (hl : l.1 ∈ blocks N) :
    f.storedAt N k l = posVal (chainPat T d N) (N + 2) (f.chainVals N) (chainPos N k) (chainPos N l) := by
  obtain ⟨hDt, hSt, hOt⟩ := getD_ofType' hf
  obtain ⟨a, i⟩ := k
  obtain ⟨b, j⟩ := l
  dsimp only at hk hl
  have ra := rank_le hk
  have rb := rank_le hl
  unfold ArrowheadFactor.storedAt chainPos
  dsimp only
  by_cases hab : a = b
  · subst hab
    rw [if_pos rfl]
    cases a with
    | start =>
      show f.startDiag.lower i j = posVal _ (N + 2) _ ⟨0, i⟩ ⟨0, j⟩
      rw [posVal_D (Nat.zero_le _), DiagFactor.lower, hf.startDiag.pattern]
      rfl
    | tridiag t =>
      have ht := mem_blocks.mp hk t rfl
      have h1 : f.diagBlock (.tridiag t) = some (f.tridiagDiag.getD t f.startDiag) :=
        getElem?_eq_getD (by rw [hf.numDiag]; exact ht) _
      rw [h1]
      show (f.tridiagDiag.getD t f.startDiag).lower i j = posVal _ (N + 2) _ ⟨t + 1, i⟩ ⟨t + 1, j⟩
      rw [posVal_D (by omega), DiagFactor.lower, (hDt t ht).pattern]
      simp only [ChainVals.l, chainPat, ArrowheadFactor.chainVals, sel_succ ht]
      rfl
    | link =>
      show f.linkDiag.lower i j = posVal _ (N + 2) _ ⟨N + 2, i⟩ ⟨N + 2, j⟩
      rw [posVal_D le_rfl, DiagFactor.lower, hf.linkDiag.pattern]
      simp only [ChainVals.l, chainPat, ArrowheadFactor.chainVals, sel_last (Nat.le_refl (N + 1))]
      rfl
    | outer =>
      show f.outerDiag.lower i j = posVal _ (N + 2) _ ⟨N + 2 + 1, i⟩ ⟨N + 2 + 1, j⟩
      rw [posVal_E, DiagFactor.lower, hf.outerDiag.pattern]
      rfl
  · rw [if_neg hab, factor_lowerBlock_eq hf hk hl]
    have rab : a.rank N ≠ b.rank N := fun h => hab ((rank_inj hk hl).mp h)
    generalize a.rank N = p at *
    generalize b.rank N = q at *
    unfold lowPos
    by_cases h1 : p = N + 2 + 1
    · subst h1
      rw [if_pos ⟨rfl, by omega⟩, posVal_O (by omega)]
      simp only [Option.elim]
      rcases pos_cases (N := N) (p := q) (by omega) with rfl | ⟨t, ht, rfl⟩ | rfl
      · simp only [sel_zero, ChainVals.o, chainPat, ArrowheadFactor.chainVals, SubFactor.entry, hf.startOuter.pattern]
        rfl
      · simp only [sel_succ ht, ChainVals.o, chainPat, ArrowheadFactor.chainVals, SubFactor.entry, (hOt t ht).pattern]
        rfl
      · simp only [sel_last (Nat.le_refl _), ChainVals.o, chainPat, ArrowheadFactor.chainVals, SubFactor.entry,
          hf.linkNext.pattern]
        rfl
    · rw [if_neg (fun h => h1 h.1)]
      by_cases h2 : p = q + 1
      · subst h2
        rw [if_pos ⟨rfl, by omega⟩, posVal_S (by omega)]
        simp only [Option.elim]
        rcases pos_cases' (N := N) (p := q) (by omega) with rfl | ⟨t, ht, rfl⟩ | rfl
        · simp only [sel_zero, ChainVals.s, chainPat, ArrowheadFactor.chainVals, SubFactor.entry, hf.startNext.pattern]
          rfl
        · simp only [sel_succ ht, ChainVals.s, chainPat, ArrowheadFactor.chainVals, SubFactor.entry, (hSt t ht).pattern]
          rfl
        · simp only [sel_last (Nat.le_refl _), ChainVals.s, chainPat, ArrowheadFactor.chainVals, SubFactor.entry,
            hf.linkPrev.pattern]
          rfl
      · rw [if_neg (fun h => h2 h.1)]
        unfold posVal
        rw [if_neg]
        · rfl
        · rw [posHas_iff]
          dsimp only
          omega

end

section

variable {K : Type} [Zero K] [Sub K] [Mul K] [Div K] {s : ArrowheadSparsity} {T : ArrowheadTypes} {d : Dims} {N : Nat}
  {S : Sparsity} {P : List Nat}

/-- The factor of a repeating block matrix and the factor of the assembled matrix have the same entries. -/
theorem assembled_factor (hs : s.Valid d) {f : ArrowheadFactor K} (hf : f.Declared s T d N) {m : ArrowheadMatrix K}
    (hm : m.Fits s T d N) {reg : K → Nat → K} {method : Method} (hmeth : method = .upLooking ∨ d.outer = 0)
    (hv : ValidSparsity S P) {g : DiagFactor K} (hg : g.Declared S P) {M : MatIn K} (hM : M.Fits S P)
    {reg' : K → Nat → K} (hA : S.Assembles P s T d N) (hMA : M.Assembles m d N)
    (hreg : ∀ k ∈ positions d N, ∀ x, reg' x (d.place N k) = reg x k.2)
    {f' : ArrowheadFactor K} (h : f.factorize d.tridiag d.link d.outer m reg method = .ok f') {g' : DiagFactor K}
    (h' : g.factorize M reg' method = .ok g') :
    (∀ k ∈ positions d N, ∀ l ∈ positions d N, g'.lower (d.place N k) (d.place N l) = f'.storedAt N k l) ∧
    ∀ k ∈ positions d N, g'.pivot (d.place N k) = f'.pivotAt k.1 k.2 := by
  have hT := typesOk hs hf.types
  have hX := chainPat_ok hT N
  have hO := chainOff_offsets T d N
  obtain ⟨hd, hrows⟩ := Sat.of_ok (arrowheadFactorize_sat hs hT hf hm.matrixOk reg method) h
  have hc := (hg.closed1 hv).1
  obtain ⟨L, D, rfl, -, -, hsingle⟩ := Sat.of_ok (factorize_sat hc (fits1 hv hg hM) reg' method) h'
  have hcsr := hA.csr hv hg
  have hplaced := hcsr.placed hX hO
  have hsym : ∀ k ∈ positions d N, ∀ l ∈ positions d N,
      M.sym (permAt P (d.place N k)) (permAt P (d.place N l)) =
        posA (N + 2) (m.chainInput s N) (chainPos N k) (chainPos N l) := by
    intro k hk l hl
    obtain ⟨p1, -, -⟩ := permPos_facts hs N
    rw [hA.order k hk, hA.order l hl]
    refine (hMA _ (p1 k hk) _ (p1 l hl)).trans ?_
    exact matrix_symElement_eq hm.numSubdiag hm.numOuter (mem_positions.mp hk).1 (mem_positions.mp hl).1 k.2 l.2
  have key := hplaced.same (method := method) (A := posA (N + 2) (m.chainInput s N))
    (l := posVal (chainPat T d N) (N + 2) (f'.chainVals N)) (d := posD (N + 2) (f'.chainVals N))
    (reg := fun x a => reg a x.2) (fun x hx => hrows.abs hX hmeth x hx)
    (fun x hx => (hsingle _ (by
      have := hO.lt_total hx
      rwa [chainOff_total, ← hA.size] at this)).abs hc.ok.lower) ?_ ?_ ?_
  · refine ⟨fun k hk l hl => ?_, fun k hk => ?_⟩
    · have k1 := (mem_positions.mp hk).1
      have l1 := (mem_positions.mp hl).1
      rw [storedAt_chainPos hd k1 l1, place_eq k1, place_eq l1]
      by_cases hh : posHas (chainPat T d N) (N + 2) (chainPos N k) (chainPos N l)
      · exact (key _ (chainPos_mem hk)).1 _ hh
      · rw [posVal, if_neg hh]
        rw [← hcsr.has _ (chainPos_mem hk) _ (chainPos_mem hl)] at hh
        exact val_off hh
    · have k1 := (mem_positions.mp hk).1
      rw [factor_pivotAt_eq hd k1, place_eq k1]
      exact (key _ (chainPos_mem hk)).2
  · intro x y hx hxy
    obtain ⟨e1, e2, e3⟩ := hplaced.entry hx hxy
    obtain ⟨k, hk, rfl⟩ := exists_chainPos hx
    obtain ⟨l, hl, rfl⟩ := exists_chainPos e1
    rw [if_neg (by omega), ← hsym k hk l hl, ← place_eq (mem_positions.mp hk).1, ← place_eq (mem_positions.mp hl).1]
    show M.elem _ _ = M.elem _ _
    rw [hg.perm]
    rfl
  · intro x hx
    obtain ⟨k, hk, rfl⟩ := exists_chainPos hx
    rw [if_pos rfl, ← hsym k hk k hk, ← place_eq (mem_positions.mp hk).1]
    show M.elem _ _ = M.elem _ _
    rw [hg.perm]
    rfl
  · intro x hx
    obtain ⟨k, hk, rfl⟩ := exists_chainPos hx
    funext a
    rw [← place_eq (mem_positions.mp hk).1]
    exact hreg k hk a

end

end Ctldl
