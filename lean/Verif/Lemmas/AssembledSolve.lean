import Verif.Lemmas.AssembledFactor

/-! # The substitutions of a repeating block matrix and of the assembled matrix -/

namespace Ctldl

open Finset

section

variable {X : ChainPat} {M : Nat}

/-- The entries of a column below the diagonal, in the order of the backward substitution. -/
def downList (X : ChainPat) (M : Nat) (x : Σ _ : Nat, Nat) : List (Σ _ : Nat, Nat) :=
  if x.1 ≤ M then
    (rowsDown (X.cO x.1) x.2 0 X.nO).map (Sigma.mk (M + 1)) ++
      ((if x.1 < M then (rowsDown (X.cS x.1) x.2 0 (X.n (x.1 + 1))).map (Sigma.mk (x.1 + 1)) else []) ++
        (rowsDown (X.cD x.1) x.2 0 (X.n x.1)).map (Sigma.mk x.1))
  else (rowsDown X.cE x.2 0 X.nO).map (Sigma.mk (M + 1))

theorem mem_rowsDown {c : Csr} {i j n : Nat} : i ∈ rowsDown c j 0 n ↔ i < n ∧ c.Has i j := by
  unfold rowsDown
  rw [List.mem_filter, List.mem_reverse, List.mem_range', decide_eq_true_eq]
  constructor
  · rintro ⟨⟨k, h1, h2⟩, h3⟩
    exact ⟨by omega, h3⟩
  · rintro ⟨h1, h3⟩
    exact ⟨⟨i, by omega, by omega⟩, h3⟩

theorem rowsDown_sorted (c : Csr) (j n : Nat) : (rowsDown c j 0 n).Pairwise (· > ·) := by
  unfold rowsDown
  refine List.Pairwise.filter _ ?_
  rw [List.pairwise_reverse]
  exact List.pairwise_lt_range'

theorem mem_map_mk {p : Nat} {js : List Nat} {z : Σ _ : Nat, Nat} : z ∈ js.map (Sigma.mk p) ↔ z.1 = p ∧ z.2 ∈ js := by
  obtain ⟨q, j⟩ := z
  rw [List.mem_map]
  constructor
  · rintro ⟨k, h1, h2⟩
    cases h2
    exact ⟨rfl, h1⟩
  · rintro ⟨h1, h2⟩
    dsimp only at h1 h2
    subst h1
    exact ⟨j, h2, rfl⟩

theorem mem_downList (hX : X.Ok M) {x z : Σ _ : Nat, Nat} (hx : x ∈ chainPositions X M) :
    z ∈ downList X M x ↔ posHas X M z x := by
  have hx1 := (mem_chainPositions.mp hx).1
  unfold downList
  constructor
  · intro h
    rw [posHas_iff]
    split at h
    · next hp =>
      rw [List.mem_append, List.mem_append, mem_map_mk, mem_map_mk, mem_rowsDown, mem_rowsDown] at h
      rcases h with ⟨h1, -, h2⟩ | h | ⟨h1, -, h2⟩
      · exact Or.inr (Or.inr (Or.inl ⟨h1, hp, h2⟩))
      · split at h
        · next hlt =>
          rw [mem_map_mk, mem_rowsDown] at h
          exact Or.inr (Or.inr (Or.inr ⟨h.1, by omega, h.2.2⟩))
        · cases h
      · exact Or.inl ⟨h1, by omega, h2⟩
    · rw [mem_map_mk, mem_rowsDown] at h
      exact Or.inr (Or.inl ⟨h.1, by omega, h.2.2⟩)
  · intro h
    have hz := (mem_chainPositions.mp (posHas_mem hX h).1).2
    unfold chainN at hz
    rcases posHas_iff.mp h with ⟨h1, h2, h3⟩ | ⟨h1, h2, h3⟩ | ⟨h1, h2, h3⟩ | ⟨h1, h2, h3⟩
    · rw [if_pos h2, h1] at hz
      rw [if_pos (by omega), List.mem_append, List.mem_append, mem_map_mk, mem_map_mk, mem_rowsDown, mem_rowsDown]
      exact Or.inr (Or.inr ⟨h1, hz, h3⟩)
    · rw [if_neg (by omega)] at hz
      rw [if_neg (by omega), mem_map_mk, mem_rowsDown]
      exact ⟨h1, hz, h3⟩
    · rw [if_neg (by omega)] at hz
      rw [if_pos h2, List.mem_append, mem_map_mk, mem_rowsDown]
      exact Or.inl ⟨h1, hz, h3⟩
    · rw [if_pos h2, h1] at hz
      rw [if_pos (by omega), List.mem_append, List.mem_append, if_pos (by omega), mem_map_mk, mem_map_mk, mem_rowsDown,
        mem_rowsDown]
      exact Or.inr (Or.inl ⟨h1, hz, h3⟩)

theorem map_mk_sorted {off : Nat → Nat} {p : Nat} {js : List Nat} (h : js.Pairwise (· > ·)) :
    ((js.map (Sigma.mk p)).map (placeAt off)).Pairwise (· > ·) := by
  rw [List.map_map, List.pairwise_map]
  refine h.imp fun {a b} hab => ?_
  show off p + a > off p + b
  omega

theorem downList_sorted (hX : X.Ok M) {off : Nat → Nat} (hO : Offsets X M off) {x : Σ _ : Nat, Nat}
    (hx : x ∈ chainPositions X M) : ((downList X M x).map (placeAt off)).Pairwise (· > ·) := by
  have hmem : ∀ z ∈ downList X M x, z ∈ chainPositions X M := fun z hz =>
    (posHas_mem hX ((mem_downList hX hx).mp hz)).1
  unfold downList at hmem ⊢
  split
  · next hp =>
    rw [if_pos hp] at hmem
    rw [List.map_append, List.map_append, List.pairwise_append, List.pairwise_append]
    refine ⟨map_mk_sorted (rowsDown_sorted _ _ _), ⟨?_, map_mk_sorted (rowsDown_sorted _ _ _), ?_⟩, ?_⟩
    · split
      · exact map_mk_sorted (rowsDown_sorted _ _ _)
      · exact List.Pairwise.nil
    · intro a ha b hb
      obtain ⟨y, hy, rfl⟩ := List.mem_map.mp ha
      obtain ⟨z, hz, rfl⟩ := List.mem_map.mp hb
      refine hO.lt (hmem z (List.mem_append_right _ (List.mem_append_right _ hz)))
        (hmem y (List.mem_append_right _ (List.mem_append_left _ hy))) (Or.inl ?_)
      rw [(mem_map_mk.mp hz).1]
      split at hy
      · rw [(mem_map_mk.mp hy).1]
        omega
      · cases hy
    · intro a ha b hb
      rw [← List.map_append] at hb
      obtain ⟨y, hy, rfl⟩ := List.mem_map.mp ha
      obtain ⟨z, hz, rfl⟩ := List.mem_map.mp hb
      refine hO.lt (hmem z (List.mem_append_right _ hz)) (hmem y (List.mem_append_left _ hy)) (Or.inl ?_)
      rw [(mem_map_mk.mp hy).1]
      rcases List.mem_append.mp hz with hz | hz
      · split at hz
        · rw [(mem_map_mk.mp hz).1]
          omega
        · cases hz
      · rw [(mem_map_mk.mp hz).1]
        omega
  · exact map_mk_sorted (rowsDown_sorted _ _ _)

/-- The entries of a column of the assembled matrix. -/
theorem ChainAssembles.down (hX : X.Ok M) {off : Nat → Nat} (hO : Offsets X M off) {c : Csr} (hc : ChainAssembles X M off c)
    {x : Σ _ : Nat, Nat} (hx : x ∈ chainPositions X M) :
    rowsDown c (placeAt off x) 0 (off (M + 1) + X.nO) = (downList X M x).map (placeAt off) ∧
      ∀ z ∈ downList X M x, z ∈ chainPositions X M ∧ posHas X M z x := by
  refine ⟨descending_ext (rowsDown_sorted _ _ _) (downList_sorted hX hO hx) fun k => ?_, fun z hz => ?_⟩
  · rw [mem_rowsDown, List.mem_map]
    constructor
    · rintro ⟨h1, h2⟩
      obtain ⟨z, hz, rfl⟩ := hO.surj h1
      exact ⟨z, (mem_downList hX hx).mpr ((hc.has _ hz _ hx).mp h2), rfl⟩
    · rintro ⟨z, hz, rfl⟩
      have h1 := (mem_downList hX hx).mp hz
      have h2 := (posHas_mem hX h1).1
      exact ⟨hO.lt_total h2, (hc.has _ h2 _ hx).mpr h1⟩
  · have h1 := (mem_downList hX hx).mp hz
    exact ⟨(posHas_mem hX h1).1, h1⟩

end

section

variable {K : Type} [Zero K] [Sub K] [Mul K] [Div K] {s : ArrowheadSparsity} {T : ArrowheadTypes} {d : Dims} {N : Nat}
  {f : ArrowheadFactor K}

/-- Block at a position of the chain. -/
def blkAt (N p : Nat) : Blk :=
  if p = 0 then .start else if p ≤ N + 1 then .tridiag (p - 1) else if p = N + 2 then .link else .outer

theorem blkAt_rank {a : Blk} (ha : a ∈ blocks N) : blkAt N (a.rank N) = a := by
  unfold blkAt
  cases a with
  | start => rfl
  | tridiag t =>
    have := mem_blocks.mp ha t rfl
    show (if t + 1 = 0 then _ else if t + 1 ≤ N + 1 then _ else _) = _
    rw [if_neg (by omega), if_pos (by omega)]
    rfl
  | link =>
    show (if N + 2 = 0 then _ else if N + 2 ≤ N + 1 then _ else if N + 2 = N + 2 then _ else _) = _
    rw [if_neg (by omega), if_neg (by omega), if_pos rfl]
  | outer =>
    show (if N + 3 = 0 then _ else if N + 3 ≤ N + 1 then _ else if N + 3 = N + 2 then _ else _) = _
    rw [if_neg (by omega), if_neg (by omega), if_neg (by omega)]

/-- A component of a vector in the order of elimination, by position in the chain. -/
def chainAt (s : ArrowheadSparsity) (N : Nat) (v : ArrowheadVector K) (x : Σ _ : Nat, Nat) : K :=
  permAt' s v ⟨blkAt N x.1, x.2⟩

omit [Sub K] [Mul K] [Div K] in
theorem chainAt_rank (v : ArrowheadVector K) {a : Blk} (ha : a ∈ blocks N) (i : Nat) :
    chainAt s N v ⟨a.rank N, i⟩ = permAt' s v ⟨a, i⟩ := by
  unfold chainAt
  dsimp only
  rw [blkAt_rank ha]

variable (f) in
/-- Entries of the factors. -/
abbrev entryAt (T : ArrowheadTypes) (d : Dims) (N : Nat) : (Σ _ : Nat, Nat) → (Σ _ : Nat, Nat) → K :=
  posVal (chainPat T d N) (N + 2) (f.chainVals N)

/-- The terms of a row in a diagonal block. -/
private theorem row_diag (hf : f.Declared s T d N) {a : Blk} (ha : a ∈ blocks N) {g : DiagFactor K}
    (hg : f.diagBlock a = some g) (v : ArrowheadVector K) (i : Nat) (cs : List Nat) (x : K) :
    subAll (cs.map (Sigma.mk (a.rank N))) (fun z => entryAt f T d N ⟨a.rank N, i⟩ z * chainAt s N v z) x =
      subAll cs (fun j => g.l i j * permAt' s v ⟨a, j⟩) x := by
  rw [subAll_sigma]
  refine subAll_congr (fun j _ => ?_) x
  rw [chainAt_rank v ha]
  congr 1
  have := storedAt_chainPos hf (k := ⟨a, i⟩) (l := ⟨a, j⟩) ha ha
  refine this.symm.trans ?_
  unfold ArrowheadFactor.storedAt
  dsimp only
  rw [if_pos rfl, hg]
  rfl

/-- The terms of a row in an off-diagonal block. -/
private theorem row_sub (hf : f.Declared s T d N) {a b : Blk} (ha : a ∈ blocks N) (hb : b ∈ blocks N) {g : SubFactor K}
    (hg : f.lowerBlock N a b = some g) (hab : a ≠ b) (v : ArrowheadVector K) (i : Nat) (cs : List Nat) (x : K) :
    subAll (cs.map (Sigma.mk (b.rank N))) (fun z => entryAt f T d N ⟨a.rank N, i⟩ z * chainAt s N v z) x =
      subAll cs (fun j => g.l i j * permAt' s v ⟨b, j⟩) x := by
  rw [subAll_sigma]
  refine subAll_congr (fun j _ => ?_) x
  rw [chainAt_rank v hb]
  congr 1
  have := storedAt_chainPos hf (k := ⟨a, i⟩) (l := ⟨b, j⟩) ha hb
  refine this.symm.trans ?_
  unfold ArrowheadFactor.storedAt
  dsimp only
  rw [if_neg hab, hg]
  rfl

/-- The terms of a column in a diagonal block. -/
private theorem col_diag (hf : f.Declared s T d N) {a : Blk} (ha : a ∈ blocks N) {g : DiagFactor K}
    (hg : f.diagBlock a = some g) (v : ArrowheadVector K) (i : Nat) (cs : List Nat) (x : K) :
    subAll (cs.map (Sigma.mk (a.rank N))) (fun z => entryAt f T d N z ⟨a.rank N, i⟩ * chainAt s N v z) x =
      subAll cs (fun j => g.l j i * permAt' s v ⟨a, j⟩) x := by
  rw [subAll_sigma]
  refine subAll_congr (fun j _ => ?_) x
  rw [chainAt_rank v ha]
  congr 1
  have := storedAt_chainPos hf (k := ⟨a, j⟩) (l := ⟨a, i⟩) ha ha
  refine this.symm.trans ?_
  unfold ArrowheadFactor.storedAt
  dsimp only
  rw [if_pos rfl, hg]
  rfl

/-- The terms of a column in an off-diagonal block. -/
private theorem col_sub (hf : f.Declared s T d N) {a b : Blk} (ha : a ∈ blocks N) (hb : b ∈ blocks N) {g : SubFactor K}
    (hg : f.lowerBlock N a b = some g) (hab : a ≠ b) (v : ArrowheadVector K) (i : Nat) (cs : List Nat) (x : K) :
    subAll (cs.map (Sigma.mk (a.rank N))) (fun z => entryAt f T d N z ⟨b.rank N, i⟩ * chainAt s N v z) x =
      subAll cs (fun j => g.l j i * permAt' s v ⟨a, j⟩) x := by
  rw [subAll_sigma]
  refine subAll_congr (fun j _ => ?_) x
  rw [chainAt_rank v ha]
  congr 1
  have := storedAt_chainPos hf (k := ⟨a, j⟩) (l := ⟨b, i⟩) ha hb
  refine this.symm.trans ?_
  unfold ArrowheadFactor.storedAt
  dsimp only
  rw [if_neg hab, hg]
  rfl

omit [Zero K] [Sub K] [Mul K] [Div K] in
private theorem getD_blocks (hf : f.Declared s T d N) :
    (∀ t < N + 1, f.diagBlock (.tridiag t) = some (f.tridiagDiag.getD t f.startDiag)) ∧
    (∀ t < N, f.lowerBlock N (.tridiag (t + 1)) (.tridiag t) = some (f.tridiagSubdiag.getD t f.startNext)) ∧
    ∀ t < N + 1, f.lowerBlock N .outer (.tridiag t) = some (f.outerSubdiag.getD t f.startOuter) := by
  refine ⟨fun t ht => ?_, fun t ht => ?_, fun t ht => ?_⟩
  · have h : t < f.tridiagDiag.length := by rw [hf.numDiag]; exact ht
    simp [ArrowheadFactor.diagBlock, h]
  · have h : t < f.tridiagSubdiag.length := by rw [hf.numSubdiag]; exact ht
    simp [ArrowheadFactor.lowerBlock, h, ht]
  · have h : t < f.outerSubdiag.length := by rw [hf.numOuter]; exact ht
    simp [ArrowheadFactor.lowerBlock, h, show t ≤ N by omega]

private theorem chainPat_parts (T : ArrowheadTypes) (d : Dims) (N : Nat) :
    (chainPat T d N).cS 0 = T.startNext ∧ (∀ {t}, t < N + 1 → (chainPat T d N).cD (t + 1) = T.tridiagDiag) ∧
    (∀ {t}, t < N → (chainPat T d N).cS (t + 1) = T.tridiagSubdiag) ∧
    (∀ {t}, t < N + 1 → (chainPat T d N).cO (t + 1) = T.outerSubdiag) ∧
    (chainPat T d N).cD (N + 1 + 1) = T.linkDiag ∧ (chainPat T d N).cS (N + 1) = T.linkPrev ∧
    (chainPat T d N).cO (N + 1 + 1) = T.linkNext :=
  ⟨rfl, fun h => by simp only [chainPat, sel_succ h], fun h => by simp only [chainPat, sel_succ h],
    fun h => by simp only [chainPat, sel_succ h], by simp only [chainPat, sel_last (Nat.le_refl (N + 1))],
    by simp only [chainPat, sel_last (Nat.le_refl N)], by simp only [chainPat, sel_last (Nat.le_refl (N + 1))]⟩

/-- Forward substitution of a repeating block matrix, in the order of the operations. -/
theorem forwardSolve_chain (hs : s.Valid d) (hT : TypesOk s T d) (hf : f.Declared s T d N)
    {rhs : ArrowheadVector K} (hr : rhs.OfSize d N) :
    Sat (f.forwardSolve rhs) fun v => v.OfSize d N ∧ ∀ x ∈ chainPositions (chainPat T d N) (N + 2),
      chainAt s N v x = subAll (pivList (chainPat T d N) (N + 2) x)
        (fun z => entryAt f T d N x z * chainAt s N v z) (chainAt s N rhs x) := by
  obtain ⟨hDt, hSt, hOt⟩ := getD_ofType' hf
  obtain ⟨hDb, hSb, hOb⟩ := getD_blocks hf
  obtain ⟨cS0, cD, cS, cO, cDl, cSl, cOl⟩ := chainPat_parts T d N
  refine Sat.mono (forwardSolve_steps hs hT hf hr) ?_
  rintro v ⟨hv, os, o, st, los, lo⟩
  refine ⟨hv, fun x hx => ?_⟩
  obtain ⟨⟨a, i⟩, hk, rfl⟩ := exists_chainPos hx
  obtain ⟨ha, hi⟩ := mem_positions.mp hk
  dsimp only at ha hi
  unfold chainPos
  dsimp only
  rw [chainAt_rank v ha, chainAt_rank rhs ha]
  rcases a with _ | (_ | t) | _ | _
  · obtain ⟨-, h2⟩ := Sat.of_ok (forwardInPlace_sat (hf.startDiag.diagOk hT.startDiag hT.lowStart hs.permStart)
      (by rw [hf.startDiag.perm]; exact hs.permStart) hr.start) st.start
    rw [hf.startDiag.perm] at h2
    show _ = subAll (pivList _ _ ⟨0, i⟩) _ _
    rw [pivList_first]
    refine (h2 i hi).trans (Eq.trans ?_ (row_diag hf ha (g := f.startDiag) rfl v i _ _).symm)
    rw [hf.startDiag.pattern]
    rfl
  · obtain ⟨-, h2⟩ := Sat.of_ok (forwardLeft_sat ((hDt 0 (by omega)).diagOk hT.tridiagDiag hT.lowTridiag hs.permTridiag)
      (by rw [(hDt 0 (by omega)).perm]; exact hs.permTridiag) (hf.startNext.subOk hT.startNext hs.permTridiag hs.permStart)
      (by rw [hf.startNext.permRow, (hDt 0 (by omega)).perm]) (by rw [hf.startNext.permCol]; exact hs.permStart)
      (hr.block (by omega)) hv.start) st.first
    rw [(hDt 0 (by omega)).perm, hf.startNext.permCol] at h2
    show _ = subAll (pivList _ _ ⟨0 + 1, i⟩) _ _
    rw [pivList_D (by omega), subAll_append, cD (by omega), cS0]
    refine (h2 i hi).trans (Eq.trans ?_ (row_diag hf ha (hDb 0 (by omega)) v i _ _).symm)
    refine Eq.trans ?_ (congrArg _ (row_sub hf ha start_mem (a := .tridiag 0) (b := .start) (g := f.startNext) rfl (by simp)
      v i _ _).symm)
    rw [hf.startNext.pattern, (hDt 0 (by omega)).pattern]
    rfl
  · have ht := mem_blocks.mp ha _ rfl
    obtain ⟨-, h2⟩ := Sat.of_ok (forwardLeft_sat ((hDt (t + 1) ht).diagOk hT.tridiagDiag hT.lowTridiag hs.permTridiag)
      (by rw [(hDt (t + 1) ht).perm]; exact hs.permTridiag)
      ((hSt t (by omega)).subOk hT.tridiagSubdiag hs.permTridiag hs.permTridiag)
      (by rw [(hSt t (by omega)).permRow, (hDt (t + 1) ht).perm]) (by rw [(hSt t (by omega)).permCol]; exact hs.permTridiag)
      (hr.block ht) (hv.block (by omega))) (st.next t (by omega))
    rw [(hDt (t + 1) ht).perm, (hSt t (by omega)).permCol] at h2
    show _ = subAll (pivList _ _ ⟨t + 1 + 1, i⟩) _ _
    rw [pivList_D (by omega), subAll_append, cD ht, cS (by omega)]
    refine (h2 i hi).trans (Eq.trans ?_ (row_diag hf ha (hDb (t + 1) ht) v i _ _).symm)
    refine Eq.trans ?_ (congrArg _ (row_sub hf ha (tridiag_mem (by omega)) (a := .tridiag (t + 1)) (b := .tridiag t)
      (hSb t (by omega)) (by simp) v i _ _).symm)
    rw [(hSt t (by omega)).pattern, (hDt (t + 1) ht).pattern]
    rfl
  · obtain ⟨-, h2⟩ := Sat.of_ok (forwardLeft_sat (hf.linkDiag.diagOk hT.linkDiag hT.lowLink hs.permLink)
      (by rw [hf.linkDiag.perm]; exact hs.permLink) (hf.linkPrev.subOk hT.linkPrev hs.permLink hs.permTridiag)
      (by rw [hf.linkPrev.permRow, hf.linkDiag.perm]) (by rw [hf.linkPrev.permCol]; exact hs.permTridiag)
      hr.link (hv.block (by omega))) st.link
    rw [hf.linkDiag.perm, hf.linkPrev.permCol] at h2
    show _ = subAll (pivList _ _ ⟨N + 1 + 1, i⟩) _ _
    rw [pivList_D (by omega), subAll_append, cDl, cSl]
    refine (h2 i hi).trans (Eq.trans ?_ (row_diag hf ha (g := f.linkDiag) rfl v i _ _).symm)
    refine Eq.trans ?_ (congrArg _ (row_sub hf ha (tridiag_mem (by omega)) (a := .link) (b := .tridiag N) (g := f.linkPrev)
      (by simp [ArrowheadFactor.lowerBlock]) (by simp) v i _ _).symm)
    rw [hf.linkPrev.pattern, hf.linkDiag.pattern]
    rfl
  · obtain ⟨-, g0⟩ := Sat.of_ok (forward_sat (hf.startOuter.subOk hT.startOuter hs.permOuter hs.permStart)
      (by rw [hf.startOuter.permRow]; exact hs.permOuter) (by rw [hf.startOuter.permCol]; exact hs.permStart) hv.start hr.outer) st.outer0
    rw [hf.startOuter.permRow, hf.startOuter.permCol] at g0
    have hrep : ∀ m ≤ N + 1, (os m).getD (permAt s.outer.permutation i) 0 =
        subAll (sigmaList (fun r => ((chainPat T d N).cO r).cols i) (m + 1))
          (fun z => entryAt f T d N ⟨Blk.rank N .outer, i⟩ z * chainAt s N v z) (permAt' s rhs ⟨.outer, i⟩) := by
      intro m
      induction m with
      | zero =>
        intro _
        rw [sigmaList_succ]
        refine (g0 i hi).trans (Eq.trans ?_ (row_sub hf ha start_mem (a := .outer) (b := .start) (g := f.startOuter) rfl (by simp)
          v i _ _).symm)
        rw [hf.startOuter.pattern]
        rfl
      | succ m ih =>
        intro hm
        obtain ⟨-, g1⟩ := Sat.of_ok (forward_sat ((hOt m (by omega)).subOk hT.outerSubdiag hs.permOuter hs.permTridiag)
          (by rw [(hOt m (by omega)).permRow]; exact hs.permOuter)
          (by rw [(hOt m (by omega)).permCol]; exact hs.permTridiag) (hv.block (by omega)) (los m (by omega)))
          (st.outer1 m (by omega))
        rw [(hOt m (by omega)).permRow, (hOt m (by omega)).permCol] at g1
        rw [sigmaList_succ, subAll_append, ← ih (by omega), cO (by omega)]
        refine (g1 i hi).trans (Eq.trans ?_ (row_sub hf ha (tridiag_mem (by omega)) (a := .outer) (b := .tridiag m)
          (hOb m (by omega)) (by simp) v i _ _).symm)
        rw [(hOt m (by omega)).pattern]
        rfl
    obtain ⟨-, g2⟩ := Sat.of_ok (forward_sat (hf.linkNext.subOk hT.linkNext hs.permOuter hs.permLink)
      (by rw [hf.linkNext.permRow]; exact hs.permOuter) (by rw [hf.linkNext.permCol]; exact hs.permLink) hv.link
      (los (N + 1) (by omega))) st.outer2
    rw [hf.linkNext.permRow, hf.linkNext.permCol] at g2
    obtain ⟨-, g3⟩ := Sat.of_ok (forwardInPlace_sat (hf.outerDiag.diagOk hT.outerDiag hT.lowOuter hs.permOuter)
      (by rw [hf.outerDiag.perm]; exact hs.permOuter) lo) st.outer3
    rw [hf.outerDiag.perm] at g3
    show _ = subAll (pivList _ _ ⟨N + 2 + 1, i⟩) _ _
    rw [pivList_E, subAll_append, sigmaList_succ, subAll_append, cOl]
    refine (g3 i hi).trans (Eq.trans ?_ (row_diag hf ha (g := f.outerDiag) rfl v i _ _).symm)
    refine Eq.trans ?_ (congrArg _ (row_sub hf ha link_mem (a := .outer) (b := .link) (g := f.linkNext) rfl (by simp)
      v i _ _).symm)
    refine Eq.trans ?_ (congrArg _ (congrArg _ (hrep (N + 1) le_rfl)))
    rw [hf.outerDiag.pattern]
    refine congrArg _ ((g2 i hi).trans ?_)
    rw [hf.linkNext.pattern]
    rfl

/-- Backward substitution of a repeating block matrix, in the order of the operations. -/
theorem backwardSolve_chain (hs : s.Valid d) (hT : TypesOk s T d) (hf : f.Declared s T d N)
    {rhs : ArrowheadVector K} (hr : rhs.OfSize d N) :
    Sat (f.backwardSolve rhs) fun v => v.OfSize d N ∧ ∀ x ∈ chainPositions (chainPat T d N) (N + 2),
      chainAt s N v x = subAll (downList (chainPat T d N) (N + 2) x)
        (fun z => entryAt f T d N z x * chainAt s N v z) (chainAt s N rhs x) := by
  obtain ⟨hDt, hSt, hOt⟩ := getD_ofType' hf
  obtain ⟨hDb, hSb, hOb⟩ := getD_blocks hf
  obtain ⟨cS0, cD, cS, cO, cDl, cSl, cOl⟩ := chainPat_parts T d N
  have nT : ∀ {t}, t < N + 1 → (chainPat T d N).n (t + 1) = d.tridiag := fun ht => by simp only [chainPat, sel_succ ht]
  have nL : (chainPat T d N).n (N + 1 + 1) = d.link := by simp only [chainPat, sel_last (Nat.le_refl (N + 1))]
  refine Sat.mono (backwardSolve_steps hs hT hf hr) ?_
  rintro v ⟨hv, l, ts, us, x1, x2, st, ll, lts, lus, ls1, ls2⟩
  refine ⟨hv, fun x hx => ?_⟩
  obtain ⟨⟨a, i⟩, hk, rfl⟩ := exists_chainPos hx
  obtain ⟨ha, hi⟩ := mem_positions.mp hk
  dsimp only at ha hi
  unfold chainPos
  dsimp only
  rw [chainAt_rank v ha, chainAt_rank rhs ha]
  unfold downList
  dsimp only
  cases a with
  | start =>
    obtain ⟨-, g1⟩ := Sat.of_ok (backward_sat (hf.startOuter.subOk hT.startOuter hs.permOuter hs.permStart)
      (by rw [hf.startOuter.permRow]; exact hs.permOuter) (by rw [hf.startOuter.permCol]; exact hs.permStart) hv.outer hr.start)
      st.start1
    rw [hf.startOuter.permRow, hf.startOuter.permCol] at g1
    obtain ⟨-, g2⟩ := Sat.of_ok (backward_sat (hf.startNext.subOk hT.startNext hs.permTridiag hs.permStart)
      (by rw [hf.startNext.permRow]; exact hs.permTridiag) (by rw [hf.startNext.permCol]; exact hs.permStart)
      (hv.block (by omega)) ls1) st.start2
    rw [hf.startNext.permRow, hf.startNext.permCol] at g2
    obtain ⟨-, g3⟩ := Sat.of_ok (backwardInPlace_sat (hf.startDiag.diagOk hT.startDiag hT.lowStart hs.permStart)
      (by rw [hf.startDiag.perm]; exact hs.permStart) ls2) st.start3
    rw [hf.startDiag.perm] at g3
    have e : Blk.rank N .start = 0 := rfl
    rw [if_pos (by rw [e]; omega), if_pos (by rw [e]; omega), subAll_append, subAll_append]
    simp only [e, Nat.zero_add]
    refine (g3 i hi).trans (Eq.trans ?_ (col_diag hf ha (g := f.startDiag) rfl v i _ _).symm)
    refine Eq.trans ?_ (congrArg _ (col_sub hf (tridiag_mem (by omega)) ha (a := .tridiag 0) (b := .start) (g := f.startNext) rfl
      (by simp) v i _ _).symm)
    refine Eq.trans ?_ (congrArg _ (congrArg _ (col_sub hf outer_mem ha (a := .outer) (b := .start) (g := f.startOuter) rfl
      (by simp) v i _ _).symm))
    rw [hf.startDiag.pattern]
    refine congrArg _ ((g2 i hi).trans ?_)
    rw [hf.startNext.pattern, cS0, ← nT (t := 0) (by omega)]
    refine congrArg _ ((g1 i hi).trans ?_)
    rw [hf.startOuter.pattern]
    rfl
  | link =>
    obtain ⟨-, g1⟩ := Sat.of_ok (backward_sat (hf.linkNext.subOk hT.linkNext hs.permOuter hs.permLink)
      (by rw [hf.linkNext.permRow]; exact hs.permOuter) (by rw [hf.linkNext.permCol]; exact hs.permLink) hv.outer hr.link)
      st.link1
    rw [hf.linkNext.permRow, hf.linkNext.permCol] at g1
    obtain ⟨-, g3⟩ := Sat.of_ok (backwardInPlace_sat (hf.linkDiag.diagOk hT.linkDiag hT.lowLink hs.permLink)
      (by rw [hf.linkDiag.perm]; exact hs.permLink) ll) st.link2
    rw [hf.linkDiag.perm] at g3
    have e : Blk.rank N .link = N + 1 + 1 := rfl
    rw [if_pos (by rw [e]), if_neg (by rw [e]; omega), List.nil_append, subAll_append, e, cDl, cOl, nL]
    refine (g3 i hi).trans (Eq.trans ?_ (col_diag hf ha (g := f.linkDiag) rfl v i _ _).symm)
    refine Eq.trans ?_ (congrArg _ (col_sub hf outer_mem ha (a := .outer) (b := .link) (g := f.linkNext) rfl
      (by simp) v i _ _).symm)
    rw [hf.linkDiag.pattern]
    refine congrArg _ ((g1 i hi).trans ?_)
    rw [hf.linkNext.pattern]
    rfl
  | outer =>
    obtain ⟨-, g3⟩ := Sat.of_ok (backwardInPlace_sat (hf.outerDiag.diagOk hT.outerDiag hT.lowOuter hs.permOuter)
      (by rw [hf.outerDiag.perm]; exact hs.permOuter) hr.outer) st.outer
    rw [hf.outerDiag.perm] at g3
    have e : Blk.rank N .outer = N + 2 + 1 := rfl
    rw [if_neg (by rw [e]; omega)]
    refine (g3 i hi).trans (Eq.trans ?_ (col_diag hf ha (g := f.outerDiag) rfl v i _ _).symm)
    rw [hf.outerDiag.pattern]
    rfl
  | tridiag t =>
    have ht := mem_blocks.mp ha t rfl
    obtain ⟨-, g1⟩ := Sat.of_ok (backward_sat ((hOt t ht).subOk hT.outerSubdiag hs.permOuter hs.permTridiag)
      (by rw [(hOt t ht).permRow]; exact hs.permOuter) (by rw [(hOt t ht).permCol]; exact hs.permTridiag) hv.outer
      (hr.block ht)) (st.tridiag1 t ht)
    rw [(hOt t ht).permRow, (hOt t ht).permCol] at g1
    obtain ⟨-, g3⟩ := Sat.of_ok (backwardInPlace_sat ((hDt t ht).diagOk hT.tridiagDiag hT.lowTridiag hs.permTridiag)
      (by rw [(hDt t ht).perm]; exact hs.permTridiag) (lus t ht)) (st.tridiag3 t ht)
    rw [(hDt t ht).perm] at g3
    have e : Blk.rank N (.tridiag t) = t + 1 := rfl
    rw [if_pos (by rw [e]; omega), if_pos (by rw [e]; omega), subAll_append, subAll_append, e, cD ht, cO ht, nT ht]
    refine (g3 i hi).trans (Eq.trans ?_ (col_diag hf ha (hDb t ht) v i _ _).symm)
    rw [(hDt t ht).pattern]
    by_cases htN : t = N
    · subst htN
      obtain ⟨-, g2⟩ := Sat.of_ok (backward_sat (hf.linkPrev.subOk hT.linkPrev hs.permLink hs.permTridiag)
        (by rw [hf.linkPrev.permRow]; exact hs.permLink) (by rw [hf.linkPrev.permCol]; exact hs.permTridiag) hv.link
        (lts t ht)) st.last
      rw [hf.linkPrev.permRow, hf.linkPrev.permCol] at g2
      rw [cSl, nL]
      refine Eq.trans ?_ (congrArg _ (col_sub hf link_mem ha (a := .link) (b := .tridiag t) (g := f.linkPrev)
        (by simp [ArrowheadFactor.lowerBlock]) (by simp) v i _ _).symm)
      refine Eq.trans ?_ (congrArg _ (congrArg _ (col_sub hf outer_mem ha (a := .outer) (b := .tridiag t) (hOb t ht)
        (by simp) v i _ _).symm))
      refine congrArg _ ((g2 i hi).trans ?_)
      rw [hf.linkPrev.pattern]
      refine congrArg _ ((g1 i hi).trans ?_)
      rw [(hOt t ht).pattern]
      rfl
    · have ht' : t < N := by omega
      obtain ⟨-, g2⟩ := Sat.of_ok (backward_sat ((hSt t ht').subOk hT.tridiagSubdiag hs.permTridiag hs.permTridiag)
        (by rw [(hSt t ht').permRow]; exact hs.permTridiag) (by rw [(hSt t ht').permCol]; exact hs.permTridiag)
        (hv.block (by omega)) (lts t ht)) (st.tridiag2 t ht')
      rw [(hSt t ht').permRow, (hSt t ht').permCol] at g2
      rw [cS ht', nT (t := t + 1) (by omega)]
      refine Eq.trans ?_ (congrArg _ (col_sub hf (tridiag_mem (by omega)) ha (a := .tridiag (t + 1)) (b := .tridiag t)
        (hSb t ht') (by simp) v i _ _).symm)
      refine Eq.trans ?_ (congrArg _ (congrArg _ (col_sub hf outer_mem ha (a := .outer) (b := .tridiag t) (hOb t ht)
        (by simp) v i _ _).symm))
      refine congrArg _ ((g2 i hi).trans ?_)
      rw [(hSt t ht').pattern]
      refine congrArg _ ((g1 i hi).trans ?_)
      rw [(hOt t ht).pattern]
      rfl

variable {S : Sparsity} {P : List Nat}

omit [Sub K] [Mul K] [Div K] in
/-- The components of the vector of all blocks. -/
theorem atp_flat (hA : S.Assembles P s T d N) (hs : s.Valid d) {v : ArrowheadVector K} (hv : v.OfSize d N)
    {k : Σ _ : Blk, Nat} (hk : k ∈ positions d N) : atp P v.flat (d.place N k) = chainAt s N v (chainPos N k) := by
  have hp := mem_positions.mp ((permPos_facts hs N).1 k hk)
  unfold atp chainPos
  rw [hA.order k hk, chainAt_rank v (mem_positions.mp hk).1]
  exact flat_at hv ⟨hp.1, hp.2, rfl⟩

omit [Sub K] [Mul K] [Div K] in
theorem flat_ext (hA : S.Assembles P s T d N) (hs : s.Valid d) {v : ArrowheadVector K} (hv : v.OfSize d N) {w : List K}
    (hw : w.length = d.total N) (h : ∀ k ∈ positions d N, atp P w (d.place N k) = chainAt s N v (chainPos N k)) :
    w = v.flat := by
  have hl := flat_length hv
  refine List.ext_getElem (by rw [hw, hl]) fun r h1 h2 => ?_
  obtain ⟨k, hk, rfl⟩ := exists_place (d := d) (N := N) (by rw [← hw]; exact h1) T
  obtain ⟨l, hl, rfl⟩ := (permPos_facts hs N).2.2 k hk
  have h3 := (h l hl).trans (atp_flat hA hs hv hl).symm
  unfold atp at h3
  rw [hA.order l hl] at h3
  change w.getD (d.place N (s.permPos l)) 0 = v.flat.getD (d.place N (s.permPos l)) 0 at h3
  rwa [List.getD_eq_getElem _ _ h1, List.getD_eq_getElem _ _ h2] at h3

/-- Solving with the same factors gives the same solution. -/
theorem assembled_solve (hs : s.Valid d) (hf : f.Declared s T d N) (hv : ValidSparsity S P) {g : DiagFactor K}
    (hg : g.Declared S P) (hA : S.Assembles P s T d N)
    (hl : ∀ k ∈ positions d N, ∀ l ∈ positions d N, g.lower (d.place N k) (d.place N l) = f.storedAt N k l)
    (hp : ∀ k ∈ positions d N, g.pivot (d.place N k) = f.pivotAt k.1 k.2)
    {b : ArrowheadVector K} (hb : b.OfSize d N) :
    ∃ x, f.solveInPlace b = .ok x ∧ x.OfSize d N ∧ g.solveInPlace b.flat = .ok x.flat := by
  obtain ⟨T', h0, hT⟩ := arrowheadTypes_sat hs
  rw [hf.types] at h0
  cases h0
  have hX := chainPat_ok hT N
  have hO := chainOff_offsets T d N
  have hc := (hg.closed1 hv).1
  have hcsr := hA.csr hv hg
  have hplaced := hcsr.placed hX hO
  have hperm := hg.perm
  have hcp : IsPerm g.permutation S.numRows := hc.perm
  have htot : chainOff d N (N + 2 + 1) + (chainPat T d N).nO = S.numRows := (chainOff_total T d N).trans hA.size.symm
  have hlt : ∀ x ∈ chainPositions (chainPat T d N) (N + 2), placeAt (chainOff d N) x < S.numRows := fun x hx => by
    rw [← htot]
    exact hO.lt_total hx
  have hL : ∀ x ∈ chainPositions (chainPat T d N) (N + 2), ∀ y, posHas (chainPat T d N) (N + 2) x y →
      g.l (placeAt (chainOff d N) x) (placeAt (chainOff d N) y) = entryAt f T d N x y := by
    intro x hx y hxy
    obtain ⟨k, hk, rfl⟩ := exists_chainPos hx
    obtain ⟨l, hl', rfl⟩ := exists_chainPos (posHas_mem hX hxy).2.1
    have k1 := (mem_positions.mp hk).1
    have l1 := (mem_positions.mp hl').1
    rw [← place_eq k1, ← place_eq l1]
    exact (hl k hk l hl').trans (storedAt_chainPos hf k1 l1)
  have hflat : ∀ {v : ArrowheadVector K}, v.OfSize d N → ∀ x ∈ chainPositions (chainPat T d N) (N + 2),
      atp P v.flat (placeAt (chainOff d N) x) = chainAt s N v x := by
    intro v hv x hx
    obtain ⟨k, hk, rfl⟩ := exists_chainPos hx
    rw [← place_eq (mem_positions.mp hk).1]
    exact atp_flat hA hs hv hk
  have hlen : ∀ {v : ArrowheadVector K}, v.OfSize d N → v.flat.length = S.numRows := fun hv =>
    (flat_length hv).trans hA.size.symm
  -- forward substitution
  obtain ⟨y, hy, hyS, hye⟩ := forwardSolve_chain hs hT hf hb
  obtain ⟨y', hy', hyl, hye'⟩ := forwardInPlace_sat hc.ok hcp (hlen hb)
  rw [hperm] at hye'
  obtain rfl : y' = y.flat := flat_ext hA hs hyS (hyl.trans hA.size) fun k hk => by
    rw [place_eq (mem_positions.mp hk).1]
    exact hplaced.forward (v := chainAt s N y) (v' := atp P y') (b := chainAt s N b) (b' := atp P b.flat) hye
      (fun x hx => hye' _ (hlt x hx)) hL (hflat hb) _ (chainPos_mem hk)
  -- division by the pivots
  obtain ⟨z, hz, hzS, hze⟩ := arrowheadDiagonalSolve_sat hs hT hf hyS
  obtain ⟨z', hz', hzl, hze'⟩ := diagonalSolve_sat hc.ok hcp (hlen hyS)
  rw [hperm] at hze'
  obtain rfl : z' = z.flat := flat_ext hA hs hzS (hzl.trans hA.size) fun k hk => by
    obtain ⟨k1, k2⟩ := mem_positions.mp hk
    rw [hze' _ (by rw [hA.size]; exact place_lt hk T), atp_flat hA hs hyS hk]
    unfold chainPos
    rw [chainAt_rank _ k1, chainAt_rank _ k1]
    refine Eq.trans ?_ (hze _ k1 _ k2).symm
    rw [← hp k hk]
    rfl
  -- backward substitution
  obtain ⟨x, hx, hxS, hxe⟩ := backwardSolve_chain hs hT hf hzS
  obtain ⟨x', hx', hxl, hxe'⟩ := backwardInPlace_sat hc.ok hcp (hlen hzS)
  rw [hperm] at hxe'
  obtain rfl : x' = x.flat := flat_ext hA hs hxS (hxl.trans hA.size) fun k hk => by
    rw [place_eq (mem_positions.mp hk).1]
    exact hplaced.backward hlt (down' := fun j => rowsDown g.sparsity j 0 S.numRows)
      (fun x hx => by
        have := hcsr.down hX hO hx
        rwa [htot] at this)
      (v := chainAt s N x) (v' := atp P x') (b := chainAt s N z) (b' := atp P z.flat) hxe
      (fun x hx => hxe' _ (hlt x hx)) hL (hflat hzS) _ (chainPos_mem hk)
  refine ⟨x, ?_, hxS, ?_⟩
  · unfold ArrowheadFactor.solveInPlace
    rw [hy]
    show f.diagonalSolve y >>= _ = _
    rw [hz]
    exact hx
  · unfold DiagFactor.solveInPlace
    rw [hy']
    show g.diagonalSolve y.flat >>= _ = _
    rw [hz']
    exact hx'

end

end Ctldl
