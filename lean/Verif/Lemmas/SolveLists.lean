import Verif.Lemmas.RoundingSolve
import Verif.Lemmas.DefiniteFactor

/-! # The substitutions of repeating block matrices, component by component -/

namespace Ctldl

open Finset

variable {K : Type} [Zero K] [Sub K] [Mul K] [Div K]

omit [Sub K] [Mul K] [Div K] in
theorem lowerElement_stored {F : Type} [Field F] {g : K → F} (hg : g 0 = 0) (f : ArrowheadFactor K) (N : Nat)
    {k l : Σ _ : Blk, Nat} (h : k ≠ l) : (f.map g).lowerElement N k.1 l.1 k.2 l.2 = g (f.storedAt N k l) := by
  obtain ⟨a, i⟩ := k
  obtain ⟨b, j⟩ := l
  unfold ArrowheadFactor.lowerElement ArrowheadFactor.storedAt
  dsimp only
  split
  · next hab =>
    subst hab
    have hij : i ≠ j := fun h' => h (by rw [h'])
    rw [Rounding.diagBlock_map]
    cases f.diagBlock a with
    | none => exact hg.symm
    | some x =>
      simp only [Option.map_some, unitLower, if_neg hij, Option.elim, Rounding.lower_map hg]
  · rw [Rounding.lowerBlock_map]
    cases f.lowerBlock N a b with
    | none => exact hg.symm
    | some x =>
      simp only [Option.map_some, Option.elim, Rounding.entry_map hg]

/-- A part of the terms of one component: `Q` holds for all of them, and the blocks are in the given range. -/
structure Seg (Q : (Σ _ : Blk, Nat) → Prop) (N lo hi m : Nat) (ks : List (Σ _ : Blk, Nat)) : Prop where
  nodup : ks.Nodup
  mem : ∀ l ∈ ks, Q l ∧ lo ≤ l.1.rank N ∧ l.1.rank N < hi
  len : ks.length ≤ m

namespace Seg

variable {Q : (Σ _ : Blk, Nat) → Prop} {N lo mid hi m m' : Nat} {ks ks' : List (Σ _ : Blk, Nat)}

theorem nil : Seg Q N lo hi 0 [] := ⟨List.nodup_nil, fun _ h => absurd h List.not_mem_nil, le_rfl⟩

theorem append (h : Seg Q N lo mid m ks) (h' : Seg Q N mid hi m' ks') (h1 : lo ≤ mid) (h2 : mid ≤ hi) :
    Seg Q N lo hi (m + m') (ks ++ ks') := by
  refine ⟨List.nodup_append'.mpr ⟨h.nodup, h'.nodup, fun l hl hl' => ?_⟩, fun l hl => ?_, ?_⟩
  · have := (h.mem l hl).2.2
    have := (h'.mem l hl').2.1
    omega
  · rcases List.mem_append.mp hl with hl | hl
    · exact ⟨(h.mem l hl).1, (h.mem l hl).2.1, by have := (h.mem l hl).2.2; omega⟩
    · exact ⟨(h'.mem l hl).1, by have := (h'.mem l hl).2.1; omega, (h'.mem l hl).2.2⟩
  · rw [List.length_append]
    exact Nat.add_le_add h.len h'.len

theorem append' (h : Seg Q N mid hi m ks) (h' : Seg Q N lo mid m' ks') (h1 : lo ≤ mid) (h2 : mid ≤ hi) :
    Seg Q N lo hi (m + m') (ks ++ ks') := by
  refine ⟨List.nodup_append'.mpr ⟨h.nodup, h'.nodup, fun l hl hl' => ?_⟩, fun l hl => ?_, ?_⟩
  · have := (h.mem l hl).2.1
    have := (h'.mem l hl').2.2
    omega
  · rcases List.mem_append.mp hl with hl | hl
    · exact ⟨(h.mem l hl).1, by have := (h.mem l hl).2.1; omega, (h.mem l hl).2.2⟩
    · exact ⟨(h'.mem l hl).1, (h'.mem l hl).2.1, by have := (h'.mem l hl).2.2; omega⟩
  · rw [List.length_append]
    exact Nat.add_le_add h.len h'.len

theorem mono (h : Seg Q N lo hi m ks) (hm : m ≤ m') {lo' hi' : Nat} (h1 : lo' ≤ lo) (h2 : hi ≤ hi') :
    Seg Q N lo' hi' m' ks :=
  ⟨h.nodup, fun l hl => ⟨(h.mem l hl).1, by have := (h.mem l hl).2; omega, by have := (h.mem l hl).2; omega⟩,
    h.len.trans hm⟩

/-- Different indices of one block. -/
theorem block {b : Blk} {js : List Nat} (hn : js.Nodup) (hQ : ∀ j ∈ js, Q ⟨b, j⟩) (hm : js.length ≤ m)
    (hlo : lo ≤ b.rank N) (hhi : b.rank N < hi) : Seg Q N lo hi m (js.map (Sigma.mk b)) := by
  refine ⟨hn.map fun i j h => ?_, fun l hl => ?_, by rw [List.length_map]; exact hm⟩
  · cases h
    rfl
  · obtain ⟨j, hj, rfl⟩ := List.mem_map.mp hl
    exact ⟨hQ j hj, hlo, hhi⟩

end Seg

omit [Zero K] [Mul K] [Div K] in
theorem subAll_sigma {ι ι' : Type} (e : ι' → ι) (ks : List ι') (f : ι → K) (a : K) :
    subAll (ks.map e) f a = subAll ks (fun k => f (e k)) a := List.foldl_map

section

variable {f : ArrowheadFactor K} {s : ArrowheadSparsity} {T : ArrowheadTypes} {d : Dims} {N : Nat} {P : K → Prop}

/-- A component of a vector in the order of elimination. -/
def permAt' (s : ArrowheadSparsity) (v : ArrowheadVector K) (k : Σ _ : Blk, Nat) : K := v.at k.1 (permAt (s.perm k.1) k.2)

/-- What holds for the terms of row `k`. -/
def RowTerm (f : ArrowheadFactor K) (d : Dims) (N : Nat) (P : K → Prop) (k l : Σ _ : Blk, Nat) : Prop :=
  l ∈ positions d N ∧ posRank d N l < posRank d N k ∧ P (f.storedAt N k l)

variable {c : Csr} {p pr pc : List Nat} {r n : Nat} {a b : Blk} {i : Nat}

omit [Sub K] [Mul K] [Div K] in
private theorem storedAt_sub {g : SubFactor K} (hg : f.lowerBlock N a b = some g) (hab : b.rank N < a.rank N) (i j : Nat) :
    f.storedAt N ⟨a, i⟩ ⟨b, j⟩ = g.l i j := by
  unfold ArrowheadFactor.storedAt
  dsimp only
  rw [if_neg (by rintro rfl; omega), hg]
  rfl

omit [Sub K] [Mul K] [Div K] in
private theorem storedAt_diag {g : DiagFactor K} (hg : f.diagBlock a = some g) (i j : Nat) :
    f.storedAt N ⟨a, i⟩ ⟨a, j⟩ = g.l i j := by
  unfold ArrowheadFactor.storedAt
  dsimp only
  rw [if_pos rfl, hg]
  rfl

omit [Sub K] [Mul K] [Div K] in
private theorem rank_lt_pos (ha : (⟨a, i⟩ : Σ _ : Blk, Nat) ∈ positions d N) {j : Nat} (hb : (⟨b, j⟩ : Σ _ : Blk, Nat) ∈ positions d N)
    (h : b.rank N < a.rank N) : posRank d N ⟨b, j⟩ < posRank d N ⟨a, i⟩ := (posRank_lt hb ha).mpr (Or.inl h)

/-- The terms of a row in an off-diagonal block. -/
private theorem row_sub {g : SubFactor K} (h : g.OfType c pr pc) (hc : CsrOk c r (d.of b)) (he : g.Entries P)
    (hg : f.lowerBlock N a b = some g) (hb : b ∈ blocks N) (hab : b.rank N < a.rank N)
    (ha : (⟨a, i⟩ : Σ _ : Blk, Nat) ∈ positions d N) (V : (Σ _ : Blk, Nat) → K) (x : K) :
    ∃ ks, Seg (RowTerm f d N P ⟨a, i⟩) N (b.rank N) (b.rank N + 1) (c.rowEntries i) ks ∧
      subAll (g.sparsity.cols i) (fun j => g.l i j * V ⟨b, j⟩) x =
        subAll ks (fun l => f.storedAt N ⟨a, i⟩ l * V l) x := by
  refine ⟨(g.sparsity.cols i).map (Sigma.mk b), Seg.block ?_ ?_ ?_ le_rfl (Nat.lt_succ_self _), ?_⟩
  · rw [h.pattern]
    exact Csr.Good.cols_nodup hc.good i
  · intro j hj
    have hh := Csr.mem_cols.mp hj
    have hm : (⟨b, j⟩ : Σ _ : Blk, Nat) ∈ positions d N := mem_positions.mpr ⟨hb, by
      dsimp only
      rw [h.pattern] at hh
      rw [← hc.cols]
      exact hc.good.col_lt hh⟩
    refine ⟨hm, rank_lt_pos ha hm hab, ?_⟩
    rw [storedAt_sub hg hab]
    exact he i j hh
  · rw [Csr.rowEntries_eq, h.pattern]
  · rw [subAll_sigma]
    exact subAll_congr (fun j _ => by rw [storedAt_sub hg hab]) x

/-- The terms of a row in a diagonal block. -/
private theorem row_diag {g : DiagFactor K} (h : g.OfType c p (d.of a)) (hc : CsrOk c (d.of a) (d.of a))
    (low : ∀ i j, c.Has i j → j < i) (he : g.Entries P) (hg : f.diagBlock a = some g)
    (ha : (⟨a, i⟩ : Σ _ : Blk, Nat) ∈ positions d N) (V : (Σ _ : Blk, Nat) → K) (x : K) :
    ∃ ks, Seg (RowTerm f d N P ⟨a, i⟩) N (a.rank N) (a.rank N + 1) (c.rowEntries i) ks ∧
      subAll (g.sparsity.cols i) (fun j => g.l i j * V ⟨a, j⟩) x =
        subAll ks (fun l => f.storedAt N ⟨a, i⟩ l * V l) x := by
  refine ⟨(g.sparsity.cols i).map (Sigma.mk a), Seg.block ?_ ?_ ?_ le_rfl (Nat.lt_succ_self _), ?_⟩
  · rw [h.pattern]
    exact Csr.Good.cols_nodup hc.good i
  · intro j hj
    have hh := Csr.mem_cols.mp hj
    have hh' := hh
    rw [h.pattern] at hh'
    have hm : (⟨a, j⟩ : Σ _ : Blk, Nat) ∈ positions d N := mem_positions.mpr ⟨(mem_positions.mp ha).1, by
      dsimp only
      conv_rhs => rw [← hc.cols]
      exact hc.good.col_lt hh'⟩
    refine ⟨hm, (posRank_lt hm ha).mpr (Or.inr ⟨rfl, low i j hh'⟩), ?_⟩
    rw [storedAt_diag hg]
    exact he i j hh
  · rw [Csr.rowEntries_eq, h.pattern]
  · rw [subAll_sigma]
    exact subAll_congr (fun j _ => by rw [storedAt_diag hg]) x

omit [Zero K] [Sub K] [Mul K] [Div K] in
private theorem getD_blocks (hf : f.Declared s T d N) :
    (∀ t < N + 1, f.diagBlock (.tridiag t) = some (f.tridiagDiag.getD t f.startDiag)) ∧
    (∀ t < N, f.lowerBlock N (.tridiag (t + 1)) (.tridiag t) = some (f.tridiagSubdiag.getD t f.startNext)) ∧
    ∀ t < N + 1, f.lowerBlock N .outer (.tridiag t) = some (f.outerSubdiag.getD t f.startOuter) := by
  refine ⟨fun t ht => ?_, fun t ht => ?_, fun t ht => ?_⟩
  · have h : t < f.tridiagDiag.length := by rw [hf.numDiag]; exact ht
    simp [ArrowheadFactor.diagBlock, h]
  · have h : t < f.tridiagSubdiag.length := by rw [hf.numSubdiag]; exact ht
    simp [ArrowheadFactor.lowerBlock, h, ht]
  · have h : t < f.outerSubdiag.length := by rw [hf.numOuter]; exact ht
    simp [ArrowheadFactor.lowerBlock, h, show t ≤ N by omega]

/-- Forward substitution: each component is its right hand side minus the products of the entries of its row. -/
theorem forwardSolve_lists (hs : s.Valid d) (hT : TypesOk s T d) (hf : f.Declared s T d N) (he : f.Entries P)
    {rhs : ArrowheadVector K} (hr : rhs.OfSize d N) :
    Sat (f.forwardSolve rhs) fun v => ∀ k ∈ positions d N, ∃ ks : List (Σ _ : Blk, Nat), ks.Nodup ∧
      (∀ l ∈ ks, RowTerm f d N P k l) ∧ ks.length ≤ T.rowEntries N k.1 k.2 ∧
      permAt' s v k = subAll ks (fun l => f.storedAt N k l * permAt' s v l) (permAt' s rhs k) := by
  obtain ⟨hDt, hSt, hOt⟩ := getD_ofType' hf
  obtain ⟨hDb, hSb, hOb⟩ := getD_blocks hf
  have hDs : ∀ t < N + 1, (f.tridiagDiag.getD t f.startDiag).Entries P :=
    fun t ht => he.tridiagDiag _ (getD_mem (by rw [hf.numDiag]; exact ht) _)
  have hSs : ∀ t < N, (f.tridiagSubdiag.getD t f.startNext).Entries P :=
    fun t ht => he.tridiagSubdiag _ (getD_mem (by rw [hf.numSubdiag]; exact ht) _)
  have hOs : ∀ t < N + 1, (f.outerSubdiag.getD t f.startOuter).Entries P :=
    fun t ht => he.outerSubdiag _ (getD_mem (by rw [hf.numOuter]; exact ht) _)
  refine Sat.mono (forwardSolve_steps hs hT hf hr) ?_
  rintro v ⟨hv, os, o, st, los, lo⟩ ⟨a, i⟩ hk
  obtain ⟨ha, hi⟩ := mem_positions.mp hk
  dsimp only at ha hi
  suffices h : ∃ ks, Seg (RowTerm f d N P ⟨a, i⟩) N 0 (N + 4) (T.rowEntries N a i) ks ∧
      permAt' s v ⟨a, i⟩ = subAll ks (fun l => f.storedAt N ⟨a, i⟩ l * permAt' s v l) (permAt' s rhs ⟨a, i⟩) by
    obtain ⟨ks, h1, h2⟩ := h
    exact ⟨ks, h1.nodup, fun l hl => (h1.mem l hl).1, h1.len, h2⟩
  rcases a with _ | (_ | t) | _ | _
  · obtain ⟨-, h2⟩ := Sat.of_ok (forwardInPlace_sat (hf.startDiag.diagOk hT.startDiag hT.lowStart hs.permStart)
      (by rw [hf.startDiag.perm]; exact hs.permStart) hr.start) st.start
    rw [hf.startDiag.perm] at h2
    obtain ⟨ks, h3, h4⟩ := row_diag hf.startDiag hT.startDiag hT.lowStart he.startDiag (f := f) rfl hk (permAt' s v)
      (permAt' s rhs ⟨.start, i⟩)
    exact ⟨ks, h3.mono (Rounding.rowEntries_start i) (Nat.zero_le _) (by simp [Blk.rank]), (h2 i hi).trans h4⟩
  · obtain ⟨-, h2⟩ := Sat.of_ok (forwardLeft_sat ((hDt 0 (by omega)).diagOk hT.tridiagDiag hT.lowTridiag hs.permTridiag)
      (by rw [(hDt 0 (by omega)).perm]; exact hs.permTridiag) (hf.startNext.subOk hT.startNext hs.permTridiag hs.permStart)
      (by rw [hf.startNext.permRow, (hDt 0 (by omega)).perm]) (by rw [hf.startNext.permCol]; exact hs.permStart)
      (hr.block (by omega)) hv.start) st.first
    rw [(hDt 0 (by omega)).perm, hf.startNext.permCol] at h2
    obtain ⟨ks, h3, h4⟩ := row_sub (d := d) (b := .start) hf.startNext hT.startNext he.startNext (f := f) (a := .tridiag 0) rfl
      start_mem (by simp [Blk.rank]) hk (permAt' s v) (permAt' s rhs ⟨.tridiag 0, i⟩)
    obtain ⟨ks', h5, h6⟩ := row_diag (a := .tridiag 0) (hDt 0 (by omega)) hT.tridiagDiag hT.lowTridiag (hDs 0 (by omega))
      (hDb 0 (by omega)) hk (permAt' s v) (subAll ks (fun l => f.storedAt N ⟨.tridiag 0, i⟩ l * permAt' s v l)
        (permAt' s rhs ⟨.tridiag 0, i⟩))
    refine ⟨ks ++ ks', (h3.append h5 (by simp [Blk.rank]) (by simp [Blk.rank])).mono
      (by rw [add_comm]; exact Rounding.rowEntries_first i) (Nat.zero_le _) (by simp [Blk.rank]), ?_⟩
    rw [subAll_append, ← h6, ← h4]
    exact h2 i hi
  · have ht := mem_blocks.mp ha _ rfl
    obtain ⟨-, h2⟩ := Sat.of_ok (forwardLeft_sat ((hDt (t + 1) ht).diagOk hT.tridiagDiag hT.lowTridiag hs.permTridiag)
      (by rw [(hDt (t + 1) ht).perm]; exact hs.permTridiag)
      ((hSt t (by omega)).subOk hT.tridiagSubdiag hs.permTridiag hs.permTridiag)
      (by rw [(hSt t (by omega)).permRow, (hDt (t + 1) ht).perm]) (by rw [(hSt t (by omega)).permCol]; exact hs.permTridiag)
      (hr.block ht) (hv.block (by omega))) (st.next t (by omega))
    rw [(hDt (t + 1) ht).perm, (hSt t (by omega)).permCol] at h2
    obtain ⟨ks, h3, h4⟩ := row_sub (d := d) (b := .tridiag t) (hSt t (by omega)) hT.tridiagSubdiag (hSs t (by omega)) (f := f)
      (a := .tridiag (t + 1)) (hSb t (by omega)) (tridiag_mem (by omega)) (by simp [Blk.rank]) hk (permAt' s v)
      (permAt' s rhs ⟨.tridiag (t + 1), i⟩)
    obtain ⟨ks', h5, h6⟩ := row_diag (a := .tridiag (t + 1)) (hDt (t + 1) ht) hT.tridiagDiag hT.lowTridiag (hDs (t + 1) ht)
      (hDb (t + 1) ht) hk (permAt' s v) (subAll ks (fun l => f.storedAt N ⟨.tridiag (t + 1), i⟩ l * permAt' s v l)
        (permAt' s rhs ⟨.tridiag (t + 1), i⟩))
    refine ⟨ks ++ ks', (h3.append h5 (by simp [Blk.rank]) (by simp [Blk.rank])).mono
      (by rw [add_comm]; exact Rounding.rowEntries_next (by omega) i) (Nat.zero_le _) (by simp [Blk.rank]; omega), ?_⟩
    rw [subAll_append, ← h6, ← h4]
    exact h2 i hi
  · obtain ⟨-, h2⟩ := Sat.of_ok (forwardLeft_sat (hf.linkDiag.diagOk hT.linkDiag hT.lowLink hs.permLink)
      (by rw [hf.linkDiag.perm]; exact hs.permLink) (hf.linkPrev.subOk hT.linkPrev hs.permLink hs.permTridiag)
      (by rw [hf.linkPrev.permRow, hf.linkDiag.perm]) (by rw [hf.linkPrev.permCol]; exact hs.permTridiag)
      hr.link (hv.block (by omega))) st.link
    rw [hf.linkDiag.perm, hf.linkPrev.permCol] at h2
    obtain ⟨ks, h3, h4⟩ := row_sub (d := d) (b := .tridiag N) hf.linkPrev hT.linkPrev he.linkPrev (f := f) (a := .link)
      (by simp [ArrowheadFactor.lowerBlock]) (tridiag_mem (by omega)) (by simp [Blk.rank]) hk (permAt' s v)
      (permAt' s rhs ⟨.link, i⟩)
    obtain ⟨ks', h5, h6⟩ := row_diag (a := .link) hf.linkDiag hT.linkDiag hT.lowLink he.linkDiag (f := f)
      rfl hk (permAt' s v) (subAll ks (fun l => f.storedAt N ⟨.link, i⟩ l * permAt' s v l) (permAt' s rhs ⟨.link, i⟩))
    refine ⟨ks ++ ks', (h3.append h5 (by simp [Blk.rank]) (by simp [Blk.rank])).mono
      (by rw [add_comm]; exact Rounding.rowEntries_link i) (Nat.zero_le _) (by simp [Blk.rank]), ?_⟩
    rw [subAll_append, ← h6, ← h4]
    exact h2 i hi
  · -- the first block
    obtain ⟨-, g0⟩ := Sat.of_ok (forward_sat (hf.startOuter.subOk hT.startOuter hs.permOuter hs.permStart)
      (by rw [hf.startOuter.permRow]; exact hs.permOuter) (by rw [hf.startOuter.permCol]; exact hs.permStart) hv.start hr.outer) st.outer0
    rw [hf.startOuter.permRow, hf.startOuter.permCol] at g0
    obtain ⟨k0, s0, e0⟩ := row_sub (d := d) (b := .start) hf.startOuter hT.startOuter he.startOuter (f := f) (a := .outer) rfl
      start_mem (by simp [Blk.rank]) hk (permAt' s v) (permAt' s rhs ⟨.outer, i⟩)
    -- the repeated blocks
    have hrep : ∀ m ≤ N + 1, ∃ ks, Seg (RowTerm f d N P ⟨.outer, i⟩) N 0 (m + 1)
        (T.startOuter.rowEntries i + m * T.outerSubdiag.rowEntries i) ks ∧
        (os m).getD (permAt s.outer.permutation i) 0 =
          subAll ks (fun l => f.storedAt N ⟨.outer, i⟩ l * permAt' s v l) (permAt' s rhs ⟨.outer, i⟩) := by
      intro m
      induction m with
      | zero =>
        intro _
        exact ⟨k0, s0.mono (by omega) (Nat.zero_le _) (by simp [Blk.rank]), (g0 i hi).trans e0⟩
      | succ m ih =>
        intro hm
        obtain ⟨ks, q1, q2⟩ := ih (by omega)
        obtain ⟨-, g1⟩ := Sat.of_ok (forward_sat ((hOt m (by omega)).subOk hT.outerSubdiag hs.permOuter hs.permTridiag)
          (by rw [(hOt m (by omega)).permRow]; exact hs.permOuter)
          (by rw [(hOt m (by omega)).permCol]; exact hs.permTridiag) (hv.block (by omega)) (los m (by omega)))
          (st.outer1 m (by omega))
        rw [(hOt m (by omega)).permRow, (hOt m (by omega)).permCol] at g1
        obtain ⟨k1, s1, e1⟩ := row_sub (d := d) (b := .tridiag m) (hOt m (by omega)) hT.outerSubdiag (hOs m (by omega)) (f := f)
          (a := .outer) (hOb m (by omega)) (tridiag_mem (by omega)) (by simp [Blk.rank]; omega) hk (permAt' s v)
          ((os m).getD (permAt s.outer.permutation i) 0)
        refine ⟨ks ++ k1, (q1.append s1 (Nat.zero_le _) (by simp [Blk.rank])).mono (by rw [Nat.succ_mul]; omega) le_rfl
          (by simp [Blk.rank]), ?_⟩
        rw [subAll_append, ← q2, ← e1]
        exact g1 i hi
    obtain ⟨k1, s1, e1⟩ := hrep _ le_rfl
    obtain ⟨-, g2⟩ := Sat.of_ok (forward_sat (hf.linkNext.subOk hT.linkNext hs.permOuter hs.permLink)
      (by rw [hf.linkNext.permRow]; exact hs.permOuter) (by rw [hf.linkNext.permCol]; exact hs.permLink) hv.link
      (los (N + 1) (by omega))) st.outer2
    rw [hf.linkNext.permRow, hf.linkNext.permCol] at g2
    obtain ⟨k2, s2, e2⟩ := row_sub (d := d) (b := .link) hf.linkNext hT.linkNext he.linkNext (f := f) (a := .outer) rfl
      link_mem (by simp [Blk.rank]) hk (permAt' s v) ((os (N + 1)).getD (permAt s.outer.permutation i) 0)
    obtain ⟨-, g3⟩ := Sat.of_ok (forwardInPlace_sat (hf.outerDiag.diagOk hT.outerDiag hT.lowOuter hs.permOuter)
      (by rw [hf.outerDiag.perm]; exact hs.permOuter) lo) st.outer3
    rw [hf.outerDiag.perm] at g3
    obtain ⟨k3, s3, e3⟩ := row_diag (a := .outer) hf.outerDiag hT.outerDiag hT.lowOuter he.outerDiag (f := f) rfl hk (permAt' s v)
      (o.getD (permAt s.outer.permutation i) 0)
    refine ⟨k1 ++ (k2 ++ k3), (s1.append (s2.append s3 (by simp [Blk.rank]) (by simp [Blk.rank])) (Nat.zero_le _)
      (by simp [Blk.rank])).mono (by rw [← Rounding.rowEntries_outer]; omega) le_rfl (by simp [Blk.rank]), ?_⟩
    rw [subAll_append, subAll_append, ← e1]
    refine (g3 i hi).trans (e3.trans ?_)
    congr 1
    exact (g2 i hi).trans e2

/-! ### Backward substitution -/

/-- What holds for the terms of column `k`. -/
def ColTerm (f : ArrowheadFactor K) (d : Dims) (N : Nat) (P : K → Prop) (k l : Σ _ : Blk, Nat) : Prop :=
  l ∈ positions d N ∧ posRank d N k < posRank d N l ∧ P (f.storedAt N l k)

theorem rowsDown_facts {c : Csr} {j m i : Nat} (h : i ∈ rowsDown c j 0 m) : c.Has i j := by
  simpa using (List.mem_filter.mp h).2

theorem rowsDown_nodup (c : Csr) (j m : Nat) : (rowsDown c j 0 m).Nodup := by
  unfold rowsDown
  refine List.Nodup.filter _ ?_
  rw [List.nodup_reverse]
  exact List.nodup_range'

/-- The terms of a column in an off-diagonal block. -/
private theorem col_sub {g : SubFactor K} (h : g.OfType c pr pc) (hc : CsrOk c (d.of a) n) (he : g.Entries P)
    (hg : f.lowerBlock N a b = some g) (ha : a ∈ blocks N) (hab : b.rank N < a.rank N)
    (hb : (⟨b, i⟩ : Σ _ : Blk, Nat) ∈ positions d N) (V : (Σ _ : Blk, Nat) → K) (x : K) :
    ∃ ks, Seg (ColTerm f d N P ⟨b, i⟩) N (a.rank N) (a.rank N + 1) (c.colEntries i) ks ∧
      subAll (rowsDown g.sparsity i 0 (d.of a)) (fun j => g.l j i * V ⟨a, j⟩) x =
        subAll ks (fun l => f.storedAt N l ⟨b, i⟩ * V l) x := by
  refine ⟨(rowsDown g.sparsity i 0 (d.of a)).map (Sigma.mk a), Seg.block (rowsDown_nodup _ _ _) ?_ ?_ le_rfl (Nat.lt_succ_self _), ?_⟩
  · intro j hj
    have hh := rowsDown_facts hj
    have hm : (⟨a, j⟩ : Σ _ : Blk, Nat) ∈ positions d N := mem_positions.mpr ⟨ha, by
      dsimp only
      rw [h.pattern] at hh
      rw [← hc.rows]
      exact hc.good.row_lt hh⟩
    refine ⟨hm, rank_lt_pos hm hb hab, ?_⟩
    rw [storedAt_sub hg hab]
    exact he j i hh
  · rw [h.pattern]
    exact Csr.rowsDown_le _ _ _
  · rw [subAll_sigma]
    exact subAll_congr (fun j _ => by rw [storedAt_sub hg hab]) x

/-- The terms of a column in a diagonal block. -/
private theorem col_diag {g : DiagFactor K} (h : g.OfType c p (d.of a)) (hc : CsrOk c (d.of a) (d.of a))
    (low : ∀ i j, c.Has i j → j < i) (he : g.Entries P) (hg : f.diagBlock a = some g)
    (ha : (⟨a, i⟩ : Σ _ : Blk, Nat) ∈ positions d N) (V : (Σ _ : Blk, Nat) → K) (x : K) :
    ∃ ks, Seg (ColTerm f d N P ⟨a, i⟩) N (a.rank N) (a.rank N + 1) (c.colEntries i) ks ∧
      subAll (rowsDown g.sparsity i 0 (d.of a)) (fun j => g.l j i * V ⟨a, j⟩) x =
        subAll ks (fun l => f.storedAt N l ⟨a, i⟩ * V l) x := by
  refine ⟨(rowsDown g.sparsity i 0 (d.of a)).map (Sigma.mk a), Seg.block (rowsDown_nodup _ _ _) ?_ ?_ le_rfl (Nat.lt_succ_self _), ?_⟩
  · intro j hj
    have hh := rowsDown_facts hj
    have hh' := hh
    rw [h.pattern] at hh'
    have hm : (⟨a, j⟩ : Σ _ : Blk, Nat) ∈ positions d N := mem_positions.mpr ⟨(mem_positions.mp ha).1, by
      dsimp only
      conv_rhs => rw [← hc.rows]
      exact hc.good.row_lt hh'⟩
    refine ⟨hm, (posRank_lt ha hm).mpr (Or.inr ⟨rfl, low j i hh'⟩), ?_⟩
    rw [storedAt_diag hg]
    exact he j i hh
  · rw [h.pattern]
    exact Csr.rowsDown_le _ _ _
  · rw [subAll_sigma]
    exact subAll_congr (fun j _ => by rw [storedAt_diag hg]) x

/-- Backward substitution: each component is its right hand side minus the products of the entries of its column. -/
theorem backwardSolve_lists (hs : s.Valid d) (hT : TypesOk s T d) (hf : f.Declared s T d N) (he : f.Entries P)
    {rhs : ArrowheadVector K} (hr : rhs.OfSize d N) :
    Sat (f.backwardSolve rhs) fun v => ∀ k ∈ positions d N, ∃ ks : List (Σ _ : Blk, Nat), ks.Nodup ∧
      (∀ l ∈ ks, ColTerm f d N P k l) ∧ ks.length ≤ T.colEntries N k.1 k.2 ∧
      permAt' s v k = subAll ks (fun l => f.storedAt N l k * permAt' s v l) (permAt' s rhs k) := by
  obtain ⟨hDt, hSt, hOt⟩ := getD_ofType' hf
  obtain ⟨hDb, hSb, hOb⟩ := getD_blocks hf
  have hDs : ∀ t < N + 1, (f.tridiagDiag.getD t f.startDiag).Entries P :=
    fun t ht => he.tridiagDiag _ (getD_mem (by rw [hf.numDiag]; exact ht) _)
  have hSs : ∀ t < N, (f.tridiagSubdiag.getD t f.startNext).Entries P :=
    fun t ht => he.tridiagSubdiag _ (getD_mem (by rw [hf.numSubdiag]; exact ht) _)
  have hOs : ∀ t < N + 1, (f.outerSubdiag.getD t f.startOuter).Entries P :=
    fun t ht => he.outerSubdiag _ (getD_mem (by rw [hf.numOuter]; exact ht) _)
  refine Sat.mono (backwardSolve_steps hs hT hf hr) ?_
  rintro v ⟨hv, l, ts, us, x1, x2, st, ll, lts, lus, ls1, ls2⟩ ⟨a, i⟩ hk
  obtain ⟨ha, hi⟩ := mem_positions.mp hk
  dsimp only at ha hi
  suffices h : ∃ ks, Seg (ColTerm f d N P ⟨a, i⟩) N 0 (N + 4) (T.colEntries N a i) ks ∧
      permAt' s v ⟨a, i⟩ = subAll ks (fun l => f.storedAt N l ⟨a, i⟩ * permAt' s v l) (permAt' s rhs ⟨a, i⟩) by
    obtain ⟨ks, h1, h2⟩ := h
    exact ⟨ks, h1.nodup, fun l hl => (h1.mem l hl).1, h1.len, h2⟩
  cases a with
  | start =>
    obtain ⟨-, g1⟩ := Sat.of_ok (backward_sat (hf.startOuter.subOk hT.startOuter hs.permOuter hs.permStart)
      (by rw [hf.startOuter.permRow]; exact hs.permOuter) (by rw [hf.startOuter.permCol]; exact hs.permStart) hv.outer hr.start)
      st.start1
    rw [hf.startOuter.permRow, hf.startOuter.permCol] at g1
    obtain ⟨k1, s1, e1⟩ := col_sub (d := d) (a := .outer) (b := .start) hf.startOuter hT.startOuter he.startOuter (f := f) rfl
      outer_mem (by simp [Blk.rank]) hk (permAt' s v) (permAt' s rhs ⟨.start, i⟩)
    obtain ⟨-, g2⟩ := Sat.of_ok (backward_sat (hf.startNext.subOk hT.startNext hs.permTridiag hs.permStart)
      (by rw [hf.startNext.permRow]; exact hs.permTridiag) (by rw [hf.startNext.permCol]; exact hs.permStart)
      (hv.block (by omega)) ls1) st.start2
    rw [hf.startNext.permRow, hf.startNext.permCol] at g2
    obtain ⟨k2, s2, e2⟩ := col_sub (d := d) (a := .tridiag 0) (b := .start) hf.startNext hT.startNext he.startNext (f := f) rfl
      (tridiag_mem (by omega)) (by simp [Blk.rank]) hk (permAt' s v) (x1.getD (permAt s.start.permutation i) 0)
    obtain ⟨-, g3⟩ := Sat.of_ok (backwardInPlace_sat (hf.startDiag.diagOk hT.startDiag hT.lowStart hs.permStart)
      (by rw [hf.startDiag.perm]; exact hs.permStart) ls2) st.start3
    rw [hf.startDiag.perm] at g3
    obtain ⟨k3, s3, e3⟩ := col_diag (a := .start) hf.startDiag hT.startDiag hT.lowStart he.startDiag (f := f) rfl hk (permAt' s v)
      (x2.getD (permAt s.start.permutation i) 0)
    refine ⟨k1 ++ (k2 ++ k3), (s1.append' ((s2.append' s3 (by simp [Blk.rank]) (by simp [Blk.rank])).mono le_rfl le_rfl
      (by simp [Blk.rank])) (by simp [Blk.rank]) (by simp [Blk.rank])).mono
      (by have := Rounding.colEntries_start (T := T) (N := N) i; omega) (Nat.zero_le _) (by simp [Blk.rank]), ?_⟩
    rw [subAll_append, subAll_append, ← e1]
    refine (g3 i hi).trans (e3.trans ?_)
    congr 1
    refine (g2 i hi).trans (e2.trans ?_)
    congr 1
    exact g1 i hi
  | link =>
    obtain ⟨-, g1⟩ := Sat.of_ok (backward_sat (hf.linkNext.subOk hT.linkNext hs.permOuter hs.permLink)
      (by rw [hf.linkNext.permRow]; exact hs.permOuter) (by rw [hf.linkNext.permCol]; exact hs.permLink) hv.outer hr.link)
      st.link1
    rw [hf.linkNext.permRow, hf.linkNext.permCol] at g1
    obtain ⟨k1, s1, e1⟩ := col_sub (d := d) (a := .outer) (b := .link) hf.linkNext hT.linkNext he.linkNext (f := f) rfl
      outer_mem (by simp [Blk.rank]) hk (permAt' s v) (permAt' s rhs ⟨.link, i⟩)
    obtain ⟨-, g3⟩ := Sat.of_ok (backwardInPlace_sat (hf.linkDiag.diagOk hT.linkDiag hT.lowLink hs.permLink)
      (by rw [hf.linkDiag.perm]; exact hs.permLink) ll) st.link2
    rw [hf.linkDiag.perm] at g3
    obtain ⟨k3, s3, e3⟩ := col_diag (a := .link) hf.linkDiag hT.linkDiag hT.lowLink he.linkDiag (f := f) rfl hk (permAt' s v)
      (l.getD (permAt s.link.permutation i) 0)
    refine ⟨k1 ++ k3, (s1.append' (s3.mono le_rfl le_rfl (by simp [Blk.rank])) (by simp [Blk.rank]) (by simp [Blk.rank])).mono
      (by have := Rounding.colEntries_link (T := T) (N := N) i; omega) (Nat.zero_le _) (by simp [Blk.rank]), ?_⟩
    rw [subAll_append, ← e1]
    refine (g3 i hi).trans (e3.trans ?_)
    congr 1
    exact g1 i hi
  | outer =>
    obtain ⟨-, g3⟩ := Sat.of_ok (backwardInPlace_sat (hf.outerDiag.diagOk hT.outerDiag hT.lowOuter hs.permOuter)
      (by rw [hf.outerDiag.perm]; exact hs.permOuter) hr.outer) st.outer
    rw [hf.outerDiag.perm] at g3
    obtain ⟨k3, s3, e3⟩ := col_diag (a := .outer) hf.outerDiag hT.outerDiag hT.lowOuter he.outerDiag (f := f) rfl hk (permAt' s v)
      (permAt' s rhs ⟨.outer, i⟩)
    exact ⟨k3, s3.mono (Rounding.colEntries_outer i) (Nat.zero_le _) (by simp [Blk.rank]), (g3 i hi).trans e3⟩
  | tridiag t =>
    have ht := mem_blocks.mp ha t rfl
    obtain ⟨-, g1⟩ := Sat.of_ok (backward_sat ((hOt t ht).subOk hT.outerSubdiag hs.permOuter hs.permTridiag)
      (by rw [(hOt t ht).permRow]; exact hs.permOuter) (by rw [(hOt t ht).permCol]; exact hs.permTridiag) hv.outer
      (hr.block ht)) (st.tridiag1 t ht)
    rw [(hOt t ht).permRow, (hOt t ht).permCol] at g1
    obtain ⟨k1, s1, e1⟩ := col_sub (d := d) (a := .outer) (b := .tridiag t) (hOt t ht) hT.outerSubdiag (hOs t ht) (f := f)
      (hOb t ht) outer_mem (by simp [Blk.rank]; omega) hk (permAt' s v) (permAt' s rhs ⟨.tridiag t, i⟩)
    obtain ⟨-, g3⟩ := Sat.of_ok (backwardInPlace_sat ((hDt t ht).diagOk hT.tridiagDiag hT.lowTridiag hs.permTridiag)
      (by rw [(hDt t ht).perm]; exact hs.permTridiag) (lus t ht)) (st.tridiag3 t ht)
    rw [(hDt t ht).perm] at g3
    obtain ⟨k3, s3, e3⟩ := col_diag (a := .tridiag t) (hDt t ht) hT.tridiagDiag hT.lowTridiag (hDs t ht) (f := f)
      (hDb t ht) hk (permAt' s v) ((us t).getD (permAt s.tridiag.permutation i) 0)
    by_cases htN : t = N
    · subst htN
      obtain ⟨-, g2⟩ := Sat.of_ok (backward_sat (hf.linkPrev.subOk hT.linkPrev hs.permLink hs.permTridiag)
        (by rw [hf.linkPrev.permRow]; exact hs.permLink) (by rw [hf.linkPrev.permCol]; exact hs.permTridiag) hv.link
        (lts t ht)) st.last
      rw [hf.linkPrev.permRow, hf.linkPrev.permCol] at g2
      obtain ⟨k2, s2, e2⟩ := col_sub (d := d) (a := .link) (b := .tridiag t) hf.linkPrev hT.linkPrev he.linkPrev (f := f)
        (by simp [ArrowheadFactor.lowerBlock]) link_mem (by simp [Blk.rank]) hk (permAt' s v)
        ((ts t).getD (permAt s.tridiag.permutation i) 0)
      refine ⟨k1 ++ (k2 ++ k3), (s1.append' ((s2.append' (s3.mono le_rfl le_rfl (by simp [Blk.rank])) (by simp [Blk.rank])
        (by simp [Blk.rank])).mono le_rfl le_rfl (by simp [Blk.rank])) (by simp [Blk.rank]) (by simp [Blk.rank])).mono
        (by have := Rounding.colEntries_last (T := T) (N := t) i; omega) (Nat.zero_le _) (by simp [Blk.rank]), ?_⟩
      rw [subAll_append, subAll_append, ← e1]
      refine (g3 i hi).trans (e3.trans ?_)
      congr 1
      refine (g2 i hi).trans (e2.trans ?_)
      congr 1
      exact g1 i hi
    · have ht' : t < N := by omega
      obtain ⟨-, g2⟩ := Sat.of_ok (backward_sat ((hSt t ht').subOk hT.tridiagSubdiag hs.permTridiag hs.permTridiag)
        (by rw [(hSt t ht').permRow]; exact hs.permTridiag) (by rw [(hSt t ht').permCol]; exact hs.permTridiag)
        (hv.block (by omega)) (lts t ht)) (st.tridiag2 t ht')
      rw [(hSt t ht').permRow, (hSt t ht').permCol] at g2
      obtain ⟨k2, s2, e2⟩ := col_sub (d := d) (a := .tridiag (t + 1)) (b := .tridiag t) (hSt t ht') hT.tridiagSubdiag (hSs t ht')
        (f := f) (hSb t ht') (tridiag_mem (by omega)) (by simp [Blk.rank]) hk (permAt' s v)
        ((ts t).getD (permAt s.tridiag.permutation i) 0)
      refine ⟨k1 ++ (k2 ++ k3), (s1.append' ((s2.append' (s3.mono le_rfl le_rfl (by simp [Blk.rank])) (by simp [Blk.rank])
        (by simp [Blk.rank])).mono le_rfl le_rfl (by simp [Blk.rank]; omega)) (by simp [Blk.rank]; omega) (by simp [Blk.rank])).mono
        (by have := Rounding.colEntries_tridiag (T := T) ht' i; omega) (Nat.zero_le _) (by simp [Blk.rank]), ?_⟩
      rw [subAll_append, subAll_append, ← e1]
      refine (g3 i hi).trans (e3.trans ?_)
      congr 1
      refine (g2 i hi).trans (e2.trans ?_)
      congr 1
      exact g1 i hi

end

end Ctldl
