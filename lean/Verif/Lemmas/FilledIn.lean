import Verif.Lemmas.Visit

/-! # Filled-in sparsity: helper lemmas -/

namespace Ctldl

/-- Successor of a node: its parent, or itself for a root. -/
def nextOf (tree : List Nat) (m : Nat) : Nat := (parOf tree m).getD m

theorem reach_iff_anc {tree : List Nat} (hP : Increasing (parOf tree)) {i j k : Nat} (hj : Anc (parOf tree) j i) :
    Reach (nextOf tree) (fun m => m = i) j k ↔ Anc (parOf tree) j k ∧ k < i := by
  constructor
  · intro h
    induction h with
    | @refl j hs =>
      refine ⟨.refl j, ?_⟩
      have := hj.le hP
      omega
    | @step j k hs _ ih =>
      obtain ⟨p, hp, hpi⟩ := hj.of_ne hs
      have : nextOf tree j = p := by simp [nextOf, hp]
      rw [this] at ih
      obtain ⟨h1, h2⟩ := ih hpi
      exact ⟨.step hp h1, h2⟩
  · rintro ⟨h1, h2⟩
    induction h1 with
    | refl j => exact .refl (by omega)
    | @step j p k hp hpk ih =>
      have hle := hpk.le hP
      have hlt := hP _ _ hp
      refine .step (by omega) ?_
      have hpi : Anc (parOf tree) p i := by
        obtain ⟨q, hq, hqi⟩ := hj.of_ne (by omega)
        rw [hp] at hq; cases hq; exact hqi
      have : nextOf tree j = p := by simp [nextOf, hp]
      rw [this]
      exact ih hpi h2

/-- State after visiting all rows below `i`; `Q` is the set of positions to be called. -/
structure VisInv (n i : Nat) (Q : Nat → Nat → Prop) (st : List Nat × List Entry) : Prop where
  length : st.1.length = n
  visitor : ∀ m < n, ∃ v, st.1[m]? = some v ∧ (v = m ∨ (m < v ∧ v < i))
  nodup : st.2.Nodup
  calls : ∀ e : Entry, e ∈ st.2 ↔ e.row < i ∧ Q e.row e.col

/-- If there is nothing to call in the first rows, the visit can start after them. -/
theorem VisInv.init (n b : Nat) {Q : Nat → Nat → Prop} (hQ : ∀ i j, Q i j → b ≤ i) :
    VisInv n b Q (List.range n, []) := by
  refine ⟨by simp, ?_, by simp, ?_⟩
  · intro m hm
    exact ⟨m, by simp [hm], Or.inl rfl⟩
  · intro e
    simp only [List.not_mem_nil, false_iff, not_and]
    intro h1 h2
    have := hQ _ _ h2
    omega

theorem VisInv.rowStart {n i : Nat} {Q : Nat → Nat → Prop} {st : List Nat × List Entry} (h : VisInv n i Q st)
    (next : Nat → Nat) : RowState n i next (fun m => m = i) st.1 st.2 (fun _ => False) st := by
  refine ⟨h.length, ⟨[], by simp⟩, ?_, ?_⟩
  · intro m hm
    obtain ⟨v, hv, h1⟩ := h.visitor m hm
    unfold Marked
    rw [hv]
    simp only [Option.some.injEq, false_or]
    omega
  · intro m hm hs
    exfalso
    have hml := (List.getElem?_eq_some_iff.mp hm).1
    obtain ⟨v, hv, h1⟩ := h.visitor m (by have := h.length; omega)
    unfold Marked at hm
    rw [hv] at hm
    simp only [Option.some.injEq] at hm
    omega

theorem VisInv.rowEnd {n i : Nat} {Q : Nat → Nat → Prop} {st0 st : List Nat × List Entry}
    (h : VisInv n i Q st0) {next : Nat → Nat} {S : Nat → Prop}
    (hr : RowState n i next (fun m => m = i) st0.1 st0.2 S st)
    (hQ : ∀ m, Q i m → m < i)
    (hS : ∀ m, (S m ∧ m ≠ i) ↔ Q i m) : VisInv n (i + 1) Q st := by
  obtain ⟨l, g1, g2, g3, g4, g5⟩ := hr.calls
  have hl : ∀ m, m ∈ l ↔ Q i m := fun m => (g3 m).trans (hS m)
  refine ⟨hr.length, ?_, ?_, ?_⟩
  · intro m hm
    by_cases hml : m ∈ l
    · have := (hr.marked m hm).mpr (Or.inl ((g3 m).mp hml).1)
      exact ⟨i, this, Or.inr ⟨hQ m ((hl m).mp hml), by omega⟩⟩
    · rw [g5 m hml]
      obtain ⟨v, hv, h1⟩ := h.visitor m hm
      exact ⟨v, hv, by omega⟩
  · rw [g1, List.nodup_append]
    refine ⟨h.nodup, ?_, ?_⟩
    · exact List.Nodup.map (fun a b hab => by simpa using hab) g2
    · rintro e he e' he' rfl
      obtain ⟨k, -, rfl⟩ := List.mem_map.mp he'
      have := ((h.calls _).mp he).1
      simp only at this
      omega
  · intro e
    rw [g1, List.mem_append, h.calls e]
    constructor
    · rintro (⟨h1, h2⟩ | h1)
      · exact ⟨by omega, h2⟩
      · obtain ⟨k, hk, rfl⟩ := List.mem_map.mp h1
        exact ⟨by simp only; omega, (hl k).mp hk⟩
    · rintro ⟨h1, h2⟩
      rcases (show e.row < i ∨ e.row = i by omega) with h3 | h3
      · exact Or.inl ⟨h3, h2⟩
      · right
        rw [h3] at h2
        exact List.mem_map.mpr ⟨e.col, (hl _).mpr h2, by cases e; simp_all⟩

/-- Visiting with the parents of the elimination tree of `G`, for entries of one row of `G`. -/
theorem visitTreeRow_sat {c : Csr} (hc : c.Ok) {tree : List Nat} {G : Nat → Nat → Prop}
    (hT : IsTree G (parOf tree)) {r ro co n : Nat} (hr : r < c.numRows) (hi : r + ro < n)
    (hent : ∀ j, c.toSparsity.Has r j → G (r + ro) (j + co) ∧ j + co < r + ro)
    {visitor0 : List Nat} {calls0 : List Entry} {S : Nat → Prop} {st : List Nat × List Entry}
    (h : RowState n (r + ro) (nextOf tree) (fun m => m = r + ro) visitor0 calls0 S st) :
    Sat (foreachAncestorInSubtree c tree r st ro co)
      (RowState n (r + ro) (nextOf tree) (fun m => m = r + ro) visitor0 calls0
        (fun m => S m ∨ ∃ j, c.toSparsity.Has r j ∧ Anc (parOf tree) (j + co) m ∧ m < r + ro)) := by
  have hanc : ∀ j, c.toSparsity.Has r j → Anc (parOf tree) (j + co) (r + ro) := fun j hj =>
    hT.fill_anc (.base (hent j hj).1 (hent j hj).2)
  unfold foreachAncestorInSubtree
  have hS : (fun m => S m ∨ ∃ j, c.toSparsity.Has r j ∧ Anc (parOf tree) (j + co) m ∧ m < r + ro) =
      (fun m => S m ∨ ∃ j, c.toSparsity.Has r j ∧
        Reach (nextOf tree) (fun m => m = r + ro) (j + co) m) := by
    funext m
    apply propext
    constructor
    · rintro (hs | ⟨j, hj, h1⟩)
      · exact Or.inl hs
      · exact Or.inr ⟨j, hj, (reach_iff_anc hT.increasing (hanc j hj)).mpr h1⟩
    · rintro (hs | ⟨j, hj, h1⟩)
      · exact Or.inl hs
      · exact Or.inr ⟨j, hj, (reach_iff_anc hT.increasing (hanc j hj)).mp h1⟩
  rw [hS]
  refine visitRow_sat hc (Live := fun m => Anc (parOf tree) m (r + ro)) hr ?_ ?_ hanc h
  · intro m hm; have := hm.le hT.increasing; omega
  · intro m hm hs
    obtain ⟨p, hp, hpi⟩ := hm.of_ne hs
    have : nextOf tree m = p := by simp [nextOf, hp]
    rw [this]
    exact ⟨getParent_eq hp, hpi⟩

theorem foreachNonZeroWithFill_sat {c : Csr} (hc : c.Ok) (hsq : c.numRows = c.numCols)
    (hn : c.numRows ≤ noParent) (hlow : ∀ i j, c.toSparsity.Has i j → j < i) :
    Sat (foreachNonZeroWithFill c) (fun calls => calls.Nodup ∧
      ∀ e : Entry, e ∈ calls ↔ Fill (fun i j => c.toSparsity.Has i j) e.row e.col) := by
  unfold foreachNonZeroWithFill
  rw [pre_true (by simp [isSquare, hsq]), ok_bind]
  refine Sat.bind (computeEliminationTree_sat hc hsq hn hlow) ?_
  rintro tree ⟨-, hT, -⟩
  refine Sat.bind (foldlM_range_inv (fun i st => VisInv c.numRows i (Fill fun i j => c.toSparsity.Has i j) st)
    (VisInv.init _ _ (by simp)) ?_) ?_
  · intro i st hi hinv
    refine Sat.mono (visitTreeRow_sat hc hT hi (ro := 0) (co := 0) hi (fun j hj => ⟨hj, hlow _ _ hj⟩)
      (hinv.rowStart _)) ?_
    intro st' hst'
    refine hinv.rowEnd hst' (fun m h => h.lt) ?_
    intro m
    rw [hT.fill_row]
    simp only [false_or, Nat.add_zero]
    constructor
    · rintro ⟨⟨j, h1, h2, h3⟩, -⟩; exact ⟨h3, j, hlow _ _ h1, h1, h2⟩
    · rintro ⟨h3, j, -, h1, h2⟩; exact ⟨⟨j, h1, h2, h3⟩, by omega⟩
  · intro st hinv
    refine Sat.pure ⟨hinv.nodup, fun e => ?_⟩
    rw [hinv.calls e]
    exact ⟨fun h => h.2, fun h => ⟨h.row_bound fun a b hab => hc.row_lt _ hab, h⟩⟩

theorem foreachNonZeroWithFillBlocked3x3_sat {c11 c21 c22 c31 c32 c33 : Csr}
    (hd : DimsOk3 c11.toSparsity c21.toSparsity c22.toSparsity c31.toSparsity c32.toSparsity c33.toSparsity)
    (h11 : c11.Ok) (h21 : c21.Ok) (h22 : c22.Ok) (h31 : c31.Ok) (h32 : c32.Ok) (h33 : c33.Ok)
    (hl1 : ∀ i j, c11.toSparsity.Has i j → j < i) (hl2 : ∀ i j, c22.toSparsity.Has i j → j < i)
    (hl3 : ∀ i j, c33.toSparsity.Has i j → j < i)
    (hn : c11.numRows + c22.numRows + c33.numRows ≤ noParent) :
    Sat (foreachNonZeroWithFillBlocked3x3 c11 c21 c22 c31 c32 c33) (fun calls => calls.Nodup ∧
      ∀ e : Entry, e ∈ calls ↔ Fill (assembledHas c11.toSparsity c21.toSparsity c22.toSparsity
        c31.toSparsity c32.toSparsity c33.toSparsity) e.row e.col) := by
  have e1 : c11.numRows = c11.numCols := hd.sq1
  have e2 : c22.numRows = c22.numCols := hd.sq2
  have e3 : c33.numRows = c33.numCols := hd.sq3
  have e4 : c21.numCols = c11.numCols := hd.c21
  have e5 : c21.numRows = c22.numRows := hd.r21
  have e6 : c31.numCols = c11.numCols := hd.c31
  have e7 : c32.numCols = c22.numCols := hd.c32
  have e8 : c31.numRows = c33.numRows := hd.r31
  have e9 : c32.numRows = c33.numRows := hd.r32
  unfold foreachNonZeroWithFillBlocked3x3
  rw [pre_true (by simp [isSquare, e1]), ok_bind, pre_true (by simp [isSquare, e2]), ok_bind,
    pre_true (by simp [e4]), ok_bind, pre_true (by simp [e5]), ok_bind]
  simp only
  refine Sat.bind (computeEliminationTreeBlocked3x3_sat hd h11 h21 h22 h31 h32 h33 hl1 hl2 hl3 hn) ?_
  rintro tree ⟨-, hT, -⟩
  generalize hN : c11.numRows + c22.numRows + c33.numRows = N
  have hlow : ∀ {i j}, assembledHas c11.toSparsity c21.toSparsity c22.toSparsity
        c31.toSparsity c32.toSparsity c33.toSparsity i j → j < i := fun h =>
    assembledHas_lower hd h21.inRange h31.inRange h32.inRange hl1 hl2 hl3 h
  have r11 : ∀ i j, c11.toSparsity.Has i j → i < c11.numRows ∧ j < c11.numCols := fun i j h => h11.inRange _ h
  have r21 : ∀ i j, c21.toSparsity.Has i j → i < c21.numRows ∧ j < c21.numCols := fun i j h => h21.inRange _ h
  have r22 : ∀ i j, c22.toSparsity.Has i j → i < c22.numRows ∧ j < c22.numCols := fun i j h => h22.inRange _ h
  have r31 : ∀ i j, c31.toSparsity.Has i j → i < c31.numRows ∧ j < c31.numCols := fun i j h => h31.inRange _ h
  have r32 : ∀ i j, c32.toSparsity.Has i j → i < c32.numRows ∧ j < c32.numCols := fun i j h => h32.inRange _ h
  have r33 : ∀ i j, c33.toSparsity.Has i j → i < c33.numRows ∧ j < c33.numCols := fun i j h => h33.inRange _ h
  generalize hG : assembledHas c11.toSparsity c21.toSparsity c22.toSparsity c31.toSparsity c32.toSparsity
    c33.toSparsity = G at hT hlow
  have g11 : ∀ i j, c11.toSparsity.Has i j → G i j := fun i j h => by rw [← hG]; exact Or.inl h
  have g21 : ∀ i j, c21.toSparsity.Has i j → G (i + c11.numRows) j := fun i j h => by
    rw [← hG]; exact Or.inr (Or.inl ⟨by omega, by rw [Nat.add_sub_cancel]; exact h⟩)
  have g22 : ∀ i j, c22.toSparsity.Has i j → G (i + c11.numRows) (j + c11.numRows) := fun i j h => by
    rw [← hG]
    exact Or.inr (Or.inr (Or.inl ⟨by omega, by omega, by rw [Nat.add_sub_cancel, Nat.add_sub_cancel]; exact h⟩))
  have g31 : ∀ i j, c31.toSparsity.Has i j → G (i + (c11.numRows + c22.numRows)) j := fun i j h => by
    rw [← hG]
    exact Or.inr (Or.inr (Or.inr (Or.inl ⟨by omega, by rw [Nat.add_sub_cancel]; exact h⟩)))
  have g32 : ∀ i j, c32.toSparsity.Has i j → G (i + (c11.numRows + c22.numRows)) (j + c11.numRows) :=
    fun i j h => by
      rw [← hG]
      exact Or.inr (Or.inr (Or.inr (Or.inr (Or.inl
        ⟨by omega, by omega, by rw [Nat.add_sub_cancel, Nat.add_sub_cancel]; exact h⟩))))
  have g33 : ∀ i j, c33.toSparsity.Has i j →
      G (i + (c11.numRows + c22.numRows)) (j + (c11.numRows + c22.numRows)) := fun i j h => by
    rw [← hG]
    exact Or.inr (Or.inr (Or.inr (Or.inr (Or.inr
      ⟨by omega, by omega, by rw [Nat.add_sub_cancel, Nat.add_sub_cancel]; exact h⟩))))
  -- first block row
  refine Sat.bind (foldlM_range_inv (fun i st => VisInv N i (Fill G) st) (VisInv.init _ _ (by simp)) ?_) ?_
  · intro i st hi hinv
    refine Sat.mono (visitTreeRow_sat h11 hT hi (ro := 0) (co := 0) (by omega)
      (fun j hj => ⟨g11 _ _ hj, hl1 _ _ hj⟩) (hinv.rowStart _)) ?_
    intro st' hst'
    refine hinv.rowEnd hst' (fun m h => h.lt) ?_
    intro m
    rw [hT.fill_row]
    simp only [false_or, Nat.add_zero]
    constructor
    · rintro ⟨⟨j, h1, h2, h3⟩, -⟩; exact ⟨h3, j, hl1 _ _ h1, g11 _ _ h1, h2⟩
    · rintro ⟨h3, j, -, h1, h2⟩
      refine ⟨⟨j, ?_, h2, h3⟩, by omega⟩
      rw [← hG] at h1
      rcases h1 with h | ⟨h4, h⟩ | ⟨h4, h5, h⟩ | ⟨h4, h⟩ | ⟨h4, h5, h⟩ | ⟨h4, h5, h⟩
      · exact h
      all_goals omega
  intro st hst
  -- second block row
  refine Sat.bind (foldlM_range_inv (fun i st => VisInv N (i + c11.numRows) (Fill G) st)
    (by rw [Nat.zero_add]; exact hst) ?_) ?_
  · intro i st hi hinv
    refine Sat.bind (visitTreeRow_sat h21 hT hi (ro := c11.numRows) (co := 0) (by omega)
      (fun j hj => ⟨g21 _ _ hj, by have := (r21 _ _ hj).2; omega⟩) (hinv.rowStart _)) ?_
    intro st' hst'
    refine Sat.mono (visitTreeRow_sat h22 hT (by omega) (ro := c11.numRows) (co := c21.numCols) (by omega)
      (fun j hj => ⟨by rw [e4, ← e1]; exact g22 _ _ hj, by have := hl2 _ _ hj; omega⟩) hst') ?_
    intro st'' hst''
    rw [show i + 1 + c11.numRows = i + c11.numRows + 1 by omega]
    refine hinv.rowEnd hst'' (fun m h => h.lt) ?_
    intro m
    rw [hT.fill_row]
    simp only [false_or, Nat.add_zero]
    constructor
    · rintro ⟨⟨j, h1, h2, h3⟩ | ⟨j, h1, h2, h3⟩, -⟩
      · exact ⟨h3, j, by have := (r21 _ _ h1).2; omega, g21 _ _ h1, h2⟩
      · rw [e4, ← e1] at h2
        exact ⟨h3, _, by have := hl2 _ _ h1; omega, g22 _ _ h1, h2⟩
    · rintro ⟨h3, j, -, h1, h2⟩
      refine ⟨?_, by omega⟩
      rw [← hG] at h1
      rcases h1 with h | ⟨h4, h⟩ | ⟨h4, h5, h⟩ | ⟨h4, h⟩ | ⟨h4, h5, h⟩ | ⟨h4, h5, h⟩
      · have := (r11 _ _ h).1; omega
      · rw [Nat.add_sub_cancel] at h; exact Or.inl ⟨j, h, h2, h3⟩
      · rw [Nat.add_sub_cancel] at h
        refine Or.inr ⟨_, h, ?_, h3⟩
        rw [show j - c11.numRows + c21.numCols = j by omega]; exact h2
      all_goals omega
  intro st hst
  -- third block row
  refine Sat.bind (foldlM_range_inv (fun i st => VisInv N (i + (c11.numRows + c22.numRows)) (Fill G) st)
    (by rw [Nat.zero_add, Nat.add_comm, ← e5]; exact hst) ?_) ?_
  · intro i st hi hinv
    refine Sat.bind (visitTreeRow_sat h31 hT hi (ro := c11.numRows + c22.numRows) (co := 0) (by omega)
      (fun j hj => ⟨g31 _ _ hj, by have := (r31 _ _ hj).2; omega⟩) (hinv.rowStart _)) ?_
    intro st' hst'
    refine Sat.bind (visitTreeRow_sat h32 hT (by omega) (ro := c11.numRows + c22.numRows)
      (co := c11.numCols) (by omega)
      (fun j hj => ⟨by rw [← e1]; exact g32 _ _ hj, by have := (r32 _ _ hj).2; omega⟩) hst') ?_
    intro st'' hst''
    refine Sat.mono (visitTreeRow_sat h33 hT (by omega) (ro := c11.numRows + c22.numRows)
      (co := c11.numCols + c22.numCols) (by omega)
      (fun j hj => ⟨by rw [← e1, ← e2]; exact g33 _ _ hj, by have := hl3 _ _ hj; omega⟩) hst'') ?_
    intro st3 hst3
    rw [show i + 1 + (c11.numRows + c22.numRows) = i + (c11.numRows + c22.numRows) + 1 by omega]
    refine hinv.rowEnd hst3 (fun m h => h.lt) ?_
    intro m
    rw [hT.fill_row]
    simp only [false_or, Nat.add_zero]
    constructor
    · rintro ⟨(⟨j, h1, h2, h3⟩ | ⟨j, h1, h2, h3⟩) | ⟨j, h1, h2, h3⟩, -⟩
      · exact ⟨h3, j, by have := (r31 _ _ h1).2; omega, g31 _ _ h1, h2⟩
      · rw [← e1] at h2
        exact ⟨h3, _, by have := (r32 _ _ h1).2; omega, g32 _ _ h1, h2⟩
      · rw [← e1, ← e2] at h2
        exact ⟨h3, _, by have := hl3 _ _ h1; omega, g33 _ _ h1, h2⟩
    · rintro ⟨h3, j, -, h1, h2⟩
      refine ⟨?_, by omega⟩
      rw [← hG] at h1
      rcases h1 with h | ⟨h4, h⟩ | ⟨h4, h5, h⟩ | ⟨h4, h⟩ | ⟨h4, h5, h⟩ | ⟨h4, h5, h⟩
      · have := (r11 _ _ h).1; omega
      · have := (r21 _ _ h).1; omega
      · have := (r22 _ _ h).1; omega
      · rw [Nat.add_sub_cancel] at h; exact Or.inl (Or.inl ⟨j, h, h2, h3⟩)
      · rw [Nat.add_sub_cancel] at h
        refine Or.inl (Or.inr ⟨_, h, ?_, h3⟩)
        rw [show j - c11.numRows + c11.numCols = j by omega]; exact h2
      · rw [Nat.add_sub_cancel] at h
        refine Or.inr ⟨_, h, ?_, h3⟩
        rw [show j - (c11.numRows + c22.numRows) + (c11.numCols + c22.numCols) = j by omega]; exact h2
  intro st hinv
  refine Sat.pure ⟨hinv.nodup, fun e => ?_⟩
  rw [hinv.calls e]
  refine ⟨fun h => h.2, fun h => ⟨?_, h⟩⟩
  have := h.row_bound (n := N) (by
    intro a b hab
    rw [← hG] at hab
    rcases hab with h | ⟨h4, h⟩ | ⟨h4, h5, h⟩ | ⟨h4, h⟩ | ⟨h4, h5, h⟩ | ⟨h4, h5, h⟩
    · have := (r11 _ _ h).1; omega
    · have := (r21 _ _ h).1; omega
    · have := (r22 _ _ h).1; omega
    · have := (r31 _ _ h).1; omega
    · have := (r32 _ _ h).1; omega
    · have := (r33 _ _ h).1; omega)
  omega

end Ctldl
