import Verif.Lemmas.EliminationTree

/-! # The elimination tree of a blocked matrix: helper lemmas -/

namespace Ctldl

/-- Compatible block dimensions. -/
structure DimsOk3 (s11 s21 s22 s31 s32 s33 : Sparsity) : Prop where
  sq1 : s11.numRows = s11.numCols
  sq2 : s22.numRows = s22.numCols
  sq3 : s33.numRows = s33.numCols
  c21 : s21.numCols = s11.numCols
  r21 : s21.numRows = s22.numRows
  c31 : s31.numCols = s11.numCols
  c32 : s32.numCols = s22.numCols
  r31 : s31.numRows = s33.numRows
  r32 : s32.numRows = s33.numRows

/-- The pattern assembled from compressed-row blocks. -/
def assembledHas (c11 c21 c22 c31 c32 c33 : Sparsity) : Nat → Nat → Prop :=
  Assembled3 c11.numRows c22.numRows (fun i j => c11.Has i j) (fun i j => c21.Has i j)
    (fun i j => c22.Has i j) (fun i j => c31.Has i j) (fun i j => c32.Has i j) (fun i j => c33.Has i j)

theorem assembledHas_lower {c11 c21 c22 c31 c32 c33 : Sparsity} (hd : DimsOk3 c11 c21 c22 c31 c32 c33)
    (h21 : c21.InRange) (h31 : c31.InRange) (h32 : c32.InRange)
    (hl1 : ∀ i j, c11.Has i j → j < i) (hl2 : ∀ i j, c22.Has i j → j < i) (hl3 : ∀ i j, c33.Has i j → j < i)
    {i j : Nat} (h : assembledHas c11 c21 c22 c31 c32 c33 i j) : j < i := by
  have := hd.sq1; have := hd.sq2; have := hd.c21; have := hd.c31; have := hd.c32
  rcases h with h | ⟨h1, h⟩ | ⟨h1, h2, h⟩ | ⟨h1, h⟩ | ⟨h1, h2, h⟩ | ⟨h1, h2, h⟩
  · exact hl1 _ _ h
  · have := (h21 _ h).2; simp only at this; omega
  · have := hl2 _ _ h; omega
  · have := (h31 _ h).2; simp only at this; omega
  · have := (h32 _ h).2; simp only at this; omega
  · have := hl3 _ _ h; omega

theorem computeEliminationTreeBlocked3x3_sat {c11 c21 c22 c31 c32 c33 : Csr}
    (hd : DimsOk3 c11.toSparsity c21.toSparsity c22.toSparsity c31.toSparsity c32.toSparsity c33.toSparsity)
    (h11 : c11.Ok) (h21 : c21.Ok) (h22 : c22.Ok) (h31 : c31.Ok) (h32 : c32.Ok) (h33 : c33.Ok)
    (hl1 : ∀ i j, c11.toSparsity.Has i j → j < i) (hl2 : ∀ i j, c22.toSparsity.Has i j → j < i)
    (hl3 : ∀ i j, c33.toSparsity.Has i j → j < i)
    (hn : c11.numRows + c22.numRows + c33.numRows ≤ noParent) :
    Sat (computeEliminationTreeBlocked3x3 c11 c21 c22 c31 c32 c33) (fun tree =>
      tree.length = c11.numRows + c22.numRows + c33.numRows ∧
      IsTree (assembledHas c11.toSparsity c21.toSparsity c22.toSparsity c31.toSparsity c32.toSparsity
        c33.toSparsity) (parOf tree) ∧
      IsEliminationTree (assembledHas c11.toSparsity c21.toSparsity c22.toSparsity c31.toSparsity
        c32.toSparsity c33.toSparsity) (c11.numRows + c22.numRows + c33.numRows) tree) := by
  have e1 : c11.numRows = c11.numCols := hd.sq1
  have e2 : c22.numRows = c22.numCols := hd.sq2
  have e3 : c33.numRows = c33.numCols := hd.sq3
  have e4 : c21.numCols = c11.numCols := hd.c21
  have e5 : c21.numRows = c22.numRows := hd.r21
  have e6 : c31.numCols = c11.numCols := hd.c31
  have e7 : c32.numCols = c22.numCols := hd.c32
  have e8 : c31.numRows = c33.numRows := hd.r31
  have e9 : c32.numRows = c33.numRows := hd.r32
  unfold computeEliminationTreeBlocked3x3
  rw [pre_true (by simp [isSquare, e1]), ok_bind, pre_true (by simp [isSquare, e2]), ok_bind,
    pre_true (by simp [isSquare, e3]), ok_bind, pre_true (by simp [e4]), ok_bind,
    pre_true (by simp [e5]), ok_bind, pre_true (by simp [e6]), ok_bind, pre_true (by simp [e7]), ok_bind,
    pre_true (by simp [e8]), ok_bind, pre_true (by simp [e9]), ok_bind]
  simp only
  generalize hN : c11.numRows + c22.numRows + c33.numRows = N at hn
  let G := assembledHas c11.toSparsity c21.toSparsity c22.toSparsity c31.toSparsity c32.toSparsity
    c33.toSparsity
  -- rows present in the blocks
  have r11 : ∀ i j, c11.toSparsity.Has i j → i < c11.numRows ∧ j < c11.numCols := fun i j h => h11.inRange _ h
  have r21 : ∀ i j, c21.toSparsity.Has i j → i < c21.numRows ∧ j < c21.numCols := fun i j h => h21.inRange _ h
  have r22 : ∀ i j, c22.toSparsity.Has i j → i < c22.numRows ∧ j < c22.numCols := fun i j h => h22.inRange _ h
  have r31 : ∀ i j, c31.toSparsity.Has i j → i < c31.numRows ∧ j < c31.numCols := fun i j h => h31.inRange _ h
  have r32 : ∀ i j, c32.toSparsity.Has i j → i < c32.numRows ∧ j < c32.numCols := fun i j h => h32.inRange _ h
  have r33 : ∀ i j, c33.toSparsity.Has i j → i < c33.numRows ∧ j < c33.numCols := fun i j h => h33.inRange _ h
  -- first block row
  refine Sat.bind (foldlM_range_inv (fun k st =>
    TreeInv N (fun a b => a < k ∧ G a b) st) ((TreeInv.init _).congr (by simp)) ?_) ?_
  · intro k st hk hinv
    refine Sat.mono (addRowEliminationTree_sat hinv hn h11 hk (ro := 0) (co := 0) ?_ (by omega) (by omega) ?_) ?_
    · rintro a b ⟨h1, -⟩; omega
    · intro j hj; have := hl1 _ _ hj; omega
    · intro st' hinv'
      refine hinv'.congr ?_
      intro a b
      simp only [addRow, Nat.add_zero, Nat.zero_le, true_and, Nat.sub_zero]
      constructor
      · rintro (⟨h1, h2⟩ | ⟨rfl, h2⟩)
        · exact ⟨by omega, h2⟩
        · exact ⟨by omega, Or.inl h2⟩
      · rintro ⟨h1, h2⟩
        rcases (show a < k ∨ a = k by omega) with h3 | h3
        · exact Or.inl ⟨h3, h2⟩
        · subst h3
          right
          refine ⟨rfl, ?_⟩
          rcases h2 with h | ⟨h4, h⟩ | ⟨h4, h5, h⟩ | ⟨h4, h⟩ | ⟨h4, h5, h⟩ | ⟨h4, h5, h⟩
          · exact h
          all_goals omega
  intro st hst
  -- second block row
  refine Sat.bind (foldlM_range_inv (fun k st =>
    TreeInv N (fun a b => a < c11.numRows + k ∧ G a b) st) hst ?_) ?_
  · intro k st hk hinv
    refine Sat.bind (addRowEliminationTree_sat hinv hn h21 hk (ro := c11.numRows) (co := 0) ?_ (by omega)
      (by omega) ?_) ?_
    · rintro a b ⟨h1, -⟩; omega
    · intro j hj; have := (r21 _ _ hj).2; omega
    intro st' hinv'
    refine Sat.mono (addRowEliminationTree_sat hinv' hn h22 (by omega) (ro := c11.numRows)
      (co := c21.numCols) ?_ (by omega) (by omega) ?_) ?_
    · rintro a b (⟨h1, -⟩ | ⟨rfl, -⟩) <;> omega
    · intro j hj; have := hl2 _ _ hj; omega
    · intro st'' hinv''
      refine hinv''.congr ?_
      intro a b
      simp only [addRow, Nat.zero_le, true_and, Nat.sub_zero]
      constructor
      · rintro ((⟨h1, h2⟩ | ⟨rfl, h2⟩) | ⟨rfl, h2, h3⟩)
        · exact ⟨by omega, h2⟩
        · refine ⟨by omega, Or.inr (Or.inl ⟨by omega, ?_⟩)⟩
          rw [show k + c11.numRows - c11.numRows = k by omega]; exact h2
        · refine ⟨by omega, Or.inr (Or.inr (Or.inl ⟨by omega, by omega, ?_⟩))⟩
          rw [show k + c11.numRows - c11.numRows = k by omega, show b - c11.numRows = b - c21.numCols by omega]
          exact h3
      · rintro ⟨h1, h2⟩
        rcases (show a < c11.numRows + k ∨ a = c11.numRows + k by omega) with h3 | h3
        · exact Or.inl (Or.inl ⟨h3, h2⟩)
        · subst h3
          rcases h2 with h | ⟨h4, h⟩ | ⟨h4, h5, h⟩ | ⟨h4, h⟩ | ⟨h4, h5, h⟩ | ⟨h4, h5, h⟩
          · have := (r11 _ _ h).1; omega
          · refine Or.inl (Or.inr ⟨by omega, ?_⟩)
            rw [show c11.numRows + k - c11.numRows = k by omega] at h; exact h
          · refine Or.inr ⟨by omega, by omega, ?_⟩
            rw [show c11.numRows + k - c11.numRows = k by omega,
              show b - c11.numRows = b - c21.numCols by omega] at h
            exact h
          all_goals omega
  intro st hst
  -- third block row
  refine Sat.bind (foldlM_range_inv (fun k st =>
    TreeInv N (fun a b => a < c11.numRows + c22.numRows + k ∧ G a b) st)
    (hst.congr (fun a b => by rw [e5, Nat.add_zero])) ?_) ?_
  · intro k st hk hinv
    refine Sat.bind (addRowEliminationTree_sat hinv hn h31 hk (ro := c11.numRows + c22.numRows) (co := 0) ?_
      (by omega) (by omega) ?_) ?_
    · rintro a b ⟨h1, -⟩; omega
    · intro j hj; have := (r31 _ _ hj).2; omega
    intro st' hinv'
    refine Sat.bind (addRowEliminationTree_sat hinv' hn h32 (by omega) (ro := c11.numRows + c22.numRows)
      (co := c11.numCols) ?_ (by omega) (by omega) ?_) ?_
    · rintro a b (⟨h1, -⟩ | ⟨rfl, -⟩) <;> omega
    · intro j hj; have := (r32 _ _ hj).2; omega
    intro st'' hinv''
    refine Sat.mono (addRowEliminationTree_sat hinv'' hn h33 (by omega) (ro := c11.numRows + c22.numRows)
      (co := c11.numCols + c22.numCols) ?_ (by omega) (by omega) ?_) ?_
    · rintro a b ((⟨h1, -⟩ | ⟨rfl, -⟩) | ⟨rfl, -⟩) <;> omega
    · intro j hj; have := hl3 _ _ hj; omega
    · intro st3 hinv3
      refine hinv3.congr ?_
      intro a b
      simp only [addRow, Nat.zero_le, true_and, Nat.sub_zero]
      have hk' : c11.numRows + c22.numRows + k - (c11.numRows + c22.numRows) = k := by omega
      have hk'' : k + (c11.numRows + c22.numRows) - (c11.numRows + c22.numRows) = k := by omega
      have hb1 : b - c11.numRows = b - c11.numCols := by omega
      have hb2 : b - (c11.numRows + c22.numRows) = b - (c11.numCols + c22.numCols) := by omega
      constructor
      · rintro (((⟨h1, h2⟩ | ⟨rfl, h2⟩) | ⟨rfl, h2, h3⟩) | ⟨rfl, h2, h3⟩)
        · exact ⟨by omega, h2⟩
        · refine ⟨by omega, Or.inr (Or.inr (Or.inr (Or.inl ⟨by omega, ?_⟩)))⟩
          rw [hk'']; exact h2
        · refine ⟨by omega, Or.inr (Or.inr (Or.inr (Or.inr (Or.inl ⟨by omega, by omega, ?_⟩))))⟩
          rw [hk'', hb1]; exact h3
        · refine ⟨by omega, Or.inr (Or.inr (Or.inr (Or.inr (Or.inr ⟨by omega, by omega, ?_⟩))))⟩
          rw [hk'', hb2]; exact h3
      · rintro ⟨h1, h2⟩
        rcases (show a < c11.numRows + c22.numRows + k ∨ a = c11.numRows + c22.numRows + k by omega) with h3 | h3
        · exact Or.inl (Or.inl (Or.inl ⟨h3, h2⟩))
        · subst h3
          rcases h2 with h | ⟨h4, h⟩ | ⟨h4, h5, h⟩ | ⟨h4, h⟩ | ⟨h4, h5, h⟩ | ⟨h4, h5, h⟩
          · have := (r11 _ _ h).1; omega
          · have := (r21 _ _ h).1; omega
          · have := (r22 _ _ h).1; omega
          · refine Or.inl (Or.inl (Or.inr ⟨by omega, ?_⟩))
            rw [hk'] at h; exact h
          · refine Or.inl (Or.inr ⟨by omega, by omega, ?_⟩)
            rw [hk', hb1] at h; exact h
          · refine Or.inr ⟨by omega, by omega, ?_⟩
            rw [hk', hb2] at h; exact h
  intro st hinv
  have hinv' : TreeInv N G st := hinv.congr fun a b => by
    refine ⟨fun h => h.2, fun h => ⟨?_, h⟩⟩
    rcases h with h | ⟨h4, h⟩ | ⟨h4, h5, h⟩ | ⟨h4, h⟩ | ⟨h4, h5, h⟩ | ⟨h4, h5, h⟩
    · have := (r11 _ _ h).1; omega
    · have := (r21 _ _ h).1; omega
    · have := (r22 _ _ h).1; omega
    · have := (r31 _ _ h).1; omega
    · have := (r32 _ _ h).1; omega
    · have := (r33 _ _ h).1; omega
  exact Sat.pure ⟨hinv'.length, hinv'.tree, hinv'.spec⟩

theorem csrOf_empty_ok (r c : Nat) : (csrOf (emptySparsity r c)).Ok := csrOf_ok (emptySparsity_inRange r c)

end Ctldl
