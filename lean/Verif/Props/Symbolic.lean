import Verif.Lemmas.Chordal

/-! # C12 – C15, C19, C20: elimination trees and fill-in -/

namespace Ctldl

/-- Witness: a strictly lower 5 x 5 pattern in no particular order, with a duplicate; eliminating it creates
fill-in at (3, 1), (4, 1), (4, 3). -/
def witnessLower : Sparsity := ⟨5, 5, [⟨4, 0⟩, ⟨1, 0⟩, ⟨3, 0⟩, ⟨1, 0⟩, ⟨4, 2⟩]⟩

theorem witnessLower_inRange : witnessLower.InRange := by unfold Sparsity.InRange; decide

theorem witnessLower_lower : ∀ i j, witnessLower.Has i j → j < i := by
  have : ∀ e ∈ witnessLower.entries, e.col < e.row := by decide
  exact fun i j h => this _ h

/-! ### C12 -/

/-- The bound of the dimensions in this and other claims only excludes dimensions which are no values of `std::size_t`. -/
theorem C12_dimensions (n : Nat) : n ≤ noParent ↔ n < 2 ^ 64 := by
  unfold noParent
  omega

/-- C12: for every strictly lower triangular pattern the computed list of parents is the elimination tree. -/
theorem C12_elimination_tree (s : Sparsity) (hs : s.InRange) (hsq : s.numRows = s.numCols)
    (hn : s.numRows ≤ noParent) (hlow : ∀ i j, s.Has i j → j < i) :
    ∃ c tree, s.toCsr = .ok c ∧ computeEliminationTree c = .ok tree ∧
      IsEliminationTree (fun i j => s.Has i j) s.numRows tree := by
  have hm : ∀ i j, (csrOf s).toSparsity.Has i j ↔ s.Has i j := fun i j => csrOf_mem fun e he => (hs e he).1
  obtain ⟨tree, h1, -, -, h2⟩ := computeEliminationTree_sat (csrOf_ok hs) hsq hn
    (fun i j h => hlow i j ((hm i j).mp h))
  refine ⟨_, tree, toCsr_eq hs, h1, ?_⟩
  have : (fun i j => (csrOf s).toSparsity.Has i j) = (fun i j => s.Has i j) :=
    funext fun i => funext fun j => propext (hm i j)
  rw [this] at h2
  exact h2

/-- C12: the result read through the accessors: `hasParent` and `getParent` give the first row below the
diagonal with a non-zero after fill-in, roots are exactly the columns without one. -/
theorem C12_parent_accessors (s : Sparsity) (hs : s.InRange) (hsq : s.numRows = s.numCols)
    (hn : s.numRows ≤ noParent) (hlow : ∀ i j, s.Has i j → j < i) :
    ∃ c tree, s.toCsr = .ok c ∧ computeEliminationTree c = .ok tree ∧ ∀ j < s.numRows,
      (hasParent tree j = .ok true ↔ ∃ i, Fill (fun i j => s.Has i j) i j) ∧
      (∀ p, (hasParent tree j = .ok true ∧ getParent tree j = .ok p) ↔ IsParent (fun i j => s.Has i j) j p) := by
  obtain ⟨c, tree, h1, h2, h3, h4⟩ := C12_elimination_tree s hs hsq hn hlow
  refine ⟨c, tree, h1, h2, ?_⟩
  intro j hj
  have hpar : ∀ p, IsParent (fun i j => s.Has i j) j p → p < noParent := by
    intro p hp
    have := hp.1.row_bound (n := s.numRows) fun a b hab => (hs _ hab).1
    omega
  rcases h4 j hj with ⟨p, hp, ht⟩ | ⟨hno, ht⟩
  · have hlt := hpar p hp
    have e1 : hasParent tree j = .ok true := by
      rw [hasParent, rd_of_getElem? ht, ok_bind]
      simp only [pure_eq_ok, Except.ok.injEq, bne_iff_ne, ne_eq]
      omega
    have e2 : getParent tree j = .ok p := getParent_eq (parOf_eq_some.mpr ⟨ht, by omega⟩)
    refine ⟨⟨fun _ => ⟨p, hp.1⟩, fun _ => e1⟩, fun q => ⟨?_, ?_⟩⟩
    · rintro ⟨-, h⟩
      rw [e2] at h
      cases h
      exact hp
    · intro hq
      rw [hq.unique hp]
      exact ⟨e1, e2⟩
  · have e1 : hasParent tree j ≠ .ok true := by
      rw [hasParent, rd_of_getElem? ht, ok_bind, pure_eq_ok]
      simp
    refine ⟨⟨fun h => absurd h e1, fun h => absurd h hno⟩, fun q => ⟨fun h => absurd h.1 e1, fun h => ?_⟩⟩
    exact absurd ⟨q, h.1⟩ hno

/-- C12: non-square patterns are reported as contract violation. -/
theorem C12_not_square (c : Csr) (h : c.numRows ≠ c.numCols) : computeEliminationTree c = .error .pre := by
  unfold computeEliminationTree
  simp [pre, isSquare, h, error_bind]

example : witnessLower.InRange ∧ witnessLower.numRows = witnessLower.numCols ∧
    witnessLower.numRows ≤ noParent ∧ (∀ i j, witnessLower.Has i j → j < i) ∧
    (do computeEliminationTree (← witnessLower.toCsr)) = .ok [1, 3, 4, 4, noParent] :=
  ⟨witnessLower_inRange, rfl, by decide, witnessLower_lower, by decide⟩

/-! ### C13 -/

/-- C13: the elimination tree of a 3 x 3 blocked matrix is that of the assembled matrix. -/
theorem C13_blocked3x3 (s11 s21 s22 s31 s32 s33 : Sparsity) (hd : DimsOk3 s11 s21 s22 s31 s32 s33)
    (h11 : s11.InRange) (h21 : s21.InRange) (h22 : s22.InRange) (h31 : s31.InRange) (h32 : s32.InRange)
    (h33 : s33.InRange)
    (l11 : ∀ i j, s11.Has i j → j < i) (l22 : ∀ i j, s22.Has i j → j < i) (l33 : ∀ i j, s33.Has i j → j < i)
    (hn : s11.numRows + s22.numRows + s33.numRows ≤ noParent) :
    ∃ c11 c21 c22 c31 c32 c33 tree, s11.toCsr = .ok c11 ∧ s21.toCsr = .ok c21 ∧ s22.toCsr = .ok c22 ∧
      s31.toCsr = .ok c31 ∧ s32.toCsr = .ok c32 ∧ s33.toCsr = .ok c33 ∧
      computeEliminationTreeBlocked3x3 c11 c21 c22 c31 c32 c33 = .ok tree ∧
      IsEliminationTree (Assembled3 s11.numRows s22.numRows (fun i j => s11.Has i j) (fun i j => s21.Has i j)
        (fun i j => s22.Has i j) (fun i j => s31.Has i j) (fun i j => s32.Has i j) (fun i j => s33.Has i j))
        (s11.numRows + s22.numRows + s33.numRows) tree := by
  have hm : ∀ {s : Sparsity}, s.InRange → ∀ i j, (csrOf s).toSparsity.Has i j ↔ s.Has i j :=
    fun hs i j => csrOf_mem fun e he => (hs e he).1
  obtain ⟨tree, h1, -, -, h2⟩ := computeEliminationTreeBlocked3x3_sat
    (c11 := csrOf s11) (c21 := csrOf s21) (c22 := csrOf s22) (c31 := csrOf s31) (c32 := csrOf s32)
    (c33 := csrOf s33) ⟨hd.sq1, hd.sq2, hd.sq3, hd.c21, hd.r21, hd.c31, hd.c32, hd.r31, hd.r32⟩
    (csrOf_ok h11) (csrOf_ok h21) (csrOf_ok h22) (csrOf_ok h31) (csrOf_ok h32) (csrOf_ok h33)
    (fun i j h => l11 i j ((hm h11 i j).mp h)) (fun i j h => l22 i j ((hm h22 i j).mp h))
    (fun i j h => l33 i j ((hm h33 i j).mp h)) hn
  refine ⟨_, _, _, _, _, _, tree, toCsr_eq h11, toCsr_eq h21, toCsr_eq h22, toCsr_eq h31, toCsr_eq h32,
    toCsr_eq h33, h1, ?_⟩
  have : assembledHas (csrOf s11).toSparsity (csrOf s21).toSparsity (csrOf s22).toSparsity
      (csrOf s31).toSparsity (csrOf s32).toSparsity (csrOf s33).toSparsity =
      Assembled3 s11.numRows s22.numRows (fun i j => s11.Has i j) (fun i j => s21.Has i j)
        (fun i j => s22.Has i j) (fun i j => s31.Has i j) (fun i j => s32.Has i j) (fun i j => s33.Has i j) :=
    funext fun i => funext fun j => propext
      (Assembled3.congr (hm h11) (hm h21) (hm h22) (hm h31) (hm h32) (hm h33) i j)
  rw [this] at h2
  exact h2

/-- C13: the same for 2 x 2 blocks. -/
theorem C13_blocked2x2 (s11 s21 s22 : Sparsity) (sq1 : s11.numRows = s11.numCols)
    (sq2 : s22.numRows = s22.numCols) (hc : s21.numCols = s11.numCols) (hr : s21.numRows = s22.numRows)
    (h11 : s11.InRange) (h21 : s21.InRange) (h22 : s22.InRange)
    (l11 : ∀ i j, s11.Has i j → j < i) (l22 : ∀ i j, s22.Has i j → j < i)
    (hn : s11.numRows + s22.numRows ≤ noParent) :
    ∃ c11 c21 c22 tree, s11.toCsr = .ok c11 ∧ s21.toCsr = .ok c21 ∧ s22.toCsr = .ok c22 ∧
      computeEliminationTreeBlocked c11 c21 c22 = .ok tree ∧
      IsEliminationTree (Assembled2 s11.numRows (fun i j => s11.Has i j) (fun i j => s21.Has i j)
        (fun i j => s22.Has i j)) (s11.numRows + s22.numRows) tree := by
  obtain ⟨c11, c21, c22, c31, c32, c33, tree, e11, e21, e22, e31, e32, e33, h1, h2⟩ :=
    C13_blocked3x3 s11 s21 s22 (emptySparsity 0 s11.numCols) (emptySparsity 0 s22.numCols) (emptySparsity 0 0)
      ⟨sq1, sq2, rfl, hc, hr, rfl, rfl, rfl, rfl⟩ h11 h21 h22 (emptySparsity_inRange _ _)
      (emptySparsity_inRange _ _) (emptySparsity_inRange _ _) l11 l22
      (fun i j h => by simp [Sparsity.Has, emptySparsity] at h) hn
  refine ⟨c11, c21, c22, tree, e11, e21, e22, ?_, ?_⟩
  · unfold computeEliminationTreeBlocked
    have d11 : c11.numCols = s11.numCols := by rw [toCsr_eq h11] at e11; cases e11; rfl
    have d22 : c22.numCols = s22.numCols := by rw [toCsr_eq h22] at e22; cases e22; rfl
    rw [d11, d22, e31, ok_bind, e32, ok_bind, e33, ok_bind]
    exact h1
  · have : Assembled3 s11.numRows s22.numRows (fun i j => s11.Has i j) (fun i j => s21.Has i j)
        (fun i j => s22.Has i j) (fun i j => (emptySparsity 0 s11.numCols).Has i j)
        (fun i j => (emptySparsity 0 s22.numCols).Has i j) (fun i j => (emptySparsity 0 0).Has i j) =
        Assembled2 s11.numRows (fun i j => s11.Has i j) (fun i j => s21.Has i j) (fun i j => s22.Has i j) :=
      funext fun i => funext fun j => propext (assembled3_empty
        (fun i j h => by simp [Sparsity.Has, emptySparsity] at h)
        (fun i j h => by simp [Sparsity.Has, emptySparsity] at h)
        (fun i j h => by simp [Sparsity.Has, emptySparsity] at h) i j)
    rw [this] at h2
    exact h2

/-- C13: inconsistent block dimensions are reported as contract violation. -/
theorem C13_inconsistent (c11 c21 c22 c31 c32 c33 : Csr)
    (hd : ¬ DimsOk3 c11.toSparsity c21.toSparsity c22.toSparsity c31.toSparsity c32.toSparsity c33.toSparsity) :
    computeEliminationTreeBlocked3x3 c11 c21 c22 c31 c32 c33 = .error .pre := by
  unfold computeEliminationTreeBlocked3x3
  by_cases a1 : c11.numRows = c11.numCols
  swap; · simp [pre, isSquare, a1, error_bind]
  by_cases a2 : c22.numRows = c22.numCols
  swap; · simp [pre, isSquare, a1, a2, error_bind, ok_bind]
  by_cases a3 : c33.numRows = c33.numCols
  swap; · simp [pre, isSquare, a1, a2, a3, error_bind, ok_bind]
  by_cases a4 : c21.numCols = c11.numCols
  swap; · simp [pre, isSquare, a1, a2, a3, a4, error_bind, ok_bind]
  by_cases a5 : c21.numRows = c22.numRows
  swap; · rw [a2] at a5; simp [pre, isSquare, a1, a2, a3, a4, a5, error_bind, ok_bind]
  by_cases a6 : c31.numCols = c11.numCols
  swap; · simp [pre, isSquare, a1, a2, a3, a4, a5, a6, error_bind, ok_bind]
  by_cases a7 : c32.numCols = c22.numCols
  swap; · simp [pre, isSquare, a1, a2, a3, a4, a5, a6, a7, error_bind, ok_bind]
  by_cases a8 : c31.numRows = c33.numRows
  swap; · rw [a3] at a8; simp [pre, isSquare, a1, a2, a3, a4, a5, a6, a7, a8, error_bind, ok_bind]
  by_cases a9 : c32.numRows = c33.numRows
  swap; · rw [a3] at a9; simp [pre, isSquare, a1, a2, a3, a4, a5, a6, a7, a8, a9, error_bind, ok_bind]
  exact absurd ⟨a1, a2, a3, a4, a5, a6, a7, a8, a9⟩ hd

/-- C13: also for two blocks. -/
theorem C13_inconsistent_2x2 (c11 c21 c22 : Csr) (hd : ¬ (c11.numRows = c11.numCols ∧ c22.numRows = c22.numCols ∧
      c21.numCols = c11.numCols ∧ c21.numRows = c22.numRows)) :
    computeEliminationTreeBlocked c11 c21 c22 = .error .pre := by
  unfold computeEliminationTreeBlocked
  rw [toCsr_eq (emptySparsity_inRange _ _), ok_bind, toCsr_eq (emptySparsity_inRange _ _), ok_bind,
    toCsr_eq (emptySparsity_inRange _ _), ok_bind]
  refine C13_inconsistent _ _ _ _ _ _ fun h => hd ?_
  obtain ⟨a1, a2, -, a4, a5, -⟩ := h
  exact ⟨a1, a2, a4, a5⟩

/-! Witness for blocks: 2 + 2 + 1 rows with fill-in in several blocks. -/

def witness11 : Sparsity := ⟨2, 2, [⟨1, 0⟩]⟩
def witness21 : Sparsity := ⟨2, 2, [⟨1, 1⟩, ⟨0, 0⟩]⟩
def witness22 : Sparsity := ⟨2, 2, []⟩
def witness31 : Sparsity := ⟨1, 2, []⟩
def witness32 : Sparsity := ⟨1, 2, [⟨0, 0⟩]⟩
def witness33 : Sparsity := ⟨1, 1, []⟩

theorem witnessBlocks_ok : DimsOk3 witness11 witness21 witness22 witness31 witness32 witness33 ∧
    witness11.InRange ∧ witness21.InRange ∧ witness22.InRange ∧ witness31.InRange ∧ witness32.InRange ∧
    witness33.InRange ∧ (∀ i j, witness11.Has i j → j < i) ∧ (∀ i j, witness22.Has i j → j < i) ∧
    (∀ i j, witness33.Has i j → j < i) := by
  refine ⟨⟨rfl, rfl, rfl, rfl, rfl, rfl, rfl, rfl, rfl⟩, ?_, ?_, ?_, ?_, ?_, ?_, ?_, ?_, ?_⟩
  iterate 6 · unfold Sparsity.InRange; decide
  all_goals
    intro i j h
    simp [Sparsity.Has, witness11, witness22, witness33] at h
    try omega

example : (do
      computeEliminationTreeBlocked3x3 (← witness11.toCsr) (← witness21.toCsr) (← witness22.toCsr)
        (← witness31.toCsr) (← witness32.toCsr) (← witness33.toCsr)) = .ok [1, 2, 3, 4, noParent] := by decide

example : ∃ c11 c21 c22 c31 c32 c33 : Csr, ¬ DimsOk3 c11.toSparsity c21.toSparsity c22.toSparsity
    c31.toSparsity c32.toSparsity c33.toSparsity :=
  ⟨csrOf witness11, csrOf witness31, csrOf witness22, csrOf witness31, csrOf witness32, csrOf witness33,
    fun h => absurd h.r21 (by decide)⟩

/-! ### C14 -/

/-- C14: the filled-in sparsity of a square pattern under a permutation is exactly the fill-in of the permuted
matrix, in strictly increasing row-major order. -/
theorem C14_filled_in (s : Sparsity) (p : List Nat) (hs : s.InRange) (hsq : s.numRows = s.numCols)
    (hp : IsPerm p s.numRows) (hn : s.numRows ≤ noParent) :
    ∃ f, getFilledInSparsity s p = .ok f ∧
      f.IsPattern s.numRows s.numRows (Fill (LowerPermuted s p)) :=
  getFilledInSparsity_sat hs hsq hp hn

/-- C14: it is strictly lower, contains the permuted input, is closed under elimination and is contained in every
pattern with these properties. -/
theorem C14_smallest (s : Sparsity) (p : List Nat) (hs : s.InRange) (hsq : s.numRows = s.numCols)
    (hp : IsPerm p s.numRows) (hn : s.numRows ≤ noParent) :
    ∃ f, getFilledInSparsity s p = .ok f ∧ f.entries.Nodup ∧
      (∀ i j, f.Has i j → j < i) ∧ (∀ i j, LowerPermuted s p i j → f.Has i j) ∧
      (∀ i j k, f.Has i j → f.Has k j → k < i → f.Has i k) ∧
      ∀ H : Nat → Nat → Prop, (∀ i j, LowerPermuted s p i j → H i j) →
        (∀ i j k, H i j → H k j → k < i → H i k) → ∀ i j, f.Has i j → H i j := by
  obtain ⟨f, h1, h2, h3, h4, h5⟩ := getFilledInSparsity_sat hs hsq hp hn
  have hb : ∀ {i j}, Fill (LowerPermuted s p) i j → i < s.numRows ∧ j < s.numRows := fun h => by
    have := h.row_bound (n := s.numRows) fun a b hab => hab.2.1
    have := h.lt
    omega
  refine ⟨f, h1, sorted_nodup h4, ?_, ?_, ?_, ?_⟩
  · intro i j h; exact ((h5 i j).mp h).2.2.lt
  · intro i j h
    have hf : Fill (LowerPermuted s p) i j := .base h h.1
    exact (h5 i j).mpr ⟨(hb hf).1, (hb hf).2, hf⟩
  · intro i j k h h' hlt
    have hf := Fill.step ((h5 i j).mp h).2.2 ((h5 k j).mp h').2.2 hlt
    exact (h5 i k).mpr ⟨(hb hf).1, (hb hf).2, hf⟩
  · intro H hb hc i j h
    have hf := ((h5 i j).mp h).2.2
    clear h
    induction hf with
    | base h _ => exact hb _ _ h
    | step _ _ hlt ih1 ih2 => exact hc _ _ _ ih1 ih2 hlt

/-- C14: contract violations. -/
theorem C14_contract (s : Sparsity) (p : List Nat) (h : s.numRows ≠ s.numCols ∨ p.length ≠ s.numRows) :
    getFilledInSparsity s p = .error .pre := by
  unfold getFilledInSparsity
  by_cases hsq : s.numRows = s.numCols
  · have h' : p.length ≠ s.numRows := by tauto
    simp [pre, isSquare, hsq, ok_bind]
    rw [if_neg (by omega)]
    rfl
  · simp [pre, isSquare, hsq, error_bind]

example : witnessLower.InRange ∧ witnessLower.numRows = witnessLower.numCols ∧
    IsPerm [4, 2, 0, 1, 3] witnessLower.numRows ∧ witnessLower.numRows ≤ noParent ∧
    LowerPermuted witnessLower [4, 2, 0, 1, 3] 2 0 ∧
    Fill (LowerPermuted witnessLower [4, 2, 0, 1, 3]) 2 1 ∧
    ¬ LowerPermuted witnessLower [4, 2, 0, 1, 3] 2 1 := by
  have h0 : ∀ i j, LowerPermuted witnessLower [4, 2, 0, 1, 3] i j ↔ j < i ∧ i < witnessLower.numRows ∧
    witnessLower.Has (max (permAt [4, 2, 0, 1, 3] i) (permAt [4, 2, 0, 1, 3] j))
      (min (permAt [4, 2, 0, 1, 3] i) (permAt [4, 2, 0, 1, 3] j)) := fun _ _ => Iff.rfl
  refine ⟨witnessLower_inRange, rfl, ?_, by decide, ?_, ?_, ?_⟩
  · unfold IsPerm; decide
  · rw [h0]; decide
  · refine .step (j := 0) (.base ?_ (by omega)) (.base ?_ (by omega)) (by omega) <;> rw [h0] <;> decide
  · rw [h0]; decide

/-! ### C15 -/

/-- C15: 3 x 3 blocks: each block of the result is the corresponding block of the fill-in of the assembled
permuted matrix. -/
theorem C15_blocked3x3 (in11 in21 in22 in31 in32 in33 : Sparsity) (p1 p2 p3 : List Nat)
    (hd : DimsOk3 in11 in21 in22 in31 in32 in33)
    (h11 : in11.InRange) (h21 : in21.InRange) (h22 : in22.InRange) (h31 : in31.InRange) (h32 : in32.InRange)
    (h33 : in33.InRange) (hp1 : IsPerm p1 in11.numRows) (hp2 : IsPerm p2 in22.numRows)
    (hp3 : IsPerm p3 in33.numRows) (hn : in11.numRows + in22.numRows + in33.numRows ≤ noParent) :
    ∃ f, getFilledInSparsityBlocked3x3 in11 in21 in22 in31 in32 in33 p1 p2 p3 = .ok f ∧
      ∀ n1 n2 n3 F, n1 = in11.numRows → n2 = in22.numRows → n3 = in33.numRows →
        F = Fill (Assembled3 n1 n2 (LowerPermuted in11 p1) (RectPermuted in21 p2 p1) (LowerPermuted in22 p2)
          (RectPermuted in31 p3 p1) (RectPermuted in32 p3 p2) (LowerPermuted in33 p3)) →
        f.block11.IsPattern n1 n1 (fun i j => F i j) ∧
        f.block21.IsPattern n2 n1 (fun i j => F (n1 + i) j) ∧
        f.block22.IsPattern n2 n2 (fun i j => F (n1 + i) (n1 + j)) ∧
        f.block31.IsPattern n3 n1 (fun i j => F (n1 + n2 + i) j) ∧
        f.block32.IsPattern n3 n2 (fun i j => F (n1 + n2 + i) (n1 + j)) ∧
        f.block33.IsPattern n3 n3 (fun i j => F (n1 + n2 + i) (n1 + n2 + j)) := by
  obtain ⟨f, h1, h2⟩ := getFilledInSparsityBlocked3x3_sat hd h11 h21 h22 h31 h32 h33 hp1 hp2 hp3 hn
  refine ⟨f, h1, ?_⟩
  rintro n1 n2 n3 F rfl rfl rfl rfl
  exact h2

/-- C15: 2 x 2 blocks. -/
theorem C15_blocked2x2 (in11 in21 in22 : Sparsity) (p1 p2 : List Nat)
    (sq1 : in11.numRows = in11.numCols) (sq2 : in22.numRows = in22.numCols) (hc : in21.numCols = in11.numCols)
    (hr : in21.numRows = in22.numRows) (h11 : in11.InRange) (h21 : in21.InRange) (h22 : in22.InRange)
    (hp1 : IsPerm p1 in11.numRows) (hp2 : IsPerm p2 in22.numRows)
    (hn : in11.numRows + in22.numRows ≤ noParent) :
    ∃ f, getFilledInSparsityBlocked in11 in21 in22 p1 p2 = .ok f ∧
      ∀ n1 n2 F, n1 = in11.numRows → n2 = in22.numRows →
        F = Fill (Assembled2 n1 (LowerPermuted in11 p1) (RectPermuted in21 p2 p1) (LowerPermuted in22 p2)) →
        f.block11.IsPattern n1 n1 (fun i j => F i j) ∧
        f.block21.IsPattern n2 n1 (fun i j => F (n1 + i) j) ∧
        f.block22.IsPattern n2 n2 (fun i j => F (n1 + i) (n1 + j)) := by
  obtain ⟨f, h1, h2⟩ := getFilledInSparsityBlocked_sat sq1 sq2 hc hr h11 h21 h22 hp1 hp2 hn
  refine ⟨f, h1, ?_⟩
  rintro n1 n2 F rfl rfl rfl
  exact h2

/-- C15: 2 x 2 blocks without permutations. -/
theorem C15_blocked2x2_unpermuted (s11 s21 s22 : Sparsity)
    (sq1 : s11.numRows = s11.numCols) (sq2 : s22.numRows = s22.numCols) (hc : s21.numCols = s11.numCols)
    (hr : s21.numRows = s22.numRows) (h11 : s11.InRange) (h21 : s21.InRange) (h22 : s22.InRange)
    (hn : s11.numRows + s22.numRows ≤ noParent) :
    ∃ f, getFilledInSparsityBlockedId s11 s21 s22 = .ok f ∧
      ∀ n1 n2 F, n1 = s11.numRows → n2 = s22.numRows →
        F = Fill (Assembled2 n1 (fun i j => j < i ∧ s11.Has i j) (fun i j => s21.Has i j)
          (fun i j => j < i ∧ s22.Has i j)) →
        f.block11.IsPattern n1 n1 (fun i j => F i j) ∧
        f.block21.IsPattern n2 n1 (fun i j => F (n1 + i) j) ∧
        f.block22.IsPattern n2 n2 (fun i j => F (n1 + i) (n1 + j)) := by
  obtain ⟨f, h1, h2⟩ := C15_blocked2x2 s11 s21 s22 (identityPermutation s11.numRows) (identityPermutation s22.numRows)
    sq1 sq2 hc hr h11 h21 h22 (isPerm_identity _) (isPerm_identity _) hn
  refine ⟨f, h1, ?_⟩
  rintro n1 n2 F rfl rfl rfl
  have h3 := h2 _ _ _ rfl rfl rfl
  have e1 : LowerPermuted s11 (identityPermutation s11.numRows) = fun i j => j < i ∧ s11.Has i j :=
    funext fun i => funext fun j => propext (lowerPermuted_id h11 sq1 i j)
  have e2 : LowerPermuted s22 (identityPermutation s22.numRows) = fun i j => j < i ∧ s22.Has i j :=
    funext fun i => funext fun j => propext (lowerPermuted_id h22 sq2 i j)
  have e3 : RectPermuted s21 (identityPermutation s22.numRows) (identityPermutation s11.numRows) =
      fun i j => s21.Has i j := by
    rw [← hr, sq1, ← hc]
    exact funext fun i => funext fun j => propext (rectPermuted_id h21 i j)
  rw [e1, e2, e3] at h3
  exact h3

example : DimsOk3 witness11 witness21 witness22 witness31 witness32 witness33 ∧
    IsPerm [1, 0] witness11.numRows ∧ IsPerm [0, 1] witness22.numRows ∧ IsPerm [0] witness33.numRows :=
  ⟨witnessBlocks_ok.1, by unfold IsPerm; decide, by unfold IsPerm; decide, by unfold IsPerm; decide⟩

/-! ### C19 -/

/-- C19: for duplicate-free patterns with consistent dimensions the check is true exactly if the diagonal blocks
are strictly lower triangular and the assembled pattern has no fill-in. -/
theorem C19_isChordalBlocked (s11 s21 s22 : Sparsity)
    (sq1 : s11.numRows = s11.numCols) (sq2 : s22.numRows = s22.numCols) (hc : s21.numCols = s11.numCols)
    (hr : s21.numRows = s22.numRows) (h11 : s11.InRange) (h21 : s21.InRange) (h22 : s22.InRange)
    (d11 : s11.entries.Nodup) (d21 : s21.entries.Nodup) (d22 : s22.entries.Nodup)
    (hn : s11.numRows + s22.numRows ≤ noParent) :
    ∃ b, isChordalBlocked s11 s21 s22 = .ok b ∧ (b = true ↔
      (∀ i j, s11.Has i j → j < i) ∧ (∀ i j, s22.Has i j → j < i) ∧
      FillFree (Assembled2 s11.numRows (fun i j => s11.Has i j) (fun i j => s21.Has i j)
        (fun i j => s22.Has i j))) :=
  isChordalBlocked_sat sq1 sq2 hc hr h11 h21 h22 d11 d21 d22 hn

example : witness11.entries.Nodup ∧ witness21.entries.Nodup ∧ witness22.entries.Nodup ∧
    witness11.numRows + witness22.numRows ≤ noParent := by decide

/-- The pattern {(1,0), (2,0)} without fill-in entry (2,1), one entry listed twice. -/
def witnessDuplicate : Sparsity := ⟨3, 3, [⟨1, 0⟩, ⟨1, 0⟩, ⟨2, 0⟩]⟩

/-- C19: with duplicates the answer can be wrong: here it is "no fill-in" although (2, 1) fills in. -/
theorem C19_duplicates_wrong :
    isChordalBlocked witnessDuplicate (emptySparsity 0 3) (emptySparsity 0 0) = .ok true ∧
      ¬ FillFree (Assembled2 3 (fun i j => witnessDuplicate.Has i j) (fun i j => (emptySparsity 0 3).Has i j)
        (fun i j => (emptySparsity 0 0).Has i j)) := by
  constructor
  · decide
  · intro h
    have hb : ∀ i, i = 1 ∨ i = 2 → Assembled2 3 (fun i j => witnessDuplicate.Has i j)
        (fun i j => (emptySparsity 0 3).Has i j) (fun i j => (emptySparsity 0 0).Has i j) i 0 := by
      rintro i (rfl | rfl) <;> exact Or.inl (show witnessDuplicate.Has _ _ by decide)
    have h21 := h 2 1 (.step (.base (hb 2 (by omega)) (by omega)) (.base (hb 1 (by omega)) (by omega)) (by omega))
    rcases h21 with h | ⟨h, -⟩ | ⟨h, -⟩
    · exact absurd (show witnessDuplicate.Has 2 1 from h) (by decide)
    all_goals omega

/-! ### C20 -/

/-- C20: un-permuting a closed, sorted, strictly lower pattern and permuting and filling it in again gives back
exactly the same pattern in the same order. -/
theorem C20_rewrap (s : Sparsity) (p : List Nat) (hs : s.InRange) (hst : s.Sorted)
    (hsq : s.numRows = s.numCols) (hp : IsPerm p s.numRows) (hn : s.numRows ≤ noParent)
    (hlow : ∀ i j, s.Has i j → j < i) (hcl : FillFree fun i j => s.Has i j) :
    ∃ c, factorizationAlreadyPermutedSparsity s p = .ok c ∧ c.toSparsity = s := by
  obtain ⟨c, h1, -, h2⟩ := factorizationAlreadyPermutedSparsity_closed hs hst hsq hp hn hlow hcl
  exact ⟨c, h1, h2⟩

/-- C20: for a pattern that is not closed the result is its fill-in. -/
theorem C20_rewrap_fill (s : Sparsity) (p : List Nat) (hs : s.InRange)
    (hsq : s.numRows = s.numCols) (hp : IsPerm p s.numRows) (hn : s.numRows ≤ noParent) :
    ∃ c, factorizationAlreadyPermutedSparsity s p = .ok c ∧
      c.toSparsity.IsPattern s.numRows s.numRows (Fill fun i j => s.Has i j) := by
  obtain ⟨c, h1, -, h2⟩ := factorizationAlreadyPermutedSparsity_sat hs hsq hp hn
  exact ⟨c, h1, h2⟩

example : ∃ (s : Sparsity) (p : List Nat), s.InRange ∧ s.Sorted ∧ s.numRows = s.numCols ∧ IsPerm p s.numRows ∧
    s.numRows ≤ noParent ∧ (∀ i j, s.Has i j → j < i) ∧ (FillFree fun i j => s.Has i j) ∧ s.nnz = 3 := by
  refine ⟨⟨3, 3, [⟨1, 0⟩, ⟨2, 0⟩, ⟨2, 1⟩]⟩, [2, 0, 1], ?_, ?_, rfl, ?_, by decide, ?_, ?_, rfl⟩
  · unfold Sparsity.InRange; decide
  · unfold Sparsity.Sorted; decide
  · unfold IsPerm; decide
  · intro i j h
    simp [Sparsity.Has] at h
    omega
  · intro i j h
    have h1 := h.lt
    have h2 := h.row_bound (n := 3) (by intro a b hab; simp [Sparsity.Has] at hab; omega)
    rcases (show (i = 1 ∧ j = 0) ∨ (i = 2 ∧ j = 0) ∨ (i = 2 ∧ j = 1) by omega) with ⟨rfl, rfl⟩ | ⟨rfl, rfl⟩ | ⟨rfl, rfl⟩
      <;> simp [Sparsity.Has]

end Ctldl
