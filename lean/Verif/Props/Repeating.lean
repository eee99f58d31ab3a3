import Verif.Lemmas.RepeatingFill

/-! # C16 – C18: repeating block tridiagonal arrowhead matrices -/

namespace Ctldl

/-- Witness: diagonal block pattern with entries in both triangles of the original order. -/
def witnessRepA : Sparsity := ⟨3, 3, [⟨2, 0⟩, ⟨1, 1⟩, ⟨2, 2⟩]⟩
/-- Witness: subdiagonal block pattern. -/
def witnessRepB : Sparsity := ⟨3, 3, [⟨1, 0⟩, ⟨0, 2⟩]⟩
/-- Witness: outer block pattern. -/
def witnessRepC : Sparsity := ⟨2, 3, [⟨1, 1⟩]⟩

theorem witnessRep_inRange : witnessRepA.InRange ∧ witnessRepB.InRange ∧ witnessRepC.InRange := by
  refine ⟨?_, ?_, ?_⟩ <;> · unfold Sparsity.InRange; decide

/-! ### C16 -/

/-- C16: the loop stops within `dim * dim + 1` rounds (allowing more rounds changes nothing), no contract is
violated, and the resulting tree is a fixed point: it is the elimination tree of its own second half with one
more block appended. -/
theorem C16_fixed_point (sA sB : Sparsity) (hA : sA.InRange) (hB : sB.InRange)
    (sqA : sA.numRows = sA.numCols) (sqB : sB.numRows = sB.numCols) (hdim : sB.numRows = sA.numRows)
    (hlow : ∀ i j, sA.Has i j → j < i) (hn : 2 * sA.numRows ≤ noParent) :
    ∃ cA cB tree, sA.toCsr = .ok cA ∧ sB.toCsr = .ok cB ∧
      computeEliminationTreeRepeating cA cB = .ok tree ∧
      (∀ fuel, sA.numRows * sA.numRows + 1 ≤ fuel →
        computeEliminationTreeRepeatingFuel fuel cA cB = .ok tree) ∧
      IsEliminationTree (AppendBlock sA.numRows (fun i j => sA.Has i j) (fun i j => sB.Has i j)
        (secondHalf sA.numRows tree)) (2 * sA.numRows) tree := by
  have mA : (csrOf sA).pat = fun i j => sA.Has i j := by
    funext i j; exact propext (csrOf_mem fun e he => (hA e he).1)
  have mB : (csrOf sB).pat = fun i j => sB.Has i j := by
    funext i j; exact propext (csrOf_mem fun e he => (hB e he).1)
  have hlow' : ∀ i j, (csrOf sA).toSparsity.Has i j → j < i := fun i j h =>
    hlow i j ((congrFun (congrFun mA i) j) ▸ h)
  obtain ⟨tree, ht, hlen, k, F, -, hfix⟩ := computeEliminationTreeRepeatingFuel_sat (n := sA.numRows)
    (csrOf_ok hA) (csrOf_ok hB) rfl sqA.symm hdim (by show sB.numCols = _; omega) hlow' hn (Nat.le_refl _)
  refine ⟨_, _, tree, toCsr_eq hA, toCsr_eq hB, ht, ?_, ?_⟩
  · intro fuel hfuel
    induction fuel, hfuel using Nat.le_induction with
    | base => exact ht
    | succ f hf ih =>
      unfold computeEliminationTreeRepeatingFuel at ih ⊢
      iterate 3
        rw [bind_eq_ok] at ih ⊢
        obtain ⟨u, hu, ih⟩ := ih
        refine ⟨u, hu, ?_⟩
      exact repeatingLoop_fuel_succ _ _ _ _ _ ih
  · obtain ⟨back, -, hbl, hbp, rfl⟩ := subtreeBack_sat hfix.blocks hfix.front hfix.tree hlen hn
    have hG : stepGraph sA.numRows (csrOf sA).pat (csrOf sB).pat F =
        AppendBlock sA.numRows (fun i j => sA.Has i j) (fun i j => sB.Has i j) (secondHalf sA.numRows tree) := by
      funext x y
      unfold stepGraph AppendBlock
      rw [mA, mB, ← hfix.back, ← hbp, parOf_eq_some]
    rw [← hG]
    refine ⟨hlen, fun j hj => ?_⟩
    cases hp : parOf tree j with
    | some p => exact Or.inl ⟨p, (hfix.tree j p).mp hp, (parOf_eq_some.mp hp).1⟩
    | none => exact Or.inr ⟨hfix.tree.root_iff.mp hp, (parOf_eq_none (by omega)).mp hp⟩

/-- C16: the first half of the tree is what one finds in the actual matrix: from some block on, the parent of a
column in the elimination tree of the assembled block tridiagonal matrix with `N` repetitions is at the distance
given by the tree, for every `N`, except in the last block. -/
theorem C16_actual_tree (sA sB : Sparsity) (hA : sA.InRange) (hB : sB.InRange)
    (sqA : sA.numRows = sA.numCols) (sqB : sB.numRows = sB.numCols) (hdim : sB.numRows = sA.numRows)
    (hlow : ∀ i j, sA.Has i j → j < i) (hn : 2 * sA.numRows ≤ noParent) :
    ∃ cA cB tree K, sA.toCsr = .ok cA ∧ sB.toCsr = .ok cB ∧
      computeEliminationTreeRepeating cA cB = .ok tree ∧
      ∀ N t j, K ≤ t → t < N → j < sA.numRows →
        (∃ p, tree[j]? = some p ∧ p ≠ noParent ∧
          IsParent (RepeatingAssembled sA.numRows N (fun i j => sA.Has i j) (fun i j => sB.Has i j)
            (fun _ _ => False) (fun _ _ => False)) (t * sA.numRows + j) (t * sA.numRows + p)) ∨
        (tree[j]? = some noParent ∧
          ¬ ∃ i, Fill (RepeatingAssembled sA.numRows N (fun i j => sA.Has i j) (fun i j => sB.Has i j)
            (fun _ _ => False) (fun _ _ => False)) i (t * sA.numRows + j)) := by
  have mA : (csrOf sA).pat = fun i j => sA.Has i j := by
    funext i j; exact propext (csrOf_mem fun e he => (hA e he).1)
  have mB : (csrOf sB).pat = fun i j => sB.Has i j := by
    funext i j; exact propext (csrOf_mem fun e he => (hB e he).1)
  have hlow' : ∀ i j, (csrOf sA).toSparsity.Has i j → j < i := fun i j h =>
    hlow i j ((congrFun (congrFun mA i) j) ▸ h)
  obtain ⟨tree, ht, hlen, k, F, hk, hfix⟩ := computeEliminationTreeRepeatingFuel_sat (n := sA.numRows)
    (csrOf_ok hA) (csrOf_ok hB) rfl sqA.symm hdim (by show sB.numCols = _; omega) hlow' hn (Nat.le_refl _)
  refine ⟨_, _, tree, k + 1, toCsr_eq hA, toCsr_eq hB, ht, ?_⟩
  rw [mA, mB] at hk hfix
  generalize sA.numRows = n at *
  generalize (fun i j => sA.Has i j) = A at *
  generalize (fun i j => sB.Has i j) = B at *
  intro N t j hKt htN hj
  -- all fill-in in the column
  have hcov : ∀ i, Fill (RepeatingAssembled n N A B (fun _ _ => False) (fun _ _ => False)) i (t * n + j) →
      (∃ i', i = t * n + i' ∧ Fill (stepGraph n A B F) (n + i') (n + j)) ∨
      (∃ i', i = t * n + (n + i') ∧ Fill (stepGraph n A B F) (n + i') j) := by
    intro i hi
    have := hfix.covered (O := fun _ _ => False) (fun _ _ h => h.elim) (fun _ _ h => h) hi
    rcases this with ⟨t', i', j', -, -, hj', rfl, he, hD⟩ | ⟨t', i', j', -, -, hj', rfl, he, hS⟩ |
      ⟨_, _, _, _, _, _, _, h⟩ | h
    · obtain ⟨rfl, rfl⟩ := block_inj hj hj' he
      exact Or.inl ⟨i', rfl, hD⟩
    · obtain ⟨rfl, rfl⟩ := block_inj hj hj' he
      exact Or.inr ⟨i', by rw [Nat.succ_mul]; omega, hS⟩
    · exact h.elim
    · have := block_lt (N := N) hj (Nat.le_of_lt htN)
      omega
  have hback : ∀ q, parOf tree (n + j) = some q → F j = some (q - n) ∧ n ≤ q := by
    intro q hq
    have hb := stepTree_bound hfix.blocks hfix.front hfix.tree hq
    refine ⟨?_, by omega⟩
    rw [← hfix.back, backOf_eq_some hfix.blocks hfix.front hfix.tree]
    exact ⟨hj, by rw [hq]; congr 1; omega⟩
  have hFT : ∀ q, F j = some q → ∃ p, parOf tree j = some p ∧ p ≤ q := fun q hq =>
    hfix.tree.has_parent (.base (Or.inl hq) (hfix.front _ _ hq).1)
  cases hp : parOf tree j with
  | none =>
    refine Or.inr ⟨(parOf_eq_none (by omega)).mp hp, ?_⟩
    rintro ⟨i, hi⟩
    rcases hcov i hi with ⟨i', -, hD⟩ | ⟨i', -, hS⟩
    · obtain ⟨q, hq, -⟩ := hfix.tree.has_parent hD
      obtain ⟨p, hp', -⟩ := hFT _ (hback q hq).1
      rw [hp] at hp'
      cases hp'
    · obtain ⟨q, hq, -⟩ := hfix.tree.has_parent hS
      rw [hp] at hq
      cases hq
  | some p =>
    have hpp := (parOf_eq_some.mp hp)
    have hpar := (hfix.tree j p).mp hp
    refine Or.inl ⟨p, hpp.1, hpp.2, ?_, ?_⟩
    · by_cases hpn : p < n
      · have hF := hfix.front_edge hp hpn
        rw [← hfix.back, backOf_eq_some hfix.blocks hfix.front hfix.tree] at hF
        have hD := ((hfix.tree _ _).mp hF.2).1
        have := hfix.real_diag (C := fun _ _ => False) (E := fun _ _ => False) hk (t := t - 1) (N := N) (by omega) (by omega) hD
        rwa [show t - 1 + 1 = t by omega] at this
      · have hS := hpar.1
        rw [show p = n + (p - n) by omega] at hS
        have := hfix.real_sub (C := fun _ _ => False) (E := fun _ _ => False) hk (t := t) (N := N) (by omega) htN hj hS
        rw [show (t + 1) * n + (p - n) = t * n + p by rw [Nat.succ_mul]; omega] at this
        exact this
    · intro i hi
      rcases hcov i hi with ⟨i', rfl, hD⟩ | ⟨i', rfl, hS⟩
      · obtain ⟨q, hq, hqi⟩ := hfix.tree.has_parent hD
        obtain ⟨p', hp', hle⟩ := hFT _ (hback q hq).1
        rw [hp] at hp'
        cases hp'
        have := (hback q hq).2
        omega
      · obtain ⟨q, hq, hqi⟩ := hfix.tree.has_parent hS
        rw [hp] at hq
        cases hq
        omega

/-- C16: inconsistent dimensions are reported. -/
theorem C16_inconsistent (cA cB : Csr)
    (h : cA.numRows ≠ cA.numCols ∨ cB.numRows ≠ cB.numCols ∨ cA.numRows ≠ cB.numRows) :
    computeEliminationTreeRepeating cA cB = .error .pre := by
  unfold computeEliminationTreeRepeating computeEliminationTreeRepeatingFuel
  by_cases h1 : cA.numRows = cA.numCols
  · by_cases h2 : cB.numRows = cB.numCols
    · have h3 : cA.numRows ≠ cB.numRows := by tauto
      simp [pre, isSquare, h1, h2, error_bind, ok_bind, show ¬ cA.numCols = cB.numCols by omega]
    · simp [pre, isSquare, h1, h2, error_bind, ok_bind]
  · simp [pre, isSquare, h1, error_bind]

example : (⟨3, 3, [⟨2, 0⟩]⟩ : Sparsity).InRange ∧ witnessRepB.InRange ∧
    (∀ i j, (⟨3, 3, [⟨2, 0⟩]⟩ : Sparsity).Has i j → j < i) ∧
    (do computeEliminationTreeRepeating (← (⟨3, 3, [⟨2, 0⟩]⟩ : Sparsity).toCsr) (← witnessRepB.toCsr)) =
      .ok [1, 2, 3, 4, 5, noParent] := by
  refine ⟨by unfold Sparsity.InRange; decide, witnessRep_inRange.2.1, ?_, by decide⟩
  intro i j h
  have : ∀ e ∈ (⟨3, 3, [⟨2, 0⟩]⟩ : Sparsity).entries, e.col < e.row := by decide
  exact this _ h

/-! ### C17 -/

/-- C17: the patterns cover the fill-in of the assembled matrix for every number of repetitions `N`, in every
block; there is no fill-in two or more blocks off the diagonal. The pattern `E` of the trailing outer block is
arbitrary. -/
theorem C17_covers (inA inB inC : Sparsity) (p pC : List Nat)
    (hA : inA.InRange) (hB : inB.InRange) (hC : inC.InRange) (sqA : inA.numRows = inA.numCols)
    (sqB : inB.numRows = inB.numCols) (rB : inB.numRows = inA.numRows) (cC : inC.numCols = inA.numCols)
    (hp : IsPerm p inA.numRows) (hpC : IsPerm pC inC.numRows) (hn : 2 * inA.numRows ≤ noParent) :
    ∃ f, getFilledInSparsityRepeatingArrowhead inA inB inC p pC = .ok f ∧
      f.diag.numRows = inA.numRows ∧ f.diag.numCols = inA.numRows ∧
      f.subdiag.numRows = inA.numRows ∧ f.subdiag.numCols = inA.numRows ∧
      f.outer.numRows = inC.numRows ∧ f.outer.numCols = inA.numRows ∧
      ∀ (E : Nat → Nat → Prop) (N s t i j : Nat), t ≤ N → j < inA.numRows →
        (i < inA.numRows → Fill (RepeatingAssembled inA.numRows N (LowerPermuted inA p) (RectPermuted inB p p)
            (RectPermuted inC pC p) E) (t * inA.numRows + i) (t * inA.numRows + j) → f.diag.Has i j) ∧
        (i < inA.numRows → t < N →
          Fill (RepeatingAssembled inA.numRows N (LowerPermuted inA p) (RectPermuted inB p p)
            (RectPermuted inC pC p) E) ((t + 1) * inA.numRows + i) (t * inA.numRows + j) → f.subdiag.Has i j) ∧
        (i < inA.numRows → t + 2 ≤ s → s ≤ N →
          ¬ Fill (RepeatingAssembled inA.numRows N (LowerPermuted inA p) (RectPermuted inB p p)
            (RectPermuted inC pC p) E) (s * inA.numRows + i) (t * inA.numRows + j)) ∧
        (Fill (RepeatingAssembled inA.numRows N (LowerPermuted inA p) (RectPermuted inB p p)
            (RectPermuted inC pC p) E) ((N + 1) * inA.numRows + i) (t * inA.numRows + j) → f.outer.Has i j) := by
  obtain ⟨f, hf, ⟨k, F, T, -, hfix, hd, hs, ho⟩⟩ :=
    getFilledInSparsityRepeatingArrowhead_sat hA hB hC sqA sqB rB cC hp hpC hn
  refine ⟨f, hf, hd.1, hd.2.1, hs.1, hs.2.1, ho.1, ho.2.1, ?_⟩
  intro E N s t i j ht hj
  have hcov : ∀ x, Fill (RepeatingAssembled inA.numRows N (LowerPermuted inA p) (RectPermuted inB p p)
      (RectPermuted inC pC p) E) x (t * inA.numRows + j) →
      (∃ i', i' < inA.numRows ∧ x = t * inA.numRows + i' ∧ f.diag.Has i' j) ∨
      (∃ i', t < N ∧ i' < inA.numRows ∧ x = (t + 1) * inA.numRows + i' ∧ f.subdiag.Has i' j) ∨
      (∃ o, x = (N + 1) * inA.numRows + o ∧ f.outer.Has o j) := by
    intro x hx
    have := hfix.covered (O := OuterReach inA.numRows T (RectPermuted inC pC p))
      (fun o j h => ⟨by have := h.2.1; omega, ⟨j, h, .refl⟩⟩) (fun o => OuterReach.closed _ _ _ o) hx
    rcases this with ⟨t', i', j', -, hi', hj', rfl, he, hD⟩ | ⟨t', i', j', ht', hi', hj', rfl, he, hS⟩ |
      ⟨t', o, j', -, hj', rfl, he, hO⟩ | h
    · obtain ⟨rfl, rfl⟩ := block_inj hj hj' he
      exact Or.inl ⟨i', hi', rfl, (hd.2.2.2 _ _).mpr ⟨hi', hj, hD⟩⟩
    · obtain ⟨rfl, rfl⟩ := block_inj hj hj' he
      exact Or.inr (Or.inl ⟨i', ht', hi', rfl, (hs.2.2.2 _ _).mpr ⟨hi', hj, hS⟩⟩)
    · obtain ⟨rfl, rfl⟩ := block_inj hj hj' he
      exact Or.inr (Or.inr ⟨o, rfl, (ho.2.2.2 _ _).mpr ⟨hO.row fun a b h => h.1, hj, hO⟩⟩)
    · have := block_lt (N := N) hj ht
      omega
  refine ⟨?_, ?_, ?_, ?_⟩
  · intro hi hx
    rcases hcov _ hx with ⟨i', hi', he, h⟩ | ⟨i', ht', hi', he, h⟩ | ⟨o, he, h⟩
    · rw [(block_inj hi hi' he).2]; exact h
    · have := (block_inj hi hi' he).1; omega
    · have := block_lt hi ht; omega
  · intro hi htN hx
    rcases hcov _ hx with ⟨i', hi', he, h⟩ | ⟨i', ht', hi', he, h⟩ | ⟨o, he, h⟩
    · have := (block_inj hi hi' he).1; omega
    · rw [(block_inj hi hi' he).2]; exact h
    · have := block_lt (N := N) hi (show t + 1 ≤ N by omega); omega
  · intro hi hts hsN hx
    rcases hcov _ hx with ⟨i', hi', he, h⟩ | ⟨i', ht', hi', he, h⟩ | ⟨o, he, h⟩
    · have := (block_inj hi hi' he).1; omega
    · have := (block_inj hi hi' he).1; omega
    · have := block_lt (N := N) hi hsN; omega
  · intro hx
    rcases hcov _ hx with ⟨i', hi', he, h⟩ | ⟨i', ht', hi', he, h⟩ | ⟨o, he, h⟩
    · have := block_lt (N := N) hi' ht; omega
    · have := block_lt (N := N) hi' (show t + 1 ≤ N by omega); omega
    · rw [show i = o by omega]; exact h

/-- C17: inconsistent dimensions are reported. -/
theorem C17_inconsistent (inA inB inC : Sparsity) (p pC : List Nat)
    (h : inA.numRows ≠ inA.numCols ∨ inB.numRows ≠ inB.numCols ∨ inB.numRows ≠ inA.numRows ∨
      inC.numCols ≠ inA.numCols) :
    getFilledInSparsityRepeatingArrowhead inA inB inC p pC = .error .pre := by
  unfold getFilledInSparsityRepeatingArrowhead
  by_cases h1 : inA.numRows = inA.numCols
  · by_cases h2 : inB.numRows = inB.numCols
    · by_cases h3 : inB.numRows = inA.numRows
      · have h4 : inC.numCols ≠ inA.numCols := by tauto
        simp [pre, isSquare, h1, h2, h4, error_bind, ok_bind, show inB.numCols = inA.numCols by omega]
      · simp [pre, isSquare, h1, h2, error_bind, ok_bind, show ¬ inB.numCols = inA.numCols by omega]
    · simp [pre, isSquare, h1, h2, error_bind, ok_bind]
  · simp [pre, isSquare, h1, error_bind]

/-! ### C18 -/

/-- C18: the patterns are sorted and free of duplicates, and every entry of them is actual fill-in, from some block
on, in the assembled matrix for every number of repetitions that is large enough to have that block. -/
theorem C18_not_larger (inA inB inC : Sparsity) (p pC : List Nat)
    (hA : inA.InRange) (hB : inB.InRange) (hC : inC.InRange) (sqA : inA.numRows = inA.numCols)
    (sqB : inB.numRows = inB.numCols) (rB : inB.numRows = inA.numRows) (cC : inC.numCols = inA.numCols)
    (hp : IsPerm p inA.numRows) (hpC : IsPerm pC inC.numRows) (hn : 2 * inA.numRows ≤ noParent) :
    ∃ f K, getFilledInSparsityRepeatingArrowhead inA inB inC p pC = .ok f ∧
      f.diag.Sorted ∧ f.subdiag.Sorted ∧ f.outer.Sorted ∧
      ∀ (E : Nat → Nat → Prop) (N t i j : Nat), K ≤ t → t ≤ N →
        (f.diag.Has i j → i < inA.numRows ∧ j < inA.numRows ∧
          Fill (RepeatingAssembled inA.numRows N (LowerPermuted inA p) (RectPermuted inB p p)
            (RectPermuted inC pC p) E) (t * inA.numRows + i) (t * inA.numRows + j)) ∧
        (f.subdiag.Has i j → t < N → i < inA.numRows ∧ j < inA.numRows ∧
          Fill (RepeatingAssembled inA.numRows N (LowerPermuted inA p) (RectPermuted inB p p)
            (RectPermuted inC pC p) E) ((t + 1) * inA.numRows + i) (t * inA.numRows + j)) ∧
        (f.outer.Has i j → i < inC.numRows ∧ j < inA.numRows ∧
          Fill (RepeatingAssembled inA.numRows N (LowerPermuted inA p) (RectPermuted inB p p)
            (RectPermuted inC pC p) E) ((N + 1) * inA.numRows + i) (t * inA.numRows + j)) := by
  obtain ⟨f, hf, ⟨k, F, T, hk, hfix, hd, hs, ho⟩⟩ :=
    getFilledInSparsityRepeatingArrowhead_sat hA hB hC sqA sqB rB cC hp hpC hn
  have huni : ∀ l : List Entry, (∀ e ∈ l, f.outer.Has e.row e.col) → ∃ W, ∀ e ∈ l, ∀ (E : Nat → Nat → Prop) N t,
      W ≤ t → t ≤ N → Fill (RepeatingAssembled inA.numRows N (LowerPermuted inA p) (RectPermuted inB p p)
            (RectPermuted inC pC p) E) ((N + 1) * inA.numRows + e.row) (t * inA.numRows + e.col) := by
    intro l
    induction l with
    | nil => intro _; exact ⟨0, by simp⟩
    | cons e l ih =>
      intro hl
      obtain ⟨W, hW⟩ := ih fun e he => hl e (by simp [he])
      obtain ⟨-, -, j0, h1, h2⟩ := (ho.2.2.2 _ _).mp (hl e (by simp))
      obtain ⟨-, w, hw⟩ := hfix.real_outer hk ⟨j0, h1, by have := h1.2.1; omega, h2⟩
      refine ⟨max W (k + w), fun e' he' E N t hWt htN => ?_⟩
      rcases List.mem_cons.mp he' with rfl | he'
      · exact (hw E N t (by omega) htN)
      · exact hW e' he' E N t (by omega) htN
  obtain ⟨W, hW⟩ := huni f.outer.entries fun e he => he
  refine ⟨f, max W (k + 1), hf, hd.2.2.1, hs.2.2.1, ho.2.2.1, ?_⟩
  intro E N t i j hKt htN
  refine ⟨fun h => ?_, fun h htN' => ?_, fun h => ?_⟩
  · obtain ⟨h1, h2, h3⟩ := (hd.2.2.2 _ _).mp h
    refine ⟨h1, h2, ?_⟩
    have := hfix.real_diag (C := RectPermuted inC pC p) (E := E) hk (t := t - 1) (N := N) (by omega)
      (by omega) h3
    rwa [show t - 1 + 1 = t by omega] at this
  · obtain ⟨h1, h2, h3⟩ := (hs.2.2.2 _ _).mp h
    exact ⟨h1, h2, hfix.real_sub hk (by omega) htN' h2 h3⟩
  · obtain ⟨h1, h2, -⟩ := (ho.2.2.2 _ _).mp h
    exact ⟨h1, h2, hW _ h E N t (by omega) htN⟩

example : witnessRepA.InRange ∧ witnessRepB.InRange ∧ witnessRepC.InRange ∧ IsPerm [1, 2, 0] 3 ∧ IsPerm [1, 0] 2 ∧
    2 * witnessRepA.numRows ≤ noParent ∧
    getFilledInSparsityRepeatingArrowhead witnessRepA witnessRepB witnessRepC [1, 2, 0] [1, 0] = .ok
      ⟨⟨3, 3, [⟨2, 0⟩, ⟨2, 1⟩]⟩, ⟨3, 3, [⟨0, 2⟩, ⟨2, 1⟩, ⟨2, 2⟩]⟩, ⟨2, 3, [⟨0, 0⟩, ⟨0, 2⟩]⟩⟩ :=
  ⟨witnessRep_inRange.1, witnessRep_inRange.2.1, witnessRep_inRange.2.2, by unfold IsPerm; decide,
    by unfold IsPerm; decide, by decide, by decide⟩

end Ctldl
