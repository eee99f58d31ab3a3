import Verif.Lemmas.Repeating
import Verif.Lemmas.FilledInBlocked
import Mathlib.Data.Finset.Prod
import Mathlib.Data.Finset.Card

/-! # The elimination tree of repeating block tridiagonal matrices: helper lemmas -/

namespace Ctldl

/-! ### The measure -/

open Classical in
/-- Number of proper ancestor relations of a forest on `n` nodes. -/
noncomputable def ancCount (n : Nat) (P : Nat → Option Nat) : Nat :=
  ((Finset.range n ×ˢ Finset.range n).filter (fun x => x.1 ≠ x.2 ∧ Anc P x.1 x.2)).card

theorem ancCount_le (n : Nat) (P : Nat → Option Nat) : ancCount n P ≤ n * n := by
  classical
  unfold ancCount
  refine (Finset.card_filter_le _ _).trans ?_
  simp [Finset.card_product]

theorem ancCount_lt {n : Nat} {P P' : Nat → Option Nat} (hP : FrontTree n P) (hP' : FrontTree n P')
    (hsub : ∀ j p, P j = some p → Anc P' j p) (hne : P ≠ P') : ancCount n P < ancCount n P' := by
  classical
  unfold ancCount
  apply Finset.card_lt_card
  rw [Finset.ssubset_iff_subset_ne]
  constructor
  · intro x
    simp only [Finset.mem_filter]
    rintro ⟨h1, h2, h3⟩
    exact ⟨h1, h2, h3.mono hsub⟩
  · intro heq
    apply hne
    have hback : ∀ j p, j < n → p < n → j ≠ p → Anc P' j p → Anc P j p := by
      intro j p hj hp hjp ha
      have : (j, p) ∈ (Finset.range n ×ˢ Finset.range n).filter (fun x => x.1 ≠ x.2 ∧ Anc P' x.1 x.2) := by
        simp [hj, hp, hjp, ha]
      rw [← heq] at this
      simp only [Finset.mem_filter] at this
      exact this.2.2
    funext j
    cases h : P j with
    | none =>
      cases h' : P' j with
      | none => rfl
      | some q =>
        have hq := hP' _ _ h'
        have := (hback j q (by omega) hq.2 (by omega) (Anc.single h')).root h
        omega
    | some p =>
      have hp := hP _ _ h
      obtain ⟨q, hq, hqp⟩ := (hsub _ _ h).of_ne (by omega)
      have hq' := hP' _ _ hq
      have hle := hqp.le hP'.increasing
      obtain ⟨p', hp', hp'q⟩ := (hback j q (by omega) hq'.2 (by omega) (Anc.single hq)).of_ne (by omega)
      rw [h] at hp'
      cases hp'
      have := hp'q.le hP.increasing
      rw [hq]
      congr 1
      omega

/-! ### One pass -/

section

variable {n : Nat} {spA spB : Csr}

/-- The pattern of a compressed sparsity. -/
abbrev Csr.pat (c : Csr) : Nat → Nat → Prop := fun i j => c.toSparsity.Has i j

theorem repeatingPass_sat (hA : spA.Ok) (hB : spB.Ok) (rA : spA.numRows = n) (rB : spB.numRows = n)
    (cB : spB.numCols = n) (hlow : ∀ i j, spA.toSparsity.Has i j → j < i) (hn : 2 * n ≤ noParent)
    {st : List Nat × List Nat} (hF : FrontTree n (parOf st.1))
    (h : TreeInv (2 * n) (treeEdges (parOf st.1)) st) :
    Sat (repeatingPass spA spB n st) (TreeInv (2 * n) (stepGraph n spA.pat spB.pat (parOf st.1))) := by
  unfold repeatingPass
  have bA : ∀ i j, spA.toSparsity.Has i j → i < n := fun i j h => by
    have := (hA.inRange _ h).1
    simp only at this
    omega
  have bB : ∀ i j, spB.toSparsity.Has i j → i < n ∧ j < n := fun i j h => by
    have := hB.inRange _ h
    simp only at this
    exact ⟨by have := this.1; omega, by have := this.2; omega⟩
  generalize parOf st.1 = P at hF h
  refine Sat.mono (foldlM_range_inv (fun i st => TreeInv (2 * n) (fun a b => P b = some a ∨
    (n ≤ a ∧ a < n + i ∧ spB.toSparsity.Has (a - n) b) ∨
    (n ≤ a ∧ a < n + i ∧ n ≤ b ∧ spA.toSparsity.Has (a - n) (b - n))) st) ?_ ?_) ?_
  · refine h.congr fun a b => ?_
    unfold treeEdges
    constructor
    · exact Or.inl
    · rintro (h | ⟨h1, h2, -⟩ | ⟨h1, h2, -⟩)
      · exact h
      all_goals omega
  · intro i st hi hinv
    have hrows : ∀ a b, (P b = some a ∨ (n ≤ a ∧ a < n + i ∧ spB.toSparsity.Has (a - n) b) ∨
        (n ≤ a ∧ a < n + i ∧ n ≤ b ∧ spA.toSparsity.Has (a - n) (b - n))) → a ≤ i + n := by
      rintro a b (h | ⟨h1, h2, -⟩ | ⟨h1, h2, -⟩)
      · have := hF _ _ h; omega
      all_goals omega
    refine Sat.bind (addRowEliminationTree_sat hinv hn hB (r := i) (ro := n) (co := 0) (by omega) hrows
      (by omega) (by omega) (fun j hj => by have := bB _ _ hj; omega)) ?_
    intro st' hinv'
    refine Sat.mono (addRowEliminationTree_sat hinv' hn hA (r := i) (ro := n) (co := n) (by omega) ?_
      (by omega) (by omega) (fun j hj => by have := hlow _ _ hj; omega)) ?_
    · rintro a b (h | ⟨h, -⟩)
      · exact hrows a b h
      · omega
    · intro st'' hinv''
      refine hinv''.congr fun a b => ?_
      unfold addRow
      simp only [Nat.zero_le, true_and, Nat.sub_zero]
      constructor
      · rintro (((h | ⟨h1, h2, h3⟩ | ⟨h1, h2, h3, h4⟩) | ⟨h1, h2⟩) | ⟨h1, h2, h3⟩)
        · exact Or.inl h
        · exact Or.inr (Or.inl ⟨h1, by omega, h3⟩)
        · exact Or.inr (Or.inr ⟨h1, by omega, h3, h4⟩)
        · refine Or.inr (Or.inl ⟨by omega, by omega, ?_⟩)
          rwa [h1, Nat.add_sub_cancel]
        · refine Or.inr (Or.inr ⟨by omega, by omega, h2, ?_⟩)
          rwa [h1, Nat.add_sub_cancel]
      · rintro (h | ⟨h1, h2, h3⟩ | ⟨h1, h2, h3, h4⟩)
        · exact Or.inl (Or.inl (Or.inl h))
        · by_cases hai : a < n + i
          · exact Or.inl (Or.inl (Or.inr (Or.inl ⟨h1, hai, h3⟩)))
          · have : a = i + n := by omega
            subst this
            rw [Nat.add_sub_cancel] at h3
            exact Or.inl (Or.inr ⟨rfl, h3⟩)
        · by_cases hai : a < n + i
          · exact Or.inl (Or.inl (Or.inr (Or.inr ⟨h1, hai, h3, h4⟩)))
          · have : a = i + n := by omega
            subst this
            rw [Nat.add_sub_cancel] at h4
            exact Or.inr ⟨rfl, h3, h4⟩
  · intro st' hinv
    refine hinv.congr fun a b => ?_
    unfold stepGraph
    constructor
    · rintro (h | ⟨h1, h2, h3⟩ | ⟨h1, h2, h3, h4⟩)
      · exact Or.inl h
      · exact Or.inr (Or.inl ⟨h1, h3⟩)
      · exact Or.inr (Or.inr ⟨h1, h3, h4⟩)
    · rintro (h | ⟨h1, h2⟩ | ⟨h1, h2, h3⟩)
      · exact Or.inl h
      · exact Or.inr (Or.inl ⟨h1, by have := bB _ _ h2; omega, h2⟩)
      · exact Or.inr (Or.inr ⟨h1, by have := bA _ _ h3; omega, h2, h3⟩)

/-! ### Moving the second block to the front -/

theorem subtreeBack_sat {tree : List Nat} {P : Nat → Option Nat} {A B : Nat → Nat → Prop}
    (hb : BlocksOk n A B) (hP : FrontTree n P)
    (hT : IsTree (stepGraph n A B P) (parOf tree)) (hlen : tree.length = 2 * n) (hn : 2 * n ≤ noParent) :
    Sat (subtreeBack tree n) (fun back => back.length = n ∧ parOf back = backOf n (parOf tree) ∧
      back = secondHalf n tree) := by
  unfold subtreeBack
  rw [pre_true (by simp; omega), ok_bind, hlen, show 2 * n - n = n by omega]
  have hsub : ∀ x ∈ tree.drop n, subtreeNode n x = .ok (if x = noParent then noParent else x - n) := by
    intro x hx
    unfold subtreeNode
    by_cases hxn : x = noParent
    · simp [hxn]
    · rw [if_neg hxn, if_neg hxn, usub_ok]
      obtain ⟨m, hm, hmx⟩ := List.getElem_of_mem hx
      simp only [List.length_drop] at hm
      rw [List.getElem_drop] at hmx
      have : parOf tree (n + m) = some x := by
        rw [parOf_eq_some]
        refine ⟨?_, hxn⟩
        rw [List.getElem?_eq_some_iff]
        exact ⟨by omega, hmx⟩
      have := stepTree_bound hb hP hT this
      omega
  refine ⟨_, mapM_ok hsub, by simp; omega, ?_, rfl⟩
  funext m
  by_cases hm : m < n
  · have hget : tree[n + m]? = some (tree[n + m]'(by omega)) := List.getElem?_eq_getElem (by omega)
    have hback : ((tree.drop n).map fun x => if x = noParent then noParent else x - n)[m]? =
        some (if tree[n + m]'(by omega) = noParent then noParent else tree[n + m]'(by omega) - n) := by
      rw [List.getElem?_map, List.getElem?_drop, hget]
      rfl
    rw [parOf_of_getElem? hback, backOf, if_pos hm, parOf_of_getElem? hget]
    by_cases hxn : tree[n + m]'(by omega) = noParent
    · simp [hxn]
    · have hsome : parOf tree (n + m) = some (tree[n + m]'(by omega)) := by
        rw [parOf_of_getElem? hget, if_neg hxn]
      have := stepTree_bound hb hP hT hsome
      rw [if_neg hxn, if_neg hxn, if_neg (by omega)]
      rfl
  · rw [parOf_out (by simp; omega), backOf, if_neg hm]

theorem parOf_append_newTree {back : List Nat} (h : back.length = n) :
    parOf (back ++ newTree n) = parOf back := by
  funext m
  unfold parOf
  by_cases hm : m < n
  · simp [List.getD_eq_getElem?_getD, List.getElem?_append_left (show m < back.length by omega)]
  · have : (newTree n).getD (m - n) noParent = noParent := by
      have := parOf_newTree n (m - n)
      unfold parOf at this
      split at this
      · assumption
      · cases this
    simp only [List.getD_eq_getElem?_getD] at this ⊢
    rw [List.getElem?_append_right (by omega), h, this, List.getElem?_eq_none (by omega)]
    simp

theorem moveFront_sat {tree anc back : List Nat} {P : Nat → Option Nat} {A B : Nat → Nat → Prop}
    (hb : BlocksOk n A B) (hP : FrontTree n P)
    (h : TreeInv (2 * n) (stepGraph n A B P) (tree, anc))
    (hback : back.length = n) (hpar : parOf back = backOf n (parOf tree)) :
    ∃ t1 front, setSubtreeFront tree back = .ok t1 ∧ clearSubtreeBack t1 n = .ok (back ++ newTree n) ∧
      (anc.drop n).mapM (fun ancestor => usub ancestor n) = .ok front ∧
      (front ++ anc.drop front.length).take n ++
        List.range' n ((front ++ anc.drop front.length).length - n) = front ++ List.range' n n ∧
      TreeInv (2 * n) (treeEdges (parOf (back ++ newTree n))) (back ++ newTree n, front ++ List.range' n n) := by
  have hl : tree.length = 2 * n := h.length
  have hla : anc.length = 2 * n := h.lengthAnc
  have hT : IsTree (stepGraph n A B P) (parOf tree) := h.tree
  have hanc : ∀ m < n, n + m ≤ permAt anc (n + m) := fun m hm =>
    (h.anc (n + m) (by omega)).le hT.increasing
  refine ⟨back ++ tree.drop back.length, (anc.drop n).map (fun x => x - n), ?_, ?_, ?_, ?_, ?_⟩
  · unfold setSubtreeFront
    rw [pre_true (by simp; omega)]
    rfl
  · unfold clearSubtreeBack
    have e : (back ++ tree.drop back.length).length = 2 * n := by simp; omega
    rw [if_pos (by omega), e, show 2 * n - n = n by omega, ← hback, List.take_left]
    rfl
  · refine mapM_ok fun x hx => usub_ok ?_
    obtain ⟨m, hm, hmx⟩ := List.getElem_of_mem hx
    simp only [List.length_drop] at hm
    rw [List.getElem_drop] at hmx
    have := hanc m (by omega)
    unfold permAt at this
    rw [List.getD_eq_getElem?_getD, List.getElem?_eq_getElem (by omega), hmx] at this
    simp only [Option.getD_some] at this
    omega
  · have e : ((anc.drop n).map (fun x => x - n)).length = n := by simp; omega
    rw [e]
    generalize (anc.drop n).map (fun x => x - n) = front at e ⊢
    subst e
    rw [List.take_left]
    congr 2
    simp
    omega
  · have e : ((anc.drop n).map (fun x => x - n)).length = n := by simp; omega
    have hpf : parOf (back ++ newTree n) = backOf n (parOf tree) := by
      rw [parOf_append_newTree hback, hpar]
    have hfr := backOf_front hb hP hT
    have hat : ∀ m < n, permAt ((anc.drop n).map (fun x => x - n) ++ List.range' n n) m =
        permAt anc (n + m) - n := by
      intro m hm
      unfold permAt
      rw [List.getD_eq_getElem?_getD, List.getD_eq_getElem?_getD, List.getElem?_append_left (by omega),
        List.getElem?_map, List.getElem?_drop, List.getElem?_eq_getElem (by omega)]
      rfl
    have hat' : ∀ m, n ≤ m → m < 2 * n →
        permAt ((anc.drop n).map (fun x => x - n) ++ List.range' n n) m = m := by
      intro m h1 h2
      unfold permAt
      rw [List.getD_eq_getElem?_getD, List.getElem?_append_right (by omega), e,
        List.getElem?_range' (by omega)]
      simp
      omega
    refine ⟨?_, ?_, ?_, ?_, ?_, ?_⟩
    · simp [newTree]; omega
    · simp; omega
    · intro a b hab
      unfold treeEdges at hab
      rw [hpf] at hab
      have := hfr _ _ hab
      omega
    · simp only [hpf]
      exact isTree_treeEdges hfr.increasing
    · intro m hm
      simp only [hpf]
      by_cases hmn : m < n
      · rw [hat m hmn, backOf_anc hb hP hT hmn, show n + (permAt anc (n + m) - n) = permAt anc (n + m) by
          have := hanc m hmn; omega]
        exact h.anc (n + m) (by omega)
      · rw [hat' m (by omega) hm]
        exact .refl m
    · intro m hm
      simp only [hpf]
      by_cases hmn : m < n
      · rw [hat m hmn]
        intro heq
        have := h.anc_self (n + m) (by omega) (by have := hanc m hmn; simp only; omega)
        simp only at this
        unfold backOf
        rw [if_pos hmn, this]
        rfl
      · intro _
        unfold backOf
        rw [if_neg hmn]

/-! ### The loop -/

theorem list_eq_of_parOf {l l' : List Nat} (h : l.length = l'.length) (hp : parOf l = parOf l') : l = l' := by
  apply List.ext_getElem? 
  intro m
  by_cases hm : m < l.length
  · cases hc : parOf l m with
    | some p =>
      have h1 := (parOf_eq_some.mp hc).1
      rw [hp] at hc
      rw [h1, (parOf_eq_some.mp hc).1]
    | none =>
      have h1 := (parOf_eq_none hm).mp hc
      rw [hp] at hc
      rw [h1, (parOf_eq_none (by omega)).mp hc]
  · rw [List.getElem?_eq_none (by omega), List.getElem?_eq_none (by omega)]

/-- The result of the iteration. -/
structure RepTree (n : Nat) (A B : Nat → Nat → Prop) (T : List Nat) : Prop where
  length : T.length = 2 * n
  fix : ∃ k F, RepIter n A B k F ∧ RepFix n A B F (parOf T)

theorem repeatingLoop_sat (hA : spA.Ok) (hB : spB.Ok) (rA : spA.numRows = n) (rB : spB.numRows = n)
    (cB : spB.numCols = n) (hlow : ∀ i j, spA.toSparsity.Has i j → j < i) (hn : 2 * n ≤ noParent) :
    ∀ fuel (treeInit anc : List Nat) k, treeInit.length = n →
      RepIter n spA.pat spB.pat k (parOf treeInit) →
      TreeInv (2 * n) (treeEdges (parOf (treeInit ++ newTree n))) (treeInit ++ newTree n, anc) →
      n * n + 1 ≤ ancCount n (parOf treeInit) + fuel →
      Sat (repeatingLoop spA spB n fuel (treeInit ++ newTree n) treeInit anc)
        (RepTree n spA.pat spB.pat) := by
  have hb : BlocksOk n spA.pat spB.pat := by
    constructor
    · intro i j h
      have := hA.inRange _ h
      exact ⟨hlow _ _ h, by have := this.1; simp only at this; omega⟩
    · intro i j h
      have := hB.inRange _ h
      simp only at this
      exact ⟨by have := this.1; omega, by have := this.2; omega⟩
  intro fuel
  induction fuel with
  | zero =>
    intro treeInit anc k _ _ _ hcnt
    have := ancCount_le n (parOf treeInit)
    omega
  | succ fuel ih =>
    intro treeInit anc k hlen hk hinv hcnt
    have hpi : parOf (treeInit ++ newTree n) = parOf treeInit := parOf_append_newTree hlen
    have hfr := hk.front hb
    unfold repeatingLoop
    refine Sat.bind (repeatingPass_sat hA hB rA rB cB hlow hn (by simp only; rw [hpi]; exact hfr) hinv) ?_
    rintro ⟨tree, anc'⟩ hinv'
    simp only at hinv'
    rw [hpi] at hinv'
    have hT : IsTree _ (parOf tree) := hinv'.tree
    simp only
    refine Sat.bind (subtreeBack_sat hb hfr hT hinv'.length hn) ?_
    rintro back ⟨hbl, hbp, -⟩
    by_cases heq : back = treeInit
    · rw [if_pos (by simp [treeEq, heq])]
      refine Sat.pure ⟨hinv'.length, k, parOf treeInit, hk, hb, hfr, hT, ?_⟩
      rw [← hbp, heq]
    · rw [if_neg (by simp [treeEq, heq])]
      obtain ⟨t1, front, e1, e2, e3, e4, hinv2⟩ := moveFront_sat hb hfr hinv' hbl hbp
      rw [e1, ok_bind, e2, ok_bind, e3, ok_bind]
      rw [e4]
      refine ih back _ (k + 1) hbl ?_ hinv2 ?_
      · rw [hbp]; exact .succ hk hT
      · have : ancCount n (parOf treeInit) < ancCount n (parOf back) := by
          refine ancCount_lt hfr (by rw [hbp]; exact backOf_front hb hfr hT) ?_ ?_
          · intro j p hjp
            rw [hbp]
            exact hk.mono hb hT hjp
          · intro h
            exact heq (list_eq_of_parOf (by omega) h).symm
        omega

theorem computeEliminationTreeRepeatingFuel_sat (hA : spA.Ok) (hB : spB.Ok) (rA : spA.numRows = n)
    (cA : spA.numCols = n) (rB : spB.numRows = n)
    (cB : spB.numCols = n) (hlow : ∀ i j, spA.toSparsity.Has i j → j < i) (hn : 2 * n ≤ noParent)
    {fuel : Nat} (hfuel : n * n + 1 ≤ fuel) :
    Sat (computeEliminationTreeRepeatingFuel fuel spA spB) (RepTree n spA.pat spB.pat) := by
  unfold computeEliminationTreeRepeatingFuel
  rw [pre_true (by simp [isSquare, rA, cA]), ok_bind, pre_true (by simp [isSquare, rB, cB]), ok_bind,
    pre_true (by simp [rA, rB]), ok_bind]
  simp only
  rw [rA]
  have e : newTree (2 * n) = newTree n ++ newTree n := by
    unfold newTree
    rw [← List.replicate_add]
    congr 1
    omega
  have hp0 : parOf (newTree n) = fun _ => none := by funext j; exact parOf_newTree n j
  rw [e]
  refine repeatingLoop_sat hA hB rA rB cB hlow hn fuel (newTree n) _ 0 (by simp [newTree]) ?_ ?_ (by omega)
  · rw [hp0]; exact .zero
  · rw [parOf_append_newTree (by simp [newTree]), hp0]
    refine (e ▸ TreeInv.init (2 * n)).congr fun a b => ?_
    simp [treeEdges]

/-- Once it stops, more rounds do not change the result. -/
theorem repeatingLoop_fuel_succ {dim : Nat} : ∀ fuel (tree treeInit anc : List Nat) (T : List Nat),
    repeatingLoop spA spB dim fuel tree treeInit anc = .ok T →
    repeatingLoop spA spB dim (fuel + 1) tree treeInit anc = .ok T := by
  intro fuel
  induction fuel with
  | zero => intro tree treeInit anc T h; cases h
  | succ fuel ih =>
    intro tree treeInit anc T h
    unfold repeatingLoop at h ⊢
    rw [bind_eq_ok] at h ⊢
    obtain ⟨⟨tree', anc'⟩, h1, h⟩ := h
    refine ⟨_, h1, ?_⟩
    simp only at h ⊢
    rw [bind_eq_ok] at h ⊢
    obtain ⟨back, h2, h⟩ := h
    refine ⟨_, h2, ?_⟩
    split at h
    · rename_i hc; rw [if_pos hc]; exact h
    · rename_i hc
      rw [if_neg hc]
      rw [bind_eq_ok] at h ⊢
      obtain ⟨t1, h3, h⟩ := h
      refine ⟨_, h3, ?_⟩
      rw [bind_eq_ok] at h ⊢
      obtain ⟨t2, h4, h⟩ := h
      refine ⟨_, h4, ?_⟩
      rw [bind_eq_ok] at h ⊢
      obtain ⟨front, h5, h⟩ := h
      refine ⟨_, h5, ?_⟩
      exact ih _ _ _ _ h

end

end Ctldl
