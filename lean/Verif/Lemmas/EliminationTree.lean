import Verif.Lemmas.Fill
import Verif.Lemmas.Sparsity

/-! # The elimination tree algorithm: helper lemmas -/

namespace Ctldl

/-- Parent function of a list of parents. -/
def parOf (tree : List Nat) (j : Nat) : Option Nat :=
  if tree.getD j noParent = noParent then none else some (tree.getD j noParent)

theorem parOf_of_getElem? {tree : List Nat} {j p : Nat} (h : tree[j]? = some p) :
    parOf tree j = if p = noParent then none else some p := by
  simp [parOf, List.getD_eq_getElem?_getD, h]

theorem parOf_out {tree : List Nat} {j : Nat} (h : tree.length ≤ j) : parOf tree j = none := by
  simp [parOf, List.getD_eq_getElem?_getD, h]

theorem parOf_eq_some {tree : List Nat} {j p : Nat} :
    parOf tree j = some p ↔ tree[j]? = some p ∧ p ≠ noParent := by
  by_cases hj : j < tree.length
  · have hget := List.getElem?_eq_getElem hj
    rw [parOf_of_getElem? hget, hget]
    by_cases hn : tree[j] = noParent
    · rw [if_pos hn]
      simp only [reduceCtorEq, Option.some.injEq, false_iff, not_and, not_not]
      rintro rfl; exact hn
    · rw [if_neg hn]
      simp only [Option.some.injEq]
      constructor
      · rintro rfl; exact ⟨rfl, hn⟩
      · rintro ⟨h, -⟩; exact h
  · rw [parOf_out (by omega), List.getElem?_eq_none (by omega)]
    simp

theorem parOf_eq_none {tree : List Nat} {j : Nat} (hj : j < tree.length) :
    parOf tree j = none ↔ tree[j]? = some noParent := by
  have hget := List.getElem?_eq_getElem hj
  rw [parOf_of_getElem? hget, hget]
  by_cases hn : tree[j] = noParent
  · simp [hn]
  · simp [hn]

theorem hasParent_eq {tree : List Nat} {j : Nat} (hj : j < tree.length) :
    hasParent tree j = .ok (parOf tree j).isSome := by
  unfold hasParent
  have hget := List.getElem?_eq_getElem hj
  rw [rd_ok hj, ok_bind, parOf_of_getElem? hget, pure_eq_ok]
  by_cases hn : tree[j] = noParent <;> simp [hn]

theorem getParent_eq {tree : List Nat} {j p : Nat} (h : parOf tree j = some p) :
    getParent tree j = .ok p := by
  unfold getParent
  have h1 := parOf_eq_some.mp h
  have hj := (List.getElem?_eq_some_iff.mp h1.1).1
  rw [hasParent_eq hj, ok_bind, h]
  rw [assert_true (by rfl), ok_bind]
  exact rd_of_getElem? h1.1

theorem parOf_set {tree : List Nat} {j p m : Nat} (hj : j < tree.length) (hp : p ≠ noParent) :
    parOf (tree.set j p) m = if m = j then some p else parOf tree m := by
  by_cases hm : m = j
  · subst hm
    rw [if_pos rfl, parOf_eq_some]
    exact ⟨by simp [hj], hp⟩
  · rw [if_neg hm]
    unfold parOf
    simp only [List.getD_eq_getElem?_getD]
    rw [List.getElem?_set_ne (Ne.symm hm)]

theorem parOf_newTree (n j : Nat) : parOf (newTree n) j = none := by
  unfold parOf newTree
  rw [List.getD_eq_getElem?_getD, List.getElem?_replicate]
  split <;> simp

/-- Invariant of the tree algorithm: the parents are those of the elimination tree of the entries `G` processed
so far, and the shortcuts lead to ancestors. -/
structure TreeInv (n : Nat) (G : Nat → Nat → Prop) (st : List Nat × List Nat) : Prop where
  length : st.1.length = n
  lengthAnc : st.2.length = n
  edges : ∀ a b, G a b → b < a ∧ a < n
  tree : IsTree G (parOf st.1)
  anc : ∀ m < n, Anc (parOf st.1) m (permAt st.2 m)
  anc_self : ∀ m < n, permAt st.2 m = m → parOf st.1 m = none

theorem permAt_set {l : List Nat} {j p m : Nat} (hj : j < l.length) :
    permAt (l.set j p) m = if m = j then p else permAt l m := by
  unfold permAt
  simp only [List.getD_eq_getElem?_getD]
  by_cases hm : m = j
  · subst hm; rw [if_pos rfl]; simp [hj]
  · rw [if_neg hm, List.getElem?_set_ne (Ne.symm hm)]

theorem rd_permAt {l : List Nat} {j : Nat} (hj : j < l.length) : rd l j = .ok (permAt l j) := by
  rw [rd_ok hj]; simp [permAt, List.getD_eq_getElem?_getD, hj]

theorem TreeInv.increasing {n : Nat} {G : Nat → Nat → Prop} {st : List Nat × List Nat} (h : TreeInv n G st) :
    Increasing (parOf st.1) := h.tree.increasing

/-- The climbing loop adds one entry of the last row. -/
theorem climb_sat {n : Nat} {G : Nat → Nat → Prop} {tree0 : List Nat} (hlen : tree0.length = n)
    (hn : n ≤ noParent) (hedges : ∀ a b, G a b → b < a ∧ a < n) (htree : IsTree G (parOf tree0)) {i j0 : Nat}
    (hrows : ∀ a b, G a b → a ≤ i) (hi : i < n) (hj0 : j0 < i) :
    ∀ fuel j anc, i - j + 1 < fuel → j < i → anc.length = n → Anc (parOf tree0) j0 j →
      (∀ m < n, Anc (parOf tree0) m (permAt anc m) ∨
        (permAt anc m = i ∧ Anc (parOf tree0) j0 m ∧ m < j)) →
      (∀ m < n, permAt anc m = m → parOf tree0 m = none) →
      Sat (climb i fuel tree0 anc j) (TreeInv n (addEdge G i j0)) := by
  have hinc := htree.increasing
  have hedges' : ∀ a b, addEdge G i j0 a b → b < a ∧ a < n := by
    rintro a b (h | ⟨rfl, rfl⟩)
    · exact hedges a b h
    · exact ⟨hj0, hi⟩
  intro fuel
  induction fuel with
  | zero => intro j anc hf; omega
  | succ fuel ih =>
    intro j anc hf hji hancl hpath hanc hself
    unfold climb
    rw [rd_permAt (by omega), ok_bind]
    have hjn : j < n := by omega
    have hcur : Anc (parOf tree0) j (permAt anc j) := by
      rcases hanc j hjn with h | ⟨-, -, h⟩
      · exact h
      · omega
    have hge := hcur.le hinc
    have hle : permAt anc j ≤ i := by
      -- ancestors are rows of fill-ins or the node itself
      by_cases hne : j = permAt anc j
      · omega
      · -- the last edge on the path
        have : ∀ {a b}, Anc (parOf tree0) a b → a ≤ i → b ≤ i := by
          intro a b hab
          induction hab with
          | refl _ => exact fun h => h
          | @step a p b h1 _ ih2 =>
            intro _
            apply ih2
            have hf := ((htree a p).mp h1).1
            have := hf.row_bound (n := i + 1) (fun x y hxy => by have := hrows x y hxy; omega)
            omega
        exact this hcur (by omega)
    split
    · next hlt =>
      rw [hasParent_eq (by omega), ok_bind]
      by_cases hroot : permAt anc j = j
      · -- `j` is the root
        have hnone := hself j hjn hroot
        rw [hnone]
        simp only [Option.isSome_none, Bool.not_false, if_true]
        rw [wr_ok (by omega), ok_bind, wr_ok (by omega), ok_bind]
        -- next round stops
        obtain ⟨fuel', rfl⟩ : ∃ f, fuel = f + 1 := ⟨fuel - 1, by omega⟩
        unfold climb
        rw [rd_permAt (by simp; omega), ok_bind, hroot, permAt_set (by omega), if_pos rfl,
          if_neg (Nat.lt_irrefl i)]
        refine Sat.pure ⟨by simp [hlen], by simp [hancl], hedges', ?_, ?_, ?_⟩
        · have := htree.addEdge_root hrows hj0 hpath hnone hji
          simp only
          convert this using 1
          funext m
          exact parOf_set (by omega) (by omega)
        · intro m hm
          simp only
          rw [permAt_set (by omega)]
          have hext : ∀ a b, parOf tree0 a = some b → Anc (parOf (tree0.set j i)) a b := by
            intro a b hab
            apply Anc.single
            rw [parOf_set (by omega) (by omega), if_neg]
            · exact hab
            · rintro rfl; rw [hnone] at hab; cases hab
          have hji' : Anc (parOf (tree0.set j i)) j i := by
            apply Anc.single
            rw [parOf_set (by omega) (by omega), if_pos rfl]
          by_cases hmj : m = j
          · rw [if_pos hmj, hmj]; exact hji'
          · rw [if_neg hmj]
            rcases hanc m hm with h | ⟨h1, h2, h3⟩
            · exact h.mono hext
            · rw [h1]
              exact ((h2.linear hinc hpath (by omega)).mono hext).trans hji'
        · intro m hm
          simp only
          rw [permAt_set (by omega), parOf_set (by omega) (by omega)]
          by_cases hmj : m = j
          · rw [if_pos hmj, if_pos hmj]; intro h; omega
          · rw [if_neg hmj, if_neg hmj]; exact hself m hm
      · -- inner node
        have hsome : (parOf tree0 j).isSome = true := by
          obtain ⟨p, hp, -⟩ := hcur.of_ne (Ne.symm hroot)
          rw [hp]; rfl
        rw [hsome]
        simp only [Bool.not_true, Bool.false_eq_true, if_false]
        rw [pure_eq_ok, ok_bind, wr_ok (by omega), ok_bind]
        apply ih
        · omega
        · exact hlt
        · simp [hancl]
        · exact hpath.trans hcur
        · intro m hm
          rw [permAt_set (by omega)]
          by_cases hmj : m = j
          · rw [if_pos hmj]
            right
            subst hmj
            exact ⟨rfl, hpath, by omega⟩
          · rw [if_neg hmj]
            rcases hanc m hm with h | ⟨h1, h2, h3⟩
            · exact Or.inl h
            · exact Or.inr ⟨h1, h2, by omega⟩
        · intro m hm
          rw [permAt_set (by omega)]
          by_cases hmj : m = j
          · rw [if_pos hmj]; intro h; omega
          · rw [if_neg hmj]; exact hself m hm
    · next hnlt =>
      have heq : permAt anc j = i := by omega
      rw [heq] at hcur
      have hj0i : Anc (parOf tree0) j0 i := hpath.trans hcur
      refine Sat.pure ⟨hlen, hancl, hedges', htree.addEdge_same hrows hj0 hj0i, ?_, hself⟩
      intro m hm
      rcases hanc m hm with h | ⟨h1, h2, h3⟩
      · exact h
      · simp only
        rw [h1]
        exact h2.linear hinc hj0i (by omega)

theorem TreeInv.congr {n : Nat} {G G' : Nat → Nat → Prop} {st : List Nat × List Nat} (h : TreeInv n G st)
    (hG : ∀ a b, G a b ↔ G' a b) : TreeInv n G' st := by
  have : G = G' := by funext a b; exact propext (hG a b)
  rw [← this]; exact h

/-- Processing one entry of the last row. -/
theorem TreeInv.climb {n : Nat} {G : Nat → Nat → Prop} {st : List Nat × List Nat} (h : TreeInv n G st)
    (hn : n ≤ noParent) {i j : Nat} (hrows : ∀ a b, G a b → a ≤ i) (hi : i < n) (hj : j < i) :
    Sat (climb i (st.2.length + 2) st.1 st.2 j) (TreeInv n (addEdge G i j)) := by
  refine climb_sat h.length hn h.edges h.tree hrows hi hj _ j st.2 ?_ hj h.lengthAnc (.refl j)
    (fun m hm => Or.inl (h.anc m hm)) h.anc_self
  have := h.lengthAnc
  omega

/-- A pattern with the entries of one row of a block added at an offset. -/
def addRow (G : Nat → Nat → Prop) (s : Sparsity) (r ro co : Nat) : Nat → Nat → Prop :=
  fun a b => G a b ∨ (a = r + ro ∧ co ≤ b ∧ s.Has r (b - co))

theorem addRowEliminationTree_sat {n : Nat} {G : Nat → Nat → Prop} {st : List Nat × List Nat}
    (h : TreeInv n G st) (hn : n ≤ noParent) {c : Csr} (hc : c.Ok) {r ro co : Nat} (hr : r < c.numRows)
    (hrows : ∀ a b, G a b → a ≤ r + ro) (hi : r + ro < n) (hsz : c.numRows ≤ n)
    (hlow : ∀ j, c.toSparsity.Has r j → j + co < r + ro) :
    Sat (addRowEliminationTree c r st ro co) (TreeInv n (addRow G c.toSparsity r ro co)) := by
  unfold addRowEliminationTree
  rw [pre_true (by simp [h.length, hsz]), ok_bind, hc.rowView_eq hr, ok_bind]
  refine Sat.mono (foldlM_inv (fun (pre : List Entry) st =>
    TreeInv n (fun a b => G a b ∨ (a = r + ro ∧ co ≤ b ∧ (⟨r, b - co⟩ : Entry) ∈ pre)) st) ?_ ?_) ?_
  · exact h.congr (by simp)
  · rintro pre e suf st' hl hinv
    have he : e ∈ rowOf c.entries r := by rw [hl]; simp
    have he' := mem_rowOf.mp he
    have hhas : c.toSparsity.Has r e.col := by
      unfold Sparsity.Has
      rw [← he'.2]
      exact he'.1
    refine Sat.mono (hinv.climb hn (i := r + ro) (j := e.col + co) ?_ hi (hlow _ hhas)) ?_
    · rintro a b (hab | ⟨rfl, -⟩)
      · exact hrows a b hab
      · omega
    · intro st'' hinv'
      refine hinv'.congr ?_
      intro a b
      unfold addEdge
      simp only [List.mem_append, List.mem_singleton]
      constructor
      · rintro ((hab | ⟨h1, h2, h3⟩) | ⟨rfl, rfl⟩)
        · exact Or.inl hab
        · exact Or.inr ⟨h1, h2, Or.inl h3⟩
        · refine Or.inr ⟨rfl, by omega, Or.inr ?_⟩
          cases e
          simp_all
      · rintro (hab | ⟨h1, h2, h3 | h3⟩)
        · exact Or.inl (Or.inl hab)
        · exact Or.inl (Or.inr ⟨h1, h2, h3⟩)
        · refine Or.inr ⟨h1, ?_⟩
          rw [← h3]; simp only; omega
  · intro st' hinv
    refine hinv.congr ?_
    intro a b
    unfold addRow Sparsity.Has
    constructor
    · rintro (hab | ⟨h1, h2, h3⟩)
      · exact Or.inl hab
      · exact Or.inr ⟨h1, h2, (mem_rowOf.mp h3).1⟩
    · rintro (hab | ⟨h1, h2, h3⟩)
      · exact Or.inl hab
      · exact Or.inr ⟨h1, h2, mem_rowOf.mpr ⟨h3, rfl⟩⟩

theorem TreeInv.init (n : Nat) : TreeInv n (fun _ _ => False) (newTree n, List.range n) := by
  have hP : parOf (newTree n) = fun _ => none := by funext j; exact parOf_newTree n j
  refine ⟨by simp [newTree], by simp, by simp, ?_, ?_, ?_⟩
  · simp only [hP]; exact isTree_empty
  · intro m hm
    have : permAt (List.range n) m = m := permAt_identity hm
    simp only [this]
    exact .refl m
  · intro m _ _; simp only [hP]

/-- Reading off the specification. -/
theorem TreeInv.spec {n : Nat} {G : Nat → Nat → Prop} {st : List Nat × List Nat} (h : TreeInv n G st) :
    IsEliminationTree G n st.1 := by
  refine ⟨h.length, fun j hj => ?_⟩
  have hlen := h.length
  cases hp : parOf st.1 j with
  | some p => exact Or.inl ⟨p, (h.tree j p).mp hp, (parOf_eq_some.mp hp).1⟩
  | none => exact Or.inr ⟨h.tree.root_iff.mp hp, (parOf_eq_none (by omega)).mp hp⟩

/-- All rows of one block, in order. -/
theorem computeEliminationTree_sat {c : Csr} (hc : c.Ok) (hsq : c.numRows = c.numCols)
    (hn : c.numRows ≤ noParent) (hlow : ∀ i j, c.toSparsity.Has i j → j < i) :
    Sat (computeEliminationTree c) (fun tree => tree.length = c.numRows ∧
      IsTree (fun i j => c.toSparsity.Has i j) (parOf tree)
        ∧ IsEliminationTree (fun i j => c.toSparsity.Has i j) c.numRows tree) := by
  unfold computeEliminationTree
  rw [pre_true (by simp [isSquare, hsq]), ok_bind]
  refine Sat.bind (foldlM_range_inv (fun k st =>
    TreeInv c.numRows (fun a b => a < k ∧ c.toSparsity.Has a b) st) ?_ ?_) ?_
  · exact (TreeInv.init _).congr (by simp)
  · intro k st hk hinv
    refine Sat.mono (addRowEliminationTree_sat hinv hn hc hk (ro := 0) (co := 0) ?_ hk (Nat.le_refl _) ?_) ?_
    · rintro a b ⟨h1, -⟩; omega
    · intro j hj; have := hlow _ _ hj; omega
    · intro st' hinv'
      refine hinv'.congr ?_
      intro a b
      unfold addRow
      simp only [Nat.add_zero, Nat.zero_le, true_and, Nat.sub_zero]
      constructor
      · rintro (⟨h1, h2⟩ | ⟨rfl, h2⟩)
        · exact ⟨by omega, h2⟩
        · exact ⟨by omega, h2⟩
      · rintro ⟨h1, h2⟩
        rcases Nat.lt_or_eq_of_le (Nat.le_of_lt_succ h1) with h3 | h3
        · exact Or.inl ⟨h3, h2⟩
        · subst h3; exact Or.inr ⟨rfl, h2⟩
  · intro st hinv
    have hinv' : TreeInv c.numRows (fun i j => c.toSparsity.Has i j) st := hinv.congr fun a b =>
      ⟨fun h => h.2, fun h => ⟨hc.row_lt _ h, h⟩⟩
    exact Sat.pure ⟨hinv'.length, hinv'.tree, hinv'.spec⟩

end Ctldl
