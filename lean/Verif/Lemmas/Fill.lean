import Verif.Spec.Fill
import Mathlib.Tactic.Common
import Mathlib.Data.Nat.Find

/-! # Fill-in and elimination trees: theory independent of the program -/

namespace Ctldl

variable {G G' : Nat → Nat → Prop}

theorem Fill.lt {i j : Nat} (h : Fill G i j) : j < i := by
  cases h with
  | base _ h => exact h
  | step _ _ h => exact h

theorem Fill.mono' {i j : Nat} (h : Fill G i j) (hG : ∀ a b, G a b → b < a → Fill G' a b) : Fill G' i j := by
  induction h with
  | base h hlt => exact hG _ _ h hlt
  | step _ _ hlt ih1 ih2 => exact .step ih1 ih2 hlt

theorem Fill.mono {i j : Nat} (h : Fill G i j) (hG : ∀ a b, G a b → b < a → G' a b) : Fill G' i j :=
  h.mono' fun a b hab hlt => .base (hG a b hab hlt) hlt

theorem Fill.congr {i j : Nat} (hG : ∀ a b, b < a → (G a b ↔ G' a b)) : Fill G i j ↔ Fill G' i j :=
  ⟨fun h => h.mono fun a b hab hlt => (hG a b hlt).mp hab,
    fun h => h.mono fun a b hab hlt => (hG a b hlt).mpr hab⟩

theorem Fill.row_bound {i j n : Nat} (h : Fill G i j) (hG : ∀ a b, G a b → a < n) : i < n := by
  induction h with
  | base h _ => exact hG _ _ h
  | step _ _ _ ih1 _ => exact ih1

/-- Every row with fill has an entry of the pattern at or before it. -/
theorem Fill.exists_base {i j : Nat} (h : Fill G i j) : ∃ j' ≤ j, G i j' := by
  induction h with
  | @base i j h _ => exact ⟨j, Nat.le_refl _, h⟩
  | @step i j k _ h2 _ ih1 _ =>
    obtain ⟨j', h1, h3⟩ := ih1
    exact ⟨j', by have := h2.lt; omega, h3⟩

theorem Fill.exists_parent {i j : Nat} (h : Fill G i j) : ∃ p, IsParent G j p := by
  classical
  have hex : ∃ i, Fill G i j := ⟨i, h⟩
  exact ⟨Nat.find hex, Nat.find_spec hex, fun i hi => Nat.find_min' hex hi⟩

theorem IsParent.unique {j p q : Nat} (h : IsParent G j p) (h' : IsParent G j q) : p = q :=
  Nat.le_antisymm (h.2 _ h'.1) (h'.2 _ h.1)

theorem IsParent.lt {j p : Nat} (h : IsParent G j p) : j < p := h.1.lt

/-- Ancestor relation (reflexive) of a forest given by its parent function. -/
inductive Anc (P : Nat → Option Nat) : Nat → Nat → Prop
  | refl (j : Nat) : Anc P j j
  | step {j p k : Nat} : P j = some p → Anc P p k → Anc P j k

variable {P P' : Nat → Option Nat}

theorem Anc.trans {a b c : Nat} (h1 : Anc P a b) (h2 : Anc P b c) : Anc P a c := by
  induction h1 with
  | refl _ => exact h2
  | step h _ ih => exact .step h (ih h2)

theorem Anc.single {a b : Nat} (h : P a = some b) : Anc P a b := .step h (.refl b)

theorem Anc.mono {a b : Nat} (h : Anc P a b) (hP : ∀ j p, P j = some p → Anc P' j p) : Anc P' a b := by
  induction h with
  | refl _ => exact .refl _
  | step h _ ih => exact (hP _ _ h).trans ih

/-- Parents are larger than children. -/
def Increasing (P : Nat → Option Nat) : Prop := ∀ j p, P j = some p → j < p

theorem Anc.le (hP : Increasing P) {a b : Nat} (h : Anc P a b) : a ≤ b := by
  induction h with
  | refl _ => exact Nat.le_refl _
  | step h _ ih => have := hP _ _ h; omega

theorem Anc.of_ne {a b : Nat} (h : Anc P a b) (hne : a ≠ b) : ∃ p, P a = some p ∧ Anc P p b := by
  cases h with
  | refl _ => exact absurd rfl hne
  | step h1 h2 => exact ⟨_, h1, h2⟩

theorem Anc.root {a b : Nat} (h : Anc P a b) (ha : P a = none) : b = a := by
  cases h with
  | refl _ => rfl
  | step h1 _ => rw [ha] at h1; cases h1

/-- Ancestors of a node form a chain. -/
theorem Anc.linear (hP : Increasing P) {a b c : Nat} (h1 : Anc P a b) (h2 : Anc P a c) (hbc : b ≤ c) :
    Anc P b c := by
  induction h1 with
  | refl _ => exact h2
  | @step j p k hj hpk ih =>
    apply ih _ hbc
    have hne : j ≠ c := by
      have := hP _ _ hj
      have := hpk.le hP
      omega
    obtain ⟨q, hq, hqc⟩ := h2.of_ne hne
    rw [hj] at hq
    cases hq
    exact hqc

/-- `P` is the elimination tree of `G`. -/
def IsTree (G : Nat → Nat → Prop) (P : Nat → Option Nat) : Prop := ∀ j p, P j = some p ↔ IsParent G j p

theorem IsTree.increasing (h : IsTree G P) : Increasing P := fun j p hp => ((h j p).mp hp).lt

theorem IsTree.unique (h : IsTree G P) (h' : IsTree G P') : P = P' := by
  funext j
  cases hP : P j with
  | some p => exact ((h' j p).mpr ((h j p).mp hP)).symm
  | none =>
    cases hP' : P' j with
    | none => rfl
    | some p => rw [(h j p).mpr ((h' j p).mp hP')] at hP; cases hP

theorem IsTree.congr (h : IsTree G P) (hG : ∀ a b, b < a → (G a b ↔ G' a b)) : IsTree G' P := by
  intro j p
  rw [h j p]
  unfold IsParent
  constructor
  · rintro ⟨h1, h2⟩
    exact ⟨(Fill.congr hG).mp h1, fun i hi => h2 i ((Fill.congr hG).mpr hi)⟩
  · rintro ⟨h1, h2⟩
    exact ⟨(Fill.congr hG).mpr h1, fun i hi => h2 i ((Fill.congr hG).mp hi)⟩

theorem IsTree.has_parent (h : IsTree G P) {i j : Nat} (hf : Fill G i j) : ∃ p, P j = some p ∧ p ≤ i := by
  obtain ⟨p, hp⟩ := hf.exists_parent
  exact ⟨p, (h j p).mpr hp, hp.2 _ hf⟩

theorem IsTree.root_iff (h : IsTree G P) {j : Nat} : P j = none ↔ ¬ ∃ i, Fill G i j := by
  constructor
  · rintro hn ⟨i, hi⟩
    obtain ⟨p, hp, -⟩ := h.has_parent hi
    rw [hn] at hp; cases hp
  · intro hn
    cases hP : P j with
    | none => rfl
    | some p => exact absurd ⟨p, ((h j p).mp hP).1⟩ hn

theorem IsTree.fill_anc (h : IsTree G P) {i j : Nat} (hf : Fill G i j) : Anc P j i := by
  suffices H : ∀ d j, i - j = d → Fill G i j → Anc P j i from H _ j rfl hf
  intro d
  induction d using Nat.strongRecOn with
  | _ d ih =>
    intro j hd hf
    obtain ⟨p, hp, hle⟩ := h.has_parent hf
    have hpar := (h j p).mp hp
    have hlt := hpar.lt
    have hji := hf.lt
    rcases Nat.lt_or_eq_of_le hle with h1 | h1
    · exact .step hp (ih (i - p) (by omega) p rfl (.step hf hpar.1 h1))
    · subst h1; exact .single hp

/-- Non-zeros of a row spread along the tree up to the diagonal. -/
theorem IsTree.fill_up (h : IsTree G P) {i j k : Nat} (hf : Fill G i j) (ha : Anc P j k) (hk : k < i) :
    Fill G i k := by
  induction ha with
  | refl _ => exact hf
  | @step j p k hp hpk ih =>
    have hle := hpk.le h.increasing
    exact ih (.step hf ((h j p).mp hp).1 (by omega)) hk

/-- Row structure of the fill-in. -/
theorem IsTree.fill_row (h : IsTree G P) {i k : Nat} :
    Fill G i k ↔ k < i ∧ ∃ j, j < i ∧ G i j ∧ Anc P j k := by
  constructor
  · intro hf
    refine ⟨hf.lt, ?_⟩
    induction hf with
    | @base i j hb hlt => exact ⟨j, hlt, hb, .refl j⟩
    | @step i j k h1 h2 hlt ih1 _ =>
      obtain ⟨j0, h3, h4, h5⟩ := ih1
      exact ⟨j0, h3, h4, h5.trans (h.fill_anc h2)⟩
  · rintro ⟨hk, j, hj, hG, ha⟩
    exact h.fill_up (.base hG hj) ha hk

/-- If all entries of `G` connect nodes with ancestors in some increasing forest then so do all fill-ins. -/
theorem Fill.anc_of_edges (hP : Increasing P) (hG : ∀ a b, G a b → b < a → Anc P b a) {i j : Nat}
    (hf : Fill G i j) : Anc P j i := by
  induction hf with
  | base h hlt => exact hG _ _ h hlt
  | step _ _ hlt ih1 ih2 => exact ih2.linear hP ih1 (Nat.le_of_lt hlt)

/-- A pattern with one entry more in the last row. -/
def addEdge (G : Nat → Nat → Prop) (i j : Nat) : Nat → Nat → Prop := fun a b => G a b ∨ (a = i ∧ b = j)

theorem fill_addEdge (h : IsTree G P) {i j0 : Nat} (hrows : ∀ a b, G a b → a ≤ i) (hj : j0 < i) {a b : Nat} :
    Fill (addEdge G i j0) a b ↔ Fill G a b ∨ (a = i ∧ b < i ∧ Anc P j0 b) := by
  constructor
  · intro hf
    induction hf with
    | base hb hlt =>
      rcases hb with hb | ⟨rfl, rfl⟩
      · exact Or.inl (.base hb hlt)
      · exact Or.inr ⟨rfl, hlt, .refl _⟩
    | @step a j k h1 h2 hlt ih1 ih2 =>
      have hrow : a ≤ i := by
        have := h1.row_bound (n := i + 1) (by
          rintro x y (hxy | ⟨rfl, rfl⟩)
          · have := hrows _ _ hxy; omega
          · omega)
        omega
      rcases ih2 with h4 | ⟨rfl, _, _⟩
      · rcases ih1 with h3 | ⟨rfl, h5, h6⟩
        · exact Or.inl (.step h3 h4 hlt)
        · exact Or.inr ⟨rfl, hlt, h6.trans (h.fill_anc h4)⟩
      · omega
  · rintro (hf | ⟨rfl, hb, ha⟩)
    · exact hf.mono fun x y hxy _ => Or.inl hxy
    · suffices H : ∀ {j k}, Anc P j k → Fill (addEdge G a j0) a j → k < a → Fill (addEdge G a j0) a k from
        H ha (.base (Or.inr ⟨rfl, rfl⟩) hj) hb
      intro j k ha hbase hk
      induction ha with
      | refl _ => exact hbase
      | @step j p k hp hpk ih =>
        have hle := hpk.le h.increasing
        have hfp : Fill (addEdge G a j0) p j := ((h j p).mp hp).1.mono fun x y hxy _ => Or.inl hxy
        exact ih (.step hbase hfp (by omega)) hk

/-- Adding an entry whose row is already an ancestor of its column does not change the tree. -/
theorem IsTree.addEdge_same (h : IsTree G P) {i j0 : Nat} (hrows : ∀ a b, G a b → a ≤ i) (hj : j0 < i)
    (ha : Anc P j0 i) : IsTree (addEdge G i j0) P := by
  intro b p
  rw [h b p]
  constructor
  · rintro ⟨h1, h2⟩
    refine ⟨(fill_addEdge h hrows hj).mpr (Or.inl h1), ?_⟩
    intro a hf
    rcases (fill_addEdge h hrows hj).mp hf with hf | ⟨rfl, h3, h4⟩
    · exact h2 a hf
    · obtain ⟨q, hq, hqi⟩ := (h4.linear h.increasing ha (by omega)).of_ne (by omega)
      have hqp := ((h b q).mp hq).unique ⟨h1, h2⟩
      have := hqi.le h.increasing
      omega
  · rintro ⟨h1, h2⟩
    rcases (fill_addEdge h hrows hj).mp h1 with hf | ⟨rfl, h3, h4⟩
    · exact ⟨hf, fun a ha => h2 a ((fill_addEdge h hrows hj).mpr (Or.inl ha))⟩
    · obtain ⟨q, hq, hqi⟩ := (h4.linear h.increasing ha (by omega)).of_ne (by omega)
      have hq' := (h b q).mp hq
      have := hqi.le h.increasing
      have := h2 q ((fill_addEdge h hrows hj).mpr (Or.inl hq'.1))
      have : q = p := by omega
      rw [← this]; exact hq'

/-- Adding an entry in a new row makes that row the parent of the root of the column. -/
theorem IsTree.addEdge_root (h : IsTree G P) {i j0 r : Nat} (hrows : ∀ a b, G a b → a ≤ i) (hj : j0 < i)
    (ha : Anc P j0 r) (hr : P r = none) (hri : r < i) :
    IsTree (addEdge G i j0) (fun m => if m = r then some i else P m) := by
  have hnor : ∀ a, ¬ Fill G a r := fun a hf => (h.root_iff.mp hr) ⟨a, hf⟩
  intro b p
  by_cases hb : b = r
  · subst hb
    simp only [if_true]
    have hnew : Fill (addEdge G i j0) i b := (fill_addEdge h hrows hj).mpr (Or.inr ⟨rfl, hri, ha⟩)
    have honly : ∀ a, Fill (addEdge G i j0) a b → a = i := by
      intro a hf
      rcases (fill_addEdge h hrows hj).mp hf with hf | ⟨rfl, -, -⟩
      · exact absurd hf (hnor a)
      · rfl
    constructor
    · intro hp
      cases hp
      exact ⟨hnew, fun a hf => Nat.le_of_eq (honly a hf).symm⟩
    · rintro ⟨h1, -⟩
      rw [honly p h1]
  · simp only [if_neg hb]
    rw [h b p]
    -- a new non-zero in column `b` cannot become the first one
    have hkey : b < i → Anc P j0 b → ∃ q, IsParent G b q ∧ q < i := by
      intro hbi hjb
      have hbr : b < r := by
        rcases Nat.lt_or_ge b r with h1 | h1
        · exact h1
        · have := (ha.linear h.increasing hjb h1).root hr
          exact absurd this hb
      obtain ⟨q, hq, hqr⟩ := (hjb.linear h.increasing ha (by omega)).of_ne (by omega)
      have := hqr.le h.increasing
      exact ⟨q, (h b q).mp hq, by omega⟩
    constructor
    · rintro ⟨h1, h2⟩
      refine ⟨(fill_addEdge h hrows hj).mpr (Or.inl h1), ?_⟩
      intro a hf
      rcases (fill_addEdge h hrows hj).mp hf with hf | ⟨rfl, h3, h4⟩
      · exact h2 a hf
      · obtain ⟨q, hq, hqi⟩ := hkey h3 h4
        have := hq.unique ⟨h1, h2⟩
        omega
    · rintro ⟨h1, h2⟩
      rcases (fill_addEdge h hrows hj).mp h1 with hf | ⟨rfl, h3, h4⟩
      · exact ⟨hf, fun a ha => h2 a ((fill_addEdge h hrows hj).mpr (Or.inl ha))⟩
      · obtain ⟨q, hq, hqi⟩ := hkey h3 h4
        have := h2 q ((fill_addEdge h hrows hj).mpr (Or.inl hq.1))
        omega

/-- The tree without entries. -/
theorem isTree_empty : IsTree (fun _ _ => False) (fun _ => none) := by
  intro j p
  constructor
  · intro h; cases h
  · rintro ⟨h, -⟩
    obtain ⟨_, _, h'⟩ := h.exists_base
    exact h'.elim

/-- The edges of an increasing forest as a pattern. -/
def treeEdges (P : Nat → Option Nat) : Nat → Nat → Prop := fun i j => P j = some i

theorem fill_treeEdges (hP : Increasing P) {i j : Nat} : Fill (treeEdges P) i j ↔ P j = some i := by
  constructor
  · intro h
    induction h with
    | base h _ => exact h
    | step _ _ hlt ih1 ih2 => rw [ih1] at ih2; cases ih2; omega
  · intro h; exact .base h (hP _ _ h)

theorem isTree_treeEdges (hP : Increasing P) : IsTree (treeEdges P) P := by
  intro j p
  constructor
  · intro h
    refine ⟨(fill_treeEdges hP).mpr h, fun i hi => ?_⟩
    rw [fill_treeEdges hP, h] at hi
    cases hi; exact Nat.le_refl _
  · rintro ⟨h, -⟩; exact (fill_treeEdges hP).mp h

end Ctldl
