import Verif.Model.Arrowhead
import Verif.Lemmas.Basic

/-! # C42: consistency of dimensions -/

namespace Ctldl

/-- C42: `all_equal` is true exactly if all elements are equal. -/
theorem C42_all_equal (l : List Nat) : allEqual l = true ↔ ∀ x ∈ l, ∀ y ∈ l, x = y := by
  fun_induction allEqual l with
  | case1 => simp
  | case2 x => simp
  | case3 x y rest h =>
    have h : x ≠ y := by simpa using h
    simp only [Bool.false_eq_true, false_iff]
    exact fun hh => h (hh x (by simp) y (by simp))
  | case4 x y rest h ih =>
    have h : x = y := by simpa using h
    subst h
    rw [ih]
    simp

private theorem allEqual_cons {x : Nat} {l : List Nat} : allEqual (x :: l) = true ↔ ∀ y ∈ l, y = x := by
  rw [C42_all_equal]
  constructor
  · exact fun h y hy => h y (by simp [hy]) x (by simp)
  · intro h a ha b hb
    have h' : ∀ y ∈ x :: l, y = x := by
      intro y hy
      rcases List.mem_cons.mp hy with rfl | hy
      · rfl
      · exact h y hy
    rw [h' a ha, h' b hb]

/-- The dimension of the start block, according to all blocks and the permutation that have it. -/
def ArrowheadSparsity.StartDim (s : ArrowheadSparsity) (n : Nat) : Prop :=
  s.start.diag.numRows = n ∧ s.start.diag.numCols = n ∧ s.start.next.numCols = n ∧ s.start.outer.numCols = n ∧
    s.start.permutation.length = n

/-- The dimension of the tridiagonal blocks. -/
def ArrowheadSparsity.TridiagDim (s : ArrowheadSparsity) (n : Nat) : Prop :=
  s.tridiag.diag.numRows = n ∧ s.tridiag.diag.numCols = n ∧ s.tridiag.subdiag.numRows = n ∧
    s.tridiag.subdiag.numCols = n ∧ s.tridiag.permutation.length = n ∧ s.start.next.numRows = n ∧
    s.link.prev.numCols = n ∧ s.outer.subdiag.numCols = n

/-- The dimension of the link block. -/
def ArrowheadSparsity.LinkDim (s : ArrowheadSparsity) (n : Nat) : Prop :=
  s.link.diag.numRows = n ∧ s.link.diag.numCols = n ∧ s.link.prev.numRows = n ∧ s.link.next.numCols = n ∧
    s.link.permutation.length = n

/-- The dimension of the outer block. -/
def ArrowheadSparsity.OuterDim (s : ArrowheadSparsity) (n : Nat) : Prop :=
  s.outer.diag.numRows = n ∧ s.outer.diag.numCols = n ∧ s.outer.subdiag.numRows = n ∧
    s.outer.permutation.length = n ∧ s.start.outer.numRows = n ∧ s.link.next.numRows = n

private theorem dim_eq {c : Bool} {v n : Nat} {P : Prop} (h : P ↔ c = true ∧ v = n) :
    (do pre c; return v : Res Nat) = .ok n ↔ P := by
  rw [h]
  cases c with
  | true => simp [pre]
  | false => simp [pre]

private theorem dim_err {c : Bool} {v : Nat} :
    (do pre c; return v : Res Nat) = .ok v ∨ (do pre c; return v : Res Nat) = .error .pre := by
  cases c with
  | true => exact Or.inl rfl
  | false => exact Or.inr rfl

/-- C42: the dimension of the start block is reported exactly if everything agrees on it. -/
theorem C42_dim_start (s : ArrowheadSparsity) (n : Nat) :
    (s.dimStart = .ok n ↔ s.StartDim n) ∧ ((∀ n, ¬ s.StartDim n) → s.dimStart = .error .pre) := by
  have h : ∀ n, s.dimStart = .ok n ↔ s.StartDim n := by
    intro n
    refine dim_eq ?_
    unfold SparsityStart.hasConsistentDim ArrowheadSparsity.StartDim
    rw [allEqual_cons]
    simp
    omega
  refine ⟨h n, fun hn => ?_⟩
  rcases dim_err (c := s.start.hasConsistentDim) (v := s.start.diag.numCols) with h' | h'
  · exact absurd ((h _).mp h') (hn _)
  · exact h'

/-- C42: the dimension of the link block is reported exactly if everything agrees on it. -/
theorem C42_dim_link (s : ArrowheadSparsity) (n : Nat) :
    (s.dimLink = .ok n ↔ s.LinkDim n) ∧ ((∀ n, ¬ s.LinkDim n) → s.dimLink = .error .pre) := by
  have h : ∀ n, s.dimLink = .ok n ↔ s.LinkDim n := by
    intro n
    refine dim_eq ?_
    unfold SparsityLink.hasConsistentDim ArrowheadSparsity.LinkDim
    rw [allEqual_cons]
    simp
    omega
  refine ⟨h n, fun hn => ?_⟩
  rcases dim_err (c := s.link.hasConsistentDim) (v := s.link.diag.numRows) with h' | h'
  · exact absurd ((h _).mp h') (hn _)
  · exact h'

/-- C42: the dimension of the tridiagonal blocks is reported exactly if everything agrees on it. -/
theorem C42_dim_tridiag (s : ArrowheadSparsity) (n : Nat) :
    (s.dimTridiag = .ok n ↔ s.TridiagDim n) ∧ ((∀ n, ¬ s.TridiagDim n) → s.dimTridiag = .error .pre) := by
  have hd : s.dimTridiag = (do
      pre (s.tridiag.hasConsistentDim && allEqual [s.start.next.numRows, s.tridiag.diag.numRows, s.link.prev.numCols,
        s.outer.subdiag.numCols])
      return s.tridiag.diag.numRows) := by
    unfold ArrowheadSparsity.dimTridiag ArrowheadSparsity.hasConsistentDimTridiag SparsityTridiagonal.dim
    cases s.tridiag.hasConsistentDim with
    | true => rfl
    | false => rfl
  have h : ∀ n, s.dimTridiag = .ok n ↔ s.TridiagDim n := by
    intro n
    rw [hd]
    refine dim_eq ?_
    unfold SparsityTridiagonal.hasConsistentDim ArrowheadSparsity.TridiagDim
    rw [Bool.and_eq_true, allEqual_cons, allEqual_cons]
    simp
    omega
  refine ⟨h n, fun hn => ?_⟩
  rw [hd]
  rcases dim_err (c := s.tridiag.hasConsistentDim && allEqual [s.start.next.numRows, s.tridiag.diag.numRows,
    s.link.prev.numCols, s.outer.subdiag.numCols]) (v := s.tridiag.diag.numRows) with h' | h'
  · exact absurd ((h _).mp (hd.trans h')) (hn _)
  · exact h'

/-- C42: the dimension of the outer block is reported exactly if everything agrees on it. -/
theorem C42_dim_outer (s : ArrowheadSparsity) (n : Nat) :
    (s.dimOuter = .ok n ↔ s.OuterDim n) ∧ ((∀ n, ¬ s.OuterDim n) → s.dimOuter = .error .pre) := by
  have hd : s.dimOuter = (do
      pre (s.outer.hasConsistentDim && allEqual [s.start.outer.numRows, s.link.next.numRows, s.outer.diag.numRows])
      return s.outer.diag.numRows) := by
    unfold ArrowheadSparsity.dimOuter ArrowheadSparsity.hasConsistentDimOuter SparsityOuter.dim
    cases s.outer.hasConsistentDim with
    | true => rfl
    | false => rfl
  have h : ∀ n, s.dimOuter = .ok n ↔ s.OuterDim n := by
    intro n
    rw [hd]
    refine dim_eq ?_
    unfold SparsityOuter.hasConsistentDim ArrowheadSparsity.OuterDim
    rw [Bool.and_eq_true, allEqual_cons, allEqual_cons]
    simp
    omega
  refine ⟨h n, fun hn => ?_⟩
  rw [hd]
  rcases dim_err (c := s.outer.hasConsistentDim && allEqual [s.start.outer.numRows, s.link.next.numRows,
    s.outer.diag.numRows]) (v := s.outer.diag.numRows) with h' | h'
  · exact absurd ((h _).mp (hd.trans h')) (hn _)
  · exact h'

private theorem bind_inv {α β : Type} {m : Res α} {f : α → Res β} {b : β} (h : (m >>= f) = .ok b) :
    ∃ a, m = .ok a ∧ f a = .ok b := by
  cases m with
  | error e => cases h
  | ok a => exact ⟨a, rfl, h⟩

/-- C42: a description with inconsistent dimensions cannot be instantiated. -/
theorem C42_instantiation_checks (s : ArrowheadSparsity) (T : ArrowheadTypes) (h : arrowheadTypes s = .ok T) :
    s.StartDim T.dimStart ∧ s.TridiagDim T.dimTridiag ∧ s.LinkDim T.dimLink ∧ s.OuterDim T.dimOuter := by
  unfold arrowheadTypes at h
  obtain ⟨d1, h1, h⟩ := bind_inv h
  obtain ⟨d2, h2, h⟩ := bind_inv h
  obtain ⟨d3, h3, h⟩ := bind_inv h
  obtain ⟨d4, h4, h⟩ := bind_inv h
  iterate 7 obtain ⟨_, -, h⟩ := bind_inv h
  iterate 9 obtain ⟨_, -, h⟩ := bind_inv h
  cases h
  exact ⟨(C42_dim_start s d1).1.mp h1, (C42_dim_tridiag s d2).1.mp h2, (C42_dim_link s d3).1.mp h3,
    (C42_dim_outer s d4).1.mp h4⟩

/-- A consistent description, and one in which the outer block has a wrong number of columns. -/
example : (do
    let s ← tridiagonalSparsity ⟨2, 2, [⟨1, 0⟩]⟩ ⟨2, 2, [⟨0, 1⟩]⟩ [1, 0]
    return (s.dimStart, s.dimTridiag, s.dimLink, s.dimOuter,
      ({ s with outer := ⟨⟨0, 3, []⟩, s.outer.diag, s.outer.permutation⟩ } : ArrowheadSparsity).dimTridiag) : Res _) =
    .ok (.ok 0, .ok 2, .ok 0, .ok 0, .error .pre) := by decide

end Ctldl
