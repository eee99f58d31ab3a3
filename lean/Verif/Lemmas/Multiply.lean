import Verif.Lemmas.Basic
import Verif.Spec.Multiply
import Mathlib.Algebra.BigOperators.Ring.Finset
import Mathlib.Algebra.BigOperators.Group.Finset.Sigma
import Mathlib.Tactic.Abel

/-! # Lemmas on `multiply` -/

namespace Ctldl

open Finset

variable {K : Type}

/-- `multiply` accesses only elements which exist. -/
def MultiplyKind.Fits (kind : MultiplyKind) (m : MatIn K) (nr nx : Nat) : Prop :=
  m.values.length = m.sparsity.entries.length ∧ ∀ e ∈ m.sparsity.entries,
    (kind.hasNormal = true → e.row < nr ∧ e.col < nx) ∧ (kind.hasTransposed = true → e.col < nr ∧ e.row < nx)

theorem multiplyEntry_total [Add K] [Mul K] {kind : MultiplyKind} {m : MatIn K} {x rhs : List K}
    (h : kind.Fits m rhs.length x.length) {t : Nat} (ht : t < m.sparsity.entries.length) :
    ∃ v, multiplyEntry kind m x rhs t = .ok v ∧ v.length = rhs.length := by
  obtain ⟨hv, he⟩ := h
  have h1 := he _ (List.getElem_mem ht)
  unfold multiplyEntry MatIn.valueAt
  rw [rd_ok ht, ok_bind, rd_ok (by omega), ok_bind]
  cases kind with
  | normal =>
    have h2 := h1.1 rfl
    simp only [MultiplyKind.hasNormal, MultiplyKind.hasTransposed, if_true]
    rw [rd_ok h2.1, ok_bind, rd_ok h2.2, ok_bind, wr_ok h2.1, ok_bind]
    simp [pure_eq_ok]
  | transposed =>
    have h2 := h1.2 rfl
    simp only [MultiplyKind.hasNormal, MultiplyKind.hasTransposed, if_true]
    rw [pure_eq_ok]
    simp [rd_ok h2.1, ok_bind, rd_ok h2.2, wr_ok h2.1]
  | symmetric =>
    have h2 := h1.1 rfl
    have h3 := h1.2 rfl
    simp only [MultiplyKind.hasNormal, MultiplyKind.hasTransposed, if_true]
    rw [rd_ok h2.1, ok_bind, rd_ok h2.2, ok_bind, wr_ok h2.1, ok_bind]
    split
    · exact ⟨_, rfl, by simp⟩
    · rw [rd_ok (by simpa using h3.1), ok_bind, rd_ok h3.2, ok_bind, wr_ok (by simpa using h3.1)]
      exact ⟨_, rfl, by simp⟩

theorem multiply_total [Add K] [Mul K] {kind : MultiplyKind} {m : MatIn K} {x rhs : List K}
    (h : kind.Fits m rhs.length x.length) :
    ∃ v, multiply kind m x rhs = .ok v ∧ v.length = rhs.length := by
  unfold multiply
  refine foldlM_range_inv (fun _ (v : List K) => v.length = rhs.length) rfl fun t v ht hv => ?_
  obtain ⟨w, h1, h2⟩ := multiplyEntry_total (kind := kind) (x := x) (rhs := v) (by rw [hv]; exact h) ht
  exact ⟨w, h1, by omega⟩

/-- What entry `t` adds to element `i`. -/
def multiplyTerm [AddCommMonoid K] [Mul K] (kind : MultiplyKind) (m : MatIn K) (x : List K) (t i : Nat) : K :=
  (if kind.hasNormal = true ∧ (m.sparsity.entries.getD t ⟨0, 0⟩).row = i then
      m.values.getD t 0 * x.getD (m.sparsity.entries.getD t ⟨0, 0⟩).col 0 else 0) +
  (if (kind.hasTransposed = true ∧ ¬ (kind = .symmetric ∧
      (m.sparsity.entries.getD t ⟨0, 0⟩).row = (m.sparsity.entries.getD t ⟨0, 0⟩).col)) ∧
      (m.sparsity.entries.getD t ⟨0, 0⟩).col = i then
      m.values.getD t 0 * x.getD (m.sparsity.entries.getD t ⟨0, 0⟩).row 0 else 0)

theorem getD_set_of_lt {α : Type _} {v : List α} {i j : Nat} {a b : α} (h : i < v.length) :
    (v.set i a).getD j b = if i = j then a else v.getD j b := by
  simp only [List.getD_eq_getElem?_getD, List.getElem?_set]
  split
  · simp_all
  · rfl

theorem multiplyEntry_sat [Semiring K] {kind : MultiplyKind} {m : MatIn K} {x rhs : List K}
    (h : kind.Fits m rhs.length x.length) {t : Nat} (ht : t < m.sparsity.entries.length) :
    ∃ v, multiplyEntry kind m x rhs t = .ok v ∧ v.length = rhs.length ∧
      ∀ i, v.getD i 0 = rhs.getD i 0 + multiplyTerm kind m x t i := by
  obtain ⟨hv, he⟩ := h
  have h1 := he _ (List.getElem_mem ht)
  have hval : m.values.getD t 0 = m.values[t]'(by omega) := by
    rw [List.getD_eq_getElem?_getD, List.getElem?_eq_getElem (by omega)]; rfl
  have hent : m.sparsity.entries.getD t ⟨0, 0⟩ = m.sparsity.entries[t] := by
    rw [List.getD_eq_getElem?_getD, List.getElem?_eq_getElem (by omega)]; rfl
  have hget : ∀ (l : List K) k (hk : k < l.length), l[k] = l.getD k 0 := by
    intro l k hk
    rw [List.getD_eq_getElem?_getD, List.getElem?_eq_getElem (by omega)]; rfl
  unfold multiplyTerm
  rw [hval, hent]
  unfold multiplyEntry MatIn.valueAt
  rw [rd_ok ht, ok_bind, rd_ok (by omega), ok_bind]
  generalize m.sparsity.entries[t] = e at *
  generalize m.values[t]'(by omega) = a at *
  obtain ⟨r, c⟩ := e
  simp only at h1 ⊢
  cases kind with
  | normal =>
    have h2 := h1.1 rfl
    simp only [MultiplyKind.hasNormal, MultiplyKind.hasTransposed, if_true]
    rw [rd_ok h2.1, ok_bind, rd_ok h2.2, ok_bind, wr_ok h2.1, ok_bind]
    refine ⟨_, by simp [pure_eq_ok]; rfl, by simp, fun i => ?_⟩
    rw [getD_set_of_lt h2.1, hget _ _ h2.1, hget _ _ h2.2]
    by_cases hr : r = i
    · subst hr; simp
    · simp [hr]
  | transposed =>
    have h2 := h1.2 rfl
    simp only [MultiplyKind.hasNormal, MultiplyKind.hasTransposed, if_true]
    refine ⟨rhs.set c (rhs[c] + a * x[r]), ?_, by simp, fun i => ?_⟩
    · rw [pure_eq_ok]
      simp [rd_ok h2.1, ok_bind, rd_ok h2.2, wr_ok h2.1]
    · rw [getD_set_of_lt h2.1, hget _ _ h2.1, hget _ _ h2.2]
      by_cases hr : c = i
      · subst hr; simp
      · simp [hr]
  | symmetric =>
    have h2 := h1.1 rfl
    have h3 := h1.2 rfl
    simp only [MultiplyKind.hasNormal, MultiplyKind.hasTransposed, if_true]
    rw [rd_ok h2.1, ok_bind, rd_ok h2.2, ok_bind, wr_ok h2.1, ok_bind]
    by_cases hrc : r = c
    · subst hrc
      refine ⟨_, by simp [pure_eq_ok]; rfl, by simp, fun i => ?_⟩
      rw [getD_set_of_lt h2.1, hget _ _ h2.1, hget _ _ h2.2]
      by_cases hr : r = i
      · subst hr; simp
      · simp [hr]
    · rw [if_neg (by simp [hrc]), rd_ok (by simpa using h3.1), ok_bind, rd_ok h3.2, ok_bind,
        wr_ok (by simpa using h3.1)]
      refine ⟨_, rfl, by simp, fun i => ?_⟩
      rw [getD_set_of_lt (by simpa using h3.1), hget _ _ (by simpa using h3.1), getD_set_of_lt h2.1, getD_set_of_lt h2.1,
        hget _ _ h2.1, hget _ _ h2.2, hget _ _ h3.2, if_neg hrc]
      by_cases hr : c = i
      · subst hr; simp [hrc]
      · by_cases hr' : r = i
        · subst hr'; simp [hr]
        · simp [hr, hr']

theorem multiplyTerm_sum [Semiring K] {kind : MultiplyKind} {m : MatIn K} {x : List K} {nr : Nat}
    (h : kind.Fits m nr x.length) (i : Nat) :
    ∑ t ∈ range m.sparsity.entries.length, multiplyTerm kind m x t i =
      ∑ j ∈ range x.length, kind.element m i j * x.getD j 0 := by
  have hdense : ∀ (q : Nat → Nat → Entry) (i : Nat) (P : Nat → Prop) [DecidablePred P],
      ∑ j ∈ range x.length, (if P j then (∑ t ∈ range m.sparsity.entries.length,
        if m.sparsity.entries[t]? = some (q i j) then m.values.getD t 0 else 0) * x.getD j 0 else 0) =
      ∑ t ∈ range m.sparsity.entries.length, ∑ j ∈ range x.length,
        if P j ∧ m.sparsity.entries[t]? = some (q i j) then m.values.getD t 0 * x.getD j 0 else 0 := by
    intro q i P _
    rw [sum_comm]
    refine sum_congr rfl fun j _ => ?_
    by_cases hP : P j
    · simp only [hP, if_true, true_and, sum_mul, ite_mul, zero_mul]
    · simp [hP]
  have hN : ∀ (i : Nat) (P : Nat → Prop) [DecidablePred P],
      (∀ e ∈ m.sparsity.entries, e.col < x.length) →
      ∑ j ∈ range x.length, (if P j then m.dense i j * x.getD j 0 else 0) =
      ∑ t ∈ range m.sparsity.entries.length,
        if P (m.sparsity.entries.getD t ⟨0, 0⟩).col ∧ (m.sparsity.entries.getD t ⟨0, 0⟩).row = i then
          m.values.getD t 0 * x.getD (m.sparsity.entries.getD t ⟨0, 0⟩).col 0 else 0 := by
    intro i P _ hc
    unfold MatIn.dense
    rw [hdense (fun i j => ⟨i, j⟩) i P]
    refine sum_congr rfl fun t ht => ?_
    have ht' : t < m.sparsity.entries.length := by simpa using ht
    have hcc := hc _ (List.getElem_mem ht')
    have hent : m.sparsity.entries.getD t ⟨0, 0⟩ = m.sparsity.entries[t] := by
      rw [List.getD_eq_getElem?_getD, List.getElem?_eq_getElem (by omega)]; rfl
    rw [hent, List.getElem?_eq_getElem ht']
    simp only [Option.some.injEq]
    clear hent
    generalize m.sparsity.entries[t] = e at *
    obtain ⟨r, c⟩ := e
    simp only [Entry.mk.injEq]
    rw [sum_eq_single c]
    · by_cases h1 : r = i <;> by_cases h2 : P c <;> simp [h1, h2, List.getD_eq_getElem?_getD]
    · intro j _ hj
      rw [if_neg (by rintro ⟨-, -, h⟩; exact hj h.symm)]
    · intro hnot
      exact absurd (by simpa using hcc) hnot
  have hT : ∀ (i : Nat) (P : Nat → Prop) [DecidablePred P],
      (∀ e ∈ m.sparsity.entries, e.row < x.length) →
      ∑ j ∈ range x.length, (if P j then m.dense j i * x.getD j 0 else 0) =
      ∑ t ∈ range m.sparsity.entries.length,
        if P (m.sparsity.entries.getD t ⟨0, 0⟩).row ∧ (m.sparsity.entries.getD t ⟨0, 0⟩).col = i then
          m.values.getD t 0 * x.getD (m.sparsity.entries.getD t ⟨0, 0⟩).row 0 else 0 := by
    intro i P _ hc
    unfold MatIn.dense
    rw [hdense (fun i j => ⟨j, i⟩) i P]
    refine sum_congr rfl fun t ht => ?_
    have ht' : t < m.sparsity.entries.length := by simpa using ht
    have hcc := hc _ (List.getElem_mem ht')
    have hent : m.sparsity.entries.getD t ⟨0, 0⟩ = m.sparsity.entries[t] := by
      rw [List.getD_eq_getElem?_getD, List.getElem?_eq_getElem (by omega)]; rfl
    rw [hent, List.getElem?_eq_getElem ht']
    simp only [Option.some.injEq]
    clear hent
    generalize m.sparsity.entries[t] = e at *
    obtain ⟨r, c⟩ := e
    simp only [Entry.mk.injEq]
    rw [sum_eq_single r]
    · by_cases h1 : c = i <;> by_cases h2 : P r <;> simp [h1, h2, List.getD_eq_getElem?_getD]
    · intro j _ hj
      rw [if_neg (by rintro ⟨-, h, -⟩; exact hj h.symm)]
    · intro hnot
      exact absurd (by simpa using hcc) hnot
  unfold multiplyTerm
  cases kind with
  | normal =>
    have := hN i (fun _ => True) (fun e he => ((h.2 e he).1 rfl).2)
    simpa [MultiplyKind.hasNormal, MultiplyKind.hasTransposed, MultiplyKind.element] using this.symm
  | transposed =>
    have := hT i (fun _ => True) (fun e he => ((h.2 e he).2 rfl).2)
    simpa [MultiplyKind.hasNormal, MultiplyKind.hasTransposed, MultiplyKind.element] using this.symm
  | symmetric =>
    have h1 := hN i (fun _ => True) (fun e he => ((h.2 e he).1 rfl).2)
    have h2 := hT i (fun j => ¬ i = j) (fun e he => ((h.2 e he).2 rfl).2)
    simp only [MultiplyKind.element, MatIn.symmetrized, add_mul, sum_add_distrib]
    congr 1
    · simpa [MultiplyKind.hasNormal] using h1.symm
    · have h3 : ∀ j ∈ range x.length, (if i = j then 0 else m.dense j i) * x.getD j 0 =
          if ¬ i = j then m.dense j i * x.getD j 0 else 0 := by
        intro j _
        by_cases hij : i = j <;> simp [hij]
      rw [sum_congr rfl h3, h2]
      refine sum_congr rfl fun t _ => ?_
      refine if_congr ?_ rfl rfl
      simp only [MultiplyKind.hasTransposed, true_and]
      constructor
      · rintro ⟨h, h'⟩
        exact ⟨fun h'' => h (by omega), h'⟩
      · rintro ⟨h, h'⟩
        exact ⟨fun h'' => h (by omega), h'⟩

theorem multiply_sat [Semiring K] {kind : MultiplyKind} {m : MatIn K} {x rhs : List K}
    (h : kind.Fits m rhs.length x.length) :
    ∃ v, multiply kind m x rhs = .ok v ∧ v.length = rhs.length ∧
      ∀ i, v.getD i 0 = rhs.getD i 0 + ∑ j ∈ range x.length, kind.element m i j * x.getD j 0 := by
  obtain ⟨v, h1, h2, h3⟩ := foldlM_range_inv (f := multiplyEntry kind m x) (n := m.sparsity.entries.length)
    (init := rhs) (fun t v => v.length = rhs.length ∧
      ∀ i, v.getD i 0 = rhs.getD i 0 + ∑ s ∈ range t, multiplyTerm kind m x s i) ⟨rfl, by simp⟩
    (fun t v ht ⟨hv, hvi⟩ => by
      obtain ⟨w, h1, h2, h3⟩ := multiplyEntry_sat (kind := kind) (x := x) (rhs := v) (by rw [hv]; exact h) ht
      refine ⟨w, h1, by omega, fun i => ?_⟩
      rw [h3, hvi, sum_range_succ, add_assoc])
  refine ⟨v, h1, h2, fun i => ?_⟩
  rw [h3, multiplyTerm_sum h]

theorem MatIn.OfSize.fits_normal {m : MatIn K} {r c : Nat} (h : m.OfSize r c) : MultiplyKind.normal.Fits m r c :=
  ⟨h.sized, fun e he => ⟨fun _ => h.inRange e he, fun hh => by cases hh⟩⟩

theorem MatIn.OfSize.fits_transposed {m : MatIn K} {r c : Nat} (h : m.OfSize r c) :
    MultiplyKind.transposed.Fits m c r :=
  ⟨h.sized, fun e he => ⟨fun hh => (by cases hh), fun _ => ⟨(h.inRange e he).2, (h.inRange e he).1⟩⟩⟩

theorem MatIn.OfSize.fits_symmetric {m : MatIn K} {n : Nat} (h : m.OfSize n n) :
    MultiplyKind.symmetric.Fits m n n :=
  ⟨h.sized, fun e he => ⟨fun _ => h.inRange e he, fun _ => ⟨(h.inRange e he).2, (h.inRange e he).1⟩⟩⟩

/-- The product of one block. -/
def blockProduct [Semiring K] (kind : MultiplyKind) (m : MatIn K) (x : List K) (i : Nat) : K :=
  ∑ j ∈ range x.length, kind.element m i j * x.getD j 0

theorem multiplyInto_sat [Semiring K] {kind : MultiplyKind} {m : MatIn K} {x : List K} {rhs : List (List K)}
    {b : Nat} (hb : b < rhs.length) (h : kind.Fits m rhs[b].length x.length) :
    ∃ w, multiplyInto kind m x rhs b = .ok w ∧ w.length = rhs.length ∧
      (∀ t, (w.getD t []).length = (rhs.getD t []).length) ∧
      ∀ t i, blockAt w t i = blockAt rhs t i + if t = b then blockProduct kind m x i else 0 := by
  obtain ⟨v, h1, h2, h3⟩ := multiply_sat h
  have hgb : rhs.getD b [] = rhs[b] := by
    rw [List.getD_eq_getElem?_getD, List.getElem?_eq_getElem hb]; rfl
  refine ⟨rhs.set b v, ?_, by simp, fun t => ?_, fun t i => ?_⟩
  · unfold multiplyInto
    rw [rd_ok hb, ok_bind, h1, ok_bind, wr_ok hb]
  · rw [getD_set_of_lt hb]
    split
    · rename_i hbt
      rw [h2, ← hbt, hgb]
    · rfl
  · unfold blockAt
    rw [getD_set_of_lt hb]
    by_cases hbt : b = t
    · subst hbt
      rw [if_pos rfl, if_pos rfl, h3, hgb]
      rfl
    · rw [if_neg hbt, if_neg (by omega), add_zero]

end Ctldl
