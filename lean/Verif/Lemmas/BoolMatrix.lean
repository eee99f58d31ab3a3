import Verif.Lemmas.Sparsity

/-! # Boolean matrices: helper lemmas -/

namespace Ctldl

theorem count_take_succ (row : List Bool) {j : Nat} (hj : j < row.length) :
    (row.take (j + 1)).count true = (row.take j).count true + if row[j] then 1 else 0 := by
  rw [List.take_add_one, List.count_append, List.getElem?_eq_getElem hj]
  cases row[j] <;> simp

theorem count_take_le (row : List Bool) (j : Nat) : (row.take j).count true ≤ row.count true :=
  (List.take_sublist j row).count_le true

/-- The true cells of row `i` with column below `j`. -/
def rowCells (row : List Bool) (i j : Nat) : List Entry :=
  ((List.range j).filter (fun c => row[c]? = some true)).map (fun c => ⟨i, c⟩)

theorem rowCells_succ (row : List Bool) (i : Nat) {j : Nat} (hj : j < row.length) :
    rowCells row i (j + 1) = rowCells row i j ++ if row[j] then [⟨i, j⟩] else [] := by
  unfold rowCells
  rw [List.range_succ, List.filter_append, List.map_append]
  congr 1
  cases h : row[j] <;> simp [hj, h]

theorem rowCells_length (row : List Bool) (i : Nat) : ∀ j ≤ row.length,
    (rowCells row i j).length = (row.take j).count true := by
  intro j
  induction j with
  | zero => intro _; simp [rowCells]
  | succ j ih =>
    intro hj
    rw [rowCells_succ _ _ (by omega), count_take_succ _ (by omega), List.length_append, ih (by omega)]
    split <;> simp

theorem mem_rowCells {row : List Bool} {i j : Nat} {e : Entry} :
    e ∈ rowCells row i j ↔ e.row = i ∧ e.col < j ∧ row[e.col]? = some true := by
  cases e
  simp only [rowCells, List.mem_map, List.mem_filter, List.mem_range, decide_eq_true_eq, Entry.mk.injEq]
  constructor
  · rintro ⟨c, ⟨h1, h2⟩, rfl, rfl⟩; exact ⟨rfl, h1, h2⟩
  · rintro ⟨rfl, h1, h2⟩; exact ⟨_, ⟨h1, h2⟩, rfl, rfl⟩

/-- The true cells of the rows below `i`. -/
def cellsBelow (values : List (List Bool)) (c i : Nat) : List Entry :=
  (List.range i).flatMap (fun k => rowCells (values.getD k []) k c)

theorem cellsBelow_succ (values : List (List Bool)) (c i : Nat) :
    cellsBelow values c (i + 1) = cellsBelow values c i ++ rowCells (values.getD i []) i c := by
  simp [cellsBelow, List.range_succ]

theorem nnz_eq (values : List (List Bool)) :
    boolMatrixNnz values = (values.map (List.count true)).sum := by
  unfold boolMatrixNnz
  suffices h : ∀ a, values.foldl (fun carry row => carry + row.count true) a =
      a + (values.map (List.count true)).sum by simpa using h 0
  induction values with
  | nil => simp
  | cons r vs ih => intro a; rw [List.foldl_cons, ih]; simp; omega

theorem cellsBelow_length {values : List (List Bool)} {c : Nat} (hc : ∀ row ∈ values, row.length = c) :
    ∀ i ≤ values.length, (cellsBelow values c i).length = ((values.take i).map (List.count true)).sum := by
  intro i
  induction i with
  | zero => intro _; simp [cellsBelow]
  | succ i ih =>
    intro hi
    have hi' : i < values.length := by omega
    rw [cellsBelow_succ, List.length_append, ih (by omega), List.take_add_one, List.getElem?_eq_getElem hi']
    have h1 : values.getD i [] = values[i] := by simp [List.getD_eq_getElem?_getD, hi']
    have h2 : values[i].length = c := hc _ (List.getElem_mem hi')
    rw [h1, rowCells_length _ _ _ (by omega)]
    rw [List.map_append, List.sum_append_nat, ← h2, List.take_length]
    simp

theorem cellsBelow_le {values : List (List Bool)} {c : Nat} (hc : ∀ row ∈ values, row.length = c) {i : Nat}
    (hi : i ≤ values.length) : (cellsBelow values c i).length ≤ boolMatrixNnz values := by
  rw [cellsBelow_length hc i hi, nnz_eq]
  conv_rhs => rw [← List.take_append_drop i values, List.map_append, List.sum_append_nat]
  omega

theorem makeSparseEntries_eq {r c : Nat} {values : List (List Bool)} (hr : values.length = r)
    (hc : ∀ row ∈ values, row.length = c) :
    makeSparseEntriesFromBoolMatrix r c values = .ok (cellsBelow values c r) := by
  unfold makeSparseEntriesFromBoolMatrix
  simp only
  -- state after writing the list `l`
  let I : List Entry → List Entry × Nat → Prop := fun l st =>
    st.2 = l.length ∧ st.1 = l ++ List.replicate (boolMatrixNnz values - l.length) ⟨0, 0⟩
  obtain ⟨st, h1, h2, h3⟩ := foldlM_range_inv
    (f := fun st i => (List.range c).foldlM
      (fun (st : List Entry × Nat) j => do
        if ← rd (← rd values i) j then return (← wr st.1 st.2 ⟨i, j⟩, st.2 + 1) else return st)
      st) (n := r) (init := (List.replicate (boolMatrixNnz values) (⟨0, 0⟩ : Entry), 0))
    (fun i st => I (cellsBelow values c i) st) (by simp [I, cellsBelow]) (by
      intro i st hi hst
      have hi' : i < values.length := by omega
      have hrow : values.getD i [] = values[i] := by simp [List.getD_eq_getElem?_getD, hi']
      have hlen : values[i].length = c := hc _ (List.getElem_mem hi')
      have hbnd := cellsBelow_le hc (i := i + 1) (by omega)
      rw [cellsBelow_succ, hrow, List.length_append] at hbnd
      rw [cellsBelow_succ, hrow]
      refine foldlM_range_inv (fun j st => I (cellsBelow values c i ++ rowCells values[i] i j) st) ?_ ?_
      · simpa [rowCells] using hst
      · rintro j ⟨es, n⟩ hj ⟨h1, h2⟩
        simp only at h1 h2
        have hj' : j < values[i].length := by omega
        rw [rd_ok hi', ok_bind, rd_ok hj', ok_bind, rowCells_succ _ _ hj']
        cases hcell : values[i][j] with
        | false =>
          simp only [Bool.false_eq_true, if_false]
          exact Sat.pure ⟨by simpa using h1, by simpa using h2⟩
        | true =>
          simp only [if_true]
          have hle : (rowCells values[i] i (j + 1)).length ≤ (rowCells values[i] i c).length := by
            rw [rowCells_length _ _ _ (by omega), rowCells_length _ _ _ (by omega)]
            conv_rhs => rw [← hlen, List.take_length]
            exact count_take_le _ _
          rw [rowCells_succ _ _ hj', hcell, if_pos rfl, List.length_append, List.length_singleton] at hle
          have hes : es.length = boolMatrixNnz values := by
            rw [h2]; simp only [List.length_append, List.length_replicate]; omega
          have hn : n < es.length := by
            rw [h1, hes, List.length_append]; omega
          rw [wr_ok hn, ok_bind]
          refine Sat.pure ⟨?_, ?_⟩
          · simp only [h1, List.length_append, List.length_singleton]; omega
          · simp only
            subst h1
            generalize hL : cellsBelow values c i ++ rowCells values[i] i j = L at h2
            have hL' : L.length < boolMatrixNnz values := by
              rw [hL, hes] at hn; exact hn
            rw [h2, List.set_append_right _ _ (Nat.le_refl _), Nat.sub_self, ← List.append_assoc, hL]
            have : boolMatrixNnz values - L.length = (boolMatrixNnz values - (L.length + 1)) + 1 := by omega
            rw [this, List.replicate_succ]
            simp)
  rw [h1, ok_bind]
  have hall : (cellsBelow values c r).length = boolMatrixNnz values := by
    rw [cellsBelow_length hc r (by omega), nnz_eq, ← hr, List.take_length]
  obtain ⟨es, n⟩ := st
  simp only at h2 h3
  simp only
  rw [assert_true (by rw [h2, hall]; simp), ok_bind, h3, hall]
  simp [pure_eq_ok]

end Ctldl
