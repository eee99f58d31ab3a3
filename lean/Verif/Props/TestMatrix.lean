import Verif.Lemmas.TestMatrix
import Verif.Lemmas.Sparsity
import Verif.Props.Sparsity
import Verif.Props.TestUtil
import Verif.Spec.Binary

/-! # C54: random patterns of the tests -/

namespace Ctldl

/-- C54: the generator is used in the range `0 … 2^64 - 1`, and the limit of the Bernoulli distribution for probability
one half, computed in double precision, is exactly the middle of it, although the range is not representable. -/
theorem C54_limit : ⌊Format.binary64.round (1 / 2 * Format.binary64.round (2 ^ 64 - 1))⌋ = 2 ^ 63 := by
  have hlog : ∀ (x : ℚ) (k : ℕ), 2 ^ k ≤ x → x < 2 ^ (k + 1) → Int.log 2 |x| = k := by
    intro x k h1 h2
    have h0 : (0 : ℚ) < x := lt_of_lt_of_le (by positivity) h1
    rw [abs_of_pos h0]
    apply le_antisymm
    · have := (Int.lt_zpow_iff_log_lt (b := 2) (by decide) (x := ((k + 1 : ℕ) : ℤ)) h0).mp (by
        rw [zpow_natCast]; exact_mod_cast h2)
      push_cast at this ⊢
      omega
    · exact (Int.zpow_le_iff_le_log (b := 2) (by decide) (x := (k : ℤ)) h0).mp (by
        rw [zpow_natCast]; exact_mod_cast h1)
  have h1 : Format.binary64.round (2 ^ 64 - 1) = 2 ^ 64 := by
    unfold Format.round Format.unit
    rw [hlog (2 ^ 64 - 1) 63 (by norm_num) (by norm_num)]
    decide +kernel
  rw [h1]
  have h2 : Format.binary64.round (1 / 2 * 2 ^ 64) = 2 ^ 63 := by
    unfold Format.round Format.unit
    rw [hlog _ 63 (by norm_num) (by norm_num)]
    decide +kernel
  rw [h2]
  norm_num

/-- C54: the numbers of the generator, in closed form. -/
theorem C54_numbers (seed k : Nat) : lcgNext^[k] seed = generatorState seed k := by
  induction k with
  | zero => rw [generatorState_zero]; rfl
  | succ k ih => rw [Function.iterate_succ_apply', ih, generatorState_succ]

/-- C54: from any seed the generator runs through all states: it returns to a state exactly after multiples of `2^64`
numbers. -/
theorem C54_period (seed i j : Nat) (hs : seed < 2 ^ 64) (hij : i ≤ j) :
    lcgNext^[j] seed = lcgNext^[i] seed ↔ 2 ^ 64 ∣ j - i := by
  obtain ⟨d, rfl⟩ := Nat.exists_eq_add_of_le hij
  rw [C54_numbers, C54_numbers, generatorState_add, Nat.add_sub_cancel_left]
  refine generatorState_eq_iff _ _ ?_
  by_cases hi : i = 0
  · rw [hi, generatorState_zero]; exact hs
  · exact generatorState_lt _ _ (by omega)

private theorem cell_true {values : List (List Bool)} {i j : Nat} :
    cell values i j = some true ↔ ∃ row, values[i]? = some row ∧ row[j]? = some true := by
  unfold cell
  exact Option.bind_eq_some_iff

private theorem cell_lt {values : List (List Bool)} {r c i j : Nat} (h : RowsOf values r c) {b : Bool}
    (hc : cell values i j = some b) : i < r ∧ j < c := by
  unfold cell at hc
  obtain ⟨row, h1, h2⟩ := Option.bind_eq_some_iff.mp hc
  obtain ⟨h3, rfl⟩ := List.getElem?_eq_some_iff.mp h1
  obtain ⟨h4, -⟩ := List.getElem?_eq_some_iff.mp h2
  rw [h.2 _ (List.getElem_mem h3)] at h4
  exact ⟨h.1 ▸ h3, h4⟩

private theorem entries_sat {values : List (List Bool)} {r c : Nat} (h : RowsOf values r c) :
    Sat (do Sparsity.make r c (← makeSparseEntriesFromBoolMatrix r c values)) (fun s => s.OfDims r c ∧
      s.entries.Pairwise rowMajorLt ∧ ∀ i j, s.Has i j ↔ cell values i j = some true) := by
  obtain ⟨es, h1, h2, -, h3⟩ := C43_bool_matrix r c values h.1 h.2
  rw [h1, ok_bind]
  have hin : (⟨r, c, es⟩ : Sparsity).InRange := by
    rintro ⟨i, j⟩ he
    exact cell_lt h (cell_true.mpr ((h3 i j).mp he))
  rw [make_eq hin]
  exact Sat.ok ⟨⟨hin, rfl, rfl⟩, h2, fun i j => (h3 i j).trans cell_true.symm⟩

private theorem rowsOf_replicate (r c : Nat) : RowsOf (List.replicate r (List.replicate c false)) r c :=
  ⟨by simp, fun row hrow => by rw [List.eq_of_mem_replicate hrow, List.length_replicate]⟩

/-- C54: the random pattern without restriction is a valid pattern of the requested dimensions, sorted, with an entry
exactly where the generator yields a number of the lower half; the cells use the numbers one after the other, and the
next user of the generator gets the numbers after them. -/
theorem C54_any (seed numRows numCols : Nat) :
    ∃ s, proceduralTestMatrix .any seed numRows numCols = .ok (s, generatorState seed (numRows * numCols)) ∧
      s.OfDims numRows numCols ∧ s.entries.Pairwise rowMajorLt ∧
      ∀ i j, s.Has i j ↔ i < numRows ∧ j < numCols ∧ Lower seed (i * numCols + j + 1) := by
  obtain ⟨⟨v, st⟩, h1, h2, h3, h4⟩ := boolMatrixDistribution_sat (rowsOf_replicate numRows numCols) seed
  obtain ⟨s, h5, h6, h7, h8⟩ := entries_sat h2
  refine ⟨s, ?_, h6, h7, fun i j => (h8 i j).trans ?_⟩
  · obtain ⟨es, g1, g2⟩ := bind_eq_ok.mp h5
    unfold proceduralTestMatrix
    rw [h1, ok_bind]
    simp only [applyRandomMatrixSparsityKind]
    rw [pure_bind, g1, ok_bind, g2, ok_bind, ← h3]
    rfl
  · constructor
    · intro h
      obtain ⟨hi, hj⟩ := cell_lt h2 h
      rw [h4 i hi j hj] at h
      exact ⟨hi, hj, of_decide_eq_true (Option.some.inj h)⟩
    · rintro ⟨hi, hj, h⟩
      rw [h4 i hi j hj]
      exact congrArg some (decide_eq_true h)

/-- C54: the random pattern for symmetric matrices is a lower triangle with full diagonal and, below it, an entry exactly
where the generator yields a number of the lower half. -/
theorem C54_symmetric (seed n : Nat) :
    ∃ s, proceduralTestMatrix .symmetric seed n n = .ok (s, generatorState seed (n * n)) ∧ s.LowerFull n ∧
      s.entries.Pairwise rowMajorLt ∧
      ∀ i j, s.Has i j ↔ i < n ∧ (j = i ∨ j < i ∧ Lower seed (i * n + j + 1)) := by
  obtain ⟨⟨v, st⟩, h1, h2, h3, h4⟩ := boolMatrixDistribution_sat (rowsOf_replicate n n) seed
  obtain ⟨w, k1, k2, k3⟩ := applyRandomMatrixSparsityKind_sat h2
  obtain ⟨s, h5, h6, h7, h8⟩ := entries_sat k2
  have hhas : ∀ i j, s.Has i j ↔ i < n ∧ (j = i ∨ j < i ∧ Lower seed (i * n + j + 1)) := by
    intro i j
    rw [h8]
    constructor
    · intro h
      obtain ⟨hi, hj⟩ := cell_lt k2 h
      rw [k3 i hi j hj] at h
      refine ⟨hi, ?_⟩
      by_cases h9 : i = j
      · exact Or.inl h9.symm
      · rw [if_neg h9] at h
        by_cases h10 : j < i
        · rw [if_pos h10, h4 i hi j hj] at h
          exact Or.inr ⟨h10, of_decide_eq_true (Option.some.inj h)⟩
        · rw [if_neg h10] at h
          cases h
    · rintro ⟨hi, rfl | ⟨hj, h⟩⟩
      · rw [k3 j hi j hi, if_pos rfl]
      · rw [k3 i hi j (by omega), if_neg (by omega), if_pos hj, h4 i hi j (by omega)]
        exact congrArg some (decide_eq_true h)
  refine ⟨s, ?_, ⟨h6, ?_, ?_, ?_⟩, h7, hhas⟩
  · obtain ⟨es, g1, g2⟩ := bind_eq_ok.mp h5
    unfold proceduralTestMatrix
    rw [h1, ok_bind]
    simp only
    rw [k1, ok_bind, g1, ok_bind, g2, ok_bind, ← h3]
    rfl
  · refine List.Pairwise.imp ?_ h7
    rintro a b hab rfl
    unfold rowMajorLt at hab
    omega
  · rintro ⟨i, j⟩ he
    have := (hhas i j).mp he
    simp only
    omega
  · intro i hi
    exact (hhas i i).mpr ⟨hi, Or.inl rfl⟩

/-- C54: a symmetric pattern of unequal dimensions does not compile. -/
theorem C54_symmetric_square (seed r c : Nat) (h : r ≠ c) :
    proceduralTestMatrix .symmetric seed r c = .error .staticAssert := by
  obtain ⟨⟨v, st⟩, h1, -⟩ := boolMatrixDistribution_sat (rowsOf_replicate r c) seed
  unfold proceduralTestMatrix
  rw [h1, ok_bind]
  simp only [applyRandomMatrixSparsityKind]
  rw [show staticAssert (r == c) = .error .staticAssert by
    unfold staticAssert
    rw [if_neg (by simpa using h)]]
  rfl

private theorem nodup_of_rowMajor {l : List Entry} (h : l.Pairwise rowMajorLt) : l.Nodup := by
  refine List.Pairwise.imp ?_ h
  rintro x y hxy rfl
  unfold rowMajorLt at hxy
  omega

/-- C54: for every seed and dimension, the patterns and the permutation chosen for the random tests of the class for block
tridiagonal matrices are valid template arguments. -/
theorem C54_tridiagonal (seed n : Nat) (hn : 2 * n ≤ noParent) :
    ∃ spA spB p, randomTridiagonal seed n = .ok (spA, spB, p) ∧ ValidTridiagonal spA spB p n ∧ spA.LowerFull n ∧
      spB.entries.Nodup := by
  obtain ⟨a, h1, h2, -⟩ := C54_symmetric seed n
  obtain ⟨b, h3, h4, h5, -⟩ := C54_any (generatorState seed (n * n)) n n
  obtain ⟨p, st, h6, h7⟩ := C44_procedural_permutation (generatorState (generatorState seed (n * n)) (n * n)) n
  refine ⟨a, b, p, ?_, ⟨h2.1, h4, h7, hn⟩, h2, ?_⟩
  · unfold randomTridiagonal
    simp only [h1, ok_bind, h3, h6]
    rfl
  · exact nodup_of_rowMajor h5

/-- C54: for every seed and all dimensions, the patterns and permutations chosen for the random tests of the class with
start, link and outer blocks are valid template arguments. -/
theorem C54_arrowhead (seed : Nat) (d : Dims) (h1 : d.start + d.tridiag + d.outer ≤ noParent)
    (h2 : 2 * d.tridiag ≤ noParent) (h3 : d.tridiag + d.link + d.outer ≤ noParent) :
    ∃ r, randomArrowhead seed d.start d.tridiag d.link d.outer = .ok r ∧ r.sparsity.Valid d ∧
      r.startDiag.LowerFull d.start ∧ r.tridiagDiag.LowerFull d.tridiag ∧ r.linkDiag.LowerFull d.link ∧
      r.outerDiag.LowerFull d.outer ∧ (∀ N a b q, r.sparsity.lowerBlock N a b = some q → q.entries.Nodup) ∧
      (d.start = d.tridiag → r.permutationStart = r.permutationTridiag) := by
  obtain ⟨s1, a1, b1, -⟩ := C54_symmetric seed d.start
  generalize generatorState seed _ = g1 at a1
  obtain ⟨s2, a2, b2, n2, -⟩ := C54_any g1 d.tridiag d.start
  generalize generatorState g1 _ = g2 at a2
  obtain ⟨s3, a3, b3, n3, -⟩ := C54_any g2 d.outer d.start
  generalize generatorState g2 _ = g3 at a3
  obtain ⟨s4, a4, b4, -⟩ := C54_symmetric g3 d.tridiag
  generalize generatorState g3 _ = g4 at a4
  obtain ⟨s5, a5, b5, n5, -⟩ := C54_any g4 d.tridiag d.tridiag
  generalize generatorState g4 _ = g5 at a5
  obtain ⟨s6, a6, b6, n6, -⟩ := C54_any g5 d.link d.tridiag
  generalize generatorState g5 _ = g6 at a6
  obtain ⟨s7, a7, b7, -⟩ := C54_symmetric g6 d.link
  generalize generatorState g6 _ = g7 at a7
  obtain ⟨s8, a8, b8, n8, -⟩ := C54_any g7 d.outer d.link
  generalize generatorState g7 _ = g8 at a8
  obtain ⟨s9, a9, b9, n9, -⟩ := C54_any g8 d.outer d.tridiag
  generalize generatorState g8 _ = g9 at a9
  obtain ⟨s10, a10, b10, -⟩ := C54_symmetric g9 d.outer
  generalize generatorState g9 _ = g10 at a10
  obtain ⟨p1, t1, c1, e1⟩ := C44_procedural_permutation g10 d.start
  obtain ⟨p2, t2, c2, e2⟩ := C44_procedural_permutation g10 d.tridiag
  obtain ⟨p3, t3, c3, e3⟩ := C44_procedural_permutation t2 d.link
  obtain ⟨p4, t4, c4, e4⟩ := C44_procedural_permutation t3 d.outer
  refine ⟨⟨s1, s2, s3, s4, s5, s6, s7, s8, s9, s10, p1, p2, p3, p4⟩, ?_,
    ⟨b1.1, b2, b3, b4.1, b5, b6, b7.1, b8, b9, b10.1, e1, e2, e3, e4, h1, h2, h3⟩, b1, b4, b7, b10, ?_, fun hd => ?_⟩
  · unfold randomArrowhead
    simp only [a1, a2, a3, a4, a5, a6, a7, a8, a9, a10, c1, c2, c3, c4, ok_bind]
    rfl
  · intro N a b q hq
    unfold ArrowheadSparsity.lowerBlock at hq
    split at hq
    · cases hq; exact nodup_of_rowMajor n2
    · split at hq <;> cases hq
      exact nodup_of_rowMajor n5
    · split at hq <;> cases hq
      exact nodup_of_rowMajor n6
    · cases hq; exact nodup_of_rowMajor n3
    · split at hq <;> cases hq
      exact nodup_of_rowMajor n9
    · cases hq; exact nodup_of_rowMajor n8
    · cases hq
  · rw [hd] at c1
    exact congrArg Prod.fst (Except.ok.inj (c1.symm.trans c2))

/-- Instances: a symmetric pattern and the template arguments for block dimension three. -/
example : ((proceduralTestMatrix .symmetric 5 3 3).toOption.map fun r => r.1.entries.map fun e => (e.row, e.col)) =
    some [(0, 0), (1, 1), (2, 1), (2, 2)] := by decide +kernel

end Ctldl
