import Verif.Props.Multiply
import Verif.Props.Solve

/-! # C36: multiply, then solve -/

namespace Ctldl

open Finset

variable {K : Type}

/-- Without repeated entries the matrix which `multiply` sees is the one which `factorize` sees. -/
theorem dense_eq_elem [AddCommMonoid K] {m : MatIn K} (hn : m.sparsity.entries.Nodup) (i j : Nat) :
    m.dense i j = m.elem i j := by
  unfold MatIn.dense MatIn.elem
  by_cases h : m.sparsity.Has i j
  · rw [if_pos h]
    have hlt : m.sparsity.entries.idxOf ⟨i, j⟩ < m.sparsity.entries.length := List.idxOf_lt_length_of_mem h
    have hat := List.getElem_idxOf hlt
    rw [sum_eq_single (m.sparsity.entries.idxOf ⟨i, j⟩)]
    · rw [if_pos]
      rw [List.getElem?_eq_getElem hlt, hat]
    · intro t ht hne
      rw [if_neg]
      intro he
      have ht' : t < m.sparsity.entries.length := by simpa using ht
      rw [List.getElem?_eq_getElem ht'] at he
      refine hne ((List.Nodup.getElem_inj_iff hn (hi := ht') (hj := hlt)).mp ?_)
      rw [Option.some.inj he, hat]
    · intro hnot
      exact absurd (by simpa using hlt) hnot
  · rw [if_neg h]
    refine sum_eq_zero fun t _ => ?_
    rw [if_neg]
    intro he
    exact h (List.mem_of_getElem? he)

/-- C36: multiplying `x` with the matrix and solving returns `x`, if nothing was regularized, no pivot is zero, and
the matrix has neither repeated entries nor entries above the diagonal. -/
theorem C36_single [Field K] (s : Sparsity) (p : List Nat) (hv : ValidSparsity s p)
    (f : DiagFactor K) (hf : f.Declared s p) (m : MatIn K) (hm : m.Fits s p) (method : Method)
    (hnodup : m.sparsity.entries.Nodup) (hlow : ∀ e ∈ m.sparsity.entries, e.col ≤ e.row)
    (f' : DiagFactor K) (h : f.factorize m regularizationNone method = .ok f')
    (hpiv : ∀ i < s.numRows, f'.pivot i ≠ 0) (x : List K) (hx : x.length = s.numRows) :
    ∃ b, multiply .symmetric m x (List.replicate s.numRows 0) = .ok b ∧ f'.solveInPlace b = .ok x := by
  have hsize : m.OfSize s.numRows s.numRows := ⟨hm.sized, fun e he => by
    have := hm.inRange e he
    rw [hm.rows, hm.cols] at this
    exact this⟩
  obtain ⟨b, h1, h2, h3⟩ := C32_symmetric m s.numRows hsize x (List.replicate s.numRows 0) hx (by simp) hlow
  refine ⟨b, h1, C29_solve_unique s p hv f hf m hm method f' h hpiv x b hx h2 fun a ha => ?_⟩
  rw [h3 a ha]
  simp only [dense_eq_elem hnodup]
  rw [List.getD_eq_getElem?_getD, List.getElem?_replicate, if_pos ha, Option.getD_some, zero_add]
  rfl

/-- C36: with a repeated entry the round trip can fail: `multiply` adds the values, `factorize` uses the first. -/
theorem C36_repeated_entry_differs :
    ∃ (s : Sparsity) (f : DiagFactor ℚ) (m : MatIn ℚ) (b y : List ℚ), ValidSparsity s [0] ∧ f.Declared s [0] ∧
      m.Fits s [0] ∧ multiply .symmetric m [1] [0] = .ok b ∧
      (f.factorize m regularizationNone .upLooking >>= fun f' => f'.solveInPlace b) = .ok y ∧ y ≠ [1] := by
  refine ⟨⟨1, 1, [⟨0, 0⟩, ⟨0, 0⟩]⟩, ⟨csrOf ⟨1, 1, []⟩, [0], [], [0]⟩, ⟨⟨1, 1, [⟨0, 0⟩, ⟨0, 0⟩]⟩, [2, 4]⟩, [6], [3],
    ⟨by unfold Sparsity.InRange; decide, rfl, by unfold IsPerm; decide, by decide⟩,
    ⟨by decide, rfl, rfl, rfl⟩, ⟨rfl, by unfold Sparsity.InRange; decide, rfl, rfl, fun i j h => .base h h.1⟩,
    by decide +kernel, by decide +kernel, by decide +kernel⟩

/-- C36: with an entry above the diagonal the round trip can fail: `multiply` uses it, `factorize` does not. -/
theorem C36_upper_entry_differs :
    ∃ (s : Sparsity) (f : DiagFactor ℚ) (m : MatIn ℚ) (b y : List ℚ), ValidSparsity s [0, 1] ∧ f.Declared s [0, 1] ∧
      m.Fits s [0, 1] ∧ m.sparsity.entries.Nodup ∧ multiply .symmetric m [1, 1] [0, 0] = .ok b ∧
      (f.factorize m regularizationNone .upLooking >>= fun f' => f'.solveInPlace b) = .ok y ∧ y ≠ [1, 1] := by
  refine ⟨⟨2, 2, [⟨0, 0⟩, ⟨1, 1⟩, ⟨0, 1⟩]⟩, ⟨csrOf ⟨2, 2, []⟩, [0, 1], [], [0, 0]⟩,
    ⟨⟨2, 2, [⟨0, 0⟩, ⟨1, 1⟩, ⟨0, 1⟩]⟩, [2, 4, 1]⟩, [3, 5], [3 / 2, 5 / 4],
    ⟨by unfold Sparsity.InRange; decide, rfl, by unfold IsPerm; decide, by decide⟩,
    ⟨by decide, rfl, rfl, rfl⟩, ⟨rfl, by unfold Sparsity.InRange; decide, rfl, rfl, fun i j h => .base h h.1⟩,
    by decide, by decide +kernel, by decide +kernel, by decide +kernel⟩

/-- Witness: the matrix of the factorization without its entry above the diagonal. -/
def witnessLow : MatIn ℚ := ⟨⟨3, 3, [⟨1, 1⟩, ⟨2, 0⟩, ⟨1, 0⟩, ⟨0, 0⟩, ⟨2, 2⟩]⟩, [3, 2, -1, 4, 5]⟩

example : (∀ e ∈ witnessLow.sparsity.entries, e.col ≤ e.row) ∧ witnessLow.sparsity.entries.Nodup ∧
    multiply .symmetric witnessLow [1, 2, 3] [0, 0, 0] = .ok [8, 5, 17] ∧
    (do
      let f ← witnessF.factorize witnessLow regularizationNone .upLooking
      f.solveInPlace [8, 5, 17]) = .ok [1, 2, 3] :=
  ⟨by decide, by decide, by decide +kernel, by decide +kernel⟩

end Ctldl
