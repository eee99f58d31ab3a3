import Verif.Spec.BinaryOrder
import Verif.Lemmas.TridiagonalPositions
import Verif.Lemmas.Laplace
import Verif.Lemmas.RoundingArrowhead

/-! # The tridiagonal test matrix with rounding -/

namespace Ctldl

open Finset

namespace Binary

variable {fmt : Format}

/-- Numbers which are not smaller are not less in absolute value. -/
theorem not_abs_lt {a b : Binary fmt} (ha : a.Finite) (hb : b.Finite) (h : b.toRat ≤ a.toRat) : ¬a.abs < b := by
  have key : ¬(a.abs.toRat < b.toRat) := by
    refine not_lt.mpr (h.trans ?_)
    cases a with
    | num x _ _ => exact le_abs_self x
    | _ => exact le_rfl
  intro hlt
  refine key ?_
  change lt a.abs b = true at hlt
  cases a <;> cases b <;> first | exact ha.elim | exact hb.elim | exact of_decide_eq_true hlt

end Binary

/-- A row of a pattern has at most as many entries as there are columns. -/
theorem CsrOk.rowEntries_le {c : Csr} {r k : Nat} (h : CsrOk c r k) (i : Nat) : c.rowEntries i ≤ k := by
  rw [Csr.rowEntries_eq, ← List.toFinset_card_of_nodup (h.good.cols_nodup i)]
  refine (card_le_card (t := range k) fun j hj => ?_).trans (card_range k).le
  rw [mem_range, ← h.cols]
  exact (h.good.ok.inRange _ (Csr.mem_cols.mp (List.mem_toFinset.mp hj))).2

/-- A column of a pattern has at most as many entries as there are rows. -/
theorem CsrOk.colEntries_le {c : Csr} {r k : Nat} (h : CsrOk c r k) (j : Nat) : c.colEntries j ≤ r := by
  have hn : ((c.entries.filter (·.col == j)).map Entry.row).Nodup := by
    have hs : c.entries.Nodup := h.good.sorted.imp (fun {x y} hxy hxy' => by
      subst hxy'
      unfold rowMajorLt at hxy
      omega)
    refine List.Nodup.map_on ?_ (hs.filter _)
    intro a ha b hb hab
    have h1 := beq_iff_eq.mp (List.mem_filter.mp ha).2
    have h2 := beq_iff_eq.mp (List.mem_filter.mp hb).2
    cases a
    cases b
    simp_all
  unfold Csr.colEntries
  rw [← List.length_map (f := Entry.row), ← List.toFinset_card_of_nodup hn]
  refine (card_le_card (t := range r) fun i hi => ?_).trans (card_range r).le
  obtain ⟨e, he, rfl⟩ := List.mem_map.mp (List.mem_toFinset.mp hi)
  rw [mem_range, ← h.rows]
  exact (h.good.ok.inRange e (List.mem_of_mem_filter he)).1

/-- The rows and columns of the blocks of the factor of a block tridiagonal matrix. -/
theorem tridiagonal_entries_le {K : Type} {spA spB : Sparsity} {p : List Nat} {n N : Nat}
    (h : ValidTridiagonal spA spB p n) {f : ArrowheadFactor K} {T : ArrowheadTypes}
    (hf : TridiagonalDeclared f spA spB p T n N) (i : Nat) :
    T.tridiagDiag.rowEntries i + T.tridiagSubdiag.rowEntries i ≤ 2 * n ∧
      T.tridiagDiag.colEntries i + T.tridiagSubdiag.colEntries i ≤ 2 * n := by
  obtain ⟨T', h1, h2⟩ := arrowheadTypes_sat (Tridiagonal.emptied_valid h)
  rw [(Tridiagonal.declared_of h hf).types] at h1
  cases h1
  have a1 := h2.tridiagDiag.rowEntries_le i
  have a2 := h2.tridiagSubdiag.rowEntries_le i
  have a3 := h2.tridiagDiag.colEntries_le i
  have a4 := h2.tridiagSubdiag.colEntries_le i
  simp only at a1 a2 a3 a4
  omega

/-- Rows of the matrix of second differences have at most three entries. -/
theorem laplace_count (m a : Nat) : ∑ b ∈ range m, (if (laplace a b : ℚ) = 0 then 0 else 1) ≤ 3 := by
  have h : ∀ b ∈ range m, (if (laplace a b : ℚ) = 0 then 0 else 1) ≤ if b ∈ ({a - 1, a, a + 1} : Finset Nat) then 1 else 0 := by
    intro b _
    have h01 : (if (laplace a b : ℚ) = 0 then 0 else 1) ≤ 1 := by split <;> omega
    by_cases hb : b ∈ ({a - 1, a, a + 1} : Finset Nat)
    · rw [if_pos hb]
      exact h01
    · rw [if_neg hb]
      simp only [mem_insert, mem_singleton, not_or] at hb
      have : (laplace a b : ℚ) = 0 := by
        unfold laplace
        rw [if_neg (by omega), if_neg (by omega)]
      rw [if_pos this]
  refine (sum_le_sum h).trans ?_
  rw [sum_ite_mem, sum_const, smul_eq_mul, mul_one]
  exact (card_le_card inter_subset_right).trans card_le_three

end Ctldl
