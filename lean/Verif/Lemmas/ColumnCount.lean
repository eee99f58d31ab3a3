import Verif.Spec.Rounding
import Verif.Spec.Definite
import Verif.Lemmas.ArrowheadClosed
import Mathlib.Data.Finset.Card
import Mathlib.Algebra.Order.BigOperators.Group.Finset

/-! # Number of nonzero elements in a column of a factor -/

namespace Ctldl

open Finset

theorem Csr.image_rows (c : Csr) (j i : Nat) (h : c.toSparsity.Has i j) :
    i ∈ ((c.entries.filter (·.col == j)).map (·.row)).toFinset := by
  rw [List.mem_toFinset, List.mem_map]
  exact ⟨⟨i, j⟩, List.mem_filter.mpr ⟨h, by simp⟩, rfl⟩

theorem Csr.card_rows (c : Csr) (j : Nat) :
    (((c.entries.filter (·.col == j)).map (·.row)).toFinset).card ≤ c.colEntries j := by
  refine (List.toFinset_card_le _).trans ?_
  rw [List.length_map]
  exact le_refl _

variable {F : Type} [Field F] [DecidableEq F]

theorem card_col_single {c : Csr} {l : Nat → Nat → F} (h : ∀ i j, l i j ≠ 0 → c.toSparsity.Has i j) (n j : Nat) :
    ({i ∈ range n | unitLower l i j ≠ 0} : Finset Nat).card ≤ c.colEntries j + 1 := by
  refine (card_le_card (t := insert j ((c.entries.filter (·.col == j)).map (·.row)).toFinset) fun i hi => ?_).trans
    ((card_insert_le _ _).trans (Nat.add_le_add_right (c.card_rows j) 1))
  obtain ⟨-, hi⟩ := mem_filter.mp hi
  rw [mem_insert]
  by_cases hij : i = j
  · exact Or.inl hij
  · rw [unitLower, if_neg hij] at hi
    exact Or.inr (c.image_rows j i (h i j hi))

theorem card_col_arrowhead {T : ArrowheadTypes} {N : Nat} {l : (Σ _ : Blk, Nat) → (Σ _ : Blk, Nat) → F} {d : Dims}
    (h : ∀ x ∈ positions d N, ∀ y ∈ positions d N, l x y ≠ 0 → x = y ∨ T.Has N x.1 x.2 y.1 y.2)
    {y : Σ _ : Blk, Nat} (hy : y ∈ positions d N) :
    ({x ∈ positions d N | l x y ≠ 0} : Finset _).card ≤ T.colEntries N y.1 y.2 + 1 := by
  classical
  let img : Blk → Csr → Finset (Σ _ : Blk, Nat) := fun a c =>
    (((c.entries.filter (·.col == y.2)).map (·.row)).toFinset).image fun i => ⟨a, i⟩
  have himg : ∀ a c, (img a c).card ≤ c.colEntries y.2 := fun a c => card_image_le.trans (c.card_rows _)
  have hmem : ∀ a c i, c.toSparsity.Has i y.2 → (⟨a, i⟩ : Σ _ : Blk, Nat) ∈ img a c := fun a c i hi =>
    mem_image.mpr ⟨i, c.image_rows _ _ hi, rfl⟩
  have key : ({x ∈ positions d N | l x y ≠ 0} : Finset _) ⊆ insert y (img y.1 (T.diagBlock y.1) ∪
      (blocks N).biUnion fun a => (T.lowerBlock N a y.1).elim ∅ (img a)) := by
    intro x hx
    obtain ⟨hx, hl⟩ := mem_filter.mp hx
    rw [mem_insert, mem_union, mem_biUnion]
    rcases h x hx y hy hl with h | h
    · exact Or.inl h
    · right
      obtain ⟨a, i⟩ := x
      rcases h with ⟨h1, h2⟩ | ⟨G, h1, h2⟩
      · simp only at h1 h2
        subst h1
        exact Or.inl (hmem _ _ _ h2)
      · right
        simp only [Option.map_eq_some_iff] at h1
        obtain ⟨c, hc, rfl⟩ := h1
        refine ⟨a, (mem_sigma.mp hx).1, ?_⟩
        rw [hc]
        exact hmem _ _ _ h2
  refine (card_le_card key).trans ((card_insert_le _ _).trans (Nat.add_le_add_right ?_ 1))
  refine (card_union_le _ _).trans (Nat.add_le_add (himg _ _) ?_)
  refine card_biUnion_le.trans (sum_le_sum fun a _ => ?_)
  cases T.lowerBlock N a y.1 with
  | none => exact le_refl _
  | some c => exact himg a c

/-- An element of a factor is zero outside of the pattern. -/
theorem lowerElement_has {f : ArrowheadFactor F} {s : ArrowheadSparsity} {T : ArrowheadTypes} {d : Dims} {N : Nat}
    (hf : f.Declared s T d N) {a b : Blk} (ha : a ∈ blocks N) (hb : b ∈ blocks N) {i j : Nat}
    (h : f.lowerElement N a b i j ≠ 0) : (a = b ∧ i = j) ∨ T.Has N a i b j := by
  rw [types_has_iff (d := d) ha hb, ← rank_inj ha hb]
  rw [factor_lowerElement_eq hf ha hb] at h
  have hp := rank_le ha
  have hq := rank_le hb
  generalize a.rank N = p at *
  generalize b.rank N = q at *
  have hv : ∀ {c : Csr} {L : List F}, val c L i j ≠ 0 → c.Has i j := fun h => by
    by_contra hn
    exact h (val_off hn)
  unfold chainL at h
  split at h
  · next hpq =>
    by_cases hij : i = j
    · exact Or.inl ⟨hpq, hij⟩
    · right
      left
      refine ⟨hpq, ?_⟩
      rw [unitLower, if_neg hij] at h
      split at h
      · next hp => rw [if_pos hp]; exact hv h
      · next hp => rw [if_neg hp]; exact hv h
  · next hpq =>
    right
    right
    split at h
    · next hpN => exact ⟨_, by unfold lowPos; rw [if_pos ⟨hpN, by omega⟩], hv h⟩
    · next hpN =>
      split at h
      · next hpq' => exact ⟨_, by unfold lowPos; rw [if_neg (by omega), if_pos ⟨hpq', by omega⟩], hv h⟩
      · exact absurd rfl h

end Ctldl
