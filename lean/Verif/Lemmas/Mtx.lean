import Verif.Spec.Mtx
import Verif.Lemmas.Lookup
import Verif.Lemmas.Csr
import Verif.Props.Dimensions

/-! # Matrix files: one block -/

namespace Ctldl

open Finset

variable {K : Type}

theorem mtxCheck_true {c : Bool} {e : MtxErr} (h : c = true) : mtxCheck c e = .ok () := by simp [mtxCheck, h]
theorem mtxCheck_false {c : Bool} {e : MtxErr} (h : c = false) : mtxCheck c e = .error (.mtx e) := by
  simp [mtxCheck, h]

/-- The block has the pattern `p`; the first entry at `(i, j)` has the value `f i j`, repetitions of it have the value
zero. -/
structure MtxMatrix.Holds [Zero K] (m : MtxMatrix K) (p : Sparsity) (f : Nat → Nat → K) : Prop where
  sparsity : m.sparsity = csrOf p
  length : m.values.length = (csrOf p).entries.length
  at' : ∀ t e, (csrOf p).entries[t]? = some e →
    m.values[t]? = some (if t = (csrOf p).entries.idxOf e then f e.row e.col else 0)

theorem MtxMatrix.Holds.congr [Zero K] {m : MtxMatrix K} {p : Sparsity} {f g : Nat → Nat → K} (h : m.Holds p f)
    (hp : p.InRange) (hfg : ∀ i j, p.Has i j → f i j = g i j) : m.Holds p g := by
  refine ⟨h.sparsity, h.length, ?_⟩
  intro t e he
  rw [h.at' t e he]
  have : p.Has e.row e.col := by
    have : e ∈ (csrOf p).entries := List.mem_of_getElem? he
    exact (csrOf_mem fun e he => (hp e he).1).mp this
  rw [hfg _ _ this]

theorem MtxMatrix.new_sat [Zero K] {p : Sparsity} (hp : p.InRange) :
    Sat (MtxMatrix.new (K := K) p) (fun m => m.Holds p fun _ _ => 0) := by
  unfold MtxMatrix.new
  rw [toCsr_eq hp, ok_bind]
  refine Sat.pure ⟨rfl, by simp [Sparsity.nnz], ?_⟩
  intro t e he
  have ht : t < (csrOf p).entries.length := (List.getElem?_eq_some_iff.mp he).1
  rw [ite_self, List.getElem?_replicate, if_pos (by simpa [Sparsity.nnz] using ht)]

theorem mtxAddEntry_covered [Zero K] {m : MtxMatrix K} {p : Sparsity} {f : Nat → Nat → K} (h : m.Holds p f)
    (hp : p.InRange) {i j : Nat} {v : K} (hh : p.Has i j) :
    Sat (mtxAddEntry ⟨i, j, v⟩ m) (fun m' => m'.Holds p fun a b => if a = i ∧ b = j then v else f a b) := by
  unfold mtxAddEntry
  have hok := csrOf_ok hp
  have hm : (csrOf p).toSparsity.Has i j := (csrOf_mem fun e he => (hp e he).1).mpr hh
  have hi : i < p.numRows := (hp _ hh).1
  have hlt : (csrOf p).entries.idxOf ⟨i, j⟩ < m.values.length := by
    rw [h.length]; exact List.idxOf_lt_length_iff.mpr hm
  rw [h.sparsity]
  simp only
  rw [hok.isNonZero_eq j hi, ok_bind, mtxCheck_true (by simpa using hm), ok_bind, hok.entryIndex_eq hm, ok_bind,
    wr_ok hlt, ok_bind]
  refine Sat.pure ⟨by simp [h.sparsity], by simpa using h.length, ?_⟩
  intro t e he
  simp only
  by_cases hte : t = (csrOf p).entries.idxOf ⟨i, j⟩
  · subst hte
    rw [List.getElem?_set_self hlt]
    have hlt' : (csrOf p).entries.idxOf ⟨i, j⟩ < (csrOf p).entries.length := by rw [← h.length]; exact hlt
    have : e = ⟨i, j⟩ := by
      have h1 := List.getElem_idxOf hlt'
      rw [List.getElem?_eq_getElem hlt', h1] at he
      exact (Option.some.inj he).symm
    subst this
    simp
  · rw [List.getElem?_set_ne (Ne.symm hte), h.at' t e he]
    by_cases ht : t = (csrOf p).entries.idxOf e
    · rw [if_pos ht, if_pos ht]
      have : ¬ (e.row = i ∧ e.col = j) := by
        rintro ⟨h1, h2⟩
        have : e = ⟨i, j⟩ := by cases e; simp_all
        exact hte (this ▸ ht)
      rw [if_neg this]
    · rw [if_neg ht, if_neg ht]

theorem mtxAddEntry_uncovered [Zero K] {m : MtxMatrix K} {p : Sparsity} {f : Nat → Nat → K} (h : m.Holds p f)
    (hp : p.InRange) {i j : Nat} {v : K} (hi : i < p.numRows) (hh : ¬ p.Has i j) :
    mtxAddEntry ⟨i, j, v⟩ m = .error (.mtx .notCovered) := by
  unfold mtxAddEntry
  have hok := csrOf_ok hp
  have hm : ¬ (csrOf p).toSparsity.Has i j := fun h' => hh ((csrOf_mem fun e he => (hp e he).1).mp h')
  rw [h.sparsity]
  simp only
  rw [hok.isNonZero_eq j hi, ok_bind, mtxCheck_false (by simpa using hm), error_bind]

/-- The block has the elements `f`, if `f` is zero outside of the pattern. -/
theorem MtxMatrix.Holds.stores [AddCommMonoid K] {m : MtxMatrix K} {p : Sparsity} {f : Nat → Nat → K}
    (h : m.Holds p f) (hp : p.InRange) (hz : ∀ i < p.numRows, ∀ j < p.numCols, ¬ p.Has i j → f i j = 0) :
    m.toMatIn.Stores p f := by
  have hmem : ∀ {i j}, (csrOf p).toSparsity.Has i j ↔ p.Has i j := csrOf_mem fun e he => (hp e he).1
  have hget : ∀ {i j}, p.Has i j → m.values.getD ((csrOf p).entries.idxOf ⟨i, j⟩) 0 = f i j := by
    intro i j hh
    have hl := List.idxOf_lt_length_iff.mpr (show (⟨i, j⟩ : Entry) ∈ (csrOf p).entries from hmem.mpr hh)
    rw [List.getD_eq_getElem?_getD, h.at' _ ⟨i, j⟩ (by rw [List.getElem?_eq_getElem hl, List.getElem_idxOf hl]),
      if_pos rfl]
    rfl
  refine ⟨by simp [toMatIn, h.sparsity, csrOf], by simp [toMatIn, h.sparsity, csrOf], ?_, ?_, ?_, ?_⟩
  · simp only [toMatIn, h.sparsity]; exact csrOf_perm fun e he => (hp e he).1
  · simp only [toMatIn, h.sparsity]; exact h.length
  · intro i hi j hj
    unfold MatIn.elem
    simp only [toMatIn, h.sparsity]
    by_cases hh : p.Has i j
    · rw [if_pos (hmem.mpr hh), hget hh]
    · rw [if_neg (fun h' => hh (hmem.mp h')), hz i hi j hj hh]
  · intro i hi j hj
    unfold MatIn.dense
    simp only [toMatIn, h.sparsity]
    by_cases hh : p.Has i j
    · have hl := List.idxOf_lt_length_iff.mpr (show (⟨i, j⟩ : Entry) ∈ (csrOf p).entries from hmem.mpr hh)
      rw [Finset.sum_eq_single_of_mem _ (Finset.mem_range.mpr hl), if_pos, hget hh]
      · rw [List.getElem?_eq_getElem hl, List.getElem_idxOf hl]
      · intro t _ hne
        by_cases ht : (csrOf p).entries[t]? = some ⟨i, j⟩
        · rw [if_pos ht, List.getD_eq_getElem?_getD, h.at' t _ ht, if_neg hne]
          rfl
        · rw [if_neg ht]
    · rw [hz i hi j hj hh]
      refine Finset.sum_eq_zero ?_
      intro t _
      rw [if_neg]
      intro ht
      exact hh (hmem.mp (List.mem_of_getElem? ht))

end Ctldl
