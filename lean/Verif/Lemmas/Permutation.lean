import Verif.Model.Permutation
import Verif.Lemmas.Basic
import Verif.Spec.Permutation
import Mathlib.Data.List.Nodup
import Mathlib.Data.List.NodupEquivFin
import Mathlib.Data.Fintype.Card

/-! # Permutations: helper lemmas -/

namespace Ctldl

namespace IsPerm

variable {p : List Nat} {n : Nat}

theorem length (h : IsPerm p n) : p.length = n := by simpa using List.Perm.length_eq h

theorem nodup (h : IsPerm p n) : p.Nodup := h.nodup_iff.mpr List.nodup_range

theorem mem_iff (h : IsPerm p n) {a : Nat} : a ∈ p ↔ a < n := by
  rw [List.Perm.mem_iff h]; exact List.mem_range

theorem get?_eq (h : IsPerm p n) {i : Nat} (hi : i < n) : p[i]? = some (permAt p i) := by
  have hi' : i < p.length := by rw [h.length]; exact hi
  simp [permAt, hi']

theorem rd_eq (h : IsPerm p n) {i : Nat} (hi : i < n) : rd p i = .ok (permAt p i) :=
  rd_of_getElem? (h.get?_eq hi)

theorem lt (h : IsPerm p n) {i : Nat} (hi : i < n) : permAt p i < n :=
  h.mem_iff.mp (List.mem_of_getElem? (h.get?_eq hi))

theorem inj (h : IsPerm p n) {i j : Nat} (hi : i < n) (hj : j < n) (hij : permAt p i = permAt p j) :
    i = j := by
  have h1 := h.get?_eq hi
  have h2 := h.get?_eq hj
  rw [hij, ← h2] at h1
  exact (List.getElem?_inj (by rw [h.length]; exact hi) h.nodup).mp h1

theorem surj (h : IsPerm p n) {a : Nat} (ha : a < n) : ∃ i, i < n ∧ permAt p i = a := by
  obtain ⟨i, hi, hia⟩ := List.mem_iff_getElem.mp (h.mem_iff.mpr ha)
  refine ⟨i, by rw [← h.length]; exact hi, ?_⟩
  simp [permAt, hi, hia]

end IsPerm

/-- Sufficient condition: right length, values in range, no repetition. -/
theorem isPerm_of_inj {p : List Nat} {n : Nat} (hl : p.length = n) (hlt : ∀ a ∈ p, a < n)
    (hnd : p.Nodup) : IsPerm p n := by
  have hsub : p ⊆ List.range n := fun a ha => List.mem_range.mpr (hlt a ha)
  exact (List.subperm_of_subset hnd hsub).perm_of_length_le (by simp [hl])

theorem isPerm_range (n : Nat) : IsPerm (List.range n) n := List.Perm.refl _

theorem isPerm_identity (n : Nat) : IsPerm (identityPermutation n) n := List.Perm.refl _

theorem permAt_identity {n i : Nat} (h : i < n) : permAt (identityPermutation n) i = i := by
  simp [permAt, identityPermutation, h]

/-- Two lists of the same length agreeing everywhere as functions are equal. -/
theorem ext_permAt {p q : List Nat} (hl : p.length = q.length) (h : ∀ i < p.length, permAt p i = permAt q i) :
    p = q := by
  apply List.ext_getElem hl
  intro i h1 h2
  have := h i h1
  simpa [permAt, h1, h2] using this

/-- A permutation that is inverse as a function. -/
structure IsInv (p q : List Nat) (n : Nat) : Prop where
  left : IsPerm p n
  right : IsPerm q n
  qp : ∀ i < n, permAt q (permAt p i) = i
  pq : ∀ i < n, permAt p (permAt q i) = i

theorem IsInv.symm {p q : List Nat} {n : Nat} (h : IsInv p q n) : IsInv q p n :=
  ⟨h.right, h.left, h.pq, h.qp⟩

theorem IsInv.eq_iff {p q : List Nat} {n i j : Nat} (h : IsInv p q n) (hi : i < n) (hj : j < n) :
    permAt q i = j ↔ i = permAt p j := by
  constructor
  · rintro rfl; exact (h.pq i hi).symm
  · rintro rfl; exact h.qp j hj

theorem invertPermutation_sat {p : List Nat} {n : Nat} (hp : IsPerm p n) :
    Sat (invertPermutation p) (fun q => IsInv p q n) := by
  unfold invertPermutation
  have hl := hp.length
  rw [hl]
  refine Sat.mono (foldlM_range_inv (fun i (q : List Nat) => q.length = n ∧
    ∀ k < i, q[permAt p k]? = some k) (by simp) ?_) ?_
  · rintro i q hi ⟨hq, hk⟩
    rw [hp.rd_eq hi, ok_bind, wr_ok (by rw [hq]; exact hp.lt hi)]
    refine Sat.ok ⟨by simp [hq], ?_⟩
    intro k hki
    rw [List.getElem?_set]
    have hkn : k < n := by omega
    split
    · next heq =>
      have := hp.inj hi hkn heq
      have hlt := hp.lt hkn
      subst this
      simp [hq, hlt]
    · next hne =>
      apply hk
      rcases Nat.lt_succ_iff_lt_or_eq.mp hki with h | h
      · exact h
      · exact absurd (by rw [h]) hne
  · rintro q ⟨hq, hk⟩
    have hqp : ∀ i < n, permAt q (permAt p i) = i := by
      intro i hi; simp [permAt] at *; simp [hk i hi]
    have hmem : ∀ a, a ∈ q ↔ a < n := by
      intro a
      constructor
      · intro ha
        obtain ⟨i, hi, hia⟩ := List.mem_iff_getElem.mp ha
        obtain ⟨j, hj, hji⟩ := hp.surj (show i < n by omega)
        have := hk j hj
        rw [hji] at this
        rw [List.getElem?_eq_getElem hi, hia] at this
        cases this; exact hj
      · intro ha; exact List.mem_of_getElem? (hk a ha)
    have hnd : q.Nodup := by
      rw [List.nodup_iff_injective_get]
      intro i j hij
      obtain ⟨a, ha, hai⟩ := hp.surj (show i.1 < n by have := i.2; omega)
      obtain ⟨b, hb, hbj⟩ := hp.surj (show j.1 < n by have := j.2; omega)
      have h1 := hk a ha
      have h2 := hk b hb
      rw [hai] at h1
      rw [hbj] at h2
      simp at h1 h2
      simp at hij
      have : a = b := by omega
      subst this
      exact Fin.ext (by omega)
    have hqperm : IsPerm q n := isPerm_of_inj hq (fun a ha => (hmem a).mp ha) hnd
    refine ⟨hp, hqperm, hqp, ?_⟩
    intro i hi
    apply hqperm.inj (hp.lt (hqperm.lt hi)) hi
    exact hqp _ (hqperm.lt hi)

theorem IsInv.unique {p q q' : List Nat} {n : Nat} (h : IsInv p q n) (h' : IsInv p q' n) : q = q' := by
  apply ext_permAt (by rw [h.right.length, h'.right.length])
  intro i hi
  rw [h.right.length] at hi
  exact (h.eq_iff hi (h'.right.lt hi)).mpr (h'.pq i hi).symm

theorem invertPermutation_eq {p q : List Nat} {n : Nat} (h : IsInv p q n) :
    invertPermutation p = .ok q := by
  obtain ⟨q', hq', h'⟩ := invertPermutation_sat h.left
  rw [hq', h.unique h']

theorem invertPermutation_identity (n : Nat) :
    invertPermutation (identityPermutation n) = .ok (identityPermutation n) := by
  apply invertPermutation_eq (n := n)
  refine ⟨isPerm_identity n, isPerm_identity n, ?_, ?_⟩ <;>
  · intro i hi; rw [permAt_identity hi, permAt_identity hi]

end Ctldl
