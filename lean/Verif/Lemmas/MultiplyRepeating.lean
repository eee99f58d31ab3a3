import Verif.Lemmas.Multiply

/-! # Lemmas on the repeating multiplications -/

namespace Ctldl

open Finset

variable {K : Type}

theorem rd_getD_of_lt {α : Type _} {v : List α} {i : Nat} (h : i < v.length) (a : α) : rd v i = .ok (v.getD i a) := by
  rw [rd_ok h, List.getD_eq_getElem?_getD, List.getElem?_eq_getElem h]; rfl

theorem getElem_eq_getD {α : Type _} {v : List α} {i : Nat} (h : i < v.length) (a : α) : v[i] = v.getD i a := by
  rw [List.getD_eq_getElem?_getD, List.getElem?_eq_getElem h]; rfl

theorem getD_mem {α : Type _} {v : List α} {i : Nat} (h : i < v.length) (a : α) : v.getD i a ∈ v := by
  rw [← getElem_eq_getD h]; exact List.getElem_mem h

/-- The operands of `multiplyRepeatingBlockTridiagonal` fit together. -/
structure TriFits (A B : List (MatIn K)) (x : List (List K)) (n N : Nat) : Prop where
  numA : A.length = N + 1
  numB : B.length = N
  numX : x.length = N + 1
  sizeA : ∀ b ∈ A, b.OfSize n n
  sizeB : ∀ b ∈ B, b.OfSize n n
  sizeX : ∀ v ∈ x, v.length = n

theorem multiplyInto_sat' [Semiring K] {kind : MultiplyKind} {m : MatIn K} {x : List K} {rhs : List (List K)}
    {b n N : Nat} (hb : b < N) (hr : rhs.length = N) (hn : ∀ t < N, (rhs.getD t []).length = n)
    (h : kind.Fits m n x.length) :
    ∃ w, multiplyInto kind m x rhs b = .ok w ∧ w.length = N ∧ (∀ t < N, (w.getD t []).length = n) ∧
      ∀ t i, blockAt w t i = blockAt rhs t i + if t = b then blockProduct kind m x i else 0 := by
  have h0 : rhs[b].length = n := by rw [getElem_eq_getD (by omega) []]; exact hn b hb
  obtain ⟨w, h1, h2, h3, h4⟩ := multiplyInto_sat (by omega) (h0 ▸ h)
  exact ⟨w, h1, by omega, fun t ht => by rw [h3, hn t ht], h4⟩

theorem multiplyTridiagonal_sat [Semiring K] {A B : List (MatIn K)} {x rhs : List (List K)} {n N : Nat}
    (h : TriFits A B x n N) (hr : rhs.length = N + 1) (hn : ∀ t < N + 1, (rhs.getD t []).length = n) :
    ∃ w, multiplyRepeatingBlockTridiagonal A B x rhs = .ok w ∧ w.length = N + 1 ∧
      (∀ t < N + 1, (w.getD t []).length = n) ∧
      ∀ t < N + 1, ∀ i, blockAt w t i = blockAt rhs t i +
        (blockProduct .symmetric (A.getD t (.empty K)) (x.getD t []) i +
        (if 0 < t then blockProduct .normal (B.getD (t - 1) (.empty K)) (x.getD (t - 1) []) i else 0) +
        (if t < N then blockProduct .transposed (B.getD t (.empty K)) (x.getD (t + 1) []) i else 0)) := by
  have hx : ∀ t < N + 1, (x.getD t []).length = n := fun t ht => h.sizeX _ (getD_mem (by rw [h.numX]; exact ht) _)
  have hA : ∀ t < N + 1, (A.getD t (.empty K)).OfSize n n :=
    fun t ht => h.sizeA _ (getD_mem (by rw [h.numA]; exact ht) _)
  have hB : ∀ t < N, (B.getD t (.empty K)).OfSize n n :=
    fun t ht => h.sizeB _ (getD_mem (by rw [h.numB]; exact ht) _)
  unfold multiplyRepeatingBlockTridiagonal
  simp only [h.numB]
  rw [pre_true (by simp [h.numA]), ok_bind, pre_true (by simp [h.numX]), ok_bind, pre_true (by simp [hr]), ok_bind,
    rd_getD_of_lt (by rw [h.numA]; omega) (.empty K), ok_bind, rd_getD_of_lt (by rw [h.numX]; omega) [], ok_bind]
  obtain ⟨w0, h1, h2, h3, h4⟩ := multiplyInto_sat' (kind := .symmetric) (x := x.getD 0 []) (Nat.succ_pos N) hr hn
    (by rw [hx 0 (by omega)]; exact (hA 0 (by omega)).fits_symmetric)
  rw [h1, ok_bind]
  obtain ⟨w, g1, g2, g3, g4⟩ := foldlM_range_inv (n := N) (init := w0)
    (f := (fun rhs i => do
      let rhs ← multiplyInto .transposed (← rd B i) (← rd x (i + 1)) rhs i
      let rhs ← multiplyInto .normal (← rd B i) (← rd x i) rhs (i + 1)
      multiplyInto .symmetric (← rd A (i + 1)) (← rd x (i + 1)) rhs (i + 1)))
    (fun k w => w.length = N + 1 ∧ (∀ t < N + 1, (w.getD t []).length = n) ∧
      ∀ t < N + 1, ∀ i, blockAt w t i = blockAt rhs t i +
        ((if t ≤ k then blockProduct .symmetric (A.getD t (.empty K)) (x.getD t []) i else 0) +
        (if 0 < t ∧ t ≤ k then blockProduct .normal (B.getD (t - 1) (.empty K)) (x.getD (t - 1) []) i else 0) +
        (if t < k then blockProduct .transposed (B.getD t (.empty K)) (x.getD (t + 1) []) i else 0)))
    ⟨h2, h3, fun t ht i => by
      rw [h4 t i]
      by_cases h0 : t = 0
      · subst h0; simp
      · simp [h0]⟩
    (fun k v hk ⟨k1, k2, k3⟩ => by
      rw [rd_getD_of_lt (by rw [h.numB]; omega) (.empty K), ok_bind, rd_getD_of_lt (by rw [h.numX]; omega) [], ok_bind]
      obtain ⟨v1, a1, a2, a3, a4⟩ := multiplyInto_sat' (kind := .transposed) (b := k) (x := x.getD (k + 1) [])
        (by omega) k1 k2 (by rw [hx (k + 1) (by omega)]; exact (hB k hk).fits_transposed)
      rw [a1, ok_bind, ok_bind, rd_getD_of_lt (by rw [h.numX]; omega) [], ok_bind]
      obtain ⟨v2, b1, b2, b3, b4⟩ := multiplyInto_sat' (kind := .normal) (b := k + 1) (x := x.getD k [])
        (by omega) a2 a3 (by rw [hx k (by omega)]; exact (hB k hk).fits_normal)
      rw [b1, ok_bind, rd_getD_of_lt (by rw [h.numA]; omega) (.empty K), ok_bind, ok_bind]
      obtain ⟨v3, c1, c2, c3, c4⟩ := multiplyInto_sat' (kind := .symmetric) (b := k + 1) (x := x.getD (k + 1) [])
        (by omega) b2 b3 (by rw [hx (k + 1) (by omega)]; exact (hA (k + 1) (by omega)).fits_symmetric)
      refine ⟨v3, c1, c2, c3, fun t ht i => ?_⟩
      rw [c4, b4, a4, k3 t ht]
      rcases lt_trichotomy t k with hlt | heq | hgt
      · simp [show t ≤ k by omega, show t ≤ k + 1 by omega, show t ≠ k by omega, show t ≠ k + 1 by omega, hlt,
          show t < k + 1 by omega]
      · subst heq
        simp only [le_refl, if_true, lt_irrefl, if_false, add_zero, show ¬ t = t + 1 by omega,
          show t ≤ t + 1 by omega, and_true, show t < t + 1 by omega]
        abel
      · by_cases he : t = k + 1
        · subst he
          simp only [show ¬ k + 1 ≤ k by omega, show ¬ k + 1 < k by omega, show ¬ k + 1 = k by omega, if_false,
            and_false, add_zero, if_true, le_refl, and_true, lt_irrefl, Nat.succ_pos, Nat.add_sub_cancel]
          abel
        · simp [show ¬ t ≤ k by omega, show ¬ t ≤ k + 1 by omega, show t ≠ k by omega, he, show ¬ t < k by omega,
            show ¬ t < k + 1 by omega])
  refine ⟨w, g1, g2, g3, fun t ht i => ?_⟩
  rw [g4 t ht i]
  simp only [show t ≤ N by omega, if_true, and_true]

end Ctldl
