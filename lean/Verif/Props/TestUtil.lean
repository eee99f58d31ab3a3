import Verif.Model.TestUtil
import Verif.Spec.Permutation
import Verif.Lemmas.Basic
import Verif.Lemmas.Permutation

/-! # C44: random permutations of the tests -/

namespace Ctldl

/-- C44: the distribution stays in its bounds, and does not reach the upper one unless the bounds are equal. -/
theorem C44_uniform (a b state : Nat) (h : a ≤ b) :
    ∃ v st, uniformInt a b state = .ok (v, st) ∧ a ≤ v ∧ v ≤ b ∧ (a < b → v < b) := by
  unfold uniformInt assert'
  rw [if_pos (by simpa using h), ok_bind]
  by_cases hab : b = a
  · rw [if_pos hab]
    exact ⟨a, state, rfl, Nat.le_refl _, h, fun h' => h'⟩
  · rw [if_neg hab]
    unfold umod
    simp only
    rw [if_neg (by omega), ok_bind]
    have := Nat.mod_lt (lcgNext state) (show b - a > 0 by omega)
    exact ⟨_, _, rfl, by omega, by omega, fun _ => by omega⟩

/-- C44: inverted bounds are reported. -/
theorem C44_uniform_bounds (a b state : Nat) (h : b < a) : uniformInt a b state = .error .assertion := by
  unfold uniformInt assert'
  rw [if_neg (by simpa using h)]
  rfl

private theorem swapAt_sat {α : Type} {v : List α} {i j : Nat} (hi : i < v.length) (hj : j < v.length) :
    Sat (swapAt v i j) (fun w => w.Perm v ∧ ∀ k, k ≠ i → k ≠ j → w[k]? = v[k]?) := by
  unfold swapAt
  rw [show rd v i = .ok v[i] by simp [rd, hi], ok_bind, show rd v j = .ok v[j] by simp [rd, hj], ok_bind, wr_ok hi,
    ok_bind, wr_ok (by simpa using hj)]
  refine Sat.ok ⟨List.set_set_perm hi hj, fun k h1 h2 => ?_⟩
  rw [List.getElem?_set_ne (Ne.symm h2), List.getElem?_set_ne (Ne.symm h1)]

private theorem shuffle_sat {α : Type} (v : List α) (state : Nat) :
    Sat (shuffle v state) (fun r => r.1.Perm v ∧ r.1[v.length - 1]? = v[v.length - 1]?) := by
  unfold shuffle
  refine Sat.bind (foldlM_range_inv (fun k (st : List α × Nat × Nat) => st.1.Perm v ∧ st.2.1 = v.length - k ∧
    st.1[v.length - 1]? = v[v.length - 1]?) ⟨List.Perm.refl _, rfl, rfl⟩ ?_) ?_
  · rintro k ⟨w, r, st⟩ hk ⟨h1, h2, h3⟩
    simp only at h1 h2 h3 ⊢
    subst h2
    rw [show usub (v.length - k) 1 = .ok (v.length - k - 1) from if_pos (by omega), ok_bind]
    obtain ⟨i, st', h4, -, h5, h6⟩ := C44_uniform 0 (v.length - k - 1) st (by omega)
    rw [h4, ok_bind]
    simp only
    have hlen := h1.length_eq
    by_cases hi : i = 0
    · rw [if_neg (not_not.mpr hi)]
      exact Sat.ok ⟨h1, by simp only; omega, h3⟩
    · rw [if_pos hi]
      have := h6 (by omega)
      refine Sat.bind (swapAt_sat (show k < w.length by omega) (show k + i < w.length by omega)) ?_
      rintro w' ⟨hw', hl⟩
      exact Sat.ok ⟨hw'.trans h1, by simp only; omega, (hl _ (by omega) (by omega)).trans h3⟩
  · rintro ⟨w, r, st⟩ ⟨h1, -, h3⟩
    exact Sat.ok ⟨h1, h3⟩

/-- C44: `shuffle` succeeds for every generator state and returns the same values in some order. -/
theorem C44_shuffle {α : Type} (v : List α) (state : Nat) : ∃ w st, shuffle v state = .ok (w, st) ∧ w.Perm v := by
  obtain ⟨⟨w, st⟩, h1, h2, -⟩ := shuffle_sat v state
  exact ⟨w, st, h1, h2⟩

/-- C44: the test permutations are permutations, for every seed and dimension. -/
theorem C44_procedural_permutation (seed dim : Nat) :
    ∃ p st, proceduralTestPermutation seed dim = .ok (p, st) ∧ IsPerm p dim := by
  obtain ⟨w, st, h1, h2⟩ := C44_shuffle (identityPermutation dim) seed
  exact ⟨w, st, h1, h2.trans (isPerm_identity dim)⟩

/-- C44: because the distribution misses its upper bound, `shuffle` never moves the last element, whatever the generator
state; not all permutations can occur. -/
theorem C44_last_stays {α : Type} (v w : List α) (state st : Nat) (h : shuffle v state = .ok (w, st)) :
    w[v.length - 1]? = v[v.length - 1]? := by
  obtain ⟨⟨w', st'⟩, h1, -, h2⟩ := shuffle_sat v state
  rw [h] at h1
  cases h1
  exact h2

example : (proceduralTestPermutation 7 4).map Prod.fst = .ok [2, 0, 1, 3] := by decide +kernel

end Ctldl
