import Verif.Lemmas.NextPermutation

/-! # C01, C02: permutations -/

namespace Ctldl

/-- C01: `invertPermutation` of a permutation succeeds, is a permutation, is the inverse from both sides, and
inverting it again gives back the original. -/
theorem C01_invert_permutation (p : List Nat) (n : Nat) (hp : IsPerm p n) :
    ∃ q, invertPermutation p = .ok q ∧ IsPerm q n ∧
      (∀ i < n, ∃ a, p[i]? = some a ∧ q[a]? = some i) ∧
      (∀ i < n, ∃ a, q[i]? = some a ∧ p[a]? = some i) ∧
      invertPermutation q = .ok p := by
  obtain ⟨q, hq, h⟩ := invertPermutation_sat hp
  refine ⟨q, hq, h.right, ?_, ?_, invertPermutation_eq h.symm⟩
  · intro i hi
    exact ⟨_, hp.get?_eq hi, by rw [h.right.get?_eq (hp.lt hi), h.qp i hi]⟩
  · intro i hi
    exact ⟨_, h.right.get?_eq hi, by rw [hp.get?_eq (h.right.lt hi), h.pq i hi]⟩

example : IsPerm [2, 0, 3, 1] 4 := by unfold IsPerm; decide

/-- C01: the function does not check its argument; an index out of range is written out of bounds. -/
theorem C01_invert_out_of_range (p : List Nat) (a : Nat) (ha : a ∈ p) (hlt : p.length ≤ a) :
    invertPermutation p = .error .ub := by
  unfold invertPermutation
  obtain ⟨k, hk, rfl⟩ := List.mem_iff_getElem.mp ha
  -- the loop fails at the first index out of range
  suffices h : ∀ m b (q : List Nat), q.length = p.length → b + m = p.length → b ≤ k →
      (List.range' b m).foldlM (fun inverse i => do wr inverse (← rd p i) i) q = .error .ub by
    have := h p.length 0 (List.replicate p.length 0) (by simp) (by omega) (by omega)
    rw [List.range_eq_range']; exact this
  intro m
  induction m with
  | zero => intro b q _ hb hbk; omega
  | succ m ih =>
    intro b q hq hb hbk
    have hbl : b < p.length := by omega
    rw [List.range'_succ, List.foldlM_cons, rd_ok hbl, ok_bind]
    by_cases hw : p[b] < q.length
    · rw [wr_ok hw, ok_bind]
      apply ih _ _ (by simpa using hq) (by omega)
      rcases Nat.lt_or_eq_of_le hbk with h | h
      · exact h
      · subst h; omega
    · simp only [wr, if_neg hw, error_bind]

example : (5 : Nat) ∈ [0, 5, 1] ∧ [0, 5, 1].length ≤ 5 := by decide

/-- C01: a permutation constructed from its size only maps each index to itself and is its own inverse. -/
theorem C01_identity (n : Nat) :
    IsPerm (identityPermutation n) n ∧ (∀ i < n, (identityPermutation n)[i]? = some i) ∧
      invertPermutation (identityPermutation n) = .ok (identityPermutation n) := by
  have hid : ∀ i < n, (identityPermutation n)[i]? = some i := fun i hi => by simp [identityPermutation, hi]
  have hp := isPerm_identity n
  obtain ⟨q, h1, h2, h3, -, -⟩ := C01_invert_permutation _ n hp
  refine ⟨hp, hid, ?_⟩
  rw [h1]
  refine congrArg _ (List.ext_getElem? fun i => ?_)
  by_cases hi : i < n
  · obtain ⟨a, h4, h5⟩ := h3 i hi
    rw [hid i hi] at h4
    cases h4
    rw [h5, hid i hi]
  · rw [List.getElem?_eq_none (by rw [h2.length]; omega), List.getElem?_eq_none (by rw [hp.length]; omega)]

/-- C01: permutations compare equal exactly if they have the same size and the same elements. -/
theorem C01_equality (p q : List Nat) :
    permutationEq p q = true ↔ p.length = q.length ∧ ∀ i < p.length, p[i]? = q[i]? := by
  unfold permutationEq
  rw [beq_iff_eq]
  constructor
  · rintro rfl
    exact ⟨rfl, fun _ _ => rfl⟩
  · rintro ⟨h1, h2⟩
    refine List.ext_getElem? fun i => ?_
    by_cases hi : i < p.length
    · exact h2 i hi
    · rw [List.getElem?_eq_none (by omega), List.getElem?_eq_none (by omega)]

example : permutationEq [1, 0] [1, 0] = true ∧ permutationEq [1, 0] [0, 1] = false ∧ permutationEq [0] [0, 1] = false := by
  decide

/-- C02: the enumeration has `n!` elements, if this number fits in 64 bits. -/
theorem C02_enumeration_length (n : Nat) (hn : n ≤ 20) : (enumeratePermutations n).length = Nat.factorial n := by
  rw [enumerate_eq, List.length_map, List.length_range, factorial_eq hn]

/-- C02: otherwise the number of elements wraps around, so that permutations are missing. -/
theorem C02_enumeration_wraps (n : Nat) (hn : 20 < n) :
    (enumeratePermutations n).length = Nat.factorial n % 2 ^ 64 ∧
      (enumeratePermutations n).length < Nat.factorial n := by
  have h : (enumeratePermutations n).length = Nat.factorial n % 2 ^ 64 := by
    rw [enumerate_eq, List.length_map, List.length_range, factorial_mod]
  refine ⟨h, h ▸ lt_of_lt_of_le (Nat.mod_lt _ (by decide)) ?_⟩
  exact le_trans (by decide : 2 ^ 64 ≤ Nat.factorial 21) (Nat.factorial_le hn)

/-- C02: from size 66 on, nothing is enumerated, although there are permutations. -/
theorem C02_enumeration_empty (n : Nat) (hn : 66 ≤ n) : enumeratePermutations n = [] ∧ IsPerm (List.range n) n := by
  refine ⟨List.length_eq_zero_iff.mp ?_, List.Perm.refl _⟩
  rw [(C02_enumeration_wraps n (by omega)).1]
  exact Nat.mod_eq_zero_of_dvd (Nat.dvd_trans (by decide : 2 ^ 64 ∣ Nat.factorial 66) (Nat.factorial_dvd_factorial hn))

/-- C02: the enumeration is strictly increasing in lexicographic order (so nothing appears twice). -/
theorem C02_enumeration_increasing (n : Nat) :
    (enumeratePermutations n).Pairwise (fun a b => List.Lex (· < ·) a b) := by
  rw [enumerate_eq, List.pairwise_map, List.pairwise_iff_getElem]
  intro i j hi hj hij
  simp only [List.length_range] at hi hj
  simp only [List.getElem_range]
  exact (enumerate_chain n j (lt_of_lt_of_le hj (factorial_le n))).1 i j hij (le_refl _)

/-- C02: only permutations of `0..n-1` appear, for every size. -/
theorem C02_enumeration_valid (n : Nat) (p : List Nat) (hp : p ∈ enumeratePermutations n) : IsPerm p n := by
  rw [enumerate_eq, List.mem_map] at hp
  obtain ⟨k, -, rfl⟩ := hp
  exact nextIter_perm _ k

/-- C02: exactly the permutations of `0..n-1` appear. -/
theorem C02_enumeration_complete (n : Nat) (hn : n ≤ 20) (p : List Nat) :
    p ∈ enumeratePermutations n ↔ IsPerm p n := by
  rw [enumerate_eq, factorial_eq hn, List.mem_map]
  constructor
  · rintro ⟨k, -, rfl⟩; exact nextIter_perm _ k
  · intro hp
    have hpos := Nat.factorial_pos n
    obtain ⟨h1, h2⟩ := enumerate_chain n (Nat.factorial n - 1) (by omega)
    by_cases hle : p ≤ nextIter (List.range n) (Nat.factorial n - 1)
    · obtain ⟨i, hi, h⟩ := h2 p hp hle
      exact ⟨i, by simp; omega, h.symm⟩
    · -- otherwise there would be more than `n!` permutations
      exfalso
      obtain ⟨S, hcard, hS⟩ := permsOf n
      have hsub : insert p ((Finset.range (Nat.factorial n)).image (nextIter (List.range n))) ⊆ S := by
        intro q hq
        rcases Finset.mem_insert.mp hq with rfl | hq
        · exact (hS q).mpr hp
        · obtain ⟨i, -, rfl⟩ := Finset.mem_image.mp hq
          exact (hS _).mpr (nextIter_perm _ i)
      have hnot : p ∉ (Finset.range (Nat.factorial n)).image (nextIter (List.range n)) := by
        intro hmem
        obtain ⟨i, hi, rfl⟩ := Finset.mem_image.mp hmem
        apply hle
        rcases Nat.lt_or_ge i (Nat.factorial n - 1) with h | h
        · exact le_of_lt (h1 i _ h (le_refl _))
        · have : i = Nat.factorial n - 1 := by simp at hi; omega
          rw [this]
      have hinj : ((Finset.range (Nat.factorial n)).image (nextIter (List.range n))).card =
          Nat.factorial n := by
        rw [Finset.card_image_of_injOn, Finset.card_range]
        intro i hi j hj hij
        simp only [Finset.coe_range, Set.mem_Iio] at hi hj
        by_contra hne
        rcases Nat.lt_or_gt_of_ne hne with h | h
        · have := h1 i j h (by omega)
          rw [hij] at this; exact lt_irrefl _ this
        · have := h1 j i h (by omega)
          rw [hij] at this; exact lt_irrefl _ this
      have := Finset.card_le_card hsub
      rw [Finset.card_insert_of_notMem hnot, hinj, hcard] at this
      omega

/-- C02: the enumeration starts with the identity. -/
theorem C02_enumeration_starts_with_identity (n : Nat) (hn : n ≤ 20) :
    (enumeratePermutations n).head? = some (List.range n) := by
  rw [enumerate_eq, factorial_eq hn, List.head?_map]
  have hpos := Nat.factorial_pos n
  cases h : Nat.factorial n with
  | zero => omega
  | succ m => simp [List.range_succ_eq_map, nextIter]

example : enumeratePermutations 3 =
    [[0, 1, 2], [0, 2, 1], [1, 0, 2], [1, 2, 0], [2, 0, 1], [2, 1, 0]] := by decide

end Ctldl
