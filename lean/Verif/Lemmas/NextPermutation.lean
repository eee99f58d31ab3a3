import Verif.Lemmas.Permutation
import Mathlib.Data.List.Lex
import Mathlib.Data.List.Sort
import Mathlib.Data.Fintype.Perm
import Mathlib.Data.List.Permutation

/-! # `next_permutation` is the immediate lexicographic successor -/

namespace Ctldl

theorem lex_cons_iff {a b : Nat} {l l' : List Nat} : a :: l < b :: l' ↔ a < b ∨ a = b ∧ l < l' := by
  rw [List.cons_lt_cons_iff]

theorem lex_append_left {f l l' : List Nat} : f ++ l < f ++ l' ↔ l < l' := by
  induction f with
  | nil => simp
  | cons a f ih => simp [ih]

theorem ascending_le_of_perm {m r : List Nat} (hm : m.Pairwise (· ≤ ·)) (h : r.Perm m) : m ≤ r := by
  induction m generalizing r with
  | nil => have := List.Perm.eq_nil h; subst this; exact le_refl _
  | cons x m ih =>
    cases r with
    | nil => simp at h
    | cons y r =>
      have hxy : x ≤ y := by
        have : y ∈ x :: m := h.mem_iff.mp (by simp)
        rcases List.mem_cons.mp this with rfl | h'
        · exact le_refl _
        · exact (List.pairwise_cons.mp hm).1 y h'
      rcases Nat.lt_or_eq_of_le hxy with hlt | rfl
      · exact le_of_lt (lex_cons_iff.mpr (Or.inl hlt))
      · have := ih (List.pairwise_cons.mp hm).2 (List.Perm.cons_inv h)
        rcases lt_or_eq_of_le this with hlt | rfl
        · exact le_of_lt (lex_cons_iff.mpr (Or.inr ⟨rfl, hlt⟩))
        · exact le_refl _

theorem le_descending_of_perm {m r : List Nat} (hm : m.Pairwise (· ≥ ·)) (h : r.Perm m) : r ≤ m := by
  induction m generalizing r with
  | nil => have := List.Perm.eq_nil h; subst this; exact le_refl _
  | cons x m ih =>
    cases r with
    | nil => simp at h
    | cons y r =>
      have hxy : y ≤ x := by
        have : y ∈ x :: m := h.mem_iff.mp (by simp)
        rcases List.mem_cons.mp this with rfl | h'
        · exact le_refl _
        · exact (List.pairwise_cons.mp hm).1 y h'
      rcases Nat.lt_or_eq_of_le hxy with hlt | rfl
      · exact le_of_lt (lex_cons_iff.mpr (Or.inl hlt))
      · have := ih (List.pairwise_cons.mp hm).2 (List.Perm.cons_inv h)
        rcases lt_or_eq_of_le this with hlt | rfl
        · exact le_of_lt (lex_cons_iff.mpr (Or.inr ⟨rfl, hlt⟩))
        · exact le_refl _

theorem findPivot_none {rev : List Nat} {x : Nat} {suffix : List Nat}
    (hs : (x :: suffix).Pairwise (· ≥ ·)) (h : findPivot rev x suffix = none) :
    (rev.reverse ++ x :: suffix).Pairwise (· ≥ ·) := by
  induction rev generalizing x suffix with
  | nil => simpa using hs
  | cons y rev ih =>
    rw [findPivot] at h
    split at h
    · simp at h
    · next hyx =>
      have := ih (x := y) (suffix := x :: suffix) (by
        refine List.pairwise_cons.mpr ⟨?_, hs⟩
        intro z hz
        rcases List.mem_cons.mp hz with rfl | hz
        · omega
        · have := (List.pairwise_cons.mp hs).1 z hz; omega) h
      simpa using this

theorem findPivot_some {rev : List Nat} {x : Nat} {suffix front : List Nat} {pivot : Nat} {s : List Nat}
    (hs : (x :: suffix).Pairwise (· ≥ ·)) (h : findPivot rev x suffix = some (front, pivot, s)) :
    rev.reverse ++ x :: suffix = front.reverse ++ pivot :: s ∧ s.Pairwise (· ≥ ·) ∧
      ∃ z ∈ s, pivot < z := by
  induction rev generalizing x suffix with
  | nil => simp [findPivot] at h
  | cons y rev ih =>
    rw [findPivot] at h
    split at h
    · next hyx =>
      simp only [Option.some.injEq, Prod.mk.injEq] at h
      obtain ⟨rfl, rfl, rfl⟩ := h
      exact ⟨by simp, hs, x, by simp, hyx⟩
    · next hyx =>
      have := ih (x := y) (suffix := x :: suffix) (by
        refine List.pairwise_cons.mpr ⟨?_, hs⟩
        intro z hz
        rcases List.mem_cons.mp hz with rfl | hz
        · omega
        · have := (List.pairwise_cons.mp hs).1 z hz; omega) h
      simpa using this

theorem swapPivot_spec {pivot : Nat} {s : List Nat} (h : ∃ z ∈ s, pivot < z) :
    ∃ a b, s = a ++ (swapPivot pivot s).1 :: b ∧ (swapPivot pivot s).2 = a ++ pivot :: b ∧
      pivot < (swapPivot pivot s).1 ∧ ∀ z ∈ b, z ≤ pivot := by
  induction s with
  | nil => simp at h
  | cons x xs ih =>
    rw [swapPivot]
    split
    · next hany =>
      simp only [List.any_eq_true, decide_eq_true_eq] at hany
      obtain ⟨a, b, h1, h2, h3, h4⟩ := ih hany
      refine ⟨x :: a, b, ?_, ?_, h3, h4⟩
      · simpa using h1
      · simpa using h2
    · next hany =>
      simp only [List.any_eq_true, decide_eq_true_eq, not_exists, not_and, not_lt] at hany
      obtain ⟨z, hz, hpz⟩ := h
      have hx : pivot < x := by
        rcases List.mem_cons.mp hz with rfl | hz
        · exact hpz
        · have := hany z hz; omega
      rw [if_pos hx]
      exact ⟨[], xs, by simp, by simp, hx, hany⟩

/-- Either the sequence is the last arrangement, or it is taken apart around the pivot. -/
theorem nextPermutation_cases (p : List Nat) :
    p.Pairwise (· ≥ ·) ∨ ∃ front pivot q a b, p = front ++ pivot :: (a ++ q :: b) ∧
      (a ++ q :: b).Pairwise (· ≥ ·) ∧ pivot < q ∧ (∀ z ∈ b, z ≤ pivot) ∧
      nextPermutation p = front ++ q :: (a ++ pivot :: b).reverse := by
  cases hrev : p.reverse with
  | nil => left; simp at hrev; subst hrev; simp
  | cons x rev =>
    have hp : p = rev.reverse ++ [x] := by
      have := congrArg List.reverse hrev; simpa using this
    cases hf : findPivot rev x [] with
    | none =>
      left; rw [hp]; exact findPivot_none (by simp) hf
    | some t =>
      obtain ⟨front, pivot, s⟩ := t
      right
      obtain ⟨h1, h2, h3⟩ := findPivot_some (by simp) hf
      obtain ⟨a, b, e1, e2, e3, e4⟩ := swapPivot_spec h3
      refine ⟨front.reverse, pivot, (swapPivot pivot s).1, a, b, ?_, ?_, e3, e4, ?_⟩
      · rw [hp, h1, ← e1]
      · rw [← e1]; exact h2
      · unfold nextPermutation
        rw [hrev]
        simp only [hf]
        rw [e2]

theorem nextPermutation_perm (p : List Nat) : (nextPermutation p).Perm p := by
  rcases nextPermutation_cases p with h | ⟨f, pivot, q, a, b, hp, -, -, -, hn⟩
  · unfold nextPermutation
    split
    · next h' => simp at h'; subst h'; exact List.Perm.refl _
    · next x rev h' =>
      have hp : p = rev.reverse ++ [x] := by
        have := congrArg List.reverse h'; simpa using this
      split
      · exact List.reverse_perm _
      · next front pivot s hf =>
        obtain ⟨h1, h2, h3⟩ := findPivot_some (by simp) hf
        obtain ⟨a, b, e1, e2, e3, e4⟩ := swapPivot_spec h3
        exfalso
        rw [hp, h1, List.pairwise_append] at h
        obtain ⟨z, hz, hz'⟩ := h3
        have := (List.pairwise_cons.mp h.2.1).1 z hz
        omega
  · rw [hn, hp]
    apply List.Perm.append_left
    refine (List.Perm.cons q (List.reverse_perm _)).trans ?_
    calc q :: (a ++ pivot :: b) |>.Perm (q :: pivot :: (a ++ b)) :=
          List.Perm.cons _ List.perm_middle
      _ |>.Perm (pivot :: q :: (a ++ b)) := List.Perm.swap _ _ _
      _ |>.Perm (pivot :: (a ++ q :: b)) := List.Perm.cons _ List.perm_middle.symm

/-- If some arrangement is greater, the next one is greater. -/
theorem lt_nextPermutation {p r : List Nat} (hr : r.Perm p) (hlt : p < r) : p < nextPermutation p := by
  rcases nextPermutation_cases p with h | ⟨f, pivot, q, a, b, hp, -, hq, -, hn⟩
  · exact absurd hlt (not_lt_of_ge (le_descending_of_perm h hr))
  · rw [hn]
    conv_lhs => rw [hp]
    rw [lex_append_left, lex_cons_iff]
    exact Or.inl hq

theorem lex_append_cases {f l r : List Nat} (h : f ++ l < r) (hl : (f ++ l).length = r.length) :
    (∃ r', r = f ++ r' ∧ l < r') ∨ ∀ l', f ++ l' < r := by
  induction f generalizing r with
  | nil => left; exact ⟨r, by simp, by simpa using h⟩
  | cons a f ih =>
    cases r with
    | nil => simp at hl
    | cons c r =>
      rw [List.cons_append, lex_cons_iff] at h
      rcases h with h | ⟨rfl, h⟩
      · right; intro l'; rw [List.cons_append, lex_cons_iff]; exact Or.inl h
      · rcases ih h (by simpa using hl) with ⟨r', rfl, h'⟩ | h'
        · left; exact ⟨r', by simp, h'⟩
        · right; intro l'; rw [List.cons_append, lex_cons_iff]; exact Or.inr ⟨rfl, h' l'⟩

/-- No arrangement lies strictly between. -/
theorem nextPermutation_le {p r : List Nat} (hr : r.Perm p) (hlt : p < r) : nextPermutation p ≤ r := by
  rcases nextPermutation_cases p with h | ⟨f, pivot, q, a, b, hp, hs, hq, hb, hn⟩
  · exact absurd hlt (not_lt_of_ge (le_descending_of_perm h hr))
  · rw [hn]
    rw [hp] at hlt hr
    rcases lex_append_cases hlt hr.length_eq.symm with ⟨r', rfl, hlt'⟩ | h'
    · have hr' : r'.Perm (pivot :: (a ++ q :: b)) := (List.perm_append_left_iff _).mp hr
      cases r' with
      | nil => simp at hr'
      | cons y r' =>
        rcases lex_cons_iff.mp hlt' with hy | ⟨rfl, hlt''⟩
        · -- `y` is greater than the pivot, hence at least `q`
          have hy' : y ∈ a ++ q :: b := by
            rcases List.mem_cons.mp (hr'.mem_iff.mp (by simp : y ∈ y :: r')) with rfl | h
            · omega
            · exact h
          have hqy : q ≤ y := by
            rcases List.mem_append.mp hy' with h | h
            · exact (List.pairwise_append.mp hs).2.2 y h q (by simp)
            · rcases List.mem_cons.mp h with rfl | h
              · exact le_refl _
              · have := hb y h; omega
          rcases Nat.lt_or_eq_of_le hqy with hlt3 | rfl
          · exact le_of_lt (lex_append_left.mpr (lex_cons_iff.mpr (Or.inl hlt3)))
          · have hperm : r'.Perm (a ++ pivot :: b).reverse := by
              have h1 : (q :: r').Perm (q :: (a ++ pivot :: b)) := by
                refine hr'.trans ?_
                calc pivot :: (a ++ q :: b) |>.Perm (pivot :: q :: (a ++ b)) :=
                      List.Perm.cons _ List.perm_middle
                  _ |>.Perm (q :: pivot :: (a ++ b)) := List.Perm.swap _ _ _
                  _ |>.Perm (q :: (a ++ pivot :: b)) := List.Perm.cons _ List.perm_middle.symm
              exact (List.Perm.cons_inv h1).trans (List.reverse_perm _).symm
            have hasc : (a ++ pivot :: b).reverse.Pairwise (· ≤ ·) := by
              rw [List.pairwise_reverse]
              rw [List.pairwise_append] at hs ⊢
              refine ⟨hs.1, List.pairwise_cons.mpr ⟨fun z hz => hb z hz, (List.pairwise_cons.mp hs.2.1).2⟩, ?_⟩
              intro x hx z hz
              rcases List.mem_cons.mp hz with rfl | hz
              · have := hs.2.2 x hx q (by simp); omega
              · exact hs.2.2 x hx z (by simp [hz])
            have := ascending_le_of_perm hasc hperm
            rcases lt_or_eq_of_le this with hlt3 | heq
            · exact le_of_lt (lex_append_left.mpr (lex_cons_iff.mpr (Or.inr ⟨rfl, hlt3⟩)))
            · rw [heq]
        · have h1 : r'.Perm (a ++ q :: b) := List.Perm.cons_inv hr'
          exact absurd hlt'' (not_lt_of_ge (le_descending_of_perm hs h1))
    · exact le_of_lt (h' _)

/-- Iterated `next_permutation`. -/
def nextIter (p : List Nat) : Nat → List Nat
  | 0 => p
  | k + 1 => nextPermutation (nextIter p k)

theorem nextIter_perm (p : List Nat) (k : Nat) : (nextIter p k).Perm p := by
  induction k with
  | zero => exact List.Perm.refl _
  | succ k ih => exact (nextPermutation_perm _).trans ih

theorem enumerate_eq (dim : Nat) :
    enumeratePermutations dim = (List.range (factorial dim)).map (nextIter (List.range dim)) := by
  unfold enumeratePermutations
  generalize factorial dim = m
  suffices h : (List.range m).foldl
      (fun (s : List (List Nat) × List Nat) _ => (s.1 ++ [s.2], nextPermutation s.2))
      ([], List.range dim) = ((List.range m).map (nextIter (List.range dim)), nextIter (List.range dim) m) by
    rw [h]
  induction m with
  | zero => rfl
  | succ m ih => rw [List.range_succ, List.foldl_append, ih]; simp [nextIter]

theorem factorial_mod (n : Nat) : factorial n = Nat.factorial n % 2 ^ 64 := by
  unfold factorial
  induction n with
  | zero => rfl
  | succ n ih =>
    cases n with
    | zero => rfl
    | succ n =>
      have h1 : n + 1 + 1 - 1 = (n + 1 - 1) + 1 := by omega
      rw [h1, List.range'_1_concat, List.foldl_append, ih]
      simp only [List.foldl_cons, List.foldl_nil, Nat.factorial_succ, Nat.add_sub_cancel]
      have : 2 + n = n + 1 + 1 := by omega
      rw [this, Nat.mod_mul_mod, Nat.mul_comm]

theorem factorial_le (n : Nat) : factorial n ≤ Nat.factorial n := by
  rw [factorial_mod]; exact Nat.mod_le _ _

/-- Up to 20 the factorial fits in 64 bits. -/
theorem factorial_eq {n : Nat} (hn : n ≤ 20) : factorial n = Nat.factorial n := by
  rw [factorial_mod]
  exact Nat.mod_eq_of_lt (lt_of_le_of_lt (Nat.factorial_le hn) (by decide))

theorem permsOf (n : Nat) : ∃ S : Finset (List Nat), S.card = Nat.factorial n ∧ ∀ p, p ∈ S ↔ IsPerm p n := by
  refine ⟨(List.range n).permutations.toFinset, ?_, ?_⟩
  · rw [List.toFinset_card_of_nodup (List.nodup_permutations _ List.nodup_range),
      List.length_permutations, List.length_range]
  · intro p; simp [IsPerm, List.mem_permutations]

theorem enumerate_chain (n k : Nat) (hk : k < Nat.factorial n) :
    (∀ i j, i < j → j ≤ k → nextIter (List.range n) i < nextIter (List.range n) j) ∧
    ∀ r, IsPerm r n → r ≤ nextIter (List.range n) k → ∃ i ≤ k, r = nextIter (List.range n) i := by
  obtain ⟨S, hcard, hS⟩ := permsOf n
  induction k with
  | zero =>
    refine ⟨by intro i j h1 h2; omega, ?_⟩
    intro r hr hle
    refine ⟨0, le_refl _, le_antisymm hle ?_⟩
    exact ascending_le_of_perm (show (List.range n).Pairwise (· ≤ ·) from List.pairwise_le_range) hr
  | succ k ih =>
    obtain ⟨ih1, ih2⟩ := ih (by omega)
    -- some permutation has not been produced yet
    obtain ⟨r, hrS, hr⟩ : ∃ r ∈ S, r ∉ (Finset.range (k + 1)).image (nextIter (List.range n)) := by
      apply Finset.exists_mem_notMem_of_card_lt_card
      refine lt_of_le_of_lt Finset.card_image_le ?_
      rw [Finset.card_range, hcard]; exact hk
    have hrp := (hS r).mp hrS
    have hlt : nextIter (List.range n) k < r := by
      by_contra hcon
      obtain ⟨i, hi, hir⟩ := ih2 r hrp (not_lt.mp hcon)
      exact hr (Finset.mem_image.mpr ⟨i, by simp; omega, hir.symm⟩)
    have hperm : r.Perm (nextIter (List.range n) k) := hrp.trans (nextIter_perm _ k).symm
    have hnext := lt_nextPermutation hperm hlt
    refine ⟨?_, ?_⟩
    · intro i j hij hj
      rcases Nat.lt_or_eq_of_le hj with h | rfl
      · exact ih1 i j hij (by omega)
      · rcases Nat.lt_or_eq_of_le (Nat.le_of_lt_succ hij) with h | rfl
        · exact lt_trans (ih1 i k h (le_refl _)) hnext
        · exact hnext
    · intro s hs hle
      by_cases hsk : s ≤ nextIter (List.range n) k
      · obtain ⟨i, hi, hir⟩ := ih2 s hs hsk
        exact ⟨i, by omega, hir⟩
      · refine ⟨k + 1, le_refl _, le_antisymm hle ?_⟩
        exact nextPermutation_le (hs.trans (nextIter_perm _ k).symm) (not_le.mp hsk)

end Ctldl
