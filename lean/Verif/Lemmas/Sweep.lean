import Verif.Lemmas.Values

/-! # The elimination of one row, on values -/

namespace Ctldl

section

variable {K : Type _} [Sub K] [Mul K] [Div K] {ι : Type} [DecidableEq ι]

/-- Eliminate column `j` of a row whose values are `s.1`; `act j` is the place of column `j`, `has x j` says that
place `x` is influenced and `q x j` is the factor. -/
def sweepStep (act : Nat → ι) (has : ι → Nat → Prop) [∀ x j, Decidable (has x j)] (q : ι → Nat → K) (d : Nat → K)
    (s : (ι → K) × K) (j : Nat) : (ι → K) × K :=
  (fun x => if x = act j then s.1 (act j) / d j else if has x j then s.1 x - q x j * s.1 (act j) else s.1 x,
    s.2 - s.1 (act j) * (s.1 (act j) / d j))

/-- Closed form of the elimination of a row. -/
structure SweepResult (act : Nat → ι) (has : ι → Nat → Prop) [∀ x j, Decidable (has x j)] (q : ι → Nat → K)
    (d : Nat → K) (cols : List Nat) (v : ι → K) (D : K) (v' : ι → K) (D' : K) (w : Nat → K) : Prop where
  scaled : ∀ j ∈ cols, w j = subAll (cols.filter (has (act j) ·)) (fun k => q (act j) k * w k) (v (act j))
  done : ∀ j ∈ cols, v' (act j) = w j / d j
  rest : ∀ x, (∀ j ∈ cols, x ≠ act j) → v' x = subAll (cols.filter (has x ·)) (fun k => q x k * w k) (v x)
  diag : D' = subAll cols (fun j => w j * (w j / d j)) D

theorem sweep_spec {act : Nat → ι} {has : ι → Nat → Prop} [∀ x j, Decidable (has x j)] {q : ι → Nat → K}
    {d : Nat → K} (hinj : Function.Injective act) (hlow : ∀ k j, has (act k) j → j < k) (cols : List Nat)
    (hs : cols.Pairwise (· < ·)) (v : ι → K) (D : K) :
    ∃ w, SweepResult act has q d cols v D (cols.foldl (sweepStep act has q d) (v, D)).1
      (cols.foldl (sweepStep act has q d) (v, D)).2 w := by
  induction cols using List.reverseRecOn with
  | nil =>
    exact ⟨fun _ => D, ⟨fun _ h => by simp at h, fun _ h => by simp at h, fun _ _ => rfl, rfl⟩⟩
  | append_singleton pre j ih =>
    rw [List.pairwise_append] at hs
    obtain ⟨hs1, -, hs2⟩ := hs
    obtain ⟨w, hw⟩ := ih hs1
    have hlt : ∀ k ∈ pre, k < j := fun k hk => hs2 k hk j (by simp)
    rw [List.foldl_append, List.foldl_cons, List.foldl_nil]
    generalize pre.foldl (sweepStep act has q d) (v, D) = s at hw ⊢
    have hne : ∀ k ∈ pre, k ≠ j := fun k hk => Nat.ne_of_lt (hlt k hk)
    have hact : ∀ k ∈ pre, act j ≠ act k := fun k hk h => hne k hk (hinj h.symm)
    have hup : ∀ k ∈ pre, Function.update w j (s.1 (act j)) k = w k := fun k hk => by
      rw [Function.update_of_ne (hne k hk)]
    have hsub : ∀ x init, subAll (pre.filter (has x ·)) (fun k => q x k * Function.update w j (s.1 (act j)) k) init
        = subAll (pre.filter (has x ·)) (fun k => q x k * w k) init := fun x init => by
      apply subAll_congr
      intro k hk
      rw [hup k (List.mem_of_mem_filter hk)]
    have hnot : ∀ k, k ≤ j → (([j] : List Nat).filter (has (act k) ·)) = [] := fun k hk => by
      rw [List.filter_eq_nil_iff]
      intro a ha hh
      simp only [List.mem_singleton] at ha
      subst ha
      have := hlow k a (by simpa using hh)
      omega
    refine ⟨Function.update w j (s.1 (act j)), ⟨?_, ?_, ?_, ?_⟩⟩
    · intro k hk
      rw [List.mem_append, List.mem_singleton] at hk
      rw [List.filter_append]
      rcases hk with hk | rfl
      · rw [hnot k (Nat.le_of_lt (hlt k hk)), List.append_nil, hsub, hup k hk]
        exact hw.scaled k hk
      · rw [hnot k (Nat.le_refl _), List.append_nil, hsub, Function.update_self]
        exact hw.rest _ hact
    · intro k hk
      rw [List.mem_append, List.mem_singleton] at hk
      simp only [sweepStep]
      rcases hk with hk | rfl
      · rw [if_neg (fun h => hact k hk h.symm), if_neg, hup k hk]
        · exact hw.done k hk
        · intro hh
          have := hlow _ _ hh
          have := hlt k hk
          omega
      · rw [if_pos rfl, Function.update_self]
    · intro x hx
      have hxj : x ≠ act j := hx j (by simp)
      simp only [sweepStep]
      rw [if_neg hxj, List.filter_append, subAll_append, hsub, ← hw.rest x (fun k hk => hx k (by simp [hk]))]
      by_cases hh : has x j
      · rw [if_pos hh]
        simp [hh, subAll]
      · rw [if_neg hh]
        simp [hh, subAll]
    · simp only [sweepStep]
      rw [subAll_append, hw.diag, subAll_single, Function.update_self]
      congr 1
      apply subAll_congr
      intro k hk
      rw [hup k hk]

end

end Ctldl
