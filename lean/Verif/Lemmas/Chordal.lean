import Verif.Lemmas.FilledInBlocked
import Verif.Model.Factorize

/-! # 2 x 2 blocks, chordality check, re-wrapping: helper lemmas -/

namespace Ctldl

theorem permAt_id {n i : Nat} (h : i < n) : permAt (identityPermutation n) i = i := permAt_identity h

theorem lowerPermuted_id {s : Sparsity} (hs : s.InRange) (hsq : s.numRows = s.numCols) (i j : Nat) :
    LowerPermuted s (identityPermutation s.numRows) i j ↔ j < i ∧ s.Has i j := by
  unfold LowerPermuted
  constructor
  · rintro ⟨h1, h2, h3⟩
    rw [permAt_id h2, permAt_id (by omega), Nat.max_eq_left (by omega), Nat.min_eq_right (by omega)] at h3
    exact ⟨h1, h3⟩
  · rintro ⟨h1, h2⟩
    have h3 := hs _ h2
    simp only at h3
    refine ⟨h1, h3.1, ?_⟩
    rw [permAt_id h3.1, permAt_id (by omega), Nat.max_eq_left (by omega), Nat.min_eq_right (by omega)]
    exact h2

theorem rectPermuted_id {s : Sparsity} (hs : s.InRange) (i j : Nat) :
    RectPermuted s (identityPermutation s.numRows) (identityPermutation s.numCols) i j ↔ s.Has i j := by
  unfold RectPermuted
  constructor
  · rintro ⟨h1, h2, h3⟩
    rwa [permAt_id h1, permAt_id h2] at h3
  · intro h2
    have h3 := hs _ h2
    simp only at h3
    refine ⟨h3.1, h3.2, ?_⟩
    rwa [permAt_id h3.1, permAt_id h3.2]

theorem not_lowerPermuted_empty (r c : Nat) (p : List Nat) (i j : Nat) :
    ¬ LowerPermuted (emptySparsity r c) p i j := by
  rintro ⟨-, -, h⟩; simp [Sparsity.Has, emptySparsity] at h

theorem not_rectPermuted_empty (r c : Nat) (p p' : List Nat) (i j : Nat) :
    ¬ RectPermuted (emptySparsity r c) p p' i j := by
  rintro ⟨-, -, h⟩; simp [Sparsity.Has, emptySparsity] at h

theorem assembled3_empty {n1 n2 : Nat} {G11 G21 G22 G31 G32 G33 : Nat → Nat → Prop}
    (h31 : ∀ i j, ¬ G31 i j) (h32 : ∀ i j, ¬ G32 i j) (h33 : ∀ i j, ¬ G33 i j) (i j : Nat) :
    Assembled3 n1 n2 G11 G21 G22 G31 G32 G33 i j ↔ Assembled2 n1 G11 G21 G22 i j := by
  simp [Assembled3, Assembled2, h31, h32, h33]

theorem getFilledInSparsityBlocked_sat {in11 in21 in22 : Sparsity} {p1 p2 : List Nat}
    (sq1 : in11.numRows = in11.numCols) (sq2 : in22.numRows = in22.numCols) (hc : in21.numCols = in11.numCols)
    (hr : in21.numRows = in22.numRows) (h11 : in11.InRange) (h21 : in21.InRange) (h22 : in22.InRange)
    (hp1 : IsPerm p1 in11.numRows) (hp2 : IsPerm p2 in22.numRows)
    (hn : in11.numRows + in22.numRows ≤ noParent) :
    Sat (getFilledInSparsityBlocked in11 in21 in22 p1 p2) (fun f =>
      f.block11.IsPattern in11.numRows in11.numRows
        (fun i j => Fill (Assembled2 in11.numRows (LowerPermuted in11 p1) (RectPermuted in21 p2 p1)
          (LowerPermuted in22 p2)) i j) ∧
      f.block21.IsPattern in22.numRows in11.numRows
        (fun i j => Fill (Assembled2 in11.numRows (LowerPermuted in11 p1) (RectPermuted in21 p2 p1)
          (LowerPermuted in22 p2)) (in11.numRows + i) j) ∧
      f.block22.IsPattern in22.numRows in22.numRows
        (fun i j => Fill (Assembled2 in11.numRows (LowerPermuted in11 p1) (RectPermuted in21 p2 p1)
          (LowerPermuted in22 p2)) (in11.numRows + i) (in11.numRows + j))) := by
  unfold getFilledInSparsityBlocked
  refine Sat.bind (getFilledInSparsityBlocked3x3_sat (p1 := p1) (p2 := p2) ⟨sq1, sq2, rfl, hc, hr, rfl, rfl, rfl, rfl⟩
    h11 h21 h22 (emptySparsity_inRange _ _) (emptySparsity_inRange _ _) (emptySparsity_inRange _ _) hp1 hp2
    (isPerm_identity 0) (by simpa [emptySparsity] using hn)) ?_
  rintro f ⟨g1, g2, g3, -, -, -⟩
  have hG : ∀ i j, Fill (permutedAssembled in11 in21 in22 (emptySparsity 0 in11.numCols)
      (emptySparsity 0 in22.numCols) (emptySparsity 0 0) p1 p2 (identityPermutation 0)) i j ↔
      Fill (Assembled2 in11.numRows (LowerPermuted in11 p1) (RectPermuted in21 p2 p1)
          (LowerPermuted in22 p2)) i j := fun i j => Fill.congr fun a b _ =>
    assembled3_empty (not_rectPermuted_empty _ _ _ _) (not_rectPermuted_empty _ _ _ _)
      (not_lowerPermuted_empty _ _ _) a b
  exact Sat.pure ⟨g1.congr fun i j _ _ => hG _ _, g2.congr fun i j _ _ => hG _ _,
    g3.congr fun i j _ _ => hG _ _⟩

theorem Assembled2.congr {n1 : Nat} {G11 G21 G22 H11 H21 H22 : Nat → Nat → Prop}
    (h11 : ∀ i j, G11 i j ↔ H11 i j) (h21 : ∀ i j, G21 i j ↔ H21 i j) (h22 : ∀ i j, G22 i j ↔ H22 i j)
    (i j : Nat) : Assembled2 n1 G11 G21 G22 i j ↔ Assembled2 n1 H11 H21 H22 i j := by
  unfold Assembled2; rw [h11, h21, h22]

theorem length_eq_iff_subset {α : Type _} {l l' : List α} (h : l.Nodup) (hs : l ⊆ l') (h' : l'.Nodup) :
    l'.length = l.length ↔ l' ⊆ l := by
  constructor
  · intro hl
    exact ((List.subperm_of_subset h hs).perm_of_length_le (by omega)).symm.subset
  · intro hs'
    exact ((List.perm_ext_iff_of_nodup h' h).mpr fun a => ⟨fun x => hs' x, fun x => hs x⟩).length_eq

theorem isPattern_nnz_iff {f s : Sparsity} {r c : Nat} {P : Nat → Nat → Prop} (hf : f.IsPattern r c P)
    (hnd : s.entries.Nodup) (hsub : ∀ i j, s.Has i j → i < r ∧ j < c ∧ P i j) :
    f.nnz = s.nnz ↔ ∀ i j, i < r → j < c → P i j → s.Has i j := by
  obtain ⟨-, -, h3, h4⟩ := hf
  have hs : s.entries ⊆ f.entries := fun e he => (h4 e.row e.col).mpr (hsub _ _ he)
  refine (length_eq_iff_subset hnd hs (sorted_nodup h3)).trans ?_
  constructor
  · intro h i j hi hj hP
    exact h ((h4 i j).mpr ⟨hi, hj, hP⟩)
  · intro h e he
    obtain ⟨h5, h6, h7⟩ := (h4 e.row e.col).mp he
    exact h _ _ h5 h6 h7

theorem isLowerTriangle_iff {s : Sparsity} : isLowerTriangle s = true ↔ ∀ i j, s.Has i j → j < i := by
  unfold isLowerTriangle
  rw [List.all_eq_true]
  constructor
  · intro h i j hij
    have := h _ hij
    simpa using this
  · intro h e he
    have := h e.row e.col he
    simpa using this

theorem isChordalBlocked_sat {s11 s21 s22 : Sparsity}
    (sq1 : s11.numRows = s11.numCols) (sq2 : s22.numRows = s22.numCols) (hc : s21.numCols = s11.numCols)
    (hr : s21.numRows = s22.numRows) (h11 : s11.InRange) (h21 : s21.InRange) (h22 : s22.InRange)
    (d11 : s11.entries.Nodup) (d21 : s21.entries.Nodup) (d22 : s22.entries.Nodup)
    (hn : s11.numRows + s22.numRows ≤ noParent) :
    Sat (isChordalBlocked s11 s21 s22) (fun b => b = true ↔
      (∀ i j, s11.Has i j → j < i) ∧ (∀ i j, s22.Has i j → j < i) ∧
      FillFree (Assembled2 s11.numRows (fun i j => s11.Has i j) (fun i j => s21.Has i j)
        (fun i j => s22.Has i j))) := by
  unfold isChordalBlocked
  rw [pre_true (by simp [isSquare, sq1]), ok_bind, pre_true (by simp [isSquare, sq2]), ok_bind,
    pre_true (by simp [hc]), ok_bind, pre_true (by simp [hr]), ok_bind]
  by_cases hl : isLowerTriangle s11 = true ∧ isLowerTriangle s22 = true
  swap
  · rw [if_pos (by
      by_cases h1 : isLowerTriangle s11 = true
      · by_cases h2 : isLowerTriangle s22 = true
        · exact absurd ⟨h1, h2⟩ hl
        · simp [h2]
      · simp [h1])]
    refine Sat.pure ?_
    simp only [Bool.false_eq_true, false_iff]
    rintro ⟨h1, h2, -⟩
    exact hl ⟨isLowerTriangle_iff.mpr h1, isLowerTriangle_iff.mpr h2⟩
  · rw [if_neg (by simp [hl])]
    have l11 := isLowerTriangle_iff.mp hl.1
    have l22 := isLowerTriangle_iff.mp hl.2
    unfold getFilledInSparsityBlockedId
    refine Sat.bind (getFilledInSparsityBlocked_sat sq1 sq2 hc hr h11 h21 h22 (isPerm_identity _)
      (isPerm_identity _) hn) ?_
    rintro f ⟨g1, g2, g3⟩
    generalize hG : Assembled2 s11.numRows (fun i j => s11.Has i j) (fun i j => s21.Has i j)
        (fun i j => s22.Has i j) = G
    have hF : ∀ i j, Fill (Assembled2 s11.numRows (LowerPermuted s11 (identityPermutation s11.numRows))
        (RectPermuted s21 (identityPermutation s22.numRows) (identityPermutation s11.numRows))
        (LowerPermuted s22 (identityPermutation s22.numRows))) i j ↔ Fill G i j := by
      intro i j
      subst hG
      refine Fill.congr fun a b _ => Assembled2.congr ?_ ?_ ?_ a b
      · intro i j; rw [lowerPermuted_id h11 sq1]; exact ⟨fun h => h.2, fun h => ⟨l11 _ _ h, h⟩⟩
      · intro i j; rw [← hr, sq1, ← hc, rectPermuted_id h21]
      · intro i j; rw [lowerPermuted_id h22 sq2]; exact ⟨fun h => h.2, fun h => ⟨l22 _ _ h, h⟩⟩
    have g1 := g1.congr fun i j _ _ => hF _ _
    have g2 := g2.congr fun i j _ _ => hF _ _
    have g3 := g3.congr fun i j _ _ => hF _ _
    have r11 : ∀ i j, s11.Has i j → i < s11.numRows ∧ j < s11.numCols := fun i j h => h11 _ h
    have r21 : ∀ i j, s21.Has i j → i < s21.numRows ∧ j < s21.numCols := fun i j h => h21 _ h
    have r22 : ∀ i j, s22.Has i j → i < s22.numRows ∧ j < s22.numCols := fun i j h => h22 _ h
    have b11 : ∀ i j, s11.Has i j → G i j := fun i j h => by rw [← hG]; exact Or.inl h
    have b21 : ∀ i j, s21.Has i j → G (s11.numRows + i) j := fun i j h => by
      rw [← hG]
      exact Or.inr (Or.inl ⟨by omega, by rw [Nat.add_sub_cancel_left]; exact h⟩)
    have b22 : ∀ i j, s22.Has i j → G (s11.numRows + i) (s11.numRows + j) := fun i j h => by
      rw [← hG]
      exact Or.inr (Or.inr ⟨by omega, by omega, by rw [Nat.add_sub_cancel_left, Nat.add_sub_cancel_left]; exact h⟩)
    have n1 := isPattern_nnz_iff g1 d11 (fun i j h => ⟨(r11 _ _ h).1, by have := r11 _ _ h; omega,
      .base (b11 _ _ h) (l11 _ _ h)⟩)
    have n2 := isPattern_nnz_iff g2 d21 (fun i j h => by
      have := r21 _ _ h
      exact ⟨by omega, by omega, .base (b21 _ _ h) (by omega)⟩)
    have n3 := isPattern_nnz_iff g3 d22 (fun i j h => by
      have := r22 _ _ h
      exact ⟨by omega, by omega, .base (b22 _ _ h) (by have := l22 _ _ h; omega)⟩)
    refine Sat.pure ?_
    simp only [Bool.and_eq_true, beq_iff_eq]
    rw [n1, n2, n3]
    constructor
    · rintro ⟨⟨m1, m2⟩, m3⟩
      refine ⟨l11, l22, ?_⟩
      intro i j h
      have hlt := h.lt
      have hi : i < s11.numRows + s22.numRows := h.row_bound fun a b hab => by
        rw [← hG] at hab
        rcases hab with h | ⟨h4, h⟩ | ⟨h4, h5, h⟩
        · have := r11 _ _ h; omega
        · have := r21 _ _ h; omega
        · have := r22 _ _ h; omega
      by_cases h1 : i < s11.numRows
      · exact b11 _ _ (m1 i j h1 (by omega) h)
      · have e1 : s11.numRows + (i - s11.numRows) = i := by omega
        by_cases h2 : j < s11.numRows
        · have := b21 _ _ (m2 (i - s11.numRows) j (by omega) h2 (by rw [e1]; exact h))
          rwa [e1] at this
        · have e2 : s11.numRows + (j - s11.numRows) = j := by omega
          have := b22 _ _ (m3 (i - s11.numRows) (j - s11.numRows) (by omega) (by omega) (by rw [e1, e2]; exact h))
          rwa [e1, e2] at this
    · rintro ⟨-, -, hff⟩
      refine ⟨⟨?_, ?_⟩, ?_⟩
      · intro i j hi hj h
        have := hff _ _ h
        rw [← hG] at this
        rcases this with h | ⟨h4, h⟩ | ⟨h4, h5, h⟩
        · exact h
        all_goals omega
      · intro i j hi hj h
        have := hff _ _ h
        rw [← hG] at this
        rcases this with h | ⟨h4, h⟩ | ⟨h4, h5, h⟩
        · have := r11 _ _ h; omega
        · rwa [Nat.add_sub_cancel_left] at h
        · omega
      · intro i j hi hj h
        have := hff _ _ h
        rw [← hG] at this
        rcases this with h | ⟨h4, h⟩ | ⟨h4, h5, h⟩
        · have := r11 _ _ h; omega
        · have := r21 _ _ h; omega
        · rwa [Nat.add_sub_cancel_left, Nat.add_sub_cancel_left] at h

/-! ### Re-wrapping -/

theorem factorizationSparsity_sat {s : Sparsity} {p : List Nat} (hs : s.InRange) (hsq : s.numRows = s.numCols)
    (hp : IsPerm p s.numRows) (hn : s.numRows ≤ noParent) :
    Sat (factorizationSparsity s p) (fun c => c.Ok ∧
      c.toSparsity.IsPattern s.numRows s.numRows (Fill (LowerPermuted s p))) := by
  unfold factorizationSparsity
  rw [staticAssert_true (by simp [isSquare, hsq]), ok_bind]
  refine Sat.bind (getFilledInSparsity_sat hs hsq hp hn) ?_
  intro f hf
  refine ⟨_, toCsr_eq hf.inRange, csrOf_ok hf.inRange, ?_⟩
  rw [csrOf_sorted hf.inRange hf.2.2.1]
  exact hf

theorem factorizationAlreadyPermutedSparsity_sat {s : Sparsity} {p : List Nat} (hs : s.InRange)
    (hsq : s.numRows = s.numCols) (hp : IsPerm p s.numRows) (hn : s.numRows ≤ noParent) :
    Sat (factorizationAlreadyPermutedSparsity s p) (fun c => c.Ok ∧
      c.toSparsity.IsPattern s.numRows s.numRows (Fill fun i j => s.Has i j)) := by
  unfold factorizationAlreadyPermutedSparsity
  obtain ⟨q, hq, hpq⟩ := invertPermutation_sat hp
  rw [hq, ok_bind]
  have hqp := hpq.symm
  rw [getSparsityLowerTriangle_eq hs hsq hqp, ok_bind]
  have hin : (⟨s.numRows, s.numCols, (strictLower s.entries).map (relabelLower p)⟩ : Sparsity).InRange := by
    intro e he
    obtain ⟨e', he', rfl⟩ := List.mem_map.mp he
    have h1 := mem_strictLower.mp he'
    have h2 := hs e' h1.1
    have h3 := hp.lt h2.1
    have h4 := hp.lt (i := e'.col) (by omega)
    simp only [relabelLower]
    omega
  refine Sat.mono (factorizationSparsity_sat (p := p) hin hsq hp hn) ?_
  rintro c ⟨h1, h2⟩
  refine ⟨h1, h2.congr fun i j _ _ => Fill.congr fun a b hlt => ?_⟩
  unfold LowerPermuted
  simp only [hlt, true_and]
  constructor
  · rintro ⟨ha, h⟩
    have pa := hp.lt ha
    have pb := hp.lt (i := b) (by omega)
    obtain ⟨h3, h4⟩ := (mem_relabelLower hs hsq hqp (by omega)).mp h
    have e1 := hpq.qp a ha
    have e2 := hpq.qp b (by omega)
    rcases Nat.le_total (permAt p a) (permAt p b) with hle | hle
    · rw [Nat.max_eq_right hle, Nat.min_eq_left hle, e1, e2, Nat.max_eq_right (by omega),
        Nat.min_eq_left (by omega)] at h4
      exact h4
    · rw [Nat.max_eq_left hle, Nat.min_eq_right hle, e1, e2, Nat.max_eq_left (by omega),
        Nat.min_eq_right (by omega)] at h4
      exact h4
  · intro h
    have hr := hs _ h
    simp only at hr
    have ha := hr.1
    have pa := hp.lt ha
    have pb := hp.lt (i := b) (by omega)
    have hne : permAt p a ≠ permAt p b := fun hh => by have := hp.inj ha (by omega) hh; omega
    have e1 := hpq.qp a ha
    have e2 := hpq.qp b (by omega)
    refine ⟨ha, (mem_relabelLower hs hsq hqp (by omega)).mpr ⟨by omega, ?_⟩⟩
    rcases Nat.le_total (permAt p a) (permAt p b) with hle | hle
    · rw [Nat.max_eq_right hle, Nat.min_eq_left hle, e1, e2, Nat.max_eq_right (by omega),
        Nat.min_eq_left (by omega)]
      exact h
    · rw [Nat.max_eq_left hle, Nat.min_eq_right hle, e1, e2, Nat.max_eq_left (by omega),
        Nat.min_eq_right (by omega)]
      exact h

theorem isPattern_self {s : Sparsity} (hs : s.InRange) (hst : s.Sorted) :
    s.IsPattern s.numRows s.numCols (fun i j => s.Has i j) :=
  ⟨rfl, rfl, hst, fun i j => ⟨fun h => ⟨(hs _ h).1, (hs _ h).2, h⟩, fun h => h.2.2⟩⟩

/-- Re-wrapping a closed pattern changes nothing. -/
theorem factorizationAlreadyPermutedSparsity_closed {s : Sparsity} {p : List Nat} (hs : s.InRange)
    (hst : s.Sorted) (hsq : s.numRows = s.numCols) (hp : IsPerm p s.numRows) (hn : s.numRows ≤ noParent)
    (hlow : ∀ i j, s.Has i j → j < i) (hcl : FillFree fun i j => s.Has i j) :
    Sat (factorizationAlreadyPermutedSparsity s p) (fun c => c.Ok ∧ c.toSparsity = s) := by
  refine Sat.mono (factorizationAlreadyPermutedSparsity_sat hs hsq hp hn) ?_
  rintro c ⟨h1, h2⟩
  refine ⟨h1, Sparsity.IsPattern.unique h2 ?_⟩
  have := isPattern_self hs hst
  rw [← hsq] at this
  exact this.congr fun i j _ _ => ⟨fun h => .base h (hlow _ _ h), fun h => hcl _ _ h⟩

end Ctldl
