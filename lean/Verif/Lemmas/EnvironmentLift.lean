import Verif.Spec.AnyOrder
import Verif.Spec.EnvironmentAdd

/-! # Formulas in any order, with the information which results are too large -/

namespace Ctldl

/-- Numbers which are computed from each other can be replaced, one after the other, by numbers with more information. -/
theorem exists_lift {ι K K' : Type} (rank : ι → Nat) (g : K' → K) (v : ι → K) (v₀ : ι → K') (h₀ : ∀ m, g (v₀ m) = v m)
    (Rel : ι → (ι → K') → K' → Prop)
    (hlocal : ∀ n v₁ v₂ a, (∀ m, rank m < rank n → v₁ m = v₂ m) → Rel n v₁ a → Rel n v₂ a)
    (hstep : ∀ n v', (∀ m, g (v' m) = v m) → ∃ a, g a = v n ∧ Rel n v' a) (N : Nat) :
    ∃ v', (∀ m, g (v' m) = v m) ∧ ∀ n, rank n < N → Rel n v' (v' n) := by
  classical
  induction N with
  | zero => exact ⟨v₀, h₀, fun _ h => absurd h (Nat.not_lt_zero _)⟩
  | succ N ih =>
    obtain ⟨v', h1, h2⟩ := ih
    choose a ha using fun n => hstep n v' h1
    refine ⟨fun n => if rank n = N then a n else v' n, fun m => ?_, fun n hn => ?_⟩
    · dsimp only
      split
      · exact (ha m).1
      · exact h1 m
    · have hl : ∀ m, rank m < rank n → v' m = if rank m = N then a m else v' m := fun m hm => (if_neg (by omega)).symm
      refine hlocal n v' _ _ hl ?_
      by_cases h3 : rank n = N
      · simp only [if_pos h3]
        exact (ha n).2
      · simp only [if_neg h3]
        exact h2 n (by omega)

variable {K : Type}

namespace SumTree

variable {ι : Type}

/-- Only the terms matter. -/
theorem value_congr [Zero K] [Add K] [Sub K] {f f' : ι → K} (t : SumTree ι)
    (h : ∀ sign, ∀ k ∈ t.terms sign, f k = f' k) : t.value f = t.value f' := by
  induction t with
  | zero => rfl
  | term k => exact h true k (List.mem_singleton.mpr rfl)
  | add s t hs ht =>
    rw [value, value, hs fun b k hk => h b k (List.mem_append_left _ hk), ht fun b k hk => h b k (List.mem_append_right _ hk)]
  | sub s t hs ht =>
    rw [value, value, hs fun b k hk => h b k (List.mem_append_left _ hk), ht fun b k hk => h (!b) k (by
      refine List.mem_append_right _ ?_
      rwa [Bool.not_not])]

end SumTree

theorem LeftOver.congr [Zero K] [Add K] [Sub K] {h q : Nat} {a y : K} {ks : List Nat} {f f' : Nat → K}
    (hf : ∀ k ∈ ks, f k = f' k) (H : LeftOver h q a ks f y) : LeftOver h q a ks f' y := by
  obtain ⟨t, h1, h2, h3, h4, h5⟩ := H
  refine ⟨t, h1, h2, h3, h4, h5.trans (t.value_congr fun b k hk => ?_)⟩
  cases b with
  | true =>
    rw [h1, List.mem_singleton] at hk
    rw [hk]
    rfl
  | false =>
    obtain ⟨k', hk', rfl⟩ := List.mem_map.mp (h2.mem_iff.mp hk)
    exact hf k' hk'

namespace Flagged

variable {fmt : Format} {e : Environment}

theorem value_tree {ι : Type} (f : ι → Flagged fmt e) (t : SumTree ι) :
    (t.value f).value = t.value fun k => (f k).value := by
  induction t with
  | zero => rfl
  | term k => rfl
  | add s t hs ht =>
    show (s.value f).value + (t.value f).value = _
    rw [hs, ht]
    rfl
  | sub s t hs ht =>
    show (s.value f).value - (t.value f).value = _
    rw [hs, ht]
    rfl

theorem lift_leftOver {h q : Nat} {a : Flagged fmt e} {ks : List Nat} {f : Nat → Flagged fmt e} {y : Directed fmt e}
    (H : LeftOver h q a.value ks (fun k => (f k).value) y) : ∃ y', y'.value = y ∧ LeftOver h q a ks f y' := by
  obtain ⟨t, h1, h2, h3, h4, h5⟩ := H
  refine ⟨_, ?_, t, h1, h2, h3, h4, rfl⟩
  rw [h5, value_tree]
  congr 1
  funext k
  cases k <;> rfl

theorem lift_quot {one a d : Flagged fmt e} {y : Directed fmt e} (H : QuotientOrReciprocal one.value a.value d.value y) :
    ∃ y', y'.value = y ∧ QuotientOrReciprocal one a d y' := by
  rcases H with rfl | rfl | rfl
  · exact ⟨_, rfl, Or.inl rfl⟩
  · exact ⟨_, rfl, Or.inr (Or.inl rfl)⟩
  · exact ⟨_, rfl, Or.inr (Or.inr rfl)⟩

theorem lift_triple {a b d : Flagged fmt e} {y : Directed fmt e} (H : TripleProduct a.value b.value d.value y) :
    ∃ y', y'.value = y ∧ TripleProduct a b d y' := by
  rcases H with rfl | rfl | rfl | rfl | rfl | rfl
  · exact ⟨_, rfl, Or.inl rfl⟩
  · exact ⟨_, rfl, Or.inr (Or.inl rfl)⟩
  · exact ⟨_, rfl, Or.inr (Or.inr (Or.inl rfl))⟩
  · exact ⟨_, rfl, Or.inr (Or.inr (Or.inr (Or.inl rfl)))⟩
  · exact ⟨_, rfl, Or.inr (Or.inr (Or.inr (Or.inr (Or.inl rfl))))⟩
  · exact ⟨_, rfl, Or.inr (Or.inr (Or.inr (Or.inr (Or.inr rfl))))⟩

theorem lift_product {l w a d : Flagged fmt e} {y : Directed fmt e}
    (H : y = l.value * w.value ∨ y = w.value * l.value ∨ TripleProduct a.value l.value d.value y) :
    ∃ y', y'.value = y ∧ (y' = l * w ∨ y' = w * l ∨ TripleProduct a l d y') := by
  rcases H with rfl | rfl | H
  · exact ⟨_, rfl, Or.inl rfl⟩
  · exact ⟨_, rfl, Or.inr (Or.inl rfl)⟩
  · obtain ⟨y', h1, h2⟩ := lift_triple H
    exact ⟨y', h1, Or.inr (Or.inr h2)⟩

/-- The rank of an entry: entries are computed row by row. -/
private def rank (n : Nat) : Bool × Nat × Nat → Nat
  | (false, i, j) => 2 * (i * (n + 1) + j)
  | (true, i, j) => 2 * (i * (n + 1) + j) + 1

private theorem rank_row {n i j k : Nat} (h : k < j) : ∀ b b', rank n (b, i, k) < rank n (b', i, j) := by
  intro b b'
  cases b <;> cases b' <;> simp only [rank] <;> omega

private theorem rank_above {n i j k l : Nat} (h : j < i) (hk : k ≤ n) : ∀ b b', rank n (b, j, k) < rank n (b', i, l) := by
  intro b b'
  have := Nat.mul_le_mul_right (n + 1) (Nat.succ_le_of_lt h)
  rw [Nat.succ_mul] at this
  cases b <;> cases b' <;> simp only [rank] <;> omega

/-- Factors come from factors with the information which results are too large. -/
theorem lift_formulas {one : Directed fmt e} {P : Nat → Nat → Prop} {n h q : Nat} {A L : Nat → Nat → Directed fmt e}
    {D : Nat → Directed fmt e} {reg : Directed fmt e → Nat → Directed fmt e} (hP : ∀ i j, P i j → j < i)
    (hL0 : ∀ i j, ¬ P i j → L i j = 0) (H : FormulasWith (QuotientOrReciprocal one) P n h q A L D reg) :
    ∃ (L' : Nat → Nat → Flagged fmt e) (D' : Nat → Flagged fmt e), (∀ i j, (L' i j).value = L i j) ∧
      (∀ i < n, (D' i).value = D i) ∧ (∀ i j, ¬ P i j → L' i j = 0) ∧
      FormulasWith (QuotientOrReciprocal (given one)) P n h q (fun i j => given (A i j)) L' D' (lift reg) := by
  classical
  choose! w hw using H
  obtain ⟨v, h1, h2⟩ := exists_lift (rank n) Flagged.value (fun m : Bool × Nat × Nat => if m.1 then L m.2.1 m.2.2 else w m.2.1 m.2.2)
    (fun m => given (if m.1 then L m.2.1 m.2.2 else w m.2.1 m.2.2)) (fun _ => rfl)
    (fun m v a =>
      if m.1 then m.2.1 < n → P m.2.1 m.2.2 →
        QuotientOrReciprocal (given one) (v (false, m.2.1, m.2.2)) (lift reg (v (false, m.2.2, m.2.2)) m.2.2) a
      else m.2.1 < n → P m.2.1 m.2.2 ∨ m.2.2 = m.2.1 → ∃ f : Nat → Flagged fmt e,
        (∀ k, P m.2.1 k → P m.2.2 k → f k = v (true, m.2.2, k) * v (false, m.2.1, k) ∨
          f k = v (false, m.2.1, k) * v (true, m.2.2, k) ∨
          TripleProduct (v (true, m.2.1, k)) (v (true, m.2.2, k)) (lift reg (v (false, k, k)) k) (f k)) ∧
        LeftOver h q (given (A m.2.1 m.2.2)) (commonEntriesOf P m.2.1 m.2.2) f a)
    (by
      rintro ⟨b, i, j⟩ v₁ v₂ a hv
      cases b with
      | true =>
        intro H (hi : i < n) (hij : P i j)
        have h3 := H hi hij
        rwa [hv (false, i, j) (by simp only [rank]; omega), hv (false, j, j) (rank_above (hP i j hij) (by have := hP i j hij; omega) _ _)]
          at h3
      | false =>
        intro H (hi : i < n) (hij : P i j ∨ j = i)
        obtain ⟨f, h3, h4⟩ := H hi hij
        refine ⟨f, fun k hk hk' => ?_, h4⟩
        have hkj := hP j k hk'
        have hji : j ≤ i := hij.elim (fun h => (hP i j h).le) le_of_eq
        have hki := hP i k hk
        have e1 : v₁ (true, j, k) = v₂ (true, j, k) := by
          refine hv _ ?_
          rcases hji.lt_or_eq with h | rfl
          · exact rank_above h (by omega) _ _
          · exact rank_row hkj _ _
        have h5 := h3 k hk hk'
        rwa [e1, hv (false, i, k) (rank_row hkj _ _), hv (true, i, k) (rank_row hkj _ _),
          hv (false, k, k) (rank_above hki (by omega) _ _)] at h5)
    (by
      rintro ⟨b, i, j⟩ v hv
      have hvw : ∀ i j, (v (false, i, j)).value = w i j := fun i j => hv (false, i, j)
      have hvl : ∀ i j, (v (true, i, j)).value = L i j := fun i j => hv (true, i, j)
      have hvd : ∀ i, i < n → (lift reg (v (false, i, i)) i).value = D i := fun i hi => by
        rw [(hw i hi).2.2, ← hvw]
        rfl
      cases b with
      | true =>
        by_cases hc : i < n ∧ P i j
        · have h3 := (hw i hc.1).2.1 j hc.2
          rw [← hvw, ← hvd j ((hP i j hc.2).trans hc.1)] at h3
          obtain ⟨y, h4, h5⟩ := lift_quot (one := given one) h3
          exact ⟨y, h4, fun _ _ => h5⟩
        · exact ⟨given (L i j), rfl, fun hi hij => absurd ⟨hi, hij⟩ hc⟩
      | false =>
        by_cases hc : i < n ∧ (P i j ∨ j = i)
        · obtain ⟨f, h3, h4⟩ := (hw i hc.1).1 j hc.2
          have h5 : ∀ k, ∃ y : Flagged fmt e, y.value = f k ∧ (P i k → P j k → y = v (true, j, k) * v (false, i, k) ∨
              y = v (false, i, k) * v (true, j, k) ∨
              TripleProduct (v (true, i, k)) (v (true, j, k)) (lift reg (v (false, k, k)) k) y) := fun k => by
            by_cases hk : P i k ∧ P j k
            · have h6 := h3 k hk.1 hk.2
              rw [← hvw, ← hvl, ← hvl, ← hvd k ((hP i k hk.1).trans hc.1)] at h6
              obtain ⟨y, h7, h8⟩ := lift_product h6
              exact ⟨y, h7, fun _ _ => h8⟩
            · exact ⟨given (f k), rfl, fun h h' => absurd ⟨h, h'⟩ hk⟩
          choose f' hf' using h5
          have h6 : LeftOver h q (given (A i j)).value (commonEntriesOf P i j) (fun k => (f' k).value) (w i j) := by
            simp only [fun k => (hf' k).1]
            exact h4
          obtain ⟨y, h7, h8⟩ := lift_leftOver h6
          exact ⟨y, h7, fun _ _ => ⟨f', fun k => (hf' k).2, h8⟩⟩
        · exact ⟨given (w i j), rfl, fun hi hij => absurd ⟨hi, hij⟩ hc⟩)
    (rank n (true, n, n) + 1)
  have hvw : ∀ i j, (v (false, i, j)).value = w i j := fun i j => h1 (false, i, j)
  have hvl : ∀ i j, (v (true, i, j)).value = L i j := fun i j => h1 (true, i, j)
  have hrank : ∀ b i j, i < n → j ≤ n → rank n (b, i, j) < rank n (true, n, n) + 1 := fun b i j hi hj =>
    (rank_above hi hj _ _).trans (Nat.lt_succ_self _)
  have eL : ∀ i j, P i j → (if P i j then v (true, i, j) else 0) = v (true, i, j) := fun i j h => if_pos h
  refine ⟨fun i j => if P i j then v (true, i, j) else 0, fun i => lift reg (v (false, i, i)) i, fun i j => ?_, fun i hi => ?_,
    fun i j hn => if_neg hn, fun i hi => ⟨fun j => v (false, i, j), fun j hj => ?_, fun j hj => ?_, rfl⟩⟩
  · dsimp only
    split
    · exact hvl i j
    · next hn => exact (hL0 i j hn).symm
  · rw [(hw i hi).2.2, ← hvw]
    rfl
  · have hji : j ≤ i := hj.elim (fun h => (hP i j h).le) le_of_eq
    obtain ⟨f, h3, h4⟩ := h2 (false, i, j) (hrank _ _ _ hi (by omega)) hi hj
    refine ⟨f, fun k hk hk' => ?_, h4⟩
    beta_reduce
    rw [eL j k hk', eL i k hk]
    exact h3 k hk hk'
  · have := hP i j hj
    beta_reduce
    rw [eL i j hj]
    exact h2 (true, i, j) (hrank _ _ _ hi (by omega)) hi hj

/-- The stages of solving. -/
private inductive Stage where
  | forward
  | diagonal
  | backward

/-- The rank of an entry when solving. -/
private def solveRank (n : Nat) : Stage × Nat → Nat
  | (.forward, i) => i
  | (.diagonal, _) => n
  | (.backward, i) => 2 * n + 1 - i

/-- The numbers when solving. -/
private def solveValue {K : Type} (y z x : Nat → K) : Stage × Nat → K
  | (.forward, i) => y i
  | (.diagonal, i) => z i
  | (.backward, i) => x i

/-- Solutions come from solutions with the information which results are too large. -/
theorem lift_solve {one : Directed fmt e} {P : Nat → Nat → Prop} {n h q h' q' : Nat} {L' : Nat → Nat → Flagged fmt e}
    {D' : Nat → Flagged fmt e} {L : Nat → Nat → Directed fmt e} {D b x : Nat → Directed fmt e} (hP : ∀ i j, P i j → j < i)
    (hL : ∀ i j, (L' i j).value = L i j) (hD : ∀ i < n, (D' i).value = D i)
    (H : SolveWith (QuotientOrReciprocal one) P n h q h' q' L D b x) :
    ∃ x' : Nat → Flagged fmt e, (∀ i, (x' i).value = x i) ∧
      SolveWith (QuotientOrReciprocal (given one)) P n h q h' q' L' D' (fun i => given (b i)) x' := by
  classical
  obtain ⟨y, z, hy, hz, hx⟩ := H
  obtain ⟨v, h1, h2⟩ := exists_lift (solveRank n) Flagged.value (solveValue y z x)
    (fun m => given (solveValue y z x m)) (fun _ => rfl)
    (fun m v a => m.2 < n → match m.1 with
      | .forward => LeftOver h q (given (b m.2)) (rowEntriesOf P m.2) (fun j => L' m.2 j * v (.forward, j)) a
      | .diagonal => QuotientOrReciprocal (given one) (v (.forward, m.2)) (D' m.2) a
      | .backward => LeftOver h' q' (v (.diagonal, m.2)) (columnEntriesOf P n m.2) (fun k => L' k m.2 * v (.backward, k)) a)
    (by
      rintro ⟨st, i⟩ v₁ v₂ a hv H (hi : i < n)
      cases st with
      | forward =>
        refine (H hi).congr fun j hj => ?_
        have hj : j < i ∧ P i j := by simpa [rowEntriesOf] using hj
        rw [hv (.forward, j) hj.1]
      | diagonal =>
        have h3 := H hi
        dsimp only at h3 ⊢
        rwa [hv (.forward, i) hi] at h3
      | backward =>
        have h3 := H hi
        dsimp only at h3 ⊢
        rw [hv (.diagonal, i) (by simp only [solveRank]; omega)] at h3
        refine h3.congr fun k hk => ?_
        have hk : k < n ∧ P k i := by simpa [columnEntriesOf] using hk
        have := hP k i hk.2
        rw [hv (.backward, k) (by simp only [solveRank]; omega)])
    (by
      rintro ⟨st, i⟩ v hv
      have hvy : ∀ i, (v (.forward, i)).value = y i := fun i => hv (.forward, i)
      have hvz : ∀ i, (v (.diagonal, i)).value = z i := fun i => hv (.diagonal, i)
      have hvx : ∀ i, (v (.backward, i)).value = x i := fun i => hv (.backward, i)
      by_cases hi : i < n
      · cases st with
        | forward =>
          have h3 : LeftOver h q (given (b i)).value (rowEntriesOf P i) (fun j => (L' i j * v (.forward, j)).value) (y i) := by
            have e : (fun j => (L' i j * v (.forward, j)).value) = fun j => L i j * y j := by
              funext j
              rw [← hL, ← hvy]
              rfl
            rw [e]
            exact hy i hi
          obtain ⟨a, h4, h5⟩ := lift_leftOver h3
          exact ⟨a, h4, fun _ => h5⟩
        | diagonal =>
          have h3 := hz i hi
          rw [← hvy, ← hD i hi] at h3
          obtain ⟨a, h4, h5⟩ := lift_quot (one := given one) h3
          exact ⟨a, h4, fun _ => h5⟩
        | backward =>
          have h3 : LeftOver h' q' (v (.diagonal, i)).value (columnEntriesOf P n i)
              (fun k => (L' k i * v (.backward, k)).value) (x i) := by
            have e : (fun k => (L' k i * v (.backward, k)).value) = fun k => L k i * x k := by
              funext k
              rw [← hL, ← hvx]
              rfl
            rw [e, hvz]
            exact hx i hi
          obtain ⟨a, h4, h5⟩ := lift_leftOver h3
          exact ⟨a, h4, fun _ => h5⟩
      · exact ⟨given (solveValue y z x (st, i)), rfl, fun h => absurd h hi⟩)
    (2 * n + 2)
  refine ⟨fun i => v (.backward, i), fun i => h1 (.backward, i), fun i => v (.forward, i), fun i => v (.diagonal, i),
    fun i hi => ?_, fun i hi => ?_, fun i hi => ?_⟩
  · exact h2 (.forward, i) (by simp only [solveRank]; omega) hi
  · exact h2 (.diagonal, i) (by simp only [solveRank]; omega) hi
  · exact h2 (.backward, i) (by simp only [solveRank]; omega) hi

end Flagged

end Ctldl
