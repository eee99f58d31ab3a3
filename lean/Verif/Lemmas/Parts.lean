import Verif.Spec.Parts
import Verif.Spec.Textbook
import Verif.Lemmas.Placed

/-! # Rows of one matrix which are rows of another one: the formulas give the same results -/

namespace Ctldl

variable {K : Type}

private theorem mem_row {P : Nat → Nat → Prop} {i j : Nat} : j ∈ rowEntriesOf P i ↔ j < i ∧ P i j := by
  simp [rowEntriesOf]

private theorem mem_common {P : Nat → Nat → Prop} {i j k : Nat} : k ∈ commonEntriesOf P i j ↔ k < j ∧ P i k ∧ P j k := by
  simp [commonEntriesOf]

private theorem mem_column {P : Nat → Nat → Prop} {n i j : Nat} : i ∈ columnEntriesOf P n j ↔ i < n ∧ P i j := by
  simp [columnEntriesOf]

private theorem row_sorted (P : Nat → Nat → Prop) (i : Nat) : (rowEntriesOf P i).Pairwise (· < ·) := by
  classical
  exact (List.pairwise_lt_range).filter _

private theorem common_sorted (P : Nat → Nat → Prop) (i j : Nat) : (commonEntriesOf P i j).Pairwise (· < ·) := by
  classical
  exact (List.pairwise_lt_range).filter _

private theorem column_sorted (P : Nat → Nat → Prop) (n j : Nat) : (columnEntriesOf P n j).Pairwise (· > ·) := by
  classical
  unfold columnEntriesOf
  rw [List.pairwise_reverse]
  exact (List.pairwise_lt_range).filter _

/-- The pivots `S` and entries `E` of one factor are pivots and entries of another one, and computed from such ones only. -/
structure Embedded (P : Nat → Nat → Prop) (n : Nat) (P' : Nat → Nat → Prop) (n' : Nat) (S : Nat → Prop)
    (E : Nat → Nat → Prop) (φ : Nat → Nat) : Prop where
  pivot : ∀ i, S i → i < n ∧ φ i < n'
  entry : ∀ i j, E i j → i < n ∧ φ i < n' ∧ P i j ∧ P' (φ i) (φ j) ∧ S j
  common : ∀ i j, E i j → commonEntriesOf P' (φ i) (φ j) = (commonEntriesOf P i j).map φ ∧
    ∀ k, k < j → P i k → P j k → E i k ∧ E j k
  row : ∀ i, S i → rowEntriesOf P' (φ i) = (rowEntriesOf P i).map φ ∧ ∀ k, P i k → E i k

section

variable {P : Nat → Nat → Prop} {n : Nat} {P' : Nat → Nat → Prop} {n' : Nat} {S : Nat → Prop}
    {E : Nat → Nat → Prop} {φ : Nat → Nat}

/-- Entries of a row up to some column. -/
theorem Embedded.of_entries (hP : ∀ i j, P i j → j < i) (hP' : ∀ i j, P' i j → j < i) (hS : ∀ i, S i → i < n ∧ φ i < n')
    (hmono : ∀ i j, S i → S j → i < j → φ i < φ j)
    (hE : ∀ i j, E i j → i < n ∧ φ i < n' ∧ P i j ∧ S j)
    (hEk : ∀ i j, E i j → ∀ k, k < j → P i k → P j k → E i k ∧ E j k)
    (hSE : ∀ i, S i → ∀ k, P i k → E i k)
    (hto : ∀ i j, E i j → P' (φ i) (φ j))
    (hfrom : ∀ i j, E i j → ∀ k, k < φ j → P' (φ i) k → P' (φ j) k → ∃ a, P i a ∧ P j a ∧ S a ∧ φ a = k)
    (hrow : ∀ i, S i → ∀ k, P' (φ i) k → ∃ a, P i a ∧ S a ∧ φ a = k) : Embedded P n P' n' S E φ where
  pivot := hS
  entry i j h := ⟨(hE i j h).1, (hE i j h).2.1, (hE i j h).2.2.1, hto i j h, (hE i j h).2.2.2⟩
  common i j h := by
    refine ⟨ascending_ext (common_sorted _ _ _) ?_ fun k => ?_, hEk i j h⟩
    · rw [List.pairwise_map]
      refine (common_sorted P i j).imp_of_mem fun {a b} ha hb hab => ?_
      obtain ⟨a1, a2, a3⟩ := mem_common.mp ha
      obtain ⟨b1, b2, b3⟩ := mem_common.mp hb
      exact hmono a b (hE _ _ (hEk i j h a a1 a2 a3).1).2.2.2 (hE _ _ (hEk i j h b b1 b2 b3).1).2.2.2 hab
    · rw [mem_common, List.mem_map]
      constructor
      · rintro ⟨h1, h2, h3⟩
        obtain ⟨a, a1, a2, a3, rfl⟩ := hfrom i j h k h1 h2 h3
        exact ⟨a, mem_common.mpr ⟨hP _ _ a2, a1, a2⟩, rfl⟩
      · rintro ⟨a, ha, rfl⟩
        obtain ⟨a1, a2, a3⟩ := mem_common.mp ha
        obtain ⟨e1, e2⟩ := hEk i j h a a1 a2 a3
        exact ⟨hP' _ _ (hto _ _ e2), hto _ _ e1, hto _ _ e2⟩
  row i h := by
    refine ⟨ascending_ext (row_sorted _ _) ?_ fun k => ?_, hSE i h⟩
    · rw [List.pairwise_map]
      refine (row_sorted P i).imp_of_mem fun {a b} ha hb hab => ?_
      exact hmono a b (hE _ _ (hSE i h a (mem_row.mp ha).2)).2.2.2 (hE _ _ (hSE i h b (mem_row.mp hb).2)).2.2.2 hab
    · rw [mem_row, List.mem_map]
      constructor
      · rintro ⟨h1, h2⟩
        obtain ⟨a, a1, a2, rfl⟩ := hrow i h k h2
        exact ⟨a, mem_row.mpr ⟨hP _ _ a1, a1⟩, rfl⟩
      · rintro ⟨a, ha, rfl⟩
        have := hto _ _ (hSE i h a (mem_row.mp ha).2)
        exact ⟨hP' _ _ this, this⟩

/-- Whole rows. -/
theorem Embedded.of_rows (hP : ∀ i j, P i j → j < i) (hP' : ∀ i j, P' i j → j < i) (hS : ∀ i, S i → i < n ∧ φ i < n')
    (hmono : ∀ i j, S i → S j → i < j → φ i < φ j) (hclosed : ∀ i j, S i → P i j → S j)
    (hrow : ∀ i, S i → ∀ k, P' (φ i) k ↔ ∃ j, P i j ∧ φ j = k) :
    Embedded P n P' n' S (fun i j => S i ∧ P i j) φ := by
  have hinj : ∀ i j, S i → S j → φ i = φ j → i = j := by
    intro i j hi hj h
    rcases Nat.lt_trichotomy i j with h' | h' | h'
    · have := hmono i j hi hj h'
      omega
    · exact h'
    · have := hmono j i hj hi h'
      omega
  refine .of_entries hP hP' hS hmono (fun i j h => ⟨(hS i h.1).1, (hS i h.1).2, h.2, hclosed i j h.1 h.2⟩)
    (fun i j h k _ h1 h2 => ⟨⟨h.1, h1⟩, hclosed i j h.1 h.2, h2⟩) (fun i h k hk => ⟨h, hk⟩)
    (fun i j h => (hrow i h.1 _).mpr ⟨j, h.2, rfl⟩) (fun i j h k _ h1 h2 => ?_)
    (fun i h k hk => ?_)
  · obtain ⟨a, a1, rfl⟩ := (hrow i h.1 k).mp h1
    have hj := hclosed i j h.1 h.2
    obtain ⟨b, b1, h3⟩ := (hrow j hj _).mp h2
    obtain rfl := hinj _ _ (hclosed _ _ hj b1) (hclosed _ _ h.1 a1) h3
    exact ⟨b, a1, b1, hclosed _ _ h.1 a1, rfl⟩
  · obtain ⟨a, a1, rfl⟩ := (hrow i h k).mp hk
    exact ⟨a, a1, hclosed _ _ h a1, rfl⟩

variable [Sub K] [Mul K] [Div K]

/-- Pivots and entries are the same. -/
theorem Embedded.same (hM : Embedded P n P' n' S E φ) (hP : ∀ i j, P i j → j < i) {c o c' o' : Nat}
    {A L A' L' : Nat → Nat → K} {D D' : Nat → K} {reg reg' : K → Nat → K}
    (h : EntryWiseOuterFormulas P n c o A L D reg) (h' : EntryWiseOuterFormulas P' n' c' o' A' L' D' reg')
    (hswitch : ∀ i k, E i k → ((o ≤ i ∧ k < c) ↔ (o' ≤ φ i ∧ φ k < c')))
    (hA : ∀ i j, E i j → A' (φ i) (φ j) = A i j) (hD : ∀ i, S i → A' (φ i) (φ i) = A i i)
    (hreg : ∀ i, S i → ∀ x, reg' x (φ i) = reg x i) :
    (∀ i j, E i j → L' (φ i) (φ j) = L i j) ∧ ∀ i, S i → D' (φ i) = D i := by
  have key : ∀ i, (∀ j, E i j → L' (φ i) (φ j) = L i j) ∧ (S i → D' (φ i) = D i) := by
    intro i
    induction i using Nat.strong_induction_on with
    | _ i ih =>
      have hw : ∀ w w' : Nat → K, i < n →
          (∀ j, P i j → w j = subtractInOrder (A i j) ((commonEntriesOf P i j).map fun k =>
            if o ≤ i ∧ k < c then L j k * w k else L i k * L j k * D k)) →
          (∀ j, P i j → L i j = w j / D j) →
          (∀ j, P' (φ i) j → w' j = subtractInOrder (A' (φ i) j) ((commonEntriesOf P' (φ i) j).map fun k =>
            if o' ≤ φ i ∧ k < c' then L' j k * w' k else L' (φ i) k * L' j k * D' k)) →
          (∀ j, P' (φ i) j → L' (φ i) j = w' j / D' j) →
          ∀ j, E i j → w' (φ j) = w j ∧ L' (φ i) (φ j) = L i j := by
        intro w w' hi h1 h2 h1' h2' j
        induction j using Nat.strong_induction_on with
        | _ j ihj =>
          intro hj
          obtain ⟨-, -, p1, p2, p3⟩ := hM.entry i j hj
          have hji := hP i j p1
          have hd : D' (φ j) = D j := (ih j hji).2 p3
          obtain ⟨c1, c2⟩ := hM.common i j hj
          have hw : w' (φ j) = w j := by
            rw [h1 j p1, h1' _ p2, hA i j hj, c1, List.map_map]
            congr 1
            refine List.map_congr_left fun k hk => ?_
            obtain ⟨k1, k2, k3⟩ := mem_common.mp hk
            obtain ⟨e1, e2⟩ := c2 k k1 k2 k3
            obtain ⟨i1, i2⟩ := ihj k k1 e1
            have i3 := (ih j hji).1 k e2
            have i4 := (ih k (by omega)).2 (hM.entry i k e1).2.2.2.2
            simp only [Function.comp_apply, ← hswitch i k e1, i1, i2, i3, i4]
          exact ⟨hw, by rw [h2 j p1, h2' _ p2, hw, hd]⟩
      refine ⟨fun j hj => ?_, fun hi => ?_⟩
      · obtain ⟨hi, hi', -⟩ := hM.entry i j hj
        obtain ⟨w, h1, h2, -⟩ := h i hi
        obtain ⟨w', h1', h2', -⟩ := h' (φ i) hi'
        exact (hw w w' hi h1 h2 h1' h2' j hj).2
      · obtain ⟨w, h1, h2, h3⟩ := h i (hM.pivot i hi).1
        obtain ⟨w', h1', h2', h3'⟩ := h' (φ i) (hM.pivot i hi).2
        obtain ⟨r1, r2⟩ := hM.row i hi
        rw [h3, h3', hreg i hi, hD i hi, r1, List.map_map]
        congr 2
        refine List.map_congr_left fun k hk => ?_
        obtain ⟨k1, k2⟩ := mem_row.mp hk
        have e1 := r2 k k2
        obtain ⟨i1, i2⟩ := hw w w' (hM.pivot i hi).1 h1 h2 h1' h2' k e1
        have i4 := (ih k k1).2 (hM.entry i k e1).2.2.2.2
        simp only [Function.comp_apply, ← hswitch i k e1, i1, i2, i4]
  exact ⟨fun i => (key i).1, fun i => (key i).2⟩

/-- The formulas of both methods are special cases. -/
theorem upLooking_mixed {A L : Nat → Nat → K} {D : Nat → K} {reg : K → Nat → K} (hP : ∀ i j, P i j → j < i)
    (h : UpLookingFormulas P n A L D reg) : EntryWiseOuterFormulas P n n 0 A L D reg := by
  intro i hi
  obtain ⟨w, h1, h2, h3⟩ := h i hi
  refine ⟨w, fun j hj => ?_, h2, ?_⟩
  · rw [h1 j hj]
    congr 1
    refine List.map_congr_left fun k hk => ?_
    have := mem_common.mp hk
    have := hP _ _ this.2.1
    rw [if_pos (by omega)]
  · rw [h3]
    congr 2
    refine List.map_congr_left fun k hk => ?_
    have := mem_row.mp hk
    rw [if_pos (by omega)]

theorem entryWise_mixed {A L : Nat → Nat → K} {D : Nat → K} {reg : K → Nat → K}
    (h : EntryWiseFormulas P n A L D reg) : EntryWiseOuterFormulas P n 0 n A L D reg := by
  intro i hi
  obtain ⟨h1, h2⟩ := h i hi
  have hno : ∀ k, ¬ (n ≤ i ∧ k < 0) := fun k h => by omega
  refine ⟨fun j => subtractInOrder (A i j) ((commonEntriesOf P i j).map fun k => L i k * L j k * D k), fun j hj => ?_, h1, ?_⟩
  · simp only [if_neg (hno _)]
  · simp only [if_neg (hno _)]
    exact h2

/-- The same for a method. -/
theorem Embedded.same_method (hM : Embedded P n P' n' S E φ) (hP : ∀ i j, P i j → j < i) (hP' : ∀ i j, P' i j → j < i)
    {A L A' L' : Nat → Nat → K} {D D' : Nat → K} {reg reg' : K → Nat → K} {method : Method}
    (h : FactorFormulas method P n A L D reg) (h' : FactorFormulas method P' n' A' L' D' reg')
    (hA : ∀ i j, E i j → A' (φ i) (φ j) = A i j) (hD : ∀ i, S i → A' (φ i) (φ i) = A i i)
    (hreg : ∀ i, S i → ∀ x, reg' x (φ i) = reg x i) :
    (∀ i j, E i j → L' (φ i) (φ j) = L i j) ∧ ∀ i, S i → D' (φ i) = D i := by
  cases method with
  | upLooking =>
    refine hM.same hP (upLooking_mixed hP h) (upLooking_mixed hP' h') (fun i k e => ?_) hA hD hreg
    obtain ⟨e1, e2, e3, e4, -⟩ := hM.entry i k e
    have := hP _ _ e3
    have := hP' _ _ e4
    exact iff_of_true (by omega) (by omega)
  | entryWise =>
    refine hM.same hP (entryWise_mixed h) (entryWise_mixed h') (fun i k e => ?_) hA hD hreg
    exact iff_of_false (by omega) (by omega)

/-- The solution is the same, if the unknowns are not coupled with others. -/
theorem Embedded.same_solution (hM : Embedded P n P' n' S E φ) (hP : ∀ i j, P i j → j < i)
    (hmono : ∀ i j, S i → S j → i < j → φ i < φ j)
    (hclosed : ∀ i j, S i → P j i → j < n ∧ S j) (hcol : ∀ i, S i → ∀ k, k < n' → (P' k (φ i) ↔ ∃ j, P j i ∧ φ j = k))
    {L L' : Nat → Nat → K} {D D' b b' x x' : Nat → K}
    (h : SolveFormulas P n L D b x) (h' : SolveFormulas P' n' L' D' b' x')
    (hL : ∀ i j, E i j → L' (φ i) (φ j) = L i j) (hD : ∀ i, S i → D' (φ i) = D i) (hb : ∀ i, S i → b' (φ i) = b i) :
    ∀ i, S i → x' (φ i) = x i := by
  obtain ⟨y, h1, h2⟩ := h
  obtain ⟨y', h1', h2'⟩ := h'
  have hy : ∀ i, S i → y' (φ i) = y i := by
    intro i
    induction i using Nat.strong_induction_on with
    | _ i ih =>
      intro hi
      obtain ⟨r1, r2⟩ := hM.row i hi
      rw [h1 i (hM.pivot i hi).1, h1' _ (hM.pivot i hi).2, hb i hi, r1, List.map_map]
      congr 1
      refine List.map_congr_left fun k hk => ?_
      obtain ⟨k1, k2⟩ := mem_row.mp hk
      have e1 := r2 k k2
      simp only [Function.comp_apply, hL i k e1, ih k k1 (hM.entry i k e1).2.2.2.2]
  have hx : ∀ m i, S i → n - i = m → x' (φ i) = x i := by
    intro m
    induction m using Nat.strong_induction_on with
    | _ m ih =>
      intro i hi hm
      have hlist : columnEntriesOf P' n' (φ i) = (columnEntriesOf P n i).map φ := by
        refine descending_ext (column_sorted _ _ _) ?_ fun k => ?_
        · rw [List.pairwise_map]
          refine (column_sorted P n i).imp_of_mem fun {a b} ha hb hab => ?_
          exact hmono b a (hclosed i b hi (mem_column.mp hb).2).2 (hclosed i a hi (mem_column.mp ha).2).2 hab
        · rw [mem_column, List.mem_map]
          constructor
          · rintro ⟨k1, k2⟩
            obtain ⟨j, j1, rfl⟩ := (hcol i hi k k1).mp k2
            exact ⟨j, mem_column.mpr ⟨(hclosed i j hi j1).1, j1⟩, rfl⟩
          · rintro ⟨j, hj, rfl⟩
            have hj := (mem_column.mp hj).2
            have hj' := (hM.pivot j (hclosed i j hi hj).2).2
            exact ⟨hj', (hcol i hi _ hj').mpr ⟨j, hj, rfl⟩⟩
      rw [h2 i (hM.pivot i hi).1, h2' _ (hM.pivot i hi).2, hy i hi, hD i hi, hlist, List.map_map]
      congr 1
      refine List.map_congr_left fun k hk => ?_
      obtain ⟨k1, k2⟩ := mem_column.mp hk
      have hk := (hclosed i k hi k2).2
      have := hP _ _ k2
      have e1 := (hM.row k hk).2 i k2
      simp only [Function.comp_apply, hL k i e1, ih (n - k) (by omega) k hk rfl]
  exact fun i hi => hx _ i hi rfl

end

/-- Fill-in of a part which is not coupled with the rest. -/
theorem fill_part {G G' : Nat → Nat → Prop} {S : Nat → Prop} {φ : Nat → Nat}
    (hmono : ∀ i j, S i → S j → i < j → φ i < φ j)
    (hrow : ∀ i, S i → ∀ k, G' (φ i) k → ∃ j, S j ∧ G i j ∧ φ j = k)
    (hcol : ∀ j, S j → ∀ k, G' k (φ j) → ∃ i, S i ∧ G i j ∧ φ i = k)
    {x y : Nat} (h : Fill G' x y) : ((∃ i, S i ∧ φ i = x) ∨ ∃ j, S j ∧ φ j = y) →
      ∃ i j, S i ∧ S j ∧ φ i = x ∧ φ j = y ∧ Fill G i j := by
  have hinj : ∀ i j, S i → S j → φ i = φ j → i = j := by
    intro i j hi hj h
    rcases Nat.lt_trichotomy i j with h' | h' | h'
    · have := hmono i j hi hj h'
      omega
    · exact h'
    · have := hmono j i hj hi h'
      omega
  have hrefl : ∀ i j, S i → S j → φ i < φ j → i < j := by
    intro i j hi hj h
    by_contra h'
    rcases Nat.lt_or_eq_of_le (Nat.le_of_not_lt h') with h' | rfl
    · have := hmono j i hj hi h'
      omega
    · omega
  induction h with
  | @base x y hG hlt =>
    rintro (⟨i, hi, rfl⟩ | ⟨j, hj, rfl⟩)
    · obtain ⟨j, hj, hG', rfl⟩ := hrow i hi y hG
      exact ⟨i, j, hi, hj, rfl, rfl, .base hG' (hrefl _ _ hj hi hlt)⟩
    · obtain ⟨i, hi, hG', rfl⟩ := hcol j hj x hG
      exact ⟨i, j, hi, hj, rfl, rfl, .base hG' (hrefl _ _ hj hi hlt)⟩
  | @step x z k _ _ hlt ih1 ih2 =>
    rintro (hx | hk)
    · obtain ⟨i, j, hi, hj, rfl, rfl, h1⟩ := ih1 (.inl hx)
      obtain ⟨k', j', hk', hj', rfl, h3, h2⟩ := ih2 (.inr ⟨j, hj, rfl⟩)
      obtain rfl := hinj _ _ hj' hj h3
      exact ⟨i, k', hi, hk', rfl, rfl, .step h1 h2 (hrefl _ _ hk' hi hlt)⟩
    · obtain ⟨k', j, hk', hj, rfl, rfl, h2⟩ := ih2 (.inl hk)
      obtain ⟨i, j', hi, hj', rfl, h3, h1⟩ := ih1 (.inr ⟨j, hj, rfl⟩)
      obtain rfl := hinj _ _ hj' hj h3
      exact ⟨i, k', hi, hk', rfl, rfl, .step h1 h2 (hrefl _ _ hk' hi hlt)⟩

/-- The part is closed, and its fill-in is there in the other matrix. -/
theorem fill_part_to {G G' : Nat → Nat → Prop} {S : Nat → Prop} {φ : Nat → Nat}
    (hmono : ∀ i j, S i → S j → i < j → φ i < φ j)
    (hclosed : ∀ i j, G i j → (S i ∨ S j) → S i ∧ S j ∧ G' (φ i) (φ j))
    {i j : Nat} (h : Fill G i j) : (S i ∨ S j) → S i ∧ S j ∧ Fill G' (φ i) (φ j) := by
  induction h with
  | @base x y hG hlt =>
    intro h
    obtain ⟨h1, h2, h3⟩ := hclosed x y hG h
    exact ⟨h1, h2, .base h3 (hmono _ _ h2 h1 hlt)⟩
  | @step x z k _ _ hlt ih1 ih2 =>
    rintro (hx | hk)
    · obtain ⟨h1, h2, h3⟩ := ih1 (.inl hx)
      obtain ⟨h4, -, h5⟩ := ih2 (.inr h2)
      exact ⟨h1, h4, .step h3 h5 (hmono _ _ h4 h1 hlt)⟩
    · obtain ⟨h4, h2, h5⟩ := ih2 (.inl hk)
      obtain ⟨h1, -, h3⟩ := ih1 (.inr h2)
      exact ⟨h1, h4, .step h3 h5 (hmono _ _ h4 h1 hlt)⟩

/-- Fill-in of leading rows. -/
theorem fill_leading {G G' : Nat → Nat → Prop} {r : Nat} (hG : ∀ i < r, ∀ j < i, G i j → G' i j) {i j : Nat}
    (h : Fill G i j) : i < r → Fill G' i j := by
  induction h with
  | @base x y h hlt => exact fun hx => .base (hG x hx y hlt h) hlt
  | @step x z k _ _ hlt ih1 ih2 => exact fun hx => .step (ih1 hx) (ih2 (by omega)) hlt

end Ctldl
