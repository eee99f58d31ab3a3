import Verif.Lemmas.Comparison
import Mathlib.Algebra.Order.Field.Basic

/-! # Matrices without positive entries off the diagonal: signs and comparison of factors and solutions -/

namespace Ctldl

variable {K : Type}

private theorem mem_row {P : Nat → Nat → Prop} {i j : Nat} : j ∈ rowEntriesOf P i ↔ j < i ∧ P i j := by
  simp [rowEntriesOf]

private theorem mem_common {P : Nat → Nat → Prop} {i j k : Nat} : k ∈ commonEntriesOf P i j ↔ k < j ∧ P i k ∧ P j k := by
  simp [commonEntriesOf]

private theorem mem_column {P : Nat → Nat → Prop} {n i j : Nat} : i ∈ columnEntriesOf P n j ↔ i < n ∧ P i j := by
  simp [columnEntriesOf]

/-- Arithmetic with a comparison which all operations respect: `S` are the positive numbers, `D` those by which may be
divided. -/
structure OrderRules [Zero K] [Sub K] [Mul K] [Div K] (Le : K → K → Prop) (S D : K → Prop) : Prop where
  zeroRefl : Le 0 0
  sub : ∀ {a a' b b'}, Le a a' → Le b' b → Le (a - b) (a' - b')
  mulDown : ∀ {a a' b b'}, Le a 0 → Le a' 0 → Le b 0 → Le b' 0 → Le a a' → Le b b' → Le (a' * b') (a * b)
  mulUp : ∀ {a a' b b'}, Le a 0 → Le a' 0 → Le 0 b → Le 0 b' → Le a a' → Le b' b → Le (a * b) (a' * b')
  mulFixed : ∀ {a b b'}, Le a 0 → Le b b' → Le (a * b') (a * b)
  divDown : ∀ {a a' d d'}, Le a 0 → Le a' 0 → Le a a' → D d → D d' → Le d d' → Le (a / d) (a' / d')
  divUp : ∀ {a a' d d'}, Le 0 a → Le 0 a' → Le a' a → D d → D d' → Le d d' → Le (a' / d') (a / d)
  divFixed : ∀ {a a' d}, D d → Le a a' → Le (a / d) (a' / d)
  subNP : ∀ {a b}, Le a 0 → Le 0 b → Le (a - b) 0
  subNN : ∀ {a b}, Le 0 a → Le b 0 → Le 0 (a - b)
  mulNN : ∀ {a b}, Le a 0 → Le b 0 → Le 0 (a * b)
  mulNP : ∀ {a b}, Le a 0 → Le 0 b → Le (a * b) 0
  divNP : ∀ {a d}, Le a 0 → D d → Le (a / d) 0
  divNN : ∀ {a d}, Le 0 a → D d → Le 0 (a / d)
  mulPos : ∀ {a d}, Le 0 a → D d → Le 0 (a * d)
  pos : ∀ {d}, S d → D d
  posLe : ∀ {d d'}, S d → Le d d' → D d'

namespace OrderRules

variable [Zero K] [Sub K] [Mul K] [Div K] {Le : K → K → Prop} {S Dv : K → Prop}

private theorem subtract_np (h : OrderRules Le S Dv) {ι : Type} (xs : List ι) {g : ι → K} (h1 : ∀ x ∈ xs, Le 0 (g x)) {a : K}
    (ha : Le a 0) : Le (subtractInOrder a (xs.map g)) 0 := by
  unfold subtractInOrder
  induction xs generalizing a with
  | nil => exact ha
  | cons x xs ih => exact ih (fun y hy => h1 y (List.mem_cons_of_mem _ hy)) (h.subNP ha (h1 x List.mem_cons_self))

private theorem subtract_nn (h : OrderRules Le S Dv) {ι : Type} (xs : List ι) {g : ι → K} (h1 : ∀ x ∈ xs, Le (g x) 0) {a : K}
    (ha : Le 0 a) : Le 0 (subtractInOrder a (xs.map g)) := by
  unfold subtractInOrder
  induction xs generalizing a with
  | nil => exact ha
  | cons x xs ih => exact ih (fun y hy => h1 y (List.mem_cons_of_mem _ hy)) (h.subNN ha (h1 x List.mem_cons_self))

private theorem subtract_le (h : OrderRules Le S Dv) {ι : Type} (xs : List ι) {g g' : ι → K} (h1 : ∀ x ∈ xs, Le (g' x) (g x))
    {a a' : K} (ha : Le a a') : Le (subtractInOrder a (xs.map g)) (subtractInOrder a' (xs.map g')) := by
  unfold subtractInOrder
  induction xs generalizing a a' with
  | nil => exact ha
  | cons x xs ih => exact ih (fun y hy => h1 y (List.mem_cons_of_mem _ hy)) (h.sub ha (h1 x List.mem_cons_self))

variable {P : Nat → Nat → Prop} {n : Nat}

/-- The factor has no positive entries. -/
theorem signs (h : OrderRules Le S Dv) (hP : ∀ i j, P i j → j < i) {c o : Nat} {A L : Nat → Nat → K} {D : Nat → K}
    {reg : K → Nat → K} (hF : EntryWiseOuterFormulas P n c o A L D reg) (hA : ∀ i < n, ∀ j, P i j → Le (A i j) 0)
    (hD : ∀ i < n, Dv (D i)) : ∀ i < n, ∀ j, P i j → Le (L i j) 0 := by
  intro i
  induction i using Nat.strong_induction_on with
  | _ i ih =>
    intro hi
    obtain ⟨w, h1, h2, -⟩ := hF i hi
    have key : ∀ j, P i j → Le (w j) 0 ∧ Le (L i j) 0 := by
      intro j
      induction j using Nat.strong_induction_on with
      | _ j ihj =>
        intro hj
        have hji := hP i j hj
        have hw : Le (w j) 0 := by
          rw [h1 j hj]
          refine h.subtract_np _ (fun k hk => ?_) (hA i hi j hj)
          obtain ⟨k1, k2, k3⟩ := mem_common.mp hk
          obtain ⟨q1, q2⟩ := ihj k k1 k2
          have q3 := ih j hji (by omega) k k3
          split
          · exact h.mulNN q3 q1
          · exact h.mulPos (h.mulNN q2 q3) (hD k (by omega))
        exact ⟨hw, by rw [h2 j hj]; exact h.divNP hw (hD j (by omega))⟩
    exact fun j hj => (key j hj).2

/-- The solution for a right-hand side without negative elements has no negative elements. -/
theorem solve_signs (h : OrderRules Le S Dv) (hP : ∀ i j, P i j → j < i) {L : Nat → Nat → K} {D b x : Nat → K}
    (hS : SolveFormulas P n L D b x) (hL : ∀ i < n, ∀ j, P i j → Le (L i j) 0) (hD : ∀ i < n, Dv (D i))
    (hb : ∀ i < n, Le 0 (b i)) : ∀ i < n, Le 0 (x i) := by
  obtain ⟨y, h1, h2⟩ := hS
  have hy : ∀ i, i < n → Le 0 (y i) := by
    intro i
    induction i using Nat.strong_induction_on with
    | _ i ih =>
      intro hi
      rw [h1 i hi]
      refine h.subtract_nn _ (fun k hk => ?_) (hb i hi)
      obtain ⟨k1, k2⟩ := mem_row.mp hk
      exact h.mulNP (hL i hi k k2) (ih k k1 (by omega))
  have hx : ∀ m i, i < n → n - i = m → Le 0 (x i) := by
    intro m
    induction m using Nat.strong_induction_on with
    | _ m ih =>
      intro i hi hm
      rw [h2 i hi]
      refine h.subtract_nn _ (fun k hk => ?_) (h.divNN (hy i hi) (hD i hi))
      obtain ⟨k1, k2⟩ := mem_column.mp hk
      have := hP _ _ k2
      exact h.mulNP (hL k k1 i k2) (ih (n - k) (by omega) k k1 rfl)
  exact fun i hi => hx _ i hi rfl

/-- Greater right-hand sides have greater solutions. -/
theorem solve_mono (h : OrderRules Le S Dv) (hP : ∀ i j, P i j → j < i) {L : Nat → Nat → K} {D b x b' x' : Nat → K}
    (hS : SolveFormulas P n L D b x) (hS' : SolveFormulas P n L D b' x') (hL : ∀ i < n, ∀ j, P i j → Le (L i j) 0)
    (hD : ∀ i < n, Dv (D i)) (hb : ∀ i < n, Le (b i) (b' i)) : ∀ i < n, Le (x i) (x' i) := by
  obtain ⟨y, h1, h2⟩ := hS
  obtain ⟨y', h1', h2'⟩ := hS'
  have hy : ∀ i, i < n → Le (y i) (y' i) := by
    intro i
    induction i using Nat.strong_induction_on with
    | _ i ih =>
      intro hi
      rw [h1 i hi, h1' i hi]
      refine h.subtract_le _ (fun k hk => ?_) (hb i hi)
      obtain ⟨k1, k2⟩ := mem_row.mp hk
      exact h.mulFixed (hL i hi k k2) (ih k k1 (by omega))
  have hx : ∀ m i, i < n → n - i = m → Le (x i) (x' i) := by
    intro m
    induction m using Nat.strong_induction_on with
    | _ m ih =>
      intro i hi hm
      rw [h2 i hi, h2' i hi]
      refine h.subtract_le _ (fun k hk => ?_) (h.divFixed (hD i hi) (hy i hi))
      obtain ⟨k1, k2⟩ := mem_column.mp hk
      have := hP _ _ k2
      exact h.mulFixed (hL k k1 i k2) (ih (n - k) (by omega) k k1 rfl)
  exact fun i hi => hx _ i hi rfl

/-- Greater matrices have greater factors. -/
theorem factor_mono (h : OrderRules Le S Dv) (hP : ∀ i j, P i j → j < i) {A L A' L' : Nat → Nat → K} {D D' : Nat → K}
    {reg reg' : K → Nat → K} (hF : UpLookingFormulas P n A L D reg) (hF' : UpLookingFormulas P n A' L' D' reg')
    (hA : ∀ i < n, ∀ j, P i j → Le (A i j) (A' i j)) (hdiag : ∀ i < n, Le (A i i) (A' i i))
    (hn : ∀ i < n, ∀ j, P i j → Le (A i j) 0) (hn' : ∀ i < n, ∀ j, P i j → Le (A' i j) 0)
    (hreg : ∀ i < n, ∀ x x', Le x x' → Le (reg x i) (reg' x' i)) (hD : ∀ i < n, S (D i)) :
    ∀ i < n, (∀ j, P i j → Le (L i j) 0 ∧ Le (L' i j) 0 ∧ Le (L i j) (L' i j)) ∧ Le (D i) (D' i) ∧ Dv (D' i) := by
  intro i
  induction i using Nat.strong_induction_on with
  | _ i ih =>
    intro hi
    obtain ⟨w, h1, h2, h3⟩ := hF i hi
    obtain ⟨w', h1', h2', h3'⟩ := hF' i hi
    have key : ∀ j, P i j → Le (w j) 0 ∧ Le (w' j) 0 ∧ Le (w j) (w' j) := by
      intro j
      induction j using Nat.strong_induction_on with
      | _ j ihj =>
        intro hj
        have hji := hP i j hj
        have ihL := (ih j hji (by omega)).1
        rw [h1 j hj, h1' j hj]
        refine ⟨h.subtract_np _ (fun k hk => ?_) (hn i hi j hj), h.subtract_np _ (fun k hk => ?_) (hn' i hi j hj),
          h.subtract_le _ (fun k hk => ?_) (hA i hi j hj)⟩
        all_goals
          obtain ⟨k1, k2, k3⟩ := mem_common.mp hk
          obtain ⟨q1, q2, q3⟩ := ihj k k1 k2
          obtain ⟨r1, r2, r3⟩ := ihL k k3
        · exact h.mulNN r1 q1
        · exact h.mulNN r2 q2
        · exact h.mulDown r1 r2 q1 q2 r3 q3
    have quot : ∀ j, P i j → Le (w j / D j) 0 ∧ Le (w' j / D' j) 0 ∧ Le (w j / D j) (w' j / D' j) := by
      intro j hj
      have hji := hP i j hj
      obtain ⟨-, d1, d2⟩ := ih j hji (by omega)
      obtain ⟨q1, q2, q3⟩ := key j hj
      have d3 := h.pos (hD j (by omega))
      exact ⟨h.divNP q1 d3, h.divNP q2 d2, h.divDown q1 q2 q3 d3 d2 d1⟩
    have hDi : Le (D i) (D' i) := by
      rw [h3, h3']
      refine hreg i hi _ _ (h.subtract_le _ (fun k hk => ?_) (hdiag i hi))
      obtain ⟨k1, k2⟩ := mem_row.mp hk
      obtain ⟨q1, q2, q3⟩ := key k k2
      obtain ⟨r1, r2, r3⟩ := quot k k2
      exact h.mulDown q1 q2 r1 r2 q3 r3
    refine ⟨fun j hj => ?_, hDi, h.posLe (hD i hi) hDi⟩
    rw [h2 j hj, h2' j hj]
    exact quot j hj

/-- Greater matrices have smaller solutions. -/
theorem solve_anti (h : OrderRules Le S Dv) (hP : ∀ i j, P i j → j < i) {L L' : Nat → Nat → K} {D D' b x b' x' : Nat → K}
    (hS : SolveFormulas P n L D b x) (hS' : SolveFormulas P n L' D' b' x')
    (hL : ∀ i < n, ∀ j, P i j → Le (L i j) 0 ∧ Le (L' i j) 0 ∧ Le (L i j) (L' i j))
    (hD : ∀ i < n, Dv (D i) ∧ Dv (D' i) ∧ Le (D i) (D' i)) (hb : ∀ i < n, Le 0 (b i) ∧ Le 0 (b' i) ∧ Le (b' i) (b i)) :
    ∀ i < n, Le 0 (x i) ∧ Le 0 (x' i) ∧ Le (x' i) (x i) := by
  obtain ⟨y, h1, h2⟩ := hS
  obtain ⟨y', h1', h2'⟩ := hS'
  have hy : ∀ i, i < n → Le 0 (y i) ∧ Le 0 (y' i) ∧ Le (y' i) (y i) := by
    intro i
    induction i using Nat.strong_induction_on with
    | _ i ih =>
      intro hi
      obtain ⟨b1, b2, b3⟩ := hb i hi
      rw [h1 i hi, h1' i hi]
      refine ⟨h.subtract_nn _ (fun k hk => ?_) b1, h.subtract_nn _ (fun k hk => ?_) b2, h.subtract_le _ (fun k hk => ?_) b3⟩
      all_goals
        obtain ⟨k1, k2⟩ := mem_row.mp hk
        obtain ⟨q1, q2, q3⟩ := hL i hi k k2
        obtain ⟨r1, r2, r3⟩ := ih k k1 (by omega)
      · exact h.mulNP q1 r1
      · exact h.mulNP q2 r2
      · exact h.mulUp q1 q2 r1 r2 q3 r3
  have hx : ∀ m i, i < n → n - i = m → Le 0 (x i) ∧ Le 0 (x' i) ∧ Le (x' i) (x i) := by
    intro m
    induction m using Nat.strong_induction_on with
    | _ m ih =>
      intro i hi hm
      obtain ⟨y1, y2, y3⟩ := hy i hi
      obtain ⟨d1, d2, d3⟩ := hD i hi
      rw [h2 i hi, h2' i hi]
      refine ⟨h.subtract_nn _ (fun k hk => ?_) (h.divNN y1 d1), h.subtract_nn _ (fun k hk => ?_) (h.divNN y2 d2),
        h.subtract_le _ (fun k hk => ?_) (h.divUp y1 y2 y3 d1 d2 d3)⟩
      all_goals
        obtain ⟨k1, k2⟩ := mem_column.mp hk
        have := hP _ _ k2
        obtain ⟨q1, q2, q3⟩ := hL k k1 i k2
        obtain ⟨r1, r2, r3⟩ := ih (n - k) (by omega) k k1 rfl
      · exact h.mulNP q1 r1
      · exact h.mulNP q2 r2
      · exact h.mulUp q1 q2 r1 r2 q3 r3
  exact fun i hi => hx _ i hi rfl

end OrderRules

/-- Floating point arithmetic. -/
theorem OrderRules.binary {fmt : Format} : OrderRules (K := Binary fmt) Binary.Le (0 < ·) Binary.NotBelow where
  zeroRefl := .zero_refl
  sub := .sub
  mulDown := .mulDown
  mulUp := .mulUp
  mulFixed := .mulFixed
  divDown := .divDown
  divUp := .divUp
  divFixed := .divFixed
  subNP := .subNP
  subNN := .subNN
  mulNN := .mulNN
  mulNP := .mulNP
  divNP := .divNP
  divNN := .divNN
  mulPos := .mulPos
  pos := Binary.notBelow_of_lt
  posLe := Binary.notBelow_of_le

/-- Exact arithmetic. -/
theorem OrderRules.field {F : Type} [Field F] [LinearOrder F] [IsStrictOrderedRing F] :
    OrderRules (K := F) (· ≤ ·) (0 < ·) (0 < ·) where
  zeroRefl := le_rfl
  sub := sub_le_sub
  mulDown := fun h1 h2 h3 h4 h h' => mul_le_mul_of_nonpos_of_nonpos' h h' h2 h3
  mulUp := fun h1 h2 h3 h4 h h' => by nlinarith
  mulFixed := fun h1 h => mul_le_mul_of_nonpos_left h h1
  divDown := fun h1 h2 h hd hd' h' => by
    rw [div_le_div_iff₀ hd hd']
    nlinarith
  divUp := fun h1 h2 h hd hd' h' => div_le_div₀ h1 h hd h'
  divFixed := fun hd h => div_le_div_of_nonneg_right h hd.le
  subNP := fun h h' => by linarith
  subNN := fun h h' => by linarith
  mulNN := fun h h' => mul_nonneg_of_nonpos_of_nonpos h h'
  mulNP := fun h h' => mul_nonpos_of_nonpos_of_nonneg h h'
  divNP := fun h hd => div_nonpos_of_nonpos_of_nonneg h hd.le
  divNN := fun h hd => div_nonneg h hd.le
  mulPos := fun h hd => mul_nonneg h hd.le
  pos := id
  posLe := lt_of_lt_of_le

end Ctldl
