import Verif.Spec.SignChange
import Verif.Spec.Textbook
import Verif.Lemmas.Nearest

/-! # Operations and changes of sign -/

namespace Ctldl

variable {fmt : Format}

theorem roundEven_neg (q : ℚ) : roundEven (-q) = -roundEven q := by
  by_cases h : (⌊q⌋ : ℚ) = q
  · rw [← h, roundEven_int, show -((⌊q⌋ : Int) : ℚ) = ((-⌊q⌋ : Int) : ℚ) by push_cast; rfl, roundEven_int]
  · have h1 := lt_of_le_of_ne (Int.floor_le q) h
    have h2 := Int.lt_floor_add_one q
    have hf : ⌊-q⌋ = -⌊q⌋ - 1 := by
      rw [Int.floor_eq_iff]
      push_cast
      constructor <;> linarith
    unfold roundEven
    rw [hf]
    push_cast
    generalize ⌊q⌋ = z at h1 h2 ⊢
    rcases lt_trichotomy (q - z) (1 / 2) with h3 | h3 | h3
    · rw [if_neg (by linarith), if_pos (by linarith), if_pos h3]
      ring
    · rw [if_neg (show ¬ -q - (-(z : ℚ) - 1) < 1 / 2 by linarith), if_neg (show ¬ 1 / 2 < -q - (-(z : ℚ) - 1) by linarith),
        if_neg (show ¬ q - (z : ℚ) < 1 / 2 by linarith), if_neg (show ¬ 1 / 2 < q - (z : ℚ) by linarith)]
      split <;> split <;> omega
    · rw [if_pos (by linarith), if_neg (by linarith), if_pos h3]
      ring

theorem Format.round_neg (fmt : Format) (x : ℚ) : fmt.round (-x) = -fmt.round x := by
  have hu : fmt.unit (-x) = fmt.unit x := by
    unfold Format.unit
    rw [abs_neg]
  unfold Format.round
  rw [hu, neg_div, roundEven_neg]
  push_cast
  ring

/-- Change of the sign of a rational number. -/
private def flip (s : Bool) (x : ℚ) : ℚ := if s then -x else x

private theorem flip_xor (s t : Bool) (x : ℚ) : flip (s ^^ t) x = flip s (flip t x) := by
  cases s <;> cases t <;> simp [flip]

private theorem flip_mul (s t : Bool) (x y : ℚ) : flip s x * flip t y = flip (s ^^ t) (x * y) := by
  cases s <;> cases t <;> simp [flip]

private theorem flip_div (s t : Bool) (x y : ℚ) : flip s x / flip t y = flip (s ^^ t) (x / y) := by
  cases s <;> cases t <;> simp [flip, neg_div, div_neg]

private theorem flip_sub (s : Bool) (x y : ℚ) : flip s x - flip s y = flip s (x - y) := by
  cases s
  · rfl
  · show -x - -y = -(x - y)
    ring

private theorem flip_lt (s : Bool) {x : ℚ} (h : x ≠ 0) : decide (flip s x < 0) = (decide (x < 0) ^^ s) := by
  rcases lt_or_gt_of_ne h with h1 | h1 <;> cases s <;> simp [flip, h1, h1.le]

private theorem ofRat_flip (s t t' : Bool) (x : ℚ) :
    SignChanged s (Binary.ofRat fmt t x) (Binary.ofRat fmt t' (flip s x)) := by
  have hr : fmt.round (flip s x) = flip s (fmt.round x) := by
    cases s
    · rfl
    · exact fmt.round_neg x
  have h0 : fmt.round (flip s x) = 0 ↔ fmt.round x = 0 := by rw [hr]; cases s <;> simp [flip]
  have ha : |fmt.round (flip s x)| = |fmt.round x| := by rw [hr]; cases s <;> simp [flip]
  by_cases h1 : fmt.round x = 0
  · rw [show Binary.ofRat fmt t x = .zero t from dif_pos h1,
      show Binary.ofRat fmt t' (flip s x) = .zero t' from dif_pos (h0.mpr h1)]
    exact .zero t t'
  · have h1' : ¬ fmt.round (flip s x) = 0 := fun h => h1 (h0.mp h)
    by_cases h2 : |fmt.round x| < (2 : ℚ) ^ fmt.maxExp
    · have h2' : |fmt.round (flip s x)| < (2 : ℚ) ^ fmt.maxExp := by rwa [ha]
      rw [show Binary.ofRat fmt t x = .num _ h1 _ from (dif_neg h1).trans (dif_pos h2),
        show Binary.ofRat fmt t' (flip s x) = .num _ h1' _ from (dif_neg h1').trans (dif_pos h2')]
      exact .num _ _ _ _ hr
    · have h2' : ¬ |fmt.round (flip s x)| < (2 : ℚ) ^ fmt.maxExp := by rwa [ha]
      rw [show Binary.ofRat fmt t x = .inf _ from (dif_neg h1).trans (dif_neg h2),
        show Binary.ofRat fmt t' (flip s x) = .inf _ from (dif_neg h1').trans (dif_neg h2')]
      rw [flip_lt s fun h => h1 (by rw [h]; exact fmt.round_zero)]
      exact .inf _

private theorem flip_zero (s : Bool) : flip s 0 = 0 := by cases s <;> simp [flip]

namespace SignChanged

private theorem toRat {s : Bool} {a a' : Binary fmt} (h : SignChanged s a a') : a'.toRat = flip s a.toRat := by
  cases h with
  | zero => exact (flip_zero s).symm
  | num _ _ _ _ h => exact h
  | inf => exact (flip_zero s).symm
  | nan => exact (flip_zero s).symm

private theorem negative {s : Bool} {a a' : Binary fmt} (h : SignChanged s a a') (h0 : ¬ a.IsZero) (h1 : a ≠ .nan) :
    a'.negative = (a.negative ^^ s) := by
  cases h with
  | zero => exact (h0 trivial).elim
  | num hx _ _ _ h =>
    simp only [Binary.negative]
    rw [h]
    exact flip_lt s hx
  | inf => rfl
  | nan => exact (h1 rfl).elim

theorem sub {s : Bool} {a a' b b' : Binary fmt} (h : SignChanged s a a') (h' : SignChanged s b b') :
    SignChanged s (a - b) (a' - b') := by
  have key : ∀ {a a' b b' : Binary fmt}, a - b = .ofRat fmt false (a.toRat - b.toRat) →
      a' - b' = .ofRat fmt false (a'.toRat - b'.toRat) → SignChanged s a a' → SignChanged s b b' →
      SignChanged s (a - b) (a' - b') := by
    intro a a' b b' e e' h h'
    rw [e, e', h.toRat, h'.toRat, flip_sub]
    exact ofRat_flip _ _ _ _
  cases h with
  | nan => exact .nan
  | inf t =>
    cases h' with
    | nan => exact .nan
    | zero => exact .inf t
    | num => exact .inf t
    | inf t' =>
      change SignChanged s (if t = t' then .nan else .inf t) (if (t ^^ s) = (t' ^^ s) then .nan else .inf (t ^^ s))
      by_cases htt : t = t'
      · rw [if_pos htt, if_pos (by rw [htt])]
        exact .nan
      · rw [if_neg htt, if_neg (by simpa using htt)]
        exact .inf t
  | zero t t' =>
    cases h' with
    | nan => exact .nan
    | inf r =>
      change SignChanged s (.inf !r) (.inf !(r ^^ s))
      rw [show (!(r ^^ s)) = ((!r) ^^ s) by cases r <;> cases s <;> rfl]
      exact .inf _
    | zero => exact .zero _ _
    | num hx hr hy hs h => exact key rfl rfl (.zero t t') (.num hx hr hy hs h)
  | num hx hr hy hs h =>
    cases h' with
    | nan => exact .nan
    | inf r =>
      change SignChanged s (.inf !r) (.inf !(r ^^ s))
      rw [show (!(r ^^ s)) = ((!r) ^^ s) by cases r <;> cases s <;> rfl]
      exact .inf _
    | zero t t' => exact key rfl rfl (.num hx hr hy hs h) (.zero t t')
    | num hx' hr' hy' hs' h' => exact key rfl rfl (.num hx hr hy hs h) (.num hx' hr' hy' hs' h')

private theorem xor4 (a s b t : Bool) : ((a ^^ s) ^^ (b ^^ t)) = ((a ^^ b) ^^ (s ^^ t)) := by
  cases a <;> cases s <;> cases b <;> cases t <;> rfl

theorem mul {s t : Bool} {a a' b b' : Binary fmt} (h : SignChanged s a a') (h' : SignChanged t b b') :
    SignChanged (s ^^ t) (a * b) (a' * b') := by
  have key : ∀ {a a' b b' : Binary fmt}, a * b = .ofRat fmt (a.negative ^^ b.negative) (a.toRat * b.toRat) →
      a' * b' = .ofRat fmt (a'.negative ^^ b'.negative) (a'.toRat * b'.toRat) → SignChanged s a a' → SignChanged t b b' →
      SignChanged (s ^^ t) (a * b) (a' * b') := by
    intro a a' b b' e e' h h'
    rw [e, e', h.toRat, h'.toRat, flip_mul]
    exact ofRat_flip _ _ _ _
  have hinf : ∀ {a a' b b' : Binary fmt}, a * b = .inf (a.negative ^^ b.negative) →
      a' * b' = .inf (a'.negative ^^ b'.negative) → SignChanged s a a' → SignChanged t b b' → ¬ a.IsZero → a ≠ .nan →
      ¬ b.IsZero → b ≠ .nan → SignChanged (s ^^ t) (a * b) (a' * b') := by
    intro a a' b b' e e' h h' h1 h2 h3 h4
    rw [e, e', h.negative h1 h2, h'.negative h3 h4, xor4]
    exact .inf _
  cases h with
  | nan => exact .nan
  | inf r =>
    cases h' with
    | nan => exact .nan
    | zero => exact .nan
    | num hx hr hy hs h => exact hinf rfl rfl (.inf r) (.num hx hr hy hs h) id nofun id nofun
    | inf r' => exact hinf rfl rfl (.inf r) (.inf r') id nofun id nofun
  | zero r r' =>
    cases h' with
    | nan => exact .nan
    | inf => exact .nan
    | zero q q' => exact key rfl rfl (.zero r r') (.zero q q')
    | num hx hr hy hs h => exact key rfl rfl (.zero r r') (.num hx hr hy hs h)
  | num hx hr hy hs h =>
    cases h' with
    | nan => exact .nan
    | inf r => exact hinf rfl rfl (.num hx hr hy hs h) (.inf r) id nofun id nofun
    | zero q q' => exact key rfl rfl (.num hx hr hy hs h) (.zero q q')
    | num hx' hr' hy' hs' h' => exact key rfl rfl (.num hx hr hy hs h) (.num hx' hr' hy' hs' h')

theorem div {s t : Bool} {a a' b b' : Binary fmt} (h0 : ¬ b.IsZero) (h : SignChanged s a a') (h' : SignChanged t b b') :
    SignChanged (s ^^ t) (a / b) (a' / b') := by
  have key : ∀ {a a' b b' : Binary fmt}, a / b = .ofRat fmt (a.negative ^^ b.negative) (a.toRat / b.toRat) →
      a' / b' = .ofRat fmt (a'.negative ^^ b'.negative) (a'.toRat / b'.toRat) → SignChanged s a a' → SignChanged t b b' →
      SignChanged (s ^^ t) (a / b) (a' / b') := by
    intro a a' b b' e e' h h'
    rw [e, e', h.toRat, h'.toRat, flip_div]
    exact ofRat_flip _ _ _ _
  cases h' with
  | zero => exact (h0 trivial).elim
  | nan => cases h <;> exact .nan
  | inf r =>
    cases h with
    | nan => exact .nan
    | inf => exact .nan
    | zero => exact .zero _ _
    | num => exact .zero _ _
  | num hx hr hy hs h' =>
    cases h with
    | nan => exact .nan
    | inf r =>
      have e := (SignChanged.num (s := t) hx hr hy hs h').negative id nofun
      rename_i x y
      change SignChanged (s ^^ t) (.inf (r ^^ (Binary.num x hx hr).negative)) (.inf ((r ^^ s) ^^ (Binary.num y hy hs).negative))
      rw [e, xor4]
      exact .inf _
    | zero q q' => exact key rfl rfl (.zero q q') (.num hx hr hy hs h')
    | num hx' hr' hy' hs' h => exact key rfl rfl (.num hx' hr' hy' hs' h) (.num hx hr hy hs h')

end SignChanged

/-! ### Formulas -/

section Formulas

variable {K : Type} [Sub K] [Mul K] [Div K]

omit [Mul K] [Div K] in
private theorem subtract_rel {ι : Type} {Q : K → K → Prop} (hsub : ∀ {a a' b b'}, Q a a' → Q b b' → Q (a - b) (a' - b'))
    (xs : List ι) {g g' : ι → K} (h : ∀ x ∈ xs, Q (g x) (g' x)) {a a' : K} (ha : Q a a') :
    Q (subtractInOrder a (xs.map g)) (subtractInOrder a' (xs.map g')) := by
  unfold subtractInOrder
  induction xs generalizing a a' with
  | nil => exact ha
  | cons x xs ih =>
    exact ih (fun y hy => h y (List.mem_cons_of_mem _ hy)) (hsub ha (h x List.mem_cons_self))

omit [Sub K] [Mul K] [Div K] in
private theorem mem_row {P : Nat → Nat → Prop} {i j : Nat} : j ∈ rowEntriesOf P i ↔ j < i ∧ P i j := by
  simp [rowEntriesOf]

omit [Sub K] [Mul K] [Div K] in
private theorem mem_common {P : Nat → Nat → Prop} {i j k : Nat} : k ∈ commonEntriesOf P i j ↔ k < j ∧ P i k ∧ P j k := by
  simp [commonEntriesOf]

omit [Sub K] [Mul K] [Div K] in
private theorem mem_column {P : Nat → Nat → Prop} {n i j : Nat} : i ∈ columnEntriesOf P n j ↔ i < n ∧ P i j := by
  simp [columnEntriesOf]

/-- The up-looking method is the case that all rows are those of the outer block. -/
theorem upLooking_outer {P : Nat → Nat → Prop} {n : Nat} (hP : ∀ i j, P i j → j < i) {A L : Nat → Nat → K} {D : Nat → K}
    {reg : K → Nat → K} (h : UpLookingFormulas P n A L D reg) : EntryWiseOuterFormulas P n n 0 A L D reg := by
  intro i hi
  obtain ⟨w, h1, h2, h3⟩ := h i hi
  refine ⟨w, fun j hj => ?_, h2, ?_⟩
  · rw [h1 j hj]
    congr 1
    refine List.map_congr_left fun k hk => ?_
    have := (mem_common.mp hk).1
    have := hP i j hj
    rw [if_pos ⟨Nat.zero_le _, by omega⟩]
  · rw [h3]
    congr 2
    refine List.map_congr_left fun k hk => ?_
    have := (mem_row.mp hk).1
    rw [if_pos ⟨Nat.zero_le _, by omega⟩]

variable {Q : Bool → K → K → Prop} {nz : K → Prop}

/-- The factors given by the formulas are changed by a change of signs of the matrix as the exact ones. -/
theorem formulas_rel (hsub : ∀ {s a a' b b'}, Q s a a' → Q s b b' → Q s (a - b) (a' - b'))
    (hmul : ∀ {s t a a' b b'}, Q s a a' → Q t b b' → Q (s ^^ t) (a * b) (a' * b'))
    (hdiv : ∀ {s t a a' b b'}, nz b → Q s a a' → Q t b b' → Q (s ^^ t) (a / b) (a' / b'))
    {P : Nat → Nat → Prop} {n c o : Nat} (hP : ∀ i j, P i j → j < i) {A L A' L' : Nat → Nat → K} {D D' : Nat → K}
    {reg reg' : K → Nat → K} (h : EntryWiseOuterFormulas P n c o A L D reg)
    (h' : EntryWiseOuterFormulas P n c o A' L' D' reg') (γ : Bool) (α : Nat → Bool)
    (hA : ∀ i < n, ∀ j ≤ i, Q (γ ^^ (α i ^^ α j)) (A i j) (A' i j))
    (hreg : ∀ i < n, ∀ x x', Q γ x x' → Q γ (reg x i) (reg' x' i)) (hnz : ∀ i < n, nz (D i)) :
    ∀ i < n, (∀ j, P i j → Q (α i ^^ α j) (L i j) (L' i j)) ∧ Q γ (D i) (D' i) := by
  intro i
  induction i using Nat.strong_induction_on with
  | _ i ih =>
    intro hi
    obtain ⟨w, h1, h2, h3⟩ := h i hi
    obtain ⟨w', h1', h2', h3'⟩ := h' i hi
    have key : ∀ j, P i j → Q (γ ^^ (α i ^^ α j)) (w j) (w' j) ∧ Q (α i ^^ α j) (L i j) (L' i j) := by
      intro j
      induction j using Nat.strong_induction_on with
      | _ j ihj =>
        intro hj
        have hji := hP i j hj
        obtain ⟨i1, i2⟩ := ih j hji (by omega)
        have hw : Q (γ ^^ (α i ^^ α j)) (w j) (w' j) := by
          rw [h1 j hj, h1' j hj]
          refine subtract_rel hsub _ (fun k hk => ?_) (hA i hi j hji.le)
          obtain ⟨k1, k2, k3⟩ := mem_common.mp hk
          obtain ⟨e1, e2⟩ := ihj k k1 k2
          split
          · rw [show (γ ^^ (α i ^^ α j)) = ((α j ^^ α k) ^^ (γ ^^ (α i ^^ α k))) by
              cases γ <;> cases α i <;> cases α j <;> cases α k <;> rfl]
            exact hmul (i1 k k3) e1
          · rw [show (γ ^^ (α i ^^ α j)) = (((α i ^^ α k) ^^ (α j ^^ α k)) ^^ γ) by
              cases γ <;> cases α i <;> cases α j <;> cases α k <;> rfl]
            exact hmul (hmul e2 (i1 k k3)) (ih k (by omega) (by omega)).2
        refine ⟨hw, ?_⟩
        rw [h2 j hj, h2' j hj]
        rw [show (α i ^^ α j) = ((γ ^^ (α i ^^ α j)) ^^ γ) by cases γ <;> cases α i <;> cases α j <;> rfl]
        exact hdiv (hnz j (by omega)) hw i2
    refine ⟨fun j hj => (key j hj).2, ?_⟩
    rw [h3, h3']
    refine hreg i hi _ _ (subtract_rel hsub _ (fun k hk => ?_) ?_)
    · obtain ⟨k1, k2⟩ := mem_row.mp hk
      obtain ⟨e1, e2⟩ := key k k2
      have e3 := (ih k k1 (by omega)).2
      split
      · have := hmul e1 (hdiv (hnz k (by omega)) e1 e3)
        rwa [show ((γ ^^ (α i ^^ α k)) ^^ ((γ ^^ (α i ^^ α k)) ^^ γ)) = γ by
          cases γ <;> cases α i <;> cases α k <;> rfl] at this
      · have := hmul (hmul e2 e2) e3
        rwa [Bool.xor_self, Bool.false_xor] at this
    · have := hA i hi i le_rfl
      rwa [Bool.xor_self, Bool.xor_false] at this

/-- The same for the solution. -/
theorem solve_formulas_rel (hsub : ∀ {s a a' b b'}, Q s a a' → Q s b b' → Q s (a - b) (a' - b'))
    (hmul : ∀ {s t a a' b b'}, Q s a a' → Q t b b' → Q (s ^^ t) (a * b) (a' * b'))
    (hdiv : ∀ {s t a a' b b'}, nz b → Q s a a' → Q t b b' → Q (s ^^ t) (a / b) (a' / b'))
    {P : Nat → Nat → Prop} {n : Nat} (hP : ∀ i j, P i j → j < i) {L L' : Nat → Nat → K} {D D' b b' x x' : Nat → K}
    (h : SolveFormulas P n L D b x) (h' : SolveFormulas P n L' D' b' x') (γ ε : Bool) (α : Nat → Bool)
    (hL : ∀ i < n, ∀ j, P i j → Q (α i ^^ α j) (L i j) (L' i j)) (hD : ∀ i < n, Q γ (D i) (D' i)) (hnz : ∀ i < n, nz (D i))
    (hb : ∀ i < n, Q (ε ^^ α i) (b i) (b' i)) : ∀ i < n, Q (ε ^^ (γ ^^ α i)) (x i) (x' i) := by
  obtain ⟨y, h1, h2⟩ := h
  obtain ⟨y', h3, h4⟩ := h'
  have hy : ∀ i, i < n → Q (ε ^^ α i) (y i) (y' i) := by
    intro i
    induction i using Nat.strong_induction_on with
    | _ i ih =>
      intro hi
      rw [h1 i hi, h3 i hi]
      refine subtract_rel hsub _ (fun j hj => ?_) (hb i hi)
      obtain ⟨j1, j2⟩ := mem_row.mp hj
      have := hmul (hL i hi j j2) (ih j j1 (by omega))
      rwa [show ((α i ^^ α j) ^^ (ε ^^ α j)) = (ε ^^ α i) by cases ε <;> cases α i <;> cases α j <;> rfl] at this
  have hx : ∀ k i, i < n → n - i = k → Q (ε ^^ (γ ^^ α i)) (x i) (x' i) := by
    intro k
    induction k using Nat.strong_induction_on with
    | _ k ih =>
      intro i hi hk
      rw [h2 i hi, h4 i hi]
      refine subtract_rel hsub _ (fun j hj => ?_) ?_
      · obtain ⟨j1, j2⟩ := mem_column.mp hj
        have h6 := hP _ _ j2
        have := hmul (hL j j1 i j2) (ih (n - j) (by omega) j j1 rfl)
        rwa [show ((α j ^^ α i) ^^ (ε ^^ (γ ^^ α j))) = (ε ^^ (γ ^^ α i)) by
          cases ε <;> cases γ <;> cases α i <;> cases α j <;> rfl] at this
      · have := hdiv (hnz i hi) (hy i hi) (hD i hi)
        rwa [show ((ε ^^ α i) ^^ γ) = (ε ^^ (γ ^^ α i)) by cases ε <;> cases γ <;> cases α i <;> rfl] at this
  exact fun i hi => hx _ i hi rfl

end Formulas

end Ctldl
