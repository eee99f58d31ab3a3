import Verif.Spec.Textbook
import Verif.Lemmas.SignChange
import Verif.Lemmas.Binary

/-! # Factors with more entries than needed: the other entries are zeros and change nothing -/

namespace Ctldl

variable {K : Type}

private theorem mem_row {P : Nat → Nat → Prop} {i j : Nat} : j ∈ rowEntriesOf P i ↔ j < i ∧ P i j := by
  simp [rowEntriesOf]

private theorem mem_common {P : Nat → Nat → Prop} {i j k : Nat} : k ∈ commonEntriesOf P i j ↔ k < j ∧ P i k ∧ P j k := by
  simp [commonEntriesOf]

private theorem mem_column {P : Nat → Nat → Prop} {n i j : Nat} : i ∈ columnEntriesOf P n j ↔ i < n ∧ P i j := by
  simp [columnEntriesOf]

/-- Arithmetic with zeros `Z`, finite numbers `F` and numbers `Q` which are the same up to the sign of zeros. -/
structure ZeroRules [Sub K] [Mul K] [Div K] (Q : K → K → Prop) (Z F : K → Prop) : Prop where
  sub : ∀ {a a' b b'}, Q a a' → Q b b' → Q (a - b) (a' - b')
  mul : ∀ {a a' b b'}, Q a a' → Q b b' → Q (a * b) (a' * b')
  div : ∀ {a a' b b'}, ¬ Z b → Q a a' → Q b b' → Q (a / b) (a' / b')
  skip : ∀ {a a' b'}, Q a a' → Z b' → Q a (a' - b')
  subZero : ∀ {a b}, Z a → Z b → Z (a - b)
  zeroMul : ∀ {a b}, Z a → F b → Z (a * b)
  mulZero : ∀ {a b}, F a → Z b → Z (a * b)
  zeroDiv : ∀ {a b}, Z a → F b → ¬ Z b → Z (a / b)
  finite : ∀ {a}, Z a → F a
  symm : ∀ {a a'}, Q a a' → Q a' a
  congrZero : ∀ {a a'}, Q a a' → Z a → Z a'
  congrFinite : ∀ {a a'}, Q a a' → F a → F a'
  ofDiv : ∀ {a b}, F (a / b) → F b → ¬ Z b → F a
  ofSub : ∀ {a b}, F (a - b) → F a

namespace ZeroRules

variable [Sub K] [Mul K] [Div K] {Q : K → K → Prop} {Z F : K → Prop}

private theorem subtract_skip (h : ZeroRules Q Z F) {ι : Type} (p : ι → Bool) (xs : List ι) {g g' : ι → K}
    (h1 : ∀ x ∈ xs, p x = true → Q (g x) (g' x)) (h2 : ∀ x ∈ xs, p x = false → Z (g' x)) {a a' : K} (ha : Q a a') :
    Q (subtractInOrder a ((xs.filter p).map g)) (subtractInOrder a' (xs.map g')) := by
  unfold subtractInOrder
  induction xs generalizing a a' with
  | nil => exact ha
  | cons x xs ih =>
    have ih' := @ih (fun y hy => h1 y (List.mem_cons_of_mem _ hy)) (fun y hy => h2 y (List.mem_cons_of_mem _ hy))
    cases hx : p x with
    | true =>
      rw [List.filter_cons_of_pos hx]
      exact ih' (h.sub ha (h1 x List.mem_cons_self hx))
    | false =>
      rw [List.filter_cons_of_neg (by rw [hx]; exact Bool.false_ne_true)]
      exact ih' (h.skip ha (h2 x List.mem_cons_self hx))

private theorem subtract_zero (h : ZeroRules Q Z F) {ι : Type} (xs : List ι) {g : ι → K} (h1 : ∀ x ∈ xs, Z (g x)) {a : K}
    (ha : Z a) : Z (subtractInOrder a (xs.map g)) := by
  unfold subtractInOrder
  induction xs generalizing a with
  | nil => exact ha
  | cons x xs ih => exact ih (fun y hy => h1 y (List.mem_cons_of_mem _ hy)) (h.subZero ha (h1 x List.mem_cons_self))

private theorem subtract_finite (h : ZeroRules Q Z F) (xs : List K) {a : K} (ha : F (subtractInOrder a xs)) : F a := by
  unfold subtractInOrder at ha
  induction xs generalizing a with
  | nil => exact ha
  | cons x xs ih => exact h.ofSub (ih ha)

open Classical in
private theorem common_filter {P P' : Nat → Nat → Prop} (hsub : ∀ i j, P i j → P' i j) (i j : Nat) :
    commonEntriesOf P i j = (commonEntriesOf P' i j).filter fun k => decide (P i k ∧ P j k) := by
  unfold commonEntriesOf
  rw [List.filter_filter]
  congr 1
  funext k
  have := hsub i k
  have := hsub j k
  simp only [decide_eq_decide, Bool.and_eq_decide, decide_eq_true_eq]
  tauto

open Classical in
private theorem row_filter {P P' : Nat → Nat → Prop} (hsub : ∀ i j, P i j → P' i j) (i : Nat) :
    rowEntriesOf P i = (rowEntriesOf P' i).filter fun k => decide (P i k) := by
  unfold rowEntriesOf
  rw [List.filter_filter]
  congr 1
  funext k
  have := hsub i k
  simp only [decide_eq_decide, Bool.and_eq_decide, decide_eq_true_eq]
  tauto

open Classical in
private theorem column_filter {P P' : Nat → Nat → Prop} (hsub : ∀ i j, P i j → P' i j) (n j : Nat) :
    columnEntriesOf P n j = (columnEntriesOf P' n j).filter fun k => decide (P k j) := by
  unfold columnEntriesOf
  rw [List.filter_reverse, List.filter_filter]
  congr 2
  funext k
  have := hsub k j
  simp only [decide_eq_decide, Bool.and_eq_decide, decide_eq_true_eq]
  tauto

variable {P P' : Nat → Nat → Prop} {n : Nat}

/-- The factor with more entries. -/
theorem factor (h : ZeroRules Q Z F) (hP' : ∀ i j, P' i j → j < i) (hsub : ∀ i j, P i j → P' i j)
    (hfill : ∀ i j k, P i k → P j k → j < i → P i j) {c o : Nat} {A L A' L' : Nat → Nat → K} {D D' : Nat → K}
    {reg reg' : K → Nat → K} (hF : EntryWiseOuterFormulas P n c o A L D reg)
    (hF' : EntryWiseOuterFormulas P' n c o A' L' D' reg') (hA : ∀ i j, i < n → j < n → Q (A i j) (A' i j))
    (hzero : ∀ i j, i < n → P' i j → ¬ P i j → Z (A' i j))
    (hreg : ∀ i < n, ∀ x x', Q x x' → Q (reg x i) (reg' x' i))
    (hfin : (∀ i < n, F (D i) ∧ ¬ Z (D i) ∧ ∀ j, P i j → F (L i j)) ∨
      ∀ i < n, F (D' i) ∧ ¬ Z (D' i) ∧ ∀ j, P' i j → F (L' i j)) :
    ∀ i < n, (∀ j, P i j → Q (L i j) (L' i j)) ∧ (∀ j, P' i j → ¬ P i j → Z (L' i j)) ∧ Q (D i) (D' i) := by
  classical
  have hD' : ∀ i < n, Q (D i) (D' i) → F (D' i) ∧ ¬ Z (D' i) ∧ ¬ Z (D i) := fun i hi hq => by
    rcases hfin with hfin | hfin
    · exact ⟨h.congrFinite hq (hfin i hi).1, fun hz => (hfin i hi).2.1 (h.congrZero (h.symm hq) hz), (hfin i hi).2.1⟩
    · exact ⟨(hfin i hi).1, (hfin i hi).2.1, fun hz => (hfin i hi).2.1 (h.congrZero hq hz)⟩
  have hL' : ∀ i < n, ∀ j, P i j → Q (L i j) (L' i j) → F (L' i j) := fun i hi j hj hq => by
    rcases hfin with hfin | hfin
    · exact h.congrFinite hq ((hfin i hi).2.2 j hj)
    · exact (hfin i hi).2.2 j (hsub i j hj)
  intro i
  induction i using Nat.strong_induction_on with
  | _ i ih =>
    intro hi
    obtain ⟨w, h1, h2, h3⟩ := hF i hi
    obtain ⟨w', h1', h2', h3'⟩ := hF' i hi
    have key : ∀ j, P' i j → (P i j → Q (w j) (w' j) ∧ Q (L i j) (L' i j)) ∧ (¬ P i j → Z (w' j) ∧ Z (L' i j)) := by
      intro j
      induction j using Nat.strong_induction_on with
      | _ j ihj =>
        intro hj
        have hji := hP' i j hj
        have hjn : j < n := by omega
        obtain ⟨i1, i2, i3⟩ := ih j hji hjn
        have hDj := hD' j hjn i3
        have hterm : ∀ k ∈ commonEntriesOf P' i j, ¬ (P i k ∧ P j k) →
            Z (if o ≤ i ∧ k < c then L' j k * w' k else L' i k * L' j k * D' k) := by
          intro k hk hnot
          obtain ⟨k1, k2, k3⟩ := mem_common.mp hk
          obtain ⟨e1, e2⟩ := ihj k k1 k2
          have hkn : k < n := by omega
          have hDk := hD' k hkn (ih k (by omega) hkn).2.2
          by_cases hik : P i k
          · have hjk : ¬ P j k := fun hjk => hnot ⟨hik, hjk⟩
            have hz := i2 k k3 hjk
            obtain ⟨q1, q2⟩ := e1 hik
            have hLik := hL' i hi k hik q2
            split
            · rw [h2' k k2] at hLik
              exact h.zeroMul hz (h.ofDiv hLik hDk.1 hDk.2.1)
            · exact h.zeroMul (h.mulZero hLik hz) hDk.1
          · obtain ⟨q1, q2⟩ := e2 hik
            have hLjk : F (L' j k) := by
              by_cases hjk : P j k
              · exact hL' j hjn k hjk (i1 k hjk)
              · exact h.finite (i2 k k3 hjk)
            split
            · exact h.mulZero hLjk q1
            · exact h.zeroMul (h.zeroMul q2 hLjk) hDk.1
        constructor
        · intro hPj
          have hq : Q (w j) (w' j) := by
            rw [h1 j hPj, h1' j hj, common_filter hsub]
            refine h.subtract_skip _ _ (fun k hk hp => ?_) (fun k hk hp => ?_) (hA i j hi hjn)
            · obtain ⟨k1, k2, k3⟩ := mem_common.mp hk
              obtain ⟨p1, p2⟩ := of_decide_eq_true hp
              obtain ⟨q1, q2⟩ := (ihj k k1 k2).1 p1
              have q3 := i1 k p2
              have q4 := (ih k (by omega) (by omega)).2.2
              split
              · exact h.mul q3 q1
              · exact h.mul (h.mul q2 q3) q4
            · exact hterm k hk (of_decide_eq_false hp)
          refine ⟨hq, ?_⟩
          rw [h2 j hPj, h2' j hj]
          exact h.div hDj.2.2 hq i3
        · intro hPj
          have hz : Z (w' j) := by
            rw [h1' j hj]
            refine h.subtract_zero _ (fun k hk => hterm k hk ?_) (hzero i j hi hj hPj)
            rintro ⟨p1, p2⟩
            exact hPj (hfill i j k p1 p2 hji)
          refine ⟨hz, ?_⟩
          rw [h2' j hj]
          exact h.zeroDiv hz hDj.1 hDj.2.1
    refine ⟨fun j hj => ((key j (hsub i j hj)).1 hj).2, fun j hj hn => ((key j hj).2 hn).2, ?_⟩
    rw [h3, h3']
    refine hreg i hi _ _ ?_
    rw [row_filter hsub]
    refine h.subtract_skip _ _ (fun k hk hp => ?_) (fun k hk hp => ?_) (hA i i hi hi)
    · obtain ⟨k1, k2⟩ := mem_row.mp hk
      obtain ⟨q1, q2⟩ := (key k k2).1 (of_decide_eq_true hp)
      have q4 := (ih k k1 (by omega)).2.2
      split
      · exact h.mul q1 (h.div (hD' k (by omega) q4).2.2 q1 q4)
      · exact h.mul (h.mul q2 q2) q4
    · obtain ⟨k1, k2⟩ := mem_row.mp hk
      obtain ⟨q1, q2⟩ := (key k k2).2 (of_decide_eq_false hp)
      have hkn : k < n := by omega
      have q4 := (ih k k1 hkn).2.2
      have hDk := hD' k hkn q4
      split
      · exact h.zeroMul q1 (h.finite (h.zeroDiv q1 hDk.1 hDk.2.1))
      · exact h.zeroMul (h.zeroMul q2 (h.finite q2)) hDk.1

/-- The solution with more entries. -/
theorem solution (h : ZeroRules Q Z F) (hP' : ∀ i j, P' i j → j < i) (hsub : ∀ i j, P i j → P' i j)
    {L L' : Nat → Nat → K} {D D' b b' x x' : Nat → K} (hS : SolveFormulas P n L D b x) (hS' : SolveFormulas P' n L' D' b' x')
    (hL : ∀ i < n, (∀ j, P i j → Q (L i j) (L' i j)) ∧ (∀ j, P' i j → ¬ P i j → Z (L' i j)) ∧ Q (D i) (D' i))
    (hb : ∀ i < n, Q (b i) (b' i)) (hfin : (∀ i < n, F (D i) ∧ ¬ Z (D i)) ∨ ∀ i < n, F (D' i) ∧ ¬ Z (D' i))
    (hxfin : (∀ i < n, F (x i)) ∨ ∀ i < n, F (x' i)) :
    ∀ i < n, Q (x i) (x' i) := by
  classical
  obtain ⟨y, h1, h2⟩ := hS
  obtain ⟨y', h1', h2'⟩ := hS'
  have hD : ∀ i < n, F (D i) ∧ ¬ Z (D i) ∧ F (D' i) ∧ ¬ Z (D' i) := fun i hi => by
    have hq := (hL i hi).2.2
    rcases hfin with hfin | hfin
    · exact ⟨(hfin i hi).1, (hfin i hi).2, h.congrFinite hq (hfin i hi).1,
        fun hz => (hfin i hi).2 (h.congrZero (h.symm hq) hz)⟩
    · exact ⟨h.congrFinite (h.symm hq) (hfin i hi).1, fun hz => (hfin i hi).2 (h.congrZero hq hz), hfin i hi⟩
  have hyF : ∀ i < n, Q (y i) (y' i) → F (y' i) := fun i hi hq => by
    rcases hxfin with hx | hx
    · have := hx i hi
      rw [h2 i hi] at this
      exact h.congrFinite hq (h.ofDiv (h.subtract_finite _ this) (hD i hi).1 (hD i hi).2.1)
    · have := hx i hi
      rw [h2' i hi] at this
      exact h.ofDiv (h.subtract_finite _ this) (hD i hi).2.2.1 (hD i hi).2.2.2
  have hxF : ∀ i < n, Q (x i) (x' i) → F (x' i) := fun i hi hq => by
    rcases hxfin with hx | hx
    · exact h.congrFinite hq (hx i hi)
    · exact hx i hi
  have hy : ∀ i, i < n → Q (y i) (y' i) := by
    intro i
    induction i using Nat.strong_induction_on with
    | _ i ih =>
      intro hi
      rw [h1 i hi, h1' i hi, row_filter hsub]
      refine h.subtract_skip _ _ (fun k hk hp => ?_) (fun k hk hp => ?_) (hb i hi)
      · obtain ⟨k1, k2⟩ := mem_row.mp hk
        exact h.mul ((hL i hi).1 k (of_decide_eq_true hp)) (ih k k1 (by omega))
      · obtain ⟨k1, k2⟩ := mem_row.mp hk
        exact h.zeroMul ((hL i hi).2.1 k k2 (of_decide_eq_false hp))
          (hyF k (by omega) (ih k k1 (by omega)))
  have hxx : ∀ m i, i < n → n - i = m → Q (x i) (x' i) := by
    intro m
    induction m using Nat.strong_induction_on with
    | _ m ih =>
      intro i hi hm
      rw [h2 i hi, h2' i hi, column_filter hsub]
      refine h.subtract_skip _ _ (fun k hk hp => ?_) (fun k hk hp => ?_) (h.div (hD i hi).2.1 (hy i hi) (hL i hi).2.2)
      · obtain ⟨k1, k2⟩ := mem_column.mp hk
        have := hP' _ _ k2
        exact h.mul ((hL k k1).1 i (of_decide_eq_true hp)) (ih (n - k) (by omega) k k1 rfl)
      · obtain ⟨k1, k2⟩ := mem_column.mp hk
        have := hP' _ _ k2
        exact h.zeroMul ((hL k k1).2.1 i k2 (of_decide_eq_false hp))
          (hxF k k1 (ih (n - k) (by omega) k k1 rfl))
  exact fun i hi => hxx _ i hi rfl

end ZeroRules

/-- Exact arithmetic. -/
theorem ZeroRules.field [Field K] : ZeroRules (K := K) Eq (· = 0) (fun _ => True) where
  sub := by rintro _ _ _ _ rfl rfl; rfl
  mul := by rintro _ _ _ _ rfl rfl; rfl
  div := by rintro _ _ _ _ - rfl rfl; rfl
  skip := by rintro _ _ _ rfl rfl; exact (sub_zero _).symm
  subZero := by rintro _ _ rfl rfl; exact sub_zero _
  zeroMul := by rintro _ _ rfl -; exact zero_mul _
  mulZero := by rintro _ _ - rfl; exact mul_zero _
  zeroDiv := by rintro _ _ rfl - -; exact zero_div _
  finite := fun _ => trivial
  symm := Eq.symm
  congrZero := by rintro _ _ rfl h; exact h
  congrFinite := fun _ _ => trivial
  ofDiv := fun _ _ _ => trivial
  ofSub := fun _ => trivial

section

variable {fmt : Format}

/-- Numbers of the format are not changed by rounding. -/
theorem Format.round_represents {x : ℚ} (h : fmt.Represents x) : fmt.round x = x := by
  obtain ⟨⟨m, e, hm, he, hx⟩, -⟩ := h
  have hzero : roundEven 0 = 0 := by simp [roundEven]
  by_cases h0 : x = 0
  · rw [h0, Format.round, zero_div, hzero]
    simp
  have hu : fmt.unit x ≤ e := by
    unfold Format.unit
    refine max_le ?_ he
    have h1 : |x| < 2 ^ ((fmt.precision : Int) + e) := by
      rw [hx, abs_mul, abs_of_pos (two_zpow_pos e), zpow_add₀ (by norm_num)]
      refine mul_lt_mul_of_pos_right ?_ (two_zpow_pos e)
      rw [zpow_natCast]
      exact_mod_cast hm
    have h2 := (Int.lt_zpow_iff_log_lt (b := 2) (by norm_num) (abs_pos.mpr h0)).mp (by exact_mod_cast h1)
    omega
  obtain ⟨k, hk⟩ : ∃ k : Int, x / 2 ^ fmt.unit x = k := by
    generalize fmt.unit x = u at hu
    refine ⟨m * 2 ^ (e - u).toNat, ?_⟩
    rw [hx, mul_div_assoc, ← zpow_sub₀ (by norm_num)]
    push_cast
    rw [← zpow_natCast, Int.toNat_of_nonneg (by omega)]
  rw [Format.round, hk, show roundEven (k : ℚ) = k by simp [roundEven], ← hk, div_mul_cancel₀ _ (two_zpow_pos _).ne']

private theorem ofRat_represents {x : ℚ} (s : Bool) (hx : x ≠ 0) (hr : fmt.Represents x) :
    Binary.ofRat fmt s x = .num x hx hr := by
  have h := Format.round_represents hr
  unfold Binary.ofRat
  rw [dif_neg (by rw [h]; exact hx), dif_pos (by rw [h]; exact hr.2)]
  simp only [h]

private theorem sub_zero_changed {a a' : Binary fmt} (h : SignChanged false a a') (t : Bool) :
    SignChanged false a (a' - .zero t) := by
  cases h with
  | zero s s' => exact .zero _ _
  | num hx hr hy hs h =>
    rename_i x y
    have : (Binary.num y hy hs : Binary fmt) - .zero t = .num y hy hs := by
      show Binary.ofRat fmt false (y - 0) = _
      simp only [sub_zero]
      exact ofRat_represents _ _ _
    rw [this]
    exact .num hx hr hy hs h
  | inf t' => exact .inf _
  | nan => exact .nan

private theorem ofRat_zero_isZero (s : Bool) : (Binary.ofRat fmt s 0).IsZero := by
  have : fmt.round 0 = 0 := Format.round_represents
    ⟨⟨0, fmt.minExp, by simp, le_rfl, by simp⟩, by rw [abs_zero]; exact two_zpow_pos _⟩
  unfold Binary.ofRat
  rw [dif_pos this]
  trivial

/-- Floating point arithmetic: numbers which are the same up to the sign of zeros. -/
theorem ZeroRules.binary : ZeroRules (K := Binary fmt) (SignChanged false) Binary.IsZero Binary.Finite where
  sub := SignChanged.sub
  mul := fun h1 h2 => SignChanged.mul h1 h2
  div := fun h0 h1 h2 => SignChanged.div h0 h1 h2
  skip := by
    rintro a a' b' h hb
    cases b' with
    | zero t => exact sub_zero_changed h t
    | _ => exact hb.elim
  subZero := by
    rintro a b ha hb
    cases a <;> cases b <;> first | exact ha.elim | exact hb.elim | trivial
  zeroMul := by
    rintro a b ha hb
    cases a <;> cases b <;> first | exact ha.elim | exact hb.elim | skip
    · show (Binary.ofRat fmt _ ((0 : ℚ) * 0)).IsZero
      rw [zero_mul]
      exact ofRat_zero_isZero _
    · rename_i x _ _
      show (Binary.ofRat fmt _ ((0 : ℚ) * x)).IsZero
      rw [zero_mul]
      exact ofRat_zero_isZero _
  mulZero := by
    rintro a b ha hb
    cases b <;> cases a <;> first | exact ha.elim | exact hb.elim | skip
    · show (Binary.ofRat fmt _ ((0 : ℚ) * 0)).IsZero
      rw [zero_mul]
      exact ofRat_zero_isZero _
    · rename_i x _ _
      show (Binary.ofRat fmt _ (x * (0 : ℚ))).IsZero
      rw [mul_zero]
      exact ofRat_zero_isZero _
  zeroDiv := by
    rintro a b ha hb hb'
    cases a <;> cases b <;> first | exact ha.elim | exact hb.elim | exact absurd trivial hb' | skip
    rename_i x _ _
    show (Binary.ofRat fmt _ ((0 : ℚ) / x)).IsZero
    rw [zero_div]
    exact ofRat_zero_isZero _
  finite := by
    rintro a ha
    cases a <;> first | exact ha.elim | trivial
  symm := by
    rintro a a' h
    cases h with
    | zero => exact .zero _ _
    | num hx hr hy hs h => exact .num hy hs hx hr h.symm
    | inf t => exact (by simpa using SignChanged.inf (fmt := fmt) (s := false) t)
    | nan => exact .nan
  congrZero := by
    rintro a a' h ha
    cases h <;> first | exact ha.elim | trivial
  congrFinite := by
    rintro a a' h ha
    cases h <;> first | exact ha.elim | trivial
  ofDiv := fun h hb _ => (Binary.finite_div hb h).1
  ofSub := fun h => (Binary.finite_sub h).1

end

end Ctldl
