import Verif.Lemmas.AnyOrder
import Verif.Lemmas.RoundingSolve

/-! # Rounding errors of the formulas evaluated in any order -/

namespace Ctldl

open Finset

set_option linter.unusedSectionVars false

variable {K F : Type} [Zero K] [Add K] [Sub K] [Mul K] [Div K] [Field F] [LinearOrder F] [IsStrictOrderedRing F]

/-! ### Sums over patterns -/

theorem sum_filter_range {F : Type} [AddCommMonoid F] (p : Nat → Prop) [DecidablePred p] (f : Nat → F) (n : Nat) :
    (((List.range n).filter fun k => p k).map f).sum = ∑ k ∈ range n, if p k then f k else 0 := by
  induction n with
  | zero => rfl
  | succ n ih =>
    rw [List.range_succ, List.filter_append, List.map_append, List.sum_append, ih, sum_range_succ]
    congr 1
    by_cases h : p n <;> simp [h]

theorem sum_commonEntries {P : Nat → Nat → Prop} {i j : Nat} {f : Nat → F} (h : ∀ k, ¬ (P i k ∧ P j k) → f k = 0) :
    ((commonEntriesOf P i j).map f).sum = ∑ k ∈ range j, f k := by
  classical
  unfold commonEntriesOf
  rw [sum_filter_range]
  refine sum_congr rfl fun k _ => ?_
  split
  · rfl
  · rename_i hk
    exact (h k hk).symm

theorem sum_rowEntries {P : Nat → Nat → Prop} {i : Nat} {f : Nat → F} (h : ∀ k, ¬ P i k → f k = 0) :
    ((rowEntriesOf P i).map f).sum = ∑ k ∈ range i, f k := by
  classical
  unfold rowEntriesOf
  rw [sum_filter_range]
  refine sum_congr rfl fun k _ => ?_
  split
  · rfl
  · rename_i hk
    exact (h k hk).symm

theorem sum_columnEntries {P : Nat → Nat → Prop} {n j : Nat} {f : Nat → F} (h : ∀ k, ¬ P k j → f k = 0) :
    ((columnEntriesOf P n j).map f).sum = ∑ k ∈ range n, f k := by
  classical
  unfold columnEntriesOf
  rw [List.map_reverse, List.sum_reverse, sum_filter_range]
  refine sum_congr rfl fun k _ => ?_
  split
  · rfl
  · rename_i hk
    exact (h k hk).symm

theorem ldlt_lower {n : Nat} {l : Nat → Nat → F} {d : Nat → F} (hl : ∀ i k, i ≤ k → l i k = 0) {i j : Nat} (hji : j ≤ i)
    (hj : j < n) : ldlt n l d i j = unitLower l i j * d j + ∑ k ∈ range j, l i k * d k * l j k := by
  unfold ldlt
  rw [← sum_subset (range_subset_range.mpr (Nat.succ_le_of_lt hj)), sum_range_succ, add_comm]
  · congr 1
    · simp [unitLower]
    · refine sum_congr rfl fun k hk => ?_
      have := mem_range.mp hk
      unfold unitLower
      rw [if_neg (by omega), if_neg (by omega)]
  · intro k _ hk
    have : ¬ k < j + 1 := fun h => hk (mem_range.mpr h)
    rw [unitLower, unitLower, if_neg (show ¬ j = k by omega), hl j k (by omega), mul_zero]

theorem unitLower_row {n : Nat} {l : Nat → Nat → F} {y : Nat → F} (hl : ∀ i k, i ≤ k → l i k = 0) {i : Nat} (hi : i < n) :
    ∑ k ∈ range n, unitLower l i k * y k = y i + ∑ k ∈ range i, l i k * y k := by
  rw [← sum_subset (range_subset_range.mpr (Nat.succ_le_of_lt hi)), sum_range_succ, add_comm]
  · congr 1
    · simp [unitLower]
    · refine sum_congr rfl fun k hk => ?_
      have := mem_range.mp hk
      unfold unitLower
      rw [if_neg (by omega)]
  · intro k _ hk
    have : ¬ k < i + 1 := fun h => hk (mem_range.mpr h)
    rw [unitLower, if_neg (by omega), hl i k (by omega), zero_mul]

theorem unitLower_column {n : Nat} {l : Nat → Nat → F} {y : Nat → F} (hl : ∀ i k, i ≤ k → l i k = 0) {j : Nat} (hj : j < n) :
    ∑ k ∈ range n, unitLower l k j * y k = y j + ∑ k ∈ range n, l k j * y k := by
  rw [← add_sum_erase _ _ (mem_range.mpr hj), ← add_sum_erase (range n) (fun k => l k j * y k) (mem_range.mpr hj)]
  rw [hl j j le_rfl, zero_mul, zero_add]
  congr 1
  · simp [unitLower]
  · refine sum_congr rfl fun k hk => ?_
    unfold unitLower
    rw [if_neg (mem_erase.mp hk).1]

/-! ### Products -/

namespace Rounding

variable {R : Rounding K F}

/-- A product of three numbers with two roundings. -/
theorem apx_triple {x y z r δ e δ' e' ε : F} (hδ : |δ| ≤ R.u) (he : |e| ≤ R.μ) (hδ' : |δ'| ≤ R.u) (he' : |e'| ≤ R.η)
    (h : r = (x * y * (1 + δ') + e') * z * (1 + δ) + e) (hε : R.η * (1 + |z|) ≤ ε) :
    R.Apx 2 r (x * y * z) (|x| * |y| * |z|) (ε - R.σ) := by
  have h1 := ((((Apx.refl (R := R) 0 (x * y)).mul_round hδ').add_err he').mul z).mul_round hδ |>.add_err he
  rw [h, ← abs_mul]
  refine h1.mono le_rfl le_rfl (le_sub_iff_add_le.mpr (le_trans ?_ hε))
  have := R.μ_add_σ
  linarith

/-- Errors of ways of computing quotients `y` of `a` and `d` with `m` roundings. -/
def Divides (R : Rounding K F) (m : Nat) (Quot : K → K → K → Prop) (d : K) : Prop :=
  ∀ a y, Quot a d y → R.stored y ∧ (R.fin y → R.fin a ∧ R.stored a ∧
    R.Apx m (R.v a) (R.v y * R.v d) (|R.v y| * |R.v d|) (R.η * |R.v d|))

theorem divides_div {d : K} (hd : R.fin d) : R.Divides 1 (fun a d y => y = a / d) d := by
  rintro a _ rfl
  exact ⟨R.stored_div _ _, fun h => ⟨(apx_div hd h).1, (R.div hd h).2.1, (apx_div hd h).2⟩⟩

/-- A product of a numerator and any number. -/
theorem apx_num_mul_any {m : Nat} {c w d y : K} (hw : R.stored w)
    (hy : R.Apx m (R.v w) (R.v y * R.v d) (|R.v y| * |R.v d|) (R.η * |R.v d|)) (hc : R.fin (w * c)) {ε : F}
    (hε : R.η * (1 + |R.v d| * (1 + |R.v c|)) ≤ ε) :
    R.Apx (m + 1) (R.v (w * c)) (R.v y * R.v d * R.v c) (|R.v y| * |R.v d| * |R.v c|) (ε - R.σ) := by
  obtain ⟨δ, e, hδ, he, h3⟩ := R.mul hw hc
  have h := ((hy.mul (R.v c)).mul_round hδ).add_err he
  rw [h3]
  refine h.mono le_rfl le_rfl (le_sub_iff_add_le.mpr (le_trans ?_ hε))
  have := mul_nonneg R.η_nonneg (abs_nonneg (R.v d))
  have := R.μ_add_σ
  linarith

/-- A product of any number and a numerator. -/
theorem apx_mul_num_any {m : Nat} {c w d y : K} (hs : R.stored c)
    (hy : R.Apx m (R.v w) (R.v y * R.v d) (|R.v y| * |R.v d|) (R.η * |R.v d|)) (hc : R.fin (c * w)) {ε : F}
    (hε : R.η * (1 + |R.v d| * (1 + |R.v c|)) ≤ ε) :
    R.Apx (m + 1) (R.v (c * w)) (R.v y * R.v d * R.v c) (|R.v y| * |R.v d| * |R.v c|) (ε - R.σ) := by
  obtain ⟨δ, e, hδ, he, h3⟩ := R.mul hs hc
  have h := ((hy.mul (R.v c)).mul_round hδ).add_err he
  rw [h3, mul_comm (R.v c)]
  refine h.mono le_rfl le_rfl (le_sub_iff_add_le.mpr (le_trans ?_ hε))
  have := mul_nonneg R.η_nonneg (abs_nonneg (R.v d))
  have := R.μ_add_σ
  linarith

/-- The terms of the entry-wise method. -/
theorem apx_tripleProduct {a b d r : K} (h : TripleProduct a b d r) (ha : R.stored a) (hb : R.stored b) (hf : R.fin r) {ε : F}
    (hεa : R.η * (1 + |R.v a|) ≤ ε) (hεb : R.η * (1 + |R.v b|) ≤ ε) (hεd : R.η * (1 + |R.v d|) ≤ ε) :
    R.fin a ∧ R.fin b ∧ R.fin d ∧
      R.Apx 2 (R.v r) (R.v a * R.v d * R.v b) (|R.v a| * |R.v d| * |R.v b|) (ε - R.σ) := by
  have left : ∀ {x y z : K}, R.stored x → R.fin (x * y * z) → R.η * (1 + |R.v z|) ≤ ε → R.fin x ∧ R.fin y ∧ R.fin z ∧
      R.Apx 2 (R.v (x * y * z)) (R.v x * R.v y * R.v z) (|R.v x| * |R.v y| * |R.v z|) (ε - R.σ) := by
    intro x y z hx hf hz
    obtain ⟨δ, e, δ', e', hδ, he, hδ', he', h3⟩ := R.mul_mul hx hf
    exact ⟨(R.fin_mul (R.fin_mul hf).1).1, (R.fin_mul (R.fin_mul hf).1).2, (R.fin_mul hf).2,
      apx_triple hδ he hδ' he' h3 hz⟩
  have right : ∀ {x y z : K}, R.stored x → R.stored y → R.fin (x * (y * z)) → R.η * (1 + |R.v x|) ≤ ε →
      R.fin x ∧ R.fin y ∧ R.fin z ∧
      R.Apx 2 (R.v (x * (y * z))) (R.v y * R.v z * R.v x) (|R.v y| * |R.v z| * |R.v x|) (ε - R.σ) := by
    intro x y z hx hy hf hz
    obtain ⟨f1, f2⟩ := R.fin_mul hf
    obtain ⟨f3, f4⟩ := R.fin_mul f2
    obtain ⟨δ, e, hδ, he, h3⟩ := R.mul hx hf
    obtain ⟨δ', e', hδ', he', h4⟩ := R.mul hy f2
    refine ⟨f1, f3, f4, apx_triple hδ he hδ' (he'.trans ?_) (h3.trans ?_) hz⟩
    · have := R.μ_add_σ
      have := R.σ_nonneg
      linarith
    · rw [h4]
      ring
  have eq : ∀ {r S A S' A' : F}, R.Apx 2 r S A (ε - R.σ) → S = S' → A = A' → R.Apx 2 r S' A' (ε - R.σ) := by
    rintro r S A _ _ h rfl rfl
    exact h
  obtain rfl | rfl | rfl | rfl | rfl | rfl := h
  · obtain ⟨f1, f2, f3, h1⟩ := left ha hf hεd
    exact ⟨f1, f2, f3, eq h1 (by ring) (by ring)⟩
  · obtain ⟨f1, f2, f3, h1⟩ := left hb hf hεd
    exact ⟨f2, f1, f3, eq h1 (by ring) (by ring)⟩
  · obtain ⟨f1, f2, f3, h1⟩ := left ha hf hεb
    exact ⟨f1, f3, f2, eq h1 (by ring) (by ring)⟩
  · obtain ⟨f1, f2, f3, h1⟩ := left hb hf hεa
    exact ⟨f3, f1, f2, eq h1 (by ring) (by ring)⟩
  · obtain ⟨f1, f2, f3, h1⟩ := right ha hb hf hεa
    exact ⟨f1, f2, f3, eq h1 (by ring) (by ring)⟩
  · obtain ⟨f1, f2, f3, h1⟩ := right hb ha hf hεb
    exact ⟨f2, f1, f3, eq h1 (by ring) (by ring)⟩

end Rounding

/-! ### Rows -/

variable {P : Nat → Nat → Prop} {n h q : Nat} {A L : Nat → Nat → K} {D : Nat → K} {reg : K → Nat → K}

/-- Entries of the factor are quotients. -/
theorem FormulasWith.stored {R : Rounding K F} {m : Nat} {Quot : K → K → K → Prop}
    (hr : FormulasWith Quot P n h q A L D reg) (hQ : ∀ j < n, R.Divides m Quot (D j)) (hP : ∀ i j, P i j → j < i) {i j : Nat}
    (hi : i < n) (hij : P i j) : R.stored (L i j) := by
  obtain ⟨w, -, h2, -⟩ := hr i hi
  have := hP i j hij
  exact (hQ j (by omega) _ _ (h2 j hij)).1

theorem mem_commonEntries {i j k : Nat} : k ∈ commonEntriesOf P i j ↔ k < j ∧ P i k ∧ P j k := by
  unfold commonEntriesOf
  simp

/-- Errors of the factorization, evaluated in any order. -/
theorem FormulasWith.apx (R : RoundingAdd K F) {m : Nat} {Quot : K → K → K → Prop} (hm : 1 ≤ m)
    (hr : FormulasWith Quot P n h q A L D reg) (hQ : ∀ j < n, R.Divides m Quot (D j)) (hP : ∀ i j, P i j → j < i)
    (hfill : ∀ i j k, P i k → P j k → j < i → P i j) (hA : ∀ i j, A i j = A j i)
    (hA0 : ∀ i j, j < i → ¬ P i j → A i j = 0) (hL0 : ∀ i j, ¬ P i j → L i j = 0)
    (hfin : ∀ i < n, R.fin (D i) ∧ ∀ x, D i = reg x i → R.fin x) {ε : F} (h0 : R.σ ≤ ε)
    (hε : ∀ i j, P i j → R.η * ((1 + |R.v (D j)|) * (1 + |R.v (L i j)|)) ≤ ε) :
    ∃ x : Nat → K, (∀ i < n, D i = reg (x i) i) ∧ ∀ i < n, ∀ j < n,
      R.Apx (h + (m + 1)) (R.v (A i j))
        (ldlt n (fun a b => R.v (L a b)) (fun a => R.v (D a)) i j + if i = j then R.v (x i) - R.v (D i) else 0)
        (ldlt n (fun a b => |R.v (L a b)|) (fun a => |R.v (D a)|) i j + if i = j then |R.v (x i)| - |R.v (D i)| else 0)
        ((q + 1) * ε) := by
  classical
  choose! w hw using hr
  refine ⟨fun i => w i i, fun i hi => (hw i hi).2.2, ?_⟩
  have hη := R.η_nonneg
  have hst : ∀ i < n, ∀ j, P i j → R.stored (L i j) := fun i hi j hij => by
    have := hP i j hij
    exact (hQ j (by omega) _ _ ((hw i hi).2.1 j hij)).1
  have bound : ∀ i j, P i j → R.η * (1 + |R.v (D j)|) ≤ ε ∧ R.η * (1 + |R.v (L i j)|) ≤ ε ∧
      R.η * (1 + |R.v (D j)| * (1 + |R.v (L i j)|)) ≤ ε ∧ R.η * |R.v (D j)| ≤ ε := by
    intro i j hij
    have h1 := hε i j hij
    have h2 := mul_nonneg hη (abs_nonneg (R.v (D j)))
    have h3 := mul_nonneg hη (abs_nonneg (R.v (L i j)))
    have h4 := mul_nonneg hη (mul_nonneg (abs_nonneg (R.v (D j))) (abs_nonneg (R.v (L i j))))
    refine ⟨?_, ?_, ?_, ?_⟩ <;> nlinarith
  have hεσ : 0 ≤ ε - R.σ := sub_nonneg.mpr h0
  -- the terms of row `i`
  have hx : ∀ i < n, R.fin (w i i) := fun i hi => (hfin i hi).2 _ (hw i hi).2.2
  have hlfin : ∀ i < n, ∀ j, P i j → R.fin (L i j) := by
    intro i hi k hk
    obtain ⟨f, h1, h2⟩ := (hw i hi).1 i (Or.inr rfl)
    have h3 := (h2.apx R (hx i hi)).2.1 k (mem_commonEntries.mpr ⟨hP i k hk, hk, hk⟩)
    rcases h1 k hk hk with h4 | h4 | h4
    · rw [h4] at h3
      exact (R.fin_mul h3).1
    · rw [h4] at h3
      exact (R.fin_mul h3).2
    · obtain ⟨b1, b2, b3, b4⟩ := bound i k hk
      exact (Rounding.apx_tripleProduct h4 (hst i hi k hk) (hst i hi k hk) h3 b2 b2 b1).1
  have hterm : ∀ i < n, ∀ j ≤ i, ∀ k, P i k → P j k → ∀ r, (r = L j k * w i k ∨ r = w i k * L j k ∨ TripleProduct (L i k) (L j k) (D k) r) →
      R.fin r → R.Apx (m + 1) (R.v r) (R.v (L i k) * R.v (D k) * R.v (L j k)) (|R.v (L i k)| * |R.v (D k)| * |R.v (L j k)|)
        (ε - R.σ) := by
    intro i hi j hj k hik hjk r hr hf
    have hk := hP i k hik
    have hl := hlfin i hi k hik
    obtain ⟨b1, b2, -, -⟩ := bound i k hik
    obtain ⟨-, c2, c3, -⟩ := bound j k hjk
    rcases hr with rfl | rfl | hr
    · exact Rounding.apx_mul_num_any (hst j (by omega) k hjk) ((hQ k (by omega) _ _ ((hw i hi).2.1 k hik)).2 hl).2.2 hf c3
    · have g := (hQ k (by omega) _ _ ((hw i hi).2.1 k hik)).2 hl
      exact Rounding.apx_num_mul_any g.2.1 g.2.2 hf c3
    · exact (Rounding.apx_tripleProduct hr (hst i hi k hik) (hst j (by omega) k hjk) hf b2 c2 b1).2.2.2.le (by omega)
  have hzero : ∀ i k, i ≤ k → R.v (L i k) = 0 := fun i k hik => by
    rw [hL0 i k fun hp => absurd (hP i k hp) (by omega), R.v_zero]
  -- entries below or on the diagonal
  have key : ∀ i < n, ∀ j ≤ i, R.Apx (h + (m + 1)) (R.v (A i j))
      (ldlt n (fun a b => R.v (L a b)) (fun a => R.v (D a)) i j + if i = j then R.v (w i i) - R.v (D i) else 0)
      (ldlt n (fun a b => |R.v (L a b)|) (fun a => |R.v (D a)|) i j +
        if i = j then |R.v (w i i)| - |R.v (D i)| else 0) ((q + 1) * ε) := by
    intro i hi j hj
    have hε0 : 0 ≤ ε := R.σ_nonneg.trans h0
    rw [ldlt_lower hzero hj (by omega), ldlt_lower (l := fun a b => |R.v (L a b)|)
      (fun a b hab => by beta_reduce; rw [hzero a b hab, abs_zero]) hj (by omega)]
    by_cases hij : P i j ∨ j = i
    · obtain ⟨f, h1, h2⟩ := (hw i hi).1 j hij
      have hwf : R.fin (w i j) ∧ ∃ Y AY, R.Apx (m + 1) (R.v (w i j)) Y AY ε ∧
          Y = unitLower (fun a b => R.v (L a b)) i j * R.v (D j) + (if i = j then R.v (w i i) - R.v (D i) else 0) ∧
          AY = unitLower (fun a b => |R.v (L a b)|) i j * |R.v (D j)| +
            (if i = j then |R.v (w i i)| - |R.v (D i)| else 0) := by
        rcases hij with hij | rfl
        · have hlt := hP i j hij
          have hl := hlfin i hi j hij
          obtain ⟨g1, -, g2⟩ := (hQ j (by omega) _ _ ((hw i hi).2.1 j hij)).2 hl
          refine ⟨g1, _, _, g2.mono (by omega) le_rfl (bound i j hij).2.2.2, ?_, ?_⟩
          · unfold unitLower
            rw [if_neg (by omega), if_neg (by omega), add_zero]
          · unfold unitLower
            rw [if_neg (by omega), if_neg (by omega), add_zero]
        · refine ⟨hx j hi, _, _, (Rounding.Apx.refl (m + 1) _).mono le_rfl le_rfl hε0, ?_, ?_⟩
          · unfold unitLower
            rw [if_pos rfl, if_pos rfl]
            ring
          · unfold unitLower
            rw [if_pos rfl, if_pos rfl]
            ring
      obtain ⟨hwf, Y, AY, hY, rfl, rfl⟩ := hwf
      obtain ⟨-, g1, g2⟩ := h2.apx R hwf
      have := g2 hεσ hY (T := fun k => R.v (L i k) * R.v (D k) * R.v (L j k))
        (AT := fun k => |R.v (L i k)| * |R.v (D k)| * |R.v (L j k)|) fun k hk => by
          have hk' := (mem_commonEntries.mp hk).2
          exact hterm i hi j hj k hk'.1 hk'.2 _ (h1 k hk'.1 hk'.2) (g1 k hk)
      rw [sum_commonEntries (fun k hk => ?_), sum_commonEntries (fun k hk => ?_)] at this
      · rw [add_right_comm, add_right_comm (unitLower (fun a b => |R.v (L a b)|) i j * |R.v (D j)|)]
        exact this.mono (by omega) le_rfl (le_of_eq (by ring))
      · by_cases h3 : P i k
        · rw [hL0 j k fun h4 => hk ⟨h3, h4⟩, R.v_zero, abs_zero, mul_zero]
        · rw [hL0 i k h3, R.v_zero, abs_zero, zero_mul, zero_mul]
      · by_cases h3 : P i k
        · rw [hL0 j k fun h4 => hk ⟨h3, h4⟩, R.v_zero, mul_zero]
        · rw [hL0 i k h3, R.v_zero, zero_mul, zero_mul]
    · have hlt : j < i := lt_of_le_of_ne hj fun e => hij (Or.inr e)
      have hp : ¬ P i j := fun e => hij (Or.inl e)
      have hno : ∀ k, R.v (L i k) = 0 ∨ R.v (L j k) = 0 := by
        intro k
        by_cases h3 : P i k
        · right
          rw [hL0 j k fun h4 => hp (hfill i j k h3 h4 hlt), R.v_zero]
        · left
          rw [hL0 i k h3, R.v_zero]
      have e1 : ∑ k ∈ range j, R.v (L i k) * R.v (D k) * R.v (L j k) = 0 :=
        sum_eq_zero fun k _ => by rcases hno k with e | e <;> rw [e] <;> ring
      have e2 : ∑ k ∈ range j, |R.v (L i k)| * |R.v (D k)| * |R.v (L j k)| = 0 :=
        sum_eq_zero fun k _ => by rcases hno k with e | e <;> rw [e, abs_zero] <;> ring
      beta_reduce
      rw [e1, e2, if_neg (by omega), if_neg (by omega), unitLower, unitLower, if_neg (by omega), if_neg (by omega),
        hA0 i j hlt hp, hL0 i j hp, R.v_zero, abs_zero]
      have := (Rounding.Apx.refl (R := R.toRounding) (h + (m + 1)) 0).mono le_rfl le_rfl
        (show (0 : F) ≤ (q + 1) * ε by positivity)
      rw [abs_zero] at this
      simpa using this
  intro i hi j hj
  rcases le_total j i with hji | hij
  · exact key i hi j hji
  · have := key j hj i hij
    rw [hA, ldlt_symm, ldlt_symm (l := fun a b => |R.v (L a b)|)]
    by_cases e : i = j
    · subst e
      exact this
    · rw [if_neg e, if_neg e]
      rwa [if_neg (Ne.symm e), if_neg (Ne.symm e)] at this

/-- Errors of solving, evaluated in any order. -/
theorem SolveWith.err (R : RoundingAdd K F) {m h₁ q₁ h₂ q₂ : Nat} {b x : Nat → K} {Quot : K → K → K → Prop}
    (hr : SolveWith Quot P n h₁ q₁ h₂ q₂ L D b x) (hQ : ∀ j < n, R.Divides m Quot (D j)) (hP : ∀ i j, P i j → j < i) (hL0 : ∀ i j, ¬ P i j → L i j = 0)
    (hst : ∀ i < n, ∀ j, P i j → R.stored (L i j)) (hfin : ∀ i < n, R.fin (x i))
    (hσ : R.σ ≤ R.η) :
    ∀ i < n,
      |R.v (b i) - ∑ j ∈ range n, ldlt n (fun a b => R.v (L a b)) (fun a => R.v (D a)) i j * R.v (x j)| ≤
        R.gamma (h₁ + h₂ + m + 2) * ∑ j ∈ range n,
          ldlt n (fun a b => |R.v (L a b)|) (fun a => |R.v (D a)|) i j * |R.v (x j)| +
        R.growth (h₁ + h₂ + m + 2) * (q₁ * R.η + ∑ j ∈ range n,
          unitLower (fun a b => |R.v (L a b)|) i j * (|R.v (D j)| * ((q₂ + 1) * R.η))) := by
  obtain ⟨y, z, hy, hz, hx⟩ := hr
  have hησ := sub_nonneg.mpr hσ
  have hzero : ∀ i k, i ≤ k → R.v (L i k) = 0 := fun i k hik => by
    rw [hL0 i k fun hp => absurd (hP i k hp) (by omega), R.v_zero]
  have hzero' : ∀ i k, i ≤ k → |R.v (L i k)| = 0 := fun i k hik => by rw [hzero i k hik, abs_zero]
  have hmul : ∀ {l z : K}, R.stored l → R.fin (l * z) →
      R.Apx 1 (R.v (l * z)) (R.v l * R.v z) (|R.v l| * |R.v z|) (R.η - R.σ) := by
    intro l z hl hf
    obtain ⟨δ, e, hδ, he, h4⟩ := R.mul hl hf
    have := ((Rounding.Apx.refl (R := R.toRounding) 0 (R.v l * R.v z)).mul_round hδ).add_err
      (le_trans he (le_sub_iff_add_le.mpr R.μ_add_σ))
    rwa [← h4, abs_mul, zero_add, zero_add] at this
  have hmid : ∀ j < n, R.fin (y j) ∧ R.Apx (h₂ + m + 1) (R.v (y j))
      (R.v (D j) * ∑ k ∈ range n, unitLower (fun a b => R.v (L a b)) k j * R.v (x k))
      (|R.v (D j)| * ∑ k ∈ range n, unitLower (fun a b => |R.v (L a b)|) k j * |R.v (x k)|)
      (|R.v (D j)| * ((q₂ + 1) * R.η)) := by
    intro j hj
    obtain ⟨g1, g2, g3⟩ := (hx j hj).apx R (hfin j hj)
    have h2 := g3 hησ (m := 1) (Rounding.Apx.refl 1 _) (T := fun k => R.v (L k j) * R.v (x k))
      (AT := fun k => |R.v (L k j)| * |R.v (x k)|) fun k hk => by
        have hk' : k < n ∧ P k j := by
          unfold columnEntriesOf at hk
          simpa using hk
        exact hmul (hst k hk'.1 j hk'.2) (g2 k hk)
    rw [sum_columnEntries (fun k hk => by rw [hL0 k j hk, R.v_zero, zero_mul]),
      sum_columnEntries (fun k hk => by rw [hL0 k j hk, R.v_zero, abs_zero, zero_mul]),
      ← unitLower_column (l := fun a b => R.v (L a b)) (y := fun k => R.v (x k)) hzero hj,
      ← unitLower_column (l := fun a b => |R.v (L a b)|) (y := fun k => |R.v (x k)|) hzero' hj, zero_add] at h2
    obtain ⟨h3, -, h4⟩ := (hQ j hj _ _ (hz j hj)).2 g1
    refine ⟨h3, ?_⟩
    have h5 : R.Apx m (R.v (y j)) (∑ _k ∈ ({()} : Finset Unit), R.v (D j) * R.v (z j))
        (∑ _k ∈ ({()} : Finset Unit), |R.v (D j)| * |R.v (z j)|) (R.η * |R.v (D j)|) := by
      rw [sum_singleton, sum_singleton, mul_comm, mul_comm |R.v (D j)|]
      exact h4
    have h6 := h5.subst (fun _ _ => h2)
    rw [sum_singleton, sum_singleton, sum_singleton] at h6
    refine h6.mono (by omega) le_rfl (le_of_eq ?_)
    ring
  intro i hi
  obtain ⟨-, g2, g3⟩ := (hy i hi).apx R (hmid i hi).1
  have h2 := g3 hησ (m := 1) (Rounding.Apx.refl 1 _) (T := fun k => R.v (L i k) * R.v (y k))
    (AT := fun k => |R.v (L i k)| * |R.v (y k)|) fun k hk => by
      have hk' : k < i ∧ P i k := by
        unfold rowEntriesOf at hk
        simpa using hk
      exact hmul (hst i hi k hk'.2) (g2 k hk)
  rw [sum_rowEntries (fun k hk => by rw [hL0 i k hk, R.v_zero, zero_mul]),
    sum_rowEntries (fun k hk => by rw [hL0 i k hk, R.v_zero, abs_zero, zero_mul]),
    ← unitLower_row (l := fun a b => R.v (L a b)) (y := fun k => R.v (y k)) hzero hi,
    ← unitLower_row (l := fun a b => |R.v (L a b)|) (y := fun k => |R.v (y k)|) hzero' hi, zero_add] at h2
  have habs : ∀ j, unitLower (fun a b => |R.v (L a b)|) i j = |unitLower (fun a b => R.v (L a b)) i j| := by
    intro j
    unfold unitLower
    split
    · exact abs_one.symm
    · rfl
  simp only [habs] at h2
  have h3 := h2.subst (fun k hk => (hmid k (mem_range.mp hk)).2)
  simp only [← habs] at h3
  unfold ldlt
  rw [ldlt_mul, ldlt_mul]
  exact (h3.le (by omega)).err

/-- The residual after factorizing and solving, evaluated in any order. -/
theorem FormulasWith.residual (R : RoundingAdd K F) {m h₁ q₁ h₂ q₂ : Nat} {Quot : K → K → K → Prop} {b y : Nat → K}
    (hr : FormulasWith Quot P n h q A L D reg) (hm : 1 ≤ m) (hs : SolveWith Quot P n h₁ q₁ h₂ q₂ L D b y)
    (hQ : ∀ j < n, R.Divides m Quot (D j)) (hP : ∀ i j, P i j → j < i)
    (hfill : ∀ i j k, P i k → P j k → j < i → P i j) (hA : ∀ i j, A i j = A j i)
    (hA0 : ∀ i j, j < i → ¬ P i j → A i j = 0) (hL0 : ∀ i j, ¬ P i j → L i j = 0)
    (hfin : ∀ i < n, R.fin (D i) ∧ ∀ x, D i = reg x i → R.fin x) (hyfin : ∀ i < n, R.fin (y i))
    {ε : F} (h0 : R.σ ≤ ε) (hε : ∀ i j, P i j → R.η * ((1 + |R.v (D j)|) * (1 + |R.v (L i j)|)) ≤ ε) (hσ : R.σ ≤ R.η) :
    ∃ x : Nat → K, (∀ i < n, D i = reg (x i) i) ∧ ∀ i < n,
      |R.v (b i) - ∑ j ∈ range n, (R.v (A i j) + if i = j then R.v (D i) - R.v (x i) else 0) * R.v (y j)| ≤
        R.gamma (h₁ + h₂ + m + 2) * ∑ j ∈ range n,
          ldlt n (fun a b => |R.v (L a b)|) (fun a => |R.v (D a)|) i j * |R.v (y j)| +
        R.gamma (h + (m + 1)) * ∑ j ∈ range n, (ldlt n (fun a b => |R.v (L a b)|) (fun a => |R.v (D a)|) i j +
          if i = j then |R.v (x i)| - |R.v (D i)| else 0) * |R.v (y j)| +
        (R.growth (h₁ + h₂ + m + 2) * (q₁ * R.η + ∑ j ∈ range n,
          unitLower (fun a b => |R.v (L a b)|) i j * (|R.v (D j)| * ((q₂ + 1) * R.η))) +
        R.growth (h + (m + 1)) * ((q + 1) * ε) * ∑ j ∈ range n, |R.v (y j)|) := by
  obtain ⟨x, hx, hE⟩ := hr.apx R hm hQ hP hfill hA hA0 hL0 hfin h0 hε
  have hsol := hs.err R hQ hP hL0 (fun i hi j hj => hr.stored hQ hP hi hj) hyfin hσ
  refine ⟨x, hx, fun i hi => ?_⟩
  have h1 := hsol i hi
  have h2 := fun j hj => (hE i hi j hj).err
  generalize R.v (b i) = β at h1 ⊢
  generalize R.gamma (h₁ + h₂ + m + 2) * _ = B1 at h1 ⊢
  generalize R.growth (h₁ + h₂ + m + 2) * _ = B2 at h1 ⊢
  set X : Nat → F := fun j => R.v (y j) with hX
  set S : Nat → F := fun j => ldlt n (fun a b => R.v (L a b)) (fun a => R.v (D a)) i j with hS
  set Q : Nat → F := fun j => ldlt n (fun a b => |R.v (L a b)|) (fun a => |R.v (D a)|) i j +
    if i = j then |R.v (x i)| - |R.v (D i)| else 0 with hQ
  set M : Nat → F := fun j => R.v (A i j) + if i = j then R.v (D i) - R.v (x i) else 0 with hM
  change |β - ∑ j ∈ range n, M j * X j| ≤ B1 + R.gamma (h + (m + 1)) * ∑ j ∈ range n, Q j * |X j| +
    (B2 + R.growth (h + (m + 1)) * ((q + 1) * ε) * ∑ j ∈ range n, |X j|)
  change |β - ∑ j ∈ range n, S j * X j| ≤ B1 + B2 at h1
  have h3 : ∀ j ∈ range n, |(M j - S j) * X j| ≤
      R.gamma (h + (m + 1)) * (Q j * |X j|) + R.growth (h + (m + 1)) * ((q + 1) * ε) * |X j| := by
    intro j hj
    rw [abs_mul, ← mul_assoc, ← add_mul]
    refine mul_le_mul_of_nonneg_right (le_trans (le_of_eq (congrArg _ ?_)) (h2 j (mem_range.mp hj))) (abs_nonneg _)
    simp only [hM, hS]
    split <;> ring
  have h4 : β - ∑ j ∈ range n, M j * X j =
      (β - ∑ j ∈ range n, S j * X j) - ∑ j ∈ range n, (M j - S j) * X j := by
    simp only [sub_mul, sum_sub_distrib]
    ring
  have h5 : |∑ j ∈ range n, (M j - S j) * X j| ≤
      ∑ j ∈ range n, (R.gamma (h + (m + 1)) * (Q j * |X j|) + R.growth (h + (m + 1)) * ((q + 1) * ε) * |X j|) :=
    (abs_sum_le_sum_abs _ _).trans (sum_le_sum h3)
  simp only [sum_add_distrib, ← mul_sum] at h5
  rw [h4]
  refine (abs_sub _ _).trans ((add_le_add h1 h5).trans_eq ?_)
  ring

end Ctldl
