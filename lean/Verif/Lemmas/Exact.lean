import Verif.Lemmas.Unique
import Mathlib.Algebra.BigOperators.Group.Finset.Basic
import Mathlib.Algebra.BigOperators.Ring.Finset
import Mathlib.Algebra.Field.Basic
import Mathlib.Tactic.Ring
import Mathlib.Tactic.LinearCombination
import Mathlib.Tactic.FieldSimp

/-! # Exact arithmetic: the methods satisfy the equations of the factorization -/

namespace Ctldl

open Finset

section

variable {K : Type} [Field K]

theorem subAll_eq_sub_sum (l : List Nat) (f : Nat → K) (a : K) : subAll l f a = a - (l.map f).sum := by
  induction l generalizing a with
  | nil => simp [subAll]
  | cons k l ih =>
    show subAll l f (a - f k) = _
    rw [ih, List.map_cons, List.sum_cons]
    ring

theorem sum_map_filter {l : List Nat} (hl : l.Nodup) {n : Nat} (hn : ∀ k ∈ l, k < n) (p : Nat → Bool)
    {f : Nat → K} (hf : ∀ k, ¬ (k ∈ l ∧ p k = true) → f k = 0) :
    ((l.filter p).map f).sum = ∑ k ∈ range n, f k := by
  rw [← List.sum_toFinset f (hl.filter p)]
  refine Finset.sum_subset ?_ ?_
  · intro k hk
    rw [List.mem_toFinset, List.mem_filter] at hk
    exact Finset.mem_range.mpr (hn k hk.1)
  · intro k _ hk
    rw [List.mem_toFinset, List.mem_filter] at hk
    exact hf k hk

theorem sum_map_cols {c : Csr} (hc : c.Good) (i : Nat) {f : Nat → K} (hf : ∀ k, ¬ c.Has i k → f k = 0) :
    ((c.cols i).map f).sum = ∑ k ∈ range c.numCols, f k := by
  rw [← List.sum_toFinset f (hc.cols_nodup i)]
  refine Finset.sum_subset ?_ ?_
  · intro k hk
    rw [List.mem_toFinset, Csr.mem_cols] at hk
    exact Finset.mem_range.mpr (hc.col_lt hk)
  · intro k _ hk
    rw [List.mem_toFinset, Csr.mem_cols] at hk
    exact hf k hk

theorem sum_map_cols_filter {c : Csr} (hc : c.Good) (i : Nat) (c' : Csr) (j : Nat) {f : Nat → K}
    (hf : ∀ k, ¬ (c.Has i k ∧ c'.Has j k) → f k = 0) :
    (((c.cols i).filter (c'.Has j ·)).map f).sum = ∑ k ∈ range c.numCols, f k := by
  refine sum_map_filter (hc.cols_nodup i) (fun k hk => hc.col_lt (Csr.mem_cols.mp hk)) _ ?_
  intro k hk
  refine hf k fun h => hk ⟨Csr.mem_cols.mpr h.1, by simpa using h.2⟩

/-- The pivots divided by in row `i` are not zero. -/
structure PivotsOk (c21 c22 : Csr) (d1 d2 : Nat → K) (i : Nat) : Prop where
  p1 : ∀ j, c21.Has i j → d1 j ≠ 0
  p2 : ∀ j, c22.Has i j → d2 j ≠ 0

theorem upRow_iff_entryRow {c11 c21 c22 : Csr} {l11 : Nat → Nat → K} {d1 : Nat → K} {a21 a22 : Nat → Nat → K}
    {aD : Nat → K} {reg : K → Nat → K} {l21 l22 : Nat → Nat → K} {d2 : Nat → K} {i : Nat}
    (hp : PivotsOk c21 c22 d1 d2 i) :
    UpRow c11 c21 c22 l11 d1 a21 a22 aD reg l21 l22 d2 i ↔
      EntryRow c11 c21 c22 l11 d1 a21 a22 aD reg l21 l22 d2 i := by
  constructor
  · rintro ⟨w1, w2, h1, h2, h3, h4, h5⟩
    have e1 : ∀ j, c21.Has i j → w1 j = l21 i j * d1 j := fun j hj => by
      rw [h2 j hj, div_mul_cancel₀ _ (hp.p1 j hj)]
    have e2 : ∀ j, c22.Has i j → w2 j = l22 i j * d2 j := fun j hj => by
      rw [h4 j hj, div_mul_cancel₀ _ (hp.p2 j hj)]
    refine ⟨?_, ?_, ?_⟩
    · intro j hj
      unfold EntrySub
      rw [h2 j hj, h1 j hj]
      congr 1
      apply subAll_congr
      intro k hk
      rw [List.mem_filter, Csr.mem_cols] at hk
      rw [e1 k hk.1]
      ring
    · intro j hj
      unfold EntryDiag
      rw [h4 j hj, h3 j hj]
      congr 1
      rw [subAll_congr (f := fun k => l21 j k * w1 k) (g := fun k => l21 i k * l21 j k * d1 k)]
      · apply subAll_congr
        intro k hk
        rw [List.mem_filter, Csr.mem_cols] at hk
        rw [e2 k hk.1]
        ring
      · intro k hk
        rw [List.mem_filter, Csr.mem_cols] at hk
        rw [e1 k hk.1]
        ring
    · rw [h5]
      congr 1
      rw [subAll_congr (f := fun j => w1 j * (w1 j / d1 j)) (g := fun j => l21 i j * l21 i j * d1 j)]
      · apply subAll_congr
        intro k hk
        have hk' := Csr.mem_cols.mp hk
        rw [← h4 k hk', e2 k hk']
        ring
      · intro k hk
        have hk' := Csr.mem_cols.mp hk
        rw [← h2 k hk', e1 k hk']
        ring
  · rintro ⟨h1, h2, h3⟩
    unfold EntrySub at h1
    unfold EntryDiag at h2
    refine ⟨fun j => l21 i j * d1 j, fun j => l22 i j * d2 j, ?_, ?_, ?_, ?_, ?_⟩
    · intro j hj
      have := h1 j hj
      rw [eq_div_iff (hp.p1 j hj)] at this
      beta_reduce
      rw [this]
      apply subAll_congr
      intro k _
      ring
    · intro j hj
      rw [mul_div_cancel_right₀ _ (hp.p1 j hj)]
    · intro j hj
      have := h2 j hj
      rw [eq_div_iff (hp.p2 j hj)] at this
      beta_reduce
      rw [this]
      rw [subAll_congr (f := fun k => l21 i k * l21 j k * d1 k) (g := fun k => l21 j k * (l21 i k * d1 k))]
      · apply subAll_congr
        intro k _
        ring
      · intro k _
        ring
    · intro j hj
      rw [mul_div_cancel_right₀ _ (hp.p2 j hj)]
    · rw [h3]
      congr 1
      rw [subAll_congr (f := fun j => l21 i j * l21 i j * d1 j)
        (g := fun j => l21 i j * d1 j * (l21 i j * d1 j / d1 j))]
      · apply subAll_congr
        intro k hk
        rw [mul_div_cancel_right₀ _ (hp.p2 k (Csr.mem_cols.mp hk))]
        ring
      · intro k hk
        rw [mul_div_cancel_right₀ _ (hp.p1 k (Csr.mem_cols.mp hk))]
        ring

theorem methodRow_iff_entryRow {method : Method} {c11 c21 c22 : Csr} {l11 : Nat → Nat → K} {d1 : Nat → K}
    {a21 a22 : Nat → Nat → K} {aD : Nat → K} {reg : K → Nat → K} {l21 l22 : Nat → Nat → K} {d2 : Nat → K} {i : Nat}
    (hp : PivotsOk c21 c22 d1 d2 i) :
    MethodRow method c11 c21 c22 l11 d1 a21 a22 aD reg l21 l22 d2 i ↔
      EntryRow c11 c21 c22 l11 d1 a21 a22 aD reg l21 l22 d2 i := by
  cases method with
  | upLooking => exact upRow_iff_entryRow hp
  | entryWise => exact Iff.rfl

/-- Equations satisfied by row `i` of `L₂₁`, `L₂₂`, `D₂`. -/
structure ExactRow (n1 n2 : Nat) (l11 : Nat → Nat → K) (d1 : Nat → K) (a21 a22 : Nat → Nat → K) (aD : Nat → K)
    (reg : K → Nat → K) (l21 l22 : Nat → Nat → K) (d2 : Nat → K) (i : Nat) : Prop where
  e21 : ∀ j < n1, ∑ k ∈ range n1, l21 i k * d1 k * l11 j k + l21 i j * d1 j = a21 i j
  e22 : ∀ j < i, ∑ k ∈ range n1, l21 i k * d1 k * l21 j k + ∑ k ∈ range n2, l22 i k * d2 k * l22 j k
    + l22 i j * d2 j = a22 i j
  eD : ∃ δ, d2 i = reg δ i ∧ ∑ k ∈ range n1, l21 i k * d1 k * l21 i k
    + ∑ k ∈ range n2, l22 i k * d2 k * l22 i k + δ = aD i

theorem exactRow_of_entryRow {c11 c21 c22 : Csr} {n1 n2 : Nat} (g21 : c21.Good) (g22 : c22.Good)
    (hc21 : c21.numCols = n1) (hc22 : c22.numCols = n2) {L11 L21 L22 : List K} {d1 d2 : Nat → K}
    {a21 a22 : Nat → Nat → K} {aD : Nat → K} {reg : K → Nat → K} {i : Nat}
    (cl21 : ∀ i j k, c21.Has i j → c11.Has k j → c21.Has i k)
    (cl22 : ∀ i j k, c21.Has i j → c21.Has k j → k < i → c22.Has i k)
    (cl22' : ∀ i j k, c22.Has i j → c22.Has k j → k < i → c22.Has i k)
    (z21 : ∀ j < n1, ¬ c21.Has i j → a21 i j = 0) (z22 : ∀ j < i, ¬ c22.Has i j → a22 i j = 0)
    (hp : PivotsOk c21 c22 d1 d2 i)
    (h : EntryRow c11 c21 c22 (val c11 L11) d1 a21 a22 aD reg (val c21 L21) (val c22 L22) d2 i) :
    ExactRow n1 n2 (val c11 L11) d1 a21 a22 aD reg (val c21 L21) (val c22 L22) d2 i := by
  obtain ⟨h1, h2, h3⟩ := h
  subst hc21 hc22
  refine ⟨?_, ?_, ?_⟩
  · intro j hj
    by_cases hij : c21.Has i j
    · have := h1 j hij
      unfold EntrySub at this
      rw [eq_div_iff (hp.p1 j hij), subAll_eq_sub_sum, sum_map_cols_filter g21] at this
      · rw [this]
        have : ∑ k ∈ range c21.numCols, val c21 L21 i k * d1 k * val c11 L11 j k =
            ∑ k ∈ range c21.numCols, val c21 L21 i k * val c11 L11 j k * d1 k :=
          Finset.sum_congr rfl fun k _ => by ring
        rw [this]
        ring
      · intro k hk
        by_cases h1 : c21.Has i k
        · rw [val_off (fun h => hk ⟨h1, h⟩)]
          ring
        · rw [val_off h1]
          ring
    · rw [val_off hij, z21 j hj hij, zero_mul, add_zero]
      apply Finset.sum_eq_zero
      intro k _
      by_cases h1 : c21.Has i k
      · rw [val_off (fun h => hij (cl21 _ _ _ h1 h)), mul_zero]
      · rw [val_off h1, zero_mul, zero_mul]
  · intro j hj
    by_cases hij : c22.Has i j
    · have := h2 j hij
      unfold EntryDiag at this
      rw [eq_div_iff (hp.p2 j hij), subAll_eq_sub_sum, subAll_eq_sub_sum, sum_map_cols_filter g22,
        sum_map_cols_filter g21] at this
      · rw [this]
        have q1 : ∑ k ∈ range c21.numCols, val c21 L21 i k * d1 k * val c21 L21 j k =
            ∑ k ∈ range c21.numCols, val c21 L21 i k * val c21 L21 j k * d1 k :=
          Finset.sum_congr rfl fun k _ => by ring
        have q2 : ∑ k ∈ range c22.numCols, val c22 L22 i k * d2 k * val c22 L22 j k =
            ∑ k ∈ range c22.numCols, val c22 L22 i k * val c22 L22 j k * d2 k :=
          Finset.sum_congr rfl fun k _ => by ring
        rw [q1, q2]
        ring
      · intro k hk
        by_cases h1 : c21.Has i k
        · rw [val_off (fun h => hk ⟨h1, h⟩)]
          ring
        · rw [val_off h1]
          ring
      · intro k hk
        by_cases h1 : c22.Has i k
        · rw [val_off (i := j) (fun h => hk ⟨h1, h⟩)]
          ring
        · rw [val_off h1]
          ring
    · rw [val_off hij, z22 j hj hij, zero_mul, add_zero]
      have q1 : ∑ k ∈ range c21.numCols, val c21 L21 i k * d1 k * val c21 L21 j k = 0 := by
        apply Finset.sum_eq_zero
        intro k _
        by_cases h1 : c21.Has i k
        · rw [val_off (i := j) (fun h => hij (cl22 _ _ _ h1 h hj)), mul_zero]
        · rw [val_off h1, zero_mul, zero_mul]
      have q2 : ∑ k ∈ range c22.numCols, val c22 L22 i k * d2 k * val c22 L22 j k = 0 := by
        apply Finset.sum_eq_zero
        intro k _
        by_cases h1 : c22.Has i k
        · rw [val_off (i := j) (fun h => hij (cl22' _ _ _ h1 h hj)), mul_zero]
        · rw [val_off h1, zero_mul, zero_mul]
      rw [q1, q2, add_zero]
  · refine ⟨_, h3, ?_⟩
    rw [subAll_eq_sub_sum, subAll_eq_sub_sum, sum_map_cols g22, sum_map_cols g21]
    · have q1 : ∑ k ∈ range c21.numCols, val c21 L21 i k * d1 k * val c21 L21 i k =
          ∑ k ∈ range c21.numCols, val c21 L21 i k * val c21 L21 i k * d1 k :=
        Finset.sum_congr rfl fun k _ => by ring
      have q2 : ∑ k ∈ range c22.numCols, val c22 L22 i k * d2 k * val c22 L22 i k =
          ∑ k ∈ range c22.numCols, val c22 L22 i k * val c22 L22 i k * d2 k :=
        Finset.sum_congr rfl fun k _ => by ring
      rw [q1, q2]
      ring
    · intro k hk
      rw [val_off hk]
      ring
    · intro k hk
      rw [val_off hk]
      ring

end

section

variable {K : Type} [Zero K]

theorem a21Of_zero {init21 : Init K} {f21 : SubFactor K} {n1 n2 : Nat} (hd : InitDims init21 n2 n1)
    (hsub : ∀ i j, RectPermuted init21.sparsity f21.permutationRow f21.permutationCol i j → f21.sparsity.Has i j)
    {i j : Nat} (hi : i < n2) (hj : j < n1) (h : ¬ f21.sparsity.Has i j) : a21Of init21 f21 i j = 0 := by
  unfold a21Of initVal
  cases init21 with
  | none r c => exact val_off h
  | matrix m =>
    simp only [origSub]
    unfold MatIn.elem
    rw [if_neg]
    intro hh
    exact h (hsub i j ⟨by rw [hd.2.1]; exact hi, by rw [hd.2.2]; exact hj, hh⟩)

theorem a22Of_zero {init22 : Init K} {f22 : DiagFactor K} {n2 : Nat} (hd : InitDims init22 n2 n2)
    (hsub : ∀ i j, LowerPermuted init22.sparsity f22.permutation i j → f22.sparsity.Has i j)
    {i j : Nat} (hi : i < n2) (hj : j < i) (h : ¬ f22.sparsity.Has i j) : a22Of init22 f22 i j = 0 := by
  unfold a22Of initVal
  cases init22 with
  | none r c => exact val_off h
  | matrix m =>
    simp only [origDiag]
    unfold MatIn.elem
    rw [if_neg]
    intro hh
    exact h (hsub i j ⟨hj, by rw [hd.2.1]; exact hi, hh⟩)

end

/-- A result with non-zero pivots of one method is also the result of the other. -/
theorem factorizeBlocks_agree {K : Type} [Field K] {f11 : DiagFactor K} {f21 : SubFactor K} {f22 : DiagFactor K}
    {n1 n2 : Nat}
    (h11 : DiagOk f11 n1) (h21 : SubOk f21 n2 n1) (h22 : DiagOk f22 n2) (hp : PermsOk f21 f22 n1 n2)
    {init21 init22 : Init K} (hd21 : InitDims init21 n2 n1) (hd22 : InitDims init22 n2 n2)
    (hi21 : InitOk init21 f21.sparsity) (hi22 : InitOk init22 f22.sparsity)
    (hcl : Closed2 f11.sparsity.Has f21.sparsity.Has f22.sparsity.Has) (hsub : InitSubset init21 init22 f21 f22)
    {reg : K → Nat → K} {method : Method} {g21 : SubFactor K} {g22 : DiagFactor K}
    (hg : factorizeBlocks f11 init21 init22 f21 f22 reg method = .ok (g21, g22))
    (hpiv1 : ∀ i j, f21.sparsity.Has i j → f11.d j ≠ 0)
    (hpiv2 : ∀ i j, f22.sparsity.Has i j → g22.d j ≠ 0) (method' : Method) :
    factorizeBlocks f11 init21 init22 f21 f22 reg method' = .ok (g21, g22) := by
  obtain ⟨L21, L22, D, he, hl21, hl22, hlD, hrows⟩ :=
    Sat.of_ok (factorizeBlocks_sat h11 h21 h22 hp hd21 hd22 hi21 hi22 hcl hsub reg method) hg
  simp only [Prod.mk.injEq] at he
  obtain ⟨rfl, rfl⟩ := he
  obtain ⟨st', e', L21', L22', D', rfl, hl21', hl22', hlD', hrows'⟩ :=
    factorizeBlocks_sat h11 h21 h22 hp hd21 hd22 hi21 hi22 hcl hsub reg method'
  have hrows'' : ∀ i < n2, MethodRow method' f11.sparsity f21.sparsity f22.sparsity f11.l f11.d (a21Of init21 f21)
        (a22Of init22 f22) (aDOf init22 f22) reg (val f21.sparsity L21) (val f22.sparsity L22)
        (fun a => D.getD a 0) i := by
    intro i hi
    have hpo : PivotsOk f21.sparsity f22.sparsity f11.d (fun a => D.getD a 0) i :=
      ⟨fun j hj => hpiv1 i j hj, fun j hj => hpiv2 i j hj⟩
    rw [methodRow_iff_entryRow hpo]
    exact (methodRow_iff_entryRow hpo).mp (hrows i hi)
  have hsame := methodRow_unique hrows' hrows'' h11.lower h22.lower (fun _ _ _ => rfl) (fun _ _ _ => rfl)
    (fun _ _ _ => rfl) (fun _ _ _ => rfl) (fun _ _ => rfl)
  have q1 : L21' = L21 := val_ext h21.good hl21' hl21 fun i j hij =>
    hsame.s21 i j (h21.rows ▸ h21.good.row_lt hij) hij
  have q2 : L22' = L22 := val_ext h22.good hl22' hl22 fun i j hij =>
    hsame.s22 i j (h22.rows ▸ h22.good.row_lt hij) hij
  have q3 : D' = D := list_ext_getD hlD' hlD hsame.sD
  rw [e', q1, q2, q3]

end Ctldl
