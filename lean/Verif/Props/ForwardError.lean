import Verif.Lemmas.ForwardError
import Verif.Props.RangeSolve
import Verif.Props.MultiplyRange
import Verif.Props.TestFunctor

/-! # C62: errors of solutions computed with rounding

Multiplying a vector with a positive definite matrix, factorizing the matrix and solving gives back the vector up to a bound. -/

namespace Ctldl

open Finset

section elements

variable {K : Type} [Zero K]

theorem MatIn.elem_keeps {P : K → Prop} (h0 : P 0) {m : MatIn K} (h : ∀ a ∈ m.numbers, P a) (i j : Nat) : P (m.elem i j) := by
  unfold MatIn.elem
  split
  · exact getD_keeps h0 h _
  · exact h0

theorem MatIn.sym_keeps {P : K → Prop} (h0 : P 0) {m : MatIn K} (h : ∀ a ∈ m.numbers, P a) (i j : Nat) : P (m.sym i j) :=
  MatIn.elem_keeps h0 h _ _

theorem MatIn.sym_comm (m : MatIn K) (i j : Nat) : m.sym i j = m.sym j i := by
  unfold MatIn.sym
  rw [max_comm, min_comm]

theorem ArrowheadMatrix.assembled_keeps {P : K → Prop} (h0 : P 0) {m : ArrowheadMatrix K} (h : ∀ a ∈ m.numbers, P a)
    (N : Nat) (k l : Σ _ : Blk, Nat) : P (m.assembled N k l) := by
  have hd : ∀ a, ∀ y ∈ (m.diagBlock a).numbers, P y := by
    intro a y hy
    refine h y ?_
    simp only [ArrowheadMatrix.numbers, List.mem_append, List.mem_flatMap]
    cases a with
    | start => exact Or.inl hy
    | link => tauto
    | outer => tauto
    | tridiag t =>
      simp only [ArrowheadMatrix.diagBlock] at hy
      by_cases ht : t < m.tridiagDiag.length
      · rw [List.getD_eq_getElem _ _ ht] at hy
        exact Or.inr (Or.inr (Or.inr (Or.inl ⟨_, List.getElem_mem ht, hy⟩)))
      · rw [List.getD_eq_default _ _ (by omega)] at hy
        cases hy
  have hl : ∀ a b q, m.lowerBlock N a b = some q → ∀ y ∈ q.numbers, P y := by
    intro a b q hq y hy
    refine h y ?_
    simp only [ArrowheadMatrix.numbers, List.mem_append, List.mem_flatMap]
    unfold ArrowheadMatrix.lowerBlock at hq
    split at hq
    · cases hq; tauto
    · split at hq
      · exact Or.inr (Or.inr (Or.inr (Or.inr (Or.inl ⟨q, List.mem_of_getElem? hq, hy⟩))))
      · cases hq
    · split at hq
      · cases hq; tauto
      · cases hq
    · cases hq; tauto
    · split at hq
      · exact Or.inr (Or.inr (Or.inr (Or.inr (Or.inr (Or.inr (Or.inr (Or.inr (Or.inl ⟨q, List.mem_of_getElem? hq, hy⟩))))))))
      · cases hq
    · cases hq; tauto
    · cases hq
  unfold ArrowheadMatrix.assembled ArrowheadMatrix.symElement assembledElement
  beta_reduce
  split
  · exact MatIn.sym_keeps h0 (hd _) _ _
  · cases h1 : m.lowerBlock N k.1 l.1 with
    | some q => exact MatIn.elem_keeps h0 (hl _ _ q h1) _ _
    | none =>
      cases h2 : m.lowerBlock N l.1 k.1 with
      | some q => exact MatIn.elem_keeps h0 (hl _ _ q h2) _ _
      | none => exact h0

theorem tridiagonalAssembled_keeps {P : K → Prop} (h0 : P 0) {A B : List (MatIn K)} (hA : ∀ b ∈ A, ∀ a ∈ b.numbers, P a)
    (hB : ∀ b ∈ B, ∀ a ∈ b.numbers, P a) (k l : Nat × Nat) : P (tridiagonalAssembled A B k l) := by
  have get : ∀ {L : List (MatIn K)}, (∀ b ∈ L, ∀ a ∈ b.numbers, P a) → ∀ t, ∀ a ∈ (L.getD t (.empty K)).numbers, P a := by
    intro L hL t a ha
    by_cases ht : t < L.length
    · rw [List.getD_eq_getElem _ _ ht] at ha
      exact hL _ (List.getElem_mem ht) a ha
    · rw [List.getD_eq_default _ _ (by omega)] at ha
      cases ha
  unfold tridiagonalAssembled tridiagonalSym
  split
  · exact MatIn.sym_keeps h0 (get hA _) _ _
  · split
    · exact MatIn.elem_keeps h0 (get hB _) _ _
    · split
      · exact MatIn.elem_keeps h0 (get hB _) _ _
      · exact h0

theorem tridiagonalAssembled_map {F : Type} [Zero F] {g : K → F} (h0 : g 0 = 0) (A B : List (MatIn K)) (k l : Nat × Nat) :
    tridiagonalAssembled (A.map (·.map g)) (B.map (·.map g)) k l = g (tridiagonalAssembled A B k l) := by
  have get : ∀ (L : List (MatIn K)) t, (L.map (·.map g)).getD t (.empty F) = (L.getD t (.empty K)).map g := by
    intro L t
    simp only [List.getD_eq_getElem?_getD, List.getElem?_map]
    cases L[t]? <;> rfl
  unfold tridiagonalAssembled tridiagonalSym
  simp only [get, sym_map h0, elem_map h0]
  split
  · rfl
  · split
    · rfl
    · split
      · rfl
      · exact h0.symm

theorem tridiagonalAssembled_comm (A B : List (MatIn K)) (k l : Nat × Nat) :
    tridiagonalAssembled A B k l = tridiagonalAssembled A B l k := by
  unfold tridiagonalAssembled tridiagonalSym
  by_cases h1 : k.1 = l.1
  · rw [if_pos h1, if_pos h1.symm, h1]
    exact MatIn.sym_comm _ _ _
  · rw [if_neg h1, if_neg (Ne.symm h1)]
    by_cases h2 : k.1 = l.1 + 1
    · rw [if_pos h2, if_neg (by omega), if_pos h2]
    · rw [if_neg h2]
      by_cases h3 : l.1 = k.1 + 1
      · rw [if_pos h3, if_pos h3]
      · rw [if_neg h3, if_neg h3, if_neg h2]

end elements

variable {K F : Type} [Zero K] [Add K] [Sub K] [Mul K] [Div K] [Field F] [LinearOrder F] [IsStrictOrderedRing F]

/-- C62: multiplication with a single matrix which is positive definite by a margin, factorization and solve do not overflow,
and the result differs from the vector by at most the bound. -/
theorem C62_single (R : RoundingAdd K F) (s : Sparsity) (p : List Nat) (hv : ValidSparsity s p)
    (f : DiagFactor K) (hf : f.Declared s p) (m : MatIn K) (hm : m.Fits s p) (hnodup : m.sparsity.entries.Nodup)
    (hlow : ∀ e ∈ m.sparsity.entries, e.col ≤ e.row) (method : Method)
    (n : Nat) (hn : ∀ i < s.numRows, f.sparsity.rowEntries i ≤ n)
    (c : Nat) (hc : ∀ j < s.numRows, f.sparsity.colEntries j < c)
    (k : Nat) (hk : ∀ i < s.numRows, ∑ j ∈ range s.numRows, (m.map fun _ => 1).sym i j ≤ k)
    (Ω α μ Λ ε β : F) (hR : R.Ample n c Ω α μ Λ ε) (hS : R.AmpleSolve n c Ω α μ Λ β) (hΩ : R.Range Ω)
    (fm : ∀ a ∈ m.numbers, R.fin a ∧ R.stored a) (hα : ∀ i < s.numRows, R.v (m.sym i i) ≤ α)
    (hpd : PosDef (range s.numRows) μ fun i j => R.v (m.sym i j) -
      if i = j then R.margin n c s.numRows ε (R.v (m.sym i i)) else 0)
    (reg : K → Nat → K) (hreg : ∀ x i, R.fin x → μ < R.v x → reg x i = x)
    (x : List K) (hx : x.length = s.numRows) (fx : ∀ a ∈ x, R.fin a ∧ R.stored a)
    (hP : R.productBound k α (∑ i ∈ range s.numRows, |R.v (x.getD i 0)|) ≤ Ω)
    (hβ : s.numRows * (R.productBound k α (∑ i ∈ range s.numRows, |R.v (x.getD i 0)|) ^ 2 +
      (2 + 2 * α * μ) * R.underflow n c ^ 2) ≤ β ^ 2)
    (hθ : 2 * (s.numRows * R.relError n c k α ε) ≤ μ) :
    ∃ f' b y, f.factorize m reg method = .ok f' ∧
      multiply .symmetric m x (List.replicate s.numRows 0) = .ok b ∧ f'.solveInPlace b = .ok y ∧
      y.length = s.numRows ∧ (∀ i < s.numRows, R.fin (y.getD i 0)) ∧
      μ * ∑ i ∈ range s.numRows, |R.v (y.getD i 0) - R.v (x.getD i 0)| ≤
        2 * (s.numRows * (R.relError n c k α ε * ∑ i ∈ range s.numRows, |R.v (x.getD i 0)| +
          R.absError n c k s.numRows α ε)) := by
  have hsize : m.OfSize s.numRows s.numRows := ⟨hm.sized, fun e he => by
    have := hm.inRange e he
    rw [hm.rows, hm.cols] at this
    exact this⟩
  have sym : ∀ {F' : Type} [AddCommMonoid F'] (g : K → F') (i j : Nat),
      (m.map g).symmetrized i j = (m.map g).sym i j := fun g i j =>
    symmetrized_eq_sym (m := m.map g) hnodup hlow i j
  have a0 : |R.v 0| = 0 := by rw [R.v_zero, abs_zero]
  have hpdA : PosDef (range s.numRows) μ fun i j => R.v (m.sym i j) :=
    PosDef.of_margin (R := R.toRounding) (A := fun i j => R.v (m.sym i j)) hR.pos.le hR.eps_nonneg
      (fun i hi => by have := hc i (mem_range.mp hi); omega) hR.gamma hpd
  have hsym : ∀ i ∈ range s.numRows, ∀ j ∈ range s.numRows, R.v (m.sym i j) = R.v (m.sym j i) :=
    fun i _ j _ => by rw [MatIn.sym_comm]
  have hα' : ∀ i ∈ range s.numRows, R.v (m.sym i i) ≤ α := fun i hi => hα i (mem_range.mp hi)
  obtain ⟨f', h1, h2⟩ := C58_single R.toRounding s p hv f hf m hm method n hn c hc Ω α μ Λ ε β hR hS
    (fun i _ j _ => MatIn.sym_keeps (P := fun y => R.fin y ∧ R.stored y) ⟨R.fin_zero, hΩ.stored_zero⟩ fm i j) hα hpd reg hreg
  obtain ⟨b, h3, h4⟩ := (C32_total m s.numRows s.numRows hsize).2.2 rfl x (List.replicate s.numRows 0) hx (by simp)
  have z0 : ∀ i, (List.replicate s.numRows (0 : K)).getD i 0 = 0 := fun i => by
    rw [List.getD_eq_getElem?_getD, List.getElem?_replicate]
    split <;> rfl
  have hle : ∀ i ∈ range s.numRows, ∑ j ∈ range s.numRows, |R.v (m.sym i j)| * |R.v (x.getD j 0)| ≤ _ :=
    fun i hi => hpdA.product_le hR.pos.le hsym hα' (fun j => R.v (x.getD j 0)) hi
  have hb1 : ∀ i < s.numRows, R.fin (b.getD i 0) ∧ R.stored (b.getD i 0) := by
    intro i hi
    obtain ⟨c1, c2⟩ := C61_symmetric R Ω hΩ m s.numRows hsize x (List.replicate s.numRows 0) b hx (by simp) fm fx
      (fun a ha => by rw [List.eq_of_mem_replicate ha]; exact ⟨R.fin_zero, hΩ.stored_zero⟩) h3 i
    refine ⟨c2 (le_trans ?_ hP), c1⟩
    simp only [sym, z0, a0, zero_add, sym_map (g := fun a => |R.v a|) a0]
    unfold Rounding.productBound
    have hki := hk i hi
    have := hle i (mem_range.mpr hi)
    refine mul_le_mul (Rounding.growth_mono (Nat.succ_le_succ hki)) (add_le_add this
      (mul_le_mul_of_nonneg_right (Nat.cast_le.mpr hki) R.η_nonneg)) ?_ (Rounding.growth_pos _).le
    exact add_nonneg (sum_nonneg fun j _ => mul_nonneg (abs_nonneg _) (abs_nonneg _))
      (mul_nonneg (Nat.cast_nonneg _) R.η_nonneg)
  have hb2 : ∀ i ∈ range s.numRows, |R.v (b.getD i 0) - ∑ j ∈ range s.numRows, R.v (m.sym i j) * R.v (x.getD j 0)| ≤
      R.gamma (k + 1) * ∑ j ∈ range s.numRows, |R.v (m.sym i j)| * |R.v (x.getD j 0)| +
        R.growth (k + 1) * (k * R.η) := by
    intro i hi
    have := C52_symmetric R m s.numRows hsize (fun a ha => (fm a ha).2) x (List.replicate s.numRows 0) b hx (by simp) h3 i
      (hb1 i (mem_range.mp hi)).1
    simp only [sym, z0, R.v_zero, abs_zero, zero_add, sym_map (g := fun a => |R.v a|) a0, sym_map R.v_zero] at this
    have hki := hk i (mem_range.mp hi)
    refine this.trans (add_le_add (mul_le_mul_of_nonneg_right (Rounding.gamma_mono (Nat.succ_le_succ hki)) ?_)
      (mul_le_mul (Rounding.growth_mono (Nat.succ_le_succ hki))
        (mul_le_mul_of_nonneg_right (Nat.cast_le.mpr hki) R.η_nonneg) (mul_nonneg (Nat.cast_nonneg _) R.η_nonneg)
        (Rounding.growth_pos _).le))
    exact sum_nonneg fun j _ => mul_nonneg (abs_nonneg _) (abs_nonneg _)
  have hb3 := productBound_le (R := R.toRounding) hpdA hR.pos.le hsym hα' hb2
  rw [card_range] at hb3
  obtain ⟨y, h5, h6, h7, -, h8⟩ := h2 b h4 hb1 (le_trans (by
    rw [mul_add]
    exact add_le_add_left hb3 _) hβ)
  have hγ : R.gamma (n + 2) < 1 := by
    have := Rounding.gamma_mono (R := R.toRounding) (show n + 2 ≤ n + c + 2 by omega)
    have := hS.gamma
    have := Rounding.gamma_nonneg (R := R.toRounding) (n + 2)
    linarith
  refine ⟨f', b, y, h1, h3, h5, h6, h7, ?_⟩
  have := round_trip_error (R := R.toRounding) (c := c) hpdA hR.pos hsym hR.alpha hα' hR.eps_nonneg hγ hb2
    (fun i hi => h8 i (mem_range.mp hi)) (by rw [card_range]; exact hθ)
  rw [card_range] at this
  exact this

private theorem sum_in_blocks {G : Type} [AddCommMonoid G] (d : Dims) (N : Nat) (g : Blk → Nat → G) :
    ∑ a ∈ blocks N, ∑ j ∈ range (d.of a), g a j = ∑ l ∈ positions d N, g l.1 l.2 := by
  unfold positions
  rw [sum_sigma]

/-- C62: the same for repeating matrices with start, link and outer blocks. -/
theorem C62_repeating (R : RoundingAdd K F) (s : ArrowheadSparsity) (d : Dims) (hs : s.Valid d) (T : ArrowheadTypes)
    (N : Nat) (f : ArrowheadFactor K) (hf : f.Declared s T d N) (m : ArrowheadMatrix K) (hm : m.Fits s T d N)
    (hnd : m.tridiagDiag.length = N + 1) (hns : m.tridiagSubdiag.length = N) (hno : m.outerSubdiag.length = N + 1)
    (hdiag : ∀ a ∈ blocks N, (m.diagBlock a).sparsity.entries.Nodup ∧
      ∀ e ∈ (m.diagBlock a).sparsity.entries, e.col ≤ e.row)
    (hlower : ∀ a b q, m.lowerBlock N a b = some q → q.sparsity.entries.Nodup)
    (method : Method)
    (n : Nat) (hn : ∀ a ∈ blocks N, ∀ i < d.of a, T.rowEntries N a i ≤ n)
    (c : Nat) (hc : ∀ a ∈ blocks N, ∀ j < d.of a, T.colEntries N a j < c)
    (k : Nat) (hk : ∀ i ∈ positions d N, ∑ j ∈ positions d N, (m.map fun _ => 1).assembled N i j ≤ k)
    (Ω α μ Λ ε β : F) (hR : R.Ample n c Ω α μ Λ ε) (hS : R.AmpleSolve n c Ω α μ Λ β) (hΩ : R.Range Ω)
    (fm : ∀ a ∈ m.numbers, R.fin a ∧ R.stored a) (hα : ∀ k ∈ positions d N, (m.map R.v).assembled N k k ≤ α)
    (hpd : PosDef (positions d N) μ fun k l => (m.map R.v).assembled N k l -
      if k = l then R.margin n c (positions d N).card ε ((m.map R.v).assembled N k k) else 0)
    (reg : K → Nat → K) (hreg : ∀ x i, R.fin x → μ < R.v x → reg x i = x)
    (x z : ArrowheadVector K) (hx : x.OfSize d N) (hz : z.OfSize d N) (hz0 : ∀ a ∈ z.numbers, a = 0)
    (fx : ∀ a ∈ x.numbers, R.fin a ∧ R.stored a)
    (hP : R.productBound k α (∑ i ∈ positions d N, |R.v (x.at i.1 i.2)|) ≤ Ω)
    (hβ : (positions d N).card * (R.productBound k α (∑ i ∈ positions d N, |R.v (x.at i.1 i.2)|) ^ 2 +
      (2 + 2 * α * μ) * R.underflow n c ^ 2) ≤ β ^ 2)
    (hθ : 2 * ((positions d N).card * R.relError n c k α ε) ≤ μ) :
    ∃ f' b y, f.factorize d.tridiag d.link d.outer m reg method = .ok f' ∧
      multiplyArrowheadLinked m x z = .ok b ∧ f'.solveInPlace b = .ok y ∧ y.OfSize d N ∧
      (∀ a ∈ blocks N, ∀ i < d.of a, R.fin (y.at a i)) ∧
      μ * ∑ i ∈ positions d N, |R.v (y.at i.1 i.2) - R.v (x.at i.1 i.2)| ≤
        2 * ((positions d N).card * (R.relError n c k α ε * ∑ i ∈ positions d N, |R.v (x.at i.1 i.2)| +
          R.absError n c k (positions d N).card α ε)) := by
  have hsize := hm.ofSize hnd hns hno
  have sym : ∀ {F' : Type} [AddCommMonoid F'] (g : K → F') (a : Blk) (_ : a ∈ blocks N) (c : Blk) (i j : Nat),
      (m.map g).denseElement N a c i j = (m.map g).symElement N a c i j := by
    intro F' _ g a ha c i j
    refine (denseElement_eq_symElement ?_ ?_ ha c i j).symm
    · intro a ha
      rw [ArrowheadMatrix.diagBlock_map]
      exact hdiag a ha
    · intro a b q hq
      rw [ArrowheadMatrix.lowerBlock_map] at hq
      obtain ⟨q', hq', rfl⟩ := Option.map_eq_some_iff.mp hq
      exact hlower a b q' hq'
  have a0 : |R.v 0| = 0 := by rw [R.v_zero, abs_zero]
  let A : (Σ _ : Blk, Nat) → (Σ _ : Blk, Nat) → F := (m.map R.v).assembled N
  have habs : ∀ i j, (m.map fun a => |R.v a|).assembled N i j = |A i j| := fun i j =>
    (matrix_symElement_map (g := fun a => |R.v a|) a0 m N _ _ _ _).trans
      (congrArg _ (matrix_symElement_map R.v_zero m N _ _ _ _).symm)
  have hpdA : PosDef (positions d N) μ A :=
    PosDef.of_margin (R := R.toRounding) (A := A) hR.pos.le hR.eps_nonneg
      (fun i hi => by have := hc i.1 (mem_positions.mp hi).1 i.2 (mem_positions.mp hi).2; omega) hR.gamma hpd
  have hsym : ∀ i ∈ positions d N, ∀ j ∈ positions d N, A i j = A j i := fun i hi j hj =>
    assembled_symm hs (hm.map R.v) i j hi hj
  obtain ⟨f', h1, h2⟩ := C58_repeating R.toRounding s d hs T N f hf m hm method n hn c hc Ω α μ Λ ε β hR hS
    (fun i _ j _ => ArrowheadMatrix.assembled_keeps (P := fun y => R.fin y ∧ R.stored y) ⟨R.fin_zero, hΩ.stored_zero⟩ fm N
      i j) hα hpd reg hreg
  obtain ⟨b, h3, h4⟩ := C52_total m x z d N hsize hx hz
  have z0 : ∀ a i, z.at a i = 0 := fun a i => at_keeps (P := fun y => y = (0 : K)) rfl hz0 a i
  have hb1 : ∀ i ∈ positions d N, R.fin (b.at i.1 i.2) ∧ R.stored (b.at i.1 i.2) := by
    intro i hi
    obtain ⟨ha, hi'⟩ := mem_positions.mp hi
    obtain ⟨c1, c2⟩ := C61_arrowhead R Ω hΩ m x z b d N hsize hx hz fm fx
      (fun a ha => by rw [hz0 a ha]; exact ⟨R.fin_zero, hΩ.stored_zero⟩) h3 i.1 ha i.2 hi'
    refine ⟨c2 (le_trans ?_ hP), c1⟩
    simp only [sym _ i.1 ha, z0, a0, zero_add, sum_in_blocks]
    have hki := hk i hi
    have := hpdA.product_le hR.pos.le hsym hα (fun j => R.v (x.at j.1 j.2)) hi
    simp only [← habs] at this
    unfold Rounding.productBound
    refine mul_le_mul (Rounding.growth_mono (Nat.succ_le_succ hki)) (add_le_add this
      (mul_le_mul_of_nonneg_right (Nat.cast_le.mpr hki) R.η_nonneg)) ?_ (Rounding.growth_pos _).le
    refine add_nonneg (sum_nonneg fun j _ => mul_nonneg ?_ (abs_nonneg _)) (mul_nonneg (Nat.cast_nonneg _) R.η_nonneg)
    exact (abs_nonneg _).trans (habs i j).ge
  have hb2 : ∀ i ∈ positions d N, |R.v (b.at i.1 i.2) - ∑ j ∈ positions d N, A i j * R.v (x.at j.1 j.2)| ≤
      R.gamma (k + 1) * ∑ j ∈ positions d N, |A i j| * |R.v (x.at j.1 j.2)| + R.growth (k + 1) * (k * R.η) := by
    intro i hi
    obtain ⟨ha, hi'⟩ := mem_positions.mp hi
    have := C52_arrowhead R m x z b d N hsize hx hz (fun a ha => (fm a ha).2) h3 i.1 ha i.2 hi' (hb1 i hi).1
    simp only [sym _ i.1 ha, z0, R.v_zero, abs_zero, zero_add, sum_in_blocks] at this
    have hki := hk i hi
    simp only [← habs]
    refine this.trans (add_le_add (mul_le_mul_of_nonneg_right (Rounding.gamma_mono (Nat.succ_le_succ hki)) ?_)
      (mul_le_mul (Rounding.growth_mono (Nat.succ_le_succ hki))
        (mul_le_mul_of_nonneg_right (Nat.cast_le.mpr hki) R.η_nonneg) (mul_nonneg (Nat.cast_nonneg _) R.η_nonneg)
        (Rounding.growth_pos _).le))
    refine sum_nonneg fun j _ => mul_nonneg ?_ (abs_nonneg _)
    exact (abs_nonneg _).trans (habs i j).ge
  have hb3 := productBound_le (R := R.toRounding) hpdA hR.pos.le hsym hα hb2
  obtain ⟨y, h5, h6, h7, -, h8⟩ := h2 b h4 (fun a ha i hi => hb1 ⟨a, i⟩ (mem_positions.mpr ⟨ha, hi⟩)) (le_trans (by
    rw [mul_add]
    exact add_le_add_left hb3 _) hβ)
  have hγ : R.gamma (n + 2) < 1 := by
    have := Rounding.gamma_mono (R := R.toRounding) (show n + 2 ≤ n + c + 2 by omega)
    have := hS.gamma
    have := Rounding.gamma_nonneg (R := R.toRounding) (n + 2)
    linarith
  exact ⟨f', b, y, h1, h3, h5, h6, h7, round_trip_error (R := R.toRounding) (c := c) hpdA hR.pos hsym hR.alpha hα
    hR.eps_nonneg hγ hb2 h8 hθ⟩

private theorem mem_tridiagonalPositions {n N : Nat} {k : Nat × Nat} :
    k ∈ tridiagonalPositions n N ↔ k.1 < N + 1 ∧ k.2 < n := by
  unfold tridiagonalPositions
  rw [mem_product, mem_range, mem_range]

private theorem sum_in_range {G : Type} [AddCommMonoid G] (n N : Nat) (g : Nat → Nat → G) :
    ∑ t ∈ range (N + 1), ∑ j ∈ range n, g t j = ∑ l ∈ tridiagonalPositions n N, g l.1 l.2 := by
  unfold tridiagonalPositions
  rw [sum_product]

private theorem element_eq_sym {F : Type} [AddCommMonoid F] {A B : List (MatIn F)} {N : Nat} (hA : A.length = N + 1)
    (hB : B.length = N) (hAn : ∀ m ∈ A, m.sparsity.entries.Nodup ∧ ∀ e ∈ m.sparsity.entries, e.col ≤ e.row)
    (hBn : ∀ m ∈ B, m.sparsity.entries.Nodup) (t u : Nat) (ht : t < N + 1) (hu : u < N + 1) (i j : Nat) :
    tridiagonalElement (A.getD · (.empty F)) (B.getD · (.empty F)) t u i j = tridiagonalSym A B t u i j := by
  unfold tridiagonalSym tridiagonalElement
  by_cases h1 : t = u
  · rw [if_pos h1, if_pos h1]
    obtain ⟨h5, h6⟩ := hAn _ (getD_mem (v := A) (i := t) (by omega) (.empty F))
    exact symmetrized_eq_sym h5 h6 i j
  · rw [if_neg h1, if_neg h1]
    by_cases h2 : t = u + 1
    · rw [if_pos h2, if_pos h2]
      exact dense_eq_elem (hBn _ (getD_mem (v := B) (i := u) (by omega) (.empty F))) i j
    · rw [if_neg h2, if_neg h2]
      by_cases h3 : u = t + 1
      · rw [if_pos h3, if_pos h3]
        exact dense_eq_elem (hBn _ (getD_mem (v := B) (i := t) (by omega) (.empty F))) j i
      · rw [if_neg h3, if_neg h3]

/-- C62: the same for repeating block tridiagonal matrices. -/
theorem C62_tridiagonal (R : RoundingAdd K F) (spA spB : Sparsity) (p : List Nat) (n : Nat)
    (h : ValidTridiagonal spA spB p n) (N : Nat) (f : ArrowheadFactor K) (T : ArrowheadTypes)
    (hf : TridiagonalDeclared f spA spB p T n N) (A B : List (MatIn K)) (hm : TridiagonalFits A B p T n N)
    (hA : A.length = N + 1) (hB : B.length = N)
    (hAn : ∀ m ∈ A, m.sparsity.entries.Nodup ∧ ∀ e ∈ m.sparsity.entries, e.col ≤ e.row)
    (hBn : ∀ m ∈ B, m.sparsity.entries.Nodup) (method : Method)
    (r : Nat) (hr : ∀ i < n, T.tridiagDiag.rowEntries i + T.tridiagSubdiag.rowEntries i ≤ r)
    (c : Nat) (hc : ∀ i < n, T.tridiagDiag.colEntries i + T.tridiagSubdiag.colEntries i < c)
    (k : Nat) (hk : ∀ i ∈ tridiagonalPositions n N, ∑ j ∈ tridiagonalPositions n N,
      tridiagonalAssembled (A.map (·.map fun _ => 1)) (B.map (·.map fun _ => 1)) i j ≤ k)
    (Ω α μ Λ ε β : F) (hR : R.Ample r c Ω α μ Λ ε) (hS : R.AmpleSolve r c Ω α μ Λ β) (hΩ : R.Range Ω)
    (fA : ∀ b ∈ A, ∀ a ∈ b.numbers, R.fin a ∧ R.stored a) (fB : ∀ b ∈ B, ∀ a ∈ b.numbers, R.fin a ∧ R.stored a)
    (hα : ∀ k ∈ tridiagonalPositions n N,
      tridiagonalAssembled (blockValues R.toRounding A) (blockValues R.toRounding B) k k ≤ α)
    (hpd : PosDef (tridiagonalPositions n N) μ fun k l =>
      tridiagonalAssembled (blockValues R.toRounding A) (blockValues R.toRounding B) k l -
        if k = l then R.margin r c ((N + 1) * n) ε
          (tridiagonalAssembled (blockValues R.toRounding A) (blockValues R.toRounding B) k k) else 0)
    (reg : K → Nat → K) (hreg : ∀ x i, R.fin x → μ < R.v x → reg x i = x)
    (x z : List (List K)) (hx : BlockVector x n N) (hz : BlockVector z n N) (hz0 : ∀ v ∈ z, ∀ a ∈ v, a = 0)
    (fx : ∀ v ∈ x, ∀ a ∈ v, R.fin a ∧ R.stored a)
    (hP : R.productBound k α (∑ i ∈ tridiagonalPositions n N, |R.v (blockAt x i.1 i.2)|) ≤ Ω)
    (hβ : ((N + 1) * n : Nat) * (R.productBound k α (∑ i ∈ tridiagonalPositions n N, |R.v (blockAt x i.1 i.2)|) ^ 2 +
      (2 + 2 * α * μ) * R.underflow r c ^ 2) ≤ β ^ 2)
    (hθ : 2 * (((N + 1) * n : Nat) * R.relError r c k α ε) ≤ μ) :
    ∃ f' b y, tridiagonalFactorize n f A B reg method = .ok f' ∧
      multiplyRepeatingBlockTridiagonal A B x z = .ok b ∧ tridiagonalSolveInPlace f' b = .ok y ∧ BlockVector y n N ∧
      (∀ t < N + 1, ∀ i < n, R.fin (blockAt y t i)) ∧
      μ * ∑ i ∈ tridiagonalPositions n N, |R.v (blockAt y i.1 i.2) - R.v (blockAt x i.1 i.2)| ≤
        2 * (((N + 1) * n : Nat) * (R.relError r c k α ε * ∑ i ∈ tridiagonalPositions n N, |R.v (blockAt x i.1 i.2)| +
          R.absError r c k ((N + 1) * n) α ε)) := by
  have mk : ∀ {q : MatIn K}, q.Sized → q.sparsity.OfDims n n → q.OfSize n n := by
    rintro q h1 ⟨h2, h3, h4⟩
    refine ⟨h1, fun e he => ?_⟩
    have := h2 e he
    rw [h3, h4] at this
    exact this
  have sA : ∀ q ∈ A, q.OfSize n n := fun q hq => by
    obtain ⟨t, ht, rfl⟩ := List.getElem_of_mem hq
    rw [getElem_eq_getD ht (.empty K)]
    obtain ⟨h1, h2, -⟩ := hm.diag t (by omega)
    exact mk h1 h2
  have sB : ∀ q ∈ B, q.OfSize n n := fun q hq => by
    obtain ⟨t, ht, rfl⟩ := List.getElem_of_mem hq
    rw [getElem_eq_getD ht (.empty K)]
    obtain ⟨h1, h2, -⟩ := hm.subdiag t (by omega)
    exact mk h1 h2
  have sym : ∀ {F' : Type} [AddCommMonoid F'] (g : K → F') (t u : Nat) (_ : t < N + 1) (_ : u < N + 1) (i j : Nat),
      tridiagonalElement (fun t => (A.map (·.map g)).getD t (.empty F')) (fun t => (B.map (·.map g)).getD t (.empty F')) t u
        i j = tridiagonalSym (A.map (·.map g)) (B.map (·.map g)) t u i j := by
    intro F' _ g t u ht hu i j
    refine element_eq_sym (by rw [List.length_map, hA]) (by rw [List.length_map, hB]) ?_ ?_ t u ht hu i j
    · intro q hq
      obtain ⟨q', hq', rfl⟩ := List.mem_map.mp hq
      exact hAn q' hq'
    · intro q hq
      obtain ⟨q', hq', rfl⟩ := List.mem_map.mp hq
      exact hBn q' hq'
  have a0 : |R.v 0| = 0 := by rw [R.v_zero, abs_zero]
  let M : Nat × Nat → Nat × Nat → F := tridiagonalAssembled (blockValues R.toRounding A) (blockValues R.toRounding B)
  have habs : ∀ i j, tridiagonalAssembled (A.map (·.map fun a => |R.v a|)) (B.map (·.map fun a => |R.v a|)) i j = |M i j| :=
    fun i j => (tridiagonalAssembled_map (g := fun a => |R.v a|) a0 A B i j).trans
      (congrArg _ (tridiagonalAssembled_map R.v_zero A B i j).symm)
  have hcard : (tridiagonalPositions n N).card = (N + 1) * n := by
    unfold tridiagonalPositions
    rw [card_product, card_range, card_range]
  rw [← hcard] at hpd hβ hθ ⊢
  have hpdA : PosDef (tridiagonalPositions n N) μ M :=
    PosDef.of_margin (R := R.toRounding) (A := M) hR.pos.le hR.eps_nonneg
      (fun i hi => by have := hc i.2 (mem_tridiagonalPositions.mp hi).2; omega) hR.gamma hpd
  have hsym : ∀ i ∈ tridiagonalPositions n N, ∀ j ∈ tridiagonalPositions n N, M i j = M j i := fun i _ j _ =>
    tridiagonalAssembled_comm _ _ i j
  rw [hcard] at hpd
  obtain ⟨f', h1, h2⟩ := C58_tridiagonal R.toRounding spA spB p n h N f T hf A B hm method r hr c hc Ω α μ Λ ε β hR hS
    (fun i _ j _ => tridiagonalAssembled_keeps (P := fun y => R.fin y ∧ R.stored y) ⟨R.fin_zero, hΩ.stored_zero⟩ fA fB
      i j) hα hpd reg hreg
  obtain ⟨b, h3, h4⟩ := C52_total_tridiagonal A B x z n N hA hB hx.num hz.num sA sB hx.size hz.size
  have z0 : ∀ t i, blockAt z t i = 0 := by
    intro t i
    unfold blockAt
    simp only [List.getD_eq_getElem?_getD]
    cases hv : z[t]? with
    | none => rfl
    | some v =>
      rw [Option.getD_some]
      cases ha : v[i]? with
      | none => rfl
      | some a => exact hz0 v (List.mem_of_getElem? hv) a (List.mem_of_getElem? ha)
  have sum_abs : ∀ i ∈ tridiagonalPositions n N, ∑ l ∈ tridiagonalPositions n N,
      tridiagonalElement (fun t => (A.map (·.map fun a => |R.v a|)).getD t (.empty F))
        (fun t => (B.map (·.map fun a => |R.v a|)).getD t (.empty F)) i.1 l.1 i.2 l.2 * |R.v (blockAt x l.1 l.2)| =
      ∑ l ∈ tridiagonalPositions n N, |M i l| * |R.v (blockAt x l.1 l.2)| := fun i hi =>
    sum_congr rfl fun l hl => congrArg (· * _)
      ((sym _ i.1 l.1 (mem_tridiagonalPositions.mp hi).1 (mem_tridiagonalPositions.mp hl).1 i.2 l.2).trans (habs i l))
  have hb1 : ∀ i ∈ tridiagonalPositions n N, R.fin (blockAt b i.1 i.2) ∧ R.stored (blockAt b i.1 i.2) := by
    intro i hi
    obtain ⟨ht, hi'⟩ := mem_tridiagonalPositions.mp hi
    obtain ⟨c1, c2⟩ := C61_tridiagonal R Ω hΩ A B x z b n N hA hB hx.num hz.num sA sB hx.size hz.size fA fB fx
      (fun v hv a ha => by rw [hz0 v hv a ha]; exact ⟨R.fin_zero, hΩ.stored_zero⟩) h3 i.1 ht i.2 hi'
    refine ⟨c2 (le_trans ?_ hP), c1⟩
    simp only [z0, a0, zero_add, sum_in_range]
    have hki := hk i hi
    have e1 : ∑ l ∈ tridiagonalPositions n N, tridiagonalElement (fun t => (A.map (·.map fun _ => 1)).getD t (.empty Nat))
        (fun t => (B.map (·.map fun _ => 1)).getD t (.empty Nat)) i.1 l.1 i.2 l.2 ≤ k := by
      rw [sum_congr rfl fun l hl => sym _ i.1 l.1 ht (mem_tridiagonalPositions.mp hl).1 i.2 l.2]
      exact hki
    have e2 := hpdA.product_le hR.pos.le hsym hα (fun j => R.v (blockAt x j.1 j.2)) hi
    rw [← sum_abs i hi] at e2
    unfold Rounding.productBound
    refine mul_le_mul (Rounding.growth_mono (Nat.succ_le_succ e1)) (add_le_add e2
      (mul_le_mul_of_nonneg_right (Nat.cast_le.mpr e1) R.η_nonneg)) ?_ (Rounding.growth_pos _).le
    rw [sum_abs i hi]
    exact add_nonneg (sum_nonneg fun j _ => mul_nonneg (abs_nonneg _) (abs_nonneg _))
      (mul_nonneg (Nat.cast_nonneg _) R.η_nonneg)
  have hb2 : ∀ i ∈ tridiagonalPositions n N, |R.v (blockAt b i.1 i.2) - ∑ j ∈ tridiagonalPositions n N,
      M i j * R.v (blockAt x j.1 j.2)| ≤ R.gamma (k + 1) * ∑ j ∈ tridiagonalPositions n N,
        |M i j| * |R.v (blockAt x j.1 j.2)| + R.growth (k + 1) * (k * R.η) := by
    intro i hi
    obtain ⟨ht, hi'⟩ := mem_tridiagonalPositions.mp hi
    have := C52_tridiagonal R A B x z b n N hA hB hx.num hz.num sA sB hx.size hz.size (fun b hb a ha => (fA b hb a ha).2)
      (fun b hb a ha => (fB b hb a ha).2) h3 i.1 ht i.2 hi' (hb1 i hi).1
    simp only [z0, R.v_zero, abs_zero, zero_add, sum_in_range] at this
    have hki := hk i hi
    have e1 : ∑ l ∈ tridiagonalPositions n N, tridiagonalElement (fun t => (A.map (·.map fun _ => 1)).getD t (.empty Nat))
        (fun t => (B.map (·.map fun _ => 1)).getD t (.empty Nat)) i.1 l.1 i.2 l.2 ≤ k := by
      rw [sum_congr rfl fun l hl => sym _ i.1 l.1 ht (mem_tridiagonalPositions.mp hl).1 i.2 l.2]
      exact hki
    have e4 : ∑ l ∈ tridiagonalPositions n N, tridiagonalElement (fun t => (A.map (·.map R.v)).getD t (.empty F))
        (fun t => (B.map (·.map R.v)).getD t (.empty F)) i.1 l.1 i.2 l.2 * R.v (blockAt x l.1 l.2) =
        ∑ l ∈ tridiagonalPositions n N, M i l * R.v (blockAt x l.1 l.2) :=
      sum_congr rfl fun l hl => congrArg (· * _) (sym _ i.1 l.1 ht (mem_tridiagonalPositions.mp hl).1 i.2 l.2)
    rw [e4, sum_abs i hi] at this
    refine this.trans (add_le_add (mul_le_mul_of_nonneg_right (Rounding.gamma_mono (Nat.succ_le_succ e1)) ?_)
      (mul_le_mul (Rounding.growth_mono (Nat.succ_le_succ e1))
        (mul_le_mul_of_nonneg_right (Nat.cast_le.mpr e1) R.η_nonneg) (mul_nonneg (Nat.cast_nonneg _) R.η_nonneg)
        (Rounding.growth_pos _).le))
    exact sum_nonneg fun j _ => mul_nonneg (abs_nonneg _) (abs_nonneg _)
  have hb3 := productBound_le (R := R.toRounding) hpdA hR.pos.le hsym hα hb2
  obtain ⟨y, h5, h6, h7, -, h8⟩ := h2 b ⟨h4.1, h4.2⟩ (fun t ht i hi => hb1 (t, i) (mem_tridiagonalPositions.mpr ⟨ht, hi⟩)) (le_trans (by
    rw [← hcard, mul_add]
    exact add_le_add_left hb3 _) hβ)
  have hγ : R.gamma (r + 2) < 1 := by
    have := Rounding.gamma_mono (R := R.toRounding) (show r + 2 ≤ r + c + 2 by omega)
    have := hS.gamma
    have := Rounding.gamma_nonneg (R := R.toRounding) (r + 2)
    linarith
  exact ⟨f', b, y, h1, h3, h5, h6, h7, round_trip_error (R := R.toRounding) (c := c) hpdA hR.pos hsym hR.alpha hα
    hR.eps_nonneg hγ hb2 h8 hθ⟩

/-! ### Cases meeting the hypotheses, in IEEE double precision

They hold for all vectors of finite doubles up to `2 ^ 980`. Nothing is evaluated but the constants. -/

/-- A bound of the entries of vectors to be found. -/
def largeRat : ℚ := 2 ^ (980 : Int)

/-- Relative accuracy. -/
def smallRat : ℚ := 2 ^ (-36 : Int)

/-- Absolute accuracy. -/
def tinyRat : ℚ := 2 ^ (-1050 : Int)

theorem Rounding.productBound_mono {R : Rounding K F} {k : Nat} {α X Y : F} (hα : 0 ≤ α) (h : X ≤ Y) :
    R.productBound k α X ≤ R.productBound k α Y :=
  mul_le_mul_of_nonneg_left (add_le_add_left (mul_le_mul_of_nonneg_left h hα) _) (Rounding.growth_pos _).le

theorem Rounding.productBound_nonneg {R : Rounding K F} {k : Nat} {α X : F} (hα : 0 ≤ α) (h : 0 ≤ X) :
    0 ≤ R.productBound k α X :=
  mul_nonneg (Rounding.growth_pos _).le (add_nonneg (mul_nonneg hα h) (mul_nonneg (Nat.cast_nonneg _) R.η_nonneg))

theorem sum_abs_le {ι : Type} {s : Finset ι} {g : ι → ℚ} {h : ℚ} (hg : ∀ i ∈ s, |g i| ≤ h) :
    ∑ i ∈ s, |g i| ≤ s.card * h := by
  rw [← nsmul_eq_mul]
  exact sum_le_card_nsmul _ _ _ hg

theorem small_error {μ E m r X a : ℚ} (hμ : 0 < μ) (hX : 0 ≤ X) (hr : 2 * (m * r) ≤ μ * smallRat)
    (ha : 2 * (m * a) ≤ μ * tinyRat) (h : μ * E ≤ 2 * (m * (r * X + a))) : E ≤ smallRat * X + tinyRat := by
  refine le_of_mul_le_mul_left (h.trans ?_) hμ
  calc 2 * (m * (r * X + a)) = 2 * (m * r) * X + 2 * (m * a) := by ring
    _ ≤ μ * smallRat * X + μ * tinyRat := add_le_add (mul_le_mul_of_nonneg_right hr hX) ha
    _ = μ * (smallRat * X + tinyRat) := by ring

/-- Witness: the matrix of C57 without its entry in the upper triangle. -/
def lowerDoubleM : MatIn Double :=
  (⟨⟨3, 3, [⟨0, 0⟩, ⟨1, 0⟩, ⟨1, 1⟩, ⟨2, 0⟩, ⟨2, 2⟩]⟩, [4, -1, 3, 2, 5]⟩ : MatIn ℚ).map (Binary.ofRat .binary64 false)

theorem double_rangeAdd : (Binary.roundingAdd .binary64).Range (2 ^ (1023 : Int)) := Binary.rangeAdd (by decide)

example (x : List Double) (hx : x.length = 3) (hxf : ∀ a ∈ x, a.Finite ∧ |a.toRat| ≤ largeRat) :
    ∃ f' b y, (witnessF.map (Binary.ofRat .binary64 false)).factorize lowerDoubleM regularizationNone .upLooking = .ok f' ∧
      multiply .symmetric lowerDoubleM x [0, 0, 0] = .ok b ∧ f'.solveInPlace b = .ok y ∧ (∀ i < 3, (y.getD i 0).Finite) ∧
      ∑ i ∈ range 3, |(y.getD i 0).toRat - (x.getD i 0).toRat| ≤
        smallRat * ∑ i ∈ range 3, |(x.getD i 0).toRat| + tinyRat := by
  have hc : ∀ i < 3, witnessF.sparsity.rowEntries i ≤ 2 ∧ witnessF.sparsity.colEntries i < 3 := by decide
  have hsub : ∀ e ∈ lowerDoubleM.sparsity.entries, e ∈ witnessS.entries := by decide
  have hX : ∑ i ∈ range 3, |doubleR.v (x.getD i 0)| ≤ 3 * largeRat := by
    refine (sum_abs_le (s := range 3) (h := largeRat) fun i hi => ?_).trans (by rw [card_range]; rfl)
    exact (getD_keeps (P := fun a : Double => |a.toRat| ≤ largeRat) (by decide +kernel) (fun a ha => (hxf a ha).2) i)
  have h0 : 0 ≤ ∑ i ∈ range 3, |doubleR.v (x.getD i 0)| := sum_nonneg fun _ _ => abs_nonneg _
  have hb := Rounding.productBound_mono (R := doubleR) (k := 3) (α := 5) (by norm_num) hX
  have hb0 := Rounding.productBound_nonneg (R := doubleR) (k := 3) (α := 5) (by norm_num) h0
  obtain ⟨f', b, y, h1, h2, h3, -, h4, h5⟩ := C62_single (Binary.roundingAdd .binary64) witnessS [0, 2, 1] witness_valid _
    (show (witnessF.map (Binary.ofRat .binary64 false)).Declared witnessS [0, 2, 1] from
      ⟨witness_declared.pattern, rfl, rfl, rfl⟩) lowerDoubleM
    ⟨rfl, by unfold Sparsity.InRange; decide, rfl, rfl, fun i j h => .base ⟨h.1, h.2.1, hsub _ h.2.2⟩ h.1⟩
    (by decide) (by decide) .upLooking 2 (fun i hi => (hc i hi).1) 3
    (fun i hi => (hc i hi).2) 3 (by decide) _ 5 (1 / 2) 4 _ hugeNorm double_ample double_ampleSolve double_rangeAdd
    (by
      have : ∀ a ∈ lowerDoubleM.numbers, a.Finite := by decide +kernel
      exact fun a ha => ⟨this a ha, trivial⟩)
    (by
      have : ∀ i < 3, doubleR.v (lowerDoubleM.sym i i) ≤ 5 := by decide +kernel
      exact this)
    (reducedM_posDef.mono (fun i hi j hj hij => by
      rw [if_neg hij, sub_zero]
      have : ∀ i < 3, ∀ j < 3, i ≠ j → reducedM.sym i j = doubleR.v (lowerDoubleM.sym i j) := by decide +kernel
      exact this i (mem_range.mp hi) j (mem_range.mp hj) hij) fun i hi => by
      rw [if_pos rfl]
      have : ∀ i < 3, reducedM.sym i i ≤ doubleR.v (lowerDoubleM.sym i i) -
        doubleR.margin 2 3 3 (2 ^ (-1068 : Int)) (doubleR.v (lowerDoubleM.sym i i)) := by decide +kernel
      exact this i (mem_range.mp hi)) regularizationNone (fun _ _ _ _ => rfl) x hx
    (fun a ha => ⟨(hxf a ha).1, trivial⟩)
    (hb.trans (by decide +kernel))
    ((mul_le_mul_of_nonneg_left (add_le_add_left (pow_le_pow_left₀ hb0 hb 2) _) (Nat.cast_nonneg _)).trans (by
      decide +kernel))
    (by decide +kernel)
  exact ⟨f', b, y, h1, h2, h3, h4, small_error (μ := 1 / 2) (by norm_num) h0 (by decide +kernel) (by decide +kernel) h5⟩

theorem tridiagLists_nodup : (∀ m ∈ tridiagDouble tridiagValuesA, m.sparsity.entries.Nodup ∧
      ∀ e ∈ m.sparsity.entries, e.col ≤ e.row) ∧ ∀ m ∈ tridiagDouble tridiagValuesB, m.sparsity.entries.Nodup := by
  decide

example (x : List (List Double)) (hx : BlockVector x 2 2) (hxf : ∀ v ∈ x, ∀ a ∈ v, a.Finite ∧ |a.toRat| ≤ largeRat) :
    ∃ s T f b y, tridiagonalSparsity tridiagA tridiagB [1, 0] = .ok s ∧ arrowheadTypes s = .ok T ∧
      tridiagonalFactorize 2 (freshFactor s T ⟨0, 2, 0, 0⟩ 2 (0 : Double)) (tridiagDouble tridiagValuesA)
        (tridiagDouble tridiagValuesB) regularizationNone .entryWise = .ok f ∧
      multiplyRepeatingBlockTridiagonal (tridiagDouble tridiagValuesA) (tridiagDouble tridiagValuesB) x
        [[0, 0], [0, 0], [0, 0]] = .ok b ∧ tridiagonalSolveInPlace f b = .ok y ∧
      (∀ t < 3, ∀ i < 2, (blockAt y t i).Finite) ∧
      ∑ k ∈ tridiagonalPositions 2 2, |(blockAt y k.1 k.2).toRat - (blockAt x k.1 k.2).toRat| ≤
        smallRat * ∑ k ∈ tridiagonalPositions 2 2, |(blockAt x k.1 k.2).toRat| + tinyRat := by
  obtain ⟨s, T, hs, hT, hc⟩ : ∃ s T, tridiagonalSparsity tridiagA tridiagB [1, 0] = .ok s ∧ arrowheadTypes s = .ok T ∧
      ∀ i < 2, T.tridiagDiag.rowEntries i + T.tridiagSubdiag.rowEntries i ≤ 5 ∧
        T.tridiagDiag.colEntries i + T.tridiagSubdiag.colEntries i < 4 := by
    have h : (do
        let s ← tridiagonalSparsity tridiagA tridiagB [1, 0]
        let T ← arrowheadTypes s
        return (List.range 2).all fun i => decide (T.tridiagDiag.rowEntries i + T.tridiagSubdiag.rowEntries i ≤ 5) &&
          decide (T.tridiagDiag.colEntries i + T.tridiagSubdiag.colEntries i < 4)) =
        (.ok true : Res Bool) := by decide +kernel
    obtain ⟨s, hs, h⟩ := bind_eq_ok.mp h
    obtain ⟨T, hT, h⟩ := bind_eq_ok.mp h
    have h' := Except.ok.inj h
    simp only [List.all_eq_true, List.mem_range, Bool.and_eq_true, decide_eq_true_eq] at h'
    exact ⟨s, T, hs, hT, h'⟩
  have hd : TridiagonalDeclared (freshFactor s T ⟨0, 2, 0, 0⟩ 2 (0 : Double)) tridiagA tridiagB [1, 0] T 2 2 :=
    ⟨s, hs, C21_constructible s _ T hT 2 0⟩
  have hX : ∑ k ∈ tridiagonalPositions 2 2, |doubleR.v (blockAt x k.1 k.2)| ≤ 6 * largeRat := by
    refine (sum_abs_le (s := tridiagonalPositions 2 2) (h := largeRat) fun k hk => ?_).trans (by decide +kernel)
    have h1 : ∀ a ∈ x.getD k.1 [], |a.toRat| ≤ largeRat := fun a ha => by
      by_cases hk : k.1 < x.length
      · rw [List.getD_eq_getElem _ _ hk] at ha
        exact (hxf _ (List.getElem_mem hk) a ha).2
      · rw [List.getD_eq_default _ _ (by omega)] at ha
        cases ha
    exact getD_keeps (P := fun a : Double => |a.toRat| ≤ largeRat) (by decide +kernel) h1 _
  have h0 : 0 ≤ ∑ k ∈ tridiagonalPositions 2 2, |doubleR.v (blockAt x k.1 k.2)| := sum_nonneg fun _ _ => abs_nonneg _
  have hb := Rounding.productBound_mono (R := doubleR) (k := 4) (α := 7) (by norm_num) hX
  have hb0 := Rounding.productBound_nonneg (R := doubleR) (k := 4) (α := 7) (by norm_num) h0
  obtain ⟨f, b, y, h1, h2, h3, -, h4, h5⟩ := C62_tridiagonal (Binary.roundingAdd .binary64) tridiagA tridiagB [1, 0] 2 tridiag_valid
    2 _ T hd (tridiagDouble tridiagValuesA) (tridiagDouble tridiagValuesB) (tridiag_fits _ hd) rfl rfl tridiagLists_nodup.1
    tridiagLists_nodup.2 .entryWise 5 (fun i hi => (hc i hi).1) 4 (fun i hi => (hc i hi).2) 4 (by decide +kernel)
    _ 7 (1 / 20) 12 _ hugeNorm double_ample' double_ampleSolve' double_rangeAdd
    (by
      have : ∀ b ∈ tridiagDouble tridiagValuesA, ∀ a ∈ b.numbers, a.Finite := by decide +kernel
      exact fun b hb a ha => ⟨this b hb a ha, trivial⟩)
    (by
      have : ∀ b ∈ tridiagDouble tridiagValuesB, ∀ a ∈ b.numbers, a.Finite := by decide +kernel
      exact fun b hb a ha => ⟨this b hb a ha, trivial⟩)
    (by decide +kernel) tridiagDouble_posDef regularizationNone (fun _ _ _ _ => rfl) x [[0, 0], [0, 0], [0, 0]] hx
    ⟨rfl, by decide⟩ (by simp) (fun v hv a ha => ⟨(hxf v hv a ha).1, trivial⟩)
    (hb.trans (by decide +kernel))
    ((mul_le_mul_of_nonneg_left (add_le_add_left (pow_le_pow_left₀ hb0 hb 2) _) (Nat.cast_nonneg _)).trans (by
      decide +kernel))
    (by decide +kernel)
  exact ⟨s, T, f, b, y, hs, hT, h1, h2, h3, h4, small_error (μ := 1 / 20) (by norm_num) h0 (by decide +kernel)
    (by decide +kernel) h5⟩

theorem arrowLists_nodup : (∀ a ∈ blocks 1, (doubleM.diagBlock a).sparsity.entries.Nodup ∧
      ∀ e ∈ (doubleM.diagBlock a).sparsity.entries, e.col ≤ e.row) ∧
    ∀ a b q, doubleM.lowerBlock 1 a b = some q → q.sparsity.entries.Nodup := by
  refine ⟨by decide, fun a b q hq => ?_⟩
  have h1 : ∀ q ∈ doubleM.tridiagSubdiag, q.sparsity.entries.Nodup := by decide
  have h2 : ∀ q ∈ doubleM.outerSubdiag, q.sparsity.entries.Nodup := by decide
  unfold ArrowheadMatrix.lowerBlock at hq
  split at hq
  · cases hq; decide
  · split at hq
    · exact h1 q (List.mem_of_getElem? hq)
    · cases hq
  · split at hq
    · cases hq; decide
    · cases hq
  · cases hq; decide
  · split at hq
    · exact h2 q (List.mem_of_getElem? hq)
    · cases hq
  · cases hq; decide
  · cases hq

example (x : ArrowheadVector Double) (hx : x.OfSize arrowD 1) (hxf : ∀ a ∈ x.numbers, a.Finite ∧ |a.toRat| ≤ largeRat) :
    ∃ T f b y, arrowheadTypes arrowS = .ok T ∧
      (freshFactor arrowS T arrowD 1 (0 : Double)).factorize 2 1 1 doubleM regularizationNone .upLooking = .ok f ∧
      multiplyArrowheadLinked doubleM x ⟨[0], [[0, 0], [0, 0]], [0], [0]⟩ = .ok b ∧ f.solveInPlace b = .ok y ∧
      (∀ a ∈ blocks 1, ∀ i < arrowD.of a, (y.at a i).Finite) ∧
      ∑ k ∈ positions arrowD 1, |(y.at k.1 k.2).toRat - (x.at k.1 k.2).toRat| ≤
        smallRat * ∑ k ∈ positions arrowD 1, |(x.at k.1 k.2).toRat| + tinyRat := by
  obtain ⟨T, hT, hc⟩ : ∃ T, arrowheadTypes arrowS = .ok T ∧
      ∀ a ∈ blocks 1, ∀ i < arrowD.of a, T.rowEntries 1 a i ≤ 5 ∧ T.colEntries 1 a i < 4 := by
    have h : (do
        let T ← arrowheadTypes arrowS
        return decide (∀ a ∈ blocks 1, ∀ i < arrowD.of a, T.rowEntries 1 a i ≤ 5 ∧ T.colEntries 1 a i < 4)) =
        (.ok true : Res Bool) := by decide +kernel
    obtain ⟨T, hT, h⟩ := bind_eq_ok.mp h
    exact ⟨T, hT, of_decide_eq_true (Except.ok.inj h)⟩
  have hX : ∑ k ∈ positions arrowD 1, |doubleR.v (x.at k.1 k.2)| ≤ 7 * largeRat := by
    refine (sum_abs_le (s := positions arrowD 1) (h := largeRat) fun k hk => ?_).trans (by decide +kernel)
    exact at_keeps (P := fun a : Double => |a.toRat| ≤ largeRat) (by decide +kernel) (fun a ha => (hxf a ha).2) _ _
  have h0 : 0 ≤ ∑ k ∈ positions arrowD 1, |doubleR.v (x.at k.1 k.2)| := sum_nonneg fun _ _ => abs_nonneg _
  have hb := Rounding.productBound_mono (R := doubleR) (k := 7) (α := 7) (by norm_num) hX
  have hb0 := Rounding.productBound_nonneg (R := doubleR) (k := 7) (α := 7) (by norm_num) h0
  obtain ⟨f, b, y, h1, h2, h3, -, h4, h5⟩ := C62_repeating (Binary.roundingAdd .binary64) arrowS arrowD arrowS_valid T 1 _
    (C21_constructible arrowS arrowD T hT 1 0) doubleM ((arrowM_fits hT).map _) rfl rfl rfl arrowLists_nodup.1
    arrowLists_nodup.2 .upLooking 5 (fun a ha i hi => (hc a ha i hi).1) 4 (fun a ha i hi => (hc a ha i hi).2) 7
    (by decide +kernel) _ 7 (1 / 20) 12 _ hugeNorm double_ample' double_ampleSolve' double_rangeAdd
    (by
      have : ∀ a ∈ doubleM.numbers, a.Finite := by decide +kernel
      exact fun a ha => ⟨this a ha, trivial⟩)
    (by decide +kernel) doubleM_posDef regularizationNone (fun _ _ _ _ => rfl) x ⟨[0], [[0, 0], [0, 0]], [0], [0]⟩ hx
    ⟨rfl, rfl, by decide, rfl, rfl⟩ (by simp [ArrowheadVector.numbers]) (fun a ha => ⟨(hxf a ha).1, trivial⟩)
    (hb.trans (by decide +kernel))
    ((mul_le_mul_of_nonneg_left (add_le_add_left (pow_le_pow_left₀ hb0 hb 2) _) (Nat.cast_nonneg _)).trans (by
      decide +kernel))
    (by decide +kernel)
  exact ⟨T, f, b, y, hT, h1, h2, h3, h4, small_error (μ := 1 / 20) (by norm_num) h0 (by decide +kernel)
    (by decide +kernel) h5⟩

end Ctldl
