import Verif.Lemmas.Definite
import Verif.Lemmas.ArrowheadReproduce
import Verif.Lemmas.ArrowheadSolveExact
import Verif.Spec.Definite

/-! # Definiteness and the factorizations -/

namespace Ctldl

open Finset

section

variable {ι K : Type} [Field K]

/-- Sums over permuted indices. -/
theorem sum_reindex {s : Finset ι} {e : ι → ι} (h1 : ∀ i ∈ s, e i ∈ s) (h2 : ∀ i ∈ s, ∀ j ∈ s, e i = e j → i = j)
    (h3 : ∀ i ∈ s, ∃ j ∈ s, e j = i) (F : ι → K) : ∑ i ∈ s, F (e i) = ∑ i ∈ s, F i :=
  sum_bij (fun i _ => e i) h1 (fun i hi j hj h => h2 i hi j hj h) (fun i hi => by
    obtain ⟨j, hj, h⟩ := h3 i hi
    exact ⟨j, hj, h⟩) fun _ _ => rfl

theorem exists_reindex {s : Finset ι} {e : ι → ι} (h2 : ∀ i ∈ s, ∀ j ∈ s, e i = e j → i = j) (x : ι → K) :
    ∃ y : ι → K, ∀ i ∈ s, y (e i) = x i := by
  classical
  refine ⟨fun a => if h : ∃ i ∈ s, e i = a then x h.choose else 0, fun i hi => ?_⟩
  have h : ∃ j ∈ s, e j = e i := ⟨i, hi, rfl⟩
  beta_reduce
  rw [dif_pos h, h2 _ h.choose_spec.1 i hi h.choose_spec.2]

variable [LinearOrder K]

theorem QuasiDef.reindex {s : Finset ι} {e : ι → ι} (h1 : ∀ i ∈ s, e i ∈ s)
    (h2 : ∀ i ∈ s, ∀ j ∈ s, e i = e j → i = j) (h3 : ∀ i ∈ s, ∃ j ∈ s, e j = i) {S : ι → Prop} {μ : K}
    {A : ι → ι → K} (h : QuasiDef s S μ A) : QuasiDef s (fun i => S (e i)) μ (fun i j => A (e i) (e j)) := by
  have key : ∀ x : ι → K, ∃ y : ι → K, (∀ i ∈ s, y (e i) = x i) ∧ ((∃ i ∈ s, x i ≠ 0) → ∃ i ∈ s, y i ≠ 0) ∧
      ∑ i ∈ s, x i ^ 2 = ∑ i ∈ s, y i ^ 2 ∧
      ∑ i ∈ s, ∑ j ∈ s, x i * A (e i) (e j) * x j = ∑ i ∈ s, ∑ j ∈ s, y i * A i j * y j := by
    intro x
    obtain ⟨y, hy⟩ := exists_reindex h2 x
    refine ⟨y, hy, fun ⟨i, hi, hne⟩ => ⟨e i, h1 i hi, by rwa [hy i hi]⟩, ?_, ?_⟩
    · rw [← sum_reindex h1 h2 h3 fun i => y i ^ 2]
      exact sum_congr rfl fun i hi => by rw [hy i hi]
    · rw [← sum_reindex h1 h2 h3 fun i => ∑ j ∈ s, y i * A i j * y j]
      refine sum_congr rfl fun i hi => ?_
      rw [← sum_reindex h1 h2 h3 fun j => y (e i) * A (e i) j * y j]
      exact sum_congr rfl fun j hj => by rw [hy i hi, hy j hj]
  refine ⟨fun x hx hS => ?_, fun x hx hS => ?_⟩
  · obtain ⟨y, hy, y1, y2, y3⟩ := key x
    rw [y2, y3]
    refine h.1 y (y1 hx) fun i hi hn => ?_
    obtain ⟨j, hj, rfl⟩ := h3 i hi
    rw [hy j hj]
    exact hS j hj hn
  · obtain ⟨y, hy, y1, y2, y3⟩ := key x
    rw [y2, y3]
    refine h.2 y (y1 hx) fun i hi hn => ?_
    obtain ⟨j, hj, rfl⟩ := h3 i hi
    rw [hy j hj]
    exact hS j hj hn

theorem PosDef.quasiDef {s : Finset ι} {μ : K} {A : ι → ι → K} (h : PosDef s μ A) :
    QuasiDef s (fun _ => True) μ A :=
  ⟨fun x hx _ => h x hx, fun _ ⟨i, hi, hne⟩ hz => absurd (hz i hi trivial) hne⟩

end

section

variable {ι K : Type} [Field K] [DecidableEq ι]

/-- What is known of a factorization: unit lower triangular `L`, and `L D Lᵀ` up to an index is the matrix up to
regularization if no pivot before that index is zero. -/
structure LeadingExact (s : Finset ι) (rk : ι → Nat) (u : ι → ι → K) (d : ι → K) (A : ι → ι → K) (reg : K → ι → K) :
    Prop where
  unit : UnitLower s rk u
  upTo : ∀ k ∈ s, (∀ j ∈ s, rk j < rk k → d j ≠ 0) → ∃ δ : ι → K, (∀ i ∈ s, rk i ≤ rk k → d i = reg (δ i) i) ∧
      LdltUpTo s rk u d (fun i j => A i j + if i = j then d i - δ i else 0) k

variable {s : Finset ι} {rk : ι → Nat} {u : ι → ι → K} {d : ι → K} {A : ι → ι → K} {reg : K → ι → K}

omit [DecidableEq ι] in
theorem LdltUpTo.all (h : ∀ k ∈ s, LdltUpTo s rk u d A k) {i j : ι} (hi : i ∈ s) (hj : j ∈ s) :
    ∑ r ∈ s, u i r * d r * u j r = A i j := by
  rcases Nat.le_total (rk i) (rk j) with hij | hij
  · exact h j hj i hi hij j hj (le_refl _)
  · exact h i hi i hi (le_refl _) j hj hij

theorem LeadingExact.quasiDef [LinearOrder K] [IsStrictOrderedRing K] (h : LeadingExact s rk u d A reg) (hsymm : ∀ i ∈ s, ∀ j ∈ s, A i j = A j i) {μ : K}
    (hμ : 0 ≤ μ) (hreg : ∀ x i, μ < |x| → reg x i = x) {S : ι → Prop} (hS : QuasiDef s S μ A) :
    (∀ k ∈ s, (S k → μ < d k) ∧ (¬ S k → d k < -μ) ∧ d k ≠ 0) ∧
      ∀ i ∈ s, ∀ j ∈ s, ∑ r ∈ s, u i r * d r * u j r = A i j := by
  classical
  have := pivots_sign h.unit h.upTo (σ := fun i => if S i then 1 else -1) (fun i => by split <;> simp) hμ hreg
    (quasi_sign S μ hsymm hS.1 hS.2)
  refine ⟨fun k hk => ?_, fun i hi j hj => LdltUpTo.all (fun k hk => (this k hk).2) hi hj⟩
  have hk := (this k hk).1
  by_cases hs : S k
  · rw [if_pos hs, one_mul] at hk
    exact ⟨fun _ => hk, fun hn => absurd hs hn, (lt_of_le_of_lt hμ hk).ne'⟩
  · rw [if_neg hs] at hk
    exact ⟨fun hn => absurd hn hs, fun _ => by linarith, (show d k < 0 by linarith).ne⟩

theorem LeadingExact.ne_zero_iff (h : LeadingExact s rk u d A (fun x _ => x)) :
    (∀ k ∈ s, d k ≠ 0) ↔ ∀ k ∈ s, LeadingRegular s rk A k := by
  refine pivots_ne_zero_iff h.unit fun k hk hj => ?_
  obtain ⟨δ, h1, h2⟩ := h.upTo k hk hj
  intro i hi hik j hj hjk
  rw [h2 i hi hik j hj hjk]
  beta_reduce
  rw [h1 i hi hik, sub_self, ite_self, add_zero]

omit [DecidableEq ι] in
theorem leadingNonsingular_iff {before : ι → ι → Prop} (hb : ∀ i ∈ s, ∀ j ∈ s, before i j ↔ rk i < rk j) {k : ι}
    (hk : k ∈ s) : LeadingNonsingular s before A k ↔ LeadingRegular s rk A k := by
  constructor
  · intro h x hx i hi hik
    have := h (fun j => if rk j ≤ rk k then x j else 0) (fun j hj hkj => by
      have := (hb k hk j hj).mp hkj
      exact if_neg (by omega)) (fun i hi hki => by
        rw [hb k hk i hi] at hki
        refine Eq.trans ?_ (hx i hi (by omega))
        rw [← sum_upTo (rk := rk) (k := k) (fun j _ hlt => by beta_reduce; rw [if_neg (by omega), mul_zero])]
        exact sum_congr rfl fun j hj => by rw [if_pos (mem_upTo.mp hj).2]) i hi
    simpa [hik] using this
  · intro h x h0 hx i hi
    by_cases hik : rk i ≤ rk k
    · refine h x (fun i hi hik => ?_) i hi hik
      rw [sum_upTo (fun j hj hlt => by rw [h0 j hj ((hb k hk j hj).mpr hlt), mul_zero])]
      exact hx i hi (by rw [hb k hk i hi]; omega)
    · exact h0 i hi ((hb k hk i hi).mpr (by omega))

/-- The factorization of a single matrix. -/
theorem leadingExact_single {K : Type} [Field K] {f : DiagFactor K} {n : Nat} (hc : Closed1 f n) {m : MatIn K}
    (hm : Fits1 m f n) {reg : K → Nat → K} {method : Method} {L D : List K}
    (hr : ∀ i < n, SingleRow method f.sparsity (a22Of (.matrix m) f) (aDOf (.matrix m) f) reg (val f.sparsity L)
        (fun a => D.getD a 0) i) :
    LeadingExact (range n) (fun i => i) (unitLower (val f.sparsity L)) (fun a => D.getD a 0)
      (fun i j => m.sym (permAt f.permutation i) (permAt f.permutation j)) reg := by
  have low : ∀ i j, f.sparsity.Has i j → j < i := hc.ok.lower
  refine ⟨⟨fun x _ y _ h => h, fun x _ => unitLower_self x, fun x _ y _ h => ?_⟩, fun k hk hp => ?_⟩
  · rw [unitLower_ne (by omega)]
    exact val_off fun hh => by
      have := low x y hh
      omega
  · have hk := mem_range.mp hk
    have hrow : ∀ i, ∃ δ, i ≤ k → (∀ j < i, ldlt n (val f.sparsity L) (fun a => D.getD a 0) i j =
        m.sym (permAt f.permutation i) (permAt f.permutation j)) ∧ D.getD i 0 = reg δ i ∧
        ldlt n (val f.sparsity L) (fun a => D.getD a 0) i i =
        m.sym (permAt f.permutation i) (permAt f.permutation i) + (D.getD i 0 - δ) := by
      intro i
      by_cases hi : i ≤ k
      · obtain ⟨h1, δ, h2⟩ := (hr i (by omega)).exact hc hm (by omega) (fun j hj => by
          have := low i j hj
          exact hp j (mem_range.mpr (by omega)) (by omega))
        exact ⟨δ, fun _ => ⟨h1, h2⟩⟩
      · exact ⟨0, fun h => absurd h hi⟩
    choose δ hδ using hrow
    refine ⟨δ, fun i _ hi => (hδ i hi).2.1, ?_⟩
    intro i hi hik j hj hjk
    show ldlt n (val f.sparsity L) (fun a => D.getD a 0) i j = _
    beta_reduce
    rcases Nat.lt_trichotomy j i with hji | rfl | hji
    · rw [if_neg (by omega), add_zero, (hδ i hik).1 j hji]
    · rw [if_pos rfl, (hδ j hik).2.2]
    · rw [if_neg (by omega), add_zero, ldlt_symm, (hδ j hjk).1 i hji]
      simp only [MatIn.sym, Nat.max_comm, Nat.min_comm]

/-- Position of a row in the order of elimination. -/
def posRank (d : Dims) (N : Nat) (x : Σ _ : Blk, Nat) : Nat :=
  x.1.rank N * (d.start + d.tridiag + d.link + d.outer) + x.2

omit [DecidableEq ι] in
theorem mem_positions {d : Dims} {N : Nat} {x : Σ _ : Blk, Nat} :
    x ∈ positions d N ↔ x.1 ∈ blocks N ∧ x.2 < d.of x.1 := by
  unfold positions
  rw [mem_sigma, mem_range]

theorem lex_lt {B p q i j : Nat} (hi : i < B) (hj : j < B) : p * B + i < q * B + j ↔ p < q ∨ (p = q ∧ i < j) := by
  constructor
  · intro h
    rcases Nat.lt_trichotomy p q with h1 | rfl | h1
    · exact Or.inl h1
    · exact Or.inr ⟨rfl, by omega⟩
    · have : (q + 1) * B ≤ p * B := Nat.mul_le_mul_right _ h1
      rw [Nat.add_mul] at this
      omega
  · rintro (h1 | ⟨rfl, h1⟩)
    · have : (p + 1) * B ≤ q * B := Nat.mul_le_mul_right _ h1
      rw [Nat.add_mul] at this
      omega
    · omega

theorem dims_le (d : Dims) (a : Blk) : d.of a ≤ d.start + d.tridiag + d.link + d.outer := by
  cases a <;> simp only [Dims.of] <;> omega

theorem posRank_lt {d : Dims} {N : Nat} {x y : Σ _ : Blk, Nat} (hx : x ∈ positions d N) (hy : y ∈ positions d N) :
    posRank d N x < posRank d N y ↔ x.1.rank N < y.1.rank N ∨ (x.1.rank N = y.1.rank N ∧ x.2 < y.2) := by
  have h1 := (mem_positions.mp hx).2
  have h2 := (mem_positions.mp hy).2
  have h3 := dims_le d x.1
  have h4 := dims_le d y.1
  exact lex_lt (by omega) (by omega)

theorem posRank_before {d : Dims} {N : Nat} {x y : Σ _ : Blk, Nat} (hx : x ∈ positions d N)
    (hy : y ∈ positions d N) : Before N x.1 x.2 y.1 y.2 ↔ posRank d N x < posRank d N y := by
  rw [posRank_lt hx hy]
  unfold Before
  rw [rank_inj (mem_positions.mp hx).1 (mem_positions.mp hy).1]

theorem posRank_inj {d : Dims} {N : Nat} {x y : Σ _ : Blk, Nat} (hx : x ∈ positions d N) (hy : y ∈ positions d N)
    (h : posRank d N x = posRank d N y) : x = y := by
  have h1 : ¬ posRank d N x < posRank d N y := by omega
  have h2 : ¬ posRank d N y < posRank d N x := by omega
  rw [posRank_lt hx hy] at h1
  rw [posRank_lt hy hx] at h2
  have e1 : x.1 = y.1 := (rank_inj (mem_positions.mp hx).1 (mem_positions.mp hy).1).mp (by omega)
  have e2 : x.2 = y.2 := by omega
  obtain ⟨a, i⟩ := x
  obtain ⟨b, j⟩ := y
  simp only at e1 e2
  rw [e1, e2]

theorem symElement_symm {K : Type} [Field K] {m : ArrowheadMatrix K} {s : ArrowheadSparsity} {T : ArrowheadTypes}
    {d : Dims} {N : Nat} (hs : s.Valid d) (hm : m.Fits s T d N) {a b : Blk} (ha : a ∈ blocks N) (hb : b ∈ blocks N)
    {i j : Nat} (hi : i < d.of a) (hj : j < d.of b) : m.symElement N a b i j = m.symElement N b a j i := by
  obtain ⟨i, hi, rfl⟩ := (valid_perm hs a).surj hi
  obtain ⟨j, hj, rfl⟩ := (valid_perm hs b).surj hj
  rw [matrix_symElement_eq hm.numSubdiag hm.numOuter ha hb, matrix_symElement_eq hm.numSubdiag hm.numOuter hb ha]
  have hsym : ∀ (c : Nat → Nat → K) (e : Nat → K) (i j : Nat), symOf c e i j = symOf c e j i := by
    intro c e i j
    unfold symOf
    rcases Nat.lt_trichotomy i j with h | rfl | h
    · rw [if_neg (by omega), if_neg (by omega), if_neg (by omega), if_pos h]
    · rfl
    · rw [if_neg (by omega), if_pos h, if_neg (by omega), if_neg (by omega)]
  unfold chainA
  rcases Nat.lt_trichotomy (a.rank N) (b.rank N) with h | h | h
  · rw [if_neg (by omega), if_pos (by omega)]
  · rw [if_pos (by omega), if_pos (by omega)]
    rw [h]
    unfold chainLow
    rw [if_pos rfl, if_pos rfl]
    split
    · rw [hsym]
    · rw [hsym]
  · rw [if_pos (by omega), if_neg (by omega)]

/-- The lower triangular matrix of a factor of a repeating block matrix. -/
theorem unitLower_arrowhead {K : Type} [Field K] {f : ArrowheadFactor K} {s : ArrowheadSparsity} {T : ArrowheadTypes}
    {d : Dims} {N : Nat} (hT : TypesOk s T d) (hf : f.Declared s T d N) :
    UnitLower (positions d N) (posRank d N) (fun x y => f.lowerElement N x.1 y.1 x.2 y.2) := by
  have hX := chainPat_ok hT (N := N)
  have hz : ∀ p q i j, p ≤ N + 3 → q ≤ N + 3 → (p < q ∨ (p = q ∧ i < j)) →
      chainL (chainPat T d N) (f.chainVals N) (N + 2) p q i j = 0 := by
    intro p q i j hp hq h
    rcases h with h | ⟨rfl, h⟩
    · exact chainL_zero (by omega) (by omega) (by omega) i j
    · by_cases hpN : p ≤ N + 2
      · rw [chainL_self hpN, unitLower_ne (by omega)]
        exact val_off fun hh => by
          have := hX.lowD p hpN i j hh
          omega
      · obtain rfl : p = N + 3 := by omega
        rw [chainL_outer_self, unitLower_ne (by omega)]
        exact val_off fun hh => by
          have := hX.lowE i j hh
          omega
  refine ⟨fun x hx y hy h => posRank_inj hx hy h, fun x hx => ?_, fun x hx y hy h => ?_⟩
  · obtain ⟨ha, -⟩ := mem_positions.mp hx
    rw [factor_lowerElement_eq hf ha ha]
    simp [chainL, unitLower_self]
  · obtain ⟨ha, -⟩ := mem_positions.mp hx
    obtain ⟨hb, -⟩ := mem_positions.mp hy
    rw [factor_lowerElement_eq hf ha hb]
    exact hz _ _ _ _ (rank_le ha) (rank_le hb) ((posRank_lt hx hy).mp h)

/-- The factorization of a repeating block matrix. -/
theorem leadingExact_arrowhead {K : Type} [Field K] {f : ArrowheadFactor K} {m : ArrowheadMatrix K}
    {s : ArrowheadSparsity} {T : ArrowheadTypes} {d : Dims} {N : Nat} {reg : K → Nat → K} {method : Method}
    (hT : TypesOk s T d) (hf : f.Declared s T d N) (hm : m.Fits s T d N)
    (hr : ChainRows (chainPat T d N) (N + 2) (f.chainVals N) (m.chainInput s N) reg method) :
    LeadingExact (positions d N) (posRank d N) (fun x y => f.lowerElement N x.1 y.1 x.2 y.2)
      (fun x => f.pivotAt x.1 x.2)
      (fun x y => m.symElement N x.1 y.1 (permAt (s.perm x.1) x.2) (permAt (s.perm y.1) y.2))
      (fun v x => reg v x.2) := by
  have hX := chainPat_ok hT (N := N)
  refine ⟨unitLower_arrowhead hT hf, fun k hk hp => ?_⟩
  obtain ⟨hkb, hki⟩ := mem_positions.mp hk
  let R : Nat → Nat → Prop := fun p i => p < k.1.rank N ∨ (p = k.1.rank N ∧ i ≤ k.2)
  have key : ∀ p i q j, p ≤ N + 3 → q ≤ N + 3 → R p i → chainHas (chainPat T d N) (N + 2) p i q j →
      (q < p ∨ (q = p ∧ j < i)) → chainD (f.chainVals N) (N + 2) q j ≠ 0 := by
    intro p i q j hp' hq' hR h hlt
    obtain ⟨b, hb, rfl⟩ := exists_rank (N := N) hq'
    have hj := (chainHas_range hX (by omega) h).2
    rw [← dims_of_eq hb] at hj
    rw [← factor_pivotAt_eq hf hb]
    have hbp : (⟨b, j⟩ : Σ _ : Blk, Nat) ∈ positions d N := mem_positions.mpr ⟨hb, hj⟩
    refine hp ⟨b, j⟩ hbp ?_
    rw [posRank_lt hbp hk]
    simp only [R] at hR
    simp only
    omega
  have hpo : (f.chainVals N).PivotsOk (chainPat T d N) (N + 2) R := by
    unfold chainD at key
    refine ⟨?_, ?_, ?_, ?_⟩
    · intro p hpN i j hR h
      have := key p i p j (by omega) (by omega) hR (Or.inl ⟨rfl, by rw [if_pos hpN]; exact h⟩)
        (Or.inr ⟨rfl, hX.lowD p hpN i j h⟩)
      rwa [if_pos hpN] at this
    · intro p hpN i j hR h
      have := key (p + 1) i p j (by omega) (by omega) hR
        (Or.inr ⟨_, by unfold lowPos; rw [if_neg (by omega), if_pos ⟨rfl, by omega⟩], h⟩) (Or.inl (by omega))
      rwa [if_pos (by omega)] at this
    · intro p hpN i j hR h
      have := key (N + 3) i p j (by omega) (by omega) hR
        (Or.inr ⟨_, by unfold lowPos; rw [if_pos ⟨rfl, hpN⟩], h⟩) (Or.inl (by omega))
      rwa [if_pos hpN] at this
    · intro i j hR h
      have := key (N + 3) i (N + 3) j (by omega) (by omega) hR (Or.inl ⟨rfl, by rw [if_neg (by omega)]; exact h⟩)
        (Or.inr ⟨rfl, hX.lowE i j h⟩)
      rwa [if_neg (by omega)] at this
  obtain ⟨δ, h1, h2⟩ := chainLdlt_exact hX (hr.exact hX hpo hm.zero)
  have hRx : ∀ x ∈ positions d N, posRank d N x ≤ posRank d N k → R (x.1.rank N) x.2 := by
    intro x hx hxk
    have h : ¬ posRank d N k < posRank d N x := by omega
    rw [posRank_lt hk hx] at h
    simp only [R]
    omega
  refine ⟨fun x => δ (x.1.rank N) x.2, fun x hx hxk => ?_, fun x hx hxk y hy hyk => ?_⟩
  · obtain ⟨ha, hi⟩ := mem_positions.mp hx
    rw [factor_pivotAt_eq hf ha]
    exact h1 _ (rank_le ha) _ (by rwa [dims_of_eq (T := T) ha] at hi) (hRx x hx hxk)
  · obtain ⟨ha, hi⟩ := mem_positions.mp hx
    obtain ⟨hb, hj⟩ := mem_positions.mp hy
    have e : ∑ r ∈ positions d N, f.lowerElement N x.1 r.1 x.2 r.2 * f.pivotAt r.1 r.2 *
        f.lowerElement N y.1 r.1 y.2 r.2 = f.ldlt d N x.1 y.1 x.2 y.2 := by
      unfold positions ArrowheadFactor.ldlt
      rw [sum_sigma]
    rw [e, factor_ldlt_eq hf ha hb, h2 _ (rank_le ha) _ (rank_le hb) _ (by rwa [dims_of_eq (T := T) ha] at hi) _
      (by rwa [dims_of_eq (T := T) hb] at hj) (hRx x hx hxk) (hRx y hy hyk)]
    beta_reduce
    rw [matrix_symElement_eq hm.numSubdiag hm.numOuter ha hb, factor_pivotAt_eq hf ha]
    simp only [rank_inj ha hb]
    have : (x.1 = y.1 ∧ x.2 = y.2) ↔ x = y := by
      obtain ⟨a, i⟩ := x
      obtain ⟨b, j⟩ := y
      simp
    simp only [this]

end

end Ctldl
