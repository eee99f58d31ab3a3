import Verif.Lemmas.ArrowheadSymbolic
import Verif.Props.Repeating

/-! # The patterns of the blocks of the arrowhead factorization are the smallest closed ones -/

namespace Ctldl

theorem Sat.both {α : Type _} {m : Res α} {P Q : α → Prop} (h : Sat m P) (h' : Sat m Q) : Sat m fun a => P a ∧ Q a := by
  obtain ⟨a, h1, h2⟩ := h
  obtain ⟨b, h3, h4⟩ := h'
  obtain rfl : a = b := Except.ok.inj (h1.symm.trans h3)
  exact ⟨a, h1, h2, h4⟩

/-- Patterns of 3 x 3 blocks which contain given ones and are closed under elimination. -/
structure Closed3 (G11 G21 G22 G31 G32 G33 H11 H21 H22 H31 H32 H33 : Nat → Nat → Prop) : Prop where
  s11 : ∀ i j, G11 i j → H11 i j
  s21 : ∀ i j, G21 i j → H21 i j
  s22 : ∀ i j, G22 i j → H22 i j
  s31 : ∀ i j, G31 i j → H31 i j
  s32 : ∀ i j, G32 i j → H32 i j
  s33 : ∀ i j, G33 i j → H33 i j
  c11 : ∀ i j k, H11 i j → H11 k j → k < i → H11 i k
  c21 : ∀ i j k, H21 i j → H11 k j → H21 i k
  c22 : ∀ i j k, H21 i j → H21 k j → k < i → H22 i k
  c22' : ∀ i j k, H22 i j → H22 k j → k < i → H22 i k
  c31 : ∀ i j k, H31 i j → H11 k j → H31 i k
  c32 : ∀ i j k, H31 i j → H21 k j → H32 i k
  c32' : ∀ i j k, H32 i j → H22 k j → H32 i k
  c33 : ∀ i j k, H31 i j → H31 k j → k < i → H33 i k
  c33' : ∀ i j k, H32 i j → H32 k j → k < i → H33 i k
  c33'' : ∀ i j k, H33 i j → H33 k j → k < i → H33 i k

private def target3 (n1 n2 : Nat) (H11 H21 H22 H31 H32 H33 : Nat → Nat → Prop) (i j : Nat) : Prop :=
  (i < n1 → H11 i j) ∧
  (n1 ≤ i → i < n1 + n2 → j < n1 → H21 (i - n1) j) ∧
  (n1 ≤ i → i < n1 + n2 → n1 ≤ j → H22 (i - n1) (j - n1)) ∧
  (n1 + n2 ≤ i → j < n1 → H31 (i - (n1 + n2)) j) ∧
  (n1 + n2 ≤ i → n1 ≤ j → j < n1 + n2 → H32 (i - (n1 + n2)) (j - n1)) ∧
  (n1 + n2 ≤ i → n1 + n2 ≤ j → H33 (i - (n1 + n2)) (j - (n1 + n2)))

private theorem target3_step {n1 n2 : Nat} {G11 G21 G22 G31 G32 G33 H11 H21 H22 H31 H32 H33 : Nat → Nat → Prop}
    (h : Closed3 G11 G21 G22 G31 G32 G33 H11 H21 H22 H31 H32 H33) {i j k : Nat}
    (h1 : target3 n1 n2 H11 H21 H22 H31 H32 H33 i k) (h2 : target3 n1 n2 H11 H21 H22 H31 H32 H33 j k) (hkj : k < j)
    (hji : j < i) : target3 n1 n2 H11 H21 H22 H31 H32 H33 i j := by
  obtain ⟨a1, a2, a3, a4, a5, a6⟩ := h1
  obtain ⟨b1, b2, b3, b4, b5, b6⟩ := h2
  refine ⟨fun e1 => ?_, fun e1 e2 e3 => ?_, fun e1 e2 e3 => ?_, fun e1 e2 => ?_, fun e1 e2 e3 => ?_, fun e1 e2 => ?_⟩
  · exact h.c11 _ _ _ (a1 e1) (b1 (by omega)) hji
  · exact h.c21 _ _ _ (a2 e1 e2 (by omega)) (b1 e3)
  · by_cases hk : k < n1
    · exact h.c22 _ _ _ (a2 e1 e2 hk) (b2 e3 (by omega) hk) (by omega)
    · exact h.c22' _ _ _ (a3 e1 e2 (by omega)) (b3 e3 (by omega) (by omega)) (by omega)
  · exact h.c31 _ _ _ (a4 e1 (by omega)) (b1 e2)
  · by_cases hk : k < n1
    · exact h.c32 _ _ _ (a4 e1 hk) (b2 e2 (by omega) hk)
    · exact h.c32' _ _ _ (a5 e1 (by omega) (by omega)) (b3 e2 (by omega) (by omega))
  · by_cases hk : k < n1
    · exact h.c33 _ _ _ (a4 e1 hk) (b4 e2 hk) (by omega)
    · by_cases hk' : k < n1 + n2
      · exact h.c33' _ _ _ (a5 e1 (by omega) hk') (b5 e2 (by omega) hk') (by omega)
      · exact h.c33'' _ _ _ (a6 e1 (by omega)) (b6 e2 (by omega)) (by omega)

theorem filled3_least {in11 in21 in22 in31 in32 in33 : Sparsity} {p1 p2 p3 : List Nat} {n1 n2 n3 : Nat}
    (h11 : in11.OfDims n1 n1) (h21 : in21.OfDims n2 n1) (h22 : in22.OfDims n2 n2) (h31 : in31.OfDims n3 n1)
    (h32 : in32.OfDims n3 n2) (h33 : in33.OfDims n3 n3) (hp1 : IsPerm p1 n1) (hp2 : IsPerm p2 n2)
    (hp3 : IsPerm p3 n3) (hn : n1 + n2 + n3 ≤ noParent) :
    Sat (getFilledInSparsityBlocked3x3 in11 in21 in22 in31 in32 in33 p1 p2 p3) fun f =>
      ∀ H11 H21 H22 H31 H32 H33, Closed3 (LowerPermuted in11 p1) (RectPermuted in21 p2 p1) (LowerPermuted in22 p2)
        (RectPermuted in31 p3 p1) (RectPermuted in32 p3 p2) (LowerPermuted in33 p3) H11 H21 H22 H31 H32 H33 →
      (∀ i j, f.block11.Has i j → H11 i j) ∧ (∀ i j, f.block21.Has i j → H21 i j) ∧ (∀ i j, f.block22.Has i j → H22 i j) ∧
      (∀ i j, f.block31.Has i j → H31 i j) ∧ (∀ i j, f.block32.Has i j → H32 i j) ∧ ∀ i j, f.block33.Has i j → H33 i j := by
  obtain ⟨i11, r11, k11⟩ := h11
  obtain ⟨i21, r21, k21⟩ := h21
  obtain ⟨i22, r22, k22⟩ := h22
  obtain ⟨i31, r31, k31⟩ := h31
  obtain ⟨i32, r32, k32⟩ := h32
  obtain ⟨i33, r33, k33⟩ := h33
  refine Sat.mono (getFilledInSparsityBlocked3x3_sat ⟨by omega, by omega, by omega, by omega, by omega, by omega,
    by omega, by omega, by omega⟩ i11 i21 i22 i31 i32 i33 (by rw [r11]; exact hp1) (by rw [r22]; exact hp2)
    (by rw [r33]; exact hp3) (by omega)) ?_
  rintro f ⟨f11, f21, f22, f31, f32, f33⟩ H11 H21 H22 H31 H32 H33 h
  have key : ∀ i j, Fill (permutedAssembled in11 in21 in22 in31 in32 in33 p1 p2 p3) i j →
      target3 n1 n2 H11 H21 H22 H31 H32 H33 i j := by
    intro i j hF
    induction hF with
    | @base x y hG hlt =>
      unfold permutedAssembled at hG
      rw [r11, r22] at hG
      rcases hG with hG | ⟨e1, hG⟩ | ⟨e1, e2, hG⟩ | ⟨e1, hG⟩ | ⟨e1, e2, hG⟩ | ⟨e1, e2, hG⟩
      · have := hG.2.1
        have hH := h.s11 _ _ hG
        refine ⟨fun _ => hH, ?_, ?_, ?_, ?_, ?_⟩ <;> intros <;> omega
      · have := hG.1
        have := hG.2.1
        have hH := h.s21 _ _ hG
        refine ⟨?_, fun _ _ _ => hH, ?_, ?_, ?_, ?_⟩ <;> intros <;> omega
      · have := hG.1
        have := hG.2.1
        have hH := h.s22 _ _ hG
        refine ⟨?_, ?_, fun _ _ _ => hH, ?_, ?_, ?_⟩ <;> intros <;> omega
      · have := hG.1
        have := hG.2.1
        have hH := h.s31 _ _ hG
        refine ⟨?_, ?_, ?_, fun _ _ => hH, ?_, ?_⟩ <;> intros <;> omega
      · have := hG.1
        have := hG.2.1
        have hH := h.s32 _ _ hG
        refine ⟨?_, ?_, ?_, ?_, fun _ _ _ => hH, ?_⟩ <;> intros <;> omega
      · have := hG.1
        have := hG.2.1
        have hH := h.s33 _ _ hG
        refine ⟨?_, ?_, ?_, ?_, ?_, fun _ _ => hH⟩ <;> intros <;> omega
    | step h1 h2 hlt ih1 ih2 => exact target3_step h ih1 ih2 h2.lt hlt
  simp only [r11, r22, r33] at f11 f21 f22 f31 f32 f33
  refine ⟨fun i j hh => ?_, fun i j hh => ?_, fun i j hh => ?_, fun i j hh => ?_, fun i j hh => ?_, fun i j hh => ?_⟩
  · obtain ⟨e1, e2, e3⟩ := (f11.2.2.2 i j).mp hh
    exact (key _ _ e3).1 e1
  · obtain ⟨e1, e2, e3⟩ := (f21.2.2.2 i j).mp hh
    simpa using (key _ _ e3).2.1 (by omega) (by omega) e2
  · obtain ⟨e1, e2, e3⟩ := (f22.2.2.2 i j).mp hh
    simpa using (key _ _ e3).2.2.1 (by omega) (by omega) (by omega)
  · obtain ⟨e1, e2, e3⟩ := (f31.2.2.2 i j).mp hh
    simpa using (key _ _ e3).2.2.2.1 (by omega) e2
  · obtain ⟨e1, e2, e3⟩ := (f32.2.2.2 i j).mp hh
    simpa using (key _ _ e3).2.2.2.2.1 (by omega) (by omega) (by omega)
  · obtain ⟨e1, e2, e3⟩ := (f33.2.2.2 i j).mp hh
    simpa using (key _ _ e3).2.2.2.2.2 (by omega) (by omega)

/-- Patterns of repeated blocks which contain given ones and are closed under elimination. -/
structure ClosedRep (A B C HA HB HC : Nat → Nat → Prop) : Prop where
  sA : ∀ i j, A i j → HA i j
  sB : ∀ i j, B i j → HB i j
  sC : ∀ i j, C i j → HC i j
  dd : ∀ i j k, HA i j → HA k j → k < i → HA i k
  sub_d : ∀ i j k, HB i j → HA k j → HB i k
  sub_sub : ∀ i j k, HB i j → HB k j → k < i → HA i k
  out_d : ∀ i j k, HC i j → HA k j → HC i k
  out_sub : ∀ i j k, HC i j → HB k j → HC i k

private inductive TargetRep (n N : Nat) (HA HB HC : Nat → Nat → Prop) : Nat → Nat → Prop
  | diag (t i j : Nat) (ht : t ≤ N) (hi : i < n) (hj : j < n) (h : HA i j) : TargetRep n N HA HB HC (t * n + i) (t * n + j)
  | sub (t i j : Nat) (ht : t < N) (hi : i < n) (hj : j < n) (h : HB i j) :
    TargetRep n N HA HB HC ((t + 1) * n + i) (t * n + j)
  | outer (t o j : Nat) (ht : t ≤ N) (hj : j < n) (h : HC o j) : TargetRep n N HA HB HC ((N + 1) * n + o) (t * n + j)
  | rest (x y : Nat) (h : (N + 1) * n ≤ y) : TargetRep n N HA HB HC x y

private theorem place_unique {n t i u j : Nat} (hi : i < n) (hj : j < n) (h : t * n + i = u * n + j) : t = u ∧ i = j := by
  have h1 : (t * n + i) / n = t := by
    rw [Nat.mul_comm, Nat.mul_add_div (by omega), Nat.div_eq_of_lt hi, Nat.add_zero]
  have h2 : (u * n + j) / n = u := by
    rw [Nat.mul_comm, Nat.mul_add_div (by omega), Nat.div_eq_of_lt hj, Nat.add_zero]
  have : t = u := by rw [← h1, ← h2, h]
  subst this
  exact ⟨rfl, by omega⟩

private theorem place_below {n t j N : Nat} (ht : t ≤ N) (hj : j < n) : t * n + j < (N + 1) * n := by
  have := Nat.mul_le_mul_right n (show t + 1 ≤ N + 1 by omega)
  rw [Nat.add_mul t] at this
  omega

/-- What is known about an entry in a column of a block. -/
private theorem TargetRep.column {n N : Nat} {HA HB HC : Nat → Nat → Prop} {x y t j : Nat}
    (h : TargetRep n N HA HB HC x y) (hy : y = t * n + j) (hj : j < n) (ht : t ≤ N) :
    (∃ i < n, x = t * n + i ∧ HA i j) ∨ (∃ i < n, t < N ∧ x = (t + 1) * n + i ∧ HB i j) ∨ ∃ o, x = (N + 1) * n + o ∧ HC o j := by
  cases h with
  | diag t' i j' ht' hi hj' h =>
    obtain ⟨rfl, rfl⟩ := place_unique hj' hj hy
    exact .inl ⟨i, hi, rfl, h⟩
  | sub t' i j' ht' hi hj' h =>
    obtain ⟨rfl, rfl⟩ := place_unique hj' hj hy
    exact .inr (.inl ⟨i, hi, ht', rfl, h⟩)
  | outer t' o j' ht' hj' h =>
    obtain ⟨rfl, rfl⟩ := place_unique hj' hj hy
    exact .inr (.inr ⟨o, rfl, h⟩)
  | rest _ _ h =>
    have := place_below ht hj
    omega

private theorem targetRep_step {n N : Nat} {A B C HA HB HC : Nat → Nat → Prop} (h : ClosedRep A B C HA HB HC) {x z y : Nat}
    (h1 : TargetRep n N HA HB HC x y) (h2 : TargetRep n N HA HB HC z y) (hyz : y < z) (hlt : z < x) :
    TargetRep n N HA HB HC x z := by
  by_cases hy : (N + 1) * n ≤ y
  · exact .rest _ _ (by omega)
  by_cases hz : (N + 1) * n ≤ z
  · exact .rest _ _ hz
  obtain ⟨t, j, ht, hj, rfl⟩ : ∃ t j, t ≤ N ∧ j < n ∧ y = t * n + j := by
    have hn : 0 < n := by
      by_contra hn
      obtain rfl : n = 0 := by omega
      simp at hy
    refine ⟨y / n, y % n, ?_, Nat.mod_lt _ hn, ?_⟩
    · have := (Nat.div_lt_iff_lt_mul hn).mpr (Nat.lt_of_not_le hy)
      omega
    · rw [Nat.mul_comm]
      exact (Nat.div_add_mod y n).symm
  have e : (t + 1) * n = t * n + n := by rw [Nat.add_mul, Nat.one_mul]
  rcases h2.column rfl hj ht with ⟨k, hk, rfl, hk'⟩ | ⟨k, hk, htN, rfl, hk'⟩ | ⟨o, rfl, -⟩
  · rcases h1.column rfl hj ht with ⟨i, hi, rfl, hi'⟩ | ⟨i, hi, htN, rfl, hi'⟩ | ⟨o, rfl, ho⟩
    · exact .diag t i k ht hi hk (h.dd _ _ _ hi' hk' (by omega))
    · exact .sub t i k htN hi hk (h.sub_d _ _ _ hi' hk')
    · exact .outer t o k ht hk (h.out_d _ _ _ ho hk')
  · rcases h1.column rfl hj ht with ⟨i, hi, rfl, hi'⟩ | ⟨i, hi, htN, rfl, hi'⟩ | ⟨o, rfl, ho⟩
    · omega
    · exact .diag (t + 1) i k htN hi hk (h.sub_sub _ _ _ hi' hk' (by omega))
    · exact .outer (t + 1) o k htN hk (h.out_sub _ _ _ ho hk')
  · omega

theorem filledRep_least {inA inB inC : Sparsity} {p pC : List Nat} {n m : Nat} (hA : inA.OfDims n n)
    (hB : inB.OfDims n n) (hC : inC.OfDims m n) (hp : IsPerm p n) (hpC : IsPerm pC m) (hn : 2 * n ≤ noParent) :
    Sat (getFilledInSparsityRepeatingArrowhead inA inB inC p pC) fun f =>
      ∀ HA HB HC, ClosedRep (LowerPermuted inA p) (RectPermuted inB p p) (RectPermuted inC pC p) HA HB HC →
        (∀ i j, f.diag.Has i j → HA i j) ∧ (∀ i j, f.subdiag.Has i j → HB i j) ∧ ∀ i j, f.outer.Has i j → HC i j := by
  obtain ⟨iA, rA, kA⟩ := hA
  obtain ⟨iB, rB, kB⟩ := hB
  obtain ⟨iC, rC, kC⟩ := hC
  obtain ⟨f, K, hf, -, -, -, hF⟩ := C18_not_larger inA inB inC p pC iA iB iC (by omega) (by omega) (by omega) (by omega)
    (by rw [rA]; exact hp) (by rw [rC]; exact hpC) (by omega)
  rw [rA, rC] at hF
  refine ⟨f, hf, fun HA HB HC h => ?_⟩
  have key : ∀ N x y, Fill (RepeatingAssembled n N (LowerPermuted inA p) (RectPermuted inB p p) (RectPermuted inC pC p)
      fun _ _ => False) x y → TargetRep n N HA HB HC x y := by
    intro N x y hFill
    induction hFill with
    | @base x y hG hlt =>
      rcases hG with ⟨t, i, j, ht, rfl, rfl, hG⟩ | ⟨t, i, j, ht, rfl, rfl, hG⟩ | ⟨t, i, j, ht, rfl, rfl, hG⟩ | ⟨o, o', -, -, hG⟩
      · have h1 := hG.1
        have h2 := hG.2.1
        exact .diag t i j ht (by omega) (by omega) (h.sA _ _ hG)
      · have h1 := hG.1
        have h2 := hG.2.1
        exact .sub t i j ht (by omega) (by omega) (h.sB _ _ hG)
      · have h2 := hG.2.1
        exact .outer t i j ht (by omega) (h.sC _ _ hG)
      · exact hG.elim
    | step h1 h2 hlt ih1 ih2 => exact targetRep_step h ih1 ih2 h2.lt hlt
  refine ⟨fun i j hh => ?_, fun i j hh => ?_, fun i j hh => ?_⟩
  · obtain ⟨h1, h2, h3⟩ := (hF (fun _ _ => False) K K i j le_rfl le_rfl).1 hh
    rcases (key _ _ _ h3).column rfl h2 le_rfl with ⟨i', hi', e, hH⟩ | ⟨i', hi', e, -⟩ | ⟨o, e, -⟩
    · obtain rfl : i = i' := by omega
      exact hH
    · omega
    · have := place_below (le_refl K) h1
      omega
  · obtain ⟨h1, h2, h3⟩ := (hF (fun _ _ => False) (K + 1) K i j le_rfl (by omega)).2.1 hh (by omega)
    rcases (key _ _ _ h3).column rfl h2 (by omega) with ⟨i', hi', e, -⟩ | ⟨i', hi', -, e, hH⟩ | ⟨o, e, -⟩
    · rw [Nat.add_mul K] at e
      omega
    · obtain rfl : i = i' := by omega
      exact hH
    · have := place_below (show K + 1 ≤ K + 1 from le_rfl) h1
      omega
  · obtain ⟨h1, h2, h3⟩ := (hF (fun _ _ => False) K K i j le_rfl le_rfl).2.2 hh
    rcases (key _ _ _ h3).column rfl h2 le_rfl with ⟨i', hi', e, -⟩ | ⟨i', hi', e, -⟩ | ⟨o, e, hH⟩
    · have := place_below (le_refl K) hi'
      omega
    · omega
    · obtain rfl : i = o := by omega
      exact hH

/-- Patterns of the blocks which contain the declared ones and are closed under elimination. -/
structure ClosedTypes (s : ArrowheadSparsity) (sd sn so td ts lp ld ln os od : Nat → Nat → Prop) : Prop where
  start : Closed3 (LowerPermuted s.start.diag s.start.permutation)
    (RectPermuted s.start.next s.tridiag.permutation s.start.permutation) (LowerPermuted s.tridiag.diag s.tridiag.permutation)
    (RectPermuted s.start.outer s.outer.permutation s.start.permutation)
    (RectPermuted s.outer.subdiag s.outer.permutation s.tridiag.permutation)
    (LowerPermuted s.outer.diag s.outer.permutation) sd sn td so os od
  repeated : ClosedRep (LowerPermuted s.tridiag.diag s.tridiag.permutation)
    (RectPermuted s.tridiag.subdiag s.tridiag.permutation s.tridiag.permutation)
    (RectPermuted s.outer.subdiag s.outer.permutation s.tridiag.permutation) td ts os
  link : Closed3 (LowerPermuted s.tridiag.diag s.tridiag.permutation)
    (RectPermuted s.link.prev s.link.permutation s.tridiag.permutation) (LowerPermuted s.link.diag s.link.permutation)
    (RectPermuted s.outer.subdiag s.outer.permutation s.tridiag.permutation)
    (RectPermuted s.link.next s.outer.permutation s.link.permutation) (LowerPermuted s.outer.diag s.outer.permutation)
    td lp ld os ln od

private theorem has_of_lower {s : Sparsity} {n : Nat} (h : s.OfDims n n) {i j : Nat}
    (hh : LowerPermuted s (identityPermutation n) i j) : s.Has i j := by
  obtain ⟨h1, rfl, h2⟩ := h
  exact ((lowerPermuted_id h1 h2.symm _ _).mp hh).2

private theorem has_of_rect {s : Sparsity} {r c : Nat} (h : s.OfDims r c) {i j : Nat}
    (hh : RectPermuted s (identityPermutation r) (identityPermutation c) i j) : s.Has i j := by
  obtain ⟨h1, rfl, rfl⟩ := h
  exact (rectPermuted_id h1 _ _).mp hh

theorem arrowheadTypes_least {s : ArrowheadSparsity} {d : Dims} (h : s.Valid d) :
    Sat (arrowheadTypes s) fun T => ∀ sd sn so td ts lp ld ln os od, ClosedTypes s sd sn so td ts lp ld ln os od →
      (∀ i j, T.startDiag.Has i j → sd i j) ∧ (∀ i j, T.startNext.Has i j → sn i j) ∧
      (∀ i j, T.startOuter.Has i j → so i j) ∧ (∀ i j, T.tridiagDiag.Has i j → td i j) ∧
      (∀ i j, T.tridiagSubdiag.Has i j → ts i j) ∧ (∀ i j, T.linkPrev.Has i j → lp i j) ∧
      (∀ i j, T.linkDiag.Has i j → ld i j) ∧ (∀ i j, T.linkNext.Has i j → ln i j) ∧
      (∀ i j, T.outerSubdiag.Has i j → os i j) ∧ ∀ i j, T.outerDiag.Has i j → od i j := by
  have hdS : s.dimStart = .ok d.start := by
    simp [ArrowheadSparsity.dimStart, SparsityStart.dim, SparsityStart.hasConsistentDim, allEqual, pre,
      h.startDiag.2.1, h.startDiag.2.2, h.startNext.2.2, h.startOuter.2.2, h.permStart.length]
  have hcT : s.tridiag.hasConsistentDim = true := by
    simp [SparsityTridiagonal.hasConsistentDim, allEqual, h.tridiagDiag.2.1, h.tridiagDiag.2.2,
      h.tridiagSubdiag.2.1, h.tridiagSubdiag.2.2, h.permTridiag.length]
  have hcO : s.outer.hasConsistentDim = true := by
    simp [SparsityOuter.hasConsistentDim, allEqual, h.outerDiag.2.1, h.outerDiag.2.2,
      h.outerSubdiag.2.1, h.permOuter.length]
  have hdT' : s.tridiag.dim = .ok d.tridiag := by
    simp [SparsityTridiagonal.dim, hcT, pre, h.tridiagDiag.2.1]
  have hdO' : s.outer.dim = .ok d.outer := by
    simp [SparsityOuter.dim, hcO, pre, h.outerDiag.2.1]
  have hdT : s.dimTridiag = .ok d.tridiag := by
    unfold ArrowheadSparsity.dimTridiag ArrowheadSparsity.hasConsistentDimTridiag
    rw [if_pos hcT, hdT', ok_bind]
    simp [allEqual, h.startNext.2.1, h.linkPrev.2.2, h.outerSubdiag.2.2, pre]
    rfl
  have hdO : s.dimOuter = .ok d.outer := by
    unfold ArrowheadSparsity.dimOuter ArrowheadSparsity.hasConsistentDimOuter
    rw [if_pos hcO, hdO', ok_bind]
    simp [allEqual, h.startOuter.2.1, h.linkNext.2.1, pre]
    rfl
  have hdL : s.dimLink = .ok d.link := by
    simp [ArrowheadSparsity.dimLink, SparsityLink.dim, SparsityLink.hasConsistentDim, allEqual, pre,
      h.linkDiag.2.1, h.linkDiag.2.2, h.linkPrev.2.1, h.linkNext.2.2, h.permLink.length]
  unfold arrowheadTypes
  rw [hdS, ok_bind, hdT, ok_bind, hdL, ok_bind, hdO, ok_bind]
  simp only
  refine Sat.bind (Sat.both (filled3_sat h.startDiag h.startNext h.tridiagDiag h.startOuter h.outerSubdiag h.outerDiag
    h.permStart h.permTridiag h.permOuter h.smallStart) (filled3_least h.startDiag h.startNext h.tridiagDiag h.startOuter
    h.outerSubdiag h.outerDiag h.permStart h.permTridiag h.permOuter h.smallStart)) ?_
  rintro hs ⟨fs, ls⟩
  refine Sat.bind (permuted_sat h.tridiagSubdiag h.permTridiag h.permTridiag) ?_
  rintro tsub ⟨dsub, msub⟩
  refine Sat.bind (Sat.both (filledRep_sat fs.p22.ofDims dsub fs.p32.ofDims (isPerm_identity _) (isPerm_identity _)
    h.smallTridiag) (filledRep_least fs.p22.ofDims dsub fs.p32.ofDims (isPerm_identity _) (isPerm_identity _)
    h.smallTridiag)) ?_
  rintro fa ⟨ff, lf⟩
  refine Sat.bind (permuted_sat h.linkPrev (isPerm_identity _) h.permTridiag) ?_
  rintro tprev ⟨dprev, mprev⟩
  refine Sat.bind (permuted_sat h.linkNext h.permOuter (isPerm_identity _)) ?_
  rintro tnext ⟨dnext, mnext⟩
  refine Sat.bind (Sat.both (filled3_sat ff.pd.ofDims dprev h.linkDiag ff.po.ofDims dnext fs.p33.ofDims
    (isPerm_identity _) h.permLink (isPerm_identity _) h.smallLink) (filled3_least ff.pd.ofDims dprev h.linkDiag ff.po.ofDims
    dnext fs.p33.ofDims (isPerm_identity _) h.permLink (isPerm_identity _) h.smallLink)) ?_
  rintro he ⟨fh, lh⟩
  have := h.smallStart
  have := h.smallLink
  refine Sat.bind (fs.p11.alreadyPermuted h.permStart (by omega) fs.low11 fs.c11) ?_
  rintro q1 ⟨k1, m1⟩
  refine Sat.bind fs.p21.toCsr ?_
  rintro q2 ⟨k2, m2⟩
  refine Sat.bind fs.p31.toCsr ?_
  rintro q3 ⟨k3, m3⟩
  refine Sat.bind (ff.pd.alreadyPermuted h.permTridiag (by omega) ff.low ff.dd) ?_
  rintro q4 ⟨k4, m4⟩
  refine Sat.bind ff.ps.toCsr ?_
  rintro q5 ⟨k5, m5⟩
  refine Sat.bind fh.p21.toCsr ?_
  rintro q6 ⟨k6, m6⟩
  refine Sat.bind (fh.p22.alreadyPermuted h.permLink (by omega) fh.low22 fh.c22') ?_
  rintro q7 ⟨k7, m7⟩
  refine Sat.bind fh.p32.toCsr ?_
  rintro q8 ⟨k8, m8⟩
  refine Sat.bind ff.po.toCsr ?_
  rintro q9 ⟨k9, m9⟩
  refine Sat.bind (fh.p33.alreadyPermuted h.permOuter (by omega) fh.low33 fh.c33'') ?_
  rintro q10 ⟨k10, m10⟩
  refine Sat.pure fun sd sn so td ts lp ld ln os od hc => ?_
  obtain ⟨a11, a21, a22, a31, a32, a33⟩ := ls _ _ _ _ _ _ hc.start
  obtain ⟨bd, bs, bo⟩ := lf td ts os { hc.repeated with
    sA := fun i j hh => a22 i j (has_of_lower fs.p22.ofDims hh)
    sB := fun i j hh => by
      have hh' := has_of_rect dsub hh
      obtain ⟨h1, h2, -⟩ := hh
      rw [dsub.2.1] at h1
      rw [dsub.2.2] at h2
      exact hc.repeated.sB i j ⟨by rw [h.tridiagSubdiag.2.1]; exact h1, by rw [h.tridiagSubdiag.2.2]; exact h2,
        (msub i j h1 h2).mp hh'⟩
    sC := fun i j hh => a32 i j (has_of_rect fs.p32.ofDims hh) }
  obtain ⟨c11, c21, c22, c31, c32, c33⟩ := lh td lp ld os ln od { hc.link with
    s11 := fun i j hh => bd i j (has_of_lower ff.pd.ofDims hh)
    s21 := fun i j hh => by
      obtain ⟨h1, h2, h3⟩ := hh
      rw [dprev.2.1] at h1
      rw [dprev.2.2] at h2
      rw [permAt_identity h2, mprev _ _ (h.permLink.lt h1) h2, permAt_identity (h.permLink.lt h1)] at h3
      exact hc.link.s21 i j ⟨by rw [h.linkPrev.2.1]; exact h1, by rw [h.linkPrev.2.2]; exact h2, h3⟩
    s31 := fun i j hh => bo i j (has_of_rect ff.po.ofDims hh)
    s32 := fun i j hh => by
      obtain ⟨h1, h2, h3⟩ := hh
      rw [dnext.2.1] at h1
      rw [dnext.2.2] at h2
      rw [permAt_identity h1, mnext _ _ h1 (h.permLink.lt h2), permAt_identity (h.permLink.lt h2)] at h3
      exact hc.link.s32 i j ⟨by rw [h.linkNext.2.1]; exact h1, by rw [h.linkNext.2.2]; exact h2, h3⟩
    s33 := fun i j hh => a33 i j (has_of_lower fs.p33.ofDims hh) }
  simp only [m1, m2, m3, m4, m5, m6, m7, m8, m9, m10]
  exact ⟨a11, a21, a31, bd, bs, c21, c22, c32, bo, c33⟩

end Ctldl
