import Verif.Lemmas.RepeatingFill
import Verif.Lemmas.Single
import Verif.Spec.Arrowhead

/-! # Patterns of the blocks of the arrowhead factorization -/

namespace Ctldl

/-- A sorted pattern of given dimensions. -/
structure PatOk (s : Sparsity) (r c : Nat) : Prop where
  inRange : s.InRange
  sorted : s.Sorted
  rows : s.numRows = r
  cols : s.numCols = c

theorem Sparsity.IsPattern.patOk {s : Sparsity} {r c : Nat} {P : Nat → Nat → Prop} (h : s.IsPattern r c P) :
    PatOk s r c := ⟨h.inRange, h.2.2.1, h.1, h.2.1⟩

/-- Filled-in 3 x 3 blocks: closed under elimination, containing the given ones. -/
structure Filled3 (n1 n2 n3 : Nat) (G11 G21 G22 G31 G32 G33 : Nat → Nat → Prop)
    (f : Blocked3x3 Sparsity) : Prop where
  p11 : PatOk f.block11 n1 n1
  p21 : PatOk f.block21 n2 n1
  p22 : PatOk f.block22 n2 n2
  p31 : PatOk f.block31 n3 n1
  p32 : PatOk f.block32 n3 n2
  p33 : PatOk f.block33 n3 n3
  low11 : ∀ i j, f.block11.Has i j → j < i
  low22 : ∀ i j, f.block22.Has i j → j < i
  low33 : ∀ i j, f.block33.Has i j → j < i
  s11 : ∀ i j, G11 i j → f.block11.Has i j
  s21 : ∀ i j, G21 i j → f.block21.Has i j
  s22 : ∀ i j, G22 i j → f.block22.Has i j
  s31 : ∀ i j, G31 i j → f.block31.Has i j
  s32 : ∀ i j, G32 i j → f.block32.Has i j
  s33 : ∀ i j, G33 i j → f.block33.Has i j
  c11 : ∀ i j k, f.block11.Has i j → f.block11.Has k j → k < i → f.block11.Has i k
  c21 : ∀ i j k, f.block21.Has i j → f.block11.Has k j → f.block21.Has i k
  c22 : ∀ i j k, f.block21.Has i j → f.block21.Has k j → k < i → f.block22.Has i k
  c22' : ∀ i j k, f.block22.Has i j → f.block22.Has k j → k < i → f.block22.Has i k
  c31 : ∀ i j k, f.block31.Has i j → f.block11.Has k j → f.block31.Has i k
  c32 : ∀ i j k, f.block31.Has i j → f.block21.Has k j → f.block32.Has i k
  c32' : ∀ i j k, f.block32.Has i j → f.block22.Has k j → f.block32.Has i k
  c33 : ∀ i j k, f.block31.Has i j → f.block31.Has k j → k < i → f.block33.Has i k
  c33' : ∀ i j k, f.block32.Has i j → f.block32.Has k j → k < i → f.block33.Has i k
  c33'' : ∀ i j k, f.block33.Has i j → f.block33.Has k j → k < i → f.block33.Has i k

theorem filled3_sat {in11 in21 in22 in31 in32 in33 : Sparsity} {p1 p2 p3 : List Nat} {n1 n2 n3 : Nat}
    (h11 : in11.OfDims n1 n1) (h21 : in21.OfDims n2 n1) (h22 : in22.OfDims n2 n2) (h31 : in31.OfDims n3 n1)
    (h32 : in32.OfDims n3 n2) (h33 : in33.OfDims n3 n3) (hp1 : IsPerm p1 n1) (hp2 : IsPerm p2 n2)
    (hp3 : IsPerm p3 n3) (hn : n1 + n2 + n3 ≤ noParent) :
    Sat (getFilledInSparsityBlocked3x3 in11 in21 in22 in31 in32 in33 p1 p2 p3)
      (Filled3 n1 n2 n3 (LowerPermuted in11 p1) (RectPermuted in21 p2 p1) (LowerPermuted in22 p2)
        (RectPermuted in31 p3 p1) (RectPermuted in32 p3 p2) (LowerPermuted in33 p3)) := by
  obtain ⟨i11, r11, k11⟩ := h11
  obtain ⟨i21, r21, k21⟩ := h21
  obtain ⟨i22, r22, k22⟩ := h22
  obtain ⟨i31, r31, k31⟩ := h31
  obtain ⟨i32, r32, k32⟩ := h32
  obtain ⟨i33, r33, k33⟩ := h33
  refine Sat.mono (getFilledInSparsityBlocked3x3_sat ⟨by omega, by omega, by omega, by omega, by omega, by omega,
    by omega, by omega, by omega⟩ i11 i21 i22 i31 i32 i33 (by rw [r11]; exact hp1) (by rw [r22]; exact hp2)
    (by rw [r33]; exact hp3) (by omega)) ?_
  rintro f ⟨f11, f21, f22, f31, f32, f33⟩
  have base : ∀ i j, permutedAssembled in11 in21 in22 in31 in32 in33 p1 p2 p3 i j → j < i →
      Fill (permutedAssembled in11 in21 in22 in31 in32 in33 p1 p2 p3) i j := fun i j h h' => .base h h'
  have hG : ∀ i j, permutedAssembled in11 in21 in22 in31 in32 in33 p1 p2 p3 i j ↔
      Assembled3 n1 n2 (LowerPermuted in11 p1) (RectPermuted in21 p2 p1) (LowerPermuted in22 p2)
        (RectPermuted in31 p3 p1) (RectPermuted in32 p3 p2) (LowerPermuted in33 p3) i j := by
    intro i j
    unfold permutedAssembled
    rw [r11, r22]
  simp only [r11, r22, r33] at f11 f21 f22 f31 f32 f33
  simp only [hG] at base
  generalize permutedAssembled in11 in21 in22 in31 in32 in33 p1 p2 p3 = G at *
  refine ⟨f11.patOk, f21.patOk, f22.patOk, f31.patOk, f32.patOk, f33.patOk, ?_, ?_, ?_, ?_, ?_, ?_, ?_, ?_, ?_,
    ?_, ?_, ?_, ?_, ?_, ?_, ?_, ?_, ?_, ?_⟩
  all_goals simp only [f11.2.2.2, f21.2.2.2, f22.2.2.2, f31.2.2.2, f32.2.2.2, f33.2.2.2]
  · rintro i j ⟨-, -, h⟩; exact h.lt
  · rintro i j ⟨-, -, h⟩; have := h.lt; omega
  · rintro i j ⟨-, -, h⟩; have := h.lt; omega
  · rintro i j h
    obtain ⟨h1, h2, -⟩ := id h
    exact ⟨by omega, by omega, base _ _ (Or.inl h) h1⟩
  · rintro i j h
    obtain ⟨h1, h2, -⟩ := id h
    refine ⟨by omega, by omega, base _ _ (Or.inr (Or.inl ⟨by omega, ?_⟩)) (by omega)⟩
    rw [show n1 + i - n1 = i by omega]; exact h
  · rintro i j h
    obtain ⟨h1, h2, -⟩ := id h
    refine ⟨by omega, by omega, base _ _ (Or.inr (Or.inr (Or.inl ⟨by omega, by omega, ?_⟩))) (by omega)⟩
    rw [show n1 + i - n1 = i by omega, show n1 + j - n1 = j by omega]; exact h
  · rintro i j h
    obtain ⟨h1, h2, -⟩ := id h
    refine ⟨by omega, by omega, base _ _ (Or.inr (Or.inr (Or.inr (Or.inl ⟨by omega, ?_⟩)))) (by omega)⟩
    rw [show n1 + n2 + i - (n1 + n2) = i by omega]; exact h
  · rintro i j h
    obtain ⟨h1, h2, -⟩ := id h
    refine ⟨by omega, by omega, base _ _ (Or.inr (Or.inr (Or.inr (Or.inr (Or.inl ⟨by omega, by omega, ?_⟩)))))
      (by omega)⟩
    rw [show n1 + n2 + i - (n1 + n2) = i by omega, show n1 + j - n1 = j by omega]; exact h
  · rintro i j h
    obtain ⟨h1, h2, -⟩ := id h
    refine ⟨by omega, by omega, base _ _ (Or.inr (Or.inr (Or.inr (Or.inr (Or.inr ⟨by omega, by omega, ?_⟩)))))
      (by omega)⟩
    rw [show n1 + n2 + i - (n1 + n2) = i by omega, show n1 + n2 + j - (n1 + n2) = j by omega]; exact h
  all_goals
    first
    | (rintro i j k ⟨a1, a2, a3⟩ ⟨b1, b2, b3⟩ hk
       exact ⟨by omega, by omega, .step a3 b3 (by omega)⟩)
    | (rintro i j k ⟨a1, a2, a3⟩ ⟨b1, b2, b3⟩
       exact ⟨by omega, by omega, .step a3 b3 (by omega)⟩)

/-- Filled-in repeating blocks. -/
structure FilledRep (n m : Nat) (A B C : Nat → Nat → Prop) (f : RepeatingArrowhead Sparsity) : Prop where
  pd : PatOk f.diag n n
  ps : PatOk f.subdiag n n
  po : PatOk f.outer m n
  low : ∀ i j, f.diag.Has i j → j < i
  sd : ∀ i j, A i j → f.diag.Has i j
  ss : ∀ i j, B i j → f.subdiag.Has i j
  so : ∀ i j, C i j → f.outer.Has i j
  dd : ∀ i j k, f.diag.Has i j → f.diag.Has k j → k < i → f.diag.Has i k
  sub_d : ∀ i j k, f.subdiag.Has i j → f.diag.Has k j → f.subdiag.Has i k
  sub_sub : ∀ i j k, f.subdiag.Has i j → f.subdiag.Has k j → k < i → f.diag.Has i k
  out_d : ∀ i j k, f.outer.Has i j → f.diag.Has k j → f.outer.Has i k
  out_sub : ∀ i j k, f.outer.Has i j → f.subdiag.Has k j → f.outer.Has i k

theorem filledRep_sat {inA inB inC : Sparsity} {p pC : List Nat} {n m : Nat} (hA : inA.OfDims n n)
    (hB : inB.OfDims n n) (hC : inC.OfDims m n) (hp : IsPerm p n) (hpC : IsPerm pC m) (hn : 2 * n ≤ noParent) :
    Sat (getFilledInSparsityRepeatingArrowhead inA inB inC p pC)
      (FilledRep n m (LowerPermuted inA p) (RectPermuted inB p p) (RectPermuted inC pC p)) := by
  obtain ⟨iA, rA, kA⟩ := hA
  obtain ⟨iB, rB, kB⟩ := hB
  obtain ⟨iC, rC, kC⟩ := hC
  refine Sat.mono (getFilledInSparsityRepeatingArrowhead_sat iA iB iC (by omega) (by omega) (by omega) (by omega)
    (by rw [rA]; exact hp) (by rw [rC]; exact hpC) (by omega)) ?_
  rintro f ⟨k, F, T, -, hfix, hd, hs, ho⟩
  rw [rA] at hd hs ho hfix
  rw [rC] at ho
  have hO : ∀ o, OuterClosed n T (OuterReach n T (RectPermuted inC pC p) o) := fun o => OuterReach.closed _ _ _ o
  have hOr : ∀ o j, OuterReach n T (RectPermuted inC pC p) o j → o < m := fun o j h =>
    h.row fun a b hab => by have := hab.1; omega
  refine ⟨hd.patOk, hs.patOk, ho.patOk, ?_, ?_, ?_, ?_, ?_, ?_, ?_, ?_, ?_⟩
  all_goals simp only [hd.2.2.2, hs.2.2.2, ho.2.2.2]
  · rintro i j ⟨-, -, h⟩; have := h.lt; omega
  · rintro i j h
    obtain ⟨h1, h2, -⟩ := id h
    refine ⟨by omega, by omega, .base (Or.inr (Or.inr ⟨by omega, by omega, ?_⟩)) (by omega)⟩
    rw [show n + i - n = i by omega, show n + j - n = j by omega]; exact h
  · rintro i j h
    obtain ⟨h1, h2, -⟩ := id h
    refine ⟨by omega, by omega, .base (Or.inr (Or.inl ⟨by omega, ?_⟩)) (by omega)⟩
    rw [show n + i - n = i by omega]; exact h
  · rintro i j h
    obtain ⟨h1, h2, -⟩ := id h
    exact ⟨by omega, by omega, ⟨j, h, .refl⟩⟩
  · rintro i j k ⟨a1, a2, a3⟩ ⟨b1, b2, b3⟩ hk
    exact ⟨by omega, by omega, hfix.diag_diag a3 b3 hk⟩
  · rintro i j k ⟨a1, a2, a3⟩ ⟨b1, b2, b3⟩
    exact ⟨by omega, by omega, hfix.sub_diag b1 a3 b3⟩
  · rintro i j k ⟨a1, a2, a3⟩ ⟨b1, b2, b3⟩ hk
    exact ⟨by omega, by omega, hfix.sub_sub a3 b3 hk⟩
  · rintro i j k ⟨a1, a2, a3⟩ ⟨b1, b2, b3⟩
    exact ⟨by omega, by omega, hfix.outer_diag (hO i) b1 a3 b3⟩
  · rintro i j k ⟨a1, a2, a3⟩ ⟨b1, b2, b3⟩
    exact ⟨by omega, by omega, hfix.outer_sub (hO i) b1 a2 a3 b3⟩

/-- A compressed pattern of given dimensions. -/
structure CsrOk (c : Csr) (r k : Nat) : Prop where
  good : c.Good
  rows : c.numRows = r
  cols : c.numCols = k

theorem PatOk.toCsr {s : Sparsity} {r c : Nat} (h : PatOk s r c) :
    Sat s.toCsr (fun q => CsrOk q r c ∧ ∀ i j, q.Has i j ↔ s.Has i j) := by
  refine ⟨_, toCsr_eq h.inRange, ?_⟩
  obtain ⟨h1, h2⟩ := Csr.Good.of_toCsr h.inRange h.sorted (toCsr_eq h.inRange)
  refine ⟨⟨h1, by rw [h2]; exact h.rows, by rw [h2]; exact h.cols⟩, fun i j => ?_⟩
  unfold Csr.Has
  rw [h2]

theorem PatOk.alreadyPermuted {s : Sparsity} {n : Nat} {p : List Nat} (h : PatOk s n n) (hp : IsPerm p n)
    (hn : n ≤ noParent) (hlow : ∀ i j, s.Has i j → j < i)
    (hcl : ∀ i j k, s.Has i j → s.Has k j → k < i → s.Has i k) :
    Sat (factorizationAlreadyPermutedSparsity s p) (fun q => CsrOk q n n ∧ ∀ i j, q.Has i j ↔ s.Has i j) := by
  have hff : FillFree fun i j => s.Has i j := by
    intro i j hf
    induction hf with
    | base h _ => exact h
    | step _ _ hk ih1 ih2 => exact hcl _ _ _ ih1 ih2 hk
  refine Sat.mono (factorizationAlreadyPermutedSparsity_closed h.inRange h.sorted (by rw [h.rows, h.cols])
    (by rw [h.rows]; exact hp) (by rw [h.rows]; exact hn) hlow hff) ?_
  rintro c ⟨h1, h2⟩
  refine ⟨⟨⟨h1, by rw [h2]; exact h.sorted⟩, by rw [h2]; exact h.rows, by rw [h2]; exact h.cols⟩, fun i j => ?_⟩
  unfold Csr.Has
  rw [h2]

/-- Patterns of the blocks of the arrowhead factorization. -/
structure TypesOk (s : ArrowheadSparsity) (T : ArrowheadTypes) (d : Dims) : Prop where
  dims : T.dimStart = d.start ∧ T.dimTridiag = d.tridiag ∧ T.dimLink = d.link ∧ T.dimOuter = d.outer
  perms : T.permStart = s.start.permutation ∧ T.permTridiag = s.tridiag.permutation ∧
    T.permLink = s.link.permutation ∧ T.permOuter = s.outer.permutation
  startDiag : CsrOk T.startDiag d.start d.start
  startNext : CsrOk T.startNext d.tridiag d.start
  startOuter : CsrOk T.startOuter d.outer d.start
  tridiagDiag : CsrOk T.tridiagDiag d.tridiag d.tridiag
  tridiagSubdiag : CsrOk T.tridiagSubdiag d.tridiag d.tridiag
  linkPrev : CsrOk T.linkPrev d.link d.tridiag
  linkDiag : CsrOk T.linkDiag d.link d.link
  linkNext : CsrOk T.linkNext d.outer d.link
  outerSubdiag : CsrOk T.outerSubdiag d.outer d.tridiag
  outerDiag : CsrOk T.outerDiag d.outer d.outer
  lowStart : ∀ i j, T.startDiag.Has i j → j < i
  lowTridiag : ∀ i j, T.tridiagDiag.Has i j → j < i
  lowLink : ∀ i j, T.linkDiag.Has i j → j < i
  lowOuter : ∀ i j, T.outerDiag.Has i j → j < i
  sStartDiag : ∀ i j, LowerPermuted s.start.diag s.start.permutation i j → T.startDiag.Has i j
  sStartNext : ∀ i j, RectPermuted s.start.next s.tridiag.permutation s.start.permutation i j → T.startNext.Has i j
  sStartOuter : ∀ i j, RectPermuted s.start.outer s.outer.permutation s.start.permutation i j → T.startOuter.Has i j
  sTridiagDiag : ∀ i j, LowerPermuted s.tridiag.diag s.tridiag.permutation i j → T.tridiagDiag.Has i j
  sTridiagSubdiag : ∀ i j, RectPermuted s.tridiag.subdiag s.tridiag.permutation s.tridiag.permutation i j →
    T.tridiagSubdiag.Has i j
  sLinkPrev : ∀ i j, RectPermuted s.link.prev s.link.permutation s.tridiag.permutation i j → T.linkPrev.Has i j
  sLinkDiag : ∀ i j, LowerPermuted s.link.diag s.link.permutation i j → T.linkDiag.Has i j
  sLinkNext : ∀ i j, RectPermuted s.link.next s.outer.permutation s.link.permutation i j → T.linkNext.Has i j
  sOuterSubdiag : ∀ i j, RectPermuted s.outer.subdiag s.outer.permutation s.tridiag.permutation i j →
    T.outerSubdiag.Has i j
  sOuterDiag : ∀ i j, LowerPermuted s.outer.diag s.outer.permutation i j → T.outerDiag.Has i j
  cStart : Closed2 T.startDiag.Has T.startNext.Has T.tridiagDiag.Has
  cTridiag : Closed2 T.tridiagDiag.Has T.tridiagSubdiag.Has T.tridiagDiag.Has
  cLink : Closed2 T.tridiagDiag.Has T.linkPrev.Has T.linkDiag.Has
  cOuter : Closed2 T.linkDiag.Has T.linkNext.Has T.outerDiag.Has
  oStart1 : ∀ i j k, T.startOuter.Has i j → T.startDiag.Has k j → T.startOuter.Has i k
  oStart2 : ∀ i j k, T.startOuter.Has i j → T.startNext.Has k j → T.outerSubdiag.Has i k
  oStart3 : ∀ i j k, T.startOuter.Has i j → T.startOuter.Has k j → k < i → T.outerDiag.Has i k
  oTridiag1 : ∀ i j k, T.outerSubdiag.Has i j → T.tridiagDiag.Has k j → T.outerSubdiag.Has i k
  oTridiag2 : ∀ i j k, T.outerSubdiag.Has i j → T.tridiagSubdiag.Has k j → T.outerSubdiag.Has i k
  oTridiag3 : ∀ i j k, T.outerSubdiag.Has i j → T.outerSubdiag.Has k j → k < i → T.outerDiag.Has i k
  oLink2 : ∀ i j k, T.outerSubdiag.Has i j → T.linkPrev.Has k j → T.linkNext.Has i k

theorem permuted_sat {s : Sparsity} {pr pc : List Nat} {r c : Nat} (hs : s.OfDims r c) (hr : IsPerm pr r)
    (hc : IsPerm pc c) :
    Sat (getSparsityPermuted s pr pc) (fun t => t.OfDims r c ∧
      ∀ i j, i < r → j < c → (t.Has i j ↔ s.Has (permAt pr i) (permAt pc j))) := by
  obtain ⟨i1, i2, i3⟩ := hs
  subst i2 i3
  obtain ⟨t, h1, h2, h3, h4, -, h5⟩ := C06_permuted_pattern s i1 pr pc hr hc
  refine ⟨t, h1, ⟨h4, h2, h3⟩, fun i j hi hj => ?_⟩
  exact (h5 i j _ _ hi hj (hr.get?_eq hi) (hc.get?_eq hj)).2

theorem PatOk.ofDims {s : Sparsity} {r c : Nat} (h : PatOk s r c) : s.OfDims r c := ⟨h.inRange, h.rows, h.cols⟩

theorem lowerPermuted_id_of {s : Sparsity} {n : Nat} (h : s.OfDims n n) {i j : Nat} (hh : s.Has i j) (hlt : j < i) :
    LowerPermuted s (identityPermutation n) i j := by
  obtain ⟨h1, rfl, h2⟩ := h
  exact (lowerPermuted_id h1 h2.symm _ _).mpr ⟨hlt, hh⟩

theorem rectPermuted_id_of {s : Sparsity} {r c : Nat} (h : s.OfDims r c) {i j : Nat} (hh : s.Has i j) :
    RectPermuted s (identityPermutation r) (identityPermutation c) i j := by
  obtain ⟨h1, rfl, rfl⟩ := h
  exact (rectPermuted_id h1 _ _).mpr hh

theorem arrowheadTypes_sat {s : ArrowheadSparsity} {d : Dims} (h : s.Valid d) :
    Sat (arrowheadTypes s) (fun T => TypesOk s T d) := by
  have hdS : s.dimStart = .ok d.start := by
    simp [ArrowheadSparsity.dimStart, SparsityStart.dim, SparsityStart.hasConsistentDim, allEqual, pre,
      h.startDiag.2.1, h.startDiag.2.2, h.startNext.2.2, h.startOuter.2.2, h.permStart.length]
  have hcT : s.tridiag.hasConsistentDim = true := by
    simp [SparsityTridiagonal.hasConsistentDim, allEqual, h.tridiagDiag.2.1, h.tridiagDiag.2.2,
      h.tridiagSubdiag.2.1, h.tridiagSubdiag.2.2, h.permTridiag.length]
  have hcO : s.outer.hasConsistentDim = true := by
    simp [SparsityOuter.hasConsistentDim, allEqual, h.outerDiag.2.1, h.outerDiag.2.2,
      h.outerSubdiag.2.1, h.permOuter.length]
  have hdT' : s.tridiag.dim = .ok d.tridiag := by
    simp [SparsityTridiagonal.dim, hcT, pre, h.tridiagDiag.2.1]
  have hdO' : s.outer.dim = .ok d.outer := by
    simp [SparsityOuter.dim, hcO, pre, h.outerDiag.2.1]
  have hdT : s.dimTridiag = .ok d.tridiag := by
    unfold ArrowheadSparsity.dimTridiag ArrowheadSparsity.hasConsistentDimTridiag
    rw [if_pos hcT, hdT', ok_bind]
    simp [allEqual, h.startNext.2.1, h.linkPrev.2.2, h.outerSubdiag.2.2, pre]
    rfl
  have hdO : s.dimOuter = .ok d.outer := by
    unfold ArrowheadSparsity.dimOuter ArrowheadSparsity.hasConsistentDimOuter
    rw [if_pos hcO, hdO', ok_bind]
    simp [allEqual, h.startOuter.2.1, h.linkNext.2.1, pre]
    rfl
  have hdL : s.dimLink = .ok d.link := by
    simp [ArrowheadSparsity.dimLink, SparsityLink.dim, SparsityLink.hasConsistentDim, allEqual, pre,
      h.linkDiag.2.1, h.linkDiag.2.2, h.linkPrev.2.1, h.linkNext.2.2, h.permLink.length]
  unfold arrowheadTypes
  rw [hdS, ok_bind, hdT, ok_bind, hdL, ok_bind, hdO, ok_bind]
  simp only
  refine Sat.bind (filled3_sat h.startDiag h.startNext h.tridiagDiag h.startOuter h.outerSubdiag h.outerDiag
    h.permStart h.permTridiag h.permOuter h.smallStart) ?_
  intro hs fs
  refine Sat.bind (permuted_sat h.tridiagSubdiag h.permTridiag h.permTridiag) ?_
  rintro tsub ⟨dsub, msub⟩
  refine Sat.bind (filledRep_sat fs.p22.ofDims dsub fs.p32.ofDims (isPerm_identity _) (isPerm_identity _)
    h.smallTridiag) ?_
  intro fa ff
  refine Sat.bind (permuted_sat h.linkPrev (isPerm_identity _) h.permTridiag) ?_
  rintro tprev ⟨dprev, mprev⟩
  refine Sat.bind (permuted_sat h.linkNext h.permOuter (isPerm_identity _)) ?_
  rintro tnext ⟨dnext, mnext⟩
  refine Sat.bind (filled3_sat ff.pd.ofDims dprev h.linkDiag ff.po.ofDims dnext fs.p33.ofDims
    (isPerm_identity _) h.permLink (isPerm_identity _) h.smallLink) ?_
  intro he fh
  have := h.smallStart
  have := h.smallLink
  refine Sat.bind (fs.p11.alreadyPermuted h.permStart (by omega) fs.low11 fs.c11) ?_
  rintro q1 ⟨k1, m1⟩
  refine Sat.bind fs.p21.toCsr ?_
  rintro q2 ⟨k2, m2⟩
  refine Sat.bind fs.p31.toCsr ?_
  rintro q3 ⟨k3, m3⟩
  refine Sat.bind (ff.pd.alreadyPermuted h.permTridiag (by omega) ff.low ff.dd) ?_
  rintro q4 ⟨k4, m4⟩
  refine Sat.bind ff.ps.toCsr ?_
  rintro q5 ⟨k5, m5⟩
  refine Sat.bind fh.p21.toCsr ?_
  rintro q6 ⟨k6, m6⟩
  refine Sat.bind (fh.p22.alreadyPermuted h.permLink (by omega) fh.low22 fh.c22') ?_
  rintro q7 ⟨k7, m7⟩
  refine Sat.bind fh.p32.toCsr ?_
  rintro q8 ⟨k8, m8⟩
  refine Sat.bind ff.po.toCsr ?_
  rintro q9 ⟨k9, m9⟩
  refine Sat.bind (fh.p33.alreadyPermuted h.permOuter (by omega) fh.low33 fh.c33'') ?_
  rintro q10 ⟨k10, m10⟩
  -- relations between the three steps
  have e22 : ∀ i j, hs.block22.Has i j → fa.diag.Has i j := fun i j hh =>
    ff.sd i j (lowerPermuted_id_of fs.p22.ofDims hh (fs.low22 _ _ hh))
  have e32 : ∀ i j, hs.block32.Has i j → fa.outer.Has i j := fun i j hh =>
    ff.so i j (rectPermuted_id_of fs.p32.ofDims hh)
  have e33 : ∀ i j, hs.block33.Has i j → he.block33.Has i j := fun i j hh =>
    fh.s33 i j (lowerPermuted_id_of fs.p33.ofDims hh (fs.low33 _ _ hh))
  have e11 : ∀ i j, fa.diag.Has i j → he.block11.Has i j := fun i j hh =>
    fh.s11 i j (lowerPermuted_id_of ff.pd.ofDims hh (ff.low _ _ hh))
  have e31 : ∀ i j, fa.outer.Has i j → he.block31.Has i j := fun i j hh =>
    fh.s31 i j (rectPermuted_id_of ff.po.ofDims hh)
  refine Sat.pure ⟨⟨rfl, rfl, rfl, rfl⟩, ⟨rfl, rfl, rfl, rfl⟩, k1, k2, k3, k4, k5, k6, k7, k8, k9, k10, ?_, ?_, ?_,
    ?_, ?_, ?_, ?_, ?_, ?_, ?_, ?_, ?_, ?_, ?_, ?_, ?_, ?_, ?_, ?_, ?_, ?_, ?_, ?_, ?_, ?_⟩
  all_goals simp only [m1, m2, m3, m4, m5, m6, m7, m8, m9, m10]
  · exact fs.low11
  · exact ff.low
  · exact fh.low22
  · exact fh.low33
  · exact fs.s11
  · exact fs.s21
  · exact fs.s31
  · exact fun i j hh => e22 i j (fs.s22 i j hh)
  · intro i j hh
    obtain ⟨h1, h2, h3⟩ := id hh
    rw [h.tridiagSubdiag.2.1] at h1
    rw [h.tridiagSubdiag.2.2] at h2
    exact ff.ss i j (rectPermuted_id_of dsub ((msub i j h1 h2).mpr h3))
  · intro i j hh
    obtain ⟨h1, h2, h3⟩ := id hh
    rw [h.linkPrev.2.1] at h1
    rw [h.linkPrev.2.2] at h2
    refine fh.s21 i j ⟨by rw [dprev.2.1]; exact h1, by rw [dprev.2.2]; exact h2, ?_⟩
    rw [permAt_identity h2, mprev _ _ (h.permLink.lt h1) h2, permAt_identity (h.permLink.lt h1)]
    exact h3
  · exact fh.s22
  · intro i j hh
    obtain ⟨h1, h2, h3⟩ := id hh
    rw [h.linkNext.2.1] at h1
    rw [h.linkNext.2.2] at h2
    refine fh.s32 i j ⟨by rw [dnext.2.1]; exact h1, by rw [dnext.2.2]; exact h2, ?_⟩
    rw [permAt_identity h1, mnext _ _ h1 (h.permLink.lt h2), permAt_identity (h.permLink.lt h2)]
    exact h3
  · exact fun i j hh => e32 i j (fs.s32 i j hh)
  · exact fun i j hh => e33 i j (fs.s33 i j hh)
  · exact ⟨by simpa only [m1] using fs.c11, by simpa only [m1, m2] using fs.c21,
      fun i j k a b c => (m4 _ _).mpr (e22 _ _ (fs.c22 i j k ((m2 _ _).mp a) ((m2 _ _).mp b) c)),
      by simpa only [m4] using ff.dd⟩
  · exact ⟨by simpa only [m4] using ff.dd, by simpa only [m4, m5] using ff.sub_d,
      by simpa only [m4, m5] using ff.sub_sub, by simpa only [m4] using ff.dd⟩
  · exact ⟨by simpa only [m4] using ff.dd,
      fun i j k a b => (m6 _ _).mpr (fh.c21 i j k ((m6 _ _).mp a) (e11 _ _ ((m4 _ _).mp b))),
      by simpa only [m6, m7] using fh.c22, by simpa only [m7] using fh.c22'⟩
  · exact ⟨by simpa only [m7] using fh.c22', by simpa only [m7, m8] using fh.c32',
      by simpa only [m8, m10] using fh.c33', by simpa only [m10] using fh.c33''⟩
  · exact fs.c31
  · exact fun i j k a b => e32 _ _ (fs.c32 i j k a b)
  · exact fun i j k a b c => e33 _ _ (fs.c33 i j k a b c)
  · exact ff.out_d
  · exact ff.out_sub
  · exact fun i j k a b c => fh.c33 i j k (e31 _ _ a) (e31 _ _ b) c
  · exact fun i j k a b => fh.c32 i j k (e31 _ _ a) b

end Ctldl
