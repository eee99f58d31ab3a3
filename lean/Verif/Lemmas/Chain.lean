import Verif.Lemmas.PartialExact
import Verif.Lemmas.ArrowheadSymbolic

/-! # The blocks of an arrowhead factor as a chain of blocks with an outer block row: values, determinism, exactness -/

namespace Ctldl

open Finset

/-- Patterns and dimensions of a chain of blocks. -/
structure ChainPat where
  n : Nat → Nat
  nO : Nat
  cD : Nat → Csr
  cS : Nat → Csr
  cO : Nat → Csr
  cE : Csr

/-- The patterns are well-formed and closed; the chain has the blocks `0, ..., M`. -/
structure ChainPat.Ok (X : ChainPat) (M : Nat) : Prop where
  hD : ∀ p ≤ M, CsrOk (X.cD p) (X.n p) (X.n p)
  hS : ∀ p < M, CsrOk (X.cS p) (X.n (p + 1)) (X.n p)
  hO : ∀ p ≤ M, CsrOk (X.cO p) X.nO (X.n p)
  hE : CsrOk X.cE X.nO X.nO
  lowD : ∀ p ≤ M, ∀ i j, (X.cD p).Has i j → j < i
  lowE : ∀ i j, X.cE.Has i j → j < i
  cl0 : ∀ i j k, (X.cD 0).Has i j → (X.cD 0).Has k j → k < i → (X.cD 0).Has i k
  clS : ∀ p < M, Closed2 (X.cD p).Has (X.cS p).Has (X.cD (p + 1)).Has
  clE : Closed2 (X.cD M).Has (X.cO M).Has X.cE.Has
  o1 : ∀ p < M, ∀ i j k, (X.cO p).Has i j → (X.cD p).Has k j → (X.cO p).Has i k
  o2 : ∀ p < M, ∀ i j k, (X.cO p).Has i j → (X.cS p).Has k j → (X.cO (p + 1)).Has i k
  o3 : ∀ p < M, ∀ i j k, (X.cO p).Has i j → (X.cO p).Has k j → k < i → X.cE.Has i k

/-- Stored values. -/
structure ChainVals (K : Type) where
  L : Nat → List K
  D : Nat → List K
  S : Nat → List K
  O : Nat → List K
  E : List K
  G : List K

/-- Input values at the places of the factor. -/
structure ChainInput (K : Type) where
  a : Nat → Nat → Nat → K
  aD : Nat → Nat → K
  b : Nat → Nat → Nat → K
  c : Nat → Nat → Nat → K
  h : Nat → Nat → K
  hD : Nat → K

section

variable {K : Type} [_root_.Zero K]

/-- The input is zero outside of the patterns. -/
structure ChainInput.Zero (I : ChainInput K) (X : ChainPat) (M : Nat) : Prop where
  a : ∀ p ≤ M, ∀ i < X.n p, ∀ j < i, ¬ (X.cD p).Has i j → I.a p i j = 0
  b : ∀ p < M, ∀ i < X.n (p + 1), ∀ j < X.n p, ¬ (X.cS p).Has i j → I.b p i j = 0
  c : ∀ p ≤ M, ∀ i < X.nO, ∀ j < X.n p, ¬ (X.cO p).Has i j → I.c p i j = 0
  h : ∀ i < X.nO, ∀ j < i, ¬ X.cE.Has i j → I.h i j = 0

end

section

variable {K : Type} [_root_.Zero K]

/-- Elements of a list as a function. -/
def vec (D : List K) : Nat → K := fun i => D.getD i 0

abbrev ChainVals.l (V : ChainVals K) (X : ChainPat) (p : Nat) : Nat → Nat → K := val (X.cD p) (V.L p)
abbrev ChainVals.s (V : ChainVals K) (X : ChainPat) (p : Nat) : Nat → Nat → K := val (X.cS p) (V.S p)
abbrev ChainVals.o (V : ChainVals K) (X : ChainPat) (p : Nat) : Nat → Nat → K := val (X.cO p) (V.O p)
abbrev ChainVals.d (V : ChainVals K) (p : Nat) : Nat → K := vec (V.D p)
abbrev ChainVals.e (V : ChainVals K) (X : ChainPat) : Nat → Nat → K := val X.cE V.E
abbrev ChainVals.g (V : ChainVals K) : Nat → K := vec V.G

variable [Sub K] [Mul K] [Div K]

/-- What the factorization of a chain computes. -/
structure ChainRows (X : ChainPat) (M : Nat) (V : ChainVals K) (I : ChainInput K) (reg : K → Nat → K)
    (method : Method) : Prop where
  first : ∀ i < X.n 0, SingleRow method (X.cD 0) (I.a 0) (I.aD 0) reg (V.l X 0) (V.d 0) i
  inner : ∀ p < M, ∀ i < X.n (p + 1), MethodRow method (X.cD p) (X.cS p) (X.cD (p + 1)) (V.l X p) (V.d p) (I.b p)
    (I.a (p + 1)) (I.aD (p + 1)) reg (V.s X p) (V.l X (p + 1)) (V.d (p + 1)) i
  outer : ∃ (x e : Nat → Nat → Nat → K) (eD : Nat → Nat → K),
    x 0 = I.c 0 ∧ e 0 = I.h ∧ eD 0 = I.hD ∧
    (∀ p < M, (∃ L, x (p + 1) = val (X.cO (p + 1)) L) ∧ (∃ L, e (p + 1) = val X.cE L) ∧
      ∀ i < X.nO, PartialRow (X.cD p) (X.cS p) (X.cO p) (X.cO (p + 1)) X.cE (V.l X p) (V.s X p) (V.d p) (x p)
        (I.c (p + 1)) (e p) (eD p) (V.o X p) (x (p + 1)) (e (p + 1)) (eD (p + 1)) i) ∧
    ∀ i < X.nO, MethodRow method (X.cD M) (X.cO M) X.cE (V.l X M) (V.d M) (x M) (e M) (eD M) reg (V.o X M) (V.e X)
      V.g i

/-- Agreement of two inputs on the patterns. -/
structure ChainInput.Same (I J : ChainInput K) (X : ChainPat) (M : Nat) : Prop where
  a : ∀ p ≤ M, ∀ i j, (X.cD p).Has i j → I.a p i j = J.a p i j
  aD : ∀ p ≤ M, ∀ i < X.n p, I.aD p i = J.aD p i
  b : ∀ p < M, ∀ i j, (X.cS p).Has i j → I.b p i j = J.b p i j
  c : ∀ p ≤ M, ∀ i j, (X.cO p).Has i j → I.c p i j = J.c p i j
  h : ∀ i j, X.cE.Has i j → I.h i j = J.h i j
  hD : ∀ i < X.nO, I.hD i = J.hD i

theorem cols_empty {c : Csr} (h : ∀ i j, ¬ c.Has i j) (i : Nat) : c.cols i = [] := by
  rw [List.eq_nil_iff_forall_not_mem]
  intro j hj
  exact h i j (Csr.mem_cols.mp hj)

/-- Empty blocks can be replaced by other ones. -/
theorem methodRow_empty {method : Method} {c11 c21 e11 e21 c22 : Csr} (z21 : ∀ i j, ¬ c21.Has i j)
    (y21 : ∀ i j, ¬ e21.Has i j) {l11 m11 : Nat → Nat → K} {d1 e1 : Nat → K}
    {a21 a22 b21 : Nat → Nat → K} {aD : Nat → K} {reg : K → Nat → K} {l21 l22 m21 : Nat → Nat → K} {d2 : Nat → K}
    {i : Nat} (h : MethodRow method c11 c21 c22 l11 d1 a21 a22 aD reg l21 l22 d2 i) :
    MethodRow method e11 e21 c22 m11 e1 b21 a22 aD reg m21 l22 d2 i := by
  cases method with
  | upLooking =>
    obtain ⟨w1, w2, -, -, h3, h4, h5⟩ := h
    refine ⟨w1, w2, fun j h => absurd h (y21 i j), fun j h => absurd h (y21 i j), ?_, h4, ?_⟩
    · intro j hj
      have := h3 j hj
      rw [cols_empty z21, List.filter_nil] at this
      rw [cols_empty y21, List.filter_nil]
      exact this
    · rw [cols_empty z21] at h5
      rw [cols_empty y21]
      exact h5
  | entryWise =>
    obtain ⟨-, h4, h5⟩ := h
    refine ⟨fun j h => absurd h (y21 i j), ?_, ?_⟩
    · intro j hj
      have := h4 j hj
      unfold EntryDiag at this ⊢
      rw [cols_empty z21, List.filter_nil] at this
      rw [cols_empty y21, List.filter_nil]
      exact this
    · rw [cols_empty z21] at h5
      rw [cols_empty y21]
      exact h5

theorem singleRow_unique {method : Method} {c : Csr} {n : Nat} {a b : Nat → Nat → K} {aD bD : Nat → K}
    {reg : K → Nat → K} {l m : Nat → Nat → K} {d e : Nat → K}
    (h : ∀ i < n, SingleRow method c a aD reg l d i) (h' : ∀ i < n, SingleRow method c b bD reg m e i)
    (low : ∀ i j, c.Has i j → j < i) (hab : ∀ i j, c.Has i j → a i j = b i j) (hD : ∀ i < n, aD i = bD i) :
    (∀ i j, i < n → c.Has i j → l i j = m i j) ∧ ∀ i, i < n → d i = e i := by
  obtain ⟨e11, -, -, -, -, -, y11⟩ := emptyCsr_spec 0 0
  have q : ∀ i < n, MethodRow method e11 e11 c (fun _ _ => 0) (fun _ => 0) (fun _ _ => 0) a aD reg (fun _ _ => 0)
      l d i := by
    intro i hi
    obtain ⟨c11, c21, -, z21, -, -, L11, L21, d1, a21, h⟩ := h i hi
    exact methodRow_empty z21 y11 h
  have q' : ∀ i < n, MethodRow method e11 e11 c (fun _ _ => 0) (fun _ => 0) (fun _ _ => 0) b bD reg (fun _ _ => 0)
      m e i := by
    intro i hi
    obtain ⟨c11, c21, -, z21, -, -, L11, L21, d1, a21, h⟩ := h' i hi
    exact methodRow_empty z21 y11 h
  have := methodRow_unique q q' (fun i j h => absurd h (y11 i j)) low (fun i j h => absurd h (y11 i j))
    (fun i j h => absurd h (y11 i j)) (fun i j h => absurd h (y11 i j)) hab hD
  exact ⟨this.s22, this.sD⟩

/-- The rows determine the values. -/
theorem ChainRows.unique {X : ChainPat} {M : Nat} (hX : X.Ok M) {V W : ChainVals K} {I J : ChainInput K}
    {reg : K → Nat → K} {method : Method} (hV : ChainRows X M V I reg method) (hW : ChainRows X M W J reg method)
    (hIJ : I.Same J X M) :
    (∀ p ≤ M, (∀ i j, (X.cD p).Has i j → V.l X p i j = W.l X p i j) ∧ ∀ i < X.n p, V.d p i = W.d p i) ∧
    (∀ p < M, ∀ i j, (X.cS p).Has i j → V.s X p i j = W.s X p i j) ∧
    (∀ p ≤ M, ∀ i j, (X.cO p).Has i j → V.o X p i j = W.o X p i j) ∧
    (∀ i j, X.cE.Has i j → V.e X i j = W.e X i j) ∧ ∀ i < X.nO, V.g i = W.g i := by
  have hin : ∀ p ≤ M, ((∀ i j, (X.cD p).Has i j → V.l X p i j = W.l X p i j) ∧
      ∀ i < X.n p, V.d p i = W.d p i) := by
    intro p
    induction p with
    | zero =>
      intro hp
      have := singleRow_unique hV.first hW.first (hX.lowD 0 hp) (hIJ.a 0 hp) (hIJ.aD 0 hp)
      exact ⟨fun i j h => this.1 i j ((hX.hD 0 hp).rows ▸ (hX.hD 0 hp).good.row_lt h) h, this.2⟩
    | succ p ih =>
      intro hp
      obtain ⟨i1, i2⟩ := ih (by omega)
      have hc := hX.hS p (by omega)
      have := methodRow_unique (hV.inner p (by omega)) (hW.inner p (by omega)) (hX.lowD p (by omega))
        (hX.lowD (p + 1) hp) i1 (fun i j h => i2 j (hc.cols ▸ hc.good.col_lt h)) (hIJ.b p (by omega))
        (hIJ.a (p + 1) hp) (hIJ.aD (p + 1) hp)
      exact ⟨fun i j h => this.s22 i j ((hX.hD _ hp).rows ▸ (hX.hD _ hp).good.row_lt h) h, this.sD⟩
  have hS : ∀ p < M, ∀ i j, (X.cS p).Has i j → V.s X p i j = W.s X p i j := by
    intro p hp i j h
    obtain ⟨i1, i2⟩ := hin p (by omega)
    have hc := hX.hS p (by omega)
    exact (methodRow_unique (hV.inner p (by omega)) (hW.inner p (by omega)) (hX.lowD p (by omega))
      (hX.lowD (p + 1) hp) i1 (fun i j h => i2 j (hc.cols ▸ hc.good.col_lt h)) (hIJ.b p (by omega))
      (hIJ.a (p + 1) hp) (hIJ.aD (p + 1) hp)).s21 i j (hc.rows ▸ hc.good.row_lt h) h
  obtain ⟨x, e, eD, x0, e0, eD0, hP, hlast⟩ := hV.outer
  obtain ⟨y, f, fD, y0, f0, fD0, hQ, hlast'⟩ := hW.outer
  have hout : ∀ p ≤ M, (∀ i j, (X.cO p).Has i j → x p i j = y p i j) ∧
      (∀ i j, X.cE.Has i j → e p i j = f p i j) ∧ (∀ i < X.nO, eD p i = fD p i) ∧
      ∀ q < p, ∀ i j, (X.cO q).Has i j → V.o X q i j = W.o X q i j := by
    intro p
    induction p with
    | zero =>
      intro hp
      rw [x0, y0, e0, f0, eD0, fD0]
      exact ⟨hIJ.c 0 hp, hIJ.h, hIJ.hD, fun q hq => by omega⟩
    | succ p ih =>
      intro hp
      obtain ⟨q1, q2, q3, q4⟩ := ih (by omega)
      obtain ⟨i1, i2⟩ := hin p (by omega)
      have hc := hX.hO p (by omega)
      have hc' := hX.hO (p + 1) hp
      obtain ⟨r1, r2, r3, r4⟩ := partialRow_unique (hP p (by omega)).2.2 (hQ p (by omega)).2.2
        (hX.lowD p (by omega)) hX.lowE i1 (hS p (by omega)) (fun i j h => i2 j (hc.cols ▸ hc.good.col_lt h)) q1
        (hIJ.c (p + 1) hp) q2 q3
      refine ⟨fun i j h => r2 i j (hc'.rows ▸ hc'.good.row_lt h) h,
        fun i j h => r3 i j (hX.hE.rows ▸ hX.hE.good.row_lt h) h, r4, ?_⟩
      intro q hq i j h
      rcases Nat.lt_or_eq_of_le (Nat.le_of_lt_succ hq) with hlt | rfl
      · exact q4 q hlt i j h
      · exact r1 i j (hc.rows ▸ hc.good.row_lt h) h
  obtain ⟨q1, q2, q3, q4⟩ := hout M (Nat.le_refl M)
  obtain ⟨i1, i2⟩ := hin M (Nat.le_refl M)
  have hc := hX.hO M (Nat.le_refl M)
  have := methodRow_unique hlast hlast' (hX.lowD M (Nat.le_refl M)) hX.lowE i1
    (fun i j h => i2 j (hc.cols ▸ hc.good.col_lt h)) q1 q2 q3
  refine ⟨hin, hS, ?_, fun i j h => this.s22 i j (hX.hE.rows ▸ hX.hE.good.row_lt h) h, this.sD⟩
  intro p hp i j h
  rcases Nat.lt_or_eq_of_le hp with hlt | rfl
  · exact q4 p hlt i j h
  · exact this.s21 i j (hc.rows ▸ hc.good.row_lt h) h

end

section

variable {K : Type} [Field K]

/-- All pivots with entries below them in the rows `R` are non-zero. -/
structure ChainVals.PivotsOk (V : ChainVals K) (X : ChainPat) (M : Nat)
    (R : Nat → Nat → Prop := fun _ _ => True) : Prop where
  d : ∀ p ≤ M, ∀ i j, R p i → (X.cD p).Has i j → V.d p j ≠ 0
  s : ∀ p < M, ∀ i j, R (p + 1) i → (X.cS p).Has i j → V.d p j ≠ 0
  o : ∀ p ≤ M, ∀ i j, R (M + 1) i → (X.cO p).Has i j → V.d p j ≠ 0
  g : ∀ i j, R (M + 1) i → X.cE.Has i j → V.g j ≠ 0

/-- With non-zero pivots the methods compute the same. -/
theorem ChainRows.method {X : ChainPat} {M : Nat} (hX : X.Ok M) {V : ChainVals K} {I : ChainInput K}
    {reg : K → Nat → K} {method : Method} (hV : ChainRows X M V I reg method) (hp : V.PivotsOk X M)
    (method' : Method) : ChainRows X M V I reg method' := by
  refine ⟨?_, ?_, ?_⟩
  · intro i hi
    obtain ⟨c11, c21, z11, z21, g21, hc21, L11, L21, d1, a21, h⟩ := hV.first i hi
    have hpo : Ctldl.PivotsOk c21 (X.cD 0) d1 (V.d 0) i := ⟨fun j h => absurd h (z21 i j), fun j h =>
      hp.d 0 (Nat.zero_le _) i j trivial h⟩
    exact ⟨c11, c21, z11, z21, g21, hc21, L11, L21, d1, a21,
      (methodRow_iff_entryRow hpo).mpr ((methodRow_iff_entryRow hpo).mp h)⟩
  · intro p hpM i hi
    have hc := hX.hS p hpM
    have hc' := hX.hD (p + 1) hpM
    have hpo : Ctldl.PivotsOk (X.cS p) (X.cD (p + 1)) (V.d p) (V.d (p + 1)) i :=
      ⟨fun j h => hp.s p hpM i j trivial h, fun j h => hp.d (p + 1) hpM i j trivial h⟩
    exact (methodRow_iff_entryRow hpo).mpr ((methodRow_iff_entryRow hpo).mp (hV.inner p hpM i hi))
  · obtain ⟨x, e, eD, x0, e0, eD0, hP, hlast⟩ := hV.outer
    refine ⟨x, e, eD, x0, e0, eD0, hP, fun i hi => ?_⟩
    have hc := hX.hO M (Nat.le_refl M)
    have hpo : Ctldl.PivotsOk (X.cO M) X.cE (V.d M) V.g i :=
      ⟨fun j h => hp.o M (Nat.le_refl M) i j trivial h, fun j h => hp.g i j trivial h⟩
    exact (methodRow_iff_entryRow hpo).mpr ((methodRow_iff_entryRow hpo).mp (hlast i hi))

/-- Contribution of the previous block. -/
def prevSum (n : Nat → Nat) (u d v : Nat → Nat → K) (p : Nat) : K :=
  match p with
  | 0 => 0
  | q + 1 => ∑ k ∈ range (n q), u q k * d q k * v q k

/-- Equations satisfied by the factor of a chain, for the rows `R`. -/
structure ChainExact (X : ChainPat) (M : Nat) (V : ChainVals K) (I : ChainInput K) (reg : K → Nat → K)
    (R : Nat → Nat → Prop := fun _ _ => True) : Prop where
  e1 : ∀ p ≤ M, ∀ i < X.n p, R p i → ∀ j < i, prevSum X.n (fun q => V.s X q i) V.d (fun q => V.s X q j) p +
    ∑ k ∈ range (X.n p), V.l X p i k * V.d p k * V.l X p j k + V.l X p i j * V.d p j = I.a p i j
  e1D : ∀ p ≤ M, ∀ i < X.n p, R p i → ∃ δ, V.d p i = reg δ i ∧
    prevSum X.n (fun q => V.s X q i) V.d (fun q => V.s X q i) p +
    ∑ k ∈ range (X.n p), V.l X p i k * V.d p k * V.l X p i k + δ = I.aD p i
  e2 : ∀ p < M, ∀ i < X.n (p + 1), R (p + 1) i → ∀ j < X.n p,
    ∑ k ∈ range (X.n p), V.s X p i k * V.d p k * V.l X p j k + V.s X p i j * V.d p j = I.b p i j
  e3 : ∀ p ≤ M, ∀ i < X.nO, R (M + 1) i → ∀ j < X.n p, prevSum X.n (fun q => V.o X q i) V.d (fun q => V.s X q j) p +
    ∑ k ∈ range (X.n p), V.o X p i k * V.d p k * V.l X p j k + V.o X p i j * V.d p j = I.c p i j
  e4 : ∀ i < X.nO, R (M + 1) i → ∀ j < i, ∑ p ∈ range (M + 1), ∑ k ∈ range (X.n p), V.o X p i k * V.d p k * V.o X p j k +
    ∑ k ∈ range X.nO, V.e X i k * V.g k * V.e X j k + V.e X i j * V.g j = I.h i j
  e4D : ∀ i < X.nO, R (M + 1) i → ∃ δ, V.g i = reg δ i ∧
    ∑ p ∈ range (M + 1), ∑ k ∈ range (X.n p), V.o X p i k * V.d p k * V.o X p i k +
    ∑ k ∈ range X.nO, V.e X i k * V.g k * V.e X i k + δ = I.hD i

theorem ChainRows.exact {X : ChainPat} {M : Nat} (hX : X.Ok M) {V : ChainVals K} {I : ChainInput K}
    {reg : K → Nat → K} {method : Method} (hV : ChainRows X M V I reg method)
    {R : Nat → Nat → Prop} (hp : V.PivotsOk X M R) (hI : I.Zero X M) : ChainExact X M V I reg R := by
  have first : ∀ i < X.n 0, R 0 i → ExactRow 0 (X.n 0) (fun _ _ => 0) (fun _ => 0) (fun _ _ => 0) (I.a 0) (I.aD 0) reg
      (fun _ _ => 0) (V.l X 0) (V.d 0) i := by
    intro i hi hR
    obtain ⟨c11, c21, z11, z21, g21, hc21, L11, L21, d1, a21, h⟩ := hV.first i hi
    have h0 := hX.hD 0 (Nat.zero_le _)
    have hpo : Ctldl.PivotsOk c21 (X.cD 0) d1 (V.d 0) i := ⟨fun j h => absurd h (z21 i j), fun j h =>
      hp.d 0 (Nat.zero_le _) i j hR h⟩
    have hx := exactRow_of_entryRow g21 h0.good hc21 h0.cols (fun i j _ h => absurd h (z21 i j))
      (fun i j _ h => absurd h (z21 i j)) hX.cl0 (by omega)
      (fun j hj hn => hI.a 0 (Nat.zero_le _) i hi j hj hn) hpo ((methodRow_iff_entryRow hpo).mp h)
    refine ⟨fun j hj => by omega, fun j hj => ?_, ?_⟩
    · simpa using hx.e22 j hj
    · simpa using hx.eD
  have inner : ∀ p < M, ∀ i < X.n (p + 1), R (p + 1) i → ExactRow (X.n p) (X.n (p + 1)) (V.l X p) (V.d p) (I.b p)
      (I.a (p + 1)) (I.aD (p + 1)) reg (V.s X p) (V.l X (p + 1)) (V.d (p + 1)) i := by
    intro p hpM i hi hR
    have hc := hX.hS p hpM
    have hc' := hX.hD (p + 1) hpM
    have hcl := hX.clS p hpM
    have hpo : Ctldl.PivotsOk (X.cS p) (X.cD (p + 1)) (V.d p) (V.d (p + 1)) i :=
      ⟨fun j h => hp.s p hpM i j hR h, fun j h => hp.d (p + 1) hpM i j hR h⟩
    exact exactRow_of_entryRow hc.good hc'.good hc.cols hc'.cols hcl.c21 hcl.c22 hcl.c22'
      (fun j hj hn => hI.b p hpM i hi j hj hn) (fun j hj hn => hI.a (p + 1) hpM i hi j hj hn)
      hpo ((methodRow_iff_entryRow hpo).mp (hV.inner p hpM i hi))
  obtain ⟨x, e, eD, x0, e0, eD0, hP, hlast⟩ := hV.outer
  have zx : ∀ p ≤ M, ∀ i < X.nO, ∀ j < X.n p, ¬ (X.cO p).Has i j → x p i j = 0 := by
    intro p hpM i hi j hj hn
    cases p with
    | zero => rw [x0]; exact hI.c 0 hpM i hi j hj hn
    | succ p =>
      obtain ⟨L, hL⟩ := (hP p (by omega)).1
      rw [hL]
      exact val_off hn
  have ze : ∀ p ≤ M, ∀ i < X.nO, ∀ j < i, ¬ X.cE.Has i j → e p i j = 0 := by
    intro p hpM i hi j hj hn
    cases p with
    | zero => rw [e0]; exact hI.h i hi j hj hn
    | succ p =>
      obtain ⟨L, hL⟩ := (hP p (by omega)).2.1
      rw [hL]
      exact val_off hn
  have part : ∀ p < M, ∀ i < X.nO, R (M + 1) i → PartialExact (X.n p) (X.n (p + 1)) (V.l X p) (V.s X p) (V.d p) (x p)
      (I.c (p + 1)) (e p) (eD p) (V.o X p) (x (p + 1)) (e (p + 1)) (eD (p + 1)) i := by
    intro p hpM i hi hR
    obtain ⟨⟨L, hL⟩, ⟨L', hL'⟩, hrow⟩ := hP p hpM
    have hc := hX.hO p (by omega)
    have hrow := hrow i hi
    rw [hL, hL'] at hrow ⊢
    exact hrow.exact hc.good hc.cols (hX.o1 p hpM) (hX.o2 p hpM) (hX.o3 p hpM) (zx p (by omega) i hi)
      (hI.c (p + 1) hpM i hi) (ze p (by omega) i hi) (fun j h => hp.o p (by omega) i j hR h)
  have last : ∀ i < X.nO, R (M + 1) i → ExactRow (X.n M) X.nO (V.l X M) (V.d M) (x M) (e M) (eD M) reg (V.o X M) (V.e X) V.g
      i := by
    intro i hi hR
    have hc := hX.hO M (Nat.le_refl M)
    have hcl := hX.clE
    have hpo : Ctldl.PivotsOk (X.cO M) X.cE (V.d M) V.g i :=
      ⟨fun j h => hp.o M (Nat.le_refl M) i j hR h, fun j h => hp.g i j hR h⟩
    exact exactRow_of_entryRow hc.good hX.hE.good hc.cols hX.hE.cols hcl.c21 hcl.c22 hcl.c22'
      (zx M (Nat.le_refl M) i hi) (ze M (Nat.le_refl M) i hi)
      hpo ((methodRow_iff_entryRow hpo).mp (hlast i hi))
  have ex : ∀ p ≤ M, ∀ i < X.nO, R (M + 1) i → ∀ j < X.n p,
      prevSum X.n (fun q => V.o X q i) V.d (fun q => V.s X q j) p + x p i j = I.c p i j := by
    intro p hpM i hi hR j hj
    cases p with
    | zero => rw [x0, prevSum, zero_add]
    | succ p => exact (part p (by omega) i hi hR).e32 j hj
  have ee : ∀ p ≤ M, ∀ i < X.nO, R (M + 1) i → ∀ j < i,
      ∑ q ∈ range p, ∑ k ∈ range (X.n q), V.o X q i k * V.d q k * V.o X q j k + e p i j = I.h i j := by
    intro p
    induction p with
    | zero => intro hpM i hi hR j hj; rw [e0, sum_range_zero, zero_add]
    | succ p ih =>
      intro hpM i hi hR j hj
      rw [sum_range_succ, ← ih (by omega) i hi hR j hj, ← (part p (by omega) i hi hR).e33 j hj]
      ring
  have eeD : ∀ p ≤ M, ∀ i < X.nO, R (M + 1) i →
      ∑ q ∈ range p, ∑ k ∈ range (X.n q), V.o X q i k * V.d q k * V.o X q i k + eD p i = I.hD i := by
    intro p
    induction p with
    | zero => intro hpM i hi hR; rw [eD0, sum_range_zero, zero_add]
    | succ p ih =>
      intro hpM i hi hR
      rw [sum_range_succ, ← ih (by omega) i hi hR, ← (part p (by omega) i hi hR).eD]
      ring
  refine ⟨?_, ?_, fun p hpM i hi hR => (inner p hpM i hi hR).e21, ?_, ?_, ?_⟩
  · intro p hpM i hi hR j hj
    cases p with
    | zero => simpa [prevSum] using (first i hi hR).e22 j hj
    | succ p => exact (inner p (by omega) i hi hR).e22 j hj
  · intro p hpM i hi hR
    cases p with
    | zero => simpa [prevSum] using (first i hi hR).eD
    | succ p => exact (inner p (by omega) i hi hR).eD
  · intro p hpM i hi hR j hj
    rw [← ex p hpM i hi hR j hj]
    have : ∑ k ∈ range (X.n p), V.o X p i k * V.d p k * V.l X p j k + V.o X p i j * V.d p j = x p i j := by
      rcases Nat.lt_or_eq_of_le hpM with hlt | rfl
      · exact (part p hlt i hi hR).e31 j hj
      · exact (last i hi hR).e21 j hj
    rw [← this]
    ring
  · intro i hi hR j hj
    rw [sum_range_succ, ← ee M (Nat.le_refl M) i hi hR j hj, ← (last i hi hR).e22 j hj]
    ring
  · intro i hi hR
    obtain ⟨δ, h1, h2⟩ := (last i hi hR).eD
    refine ⟨δ, h1, ?_⟩
    rw [sum_range_succ, ← eeD M (Nat.le_refl M) i hi hR, ← h2]
    ring

end

end Ctldl
