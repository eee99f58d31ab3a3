import Verif.Lemmas.RoundingRows
import Verif.Lemmas.ChainExact
import Mathlib.Data.List.GetD

/-! # Rounding errors of the factorization of a chain of blocks -/

namespace Ctldl

open Finset

variable {K F : Type} [Zero K] [Field F]

/-- Sum of the products of mapped numbers. -/
def tri (g : K → F) (n : Nat) (u d w : Nat → K) : F := ∑ k ∈ range n, g (u k) * g (d k) * g (w k)

theorem tri_filter {g : K → F} (hg : g 0 = 0) {c : Csr} (hc : c.Good) (i j : Nat) (c' : Csr) (L L' : List K)
    (d : Nat → K) :
    (((c.cols i).filter (c'.Has j ·)).map fun k => g (val c L i k) * g (d k) * g (val c' L' j k)).sum =
      tri g c.numCols (val c L i) d (val c' L' j) := by
  refine sum_map_cols_filter hc i c' j fun k hk => ?_
  by_cases h1 : c.Has i k
  · rw [val_off (i := j) (fun h => hk ⟨h1, h⟩), hg, mul_zero]
  · rw [val_off h1, hg, zero_mul, zero_mul]

theorem tri_cols {g : K → F} (hg : g 0 = 0) {c : Csr} (hc : c.Good) (i : Nat) (L : List K) (d : Nat → K) :
    ((c.cols i).map fun k => g (val c L i k) * g (d k) * g (val c L i k)).sum =
      tri g c.numCols (val c L i) d (val c L i) := by
  refine sum_map_cols hc i fun k hk => ?_
  rw [val_off hk, hg, mul_zero]

theorem tri_zero {g : K → F} (hg : g 0 = 0) {c c' : Csr} {i j : Nat} (h : ∀ k, ¬ (c.Has i k ∧ c'.Has j k)) (n : Nat)
    (L L' : List K) (d : Nat → K) : tri g n (val c L i) d (val c' L' j) = 0 := by
  refine sum_eq_zero fun k _ => ?_
  by_cases h1 : c.Has i k
  · rw [val_off (i := j) (fun h' => h k ⟨h1, h'⟩), hg, mul_zero]
  · rw [val_off h1, hg, zero_mul, zero_mul]

/-- Values with a function applied to each of them. -/
def ChainVals.map (V : ChainVals K) (g : K → F) : ChainVals F :=
  ⟨fun p => (V.L p).map g, fun p => (V.D p).map g, fun p => (V.S p).map g, fun p => (V.O p).map g, V.E.map g,
    V.G.map g⟩

theorem val_map {g : K → F} (hg : g 0 = 0) (c : Csr) (L : List K) (i j : Nat) :
    val c (L.map g) i j = g (val c L i j) := by
  by_cases h : c.Has i j
  · rw [val_has h, val_has h, ← hg, List.getD_map]
  · rw [val_off h, val_off h, hg]

theorem vec_map {g : K → F} (hg : g 0 = 0) (D : List K) (i : Nat) : vec (D.map g) i = g (vec D i) := by
  unfold vec
  rw [← hg, List.getD_map]

/-- The input of which the values are an exact factorization. -/
def lhsInput (X : ChainPat) (M : Nat) (V : ChainVals F) : ChainInput F where
  a p i j := prevSum X.n (fun q => V.s X q i) V.d (fun q => V.s X q j) p +
    ∑ k ∈ range (X.n p), V.l X p i k * V.d p k * V.l X p j k + V.l X p i j * V.d p j
  aD p i := prevSum X.n (fun q => V.s X q i) V.d (fun q => V.s X q i) p +
    ∑ k ∈ range (X.n p), V.l X p i k * V.d p k * V.l X p i k + V.d p i
  b p i j := ∑ k ∈ range (X.n p), V.s X p i k * V.d p k * V.l X p j k + V.s X p i j * V.d p j
  c p i j := prevSum X.n (fun q => V.o X q i) V.d (fun q => V.s X q j) p +
    ∑ k ∈ range (X.n p), V.o X p i k * V.d p k * V.l X p j k + V.o X p i j * V.d p j
  h i j := ∑ p ∈ range (M + 1), ∑ k ∈ range (X.n p), V.o X p i k * V.d p k * V.o X p j k +
    ∑ k ∈ range X.nO, V.e X i k * V.g k * V.e X j k + V.e X i j * V.g j
  hD i := ∑ p ∈ range (M + 1), ∑ k ∈ range (X.n p), V.o X p i k * V.d p k * V.o X p i k +
    ∑ k ∈ range X.nO, V.e X i k * V.g k * V.e X i k + V.g i

theorem lhsInput_exact (X : ChainPat) (M : Nat) (V : ChainVals F) :
    ChainExact X M V (lhsInput X M V) (fun x _ => x) :=
  ⟨fun _ _ _ _ _ _ _ => rfl, fun p _ i _ _ => ⟨V.d p i, rfl, rfl⟩, fun _ _ _ _ _ _ _ => rfl,
    fun _ _ _ _ _ _ _ => rfl, fun _ _ _ _ _ => rfl, fun i _ _ => ⟨V.g i, rfl, rfl⟩⟩

theorem lhsInput_chainA {X : ChainPat} {M : Nat} (hX : X.Ok M) (V : ChainVals F) {p q i j : Nat} (hp : p ≤ M + 1)
    (hq : q ≤ M + 1) (hi : i < chainN X M p) (hj : j < chainN X M q) :
    chainA (lhsInput X M V) M p q i j = chainLdlt X V M p q i j := by
  obtain ⟨δ, h1, h2⟩ := chainLdlt_exact hX (lhsInput_exact X M V)
  rw [h2 p hp q hq i hi j hj trivial trivial]
  split
  · next h =>
    rw [h1 p hp i hi trivial]
    simp
  · rw [add_zero]

section

variable {g : K → F} (hg : g 0 = 0) (X : ChainPat) (M : Nat) (V : ChainVals K)
include hg

theorem lhs_a_zero (i j : Nat) : (lhsInput X M (V.map g)).a 0 i j =
    tri g (X.n 0) (V.l X 0 i) (V.d 0) (V.l X 0 j) + g (V.l X 0 i j) * g (V.d 0 j) := by
  simp only [lhsInput, prevSum, ChainVals.map, tri, val_map hg, vec_map hg, zero_add]

theorem lhs_a_succ (p i j : Nat) : (lhsInput X M (V.map g)).a (p + 1) i j =
    tri g (X.n p) (V.s X p i) (V.d p) (V.s X p j) +
    tri g (X.n (p + 1)) (V.l X (p + 1) i) (V.d (p + 1)) (V.l X (p + 1) j) +
    g (V.l X (p + 1) i j) * g (V.d (p + 1) j) := by
  simp only [lhsInput, prevSum, ChainVals.map, tri, val_map hg, vec_map hg]

theorem lhs_aD_zero (i : Nat) : (lhsInput X M (V.map g)).aD 0 i =
    tri g (X.n 0) (V.l X 0 i) (V.d 0) (V.l X 0 i) + g (V.d 0 i) := by
  simp only [lhsInput, prevSum, ChainVals.map, tri, val_map hg, vec_map hg, zero_add]

theorem lhs_aD_succ (p i : Nat) : (lhsInput X M (V.map g)).aD (p + 1) i =
    tri g (X.n p) (V.s X p i) (V.d p) (V.s X p i) +
    tri g (X.n (p + 1)) (V.l X (p + 1) i) (V.d (p + 1)) (V.l X (p + 1) i) + g (V.d (p + 1) i) := by
  simp only [lhsInput, prevSum, ChainVals.map, tri, val_map hg, vec_map hg]

theorem lhs_b (p i j : Nat) : (lhsInput X M (V.map g)).b p i j =
    tri g (X.n p) (V.s X p i) (V.d p) (V.l X p j) + g (V.s X p i j) * g (V.d p j) := by
  simp only [lhsInput, ChainVals.map, tri, val_map hg, vec_map hg]

theorem lhs_c_zero (i j : Nat) : (lhsInput X M (V.map g)).c 0 i j =
    tri g (X.n 0) (V.o X 0 i) (V.d 0) (V.l X 0 j) + g (V.o X 0 i j) * g (V.d 0 j) := by
  simp only [lhsInput, prevSum, ChainVals.map, tri, val_map hg, vec_map hg, zero_add]

theorem lhs_c_succ (p i j : Nat) : (lhsInput X M (V.map g)).c (p + 1) i j =
    tri g (X.n p) (V.o X p i) (V.d p) (V.s X p j) +
    (tri g (X.n (p + 1)) (V.o X (p + 1) i) (V.d (p + 1)) (V.l X (p + 1) j) +
    g (V.o X (p + 1) i j) * g (V.d (p + 1) j)) := by
  simp only [lhsInput, prevSum, ChainVals.map, tri, val_map hg, vec_map hg, add_assoc]

theorem lhs_h (i j : Nat) : (lhsInput X M (V.map g)).h i j =
    ∑ p ∈ range M, tri g (X.n p) (V.o X p i) (V.d p) (V.o X p j) +
    (tri g (X.n M) (V.o X M i) (V.d M) (V.o X M j) + tri g X.nO (V.e X i) V.g (V.e X j) +
      g (V.e X i j) * g (V.g j)) := by
  simp only [lhsInput, ChainVals.map, tri, val_map hg, vec_map hg, sum_range_succ, add_assoc]

theorem lhs_hD (i : Nat) : (lhsInput X M (V.map g)).hD i =
    ∑ p ∈ range M, tri g (X.n p) (V.o X p i) (V.d p) (V.o X p i) +
    (tri g (X.n M) (V.o X M i) (V.d M) (V.o X M i) + tri g X.nO (V.e X i) V.g (V.e X i) + g (V.g i)) := by
  simp only [lhsInput, ChainVals.map, tri, val_map hg, vec_map hg, sum_range_succ, add_assoc]

end

/-- Number of stored entries in a row of the chain. -/
def ChainPat.rowLen (X : ChainPat) (M p i : Nat) : Nat :=
  if p ≤ M then (match p with | 0 => 0 | q + 1 => ((X.cS q).cols i).length) + ((X.cD p).cols i).length
  else ∑ q ∈ range (M + 1), ((X.cO q).cols i).length + (X.cE.cols i).length

variable [Sub K] [Mul K] [Div K] [LinearOrder F] [IsStrictOrderedRing F]

namespace Rounding

variable {R : Rounding K F}

/-- Absolute value of the number for which a value stands. -/
def av (R : Rounding K F) (x : K) : F := |R.v x|

theorem av_zero : R.av 0 = 0 := by unfold av; rw [R.v_zero, abs_zero]

theorem Apx.zero {n : Nat} {E : F} (hE : 0 ≤ E) : R.Apx n 0 0 0 E :=
  (Apx.refl n 0).mono le_rfl (by simp) hE

/-- Errors of the input of row `i`, in terms of the stored numbers. -/
structure ApxRow (R : Rounding K F) (ε : F) (n1 n2 r1 r2 : Nat) (l11 : Nat → Nat → K) (d1 : Nat → K)
    (a21 a22 : Nat → Nat → K) (aD : Nat → K) (l21 l22 : Nat → Nat → K) (d2 : Nat → K) (x : K) (i : Nat) : Prop where
  e21 : ∀ j < n1, R.Apx (2 + r1) (R.v (a21 i j))
    (tri R.v n1 (l21 i) d1 (l11 j) + R.v (l21 i j) * R.v (d1 j))
    (tri R.av n1 (l21 i) d1 (l11 j) + R.av (l21 i j) * R.av (d1 j)) ((1 + r1) * ε)
  e22 : ∀ j < i, R.Apx (2 + r1 + r2) (R.v (a22 i j))
    (tri R.v n1 (l21 i) d1 (l21 j) + tri R.v n2 (l22 i) d2 (l22 j) + R.v (l22 i j) * R.v (d2 j))
    (tri R.av n1 (l21 i) d1 (l21 j) + tri R.av n2 (l22 i) d2 (l22 j) + R.av (l22 i j) * R.av (d2 j))
    ((1 + r1 + r2) * ε)
  eD : R.Apx (2 + r1 + r2) (R.v (aD i))
    (tri R.v n1 (l21 i) d1 (l21 i) + tri R.v n2 (l22 i) d2 (l22 i) + R.v x)
    (tri R.av n1 (l21 i) d1 (l21 i) + tri R.av n2 (l22 i) d2 (l22 i) + R.av x) ((1 + r1 + r2) * ε)

private theorem filter_le {c c' : Csr} (i j : Nat) :
    ((c.cols i).filter (c'.Has j ·)).length ≤ (c.cols i).length := List.length_filter_le _ _

theorem ApxEntries.row {ε : F} (hε : 0 ≤ ε) {c11 c21 c22 : Csr} {n1 n2 : Nat} {L11 L21 L22 : List K} {d1 : Nat → K}
    {a21 a22 : Nat → Nat → K} {aD : Nat → K} {d2 : Nat → K} {x : K} {i : Nat}
    (h : R.ApxEntries ε c11 c21 c22 (val c11 L11) d1 a21 a22 aD (val c21 L21) (val c22 L22) d2 x i)
    (g21 : c21.Good) (g22 : c22.Good) (hn1 : c21.numCols = n1) (hn2 : c22.numCols = n2)
    (cl21 : ∀ i j k, c21.Has i j → c11.Has k j → c21.Has i k)
    (cl22 : ∀ i j k, c21.Has i j → c21.Has k j → k < i → c22.Has i k)
    (cl22' : ∀ i j k, c22.Has i j → c22.Has k j → k < i → c22.Has i k)
    (z21 : ∀ j < n1, ¬ c21.Has i j → a21 i j = 0) (z22 : ∀ j < i, ¬ c22.Has i j → a22 i j = 0) :
    R.ApxRow ε n1 n2 (c21.cols i).length (c22.cols i).length (val c11 L11) d1 a21 a22 aD (val c21 L21)
      (val c22 L22) d2 x i := by
  subst hn1 hn2
  have ff : ∀ (c c' : Csr) (j : Nat), ((((c.cols i).filter (c'.Has j ·)).length : Nat) : F) * ε ≤
      ((c.cols i).length : F) * ε := fun c c' j =>
    mul_le_mul_of_nonneg_right (Nat.cast_le.mpr (filter_le i j)) hε
  refine ⟨?_, ?_, ?_⟩
  · intro j hj
    by_cases hij : c21.Has i j
    · have := h.e21 j hij
      rw [tri_filter R.v_zero g21] at this
      have e2 := tri_filter (g := R.av) R.av_zero g21 i j c11 L21 L11 d1
      simp only [av] at e2
      rw [e2] at this
      rw [add_comm (tri R.v _ _ _ _), add_comm (tri R.av _ _ _ _)]
      refine this.mono (by have := filter_le (c := c21) (c' := c11) i j; omega) le_rfl ?_
      have := ff c21 c11 j
      rw [add_mul, one_mul]
      linarith
    · have q : ∀ k, ¬ (c21.Has i k ∧ c11.Has j k) := fun k hk => hij (cl21 i k j hk.1 hk.2)
      rw [tri_zero R.v_zero q, tri_zero R.av_zero q, z21 j hj hij, val_off hij, R.v_zero, R.av_zero, zero_mul,
        zero_mul, add_zero]
      exact Apx.zero (by positivity)
  · intro j hj
    by_cases hij : c22.Has i j
    · have := h.e22 j hij
      rw [tri_filter R.v_zero g21, tri_filter R.v_zero g22] at this
      have e2 := tri_filter (g := R.av) R.av_zero g21 i j c21 L21 L21 d1
      have e3 := tri_filter (g := R.av) R.av_zero g22 i j c22 L22 L22 d2
      simp only [av] at e2 e3
      rw [e2, e3] at this
      have q1 : ∀ a b c : F, a + b + c = c + b + a := fun a b c => by ring
      rw [q1 (tri R.v _ _ _ _), q1 (tri R.av _ _ _ _)]
      refine this.mono ?_ le_rfl ?_
      · have := filter_le (c := c22) (c' := c22) i j
        have := filter_le (c := c21) (c' := c21) i j
        omega
      · have := ff c22 c22 j
        have := ff c21 c21 j
        rw [add_mul, add_mul, one_mul]
        linarith
    · have q : ∀ k, ¬ (c21.Has i k ∧ c21.Has j k) := fun k hk => hij (cl22 i k j hk.1 hk.2 hj)
      have q' : ∀ k, ¬ (c22.Has i k ∧ c22.Has j k) := fun k hk => hij (cl22' i k j hk.1 hk.2 hj)
      rw [tri_zero R.v_zero q, tri_zero R.av_zero q, tri_zero R.v_zero q', tri_zero R.av_zero q', z22 j hj hij,
        val_off hij, R.v_zero, R.av_zero, zero_mul, zero_mul, add_zero, add_zero]
      exact Apx.zero (by positivity)
  · have := h.eD
    rw [tri_cols R.v_zero g21, tri_cols R.v_zero g22] at this
    have e2 := tri_cols (g := R.av) R.av_zero g21 i L21 d1
    have e3 := tri_cols (g := R.av) R.av_zero g22 i L22 d2
    simp only [av] at e2 e3
    rw [e2, e3] at this
    have q1 : ∀ a b c : F, a + b + c = c + b + a := fun a b c => by ring
    rw [q1 (tri R.v _ _ _ _), q1 (tri R.av _ _ _ _)]
    refine this.mono (by omega) le_rfl ?_
    rw [add_mul, add_mul, one_mul]
    linarith

/-- Errors of the input of row `i` of a partial factorization. -/
structure ApxPartialRow (R : Rounding K F) (ε : F) (n1 n2 r : Nat) (l11 l21 : Nat → Nat → K) (d1 : Nat → K)
    (a31 a32 a33 : Nat → Nat → K) (aD : Nat → K) (l31 l32 l33 : Nat → Nat → K) (d3 : Nat → K) (i : Nat) : Prop where
  e31 : ∀ j < n1, R.Apx (2 + r) (R.v (a31 i j))
    (tri R.v n1 (l31 i) d1 (l11 j) + R.v (l31 i j) * R.v (d1 j))
    (tri R.av n1 (l31 i) d1 (l11 j) + R.av (l31 i j) * R.av (d1 j)) ((1 + r) * ε)
  e32 : ∀ j < n2, ∀ {m Y A E}, 2 ≤ m → R.Apx m (R.v (l32 i j)) Y A E → R.Apx (m + r) (R.v (a32 i j))
    (tri R.v n1 (l31 i) d1 (l21 j) + Y) (tri R.av n1 (l31 i) d1 (l21 j) + A) (E + r * ε)
  e33 : ∀ j < i, ∀ {m Y A E}, 2 ≤ m → R.Apx m (R.v (l33 i j)) Y A E → R.Apx (m + r) (R.v (a33 i j))
    (tri R.v n1 (l31 i) d1 (l31 j) + Y) (tri R.av n1 (l31 i) d1 (l31 j) + A) (E + r * ε)
  eD : ∀ {m Y A E}, 2 ≤ m → R.Apx m (R.v (d3 i)) Y A E → R.Apx (m + r) (R.v (aD i))
    (tri R.v n1 (l31 i) d1 (l31 i) + Y) (tri R.av n1 (l31 i) d1 (l31 i) + A) (E + r * ε)

theorem ApxPartial.row {ε : F} (hε : 0 ≤ ε) {c11 c21 c31 c32 c33 : Csr} {n1 n2 : Nat} {L11 L21 L31 L32 L33 : List K}
    {d1 : Nat → K} {a31 a32 a33 : Nat → Nat → K} {aD : Nat → K} {d3 : Nat → K} {i : Nat}
    (h : R.ApxPartial ε c11 c21 c31 c32 c33 (val c11 L11) (val c21 L21) d1 a31 a32 a33 aD (val c31 L31)
      (val c32 L32) (val c33 L33) d3 i)
    (g31 : c31.Good) (hn1 : c31.numCols = n1)
    (cl31 : ∀ i j k, c31.Has i j → c11.Has k j → c31.Has i k)
    (cl32 : ∀ i j k, c31.Has i j → c21.Has k j → c32.Has i k)
    (cl33 : ∀ i j k, c31.Has i j → c31.Has k j → k < i → c33.Has i k)
    (z31 : ∀ j < n1, ¬ c31.Has i j → a31 i j = 0) (z32 : ∀ j < n2, ¬ c32.Has i j → a32 i j = 0)
    (z33 : ∀ j < i, ¬ c33.Has i j → a33 i j = 0)
    (f32 : ∀ j, c32.Has i j → R.fin (val c32 L32 i j)) (f33 : ∀ j, c33.Has i j → R.fin (val c33 L33 i j)) :
    R.ApxPartialRow ε n1 n2 (c31.cols i).length (val c11 L11) (val c21 L21) d1 a31 a32 a33 aD (val c31 L31)
      (val c32 L32) (val c33 L33) d3 i := by
  subst hn1
  have ff : ∀ (c c' : Csr) (j : Nat), ((((c.cols i).filter (c'.Has j ·)).length : Nat) : F) * ε ≤
      ((c.cols i).length : F) * ε := fun c c' j =>
    mul_le_mul_of_nonneg_right (Nat.cast_le.mpr (filter_le i j)) hε
  have pos : 0 ≤ ((c31.cols i).length : F) * ε := by positivity
  refine ⟨?_, ?_, ?_, ?_⟩
  · intro j hj
    by_cases hij : c31.Has i j
    · have := h.e31 j hij
      rw [tri_filter R.v_zero g31] at this
      have e2 := tri_filter (g := R.av) R.av_zero g31 i j c11 L31 L11 d1
      simp only [av] at e2
      rw [e2] at this
      rw [add_comm (tri R.v _ _ _ _), add_comm (tri R.av _ _ _ _)]
      refine this.mono (by have := filter_le (c := c31) (c' := c11) i j; omega) le_rfl ?_
      have := ff c31 c11 j
      rw [add_mul, one_mul]
      linarith
    · have q : ∀ k, ¬ (c31.Has i k ∧ c11.Has j k) := fun k hk => hij (cl31 i k j hk.1 hk.2)
      rw [tri_zero R.v_zero q, tri_zero R.av_zero q, z31 j hj hij, val_off hij, R.v_zero, R.av_zero, zero_mul,
        zero_mul, add_zero]
      exact Apx.zero (by positivity)
  · intro j hj m Y A E hm hy
    by_cases hij : c32.Has i j
    · have := h.e32 j hij (f32 j hij) hm hy
      rw [tri_filter R.v_zero g31] at this
      have e2 := tri_filter (g := R.av) R.av_zero g31 i j c21 L31 L21 d1
      simp only [av] at e2
      rw [e2] at this
      rw [add_comm (tri R.v _ _ _ _), add_comm (tri R.av _ _ _ _)]
      refine this.mono (by have := filter_le (c := c31) (c' := c21) i j; omega) le_rfl ?_
      have := ff c31 c21 j
      linarith
    · have q : ∀ k, ¬ (c31.Has i k ∧ c21.Has j k) := fun k hk => hij (cl32 i k j hk.1 hk.2)
      rw [val_off hij] at hy
      rw [tri_zero R.v_zero q, tri_zero R.av_zero q, z32 j hj hij, zero_add, zero_add]
      exact hy.mono (by omega) le_rfl (by linarith)
  · intro j hj m Y A E hm hy
    by_cases hij : c33.Has i j
    · have := h.e33 j hij (f33 j hij) hm hy
      rw [tri_filter R.v_zero g31] at this
      have e2 := tri_filter (g := R.av) R.av_zero g31 i j c31 L31 L31 d1
      simp only [av] at e2
      rw [e2] at this
      rw [add_comm (tri R.v _ _ _ _), add_comm (tri R.av _ _ _ _)]
      refine this.mono (by have := filter_le (c := c31) (c' := c31) i j; omega) le_rfl ?_
      have := ff c31 c31 j
      linarith
    · have q : ∀ k, ¬ (c31.Has i k ∧ c31.Has j k) := fun k hk => hij (cl33 i k j hk.1 hk.2 hj)
      rw [val_off hij] at hy
      rw [tri_zero R.v_zero q, tri_zero R.av_zero q, z33 j hj hij, zero_add, zero_add]
      exact hy.mono (by omega) le_rfl (by linarith)
  · intro m Y A E hm hy
    have := h.eD hm hy
    rw [tri_cols R.v_zero g31] at this
    have e2 := tri_cols (g := R.av) R.av_zero g31 i L31 d1
    simp only [av] at e2
    rw [e2] at this
    rw [add_comm (tri R.v _ _ _ _), add_comm (tri R.av _ _ _ _)]
    exact this

/-- Errors of the input of a chain, in terms of the stored numbers; `x` are the pivots before regularization. -/
structure ChainApx (R : Rounding K F) (ε : F) (n : Nat) (X : ChainPat) (M : Nat) (V : ChainVals K) (I : ChainInput K)
    (x : Nat → Nat → K) : Prop where
  a : ∀ p ≤ M, ∀ i < X.n p, ∀ j < i, R.Apx (n + 2) (R.v (I.a p i j)) ((lhsInput X M (V.map R.v)).a p i j)
    ((lhsInput X M (V.map R.av)).a p i j) ((n + 1) * ε)
  aD : ∀ p ≤ M, ∀ i < X.n p, R.Apx (n + 2) (R.v (I.aD p i))
    ((lhsInput X M (V.map R.v)).aD p i + (R.v (x p i) - R.v (V.d p i)))
    ((lhsInput X M (V.map R.av)).aD p i + (R.av (x p i) - R.av (V.d p i))) ((n + 1) * ε)
  b : ∀ p < M, ∀ i < X.n (p + 1), ∀ j < X.n p, R.Apx (n + 2) (R.v (I.b p i j))
    ((lhsInput X M (V.map R.v)).b p i j) ((lhsInput X M (V.map R.av)).b p i j) ((n + 1) * ε)
  c : ∀ p ≤ M, ∀ i < X.nO, ∀ j < X.n p, R.Apx (n + 2) (R.v (I.c p i j))
    ((lhsInput X M (V.map R.v)).c p i j) ((lhsInput X M (V.map R.av)).c p i j) ((n + 1) * ε)
  h : ∀ i < X.nO, ∀ j < i, R.Apx (n + 2) (R.v (I.h i j)) ((lhsInput X M (V.map R.v)).h i j)
    ((lhsInput X M (V.map R.av)).h i j) ((n + 1) * ε)
  hD : ∀ i < X.nO, R.Apx (n + 2) (R.v (I.hD i))
    ((lhsInput X M (V.map R.v)).hD i + (R.v (x (M + 1) i) - R.v (V.g i)))
    ((lhsInput X M (V.map R.av)).hD i + (R.av (x (M + 1) i) - R.av (V.g i))) ((n + 1) * ε)

/-- The underflow errors of all terms are bounded. -/
structure ChainSmall (R : Rounding K F) (ε : F) (X : ChainPat) (M : Nat) (V : ChainVals K) : Prop where
  nonneg : 0 ≤ ε
  d : ∀ p ≤ M, R.Small ε (X.cD p) (V.l X p) (V.d p)
  s : ∀ p < M, R.Small ε (X.cS p) (V.s X p) (V.d p)
  o : ∀ p ≤ M, R.Small ε (X.cO p) (V.o X p) (V.d p)
  e : R.Small ε X.cE (V.e X) V.g

theorem chainApx {ε : F} {X : ChainPat} {M : Nat} (hX : X.Ok M) {V : ChainVals K} {I : ChainInput K}
    {reg : K → Nat → K} {method : Method} (hV : ChainRows X M V I reg method) (hI : I.Zero X M)
    (hs : R.ChainSmall ε X M V) {n : Nat}
    (hn : ∀ p ≤ M + 1, ∀ i < chainN X M p, X.rowLen M p i ≤ n)
    (hd : ∀ p ≤ M, ∀ i < X.n p, R.fin (V.d p i)) (hg : ∀ i < X.nO, R.fin (V.g i))
    (hx : ∀ p ≤ M, ∀ i < X.n p, ∀ x, V.d p i = reg x i → R.fin x)
    (hx' : ∀ i < X.nO, ∀ x, V.g i = reg x i → R.fin x) :
    ∃ x : Nat → Nat → K, (∀ p ≤ M, ∀ i < X.n p, V.d p i = reg (x p i) i) ∧
      (∀ i < X.nO, V.g i = reg (x (M + 1) i) i) ∧ R.ChainApx ε n X M V I x := by
  have hε := hs.nonneg
  have first : ∀ i < X.n 0, ∃ x, V.d 0 i = reg x i ∧ R.ApxRow ε 0 (X.n 0) 0 ((X.cD 0).cols i).length
      (fun _ _ => 0) (fun _ => 0) (fun _ _ => 0) (I.a 0) (I.aD 0) (fun _ _ => 0) (V.l X 0) (V.d 0) x i := by
    intro i hi
    obtain ⟨c11, c21, z11, z21, g21, hc21, L11, L21, d1, a21, h⟩ := hV.first i hi
    have h0 := hX.hD 0 (Nat.zero_le _)
    obtain ⟨x, e1, e2⟩ := apxEntries_method (R := R) (ε := ε) h (fun j h => absurd h (z21 i j))
      (fun j h => hd 0 (Nat.zero_le _) j (h0.cols ▸ h0.good.col_lt h)) (fun j k h => absurd h (z11 j k))
      (fun j k h => absurd h (z21 j k)) (hs.d 0 (Nat.zero_le _))
    have hr := (e2 (hx 0 (Nat.zero_le _) i hi x e1)).row hε g21 h0.good hc21 h0.cols (fun i j _ h => absurd h (z21 i j))
      (fun i j _ h => absurd h (z21 i j)) hX.cl0 (by omega)
      (fun j hj hn => hI.a 0 (Nat.zero_le _) i hi j hj hn)
    rw [cols_empty z21] at hr
    exact ⟨x, e1, fun j hj => by omega, hr.e22, hr.eD⟩
  have inner : ∀ p < M, ∀ i < X.n (p + 1), ∃ x, V.d (p + 1) i = reg x i ∧ R.ApxRow ε (X.n p) (X.n (p + 1))
      ((X.cS p).cols i).length ((X.cD (p + 1)).cols i).length (V.l X p) (V.d p) (I.b p)
      (I.a (p + 1)) (I.aD (p + 1)) (V.s X p) (V.l X (p + 1)) (V.d (p + 1)) x i := by
    intro p hpM i hi
    have hc := hX.hS p hpM
    have hc' := hX.hD (p + 1) hpM
    have hcl := hX.clS p hpM
    obtain ⟨x, e1, e2⟩ := apxEntries_method (R := R) (ε := ε) (hV.inner p hpM i hi)
      (fun j h => hd p (by omega) j (hc.cols ▸ hc.good.col_lt h))
      (fun j h => hd (p + 1) hpM j (hc'.cols ▸ hc'.good.col_lt h)) (hs.d p (by omega)) (hs.s p hpM) (hs.d (p + 1) hpM)
    exact ⟨x, e1, (e2 (hx (p + 1) hpM i hi x e1)).row hε hc.good hc'.good hc.cols hc'.cols hcl.c21 hcl.c22 hcl.c22'
      (fun j hj hn => hI.b p hpM i hi j hj hn) (fun j hj hn => hI.a (p + 1) hpM i hi j hj hn)⟩
  obtain ⟨x, e, eD, x0, e0, eD0, hP, hlast⟩ := hV.outer
  have zx : ∀ p ≤ M, ∀ i < X.nO, ∀ j < X.n p, ¬ (X.cO p).Has i j → x p i j = 0 := by
    intro p hpM i hi j hj hn
    cases p with
    | zero => rw [x0]; exact hI.c 0 hpM i hi j hj hn
    | succ p =>
      obtain ⟨L, hL⟩ := (hP p (by omega)).1
      rw [hL]
      exact val_off hn
  have ze : ∀ p ≤ M, ∀ i < X.nO, ∀ j < i, ¬ X.cE.Has i j → e p i j = 0 := by
    intro p hpM i hi j hj hn
    cases p with
    | zero => rw [e0]; exact hI.h i hi j hj hn
    | succ p =>
      obtain ⟨L, hL⟩ := (hP p (by omega)).2.1
      rw [hL]
      exact val_off hn
  -- the last step of the outer rows
  have hcM := hX.hO M (Nat.le_refl M)
  have last : ∀ i < X.nO, ∃ y, V.g i = reg y i ∧ R.ApxEntries ε (X.cD M) (X.cO M) X.cE (V.l X M) (V.d M) (x M) (e M)
      (eD M) (V.o X M) (V.e X) V.g y i := by
    intro i hi
    obtain ⟨y, e1, e2⟩ := apxEntries_method (R := R) (ε := ε) (hlast i hi)
      (fun j h => hd M (Nat.le_refl M) j (hcM.cols ▸ hcM.good.col_lt h))
      (fun j h => hg j (hX.hE.cols ▸ hX.hE.good.col_lt h)) (hs.d M (Nat.le_refl M)) (hs.o M (Nat.le_refl M)) hs.e
    exact ⟨y, e1, e2 (hx' i hi y e1)⟩
  -- finiteness of the intermediate results
  have fin : ∀ k ≤ M, ∀ i < X.nO, R.fin (eD (M - k) i) ∧ (∀ j, (X.cO (M - k)).Has i j → R.fin (x (M - k) i j)) ∧
      ∀ j, X.cE.Has i j → R.fin (e (M - k) i j) := by
    intro k
    induction k with
    | zero =>
      intro _ i hi
      obtain ⟨y, -, hy⟩ := last i hi
      exact ⟨hy.fD, hy.f21, hy.f22⟩
    | succ k ih =>
      intro hk i hi
      obtain ⟨p, hp⟩ : ∃ p, M - k = p + 1 := ⟨M - k - 1, by omega⟩
      obtain ⟨i1, i2, i3⟩ := ih (by omega) i hi
      rw [hp] at i1 i2 i3
      have hp' : M - (k + 1) = p := by omega
      rw [hp']
      have hc := hX.hO p (by omega)
      have := apxPartial (R := R) (ε := ε) ((hP p (by omega)).2.2 i hi)
        (fun j h => hd p (by omega) j (hc.cols ▸ hc.good.col_lt h)) (hs.d p (by omega)) (hs.s p (by omega))
        (hs.o p (by omega)) i1
      exact ⟨this.fD, this.f31, fun j hj => this.f33 j hj (i3 j hj)⟩
  have fin' : ∀ p ≤ M, ∀ i < X.nO, R.fin (eD p i) ∧ (∀ j, (X.cO p).Has i j → R.fin (x p i j)) ∧
      ∀ j, X.cE.Has i j → R.fin (e p i j) := by
    intro p hp
    have := fin (M - p) (by omega)
    rwa [show M - (M - p) = p by omega] at this
  have part : ∀ p < M, ∀ i < X.nO, R.ApxPartialRow ε (X.n p) (X.n (p + 1)) ((X.cO p).cols i).length (V.l X p)
      (V.s X p) (V.d p) (x p) (I.c (p + 1)) (e p) (eD p) (V.o X p) (x (p + 1)) (e (p + 1)) (eD (p + 1)) i := by
    intro p hpM i hi
    obtain ⟨⟨L, hL⟩, ⟨L', hL'⟩, hrow⟩ := hP p hpM
    have hc := hX.hO p (by omega)
    obtain ⟨f1, f2, f3⟩ := fin' (p + 1) hpM i hi
    have hrow := apxPartial (R := R) (ε := ε) (hrow i hi)
      (fun j h => hd p (by omega) j (hc.cols ▸ hc.good.col_lt h)) (hs.d p (by omega)) (hs.s p (by omega))
      (hs.o p (by omega)) f1
    rw [hL] at hrow f2 ⊢
    rw [hL'] at hrow f3 ⊢
    exact hrow.row hε hc.good hc.cols (hX.o1 p hpM) (hX.o2 p hpM) (hX.o3 p hpM) (zx p (by omega) i hi)
      (hI.c (p + 1) hpM i hi) (ze p (by omega) i hi) f2 f3
  have last' : ∀ i < X.nO, ∃ y, V.g i = reg y i ∧ R.ApxRow ε (X.n M) X.nO ((X.cO M).cols i).length
      (X.cE.cols i).length (V.l X M) (V.d M) (x M) (e M) (eD M) (V.o X M) (V.e X) V.g y i := by
    intro i hi
    obtain ⟨y, e1, hy⟩ := last i hi
    have hcl := hX.clE
    exact ⟨y, e1, hy.row hε hcM.good hX.hE.good hcM.cols hX.hE.cols hcl.c21 hcl.c22 hcl.c22'
      (zx M (Nat.le_refl M) i hi) (ze M (Nat.le_refl M) i hi)⟩
  have len0 : ∀ i < X.n 0, ((X.cD 0).cols i).length ≤ n := by
    intro i hi
    have := hn 0 (by omega) i (by rwa [chainN_le (Nat.zero_le _)])
    simpa [ChainPat.rowLen] using this
  have lenS : ∀ p < M, ∀ i < X.n (p + 1), ((X.cS p).cols i).length + ((X.cD (p + 1)).cols i).length ≤ n := by
    intro p hp i hi
    have := hn (p + 1) (by omega) i (by rwa [chainN_le (by omega)])
    simpa [ChainPat.rowLen, Nat.succ_le_of_lt hp] using this
  have lenO : ∀ i < X.nO, ∑ q ∈ range (M + 1), ((X.cO q).cols i).length + (X.cE.cols i).length ≤ n := by
    intro i hi
    have := hn (M + 1) (by omega) i (by rwa [chainN_outer])
    simpa [ChainPat.rowLen] using this
  have lenO' : ∀ i < X.nO, ∀ p < M, ((X.cO p).cols i).length + ((X.cO (p + 1)).cols i).length ≤ n := by
    intro i hi p hp
    have h1 := sum_le_sum_of_subset (f := fun q => ((X.cO q).cols i).length)
      (s := {p, p + 1}) (t := range (M + 1)) (by
        intro q hq
        simp only [mem_insert, mem_singleton] at hq
        rw [mem_range]
        omega)
    rw [sum_pair (by omega)] at h1
    have := lenO i hi
    omega
  have lenO0 : ∀ i < X.nO, ∀ p ≤ M, ((X.cO p).cols i).length ≤ n := by
    intro i hi p hp
    have h1 := single_le_sum (f := fun q => ((X.cO q).cols i).length) (s := range (M + 1)) (fun _ _ => Nat.zero_le _)
      (mem_range.mpr (Nat.lt_succ_of_le hp))
    have := lenO i hi
    beta_reduce at h1
    omega
  have cε : ∀ {m : Nat}, m ≤ n → (1 + (m : F)) * ε ≤ ((n : F) + 1) * ε := by
    intro m hm
    refine mul_le_mul_of_nonneg_right ?_ hε
    have : (m : F) ≤ n := Nat.cast_le.mpr hm
    linarith
  have pA : ∀ p ≤ M, ∀ i < X.n p, ∃ y, V.d p i = reg y i ∧
      (∀ j < i, R.Apx (n + 2) (R.v (I.a p i j)) ((lhsInput X M (V.map R.v)).a p i j)
        ((lhsInput X M (V.map R.av)).a p i j) ((n + 1) * ε)) ∧
      R.Apx (n + 2) (R.v (I.aD p i)) ((lhsInput X M (V.map R.v)).aD p i + (R.v y - R.v (V.d p i)))
        ((lhsInput X M (V.map R.av)).aD p i + (R.av y - R.av (V.d p i))) ((n + 1) * ε) := by
    intro p hp i hi
    cases p with
    | zero =>
      obtain ⟨y, h1, h2⟩ := first i hi
      have hl := len0 i hi
      refine ⟨y, h1, fun j hj => ?_, ?_⟩
      · rw [lhs_a_zero R.v_zero, lhs_a_zero R.av_zero]
        have := h2.e22 j hj
        simp only [tri, sum_range_zero, zero_add, Nat.cast_zero, add_zero] at this
        exact this.mono (by omega) le_rfl (cε hl)
      · rw [lhs_aD_zero R.v_zero, lhs_aD_zero R.av_zero]
        have := h2.eD
        simp only [tri, sum_range_zero, zero_add, Nat.cast_zero, add_zero] at this
        rw [show ∀ a b c : F, a + b + (c - b) = a + c from fun a b c => by ring,
          show ∀ a b c : F, a + b + (c - b) = a + c from fun a b c => by ring]
        exact this.mono (by omega) le_rfl (cε hl)
    | succ p =>
      obtain ⟨y, h1, h2⟩ := inner p (by omega) i hi
      have hl := lenS p (by omega) i hi
      have hl' := cε hl
      rw [Nat.cast_add, ← add_assoc] at hl'
      refine ⟨y, h1, fun j hj => ?_, ?_⟩
      · rw [lhs_a_succ R.v_zero, lhs_a_succ R.av_zero]
        exact (h2.e22 j hj).mono (by omega) le_rfl hl'
      · rw [lhs_aD_succ R.v_zero, lhs_aD_succ R.av_zero]
        rw [show ∀ a b c : F, a + b + (c - b) = a + c from fun a b c => by ring,
          show ∀ a b c : F, a + b + (c - b) = a + c from fun a b c => by ring]
        exact h2.eD.mono (by omega) le_rfl hl'
  have pB : ∀ p < M, ∀ i < X.n (p + 1), ∀ j < X.n p, R.Apx (n + 2) (R.v (I.b p i j))
      ((lhsInput X M (V.map R.v)).b p i j) ((lhsInput X M (V.map R.av)).b p i j) ((n + 1) * ε) := by
    intro p hp i hi j hj
    obtain ⟨y, h1, h2⟩ := inner p hp i hi
    have hl := lenS p hp i hi
    rw [lhs_b R.v_zero, lhs_b R.av_zero]
    exact (h2.e21 j hj).mono (by omega) le_rfl (cε (by omega))
  have pX : ∀ p ≤ M, ∀ i < X.nO, ∀ j < X.n p, R.Apx (2 + ((X.cO p).cols i).length) (R.v (x p i j))
      (tri R.v (X.n p) (V.o X p i) (V.d p) (V.l X p j) + R.v (V.o X p i j) * R.v (V.d p j))
      (tri R.av (X.n p) (V.o X p i) (V.d p) (V.l X p j) + R.av (V.o X p i j) * R.av (V.d p j))
      ((1 + ((X.cO p).cols i).length) * ε) := by
    intro p hp i hi j hj
    rcases Nat.lt_or_eq_of_le hp with hlt | rfl
    · exact (part p hlt i hi).e31 j hj
    · obtain ⟨y, -, h2⟩ := last' i hi
      exact h2.e21 j hj
  have pC : ∀ p ≤ M, ∀ i < X.nO, ∀ j < X.n p, R.Apx (n + 2) (R.v (I.c p i j))
      ((lhsInput X M (V.map R.v)).c p i j) ((lhsInput X M (V.map R.av)).c p i j) ((n + 1) * ε) := by
    intro p hp i hi j hj
    have h1 := pX p hp i hi j hj
    cases p with
    | zero =>
      rw [x0] at h1
      rw [lhs_c_zero R.v_zero, lhs_c_zero R.av_zero]
      have hl := lenO0 i hi 0 hp
      exact h1.mono (by omega) le_rfl (cε hl)
    | succ p =>
      rw [lhs_c_succ R.v_zero, lhs_c_succ R.av_zero]
      have hl := lenO' i hi p (by omega)
      have hl' := cε hl
      rw [Nat.cast_add] at hl'
      refine ((part p (by omega) i hi).e32 j hj (by omega) h1).mono (by omega) le_rfl (le_trans (le_of_eq ?_) hl')
      ring
  have pH : ∀ p ≤ M, ∀ i < X.nO, ∀ j < i, ∀ {m Y A E}, 2 ≤ m → R.Apx m (R.v (e p i j)) Y A E →
      R.Apx (m + ∑ q ∈ range p, ((X.cO q).cols i).length) (R.v (I.h i j))
        (∑ q ∈ range p, tri R.v (X.n q) (V.o X q i) (V.d q) (V.o X q j) + Y)
        (∑ q ∈ range p, tri R.av (X.n q) (V.o X q i) (V.d q) (V.o X q j) + A)
        (E + ((∑ q ∈ range p, ((X.cO q).cols i).length : Nat) : F) * ε) := by
    intro p
    induction p with
    | zero =>
      intro _ i hi j hj m Y A E _ hy
      rw [e0] at hy
      simpa using hy
    | succ p ih =>
      intro hp i hi j hj m Y A E hm hy
      have h1 := ih (by omega) i hi j hj (by omega) ((part p (by omega) i hi).e33 j hj hm hy)
      rw [sum_range_succ, sum_range_succ, sum_range_succ, Nat.cast_add]
      refine (h1.mono (by omega) (le_of_eq (by ring)) (le_of_eq (by ring))).congr (by ring)
  have pHD : ∀ p ≤ M, ∀ i < X.nO, ∀ {m Y A E}, 2 ≤ m → R.Apx m (R.v (eD p i)) Y A E →
      R.Apx (m + ∑ q ∈ range p, ((X.cO q).cols i).length) (R.v (I.hD i))
        (∑ q ∈ range p, tri R.v (X.n q) (V.o X q i) (V.d q) (V.o X q i) + Y)
        (∑ q ∈ range p, tri R.av (X.n q) (V.o X q i) (V.d q) (V.o X q i) + A)
        (E + ((∑ q ∈ range p, ((X.cO q).cols i).length : Nat) : F) * ε) := by
    intro p
    induction p with
    | zero =>
      intro _ i hi m Y A E _ hy
      rw [eD0] at hy
      simpa using hy
    | succ p ih =>
      intro hp i hi m Y A E hm hy
      have h1 := ih (by omega) i hi (by omega) ((part p (by omega) i hi).eD hm hy)
      rw [sum_range_succ, sum_range_succ, sum_range_succ, Nat.cast_add]
      refine (h1.mono (by omega) (le_of_eq (by ring)) (le_of_eq (by ring))).congr (by ring)
  have pE : ∀ i < X.nO, ∃ y, V.g i = reg y i ∧
      (∀ j < i, R.Apx (n + 2) (R.v (I.h i j)) ((lhsInput X M (V.map R.v)).h i j)
        ((lhsInput X M (V.map R.av)).h i j) ((n + 1) * ε)) ∧
      R.Apx (n + 2) (R.v (I.hD i)) ((lhsInput X M (V.map R.v)).hD i + (R.v y - R.v (V.g i)))
        ((lhsInput X M (V.map R.av)).hD i + (R.av y - R.av (V.g i))) ((n + 1) * ε) := by
    intro i hi
    obtain ⟨y, h1, h2⟩ := last' i hi
    have hl := lenO i hi
    rw [sum_range_succ] at hl
    have hl' := cε hl
    rw [Nat.cast_add, Nat.cast_add] at hl'
    refine ⟨y, h1, fun j hj => ?_, ?_⟩
    · rw [lhs_h R.v_zero, lhs_h R.av_zero]
      refine (pH M (Nat.le_refl M) i hi j hj (by omega) (h2.e22 j hj)).mono (by omega) le_rfl
        (le_trans (le_of_eq ?_) hl')
      ring
    · rw [lhs_hD R.v_zero, lhs_hD R.av_zero]
      rw [show ∀ s a b c : F, s + (a + b) + (c - b) = s + (a + c) from fun s a b c => by ring,
          show ∀ s a b c : F, s + (a + b) + (c - b) = s + (a + c) from fun s a b c => by ring]
      refine (pHD M (Nat.le_refl M) i hi (by omega) h2.eD).mono (by omega) le_rfl
        (le_trans (le_of_eq ?_) hl')
      ring
  have ch : ∀ p i, ∃ y, (p ≤ M → i < X.n p → V.d p i = reg y i ∧
      (∀ j < i, R.Apx (n + 2) (R.v (I.a p i j)) ((lhsInput X M (V.map R.v)).a p i j)
        ((lhsInput X M (V.map R.av)).a p i j) ((n + 1) * ε)) ∧
      R.Apx (n + 2) (R.v (I.aD p i)) ((lhsInput X M (V.map R.v)).aD p i + (R.v y - R.v (V.d p i)))
        ((lhsInput X M (V.map R.av)).aD p i + (R.av y - R.av (V.d p i))) ((n + 1) * ε)) ∧
      (p = M + 1 → i < X.nO → V.g i = reg y i ∧
      (∀ j < i, R.Apx (n + 2) (R.v (I.h i j)) ((lhsInput X M (V.map R.v)).h i j)
        ((lhsInput X M (V.map R.av)).h i j) ((n + 1) * ε)) ∧
      R.Apx (n + 2) (R.v (I.hD i)) ((lhsInput X M (V.map R.v)).hD i + (R.v y - R.v (V.g i)))
        ((lhsInput X M (V.map R.av)).hD i + (R.av y - R.av (V.g i))) ((n + 1) * ε)) := by
    intro p i
    by_cases hp : p ≤ M
    · by_cases hi : i < X.n p
      · obtain ⟨y, hy⟩ := pA p hp i hi
        exact ⟨y, fun _ _ => hy, fun h => by omega⟩
      · exact ⟨0, fun _ h => absurd h hi, fun h => by omega⟩
    · by_cases hi : i < X.nO
      · obtain ⟨y, hy⟩ := pE i hi
        exact ⟨y, fun h => absurd h hp, fun _ _ => hy⟩
      · exact ⟨0, fun h => absurd h hp, fun _ h => absurd h hi⟩
  choose y hy1 hy2 using ch
  exact ⟨y, fun p hp i hi => (hy1 p i hp hi).1, fun i hi => (hy2 (M + 1) i rfl hi).1,
    fun p hp i hi => (hy1 p i hp hi).2.1, fun p hp i hi => (hy1 p i hp hi).2.2, pB, pC,
    fun i hi => (hy2 (M + 1) i rfl hi).2.1, fun i hi => (hy2 (M + 1) i rfl hi).2.2⟩

/-- The assembled form. -/
theorem ChainApx.assembled {ε : F} {n : Nat} {X : ChainPat} {M : Nat} (hX : X.Ok M) {V : ChainVals K}
    {I : ChainInput K} {x : Nat → Nat → K} (h : R.ChainApx ε n X M V I x) (hε : 0 ≤ ε) {J : ChainInput F}
    (ja : ∀ p i j, J.a p i j = R.v (I.a p i j)) (jaD : ∀ p i, J.aD p i = R.v (I.aD p i))
    (jb : ∀ p i j, J.b p i j = R.v (I.b p i j)) (jc : ∀ p i j, J.c p i j = R.v (I.c p i j))
    (jh : ∀ i j, J.h i j = R.v (I.h i j)) (jhD : ∀ i, J.hD i = R.v (I.hD i))
    {p q i j : Nat} (hp : p ≤ M + 1) (hq : q ≤ M + 1) (hi : i < chainN X M p) (hj : j < chainN X M q) :
    R.Apx (n + 2) (chainA J M p q i j)
      (chainLdlt X (V.map R.v) M p q i j + if p = q ∧ i = j then R.v (x p i) - chainD (V.map R.v) M p i else 0)
      (chainLdlt X (V.map R.av) M p q i j + if p = q ∧ i = j then R.av (x p i) - chainD (V.map R.av) M p i else 0)
      ((n + 1) * ε) := by
  rw [← lhsInput_chainA hX _ hp hq hi hj, ← lhsInput_chainA hX _ hp hq hi hj]
  have low : ∀ p ≤ M + 1, ∀ q ≤ p, ∀ i < chainN X M p, ∀ j < chainN X M q, R.Apx (n + 2) (chainLow J M p q i j)
      (chainLow (lhsInput X M (V.map R.v)) M p q i j +
        if p = q ∧ i = j then R.v (x p i) - chainD (V.map R.v) M p i else 0)
      (chainLow (lhsInput X M (V.map R.av)) M p q i j +
        if p = q ∧ i = j then R.av (x p i) - chainD (V.map R.av) M p i else 0) ((n + 1) * ε) := by
    intro p hp q hq i hi j hj
    unfold chainLow
    by_cases hpq : p = q
    · subst hpq
      rw [if_pos rfl, if_pos rfl, if_pos rfl]
      by_cases hpM : p ≤ M
      · rw [if_pos hpM, if_pos hpM, if_pos hpM]
        rw [chainN_le hpM] at hi hj
        rw [chainD_le hpM, chainD_le hpM]
        unfold symOf
        rcases Nat.lt_trichotomy i j with hlt | rfl | hlt
        · rw [if_neg (by omega), if_neg (by omega), if_neg (by omega), if_neg (by omega), if_neg (by omega),
            if_neg (by omega), if_neg (by omega), if_neg (by omega), add_zero, add_zero, ja]
          exact h.a p hpM j hj i hlt
        · rw [if_pos rfl, if_pos rfl, if_pos rfl, if_pos ⟨rfl, rfl⟩, if_pos ⟨rfl, rfl⟩, jaD]
          have := h.aD p hpM i hi
          simp only [ChainVals.map, vec_map R.v_zero, vec_map R.av_zero] at this ⊢
          exact this
        · rw [if_neg (by omega), if_pos hlt, if_neg (by omega), if_pos hlt, if_neg (by omega),
            if_neg (by omega), if_pos hlt, if_neg (by omega), add_zero, add_zero, ja]
          exact h.a p hpM i hi j hlt
      · obtain rfl : p = M + 1 := by omega
        rw [if_neg hpM, if_neg hpM, if_neg hpM]
        rw [chainN_outer] at hi hj
        rw [chainD_outer, chainD_outer]
        unfold symOf
        rcases Nat.lt_trichotomy i j with hlt | rfl | hlt
        · rw [if_neg (by omega), if_neg (by omega), if_neg (by omega), if_neg (by omega), if_neg (by omega),
            if_neg (by omega), if_neg (by omega), if_neg (by omega), add_zero, add_zero, jh]
          exact h.h j hj i hlt
        · rw [if_pos rfl, if_pos rfl, if_pos rfl, if_pos ⟨rfl, rfl⟩, if_pos ⟨rfl, rfl⟩, jhD]
          have := h.hD i hi
          simp only [ChainVals.map, vec_map R.v_zero, vec_map R.av_zero] at this ⊢
          exact this
        · rw [if_neg (by omega), if_pos hlt, if_neg (by omega), if_pos hlt, if_neg (by omega),
            if_neg (by omega), if_pos hlt, if_neg (by omega), add_zero, add_zero, jh]
          exact h.h i hi j hlt
    · have hpq' : ¬ (p = q ∧ i = j) := fun hh => hpq hh.1
      rw [if_neg hpq, if_neg hpq, if_neg hpq, if_neg hpq', if_neg hpq', add_zero, add_zero]
      have hqM : q ≤ M := by omega
      rw [chainN_le hqM] at hj
      by_cases hpM : p = M + 1
      · subst hpM
        rw [if_pos rfl, if_pos rfl, if_pos rfl, jc]
        rw [chainN_outer] at hi
        exact h.c q hqM i hi j hj
      · rw [if_neg hpM, if_neg hpM, if_neg hpM]
        by_cases hn : p = q + 1
        · subst hn
          rw [if_pos rfl, if_pos rfl, if_pos rfl, jb]
          rw [chainN_le (by omega)] at hi
          exact h.b q (by omega) i hi j hj
        · rw [if_neg hn, if_neg hn, if_neg hn]
          exact Apx.zero (by positivity)
  unfold chainA
  by_cases hqp : q ≤ p
  · rw [if_pos hqp, if_pos hqp, if_pos hqp]
    exact low p hp q hqp i hi j hj
  · rw [if_neg hqp, if_neg hqp, if_neg hqp]
    have := low q hq p (by omega) j hj i hi
    rw [if_neg (by omega), if_neg (by omega)] at this
    rwa [if_neg (by omega), if_neg (by omega)]

end Rounding

end Ctldl
