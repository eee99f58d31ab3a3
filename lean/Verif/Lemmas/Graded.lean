import Verif.Lemmas.Chain

/-!
# Weights of the computed values

If the elements `(i, j)` of a matrix have the weight `c + u i + u j`, and the operations respect weights, then the
entries `(i, j)` of the factor have the weight `u i - u j`, and the pivots have the weight `c + 2 u j`.
-/

namespace Ctldl

/-- The predicates `P w` ("has the weight `w`") are respected by the operations. -/
structure Grading {K : Type} [Zero K] [Sub K] [Mul K] [Div K] (P : Int → K → Prop) : Prop where
  zero : ∀ w, P w 0
  sub : ∀ {w a b}, P w a → P w b → P w (a - b)
  mul : ∀ {v w a b}, P v a → P w b → P (v + w) (a * b)
  div : ∀ {v w a b}, P v a → P w b → P (v - w) (a / b)

section

variable {K : Type} [_root_.Zero K] [Sub K] [Mul K] [Div K] {P : Int → K → Prop}

theorem Grading.subAll (hP : Grading P) {ι : Type} {ks : List ι} {f : ι → K} {a : K} {w : Int} (ha : P w a)
    (hf : ∀ k ∈ ks, P w (f k)) : P w (subAll ks f a) := by
  induction ks generalizing a with
  | nil => exact ha
  | cons k ks ih =>
    exact ih (hP.sub ha (hf k List.mem_cons_self)) fun k' hk' => hf k' (List.mem_cons_of_mem _ hk')

private theorem of_eq {v w : Int} {a : K} (h : P v a) (e : v = w) : P w a := e ▸ h

/-- The computed values have their weights. -/
structure RowsGraded (P : Int → K → Prop) (c : Int) (c21 c22 : Csr) (n : Nat) (u1 u2 : Nat → Int)
    (l21 l22 : Nat → Nat → K) (d2 : Nat → K) : Prop where
  s21 : ∀ i j, i < n → c21.Has i j → P (u2 i - u1 j) (l21 i j)
  s22 : ∀ i j, i < n → c22.Has i j → P (u2 i - u2 j) (l22 i j)
  sD : ∀ i, i < n → P (c + u2 i + u2 i) (d2 i)

section

variable (hP : Grading P) {c : Int} {c11 c21 c22 : Csr} {n2 : Nat} {u1 u2 : Nat → Int} {l11 : Nat → Nat → K}
  {d1 : Nat → K} {a21 a22 : Nat → Nat → K} {aD : Nat → K} {reg : K → Nat → K} {l21 l22 : Nat → Nat → K} {d2 : Nat → K}

include hP

theorem upRow_graded (h : ∀ i < n2, UpRow c11 c21 c22 l11 d1 a21 a22 aD reg l21 l22 d2 i)
    (hreg : ∀ i < n2, ∀ x, P (c + u2 i + u2 i) x → P (c + u2 i + u2 i) (reg x i))
    (low11 : ∀ i j, c11.Has i j → j < i) (low22 : ∀ i j, c22.Has i j → j < i)
    (h11 : ∀ i j, c11.Has i j → P (u1 i - u1 j) (l11 i j)) (hd1 : ∀ i j, c21.Has i j → P (c + u1 j + u1 j) (d1 j))
    (ha21 : ∀ i j, c21.Has i j → P (c + u2 i + u1 j) (a21 i j))
    (ha22 : ∀ i j, c22.Has i j → P (c + u2 i + u2 j) (a22 i j))
    (haD : ∀ i < n2, P (c + u2 i + u2 i) (aD i)) : RowsGraded P c c21 c22 n2 u1 u2 l21 l22 d2 := by
  suffices hs : ∀ i, i < n2 → (∀ j, c21.Has i j → P (u2 i - u1 j) (l21 i j)) ∧
      (∀ j, c22.Has i j → P (u2 i - u2 j) (l22 i j)) ∧ P (c + u2 i + u2 i) (d2 i) from
    ⟨fun i j hi hj => (hs i hi).1 j hj, fun i j hi hj => (hs i hi).2.1 j hj, fun i hi => (hs i hi).2.2⟩
  intro i
  induction i using Nat.strong_induction_on with
  | _ i ih =>
    intro hi
    obtain ⟨w1, w2, h1, h2, h3, h4, h5⟩ := h i hi
    have e1 : ∀ j, c21.Has i j → P (c + u2 i + u1 j) (w1 j) := by
      intro j
      induction j using Nat.strong_induction_on with
      | _ j ihj =>
        intro hj
        rw [h1 j hj]
        refine hP.subAll (ha21 i j hj) fun k hk => ?_
        rw [List.mem_filter, Csr.mem_cols] at hk
        have hk' : c11.Has j k := by simpa using hk.2
        exact of_eq (hP.mul (h11 j k hk') (ihj k (low11 _ _ hk') hk.1)) (by ring)
    have e1' : ∀ j, c21.Has i j → P (u2 i - u1 j) (l21 i j) := fun j hj => by
      rw [h2 j hj]
      exact of_eq (hP.div (e1 j hj) (hd1 i j hj)) (by ring)
    have e2' : ∀ j, c22.Has i j → P (c + u2 i + u2 j) (w2 j) := by
      intro j
      induction j using Nat.strong_induction_on with
      | _ j ihj =>
        intro hj
        have hji := low22 i j hj
        rw [h3 j hj]
        refine hP.subAll (hP.subAll (ha22 i j hj) fun k hk => ?_) fun k hk => ?_
        · rw [List.mem_filter, Csr.mem_cols] at hk
          have hk' : c21.Has j k := by simpa using hk.2
          exact of_eq (hP.mul ((ih j hji (by omega)).1 k hk') (e1 k hk.1)) (by ring)
        · rw [List.mem_filter, Csr.mem_cols] at hk
          have hk' : c22.Has j k := by simpa using hk.2
          exact of_eq (hP.mul ((ih j hji (by omega)).2.1 k hk') (ihj k (low22 _ _ hk') hk.1)) (by ring)
    refine ⟨e1', fun j hj => ?_, ?_⟩
    · have hji := low22 i j hj
      rw [h4 j hj]
      exact of_eq (hP.div (e2' j hj) (ih j hji (by omega)).2.2) (by ring)
    · rw [h5]
      refine hreg i hi _ (hP.subAll (hP.subAll (haD i hi) fun j hj => ?_) fun j hj => ?_)
      · have hj' := Csr.mem_cols.mp hj
        exact of_eq (hP.mul (e1 j hj') (hP.div (e1 j hj') (hd1 i j hj'))) (by ring)
      · have hj' := Csr.mem_cols.mp hj
        have hji := low22 i j hj'
        exact of_eq (hP.mul (e2' j hj') (hP.div (e2' j hj') (ih j hji (by omega)).2.2)) (by ring)

theorem entryRow_graded (h : ∀ i < n2, EntryRow c11 c21 c22 l11 d1 a21 a22 aD reg l21 l22 d2 i)
    (hreg : ∀ i < n2, ∀ x, P (c + u2 i + u2 i) x → P (c + u2 i + u2 i) (reg x i))
    (low11 : ∀ i j, c11.Has i j → j < i) (low22 : ∀ i j, c22.Has i j → j < i)
    (h11 : ∀ i j, c11.Has i j → P (u1 i - u1 j) (l11 i j)) (hd1 : ∀ i j, c21.Has i j → P (c + u1 j + u1 j) (d1 j))
    (ha21 : ∀ i j, c21.Has i j → P (c + u2 i + u1 j) (a21 i j))
    (ha22 : ∀ i j, c22.Has i j → P (c + u2 i + u2 j) (a22 i j))
    (haD : ∀ i < n2, P (c + u2 i + u2 i) (aD i)) : RowsGraded P c c21 c22 n2 u1 u2 l21 l22 d2 := by
  suffices hs : ∀ i, i < n2 → (∀ j, c21.Has i j → P (u2 i - u1 j) (l21 i j)) ∧
      (∀ j, c22.Has i j → P (u2 i - u2 j) (l22 i j)) ∧ P (c + u2 i + u2 i) (d2 i) from
    ⟨fun i j hi hj => (hs i hi).1 j hj, fun i j hi hj => (hs i hi).2.1 j hj, fun i hi => (hs i hi).2.2⟩
  intro i
  induction i using Nat.strong_induction_on with
  | _ i ih =>
    intro hi
    obtain ⟨h1, h2, h3⟩ := h i hi
    unfold EntrySub at h1
    unfold EntryDiag at h2
    have e1 : ∀ j, c21.Has i j → P (u2 i - u1 j) (l21 i j) := by
      intro j
      induction j using Nat.strong_induction_on with
      | _ j ihj =>
        intro hj
        rw [h1 j hj]
        refine of_eq (hP.div (hP.subAll (ha21 i j hj) fun k hk => ?_) (hd1 i j hj)) (by ring)
        rw [List.mem_filter, Csr.mem_cols] at hk
        have hk' : c11.Has j k := by simpa using hk.2
        exact of_eq (hP.mul (hP.mul (ihj k (low11 _ _ hk') hk.1) (h11 j k hk')) (hd1 i k hk.1)) (by ring)
    have e2' : ∀ j, c22.Has i j → P (u2 i - u2 j) (l22 i j) := by
      intro j
      induction j using Nat.strong_induction_on with
      | _ j ihj =>
        intro hj
        have hji := low22 i j hj
        rw [h2 j hj]
        refine of_eq (hP.div (hP.subAll (hP.subAll (ha22 i j hj) fun k hk => ?_) fun k hk => ?_)
          (ih j hji (by omega)).2.2) (by ring)
        · rw [List.mem_filter, Csr.mem_cols] at hk
          have hk' : c21.Has j k := by simpa using hk.2
          exact of_eq (hP.mul (hP.mul (e1 k hk.1) ((ih j hji (by omega)).1 k hk')) (hd1 i k hk.1)) (by ring)
        · rw [List.mem_filter, Csr.mem_cols] at hk
          have hk' : c22.Has j k := by simpa using hk.2
          have := low22 j k hk'
          exact of_eq (hP.mul (hP.mul (ihj k (low22 _ _ hk') hk.1) ((ih j hji (by omega)).2.1 k hk'))
            (ih k (by omega) (by omega)).2.2) (by ring)
    refine ⟨e1, e2', ?_⟩
    rw [h3]
    refine hreg i hi _ (hP.subAll (hP.subAll (haD i hi) fun j hj => ?_) fun j hj => ?_)
    · have hj' := Csr.mem_cols.mp hj
      exact of_eq (hP.mul (hP.mul (e1 j hj') (e1 j hj')) (hd1 i j hj')) (by ring)
    · have hj' := Csr.mem_cols.mp hj
      have hji := low22 i j hj'
      exact of_eq (hP.mul (hP.mul (e2' j hj') (e2' j hj')) (ih j hji (by omega)).2.2) (by ring)

theorem methodRow_graded {method : Method} (h : ∀ i < n2, MethodRow method c11 c21 c22 l11 d1 a21 a22 aD reg l21 l22 d2 i)
    (hreg : ∀ i < n2, ∀ x, P (c + u2 i + u2 i) x → P (c + u2 i + u2 i) (reg x i))
    (low11 : ∀ i j, c11.Has i j → j < i) (low22 : ∀ i j, c22.Has i j → j < i)
    (h11 : ∀ i j, c11.Has i j → P (u1 i - u1 j) (l11 i j)) (hd1 : ∀ i j, c21.Has i j → P (c + u1 j + u1 j) (d1 j))
    (ha21 : ∀ i j, c21.Has i j → P (c + u2 i + u1 j) (a21 i j))
    (ha22 : ∀ i j, c22.Has i j → P (c + u2 i + u2 j) (a22 i j))
    (haD : ∀ i < n2, P (c + u2 i + u2 i) (aD i)) : RowsGraded P c c21 c22 n2 u1 u2 l21 l22 d2 := by
  cases method with
  | upLooking => exact upRow_graded hP h hreg low11 low22 h11 hd1 ha21 ha22 haD
  | entryWise => exact entryRow_graded hP h hreg low11 low22 h11 hd1 ha21 ha22 haD

theorem singleRow_graded {method : Method} {cs : Csr} {n : Nat} {u : Nat → Int} {a : Nat → Nat → K} {aD : Nat → K}
    {l : Nat → Nat → K} {d : Nat → K} (h : ∀ i < n, SingleRow method cs a aD reg l d i)
    (hreg : ∀ i < n, ∀ x, P (c + u i + u i) x → P (c + u i + u i) (reg x i)) (low : ∀ i j, cs.Has i j → j < i)
    (ha : ∀ i j, cs.Has i j → P (c + u i + u j) (a i j)) (hD : ∀ i < n, P (c + u i + u i) (aD i)) :
    (∀ i j, i < n → cs.Has i j → P (u i - u j) (l i j)) ∧ ∀ i, i < n → P (c + u i + u i) (d i) := by
  obtain ⟨e11, -, -, -, -, -, y11⟩ := emptyCsr_spec 0 0
  have q : ∀ i < n, MethodRow method e11 e11 cs (fun _ _ => 0) (fun _ => 0) (fun _ _ => 0) a aD reg (fun _ _ => 0)
      l d i := by
    intro i hi
    obtain ⟨c11, c21, -, z21, -, -, L11, L21, d1, a21, h⟩ := h i hi
    exact methodRow_empty z21 y11 h
  have := methodRow_graded hP (c := c) (u1 := u) (u2 := u) q hreg (fun i j h => absurd h (y11 i j)) low
    (fun i j h => absurd h (y11 i j)) (fun i j h => absurd h (y11 i j)) (fun i j h => absurd h (y11 i j)) ha hD
  exact ⟨this.s22, this.sD⟩

theorem partialRow_graded {c31 c32 c33 : Csr} {n3 : Nat} {u3 : Nat → Int} {a31 a32 a33 : Nat → Nat → K}
    {l31 l32 l33 : Nat → Nat → K} {d3 : Nat → K}
    (h : ∀ i < n3, PartialRow c11 c21 c31 c32 c33 l11 l21 d1 a31 a32 a33 aD l31 l32 l33 d3 i)
    (low11 : ∀ i j, c11.Has i j → j < i) (low33 : ∀ i j, c33.Has i j → j < i)
    (h11 : ∀ i j, c11.Has i j → P (u1 i - u1 j) (l11 i j)) (h21 : ∀ i j, c21.Has i j → P (u2 i - u1 j) (l21 i j))
    (hd1 : ∀ i j, c31.Has i j → P (c + u1 j + u1 j) (d1 j))
    (ha31 : ∀ i j, c31.Has i j → P (c + u3 i + u1 j) (a31 i j))
    (ha32 : ∀ i j, c32.Has i j → P (c + u3 i + u2 j) (a32 i j))
    (ha33 : ∀ i j, c33.Has i j → P (c + u3 i + u3 j) (a33 i j)) (haD : ∀ i < n3, P (c + u3 i + u3 i) (aD i)) :
    (∀ i j, i < n3 → c31.Has i j → P (u3 i - u1 j) (l31 i j)) ∧
    (∀ i j, i < n3 → c32.Has i j → P (c + u3 i + u2 j) (l32 i j)) ∧
    (∀ i j, i < n3 → c33.Has i j → P (c + u3 i + u3 j) (l33 i j)) ∧ ∀ i, i < n3 → P (c + u3 i + u3 i) (d3 i) := by
  have hw : ∀ i, i < n3 → ∃ w : Nat → K, (∀ j, c31.Has i j → P (c + u3 i + u1 j) (w j)) ∧
      (∀ j, c31.Has i j → l31 i j = w j / d1 j) ∧
      (∀ j, c32.Has i j → l32 i j = subAll ((c31.cols i).filter (c21.Has j ·)) (fun k => l21 j k * w k) (a32 i j)) ∧
      (∀ j, c33.Has i j → l33 i j = subAll ((c31.cols i).filter (c31.Has j ·)) (fun k => l31 j k * w k) (a33 i j)) ∧
      d3 i = subAll (c31.cols i) (fun j => w j * (w j / d1 j)) (aD i) := by
    intro i hi
    obtain ⟨w, hw1, hw2⟩ := h i hi
    refine ⟨w, ?_, hw2⟩
    intro j
    induction j using Nat.strong_induction_on with
    | _ j ih =>
      intro hj
      rw [hw1 j hj]
      refine hP.subAll (ha31 i j hj) fun k hk => ?_
      rw [List.mem_filter, Csr.mem_cols] at hk
      have hkj : c11.Has j k := by simpa using hk.2
      exact of_eq (hP.mul (h11 _ _ hkj) (ih k (low11 _ _ hkj) hk.1)) (by ring)
  have h31 : ∀ i j, i < n3 → c31.Has i j → P (u3 i - u1 j) (l31 i j) := by
    intro i j hi hj
    obtain ⟨w, e, q1, -⟩ := hw i hi
    rw [q1 j hj]
    exact of_eq (hP.div (e j hj) (hd1 i j hj)) (by ring)
  refine ⟨h31, ?_, ?_, ?_⟩
  · intro i j hi hj
    obtain ⟨w, e, -, q1, -⟩ := hw i hi
    rw [q1 j hj]
    refine hP.subAll (ha32 i j hj) fun k hk => ?_
    rw [List.mem_filter, Csr.mem_cols] at hk
    exact of_eq (hP.mul (h21 j k (by simpa using hk.2)) (e k hk.1)) (by ring)
  · intro i j hi hj
    obtain ⟨w, e, -, -, q1, -⟩ := hw i hi
    rw [q1 j hj]
    refine hP.subAll (ha33 i j hj) fun k hk => ?_
    rw [List.mem_filter, Csr.mem_cols] at hk
    have := low33 _ _ hj
    exact of_eq (hP.mul (h31 j k (by omega) (by simpa using hk.2)) (e k hk.1)) (by ring)
  · intro i hi
    obtain ⟨w, e, -, -, -, q1⟩ := hw i hi
    rw [q1]
    refine hP.subAll (haD i hi) fun k hk => ?_
    rw [Csr.mem_cols] at hk
    exact of_eq (hP.mul (e k hk) (hP.div (e k hk) (hd1 i k hk))) (by ring)

end

/-- The inputs of a chain have the weights given by `u` for the blocks of the chain and `v` for the outer block. -/
structure ChainInput.Graded (P : Int → K → Prop) (κ : Int) (u : Nat → Nat → Int) (v : Nat → Int) (I : ChainInput K)
    (X : ChainPat) (M : Nat) : Prop where
  a : ∀ p ≤ M, ∀ i j, (X.cD p).Has i j → P (κ + u p i + u p j) (I.a p i j)
  aD : ∀ p ≤ M, ∀ i < X.n p, P (κ + u p i + u p i) (I.aD p i)
  b : ∀ p < M, ∀ i j, (X.cS p).Has i j → P (κ + u (p + 1) i + u p j) (I.b p i j)
  c : ∀ p ≤ M, ∀ i j, (X.cO p).Has i j → P (κ + v i + u p j) (I.c p i j)
  h : ∀ i j, X.cE.Has i j → P (κ + v i + v j) (I.h i j)
  hD : ∀ i < X.nO, P (κ + v i + v i) (I.hD i)

/-- The values of a chain have their weights. -/
structure ChainVals.Graded (P : Int → K → Prop) (c : Int) (u : Nat → Nat → Int) (v : Nat → Int) (V : ChainVals K)
    (X : ChainPat) (M : Nat) : Prop where
  l : ∀ p ≤ M, ∀ i j, (X.cD p).Has i j → P (u p i - u p j) (V.l X p i j)
  d : ∀ p ≤ M, ∀ i < X.n p, P (c + u p i + u p i) (V.d p i)
  s : ∀ p < M, ∀ i j, (X.cS p).Has i j → P (u (p + 1) i - u p j) (V.s X p i j)
  o : ∀ p ≤ M, ∀ i j, (X.cO p).Has i j → P (v i - u p j) (V.o X p i j)
  e : ∀ i j, X.cE.Has i j → P (v i - v j) (V.e X i j)
  g : ∀ i < X.nO, P (c + v i + v i) (V.g i)

theorem ChainRows.graded (hP : Grading P) {X : ChainPat} {M : Nat} (hX : X.Ok M) {V : ChainVals K} {I : ChainInput K}
    {reg : K → Nat → K} {method : Method} (hV : ChainRows X M V I reg method) {c : Int} {u : Nat → Nat → Int}
    {v : Nat → Int} (hreg : ∀ p ≤ M, ∀ i < X.n p, ∀ x, P (c + u p i + u p i) x → P (c + u p i + u p i) (reg x i))
    (hregO : ∀ i < X.nO, ∀ x, P (c + v i + v i) x → P (c + v i + v i) (reg x i)) (hI : I.Graded P c u v X M) :
    V.Graded P c u v X M := by
  have hin : ∀ p ≤ M, ((∀ i j, (X.cD p).Has i j → P (u p i - u p j) (V.l X p i j)) ∧
      ∀ i < X.n p, P (c + u p i + u p i) (V.d p i)) := by
    intro p
    induction p with
    | zero =>
      intro hp
      have := singleRow_graded hP hV.first (hreg 0 hp) (hX.lowD 0 hp) (hI.a 0 hp) (hI.aD 0 hp)
      exact ⟨fun i j h => this.1 i j ((hX.hD 0 hp).rows ▸ (hX.hD 0 hp).good.row_lt h) h, this.2⟩
    | succ p ih =>
      intro hp
      obtain ⟨i1, i2⟩ := ih (by omega)
      have hc := hX.hS p (by omega)
      have := methodRow_graded hP (hV.inner p (by omega)) (hreg (p + 1) hp) (hX.lowD p (by omega)) (hX.lowD (p + 1) hp)
        i1 (fun i j h => i2 j (hc.cols ▸ hc.good.col_lt h)) (hI.b p (by omega)) (hI.a (p + 1) hp) (hI.aD (p + 1) hp)
      exact ⟨fun i j h => this.s22 i j ((hX.hD _ hp).rows ▸ (hX.hD _ hp).good.row_lt h) h, this.sD⟩
  have hS : ∀ p < M, ∀ i j, (X.cS p).Has i j → P (u (p + 1) i - u p j) (V.s X p i j) := by
    intro p hp i j h
    obtain ⟨i1, i2⟩ := hin p (by omega)
    have hc := hX.hS p (by omega)
    exact (methodRow_graded hP (hV.inner p (by omega)) (hreg (p + 1) hp) (hX.lowD p (by omega)) (hX.lowD (p + 1) hp)
      i1 (fun i j h => i2 j (hc.cols ▸ hc.good.col_lt h)) (hI.b p (by omega)) (hI.a (p + 1) hp)
      (hI.aD (p + 1) hp)).s21 i j (hc.rows ▸ hc.good.row_lt h) h
  obtain ⟨x, e, eD, x0, e0, eD0, hQ, hlast⟩ := hV.outer
  have hout : ∀ p ≤ M, (∀ i j, (X.cO p).Has i j → P (c + v i + u p j) (x p i j)) ∧
      (∀ i j, X.cE.Has i j → P (c + v i + v j) (e p i j)) ∧ (∀ i < X.nO, P (c + v i + v i) (eD p i)) ∧
      ∀ q < p, ∀ i j, (X.cO q).Has i j → P (v i - u q j) (V.o X q i j) := by
    intro p
    induction p with
    | zero =>
      intro hp
      rw [x0, e0, eD0]
      exact ⟨hI.c 0 hp, hI.h, hI.hD, fun q hq => absurd hq (Nat.not_lt_zero q)⟩
    | succ p ih =>
      intro hp
      obtain ⟨q1, q2, q3, q4⟩ := ih (by omega)
      obtain ⟨i1, i2⟩ := hin p (by omega)
      have hc := hX.hO p (by omega)
      have hc' := hX.hO (p + 1) hp
      obtain ⟨r1, r2, r3, r4⟩ := partialRow_graded hP (hQ p (by omega)).2.2
        (hX.lowD p (by omega)) hX.lowE i1 (hS p (by omega)) (fun i j h => i2 j (hc.cols ▸ hc.good.col_lt h)) q1
        (hI.c (p + 1) hp) q2 q3
      refine ⟨fun i j h => r2 i j (hc'.rows ▸ hc'.good.row_lt h) h,
        fun i j h => r3 i j (hX.hE.rows ▸ hX.hE.good.row_lt h) h, r4, ?_⟩
      intro q hq i j h
      rcases Nat.lt_or_eq_of_le (Nat.le_of_lt_succ hq) with hlt | rfl
      · exact q4 q hlt i j h
      · exact r1 i j (hc.rows ▸ hc.good.row_lt h) h
  obtain ⟨q1, q2, q3, q4⟩ := hout M (Nat.le_refl M)
  obtain ⟨i1, i2⟩ := hin M (Nat.le_refl M)
  have hc := hX.hO M (Nat.le_refl M)
  have := methodRow_graded hP hlast hregO (hX.lowD M (Nat.le_refl M)) hX.lowE i1
    (fun i j h => i2 j (hc.cols ▸ hc.good.col_lt h)) q1 q2 q3
  refine ⟨fun p hp => (hin p hp).1, fun p hp => (hin p hp).2, hS, ?_,
    fun i j h => this.s22 i j (hX.hE.rows ▸ hX.hE.good.row_lt h) h, this.sD⟩
  intro p hp i j h
  rcases Nat.lt_or_eq_of_le hp with hlt | rfl
  · exact q4 p hlt i j h
  · exact this.s21 i j (hc.rows ▸ hc.good.row_lt h) h

end

end Ctldl
