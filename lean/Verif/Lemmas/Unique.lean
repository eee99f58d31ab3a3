import Verif.Lemmas.Static

/-! # The computed values are determined by the inputs, for any arithmetic -/

namespace Ctldl

section

variable {K : Type} [Zero K] [Sub K] [Mul K] [Div K]

/-- The inputs and outputs of the rows agree where they matter. -/
structure SameOn (c21 c22 : Csr) (n : Nat) (l21 l22 m21 m22 : Nat → Nat → K) (d2 e2 : Nat → K) : Prop where
  s21 : ∀ i j, i < n → c21.Has i j → l21 i j = m21 i j
  s22 : ∀ i j, i < n → c22.Has i j → l22 i j = m22 i j
  sD : ∀ i, i < n → d2 i = e2 i

theorem upRow_unique {c11 c21 c22 : Csr} {n2 : Nat}
    {l11 m11 : Nat → Nat → K} {d1 e1 : Nat → K} {a21 a22 b21 b22 : Nat → Nat → K}
    {aD bD : Nat → K} {reg : K → Nat → K} {l21 l22 m21 m22 : Nat → Nat → K} {d2 e2 : Nat → K}
    (h : ∀ i < n2, UpRow c11 c21 c22 l11 d1 a21 a22 aD reg l21 l22 d2 i)
    (h' : ∀ i < n2, UpRow c11 c21 c22 m11 e1 b21 b22 bD reg m21 m22 e2 i)
    (low11 : ∀ i j, c11.Has i j → j < i) (low22 : ∀ i j, c22.Has i j → j < i)
    (h11 : ∀ i j, c11.Has i j → l11 i j = m11 i j) (hd1 : ∀ i j, c21.Has i j → d1 j = e1 j)
    (ha21 : ∀ i j, c21.Has i j → a21 i j = b21 i j) (ha22 : ∀ i j, c22.Has i j → a22 i j = b22 i j)
    (haD : ∀ i < n2, aD i = bD i) : SameOn c21 c22 n2 l21 l22 m21 m22 d2 e2 := by
  suffices hs : ∀ i, i < n2 → (∀ j, c21.Has i j → l21 i j = m21 i j) ∧
      (∀ j, c22.Has i j → l22 i j = m22 i j) ∧ d2 i = e2 i from
    ⟨fun i j hi hj => (hs i hi).1 j hj, fun i j hi hj => (hs i hi).2.1 j hj, fun i hi => (hs i hi).2.2⟩
  intro i
  induction i using Nat.strong_induction_on with
  | _ i ih =>
    intro hi
    obtain ⟨w1, w2, h1, h2, h3, h4, h5⟩ := h i hi
    obtain ⟨x1, x2, g1, g2, g3, g4, g5⟩ := h' i hi
    have e1 : ∀ j, c21.Has i j → w1 j = x1 j := by
      intro j
      induction j using Nat.strong_induction_on with
      | _ j ihj =>
        intro hj
        rw [h1 j hj, g1 j hj, ha21 i j hj]
        apply subAll_congr
        intro k hk
        rw [List.mem_filter, Csr.mem_cols] at hk
        have hk' : c11.Has j k := by simpa using hk.2
        rw [h11 j k hk', ihj k (low11 _ _ hk') hk.1]
    have e1' : ∀ j, c21.Has i j → l21 i j = m21 i j := fun j hj => by
      rw [h2 j hj, g2 j hj, e1 j hj, hd1 i j hj]
    have e2' : ∀ j, c22.Has i j → w2 j = x2 j := by
      intro j
      induction j using Nat.strong_induction_on with
      | _ j ihj =>
        intro hj
        have hji := low22 i j hj
        rw [h3 j hj, g3 j hj, ha22 i j hj]
        rw [subAll_congr (f := fun k => l21 j k * w1 k) (g := fun k => m21 j k * x1 k)]
        · apply subAll_congr
          intro k hk
          rw [List.mem_filter, Csr.mem_cols] at hk
          have hk' : c22.Has j k := by simpa using hk.2
          rw [(ih j hji (by omega)).2.1 k hk', ihj k (low22 _ _ hk') hk.1]
        · intro k hk
          rw [List.mem_filter, Csr.mem_cols] at hk
          have hk' : c21.Has j k := by simpa using hk.2
          rw [(ih j hji (by omega)).1 k hk', e1 k hk.1]
    refine ⟨e1', fun j hj => ?_, ?_⟩
    · have hji := low22 i j hj
      rw [h4 j hj, g4 j hj, e2' j hj, (ih j hji (by omega)).2.2]
    · rw [h5, g5, haD i hi]
      congr 1
      rw [subAll_congr (f := fun j => w1 j * (w1 j / d1 j)) (g := fun j => x1 j * (x1 j / _))]
      · apply subAll_congr
        intro j hj
        have hj' := Csr.mem_cols.mp hj
        have hji := low22 i j hj'
        rw [e2' j hj', (ih j hji (by omega)).2.2]
      · intro j hj
        have hj' := Csr.mem_cols.mp hj
        rw [e1 j hj', hd1 i j hj']

theorem entryRow_unique {c11 c21 c22 : Csr} {n2 : Nat}
    {l11 m11 : Nat → Nat → K} {d1 e1 : Nat → K} {a21 a22 b21 b22 : Nat → Nat → K}
    {aD bD : Nat → K} {reg : K → Nat → K} {l21 l22 m21 m22 : Nat → Nat → K} {d2 e2 : Nat → K}
    (h : ∀ i < n2, EntryRow c11 c21 c22 l11 d1 a21 a22 aD reg l21 l22 d2 i)
    (h' : ∀ i < n2, EntryRow c11 c21 c22 m11 e1 b21 b22 bD reg m21 m22 e2 i)
    (low11 : ∀ i j, c11.Has i j → j < i) (low22 : ∀ i j, c22.Has i j → j < i)
    (h11 : ∀ i j, c11.Has i j → l11 i j = m11 i j) (hd1 : ∀ i j, c21.Has i j → d1 j = e1 j)
    (ha21 : ∀ i j, c21.Has i j → a21 i j = b21 i j) (ha22 : ∀ i j, c22.Has i j → a22 i j = b22 i j)
    (haD : ∀ i < n2, aD i = bD i) : SameOn c21 c22 n2 l21 l22 m21 m22 d2 e2 := by
  suffices hs : ∀ i, i < n2 → (∀ j, c21.Has i j → l21 i j = m21 i j) ∧
      (∀ j, c22.Has i j → l22 i j = m22 i j) ∧ d2 i = e2 i from
    ⟨fun i j hi hj => (hs i hi).1 j hj, fun i j hi hj => (hs i hi).2.1 j hj, fun i hi => (hs i hi).2.2⟩
  intro i
  induction i using Nat.strong_induction_on with
  | _ i ih =>
    intro hi
    obtain ⟨h1, h2, h3⟩ := h i hi
    obtain ⟨g1, g2, g3⟩ := h' i hi
    unfold EntrySub at h1 g1
    unfold EntryDiag at h2 g2
    have e1 : ∀ j, c21.Has i j → l21 i j = m21 i j := by
      intro j
      induction j using Nat.strong_induction_on with
      | _ j ihj =>
        intro hj
        rw [h1 j hj, g1 j hj, ha21 i j hj, hd1 i j hj]
        congr 1
        apply subAll_congr
        intro k hk
        rw [List.mem_filter, Csr.mem_cols] at hk
        have hk' : c11.Has j k := by simpa using hk.2
        rw [h11 j k hk', ihj k (low11 _ _ hk') hk.1, hd1 i k hk.1]
    have e2' : ∀ j, c22.Has i j → l22 i j = m22 i j := by
      intro j
      induction j using Nat.strong_induction_on with
      | _ j ihj =>
        intro hj
        have hji := low22 i j hj
        rw [h2 j hj, g2 j hj, ha22 i j hj, (ih j hji (by omega)).2.2]
        congr 1
        rw [subAll_congr (f := fun k => l21 i k * l21 j k * d1 k) (g := fun k => m21 i k * m21 j k * _)]
        · apply subAll_congr
          intro k hk
          rw [List.mem_filter, Csr.mem_cols] at hk
          have hk' : c22.Has j k := by simpa using hk.2
          have := low22 j k hk'
          rw [(ih j hji (by omega)).2.1 k hk', ihj k (low22 _ _ hk') hk.1, (ih k (by omega) (by omega)).2.2]
        · intro k hk
          rw [List.mem_filter, Csr.mem_cols] at hk
          have hk' : c21.Has j k := by simpa using hk.2
          rw [(ih j hji (by omega)).1 k hk', e1 k hk.1, hd1 i k hk.1]
    refine ⟨e1, e2', ?_⟩
    rw [h3, g3, haD i hi]
    congr 1
    rw [subAll_congr (f := fun j => l21 i j * l21 i j * d1 j) (g := fun j => m21 i j * m21 i j * _)]
    · apply subAll_congr
      intro j hj
      have hj' := Csr.mem_cols.mp hj
      have hji := low22 i j hj'
      rw [e2' j hj', (ih j hji (by omega)).2.2]
    · intro j hj
      have hj' := Csr.mem_cols.mp hj
      rw [e1 j hj', hd1 i j hj']

theorem methodRow_unique {method : Method} {c11 c21 c22 : Csr} {n2 : Nat}
    {l11 m11 : Nat → Nat → K} {d1 e1 : Nat → K} {a21 a22 b21 b22 : Nat → Nat → K}
    {aD bD : Nat → K} {reg : K → Nat → K} {l21 l22 m21 m22 : Nat → Nat → K} {d2 e2 : Nat → K}
    (h : ∀ i < n2, MethodRow method c11 c21 c22 l11 d1 a21 a22 aD reg l21 l22 d2 i)
    (h' : ∀ i < n2, MethodRow method c11 c21 c22 m11 e1 b21 b22 bD reg m21 m22 e2 i)
    (low11 : ∀ i j, c11.Has i j → j < i) (low22 : ∀ i j, c22.Has i j → j < i)
    (h11 : ∀ i j, c11.Has i j → l11 i j = m11 i j) (hd1 : ∀ i j, c21.Has i j → d1 j = e1 j)
    (ha21 : ∀ i j, c21.Has i j → a21 i j = b21 i j) (ha22 : ∀ i j, c22.Has i j → a22 i j = b22 i j)
    (haD : ∀ i < n2, aD i = bD i) : SameOn c21 c22 n2 l21 l22 m21 m22 d2 e2 := by
  cases method with
  | upLooking => exact upRow_unique h h' low11 low22 h11 hd1 ha21 ha22 haD
  | entryWise => exact entryRow_unique h h' low11 low22 h11 hd1 ha21 ha22 haD

/-- Lists of the same length with the same elements (as functions) are equal. -/
theorem list_ext_getD {D E : List K} {n : Nat} (hD : D.length = n) (hE : E.length = n)
    (h : ∀ i < n, D.getD i 0 = E.getD i 0) : D = E := by
  apply List.ext_getElem (by omega)
  intro i h1 h2
  have := h i (by omega)
  rw [List.getD_eq_getElem?_getD, List.getD_eq_getElem?_getD, List.getElem?_eq_getElem h1,
    List.getElem?_eq_getElem h2] at this
  simpa using this

/-- Two factorizations of blocks with the same patterns and the same initial values give the same values. -/
theorem factorizeBlocks_det {f11 : DiagFactor K} {f21 g21 : SubFactor K} {f22 g22 : DiagFactor K} {n1 n2 : Nat}
    (h11 : DiagOk f11 n1) (h21 : SubOk f21 n2 n1) (h22 : DiagOk f22 n2) (hp : PermsOk f21 f22 n1 n2)
    {init21 init22 init21' init22' : Init K} (hd21 : InitDims init21 n2 n1) (hd22 : InitDims init22 n2 n2)
    (hi21 : InitOk init21 f21.sparsity) (hi22 : InitOk init22 f22.sparsity)
    (hd21' : InitDims init21' n2 n1) (hd22' : InitDims init22' n2 n2)
    (hi21' : InitOk init21' f21.sparsity) (hi22' : InitOk init22' f22.sparsity)
    (hcl : Closed2 f11.sparsity.Has f21.sparsity.Has f22.sparsity.Has) (hsub : InitSubset init21 init22 f21 f22)
    (hsub' : InitSubset init21' init22' f21 f22)
    (reg : K → Nat → K) (method : Method)
    (hg21 : ∃ L, g21 = { f21 with L := L } ∧ L.length = f21.sparsity.entries.length)
    (hg22 : ∃ L D, g22 = { f22 with L := L, D := D } ∧ L.length = f22.sparsity.entries.length ∧ D.length = n2)
    (ha21 : ∀ i j, f21.sparsity.Has i j → a21Of init21 f21 i j = a21Of init21' g21 i j)
    (ha22 : ∀ i j, f22.sparsity.Has i j → a22Of init22 f22 i j = a22Of init22' g22 i j)
    (haD : ∀ i < n2, aDOf init22 f22 i = aDOf init22' g22 i) :
    factorizeBlocks f11 init21 init22 f21 f22 reg method =
      factorizeBlocks f11 init21' init22' g21 g22 reg method := by
  obtain ⟨M21, rfl, hM21⟩ := hg21
  obtain ⟨M22, E, rfl, hM22, hE⟩ := hg22
  obtain ⟨st, e1, L21, L22, D, rfl, hl21, hl22, hlD, hrows⟩ :=
    factorizeBlocks_sat h11 h21 h22 hp hd21 hd22 hi21 hi22 hcl hsub reg method
  obtain ⟨st', e2, L21', L22', D', rfl, hl21', hl22', hlD', hrows'⟩ :=
    factorizeBlocks_sat h11 (h21.withL hM21) ((h22.withL hM22).withD hE) ⟨hp.p22, hp.prow, hp.pcol, hp.bound⟩
      hd21' hd22' hi21' hi22' hcl hsub' reg method
  simp only at hl21' hl22' hrows'
  have hs := methodRow_unique hrows hrows' h11.lower h22.lower (fun _ _ _ => rfl) (fun _ _ _ => rfl) ha21 ha22 haD
  have q1 : L21 = L21' := val_ext h21.good hl21 hl21' fun i j hij =>
    hs.s21 i j (h21.rows ▸ h21.good.row_lt hij) hij
  have q2 : L22 = L22' := val_ext h22.good hl22 hl22' fun i j hij =>
    hs.s22 i j (h22.rows ▸ h22.good.row_lt hij) hij
  have q3 : D = D' := list_ext_getD hlD hlD' hs.sD
  rw [e1, e2, q1, q2, q3]

end

end Ctldl
