import Verif.Lemmas.Blocks

/-! # Up-looking factorization on values, for arbitrary arithmetic -/

namespace Ctldl

section

variable {K : Type} [Zero K] [Sub K] [Mul K] [Div K]

/-- Loop over the left block of one row. -/
theorem innerLeft_loop {f11 : DiagFactor K} {f21 : SubFactor K} {f22 : DiagFactor K} {n1 n2 : Nat}
    (h11 : DiagOk f11 n1) (h21 : SubOk f21 n2 n1) (h22 : DiagOk f22 n2)
    (c21 : ∀ i j k, f21.sparsity.Has i j → f11.sparsity.Has k j → f21.sparsity.Has i k)
    (c22 : ∀ i j k, f21.sparsity.Has i j → f21.sparsity.Has k j → k < i → f22.sparsity.Has i k)
    {i : Nat} (hi : i < n2) (D : K) :
    Sat ((f21.sparsity.cols i).foldlM
      (fun (st : SubFactor K × DiagFactor K × K) j => do
        let (g21, g22, c) ← factorizeUpLookingInnerLeft (f21.sparsity.idx i j) f11 st.1 st.2.1
        return (g21, g22, st.2.2 - c)) (f21, f22, D))
      (fun st => ∃ L21 L22, st.1 = { f21 with L := L21 } ∧ st.2.1 = { f22 with L := L22 } ∧
        L21.length = f21.sparsity.entries.length ∧ L22.length = f22.sparsity.entries.length ∧
        (∀ a b, a ≠ i → val f21.sparsity L21 a b = f21.l a b) ∧
        (∀ a b, a ≠ i → val f22.sparsity L22 a b = f22.l a b) ∧
        ∃ w : Nat → K,
          (∀ j, f21.sparsity.Has i j →
            w j = subAll ((f21.sparsity.cols i).filter (f11.sparsity.Has j ·)) (fun k => f11.l j k * w k) (f21.l i j)) ∧
          (∀ j, f21.sparsity.Has i j → val f21.sparsity L21 i j = w j / f11.d j) ∧
          (∀ j, f22.sparsity.Has i j → val f22.sparsity L22 i j =
            subAll ((f21.sparsity.cols i).filter (f21.sparsity.Has j ·)) (fun k => f21.l j k * w k) (f22.l i j)) ∧
          st.2.2 = subAll (f21.sparsity.cols i) (fun j => w j * (w j / f11.d j)) D) := by
  let act : Nat → Nat ⊕ Nat := Sum.inl
  let has : Nat ⊕ Nat → Nat → Prop := fun x j =>
    match x with
    | .inl k => f11.sparsity.Has k j
    | .inr k => k < i ∧ f21.sparsity.Has k j
  have hdec : ∀ x j, Decidable (has x j) := fun x j => by
    cases x <;> simp only [has] <;> infer_instance
  let q : Nat ⊕ Nat → Nat → K := fun x j =>
    match x with
    | .inl k => f11.l k j
    | .inr k => f21.l k j
  let v : Nat ⊕ Nat → K := fun x =>
    match x with
    | .inl k => f21.l i k
    | .inr k => f22.l i k
  obtain ⟨w, hw⟩ := sweep_spec (act := act) (has := has) (q := q) (d := f11.d) Sum.inl_injective
    (fun k j h => h11.lower k j h) (f21.sparsity.cols i) (h21.good.cols_sorted i) v D
  refine Sat.mono (foldlM_inv (fun pre st => ∃ L21 L22, st.1 = { f21 with L := L21 } ∧
        st.2.1 = { f22 with L := L22 } ∧
        L21.length = f21.sparsity.entries.length ∧ L22.length = f22.sparsity.entries.length ∧
        (∀ a b, a ≠ i → val f21.sparsity L21 a b = f21.l a b) ∧
        (∀ a b, a ≠ i → val f22.sparsity L22 a b = f22.l a b) ∧
        (∀ k, f21.sparsity.Has i k →
          val f21.sparsity L21 i k = (pre.foldl (sweepStep act has q f11.d) (v, D)).1 (.inl k)) ∧
        (∀ k, f22.sparsity.Has i k →
          val f22.sparsity L22 i k = (pre.foldl (sweepStep act has q f11.d) (v, D)).1 (.inr k)) ∧
        st.2.2 = (pre.foldl (sweepStep act has q f11.d) (v, D)).2)
      ⟨f21.L, f22.L, rfl, rfl, h21.lenL, h22.lenL, fun _ _ _ => rfl, fun _ _ _ => rfl, fun _ _ => rfl,
        fun _ _ => rfl, rfl⟩ ?_) ?_
  · rintro pre j suf ⟨g21, g22, D'⟩ hcols ⟨L21, L22, rfl, rfl, hl21, hl22, hr21, hr22, hv21, hv22, hD⟩
    simp only at hD
    have hj : f21.sparsity.Has i j := Csr.mem_cols.mp (by rw [hcols]; simp)
    have hjn : j < n1 := h21.cols ▸ h21.good.col_lt hj
    rw [List.foldl_append, List.foldl_cons, List.foldl_nil]
    generalize pre.foldl (sweepStep act has q f11.d) (v, D) = s at hv21 hv22 hD ⊢
    have hfill21 : ∀ k < f21.sparsity.numCols, f11.sparsity.Has k j → f21.sparsity.Has i k :=
      fun k _ h => c21 i j k hj h
    have hfill22 : ∀ k < i, f21.sparsity.Has k j → f22.sparsity.Has i k := fun k hk h => c22 i j k hj h hk
    simp only [factorizeUpLookingInnerLeft, getInfluencedList, getInfluencedListLowerTriangle, bind_assoc]
    rw [hj.rd, ok_bind, rd_val hl21 hj, ok_bind]
    simp only
    rw [getInfluencedListLimit_eq h11.good.ok h21.good.ok (by rw [h21.cols, h11.rows]) hfill21, ok_bind]
    refine Sat.bind (applyInfluenced_sat h21.good h11.lenL hl21 hfill21 _) ?_
    rintro L21a ⟨hla, hva⟩
    rw [getInfluencedListLimit_eq h21.good.ok h22.good.ok (by rw [h21.rows]; omega) hfill22, ok_bind]
    refine Sat.bind (applyInfluenced_sat h22.good hla hl22 hfill22 _) ?_
    rintro L22a ⟨hlb, hvb⟩
    rw [rd_getD (by rw [h11.lenD]; exact hjn), ok_bind, wr_val hla hj, ok_bind, pure_eq_ok, ok_bind]
    refine Sat.pure ⟨_, _, rfl, rfl, by simpa using hla, hlb, ?_, ?_, ?_, ?_, ?_⟩
    · intro a b ha
      rw [val_set h21.good hla hj, if_neg (by simp [ha]), hva, if_neg (by simp [ha])]
      exact hr21 a b ha
    · intro a b ha
      rw [hvb, if_neg (by simp [ha])]
      exact hr22 a b ha
    · intro k hk
      have hkn : k < f21.sparsity.numCols := h21.good.col_lt hk
      rw [val_set h21.good hla hj]
      simp only [sweepStep, act, Sum.inl.injEq]
      by_cases hkj : k = j
      · subst hkj
        rw [if_pos (by simp), if_pos rfl, hv21 k hk]
      · rw [if_neg (by simp [hkj]), if_neg hkj, hva, hv21 k hk, hv21 j hj]
        by_cases hh : f11.sparsity.Has k j
        · rw [if_pos (by simp [hkn, hh]), if_pos (show has (.inl k) j from hh)]
        · rw [if_neg (by simp [hh]), if_neg (show ¬ has (.inl k) j from hh)]
    · intro k hk
      have hki := h22.lower i k hk
      rw [hvb, hv22 k hk, hv21 j hj]
      simp only [sweepStep, act, reduceCtorEq, if_false]
      by_cases hh : f21.sparsity.Has k j
      · rw [if_pos (by simp [hki, hh]), if_pos (show has (.inr k) j from ⟨hki, hh⟩), hva,
          if_neg (by rintro ⟨rfl, -⟩; omega), hr21 k j (by omega)]
      · rw [if_neg (by simp [hh]), if_neg (show ¬ has (.inr k) j from fun h => hh h.2)]
    · simp only [sweepStep]
      rw [hv21 j hj, ← hD]
  · rintro ⟨g21, g22, D'⟩ ⟨L21, L22, h1, h2, hl21, hl22, hr21, hr22, hv21, hv22, hD⟩
    refine ⟨L21, L22, h1, h2, hl21, hl22, hr21, hr22, w, ?_, ?_, ?_, ?_⟩
    · intro j hj
      rw [hw.scaled j (Csr.mem_cols.mpr hj)]
      exact congrArg (fun l => subAll l (fun k => f11.l j k * w k) (f21.l i j))
        (List.filter_congr fun x _ => decide_eq_decide.mpr Iff.rfl)
    · intro j hj
      rw [hv21 j hj]
      exact hw.done j (Csr.mem_cols.mpr hj)
    · intro j hj
      rw [hv22 j hj, hw.rest (.inr j) (by simp [act])]
      have hji := h22.lower i j hj
      exact congrArg (fun l => subAll l (fun k => f21.l j k * w k) (f22.l i j))
        (List.filter_congr fun x _ => decide_eq_decide.mpr ⟨fun h => h.2, fun h => ⟨hji, h⟩⟩)
    · rw [hD]
      exact hw.diag

/-- Loop over the diagonal block of one row. -/
theorem innerSelf_loop {f : DiagFactor K} {n : Nat} (hf : DiagOk f n)
    (cl : ∀ i j k, f.sparsity.Has i j → f.sparsity.Has k j → k < i → f.sparsity.Has i k)
    {i : Nat} (hi : i < n) (D : K) :
    Sat ((f.sparsity.cols i).foldlM
      (fun (st : DiagFactor K × K) j => do
        let (g, c) ← factorizeUpLookingInnerSelf (f.sparsity.idx i j) st.1
        return (g, st.2 - c)) (f, D))
      (fun st => ∃ L, st.1 = { f with L := L } ∧ L.length = f.sparsity.entries.length ∧
        (∀ a b, a ≠ i → val f.sparsity L a b = f.l a b) ∧
        ∃ w : Nat → K,
          (∀ j, f.sparsity.Has i j →
            w j = subAll ((f.sparsity.cols i).filter (f.sparsity.Has j ·)) (fun k => f.l j k * w k) (f.l i j)) ∧
          (∀ j, f.sparsity.Has i j → val f.sparsity L i j = w j / f.d j) ∧
          st.2 = subAll (f.sparsity.cols i) (fun j => w j * (w j / f.d j)) D) := by
  obtain ⟨w, hw⟩ := sweep_spec (act := id) (has := f.sparsity.Has) (q := f.l) (d := f.d) Function.injective_id
    (fun k j h => hf.lower k j h) (f.sparsity.cols i) (hf.good.cols_sorted i) (f.l i) D
  refine Sat.mono (foldlM_inv (fun pre st => ∃ L, st.1 = { f with L := L } ∧
        L.length = f.sparsity.entries.length ∧ (∀ a b, a ≠ i → val f.sparsity L a b = f.l a b) ∧
        (∀ k, f.sparsity.Has i k →
          val f.sparsity L i k = (pre.foldl (sweepStep id f.sparsity.Has f.l f.d) (f.l i, D)).1 k) ∧
        st.2 = (pre.foldl (sweepStep id f.sparsity.Has f.l f.d) (f.l i, D)).2)
      ⟨f.L, rfl, hf.lenL, fun _ _ _ => rfl, fun _ _ => rfl, rfl⟩ ?_) ?_
  · rintro pre j suf ⟨g, D'⟩ hcols ⟨L, rfl, hl, hr, hv, hD⟩
    simp only at hD
    have hj : f.sparsity.Has i j := Csr.mem_cols.mp (by rw [hcols]; simp)
    have hjn : j < n := hf.cols ▸ hf.good.col_lt hj
    rw [List.foldl_append, List.foldl_cons, List.foldl_nil]
    generalize pre.foldl (sweepStep id f.sparsity.Has f.l f.d) (f.l i, D) = s at hv hD ⊢
    have hfill : ∀ k < i, f.sparsity.Has k j → f.sparsity.Has i k := fun k hk h => cl i j k hj h hk
    simp only [factorizeUpLookingInnerSelf, getInfluencedListLowerTriangle, bind_assoc]
    rw [hj.rd, ok_bind, rd_val hl hj, ok_bind]
    simp only
    rw [getInfluencedListLimit_eq hf.good.ok hf.good.ok (by rw [hf.rows]; omega) hfill, ok_bind]
    refine Sat.bind (applyInfluencedSelf_sat hf.good hl (Nat.le_refl i) hfill _) ?_
    rintro La ⟨hla, hva⟩
    rw [rd_getD (by rw [hf.lenD]; exact hjn), ok_bind, wr_val hla hj, ok_bind, pure_eq_ok, ok_bind]
    refine Sat.pure ⟨_, rfl, by simpa using hla, ?_, ?_, ?_⟩
    · intro a b ha
      rw [val_set hf.good hla hj, if_neg (by simp [ha]), hva, if_neg (by simp [ha])]
      exact hr a b ha
    · intro k hk
      have hki := hf.lower i k hk
      rw [val_set hf.good hla hj]
      simp only [sweepStep, id]
      by_cases hkj : k = j
      · subst hkj
        rw [if_pos (by simp), if_pos rfl, hv k hk]
      · rw [if_neg (by simp [hkj]), if_neg hkj, hva, hv k hk, hv j hj]
        by_cases hh : f.sparsity.Has k j
        · rw [if_pos (by simp [hki, hh]), if_pos hh, hr k j (by omega)]
        · rw [if_neg (by simp [hh]), if_neg hh]
    · simp only [sweepStep, id]
      rw [hv j hj, ← hD]
  · rintro ⟨g, D'⟩ ⟨L, h1, hl, hr, hv, hD⟩
    refine ⟨L, h1, hl, hr, w, ?_, ?_, ?_⟩
    · intro j hj
      rw [hw.scaled j (Csr.mem_cols.mpr hj)]
      rfl
    · intro j hj
      rw [hv j hj]
      exact hw.done j (Csr.mem_cols.mpr hj)
    · rw [hD]
      exact hw.diag

/-- What the up-looking method computes for row `i`; the terms are subtracted in the order of the code. -/
def UpRow (c11 c21 c22 : Csr) (l11 : Nat → Nat → K) (d1 : Nat → K) (a21 a22 : Nat → Nat → K) (aD : Nat → K)
    (reg : K → Nat → K) (l21 l22 : Nat → Nat → K) (d2 : Nat → K) (i : Nat) : Prop :=
  ∃ w1 w2 : Nat → K,
    (∀ j, c21.Has i j → w1 j = subAll ((c21.cols i).filter (c11.Has j ·)) (fun k => l11 j k * w1 k) (a21 i j)) ∧
    (∀ j, c21.Has i j → l21 i j = w1 j / d1 j) ∧
    (∀ j, c22.Has i j → w2 j = subAll ((c22.cols i).filter (c22.Has j ·)) (fun k => l22 j k * w2 k)
      (subAll ((c21.cols i).filter (c21.Has j ·)) (fun k => l21 j k * w1 k) (a22 i j))) ∧
    (∀ j, c22.Has i j → l22 i j = w2 j / d2 j) ∧
    d2 i = reg (subAll (c22.cols i) (fun j => w2 j * (w2 j / d2 j))
      (subAll (c21.cols i) (fun j => w1 j * (w1 j / d1 j)) (aD i))) i

theorem UpRow.congr {c11 c21 c22 : Csr} {l11 : Nat → Nat → K} {d1 : Nat → K} {a21 a22 b21 b22 : Nat → Nat → K}
    {aD bD : Nat → K} {reg : K → Nat → K} {l21 l22 m21 m22 : Nat → Nat → K} {d2 e2 : Nat → K} {i : Nat}
    (h : UpRow c11 c21 c22 l11 d1 a21 a22 aD reg l21 l22 d2 i) (hlow : ∀ i j, c22.Has i j → j < i)
    (ha21 : ∀ j, a21 i j = b21 i j) (ha22 : ∀ j, a22 i j = b22 i j) (haD : aD i = bD i)
    (hl21 : ∀ a b, a ≤ i → l21 a b = m21 a b) (hl22 : ∀ a b, a ≤ i → l22 a b = m22 a b)
    (hd2 : ∀ a, a ≤ i → d2 a = e2 a) :
    UpRow c11 c21 c22 l11 d1 b21 b22 bD reg m21 m22 e2 i := by
  obtain ⟨w1, w2, h1, h2, h3, h4, h5⟩ := h
  refine ⟨w1, w2, ?_, ?_, ?_, ?_, ?_⟩
  · intro j hj
    rw [← ha21]
    exact h1 j hj
  · intro j hj
    rw [← hl21 _ _ (Nat.le_refl i)]
    exact h2 j hj
  · intro j hj
    have := hlow i j hj
    have e1 : (fun k => m21 j k * w1 k) = (fun k => l21 j k * w1 k) := by
      funext k
      rw [hl21 j k (by omega)]
    have e2 : (fun k => m22 j k * w2 k) = (fun k => l22 j k * w2 k) := by
      funext k
      rw [hl22 j k (by omega)]
    rw [e1, e2, ← ha22]
    exact h3 j hj
  · intro j hj
    have := hlow i j hj
    rw [← hl22 _ _ (Nat.le_refl i), ← hd2 j (by omega)]
    exact h4 j hj
  · rw [← hd2 i (Nat.le_refl i), ← haD, h5]
    congr 1
    apply subAll_congr
    intro j hj
    have := hlow i j (Csr.mem_cols.mp hj)
    rw [hd2 j (by omega)]

/-- Initial values used by a factorization of the blocks `f21`, `f22`. -/
def a21Of (init21 : Init K) (f21 : SubFactor K) : Nat → Nat → K :=
  initVal init21 (origSub f21.permutationRow f21.permutationCol) f21.l

/-- Initial values used by a factorization of the blocks `f21`, `f22`. -/
def a22Of (init22 : Init K) (f22 : DiagFactor K) : Nat → Nat → K :=
  initVal init22 (origDiag f22.permutation) f22.l

/-- Initial values used by a factorization of the blocks `f21`, `f22`. -/
def aDOf (init22 : Init K) (f22 : DiagFactor K) (i : Nat) : K :=
  initVal init22 (origDiag f22.permutation) (fun i _ => f22.d i) i i

theorem initVal_congr {init : Init K} {orig : Nat → Nat → Entry} {v v' : Nat → Nat → K} {i j : Nat}
    (h : v i j = v' i j) : initVal init orig v i j = initVal init orig v' i j := by
  cases init with
  | none r c => exact h
  | matrix m => rfl

/-- Hypotheses on two blocks to be factorized with a left neighbour: well-formed and closed under elimination. -/
structure PairOk (f11 : DiagFactor K) (f21 : SubFactor K) (f22 : DiagFactor K) (n1 n2 : Nat) : Prop where
  h11 : DiagOk f11 n1
  h21 : SubOk f21 n2 n1
  h22 : DiagOk f22 n2
  c21 : ∀ i j k, f21.sparsity.Has i j → f11.sparsity.Has k j → f21.sparsity.Has i k
  c22 : ∀ i j k, f21.sparsity.Has i j → f21.sparsity.Has k j → k < i → f22.sparsity.Has i k
  c22' : ∀ i j k, f22.sparsity.Has i j → f22.sparsity.Has k j → k < i → f22.sparsity.Has i k

theorem PairOk.withL {f11 : DiagFactor K} {f21 : SubFactor K} {f22 : DiagFactor K} {n1 n2 : Nat}
    (h : PairOk f11 f21 f22 n1 n2) {L21 L22 D : List K} (h1 : L21.length = f21.sparsity.entries.length)
    (h2 : L22.length = f22.sparsity.entries.length) (h3 : D.length = n2) :
    PairOk f11 { f21 with L := L21 } { f22 with L := L22, D := D } n1 n2 :=
  ⟨h.h11, h.h21.withL h1, (h.h22.withL h2).withD h3, h.c21, h.c22, h.c22'⟩

theorem upLookingRow_sat {f11 : DiagFactor K} {f21 : SubFactor K} {f22 : DiagFactor K} {n1 n2 : Nat}
    (h : PairOk f11 f21 f22 n1 n2) {init21 init22 : Init K} (hi21 : InitOk init21 f21.sparsity)
    (hi22 : InitOk init22 f22.sparsity) (reg : K → Nat → K) {i : Nat} (hi : i < n2) :
    Sat (factorizeUpLookingImpl f11 init21 init22 reg (f21, f22) i) (fun st => ∃ L21 L22 D,
      st = ({ f21 with L := L21 }, { f22 with L := L22, D := D }) ∧
      L21.length = f21.sparsity.entries.length ∧ L22.length = f22.sparsity.entries.length ∧ D.length = n2 ∧
      (∀ a b, a ≠ i → val f21.sparsity L21 a b = f21.l a b) ∧
      (∀ a b, a ≠ i → val f22.sparsity L22 a b = f22.l a b) ∧ (∀ a, a ≠ i → D.getD a 0 = f22.d a) ∧
      UpRow f11.sparsity f21.sparsity f22.sparsity f11.l f11.d (a21Of init21 f21) (a22Of init22 f22)
        (aDOf init22 f22) reg (val f21.sparsity L21) (val f22.sparsity L22) (fun a => D.getD a 0) i) := by
  have h21 := h.h21
  have h22 := h.h22
  unfold factorizeUpLookingImpl
  simp only
  rw [staticAssert_true (by rw [h21.rows, h22.rows]; simp), ok_bind, getInitialFactorValueD_eq h22 hi22 hi, ok_bind]
  refine Sat.bind (initializeFactorRow_sat (orig := origSub f21.permutationRow f21.permutationCol) h21.good hi21
    h21.lenL (by rw [h21.rows]; exact hi)
    (fun j hj => h21.origEntry hi (h21.cols ▸ h21.good.col_lt hj))) ?_
  rintro L21i ⟨hl21i, hv21i⟩
  refine Sat.bind (initializeFactorRow_sat (orig := origDiag f22.permutation) h22.good hi22 h22.lenL
    (by rw [h22.rows]; exact hi) (fun j hj => h22.origEntry hi (h22.cols ▸ h22.good.col_lt hj))) ?_
  rintro L22i ⟨hl22i, hv22i⟩
  have hr21 : i < f21.sparsity.numRows := by rw [h21.rows]; exact hi
  have hr22 : i < f22.sparsity.numRows := by rw [h22.rows]; exact hi
  rw [h21.good.ok.rd_rowBegin (by omega), ok_bind, h21.good.ok.rd_rowBegin (by omega), ok_bind,
    h21.good.entryRange_row hr21, ok_bind, List.foldlM_map]
  refine Sat.bind (innerLeft_loop h.h11 (h21.withL hl21i) (h22.withL hl22i) h.c21 h.c22 hi _) ?_
  rintro ⟨g21, g22, D1⟩ ⟨L21, L22, rfl, rfl, hl21, hl22, hk21, hk22, w1, hw1, hd1, hp22, hD1⟩
  simp only [SubFactor.l, DiagFactor.l, DiagFactor.d] at hl21 hl22 hk21 hk22 hw1 hd1 hp22 hD1 ⊢
  rw [h22.good.ok.rd_rowBegin (by omega), ok_bind, h22.good.ok.rd_rowBegin (by omega), ok_bind,
    h22.good.entryRange_row hr22, ok_bind, List.foldlM_map]
  refine Sat.bind (innerSelf_loop (h22.withL hl22) h.c22' hi _) ?_
  rintro ⟨g22, D2⟩ ⟨L22b, rfl, hl22b, hk22b, w2, hw2, hd2, hD2⟩
  simp only [SubFactor.l, DiagFactor.l, DiagFactor.d] at hl22b hk22b hw2 hd2 hD2 ⊢
  rw [wr_ok (by rw [h22.lenD]; exact hi), ok_bind]
  have hDlen : i < f22.D.length := by rw [h22.lenD]; exact hi
  refine Sat.pure ⟨L21, L22b, f22.D.set i (reg D2 i), rfl, hl21, hl22b, by simpa using h22.lenD, ?_, ?_, ?_, w1, w2,
    ?_, ?_, ?_, ?_, ?_⟩
  · intro a b ha
    rw [hk21 a b ha, hv21i, if_neg (by simp [ha])]
  · intro a b ha
    rw [hk22b a b ha, hk22 a b ha, hv22i, if_neg (by simp [ha])]
  · intro a ha
    rw [getD_set hDlen, if_neg ha]
  · intro j hj
    rw [hw1 j hj, hv21i, if_pos ⟨rfl, hj⟩]
    rfl
  · exact hd1
  · intro j hj
    have hji := h22.lower i j hj
    have e1 : (fun k => val f21.sparsity L21 j k * w1 k) = (fun k => val f21.sparsity L21i j k * w1 k) := by
      funext k
      rw [hk21 j k (by omega)]
    have e2 : (fun k => val f22.sparsity L22b j k * w2 k) = (fun k => val f22.sparsity L22 j k * w2 k) := by
      funext k
      rw [hk22b j k (by omega)]
    rw [e1, e2, hw2 j hj, hp22 j hj, hv22i i j, if_pos ⟨rfl, hj⟩]
    rfl
  · intro j hj
    have hji := h22.lower i j hj
    beta_reduce
    rw [hd2 j hj, getD_set hDlen, if_neg (by omega)]
  · beta_reduce
    rw [getD_set hDlen, if_pos rfl, hD2, hD1]
    congr 1
    apply subAll_congr
    intro j hj
    have hji := h22.lower i j (Csr.mem_cols.mp hj)
    rw [getD_set hDlen, if_neg (by omega)]

/-- The up-looking factorization of two blocks, without the static assertions. -/
theorem upLooking_loop_sat {f11 : DiagFactor K} {f21 : SubFactor K} {f22 : DiagFactor K} {n1 n2 : Nat}
    (h : PairOk f11 f21 f22 n1 n2) {init21 init22 : Init K} (hi21 : InitOk init21 f21.sparsity)
    (hi22 : InitOk init22 f22.sparsity) (reg : K → Nat → K) :
    Sat ((List.range f22.sparsity.numRows).foldlM (factorizeUpLookingImpl f11 init21 init22 reg) (f21, f22))
      (fun st => ∃ L21 L22 D, st = ({ f21 with L := L21 }, { f22 with L := L22, D := D }) ∧
      L21.length = f21.sparsity.entries.length ∧ L22.length = f22.sparsity.entries.length ∧ D.length = n2 ∧
      ∀ i < n2, UpRow f11.sparsity f21.sparsity f22.sparsity f11.l f11.d (a21Of init21 f21) (a22Of init22 f22)
        (aDOf init22 f22) reg (val f21.sparsity L21) (val f22.sparsity L22) (fun a => D.getD a 0) i) := by
  rw [h.h22.rows]
  refine Sat.mono (foldlM_range_inv (fun i st => ∃ L21 L22 D, st = ({ f21 with L := L21 }, { f22 with L := L22, D := D }) ∧
      L21.length = f21.sparsity.entries.length ∧ L22.length = f22.sparsity.entries.length ∧ D.length = n2 ∧
      (∀ a b, i ≤ a → val f21.sparsity L21 a b = f21.l a b) ∧
      (∀ a b, i ≤ a → val f22.sparsity L22 a b = f22.l a b) ∧ (∀ a, i ≤ a → D.getD a 0 = f22.d a) ∧
      ∀ i' < i, UpRow f11.sparsity f21.sparsity f22.sparsity f11.l f11.d (a21Of init21 f21) (a22Of init22 f22)
        (aDOf init22 f22) reg (val f21.sparsity L21) (val f22.sparsity L22) (fun a => D.getD a 0) i')
    ⟨f21.L, f22.L, f22.D, rfl, h.h21.lenL, h.h22.lenL, h.h22.lenD, fun _ _ _ => rfl, fun _ _ _ => rfl,
      fun _ _ => rfl, fun _ h => by omega⟩ ?_) ?_
  · rintro i st hi ⟨L21, L22, D, rfl, hl21, hl22, hlD, hk21, hk22, hkD, hrows⟩
    refine Sat.mono (upLookingRow_sat (h.withL hl21 hl22 hlD) (init21 := init21) (init22 := init22) hi21 hi22 reg hi) ?_
    rintro st ⟨M21, M22, E, rfl, hm21, hm22, hmE, hj21, hj22, hjE, hrow⟩
    simp only [SubFactor.l, DiagFactor.l, DiagFactor.d] at hm21 hm22 hj21 hj22 hjE hrow
    refine ⟨M21, M22, E, rfl, hm21, hm22, hmE, ?_, ?_, ?_, ?_⟩
    · intro a b ha
      rw [hj21 a b (by omega)]
      exact hk21 a b (by omega)
    · intro a b ha
      rw [hj22 a b (by omega)]
      exact hk22 a b (by omega)
    · intro a ha
      rw [hjE a (by omega)]
      exact hkD a (by omega)
    · intro i' hi'
      rcases Nat.lt_or_eq_of_le (Nat.le_of_lt_succ hi') with hlt | rfl
      · refine (hrows i' hlt).congr h.h22.lower (fun _ => rfl) (fun _ => rfl) rfl ?_ ?_ ?_
        · intro a b ha
          exact (hj21 a b (by omega)).symm
        · intro a b ha
          exact (hj22 a b (by omega)).symm
        · intro a ha
          exact (hjE a (by omega)).symm
      · refine hrow.congr h.h22.lower ?_ ?_ ?_ (fun _ _ _ => rfl) (fun _ _ _ => rfl) (fun _ _ => rfl)
        · intro j
          exact initVal_congr (hk21 i' j (Nat.le_refl _))
        · intro j
          exact initVal_congr (hk22 i' j (Nat.le_refl _))
        · exact initVal_congr (hkD i' (Nat.le_refl _))
  · rintro st ⟨L21, L22, D, rfl, hl21, hl22, hlD, -, -, -, hrows⟩
    exact ⟨L21, L22, D, rfl, hl21, hl22, hlD, hrows⟩

end

end Ctldl
