import Verif.Lemmas.UpLooking

/-! # Partial up-looking factorization of the outer blocks on values, for arbitrary arithmetic -/

namespace Ctldl

section

variable {K : Type} [Zero K] [Sub K] [Mul K] [Div K]

/-- Hypotheses on the blocks of a partial factorization: well-formed and closed under the elimination of the first
block column. -/
structure TripleOk (f11 : DiagFactor K) (f21 f31 f32 : SubFactor K) (f33 : DiagFactor K) (n1 n2 n3 : Nat) :
    Prop where
  h11 : DiagOk f11 n1
  h21 : SubOk f21 n2 n1
  h31 : SubOk f31 n3 n1
  h32 : SubOk f32 n3 n2
  h33 : DiagOk f33 n3
  c31 : ∀ i j k, f31.sparsity.Has i j → f11.sparsity.Has k j → f31.sparsity.Has i k
  c32 : ∀ i j k, f31.sparsity.Has i j → f21.sparsity.Has k j → f32.sparsity.Has i k
  c33 : ∀ i j k, f31.sparsity.Has i j → f31.sparsity.Has k j → k < i → f33.sparsity.Has i k

theorem TripleOk.withL {f11 : DiagFactor K} {f21 f31 f32 : SubFactor K} {f33 : DiagFactor K} {n1 n2 n3 : Nat}
    (h : TripleOk f11 f21 f31 f32 f33 n1 n2 n3) {L31 L32 L33 D : List K}
    (h1 : L31.length = f31.sparsity.entries.length) (h2 : L32.length = f32.sparsity.entries.length)
    (h3 : L33.length = f33.sparsity.entries.length) (h4 : D.length = n3) :
    TripleOk f11 f21 { f31 with L := L31 } { f32 with L := L32 } { f33 with L := L33, D := D } n1 n2 n3 :=
  ⟨h.h11, h.h21, h.h31.withL h1, h.h32.withL h2, (h.h33.withL h3).withD h4, h.c31, h.c32, h.c33⟩

/-- What the partial factorization computes for row `i`; the terms are subtracted in the order of the code. -/
def PartialRow (c11 c21 c31 c32 c33 : Csr) (l11 l21 : Nat → Nat → K) (d1 : Nat → K) (a31 a32 a33 : Nat → Nat → K)
    (aD : Nat → K) (l31 l32 l33 : Nat → Nat → K) (d3 : Nat → K) (i : Nat) : Prop :=
  ∃ w : Nat → K,
    (∀ j, c31.Has i j → w j = subAll ((c31.cols i).filter (c11.Has j ·)) (fun k => l11 j k * w k) (a31 i j)) ∧
    (∀ j, c31.Has i j → l31 i j = w j / d1 j) ∧
    (∀ j, c32.Has i j → l32 i j = subAll ((c31.cols i).filter (c21.Has j ·)) (fun k => l21 j k * w k) (a32 i j)) ∧
    (∀ j, c33.Has i j → l33 i j = subAll ((c31.cols i).filter (c31.Has j ·)) (fun k => l31 j k * w k) (a33 i j)) ∧
    d3 i = subAll (c31.cols i) (fun j => w j * (w j / d1 j)) (aD i)

theorem PartialRow.congr {c11 c21 c31 c32 c33 : Csr} {l11 l21 : Nat → Nat → K} {d1 : Nat → K}
    {a31 a32 a33 b31 b32 b33 : Nat → Nat → K} {aD bD : Nat → K} {l31 l32 l33 m31 m32 m33 : Nat → Nat → K}
    {d3 e3 : Nat → K} {i : Nat}
    (h : PartialRow c11 c21 c31 c32 c33 l11 l21 d1 a31 a32 a33 aD l31 l32 l33 d3 i)
    (hlow : ∀ i j, c33.Has i j → j < i)
    (ha31 : ∀ j, a31 i j = b31 i j) (ha32 : ∀ j, a32 i j = b32 i j) (ha33 : ∀ j, a33 i j = b33 i j)
    (haD : aD i = bD i) (hl31 : ∀ a b, a ≤ i → l31 a b = m31 a b) (hl32 : ∀ b, l32 i b = m32 i b)
    (hl33 : ∀ b, l33 i b = m33 i b) (hd3 : d3 i = e3 i) :
    PartialRow c11 c21 c31 c32 c33 l11 l21 d1 b31 b32 b33 bD m31 m32 m33 e3 i := by
  obtain ⟨w, h1, h2, h3, h4, h5⟩ := h
  refine ⟨w, ?_, ?_, ?_, ?_, ?_⟩
  · intro j hj
    rw [← ha31]
    exact h1 j hj
  · intro j hj
    rw [← hl31 _ _ (Nat.le_refl i)]
    exact h2 j hj
  · intro j hj
    rw [← hl32, ← ha32]
    exact h3 j hj
  · intro j hj
    have := hlow i j hj
    have e1 : (fun k => m31 j k * w k) = (fun k => l31 j k * w k) := by
      funext k
      rw [hl31 j k (by omega)]
    rw [e1, ← hl33, ← ha33]
    exact h4 j hj
  · rw [← hd3, ← haD]
    exact h5

/-- Loop over the first block of one row. -/
theorem innerLeft3_loop {f11 : DiagFactor K} {f21 f31 f32 : SubFactor K} {f33 : DiagFactor K} {n1 n2 n3 : Nat}
    (h : TripleOk f11 f21 f31 f32 f33 n1 n2 n3) {i : Nat} (hi : i < n3) (D : K) :
    Sat ((f31.sparsity.cols i).foldlM
      (fun (st : SubFactor K × SubFactor K × DiagFactor K × K) j => do
        let (g31, g32, g33, c) ← factorizeUpLookingInnerLeft3 (f31.sparsity.idx i j) f11 f21 st.1 st.2.1 st.2.2.1
        return (g31, g32, g33, st.2.2.2 - c)) (f31, f32, f33, D))
      (fun st => ∃ L31 L32 L33, st.1 = { f31 with L := L31 } ∧ st.2.1 = { f32 with L := L32 } ∧
        st.2.2.1 = { f33 with L := L33 } ∧
        L31.length = f31.sparsity.entries.length ∧ L32.length = f32.sparsity.entries.length ∧
        L33.length = f33.sparsity.entries.length ∧
        (∀ a b, a ≠ i → val f31.sparsity L31 a b = f31.l a b) ∧
        (∀ a b, a ≠ i → val f32.sparsity L32 a b = f32.l a b) ∧
        (∀ a b, a ≠ i → val f33.sparsity L33 a b = f33.l a b) ∧
        ∃ w : Nat → K,
          (∀ j, f31.sparsity.Has i j →
            w j = subAll ((f31.sparsity.cols i).filter (f11.sparsity.Has j ·)) (fun k => f11.l j k * w k) (f31.l i j)) ∧
          (∀ j, f31.sparsity.Has i j → val f31.sparsity L31 i j = w j / f11.d j) ∧
          (∀ j, f32.sparsity.Has i j → val f32.sparsity L32 i j =
            subAll ((f31.sparsity.cols i).filter (f21.sparsity.Has j ·)) (fun k => f21.l j k * w k) (f32.l i j)) ∧
          (∀ j, f33.sparsity.Has i j → val f33.sparsity L33 i j =
            subAll ((f31.sparsity.cols i).filter (f31.sparsity.Has j ·)) (fun k => f31.l j k * w k) (f33.l i j)) ∧
          st.2.2.2 = subAll (f31.sparsity.cols i) (fun j => w j * (w j / f11.d j)) D) := by
  obtain ⟨h11, h21, h31, h32, h33, c31, c32, c33⟩ := h
  let act : Nat → Nat ⊕ (Nat ⊕ Nat) := Sum.inl
  let has : Nat ⊕ (Nat ⊕ Nat) → Nat → Prop := fun x j =>
    match x with
    | .inl k => f11.sparsity.Has k j
    | .inr (.inl k) => f21.sparsity.Has k j
    | .inr (.inr k) => k < i ∧ f31.sparsity.Has k j
  have hdec : ∀ x j, Decidable (has x j) := fun x j => by
    rcases x with x | x | x <;> simp only [has] <;> infer_instance
  let q : Nat ⊕ (Nat ⊕ Nat) → Nat → K := fun x j =>
    match x with
    | .inl k => f11.l k j
    | .inr (.inl k) => f21.l k j
    | .inr (.inr k) => f31.l k j
  let v : Nat ⊕ (Nat ⊕ Nat) → K := fun x =>
    match x with
    | .inl k => f31.l i k
    | .inr (.inl k) => f32.l i k
    | .inr (.inr k) => f33.l i k
  obtain ⟨w, hw⟩ := sweep_spec (act := act) (has := has) (q := q) (d := f11.d) Sum.inl_injective
    (fun k j h => h11.lower k j h) (f31.sparsity.cols i) (h31.good.cols_sorted i) v D
  refine Sat.mono (foldlM_inv (fun pre st => ∃ L31 L32 L33, st.1 = { f31 with L := L31 } ∧
        st.2.1 = { f32 with L := L32 } ∧ st.2.2.1 = { f33 with L := L33 } ∧
        L31.length = f31.sparsity.entries.length ∧ L32.length = f32.sparsity.entries.length ∧
        L33.length = f33.sparsity.entries.length ∧
        (∀ a b, a ≠ i → val f31.sparsity L31 a b = f31.l a b) ∧
        (∀ a b, a ≠ i → val f32.sparsity L32 a b = f32.l a b) ∧
        (∀ a b, a ≠ i → val f33.sparsity L33 a b = f33.l a b) ∧
        (∀ k, f31.sparsity.Has i k →
          val f31.sparsity L31 i k = (pre.foldl (sweepStep act has q f11.d) (v, D)).1 (.inl k)) ∧
        (∀ k, f32.sparsity.Has i k →
          val f32.sparsity L32 i k = (pre.foldl (sweepStep act has q f11.d) (v, D)).1 (.inr (.inl k))) ∧
        (∀ k, f33.sparsity.Has i k →
          val f33.sparsity L33 i k = (pre.foldl (sweepStep act has q f11.d) (v, D)).1 (.inr (.inr k))) ∧
        st.2.2.2 = (pre.foldl (sweepStep act has q f11.d) (v, D)).2)
      ⟨f31.L, f32.L, f33.L, rfl, rfl, rfl, h31.lenL, h32.lenL, h33.lenL, fun _ _ _ => rfl, fun _ _ _ => rfl,
        fun _ _ _ => rfl, fun _ _ => rfl, fun _ _ => rfl, fun _ _ => rfl, rfl⟩ ?_) ?_
  · rintro pre j suf ⟨g31, g32, g33, D'⟩ hcols
      ⟨L31, L32, L33, rfl, rfl, rfl, hl31, hl32, hl33, hr31, hr32, hr33, hv31, hv32, hv33, hD⟩
    simp only at hD
    have hj : f31.sparsity.Has i j := Csr.mem_cols.mp (by rw [hcols]; simp)
    have hjn : j < n1 := h31.cols ▸ h31.good.col_lt hj
    rw [List.foldl_append, List.foldl_cons, List.foldl_nil]
    generalize pre.foldl (sweepStep act has q f11.d) (v, D) = s at hv31 hv32 hv33 hD ⊢
    have hfill31 : ∀ k < f31.sparsity.numCols, f11.sparsity.Has k j → f31.sparsity.Has i k :=
      fun k _ h => c31 i j k hj h
    have hfill32 : ∀ k < f32.sparsity.numCols, f21.sparsity.Has k j → f32.sparsity.Has i k :=
      fun k _ h => c32 i j k hj h
    have hfill33 : ∀ k < i, f31.sparsity.Has k j → f33.sparsity.Has i k := fun k hk h => c33 i j k hj h hk
    simp only [factorizeUpLookingInnerLeft3, getInfluencedList, getInfluencedListLowerTriangle, bind_assoc]
    rw [hj.rd, ok_bind, rd_val hl31 hj, ok_bind]
    simp only
    rw [getInfluencedListLimit_eq h11.good.ok h31.good.ok (by rw [h31.cols, h11.rows]) hfill31, ok_bind]
    refine Sat.bind (applyInfluenced_sat h31.good h11.lenL hl31 hfill31 _) ?_
    rintro L31a ⟨hla, hva⟩
    rw [getInfluencedListLimit_eq h21.good.ok h32.good.ok (by rw [h32.cols, h21.rows]) hfill32, ok_bind]
    refine Sat.bind (applyInfluenced_sat h32.good h21.lenL hl32 hfill32 _) ?_
    rintro L32a ⟨hlb, hvb⟩
    rw [getInfluencedListLimit_eq h31.good.ok h33.good.ok (by rw [h31.rows]; omega) hfill33, ok_bind]
    refine Sat.bind (applyInfluenced_sat h33.good hla hl33 hfill33 _) ?_
    rintro L33a ⟨hlc, hvc⟩
    rw [rd_getD (by rw [h11.lenD]; exact hjn), ok_bind, wr_val hla hj, ok_bind, pure_eq_ok, ok_bind]
    refine Sat.pure ⟨_, _, _, rfl, rfl, rfl, by simpa using hla, hlb, hlc, ?_, ?_, ?_, ?_, ?_, ?_, ?_⟩
    · intro a b ha
      rw [val_set h31.good hla hj, if_neg (by simp [ha]), hva, if_neg (by simp [ha])]
      exact hr31 a b ha
    · intro a b ha
      rw [hvb, if_neg (by simp [ha])]
      exact hr32 a b ha
    · intro a b ha
      rw [hvc, if_neg (by simp [ha])]
      exact hr33 a b ha
    · intro k hk
      have hkn : k < f31.sparsity.numCols := h31.good.col_lt hk
      rw [val_set h31.good hla hj]
      simp only [sweepStep, act, Sum.inl.injEq]
      by_cases hkj : k = j
      · subst hkj
        rw [if_pos (by simp), if_pos rfl, hv31 k hk]
      · rw [if_neg (by simp [hkj]), if_neg hkj, hva, hv31 k hk, hv31 j hj]
        by_cases hh : f11.sparsity.Has k j
        · rw [if_pos (by simp [hkn, hh]), if_pos (show has (.inl k) j from hh)]
        · rw [if_neg (by simp [hh]), if_neg (show ¬ has (.inl k) j from hh)]
    · intro k hk
      have hkn : k < f32.sparsity.numCols := h32.good.col_lt hk
      rw [hvb, hv32 k hk, hv31 j hj]
      simp only [sweepStep, act, reduceCtorEq, if_false]
      by_cases hh : f21.sparsity.Has k j
      · rw [if_pos (by simp [hkn, hh]), if_pos (show has (.inr (.inl k)) j from hh)]
      · rw [if_neg (by simp [hh]), if_neg (show ¬ has (.inr (.inl k)) j from hh)]
    · intro k hk
      have hki := h33.lower i k hk
      rw [hvc, hv33 k hk, hv31 j hj]
      simp only [sweepStep, act, reduceCtorEq, if_false]
      by_cases hh : f31.sparsity.Has k j
      · rw [if_pos (by simp [hki, hh]), if_pos (show has (.inr (.inr k)) j from ⟨hki, hh⟩), hva,
          if_neg (by rintro ⟨rfl, -⟩; omega), hr31 k j (by omega)]
      · rw [if_neg (by simp [hh]), if_neg (show ¬ has (.inr (.inr k)) j from fun h => hh h.2)]
    · simp only [sweepStep]
      rw [hv31 j hj, ← hD]
  · rintro ⟨g31, g32, g33, D'⟩
      ⟨L31, L32, L33, e1, e2, e3, hl31, hl32, hl33, hr31, hr32, hr33, hv31, hv32, hv33, hD⟩
    refine ⟨L31, L32, L33, e1, e2, e3, hl31, hl32, hl33, hr31, hr32, hr33, w, ?_, ?_, ?_, ?_, ?_⟩
    · intro j hj
      rw [hw.scaled j (Csr.mem_cols.mpr hj)]
      exact congrArg (fun l => subAll l (fun k => f11.l j k * w k) (f31.l i j))
        (List.filter_congr fun x _ => decide_eq_decide.mpr Iff.rfl)
    · intro j hj
      rw [hv31 j hj]
      exact hw.done j (Csr.mem_cols.mpr hj)
    · intro j hj
      rw [hv32 j hj, hw.rest (.inr (.inl j)) (by simp [act])]
      exact congrArg (fun l => subAll l (fun k => f21.l j k * w k) (f32.l i j))
        (List.filter_congr fun x _ => decide_eq_decide.mpr Iff.rfl)
    · intro j hj
      rw [hv33 j hj, hw.rest (.inr (.inr j)) (by simp [act])]
      have hji := h33.lower i j hj
      exact congrArg (fun l => subAll l (fun k => f31.l j k * w k) (f33.l i j))
        (List.filter_congr fun x _ => decide_eq_decide.mpr ⟨fun h => h.2, fun h => ⟨hji, h⟩⟩)
    · rw [hD]
      exact hw.diag

/-- The initial values used by a partial factorization are `a21Of`, `a22Of` and the stored diagonal. -/
theorem partialRow_sat {f11 : DiagFactor K} {f21 f31 f32 : SubFactor K} {f33 : DiagFactor K} {n1 n2 n3 : Nat}
    (h : TripleOk f11 f21 f31 f32 f33 n1 n2 n3) {init31 init32 init33 : Init K} (hi31 : InitOk init31 f31.sparsity)
    (hi32 : InitOk init32 f32.sparsity) (hi33 : InitOk init33 f33.sparsity) {i : Nat} (hi : i < n3) :
    Sat (factorizePartialUpLookingImpl f11 f21 init31 init32 init33 (f31, f32, f33) i) (fun st => ∃ L31 L32 L33 D,
      st = ({ f31 with L := L31 }, { f32 with L := L32 }, { f33 with L := L33, D := D }) ∧
      L31.length = f31.sparsity.entries.length ∧ L32.length = f32.sparsity.entries.length ∧
      L33.length = f33.sparsity.entries.length ∧ D.length = n3 ∧
      (∀ a b, a ≠ i → val f31.sparsity L31 a b = f31.l a b) ∧
      (∀ a b, a ≠ i → val f32.sparsity L32 a b = f32.l a b) ∧
      (∀ a b, a ≠ i → val f33.sparsity L33 a b = f33.l a b) ∧ (∀ a, a ≠ i → D.getD a 0 = f33.d a) ∧
      PartialRow f11.sparsity f21.sparsity f31.sparsity f32.sparsity f33.sparsity f11.l f21.l f11.d
        (a21Of init31 f31) (a21Of init32 f32) (a22Of init33 f33) f33.d (val f31.sparsity L31)
        (val f32.sparsity L32) (val f33.sparsity L33) (fun a => D.getD a 0) i) := by
  have h31 := h.h31
  have h32 := h.h32
  have h33 := h.h33
  unfold factorizePartialUpLookingImpl
  simp only
  refine Sat.bind (initializeFactorRow_sat (orig := origSub f31.permutationRow f31.permutationCol) h31.good hi31
    h31.lenL (by rw [h31.rows]; exact hi)
    (fun j hj => h31.origEntry hi (h31.cols ▸ h31.good.col_lt hj))) ?_
  rintro L31i ⟨hl31i, hv31i⟩
  refine Sat.bind (initializeFactorRow_sat (orig := origSub f32.permutationRow f32.permutationCol) h32.good hi32
    h32.lenL (by rw [h32.rows]; exact hi)
    (fun j hj => h32.origEntry hi (h32.cols ▸ h32.good.col_lt hj))) ?_
  rintro L32i ⟨hl32i, hv32i⟩
  refine Sat.bind (initializeFactorRow_sat (orig := origDiag f33.permutation) h33.good hi33 h33.lenL
    (by rw [h33.rows]; exact hi) (fun j hj => h33.origEntry hi (h33.cols ▸ h33.good.col_lt hj))) ?_
  rintro L33i ⟨hl33i, hv33i⟩
  have hr31 : i < f31.sparsity.numRows := by rw [h31.rows]; exact hi
  rw [rd_getD (by rw [h33.lenD]; exact hi), ok_bind,
    h31.good.ok.rd_rowBegin (by omega), ok_bind, h31.good.ok.rd_rowBegin (by omega), ok_bind,
    h31.good.entryRange_row hr31, ok_bind, List.foldlM_map]
  refine Sat.bind (innerLeft3_loop (h.withL hl31i hl32i hl33i h33.lenD) hi _) ?_
  rintro ⟨g31, g32, g33, D1⟩
    ⟨L31, L32, L33, rfl, rfl, rfl, hl31, hl32, hl33, hk31, hk32, hk33, w, hw, hd, hp32, hp33, hD1⟩
  simp only [SubFactor.l, DiagFactor.l, DiagFactor.d] at hl31 hl32 hl33 hk31 hk32 hk33 hw hd hp32 hp33 hD1 ⊢
  have hDlen : i < f33.D.length := by rw [h33.lenD]; exact hi
  rw [wr_ok hDlen, ok_bind]
  refine Sat.pure ⟨L31, L32, L33, f33.D.set i D1, rfl, hl31, hl32, hl33, by simpa using h33.lenD, ?_, ?_, ?_, ?_, w,
    ?_, hd, ?_, ?_, ?_⟩
  · intro a b ha
    rw [hk31 a b ha, hv31i, if_neg (by simp [ha])]
  · intro a b ha
    rw [hk32 a b ha, hv32i, if_neg (by simp [ha])]
  · intro a b ha
    rw [hk33 a b ha, hv33i, if_neg (by simp [ha])]
  · intro a ha
    rw [getD_set hDlen, if_neg ha]
  · intro j hj
    rw [hw j hj, hv31i, if_pos ⟨rfl, hj⟩]
    rfl
  · intro j hj
    rw [hp32 j hj, hv32i, if_pos ⟨rfl, hj⟩]
    rfl
  · intro j hj
    have hji := h33.lower i j hj
    have e1 : (fun k => val f31.sparsity L31 j k * w k) = (fun k => val f31.sparsity L31i j k * w k) := by
      funext k
      rw [hk31 j k (by omega)]
    rw [e1, hp33 j hj, hv33i i j, if_pos ⟨rfl, hj⟩]
    rfl
  · beta_reduce
    rw [getD_set hDlen, if_pos rfl, hD1]

/-- The partial factorization of the outer blocks. -/
theorem factorizePartial_sat {f11 : DiagFactor K} {f21 f31 f32 : SubFactor K} {f33 : DiagFactor K} {n1 n2 n3 : Nat}
    (h : TripleOk f11 f21 f31 f32 f33 n1 n2 n3) {init31 init32 init33 : Init K} (hi31 : InitOk init31 f31.sparsity)
    (hi32 : InitOk init32 f32.sparsity) (hi33 : InitOk init33 f33.sparsity) :
    Sat (factorizePartialUpLooking f11 f21 init31 init32 init33 f31 f32 f33) (fun st => ∃ L31 L32 L33 D,
      st = ({ f31 with L := L31 }, { f32 with L := L32 }, { f33 with L := L33, D := D }) ∧
      L31.length = f31.sparsity.entries.length ∧ L32.length = f32.sparsity.entries.length ∧
      L33.length = f33.sparsity.entries.length ∧ D.length = n3 ∧
      ∀ i < n3, PartialRow f11.sparsity f21.sparsity f31.sparsity f32.sparsity f33.sparsity f11.l f21.l f11.d
        (a21Of init31 f31) (a21Of init32 f32) (a22Of init33 f33) f33.d (val f31.sparsity L31)
        (val f32.sparsity L32) (val f33.sparsity L33) (fun a => D.getD a 0) i) := by
  unfold factorizePartialUpLooking
  rw [h.h31.rows]
  refine Sat.mono (foldlM_range_inv (fun i st => ∃ L31 L32 L33 D,
      st = ({ f31 with L := L31 }, { f32 with L := L32 }, { f33 with L := L33, D := D }) ∧
      L31.length = f31.sparsity.entries.length ∧ L32.length = f32.sparsity.entries.length ∧
      L33.length = f33.sparsity.entries.length ∧ D.length = n3 ∧
      (∀ a b, i ≤ a → val f31.sparsity L31 a b = f31.l a b) ∧
      (∀ a b, i ≤ a → val f32.sparsity L32 a b = f32.l a b) ∧
      (∀ a b, i ≤ a → val f33.sparsity L33 a b = f33.l a b) ∧ (∀ a, i ≤ a → D.getD a 0 = f33.d a) ∧
      ∀ i' < i, PartialRow f11.sparsity f21.sparsity f31.sparsity f32.sparsity f33.sparsity f11.l f21.l f11.d
        (a21Of init31 f31) (a21Of init32 f32) (a22Of init33 f33) f33.d (val f31.sparsity L31)
        (val f32.sparsity L32) (val f33.sparsity L33) (fun a => D.getD a 0) i')
    ⟨f31.L, f32.L, f33.L, f33.D, rfl, h.h31.lenL, h.h32.lenL, h.h33.lenL, h.h33.lenD, fun _ _ _ => rfl,
      fun _ _ _ => rfl, fun _ _ _ => rfl, fun _ _ => rfl, fun _ h => by omega⟩ ?_) ?_
  · rintro i st hi ⟨L31, L32, L33, D, rfl, hl31, hl32, hl33, hlD, hk31, hk32, hk33, hkD, hrows⟩
    refine Sat.mono (partialRow_sat (h.withL hl31 hl32 hl33 hlD) (init31 := init31) (init32 := init32)
      (init33 := init33) hi31 hi32 hi33 hi) ?_
    rintro st ⟨M31, M32, M33, E, rfl, hm31, hm32, hm33, hmE, hj31, hj32, hj33, hjE, hrow⟩
    simp only [SubFactor.l, DiagFactor.l, DiagFactor.d] at hm31 hm32 hm33 hj31 hj32 hj33 hjE hrow
    refine ⟨M31, M32, M33, E, rfl, hm31, hm32, hm33, hmE, ?_, ?_, ?_, ?_, ?_⟩
    · intro a b ha
      rw [hj31 a b (by omega)]
      exact hk31 a b (by omega)
    · intro a b ha
      rw [hj32 a b (by omega)]
      exact hk32 a b (by omega)
    · intro a b ha
      rw [hj33 a b (by omega)]
      exact hk33 a b (by omega)
    · intro a ha
      rw [hjE a (by omega)]
      exact hkD a (by omega)
    · intro i' hi'
      rcases Nat.lt_or_eq_of_le (Nat.le_of_lt_succ hi') with hlt | rfl
      · refine (hrows i' hlt).congr h.h33.lower (fun _ => rfl) (fun _ => rfl) (fun _ => rfl) rfl ?_ ?_ ?_ ?_
        · intro a b ha
          exact (hj31 a b (by omega)).symm
        · intro b
          exact (hj32 i' b (by omega)).symm
        · intro b
          exact (hj33 i' b (by omega)).symm
        · exact (hjE i' (by omega)).symm
      · refine hrow.congr h.h33.lower ?_ ?_ ?_ ?_ (fun _ _ _ => rfl) (fun _ => rfl) (fun _ => rfl) rfl
        · intro j
          exact initVal_congr (hk31 i' j (Nat.le_refl _))
        · intro j
          exact initVal_congr (hk32 i' j (Nat.le_refl _))
        · intro j
          exact initVal_congr (hk33 i' j (Nat.le_refl _))
        · exact hkD i' (Nat.le_refl _)
  · rintro st ⟨L31, L32, L33, D, rfl, hl31, hl32, hl33, hlD, -, -, -, -, hrows⟩
    exact ⟨L31, L32, L33, D, rfl, hl31, hl32, hl33, hlD, hrows⟩

end

end Ctldl
