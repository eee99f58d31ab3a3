import Verif.Lemmas.UpLooking

/-! # Entry-wise factorization on values, for arbitrary arithmetic -/

namespace Ctldl

/-- Strictly sorted lists with the same elements are equal. -/
theorem eq_of_sorted_of_mem {α : Type _} {f : α → Nat} {l l' : List α} (h : l.Pairwise (fun a b => f a < f b))
    (h' : l'.Pairwise (fun a b => f a < f b)) (hm : ∀ a, a ∈ l ↔ a ∈ l') : l = l' := by
  induction l generalizing l' with
  | nil =>
    cases l' with
    | nil => rfl
    | cons b t => exact absurd ((hm b).mpr (by simp)) (by simp)
  | cons a s ih =>
    cases l' with
    | nil => exact absurd ((hm a).mp (by simp)) (by simp)
    | cons b t =>
      rw [List.pairwise_cons] at h h'
      have hab : a = b := by
        have h1 := (hm a).mp (by simp)
        have h2 := (hm b).mpr (by simp)
        rw [List.mem_cons] at h1 h2
        rcases h1 with h1 | h1
        · exact h1
        · rcases h2 with h2 | h2
          · exact h2.symm
          · have := h.1 b h2
            have := h'.1 a h1
            omega
      subst hab
      congr 1
      refine ih h.2 h'.2 fun x => ?_
      have := hm x
      rw [List.mem_cons, List.mem_cons] at this
      constructor
      · intro hx
        rcases this.mp (Or.inr hx) with rfl | hx'
        · have := h.1 x hx; omega
        · exact hx'
      · intro hx
        rcases this.mpr (Or.inr hx) with rfl | hx'
        · have := h'.1 x hx; omega
        · exact hx'

/-- Contribution lists by columns. -/
theorem contributions_eq {sp below : Csr} (hs : sp.Good) (hb : below.Good) {i j lim : Nat} (hi : i < below.numRows)
    (hj : j < sp.numRows) (hlim : ∀ k, below.Has i k → sp.Has j k → k < lim) :
    getContributionsLimit sp below i j lim = .ok (((below.cols i).filter (sp.Has j ·)).map
      (fun k => ⟨below.idx i k, sp.idx j k, k⟩)) := by
  obtain ⟨l, h1, h2, h3⟩ := getContributionsLimit_sat hs.ok hb.ok hs.colsSorted hb.colsSorted lim hi hj
  rw [h1]
  congr 1
  apply eq_of_sorted_of_mem (f := Contribution.k) h2
  · rw [List.pairwise_map]
    exact (hb.cols_sorted i).filter _
  · intro c
    rw [h3, List.mem_map]
    constructor
    · rintro ⟨h4, h5, h6⟩
      have h7 : below.Has i c.k := List.mem_of_getElem? h5
      have h8 : sp.Has j c.k := List.mem_of_getElem? h6
      refine ⟨c.k, ?_, ?_⟩
      · rw [List.mem_filter, Csr.mem_cols]
        exact ⟨h7, by simpa using h8⟩
      · rw [hb.idx_of_get h5, hs.idx_of_get h6]
    · rintro ⟨k, hk, rfl⟩
      rw [List.mem_filter, Csr.mem_cols] at hk
      have h8 : sp.Has j k := by simpa using hk.2
      exact ⟨hlim k hk.1 h8, hk.1.get, h8.get⟩

section

variable {K : Type} [Zero K] [Sub K] [Mul K] [Div K]

theorem foldlM_subAll {α : Type} {l : List Nat} {g : Nat → α} {f : K → α → Res K} {t : Nat → K}
    (h : ∀ k ∈ l, ∀ x, f x (g k) = .ok (x - t k)) (init : K) :
    (l.map g).foldlM f init = .ok (subAll l t init) := by
  rw [List.foldlM_map]
  exact foldlM_eq_foldl (fun _ => True) trivial (fun s k hk _ => ⟨h k hk s, trivial⟩)

/-- Equation for an entry of the off-diagonal block. -/
def EntrySub (c11 c21 : Csr) (l11 : Nat → Nat → K) (d1 : Nat → K) (a21 l21 : Nat → Nat → K) (i j : Nat) : Prop :=
  l21 i j = subAll ((c21.cols i).filter (c11.Has j ·)) (fun k => l21 i k * l11 j k * d1 k) (a21 i j) / d1 j

/-- Equation for an entry of the diagonal block. -/
def EntryDiag (c21 c22 : Csr) (d1 : Nat → K) (l21 a22 l22 : Nat → Nat → K) (d2 : Nat → K) (i j : Nat) : Prop :=
  l22 i j = subAll ((c22.cols i).filter (c22.Has j ·)) (fun k => l22 i k * l22 j k * d2 k)
    (subAll ((c21.cols i).filter (c21.Has j ·)) (fun k => l21 i k * l21 j k * d1 k) (a22 i j)) / d2 j

/-- What the entry-wise method computes for row `i`. -/
def EntryRow (c11 c21 c22 : Csr) (l11 : Nat → Nat → K) (d1 : Nat → K) (a21 a22 : Nat → Nat → K) (aD : Nat → K)
    (reg : K → Nat → K) (l21 l22 : Nat → Nat → K) (d2 : Nat → K) (i : Nat) : Prop :=
  (∀ j, c21.Has i j → EntrySub c11 c21 l11 d1 a21 l21 i j) ∧
  (∀ j, c22.Has i j → EntryDiag c21 c22 d1 l21 a22 l22 d2 i j) ∧
  d2 i = reg (subAll (c22.cols i) (fun j => (l22 i j * l22 i j) * d2 j)
    (subAll (c21.cols i) (fun j => (l21 i j * l21 i j) * d1 j) (aD i))) i

/-- One row of the off-diagonal block. -/
theorem entrySub_row {f11 : DiagFactor K} {f21 : SubFactor K} {n1 n2 : Nat}
    (h11 : DiagOk f11 n1) (h21 : SubOk f21 n2 n1) {init21 : Init K} (hi21 : InitOk init21 f21.sparsity)
    {i : Nat} (hi : i < n2) :
    Sat ((f21.sparsity.cols i).foldlM (fun f j =>
        factorEntryWiseSubdiagonalImplRow (f21.sparsity.idx i j) f init21 f11) f21)
      (fun f => ∃ L, f = { f21 with L := L } ∧ L.length = f21.sparsity.entries.length ∧
        (∀ a b, a ≠ i → val f21.sparsity L a b = f21.l a b) ∧
        ∀ j, f21.sparsity.Has i j → EntrySub f11.sparsity f21.sparsity f11.l f11.d (a21Of init21 f21)
          (val f21.sparsity L) i j) := by
  have hs := h21.good.cols_sorted i
  refine Sat.mono (foldlM_inv (fun pre f => ∃ L, f = { f21 with L := L } ∧ L.length = f21.sparsity.entries.length ∧
        (∀ a b, ¬ (a = i ∧ b ∈ pre) → val f21.sparsity L a b = f21.l a b) ∧
        ∀ j ∈ pre, EntrySub f11.sparsity f21.sparsity f11.l f11.d (a21Of init21 f21) (val f21.sparsity L) i j)
      ⟨f21.L, rfl, h21.lenL, fun _ _ _ => rfl, fun _ h => by simp at h⟩ ?_) ?_
  · rintro pre j suf f hcols ⟨L, rfl, hl, hk, heq⟩
    have hj : f21.sparsity.Has i j := Csr.mem_cols.mp (by rw [hcols]; simp)
    have hjn : j < n1 := h21.cols ▸ h21.good.col_lt hj
    have hpre : ∀ k ∈ pre, k < j := by
      rw [hcols, List.pairwise_append] at hs
      exact fun k hk => hs.2.2 k hk j (by simp)
    unfold factorEntryWiseSubdiagonalImplRow
    simp only
    rw [hj.rd, ok_bind, getInitialFactorValueL_eq hi21 hl hj (h21.withL hl |>.origEntry hi hjn), ok_bind]
    simp only [getContributionsMixed]
    rw [contributions_eq h11.good h21.good (by rw [h21.rows]; exact hi) (by rw [h11.rows]; exact hjn)
      (fun k h1 h2 => by
        have := h21.good.col_lt h1
        have := h11.good.col_lt h2
        omega), ok_bind,
      foldlM_subAll (t := fun k => val f21.sparsity L i k * f11.l j k * f11.d k) (fun k hk x => by
        rw [List.mem_filter, Csr.mem_cols] at hk
        have h1 : f11.sparsity.Has j k := by simpa using hk.2
        have h2 : k < n1 := h21.cols ▸ h21.good.col_lt hk.1
        simp only
        rw [rd_val hl hk.1, ok_bind, rd_val h11.lenL h1, ok_bind, rd_getD (by rw [h11.lenD]; exact h2), ok_bind]
        rfl), ok_bind, rd_getD (by rw [h11.lenD]; exact hjn), ok_bind]
    obtain ⟨x, hx⟩ : ∃ x, x = subAll ((f21.sparsity.cols i).filter (f11.sparsity.Has j ·))
        (fun k => val f21.sparsity L i k * f11.l j k * f11.d k)
        (initVal init21 (origSub f21.permutationRow f21.permutationCol) (val f21.sparsity L) i j) / f11.d j := ⟨_, rfl⟩
    rw [← hx, wr_val hl hj, ok_bind]
    refine Sat.pure ⟨_, rfl, by simpa using hl, ?_, ?_⟩
    · intro a b hab
      rw [val_set h21.good hl hj, if_neg (fun h => hab ⟨h.1, by simp [h.2]⟩)]
      exact hk a b (fun h => hab ⟨h.1, by simp [h.2]⟩)
    · intro k hkm
      rw [List.mem_append, List.mem_singleton] at hkm
      have hkj : k ≤ j := by
        rcases hkm with h | h
        · exact Nat.le_of_lt (hpre k h)
        · omega
      unfold EntrySub
      rw [subAll_congr (g := fun k' => val f21.sparsity L i k' * f11.l k k' * f11.d k') (fun k' hk' => by
        rw [List.mem_filter] at hk'
        have h1 : f11.sparsity.Has k k' := by simpa using hk'.2
        have := h11.lower _ _ h1
        rw [val_set h21.good hl hj, if_neg (by simp; omega)])]
      rw [val_set h21.good hl hj]
      rcases hkm with hkm | rfl
      · rw [if_neg (by simp; have := hpre k hkm; omega)]
        exact heq k hkm
      · rw [if_pos ⟨rfl, rfl⟩, hx]
        have hkn : k ∉ pre := fun h => by have := hpre k h; omega
        unfold a21Of
        rw [initVal_congr (hk i k (by simp [hkn]))]
  · rintro f ⟨L, rfl, hl, hk, heq⟩
    refine ⟨L, rfl, hl, fun a b ha => hk a b (by simp [ha]), fun j hj => heq j (Csr.mem_cols.mpr hj)⟩

theorem EntrySub.congr {c11 c21 : Csr} {l11 : Nat → Nat → K} {d1 : Nat → K} {a21 b21 l21 m21 : Nat → Nat → K}
    {i j : Nat} (h : EntrySub c11 c21 l11 d1 a21 l21 i j) (ha : a21 i j = b21 i j) (hl : ∀ b, l21 i b = m21 i b) :
    EntrySub c11 c21 l11 d1 b21 m21 i j := by
  unfold EntrySub at *
  have : (fun k => m21 i k * l11 j k * d1 k) = (fun k => l21 i k * l11 j k * d1 k) := by
    funext k
    rw [hl]
  rw [← hl, ← ha, this]
  exact h

/-- The off-diagonal block. -/
theorem entrySub_sat {f11 : DiagFactor K} {f21 : SubFactor K} {n1 n2 : Nat}
    (h11 : DiagOk f11 n1) (h21 : SubOk f21 n2 n1) {init21 : Init K} (hi21 : InitOk init21 f21.sparsity) :
    Sat (factorizeEntryWiseSubdiagonal f21 init21 f11)
      (fun f => ∃ L, f = { f21 with L := L } ∧ L.length = f21.sparsity.entries.length ∧
        ∀ i < n2, ∀ j, f21.sparsity.Has i j → EntrySub f11.sparsity f21.sparsity f11.l f11.d (a21Of init21 f21)
          (val f21.sparsity L) i j) := by
  unfold factorizeEntryWiseSubdiagonal
  rw [h21.good.ok.rowBegin_length, Nat.add_sub_cancel, h21.rows]
  refine Sat.mono (foldlM_range_inv (fun i f => ∃ L, f = { f21 with L := L } ∧
      L.length = f21.sparsity.entries.length ∧ (∀ a b, i ≤ a → val f21.sparsity L a b = f21.l a b) ∧
      ∀ i' < i, ∀ j, f21.sparsity.Has i' j → EntrySub f11.sparsity f21.sparsity f11.l f11.d (a21Of init21 f21)
        (val f21.sparsity L) i' j) ⟨f21.L, rfl, h21.lenL, fun _ _ _ => rfl, fun _ h => by omega⟩ ?_) ?_
  · rintro i f hi ⟨L, rfl, hl, hk, heq⟩
    simp only
    rw [h21.good.rowLoop (by rw [h21.rows]; exact hi)]
    refine Sat.mono (entrySub_row h11 (h21.withL hl) (init21 := init21) hi21 hi) ?_
    rintro f ⟨M, rfl, hm, hkm, heqm⟩
    simp only [SubFactor.l] at hm hkm heqm
    refine ⟨M, rfl, hm, ?_, ?_⟩
    · intro a b ha
      rw [hkm a b (by omega)]
      exact hk a b (by omega)
    · intro i' hi' j hj
      rcases Nat.lt_or_eq_of_le (Nat.le_of_lt_succ hi') with hlt | rfl
      · exact (heq i' hlt j hj).congr rfl (fun b => (hkm i' b (by omega)).symm)
      · exact (heqm j hj).congr (initVal_congr (hk i' j (Nat.le_refl _))) (fun b => rfl)
  · rintro f ⟨L, rfl, hl, -, heq⟩
    exact ⟨L, rfl, hl, heq⟩

/-- One row of the diagonal block. -/
theorem entryDiag_row {f11 : DiagFactor K} {f21 : SubFactor K} {f22 : DiagFactor K} {n1 n2 : Nat}
    (h11 : DiagOk f11 n1) (h21 : SubOk f21 n2 n1) (h22 : DiagOk f22 n2) {init22 : Init K}
    (hi22 : InitOk init22 f22.sparsity) {i : Nat} (hi : i < n2) (D : K) :
    Sat ((f22.sparsity.cols i).foldlM
      (fun (st : DiagFactor K × K) j => do
        let (f, c) ← factorizeEntryWiseImplRow (f22.sparsity.idx i j) st.1 init22 f21 f11
        return (f, st.2 - c)) (f22, D))
      (fun st => ∃ L, st.1 = { f22 with L := L } ∧ L.length = f22.sparsity.entries.length ∧
        (∀ a b, a ≠ i → val f22.sparsity L a b = f22.l a b) ∧
        (∀ j, f22.sparsity.Has i j → EntryDiag f21.sparsity f22.sparsity f11.d f21.l (a22Of init22 f22)
          (val f22.sparsity L) f22.d i j) ∧
        st.2 = subAll (f22.sparsity.cols i)
          (fun j => (val f22.sparsity L i j * val f22.sparsity L i j) * f22.d j) D) := by
  have hs := h22.good.cols_sorted i
  refine Sat.mono (foldlM_inv (fun pre (st : DiagFactor K × K) => ∃ L, st.1 = { f22 with L := L } ∧
        L.length = f22.sparsity.entries.length ∧
        (∀ a b, ¬ (a = i ∧ b ∈ pre) → val f22.sparsity L a b = f22.l a b) ∧
        (∀ j ∈ pre, EntryDiag f21.sparsity f22.sparsity f11.d f21.l (a22Of init22 f22) (val f22.sparsity L) f22.d i j) ∧
        st.2 = subAll pre (fun j => (val f22.sparsity L i j * val f22.sparsity L i j) * f22.d j) D)
      ⟨f22.L, rfl, h22.lenL, fun _ _ _ => rfl, fun _ h => by simp at h, rfl⟩ ?_) ?_
  · rintro pre j suf ⟨f, D'⟩ hcols ⟨L, rfl, hl, hk, heq, hD⟩
    simp only at hD
    have hj : f22.sparsity.Has i j := Csr.mem_cols.mp (by rw [hcols]; simp)
    have hjn : j < n2 := h22.cols ▸ h22.good.col_lt hj
    have hji := h22.lower i j hj
    have hpre : ∀ k ∈ pre, k < j := by
      rw [hcols, List.pairwise_append] at hs
      exact fun k hk => hs.2.2 k hk j (by simp)
    simp only [factorizeEntryWiseImplRow, getContributionsMixed, getContributionsRectangular,
      getContributionsLowerTriangle, applyContributions, bind_assoc]
    rw [hj.rd, ok_bind, getInitialFactorValueL_eq hi22 hl hj (h22.withL hl |>.origEntry hi hjn), ok_bind]
    simp only
    rw [contributions_eq h21.good h21.good (by rw [h21.rows]; exact hi) (by rw [h21.rows]; exact hjn)
      (fun k h1 h2 => by
        have := h21.good.col_lt h1
        omega), ok_bind,
      contributions_eq h22.good h22.good (by rw [h22.rows]; exact hi) (by rw [h22.rows]; exact hjn)
        (fun k h1 h2 => h22.lower j k h2), ok_bind,
      foldlM_subAll (t := fun k => f21.l i k * f21.l j k * f11.d k) (fun k hk x => by
        rw [List.mem_filter, Csr.mem_cols] at hk
        have h1 : f21.sparsity.Has j k := by simpa using hk.2
        have h2 : k < n1 := h21.cols ▸ h21.good.col_lt hk.1
        simp only
        rw [rd_val h21.lenL hk.1, ok_bind, rd_val h21.lenL h1, ok_bind, rd_getD (by rw [h11.lenD]; exact h2), ok_bind]
        rfl), ok_bind,
      foldlM_subAll (t := fun k => val f22.sparsity L i k * val f22.sparsity L j k * f22.d k) (fun k hk x => by
        rw [List.mem_filter, Csr.mem_cols] at hk
        have h1 : f22.sparsity.Has j k := by simpa using hk.2
        have h2 : k < n2 := h22.cols ▸ h22.good.col_lt hk.1
        simp only
        rw [rd_val hl hk.1, ok_bind, rd_val hl h1, ok_bind, rd_getD (by rw [h22.lenD]; exact h2), ok_bind]
        rfl), ok_bind, rd_getD (by rw [h22.lenD]; exact hjn), ok_bind]
    obtain ⟨x, hx⟩ : ∃ x, x = subAll ((f22.sparsity.cols i).filter (f22.sparsity.Has j ·))
        (fun k => val f22.sparsity L i k * val f22.sparsity L j k * f22.d k)
        (subAll ((f21.sparsity.cols i).filter (f21.sparsity.Has j ·)) (fun k => f21.l i k * f21.l j k * f11.d k)
          (initVal init22 (origDiag f22.permutation) (val f22.sparsity L) i j)) / f22.d j := ⟨_, rfl⟩
    rw [← hx, wr_val hl hj, ok_bind, pure_eq_ok, ok_bind]
    refine Sat.pure ⟨_, rfl, by simpa using hl, ?_, ?_, ?_⟩
    · intro a b hab
      rw [val_set h22.good hl hj, if_neg (fun h => hab ⟨h.1, by simp [h.2]⟩)]
      exact hk a b (fun h => hab ⟨h.1, by simp [h.2]⟩)
    · intro k hkm
      rw [List.mem_append, List.mem_singleton] at hkm
      have hkj : k ≤ j := by
        rcases hkm with h | h
        · exact Nat.le_of_lt (hpre k h)
        · omega
      unfold EntryDiag
      rw [subAll_congr (g := fun k' => val f22.sparsity L i k' * val f22.sparsity L k k' * f22.d k') (fun k' hk' => by
        rw [List.mem_filter] at hk'
        have h1 : f22.sparsity.Has k k' := by simpa using hk'.2
        have := h22.lower _ _ h1
        rw [val_set h22.good hl hj, if_neg (by simp; omega), val_set h22.good hl hj, if_neg (by simp; omega)])]
      rw [val_set h22.good hl hj]
      rcases hkm with hkm | rfl
      · rw [if_neg (by simp; have := hpre k hkm; omega)]
        exact heq k hkm
      · rw [if_pos ⟨rfl, rfl⟩, hx]
        have hkn : k ∉ pre := fun h => by have := hpre k h; omega
        unfold a22Of
        rw [initVal_congr (hk i k (by simp [hkn]))]
    · rw [subAll_append, subAll_single, val_set h22.good hl hj, if_pos ⟨rfl, rfl⟩]
      simp only
      rw [hD, subAll_congr]
      intro k hkm
      rw [val_set h22.good hl hj, if_neg (by simp; have := hpre k hkm; omega)]
  · rintro ⟨f, D'⟩ ⟨L, h1, hl, hk, heq, hD⟩
    exact ⟨L, h1, hl, fun a b ha => hk a b (by simp [ha]), fun j hj => heq j (Csr.mem_cols.mpr hj), hD⟩

theorem EntryRow.congr {c11 c21 c22 : Csr} {l11 : Nat → Nat → K} {d1 : Nat → K} {a21 a22 b22 : Nat → Nat → K}
    {aD bD : Nat → K} {reg : K → Nat → K} {l21 l22 m22 : Nat → Nat → K} {d2 e2 : Nat → K} {i : Nat}
    (h : EntryRow c11 c21 c22 l11 d1 a21 a22 aD reg l21 l22 d2 i) (hlow : ∀ i j, c22.Has i j → j < i)
    (ha22 : ∀ j, a22 i j = b22 i j) (haD : aD i = bD i)
    (hl22 : ∀ a b, a ≤ i → l22 a b = m22 a b) (hd2 : ∀ a, a ≤ i → d2 a = e2 a) :
    EntryRow c11 c21 c22 l11 d1 a21 b22 bD reg l21 m22 e2 i := by
  obtain ⟨h1, h2, h3⟩ := h
  refine ⟨h1, ?_, ?_⟩
  · intro j hj
    have := hlow i j hj
    have h4 := h2 j hj
    unfold EntryDiag at *
    rw [subAll_congr (g := fun k => l22 i k * l22 j k * d2 k), ← hl22 i j (Nat.le_refl _), ← hd2 j (by omega), ← ha22]
    · exact h4
    · intro k hk
      rw [List.mem_filter] at hk
      have h1 := hlow i k (Csr.mem_cols.mp hk.1)
      rw [hl22 i k (Nat.le_refl _), hl22 j k (by omega), hd2 k (by omega)]
  · rw [← hd2 i (Nat.le_refl i), ← haD, h3]
    congr 1
    apply subAll_congr
    intro j hj
    have := hlow i j (Csr.mem_cols.mp hj)
    rw [hd2 j (by omega), hl22 i j (Nat.le_refl _)]

theorem rowDiagonal_eq {f11 : DiagFactor K} {f21 : SubFactor K} {n1 n2 : Nat} (h11 : DiagOk f11 n1)
    (h21 : SubOk f21 n2 n1) {i : Nat} (hi : i < n2) (D : K) :
    applyContributionsRowDiagonal i f21 f11 D =
      .ok (subAll (f21.sparsity.cols i) (fun j => (f21.l i j * f21.l i j) * f11.d j) D) := by
  unfold applyContributionsRowDiagonal
  rw [h21.good.rowLoop (by rw [h21.rows]; exact hi)]
  refine foldlM_eq_foldl (fun _ => True) trivial (fun s j hj _ => ⟨?_, trivial⟩)
  have hh := Csr.mem_cols.mp hj
  have hjn : j < n1 := h21.cols ▸ h21.good.col_lt hh
  rw [hh.rd, ok_bind, rd_val h21.lenL hh, ok_bind]
  simp only
  rw [rd_getD (by rw [h11.lenD]; exact hjn), ok_bind]
  rfl

/-- The entry-wise factorization of two blocks, without the static assertions. -/
theorem entryWise_loop_sat {f11 : DiagFactor K} {f21 : SubFactor K} {f22 : DiagFactor K} {n1 n2 : Nat}
    (h11 : DiagOk f11 n1) (h21 : SubOk f21 n2 n1) (h22 : DiagOk f22 n2) {init21 init22 : Init K}
    (hi21 : InitOk init21 f21.sparsity) (hi22 : InitOk init22 f22.sparsity) (reg : K → Nat → K) :
    Sat (do
        let f21 ← factorizeEntryWiseSubdiagonal f21 init21 f11
        let f22 ← factorizeEntryWiseDiagonal f22 init22 f21 f11 reg
        return (f21, f22))
      (fun st => ∃ L21 L22 D, st = ({ f21 with L := L21 }, { f22 with L := L22, D := D }) ∧
      L21.length = f21.sparsity.entries.length ∧ L22.length = f22.sparsity.entries.length ∧ D.length = n2 ∧
      ∀ i < n2, EntryRow f11.sparsity f21.sparsity f22.sparsity f11.l f11.d (a21Of init21 f21) (a22Of init22 f22)
        (aDOf init22 f22) reg (val f21.sparsity L21) (val f22.sparsity L22) (fun a => D.getD a 0) i) := by
  refine Sat.bind (entrySub_sat h11 h21 hi21) ?_
  rintro f ⟨L21, rfl, hl21, heq21⟩
  unfold factorizeEntryWiseDiagonal
  rw [staticAssert_true (by simp only; rw [h21.rows, h22.rows]; simp), ok_bind]
  simp only
  rw [h21.rows]
  refine Sat.bind (P := fun f => ∃ L22 D, f = { f22 with L := L22, D := D } ∧
      L22.length = f22.sparsity.entries.length ∧ D.length = n2 ∧
      ∀ i < n2, EntryRow f11.sparsity f21.sparsity f22.sparsity f11.l f11.d (a21Of init21 f21) (a22Of init22 f22)
        (aDOf init22 f22) reg (val f21.sparsity L21) (val f22.sparsity L22) (fun a => D.getD a 0) i) ?_ ?_
  · refine Sat.mono (foldlM_range_inv (fun i f => ∃ L22 D, f = { f22 with L := L22, D := D } ∧
      L22.length = f22.sparsity.entries.length ∧ D.length = n2 ∧
      (∀ a b, i ≤ a → val f22.sparsity L22 a b = f22.l a b) ∧ (∀ a, i ≤ a → D.getD a 0 = f22.d a) ∧
      ∀ i' < i, EntryRow f11.sparsity f21.sparsity f22.sparsity f11.l f11.d (a21Of init21 f21) (a22Of init22 f22)
        (aDOf init22 f22) reg (val f21.sparsity L21) (val f22.sparsity L22) (fun a => D.getD a 0) i')
      ⟨f22.L, f22.D, rfl, h22.lenL, h22.lenD, fun _ _ _ => rfl, fun _ _ => rfl, fun _ h => by omega⟩ ?_) ?_
    · rintro i f hi ⟨L22, D, rfl, hl22, hlD, hk22, hkD, hrows⟩
      have h22' : DiagOk { f22 with L := L22, D := D } n2 := (h22.withL hl22).withD hlD
      have hr22 : i < f22.sparsity.numRows := by rw [h22.rows]; exact hi
      unfold factorizeEntryWiseRow
      simp only
      rw [h22.good.ok.rd_rowBegin (by omega), ok_bind, h22.good.ok.rd_rowBegin (by omega), ok_bind,
        getInitialFactorValueD_eq h22' hi22 hi, ok_bind, rowDiagonal_eq h11 (h21.withL hl21) hi, ok_bind,
        h22.good.entryRange_row hr22, ok_bind, List.foldlM_map]
      refine Sat.bind (entryDiag_row h11 (h21.withL hl21) h22' (init22 := init22) hi22 hi _) ?_
      rintro ⟨g, D2⟩ ⟨M, rfl, hm, hkM, heqM, hD2⟩
      simp only [SubFactor.l, DiagFactor.l, DiagFactor.d] at hm hkM heqM hD2 ⊢
      have hDlen : i < D.length := by rw [hlD]; exact hi
      rw [wr_ok hDlen, ok_bind]
      refine Sat.pure ⟨M, D.set i (reg D2 i), rfl, hm, by simpa using hlD, ?_, ?_, ?_⟩
      · intro a b ha
        rw [hkM a b (by omega)]
        exact hk22 a b (by omega)
      · intro a ha
        rw [getD_set hDlen, if_neg (by omega)]
        exact hkD a (by omega)
      · intro i' hi'
        rcases Nat.lt_or_eq_of_le (Nat.le_of_lt_succ hi') with hlt | rfl
        · refine (hrows i' hlt).congr h22.lower (fun _ => rfl) rfl ?_ ?_
          · intro a b ha
            exact (hkM a b (by omega)).symm
          · intro a ha
            beta_reduce
            rw [getD_set hDlen, if_neg (by omega)]
        · refine ⟨heq21 i' hi, ?_, ?_⟩
          · intro j hj
            have hji := h22.lower i' j hj
            have h4 := heqM j hj
            unfold EntryDiag at *
            rw [subAll_congr (g := fun k => val f22.sparsity M i' k * val f22.sparsity M j k * D.getD k 0)]
            · beta_reduce
              rw [getD_set hDlen, if_neg (by omega), h4]
              unfold a22Of
              rw [initVal_congr (hk22 i' j (Nat.le_refl _))]
            · intro k hk
              rw [List.mem_filter] at hk
              have h1 := h22.lower i' k (Csr.mem_cols.mp hk.1)
              beta_reduce
              rw [getD_set hDlen, if_neg (by omega)]
          · beta_reduce
            rw [getD_set hDlen, if_pos rfl, hD2]
            congr 1
            have e : aDOf init22 f22 i' = initVal init22 (origDiag f22.permutation) (fun i _ => D.getD i 0) i' i' :=
              (initVal_congr (hkD i' (Nat.le_refl _))).symm
            rw [e]
            apply subAll_congr
            intro j hj
            have hji := h22.lower i' j (Csr.mem_cols.mp hj)
            rw [getD_set hDlen, if_neg (by omega)]
    · rintro f ⟨L22, D, rfl, hl22, hlD, -, -, hrows⟩
      exact ⟨L22, D, rfl, hl22, hlD, hrows⟩
  · rintro f ⟨L22, D, rfl, hl22, hlD, hrows⟩
    exact Sat.pure ⟨L21, L22, D, rfl, hl21, hl22, hlD, hrows⟩

end

end Ctldl
