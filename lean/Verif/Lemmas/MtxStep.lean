import Verif.Lemmas.MtxPlace

/-! # Matrix files: one entry -/

namespace Ctldl

open Finset

variable {K : Type} {s : ArrowheadSparsity} {d : Dims} {N : Nat}

theorem valid_dimStart (hs : s.Valid d) : s.dimStart = .ok d.start :=
  (C42_dim_start s _).1.mpr ⟨hs.startDiag.2.1, hs.startDiag.2.2, hs.startNext.2.2, hs.startOuter.2.2,
    hs.permStart.length⟩

theorem valid_dimTridiag (hs : s.Valid d) : s.dimTridiag = .ok d.tridiag :=
  (C42_dim_tridiag s _).1.mpr ⟨hs.tridiagDiag.2.1, hs.tridiagDiag.2.2, hs.tridiagSubdiag.2.1, hs.tridiagSubdiag.2.2,
    hs.permTridiag.length, hs.startNext.2.1, hs.linkPrev.2.2, hs.outerSubdiag.2.2⟩

theorem valid_dimLink (hs : s.Valid d) : s.dimLink = .ok d.link :=
  (C42_dim_link s _).1.mpr ⟨hs.linkDiag.2.1, hs.linkDiag.2.2, hs.linkPrev.2.1, hs.linkNext.2.2, hs.permLink.length⟩

theorem valid_dimOuter (hs : s.Valid d) : s.dimOuter = .ok d.outer :=
  (C42_dim_outer s _).1.mpr ⟨hs.outerDiag.2.1, hs.outerDiag.2.2, hs.outerSubdiag.2.1, hs.permOuter.length,
    hs.startOuter.2.1, hs.linkNext.2.1⟩

theorem valid_tridiagDim (hs : s.Valid d) : s.tridiag.dim = .ok d.tridiag := by
  have h := valid_dimTridiag hs
  unfold ArrowheadSparsity.dimTridiag at h
  obtain ⟨_, _, h⟩ := bind_eq_ok.mp h
  obtain ⟨_, _, h⟩ := bind_eq_ok.mp h
  exact h

theorem div_of_block {t i n : Nat} (hi : i < n) : (t * n + i) / n = t := by
  rw [Nat.mul_comm, Nat.mul_add_div (by omega), Nat.div_eq_of_lt hi, Nat.add_zero]

theorem mod_of_block {t i n : Nat} (hi : i < n) : (t * n + i) % n = i := by
  rw [Nat.mul_comm, Nat.mul_add_mod, Nat.mod_eq_of_lt hi]

/-- The entry goes to its slot. -/
theorem mtxPlaceEntry_slot (hs : s.Valid d) {m : MtxArrowhead K} {σ : Slot} {q : MtxMatrix K}
    (hok : σ.Ok N) (hq : σ.get m = some q) {r c i j : Nat} {v : K} (hr : d.Locates N r (σ.row N) i)
    (hc : d.Locates N c (σ.col N) j) (hcr : c ≤ r) (hout : ∀ t, σ = .outerSubdiag t → i < d.tridiag) :
    mtxPlaceEntry s N m ⟨r, c, v⟩ = mtxAddEntry ⟨i, j, v⟩ q >>= fun q' => .ok (σ.put m q') := by
  unfold mtxPlaceEntry
  rw [valid_dimStart hs, ok_bind, valid_dimTridiag hs, ok_bind, valid_dimLink hs, ok_bind]
  simp only
  rw [mtxCheck_true (by simpa using hcr), ok_bind]
  obtain ⟨-, li, er⟩ := hr
  obtain ⟨-, lj, ec⟩ := hc
  have hN : 0 < (N + 1) * d.tridiag ∨ d.tridiag = 0 := by
    rcases Nat.eq_zero_or_pos d.tridiag with h | h
    · exact Or.inr h
    · exact Or.inl (Nat.mul_pos (by omega) h)
  cases σ with
  | startDiag =>
    simp only [Slot.row, Slot.col, Slot.get, Slot.put, Dims.of, Dims.before, Option.some.injEq] at hq li lj er ec ⊢
    subst hq
    simp only [Nat.zero_add] at er ec
    subst er ec
    rw [if_pos lj, if_pos (by omega)]
    unfold mtxAddEntryStart
    have := valid_dimStart hs
    unfold ArrowheadSparsity.dimStart at this
    rw [this, ok_bind]
    simp only
    rw [if_pos li]
    rfl
  | startNext =>
    simp only [Slot.row, Slot.col, Slot.get, Slot.put, Dims.of, Dims.before, Option.some.injEq] at hq li lj er ec ⊢
    subst hq
    simp only [Nat.zero_add, Nat.zero_mul, Nat.add_zero] at er ec
    subst ec
    have := tridiag_before_le (d := d) (N := N) (Nat.zero_le N)
    have e1 : r - d.start = i := by omega
    rw [if_pos lj, if_pos (by omega)]
    unfold mtxAddEntryStart
    have := valid_dimStart hs
    unfold ArrowheadSparsity.dimStart at this
    rw [this, ok_bind]
    simp only
    rw [if_neg (by omega), e1]
    rfl
  | startOuter =>
    simp only [Slot.row, Slot.col, Slot.get, Slot.put, Dims.of, Dims.before, Option.some.injEq] at hq li lj er ec ⊢
    subst hq
    simp only [Nat.zero_add] at ec
    subst ec
    have e1 : r - (d.start + (N + 1) * d.tridiag + d.link) = i := by omega
    rw [if_pos lj, if_neg (by omega), e1]
    rfl
  | tridiagDiag t =>
    simp only [Slot.row, Slot.col, Slot.get, Slot.put, Slot.Ok, Dims.of, Dims.before] at hok hq li lj er ec ⊢
    have := tridiag_before_le (d := d) hok
    rw [if_neg (by omega), if_pos (by omega), usub_ok (by omega), ok_bind, usub_ok (by omega), ok_bind]
    unfold mtxAddEntryTridiag
    rw [valid_tridiagDim hs, ok_bind]
    have e1 : r - d.start = t * d.tridiag + i := by omega
    have e2 : c - d.start = t * d.tridiag + j := by omega
    simp only [e1, e2, udiv_ok (show d.tridiag ≠ 0 by omega), umod_ok (show d.tridiag ≠ 0 by omega), ok_bind,
      div_of_block li, div_of_block lj, mod_of_block li, mod_of_block lj, beq_self_eq_true, if_true]
    rw [rd_of_getElem? hq, ok_bind]
    have hlt := (List.getElem?_eq_some_iff.mp hq).1
    congr 1
    funext q'
    rw [wr_ok hlt]
    rfl
  | tridiagSubdiag t =>
    simp only [Slot.row, Slot.col, Slot.get, Slot.put, Slot.Ok, Dims.of, Dims.before] at hok hq li lj er ec ⊢
    have := tridiag_before_le (d := d) (show t + 1 ≤ N by omega)
    rw [if_neg (by omega), if_pos (by omega), usub_ok (by omega), ok_bind, usub_ok (by omega), ok_bind]
    unfold mtxAddEntryTridiag
    rw [valid_tridiagDim hs, ok_bind]
    have e1 : r - d.start = (t + 1) * d.tridiag + i := by omega
    have e2 : c - d.start = t * d.tridiag + j := by omega
    have e3 : (t + 1 == t) = false := by simp
    simp only [e1, e2, udiv_ok (show d.tridiag ≠ 0 by omega), umod_ok (show d.tridiag ≠ 0 by omega), ok_bind,
      div_of_block li, div_of_block lj, mod_of_block li, mod_of_block lj, e3, Bool.false_eq_true, if_false]
    rw [rd_of_getElem? hq, ok_bind]
    have hlt := (List.getElem?_eq_some_iff.mp hq).1
    congr 1
    funext q'
    rw [wr_ok hlt]
    rfl
  | linkPrev =>
    simp only [Slot.row, Slot.col, Slot.get, Slot.put, Dims.of, Dims.before, Option.some.injEq] at hq li lj er ec ⊢
    subst hq
    have e0 : (N + 1) * d.tridiag = N * d.tridiag + d.tridiag := Nat.succ_mul _ _
    rw [if_neg (by omega), if_neg (by omega), if_neg (by omega), if_neg (by omega), usub_ok (by omega), ok_bind,
      mtxCheck_true (by rw [decide_eq_true_eq]; omega), ok_bind, usub_ok (by omega), ok_bind]
    unfold mtxAddEntryLink
    have e1 : c - (d.start + (N + 1) * d.tridiag - d.tridiag) = j := by omega
    have e2 : r - (d.start + (N + 1) * d.tridiag) = i := by omega
    simp only [e1, e2]
    rw [if_pos (by rw [hs.linkPrev.2.2]; exact lj)]
    rfl
  | linkDiag =>
    simp only [Slot.row, Slot.col, Slot.get, Slot.put, Dims.of, Dims.before, Option.some.injEq] at hq li lj er ec ⊢
    subst hq
    have e0 : (N + 1) * d.tridiag = N * d.tridiag + d.tridiag := Nat.succ_mul _ _
    rw [if_neg (by omega), if_neg (by omega), if_neg (by omega), if_neg (by omega), usub_ok (by omega), ok_bind,
      mtxCheck_true (by rw [decide_eq_true_eq]; omega), ok_bind, usub_ok (by omega), ok_bind]
    unfold mtxAddEntryLink
    have e1 : c - (d.start + (N + 1) * d.tridiag - d.tridiag) = d.tridiag + j := by
      omega
    have e2 : r - (d.start + (N + 1) * d.tridiag) = i := by omega
    simp only [e1, e2]
    rw [if_neg (by rw [hs.linkPrev.2.2]; omega)]
    have := valid_dimLink hs
    unfold ArrowheadSparsity.dimLink at this
    simp only [pure_eq_ok]
    rw [this, ok_bind]
    rw [if_neg (by omega), hs.linkPrev.2.2, usub_ok (by omega), Nat.add_sub_cancel_left]
    rfl
  | linkNext =>
    simp only [Slot.row, Slot.col, Slot.get, Slot.put, Dims.of, Dims.before, Option.some.injEq] at hq li lj er ec ⊢
    subst hq
    have e0 : (N + 1) * d.tridiag = N * d.tridiag + d.tridiag := Nat.succ_mul _ _
    rw [if_neg (by omega), if_neg (by omega), if_neg (by omega), if_neg (by omega), usub_ok (by omega), ok_bind,
      mtxCheck_true (by rw [decide_eq_true_eq]; omega), ok_bind, usub_ok (by omega), ok_bind]
    unfold mtxAddEntryLink
    have e1 : c - (d.start + (N + 1) * d.tridiag - d.tridiag) = d.tridiag + j := by
      omega
    have e2 : r - (d.start + (N + 1) * d.tridiag) = d.link + i := by
      omega
    simp only [e1, e2]
    rw [if_neg (by rw [hs.linkPrev.2.2]; omega)]
    have := valid_dimLink hs
    unfold ArrowheadSparsity.dimLink at this
    simp only [pure_eq_ok]
    rw [this, ok_bind]
    rw [if_pos (by omega), hs.linkPrev.2.2, usub_ok (by omega), Nat.add_sub_cancel_left, Nat.add_sub_cancel_left]
    rfl
  | outerSubdiag t =>
    have hi' : i < d.tridiag := hout t rfl
    simp only [Slot.row, Slot.col, Slot.get, Slot.put, Slot.Ok, Dims.of, Dims.before] at hok hq li lj er ec ⊢
    have := tridiag_before_le (d := d) hok
    rw [if_neg (by omega), if_neg (by omega), if_neg (by omega), if_pos (by omega), usub_ok (by omega), ok_bind]
    unfold mtxAddEntryOuterSubdiag
    have e1 : r - (d.start + (N + 1) * d.tridiag + d.link) = i := by omega
    have e2 : c - d.start = t * d.tridiag + j := by omega
    simp only [e1, e2, hs.outerSubdiag.2.2, udiv_ok (show d.tridiag ≠ 0 by omega),
      umod_ok (show d.tridiag ≠ 0 by omega), ok_bind, div_of_block lj, mod_of_block lj, Nat.mod_eq_of_lt hi']
    rw [rd_of_getElem? hq, ok_bind]
    have hlt := (List.getElem?_eq_some_iff.mp hq).1
    congr 1
    funext q'
    rw [wr_ok hlt]
    rfl
  | outerDiag =>
    simp only [Slot.row, Slot.col, Slot.get, Slot.put, Dims.of, Dims.before, Option.some.injEq] at hq li lj er ec ⊢
    subst hq
    have e1 : r - (d.start + (N + 1) * d.tridiag + d.link) = i := by omega
    have e2 : c - (d.start + (N + 1) * d.tridiag + d.link) = j := by omega
    rw [if_neg (by omega), if_neg (by omega), if_pos (by omega), e1, e2]
    rfl

/-- Entries which are not in any slot. -/
theorem mtxPlaceEntry_none (hs : s.Valid d) {m : MtxArrowhead K} {a b : Blk} {r c i j : Nat} {v : K}
    (hr : d.Locates N r a i) (hc : d.Locates N c b j) (hh : d.Handles N r c)
    (hnone : ∀ σ : Slot, σ.Ok N → σ.row N = a → σ.col N = b → r < c) :
    (r < c ∧ mtxPlaceEntry s N m ⟨r, c, v⟩ = .error (.mtx .upperTriangle)) ∨
      (c ≤ r ∧ mtxPlaceEntry s N m ⟨r, c, v⟩ = .error (.mtx .notCovered)) := by
  unfold mtxPlaceEntry
  rw [valid_dimStart hs, ok_bind, valid_dimTridiag hs, ok_bind, valid_dimLink hs, ok_bind]
  simp only
  by_cases hcr : c ≤ r
  · rw [mtxCheck_true (by simpa using hcr), ok_bind]
    refine Or.inr ⟨hcr, ?_⟩
    have hn : ∀ σ : Slot, σ.Ok N → ¬ (σ.row N = a ∧ σ.col N = b) := fun σ h h' => by
      have := hnone σ h h'.1 h'.2; omega
    obtain ⟨h1, h2, h3⟩ := hh a b i j hr hc
    have ha := hr.block
    have hb := hc.block
    obtain ⟨-, li, er⟩ := hr
    obtain ⟨-, lj, ec⟩ := hc
    have hl : a = .link ∧ ∃ u, u < N ∧ b = .tridiag u := by
      cases a with
      | start =>
        cases b with
        | start => exact absurd ⟨rfl, rfl⟩ (hn .startDiag trivial)
        | tridiag u => simp only [Dims.before, Dims.of] at *; omega
        | link => simp only [Dims.before, Dims.of] at *; omega
        | outer => simp only [Dims.before, Dims.of] at *; omega
      | tridiag t =>
        have ht := mem_blocks_tridiag.mp ha
        have := tridiag_before_le (d := d) ht
        cases b with
        | start =>
          rcases h1 rfl with h | h | h
          · cases h
          · cases h; exact absurd ⟨rfl, rfl⟩ (hn .startNext trivial)
          · cases h
        | tridiag u =>
          have hu := mem_blocks_tridiag.mp hb
          have := h2 t u rfl rfl
          by_cases e1 : t = u
          · subst e1; exact absurd ⟨rfl, rfl⟩ (hn (.tridiagDiag t) ht)
          by_cases e2 : t = u + 1
          · subst e2; exact absurd ⟨rfl, rfl⟩ (hn (.tridiagSubdiag u) (show u < N by omega))
          · have := tridiag_before_le (d := d) (N := u - 1) (t := t) (by omega)
            have e : u - 1 + 1 = u := by omega
            rw [e] at this
            simp only [Dims.before, Dims.of] at *
            omega
        | link => simp only [Dims.before, Dims.of] at *; omega
        | outer => simp only [Dims.before, Dims.of] at *; omega
      | link =>
        cases b with
        | start => rcases h1 rfl with h | h | h <;> cases h
        | tridiag u =>
          have hu := mem_blocks_tridiag.mp hb
          refine ⟨rfl, u, ?_, rfl⟩
          by_contra hne
          have : u = N := by omega
          subst this
          exact absurd ⟨rfl, rfl⟩ (hn .linkPrev trivial)
        | link => exact absurd ⟨rfl, rfl⟩ (hn .linkDiag trivial)
        | outer => simp only [Dims.before, Dims.of] at *; omega
      | outer =>
        cases b with
        | start => exact absurd ⟨rfl, rfl⟩ (hn .startOuter trivial)
        | tridiag u => exact absurd ⟨rfl, rfl⟩ (hn (.outerSubdiag u) (mem_blocks_tridiag.mp hb))
        | link => exact absurd ⟨rfl, rfl⟩ (hn .linkNext trivial)
        | outer => exact absurd ⟨rfl, rfl⟩ (hn .outerDiag trivial)
    obtain ⟨rfl, u, hu, rfl⟩ := hl
    simp only [Dims.before, Dims.of] at li lj er ec
    have h5 := tridiag_before_le (d := d) (N := N - 1) (t := u) (by omega)
    have e : N - 1 + 1 = N := by omega
    rw [e] at h5
    have e0 : (N + 1) * d.tridiag = N * d.tridiag + d.tridiag := Nat.succ_mul _ _
    rw [if_neg (by omega), if_neg (by omega), if_neg (by omega), if_neg (by omega), usub_ok (by omega), ok_bind,
      mtxCheck_false (by rw [decide_eq_false_iff_not]; omega)]
    rfl
  · refine Or.inl ⟨by omega, ?_⟩
    rw [mtxCheck_false (by simpa using hcr)]
    rfl

end Ctldl
