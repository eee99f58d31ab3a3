import Verif.Lemmas.MtxRead

/-! # Matrix files: entries which the reader moves -/

namespace Ctldl

variable {K : Type} {s : ArrowheadSparsity} {d : Dims} {N : Nat}

theorem movedRow_cases (d : Dims) (N r c : Nat) :
    (d.start ≤ c ∧ c < d.start + (N + 1) * d.tridiag ∧ r < d.start + (N + 1) * d.tridiag ∧
      (c - d.start) / d.tridiag < (r - d.start) / d.tridiag ∧
      d.movedRow N r c = d.start + ((c - d.start) / d.tridiag + 1) * d.tridiag + (r - d.start) % d.tridiag) ∨
    (d.start ≤ c ∧ c < d.start + (N + 1) * d.tridiag ∧ d.start + (N + 1) * d.tridiag + d.link ≤ r ∧
      d.movedRow N r c = d.start + (N + 1) * d.tridiag + d.link +
        (r - (d.start + (N + 1) * d.tridiag + d.link)) % d.tridiag) ∨
    (d.movedRow N r c = r ∧ ¬ (d.start ≤ c ∧ c < d.start + (N + 1) * d.tridiag ∧ r < d.start + (N + 1) * d.tridiag ∧
      (c - d.start) / d.tridiag < (r - d.start) / d.tridiag) ∧
      ¬ (d.start ≤ c ∧ c < d.start + (N + 1) * d.tridiag ∧ d.start + (N + 1) * d.tridiag + d.link ≤ r)) := by
  have e : d.movedRow N r c =
      if d.start ≤ c ∧ c < d.start + (N + 1) * d.tridiag then
        if r < d.start + (N + 1) * d.tridiag ∧ (c - d.start) / d.tridiag < (r - d.start) / d.tridiag then
          d.start + ((c - d.start) / d.tridiag + 1) * d.tridiag + (r - d.start) % d.tridiag
        else if d.start + (N + 1) * d.tridiag + d.link ≤ r then
          d.start + (N + 1) * d.tridiag + d.link + (r - (d.start + (N + 1) * d.tridiag + d.link)) % d.tridiag
        else r
      else r := rfl
  rw [e]
  clear e
  by_cases h1 : d.start ≤ c ∧ c < d.start + (N + 1) * d.tridiag
  · rw [if_pos h1]
    by_cases h2 : r < d.start + (N + 1) * d.tridiag ∧ (c - d.start) / d.tridiag < (r - d.start) / d.tridiag
    · rw [if_pos h2]
      exact Or.inl ⟨h1.1, h1.2, h2.1, h2.2, rfl⟩
    · rw [if_neg h2]
      by_cases h3 : d.start + (N + 1) * d.tridiag + d.link ≤ r
      · rw [if_pos h3]
        exact Or.inr (Or.inl ⟨h1.1, h1.2, h3, rfl⟩)
      · rw [if_neg h3]
        exact Or.inr (Or.inr ⟨rfl, fun h => h2 ⟨h.2.2.1, h.2.2.2⟩, fun h => h3 h.2.2⟩)
  · rw [if_neg h1]
    exact Or.inr (Or.inr ⟨rfl, fun h => h1 ⟨h.1, h.2.1⟩, fun h => h1 ⟨h.1, h.2.1⟩⟩)

/-- An entry is treated like the moved one. -/
theorem mtxPlaceEntry_moved (hs : s.Valid d) (hd : 0 < d.tridiag) (m : MtxArrowhead K) (e : MtxEntry K) :
    mtxPlaceEntry s N m e = mtxPlaceEntry s N m (e.moved d N) := by
  obtain ⟨r, c, v⟩ := e
  unfold MtxEntry.moved
  simp only
  rcases movedRow_cases d N r c with ⟨h0, h1, h2, h4, hm⟩ | ⟨h0, h1, h3, hm⟩ | ⟨hm, -⟩
  · rw [hm]
    have hcr : c ≤ r := by
      by_contra h
      exact absurd (Nat.div_le_div_right (c := d.tridiag) (show r - d.start ≤ c - d.start by omega)) (by omega)
    have ht : (r - d.start) / d.tridiag < N + 1 := by
      rw [Nat.div_lt_iff_lt_mul hd]
      omega
    generalize htt : (r - d.start) / d.tridiag = t at *
    generalize huu : (c - d.start) / d.tridiag = u at *
    have hi : (r - d.start) % d.tridiag < d.tridiag := Nat.mod_lt _ hd
    generalize hii : (r - d.start) % d.tridiag = i at *
    have hj : (c - d.start) % d.tridiag < d.tridiag := Nat.mod_lt _ hd
    have ec := Nat.div_add_mod (c - d.start) d.tridiag
    rw [huu, Nat.mul_comm] at ec
    have hu1 : (u + 1) * d.tridiag = u * d.tridiag + d.tridiag := Nat.succ_mul _ _
    have hle : (u + 1) * d.tridiag + d.tridiag ≤ (N + 1) * d.tridiag := by
      rw [← Nat.succ_mul]
      exact Nat.mul_le_mul_right _ (by omega)
    unfold mtxPlaceEntry
    rw [valid_dimStart hs, ok_bind, valid_dimTridiag hs, ok_bind, valid_dimLink hs, ok_bind]
    simp only [ok_bind]
    rw [mtxCheck_true (by simpa using hcr), ok_bind, mtxCheck_true (by rw [decide_eq_true_eq]; omega), ok_bind,
      if_neg (by omega), if_pos h2, if_neg (by omega), if_pos (by omega), usub_ok (by omega), ok_bind,
      usub_ok (by omega), ok_bind, usub_ok (by omega), ok_bind]
    unfold mtxAddEntryTridiag
    rw [valid_tridiagDim hs, ok_bind]
    have e1 : d.start + (u + 1) * d.tridiag + i - d.start = (u + 1) * d.tridiag + i := by omega
    have e2 : (t == u) = false := by simpa using (by omega : t ≠ u)
    have e3 : (u + 1 == u) = false := by simp
    simp only [udiv_ok (show d.tridiag ≠ 0 by omega), umod_ok (show d.tridiag ≠ 0 by omega), ok_bind, e1, huu, htt, hii,
      div_of_block hi, mod_of_block hi, e2, e3, ok_bind]
  · rw [hm]
    have hcr : c ≤ r := by omega
    have hi : (r - (d.start + (N + 1) * d.tridiag + d.link)) % d.tridiag < d.tridiag := Nat.mod_lt _ hd
    generalize hii : (r - (d.start + (N + 1) * d.tridiag + d.link)) % d.tridiag = i at *
    unfold mtxPlaceEntry
    rw [valid_dimStart hs, ok_bind, valid_dimTridiag hs, ok_bind, valid_dimLink hs, ok_bind]
    simp only [ok_bind]
    rw [mtxCheck_true (by simpa using hcr), ok_bind, mtxCheck_true (by rw [decide_eq_true_eq]; omega), ok_bind,
      if_neg (by omega), if_neg (by omega), if_neg (by omega), if_pos (by omega), if_neg (by omega), if_neg (by omega),
      if_neg (by omega), if_pos (by omega), usub_ok (by omega), ok_bind, ok_bind]
    unfold mtxAddEntryOuterSubdiag
    simp only [hs.outerSubdiag.2.2, udiv_ok (show d.tridiag ≠ 0 by omega),
      umod_ok (show d.tridiag ≠ 0 by omega), ok_bind, hii, Nat.add_sub_cancel_left, Nat.mod_eq_of_lt hi]
  · rw [hm]

/-- Moved entries are where the reader looks for them. -/
theorem moved_handles (hd : 0 < d.tridiag) {r c : Nat} (ho : ¬ d.Overruns N r c) : d.Handles N (d.movedRow N r c) c := by
  intro a b i j ha hb
  have hab := ha.block
  have hbb := hb.block
  obtain ⟨-, li, er⟩ := ha
  obtain ⟨-, lj, ec⟩ := hb
  unfold Dims.Overruns at ho
  simp only [Dims.before, Nat.one_mul] at ho
  have hmul : ∀ x y : Nat, x ≤ y → x * d.tridiag ≤ y * d.tridiag := fun x y h => Nat.mul_le_mul_right _ h
  have hN1 : d.tridiag ≤ (N + 1) * d.tridiag := Nat.le_mul_of_pos_left _ (by omega)
  refine ⟨fun h => ?_, fun t u h1 h2 => ?_, fun u h1 h2 => ?_⟩
  · subst h
    simp only [Dims.before, Dims.of] at lj ec
    have hm : d.movedRow N r c = r := by
      rcases movedRow_cases d N r c with h | h | h
      · omega
      · omega
      · exact h.1
    rw [hm] at er
    cases a with
    | start => exact Or.inl rfl
    | outer => exact Or.inr (Or.inr rfl)
    | link =>
      simp only [Dims.before, Dims.of] at li er
      exact absurd ⟨by omega, by omega, by omega⟩ ho
    | tridiag t =>
      have ht := mem_blocks_tridiag.mp hab
      simp only [Dims.before, Dims.of] at li er
      rcases Nat.eq_zero_or_pos t with rfl | h
      · exact Or.inr (Or.inl rfl)
      · have h1 := hmul 1 t h
        have h2 := tridiag_before_le (d := d) ht
        exact absurd ⟨by omega, by omega, by omega⟩ ho
  · subst h1 h2
    have ht := mem_blocks_tridiag.mp hab
    have hu := mem_blocks_tridiag.mp hbb
    have h2 := tridiag_before_le (d := d) ht
    have h3 := tridiag_before_le (d := d) hu
    simp only [Dims.before, Dims.of] at li er lj ec
    have ecu : (c - d.start) / d.tridiag = u := by
      rw [show c - d.start = u * d.tridiag + j by omega]
      exact div_of_block lj
    have ert : (d.movedRow N r c - d.start) / d.tridiag = t := by
      rw [show d.movedRow N r c - d.start = t * d.tridiag + i by omega]
      exact div_of_block li
    rcases movedRow_cases d N r c with ⟨h0, h1, h4, h5, hm⟩ | ⟨h0, h1, h4, hm⟩ | ⟨hm, h4, -⟩
    · rw [hm, ecu, Nat.add_assoc, Nat.add_sub_cancel_left, div_of_block (Nat.mod_lt _ hd)] at ert
      omega
    · omega
    · rw [hm] at ert er
      by_contra hlt
      exact h4 ⟨by omega, by omega, by omega, by omega⟩
  · subst h1 h2
    have hu := mem_blocks_tridiag.mp hbb
    have h3 := tridiag_before_le (d := d) hu
    simp only [Dims.before, Dims.of] at li er lj ec
    rcases movedRow_cases d N r c with ⟨h0, h1, h4, h5, hm⟩ | ⟨h0, h1, h4, hm⟩ | ⟨hm, -, h4⟩
    · have h6 : (r - d.start) / d.tridiag < N + 1 := by
        rw [Nat.div_lt_iff_lt_mul hd]
        omega
      have h7 := hmul ((c - d.start) / d.tridiag + 1 + 1) (N + 1) (by omega)
      rw [Nat.succ_mul ((c - d.start) / d.tridiag + 1)] at h7
      have := Nat.mod_lt (r - d.start) hd
      omega
    · have := Nat.mod_lt (r - (d.start + (N + 1) * d.tridiag + d.link)) hd
      omega
    · omega

theorem moved_lt (hd : 0 < d.tridiag) {r c : Nat} (hr : r < d.total N) : d.movedRow N r c < d.total N := by
  unfold Dims.total at *
  rcases movedRow_cases d N r c with ⟨h0, h1, h4, h5, hm⟩ | ⟨h0, h1, h4, hm⟩ | ⟨hm, -⟩
  · have h6 : (r - d.start) / d.tridiag < N + 1 := by
      rw [Nat.div_lt_iff_lt_mul hd]
      omega
    have h7 : ((c - d.start) / d.tridiag + 1 + 1) * d.tridiag ≤ (N + 1) * d.tridiag := Nat.mul_le_mul_right _ (by omega)
    rw [Nat.succ_mul ((c - d.start) / d.tridiag + 1)] at h7
    have := Nat.mod_lt (r - d.start) hd
    omega
  · have := Nat.mod_le (r - (d.start + (N + 1) * d.tridiag + d.link)) d.tridiag
    omega
  · omega

/-- An entry in a row which the block does not have. -/
theorem mtxPlaceEntry_overrun [Zero K] (hs : s.Valid d) {m : MtxArrowhead K} {done : List (MtxEntry K)}
    (hm : m.Placed s d N done) {e : MtxEntry K} (ho : d.Overruns N e.row e.col) :
    mtxPlaceEntry s N m e = .error .ub := by
  obtain ⟨r, c, v⟩ := e
  unfold Dims.Overruns at ho
  simp only [Dims.before, Nat.one_mul] at ho
  obtain ⟨h1, h2, h3⟩ := ho
  unfold mtxPlaceEntry
  rw [valid_dimStart hs, ok_bind, valid_dimTridiag hs, ok_bind, valid_dimLink hs, ok_bind]
  simp only
  rw [mtxCheck_true (by rw [decide_eq_true_eq]; omega), ok_bind, if_pos h1, if_pos h3]
  unfold mtxAddEntryStart
  have hdim := valid_dimStart hs
  unfold ArrowheadSparsity.dimStart at hdim
  rw [hdim, ok_bind]
  simp only
  rw [if_neg (by omega)]
  obtain ⟨q, hq, hh⟩ := hm.slots .startNext trivial
  obtain rfl : m.startNext = q := Option.some.inj hq
  unfold mtxAddEntry
  have hf : (csrOf s.start.next).find (r - d.start) c = .error .ub := by
    have hr : ¬ r - d.start + 1 < (csrOf s.start.next).rowBegin.length := by
      unfold csrOf
      simp only [List.length_map, List.length_range]
      rw [hs.startNext.2.1]
      omega
    unfold Csr.find Csr.rowView Csr.rowRange
    rw [rd_error hr]
    cases h : rd (csrOf s.start.next).rowBegin (r - d.start) with
    | ok b => rfl
    | error e =>
      have : e = .ub := by
        by_cases hl : r - d.start < (csrOf s.start.next).rowBegin.length
        · rw [rd_ok hl] at h
          cases h
        · rw [rd_error hl] at h
          exact (Except.error.inj h).symm
      rw [this]
      rfl
  simp only
  rw [hh.sparsity]
  unfold Csr.isNonZero
  rw [show csrOf (Slot.pattern s Slot.startNext) = csrOf s.start.next from rfl, hf]
  rfl

end Ctldl
