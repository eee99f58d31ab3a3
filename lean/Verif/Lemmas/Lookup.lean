import Verif.Lemmas.Sparsity

/-! # Contribution lists, influenced lists, value look-up: helper lemmas -/

namespace Ctldl

/-- Within every row the columns are strictly increasing from left to right. -/
def Csr.ColsSorted (c : Csr) : Prop :=
  ∀ e e' i a b : Nat, e < e' → c.entries[e]? = some (⟨i, a⟩ : Entry) → c.entries[e']? = some (⟨i, b⟩ : Entry) → a < b

theorem colsSorted_of_sorted {c : Csr} (h : c.toSparsity.Sorted) : c.ColsSorted := by
  intro e e' i a b hlt h1 h2
  obtain ⟨h3, h4⟩ := List.getElem?_eq_some_iff.mp h1
  obtain ⟨h5, h6⟩ := List.getElem?_eq_some_iff.mp h2
  have := List.pairwise_iff_getElem.mp h e e' h3 h5 hlt
  rw [h4, h6] at this
  unfold rowMajorLt at this
  simp only at this
  omega

theorem Csr.ColsSorted.lt_iff {c : Csr} (h : c.ColsSorted) {e e' i a b : Nat}
    (h1 : c.entries[e]? = some ⟨i, a⟩) (h2 : c.entries[e']? = some ⟨i, b⟩) : e < e' ↔ a < b := by
  rcases Nat.lt_trichotomy e e' with hlt | heq | hgt
  · exact ⟨fun _ => h _ _ _ _ _ hlt h1 h2, fun _ => hlt⟩
  · subst heq; rw [h1] at h2; simp at h2; omega
  · have := h _ _ _ _ _ hgt h2 h1
    omega

theorem contributionsLoop_sat {sparsity below : Csr} (hs : sparsity.Ok) (hb : below.Ok)
    (hss : sparsity.ColsSorted) (hbs : below.ColsSorted) {i j limit : Nat}
    (hi : i < below.numRows) (hj : j < sparsity.numRows) :
    ∀ fuel ik jk acc, rb below i ≤ ik → ik ≤ rb below (i + 1) → rb sparsity j ≤ jk →
      jk ≤ rb sparsity (j + 1) → rb below (i + 1) - ik + (rb sparsity (j + 1) - jk) < fuel →
      acc.Pairwise (fun a b => a.k < b.k) →
      (∀ c, c ∈ acc ↔ IsContribution sparsity below i j limit c ∧ c.ik < ik) →
      (∀ c, IsContribution sparsity below i j limit c → (c.ik < ik ↔ c.jk < jk)) →
      Sat (contributionsLoop sparsity below (rb below (i + 1)) (rb sparsity (j + 1)) limit fuel ik jk acc)
        (fun l => l.Pairwise (fun a b => a.k < b.k) ∧
          ∀ c, c ∈ l ↔ IsContribution sparsity below i j limit c) := by
  intro fuel
  induction fuel with
  | zero => intro ik jk acc _ _ _ _ hf; omega
  | succ fuel ih =>
    intro ik jk acc h1 h2 h3 h4 hf hsort hmem hiff
    have hposI : ∀ c, IsContribution sparsity below i j limit c → c.ik < rb below (i + 1) := by
      intro c hc
      exact (hb.pos_in_row hc.2.1).2
    have hposJ : ∀ c, IsContribution sparsity below i j limit c → c.jk < rb sparsity (j + 1) := by
      intro c hc
      exact (hs.pos_in_row hc.2.2).2
    -- all remaining cases of stopping: every contribution is already in `acc`
    have hstop : (∀ c, IsContribution sparsity below i j limit c → c.ik < ik) →
        Sat (Except.ok acc : Res (List Contribution)) (fun l => l.Pairwise (fun a b => a.k < b.k) ∧
          ∀ c, c ∈ l ↔ IsContribution sparsity below i j limit c) := by
      intro hall
      refine Sat.ok ⟨hsort, fun c => ?_⟩
      rw [hmem c]
      exact ⟨fun h => h.1, fun h => ⟨h, hall c h⟩⟩
    unfold contributionsLoop
    split
    · next hcond =>
      obtain ⟨colI, hcI, -⟩ := hb.row_of_pos (e := ik) hi h1 (by omega)
      obtain ⟨colJ, hcJ, -⟩ := hs.row_of_pos (e := jk) hj h3 (by omega)
      rw [rd_of_getElem? hcI, ok_bind, rd_of_getElem? hcJ, ok_bind]
      simp only
      split
      · next hlim =>
        apply hstop
        intro c hc
        rcases hlim with hl | hl
        · rw [hbs.lt_iff hc.2.1 hcI]; have := hc.1; omega
        · rw [hiff c hc, hss.lt_iff hc.2.2 hcJ]; have := hc.1; omega
      · next hlim =>
        have hltI : ∀ c, IsContribution sparsity below i j limit c → (c.ik < ik ↔ c.k < colI) :=
          fun c hc => hbs.lt_iff hc.2.1 hcI
        have hltJ : ∀ c, IsContribution sparsity below i j limit c → (c.jk < jk ↔ c.k < colJ) :=
          fun c hc => hss.lt_iff hc.2.2 hcJ
        have heqI : ∀ c, IsContribution sparsity below i j limit c → (c.ik = ik ↔ c.k = colI) := by
          intro c hc
          constructor
          · intro h
            have := hc.2.1
            rw [h, hcI] at this
            simp at this; exact this.symm
          · intro h
            have h5 := hbs.lt_iff hc.2.1 hcI
            have h6 := hbs.lt_iff hcI hc.2.1
            omega
        have heqJ : ∀ c, IsContribution sparsity below i j limit c → (c.jk = jk ↔ c.k = colJ) := by
          intro c hc
          constructor
          · intro h
            have := hc.2.2
            rw [h, hcJ] at this
            simp at this; exact this.symm
          · intro h
            have h5 := hss.lt_iff hc.2.2 hcJ
            have h6 := hss.lt_iff hcJ hc.2.2
            omega
        rcases Nat.lt_trichotomy colI colJ with hlt | heq | hgt
        · rw [if_neg (show ¬ colI = colJ by omega), if_pos (show colI ≤ colJ by omega),
            if_neg (show ¬ colJ ≤ colI by omega)]
          refine ih _ _ _ (by omega) (by omega) (by omega) (by omega) (by omega) ?_ ?_ ?_
          · exact hsort
          · intro c
            rw [hmem c]
            constructor
            · rintro ⟨h5, h6⟩; exact ⟨h5, by omega⟩
            · rintro ⟨h5, h6⟩
              refine ⟨h5, ?_⟩
              have a1 := hltI c h5
              have a2 := hltJ c h5
              have a3 := heqI c h5
              have a4 := hiff c h5
              omega
          · intro c h5
            have a1 := hltI c h5
            have a2 := hltJ c h5
            have a3 := heqI c h5
            have a4 := hiff c h5
            omega
        · subst heq
          rw [if_pos rfl, if_pos (Nat.le_refl colI)]
          have hnew : IsContribution sparsity below i j limit ⟨ik, jk, colI⟩ :=
            ⟨by simp only; omega, hcI, hcJ⟩
          refine ih _ _ _ (by omega) (by omega) (by omega) (by omega) (by omega) ?_ ?_ ?_
          · rw [List.pairwise_append]
            refine ⟨hsort, by simp, ?_⟩
            intro c hc c' hc'
            simp only [List.mem_singleton] at hc'
            subst hc'
            obtain ⟨h5, h6⟩ := (hmem c).mp hc
            exact (hltI c h5).mp h6
          · intro c
            rw [List.mem_append, hmem c, List.mem_singleton]
            constructor
            · rintro (⟨h5, h6⟩ | rfl)
              · exact ⟨h5, by omega⟩
              · exact ⟨hnew, by simp only; omega⟩
            · rintro ⟨h5, h6⟩
              rcases Nat.lt_or_eq_of_le (Nat.le_of_lt_succ h6) with h7 | h7
              · exact Or.inl ⟨h5, h7⟩
              · have h8 := (heqI c h5).mp h7
                have h9 := (heqJ c h5).mpr h8
                right
                cases c
                simp_all
          · intro c h5
            have a1 := hltI c h5
            have a2 := hltJ c h5
            have a3 := heqI c h5
            have a4 := heqJ c h5
            omega
        · rw [if_neg (show ¬ colI = colJ by omega), if_neg (show ¬ colI ≤ colJ by omega),
            if_pos (show colJ ≤ colI by omega)]
          refine ih _ _ _ (by omega) (by omega) (by omega) (by omega) (by omega) ?_ ?_ ?_
          · exact hsort
          · intro c
            rw [hmem c]
            simp only [Nat.add_zero]
          · intro c h5
            have a1 := hltI c h5
            have a2 := hltJ c h5
            have a3 := heqJ c h5
            have a4 := hiff c h5
            omega
    · next hcond =>
      apply hstop
      intro c hc
      by_cases hI : ik = rb below (i + 1)
      · rw [hI]; exact hposI c hc
      · have hJ : jk = rb sparsity (j + 1) := by
          by_contra hJ; exact hcond ⟨hI, hJ⟩
        rw [hiff c hc, hJ]; exact hposJ c hc

theorem getContributionsLimit_sat {sparsity below : Csr} (hs : sparsity.Ok) (hb : below.Ok)
    (hss : sparsity.ColsSorted) (hbs : below.ColsSorted) {i j : Nat} (limit : Nat)
    (hi : i < below.numRows) (hj : j < sparsity.numRows) :
    Sat (getContributionsLimit sparsity below i j limit)
      (fun l => l.Pairwise (fun a b => a.k < b.k) ∧
        ∀ c, c ∈ l ↔ IsContribution sparsity below i j limit c) := by
  unfold getContributionsLimit
  rw [hb.rd_rowBegin (by omega), ok_bind, hb.rd_rowBegin (by omega), ok_bind,
    hs.rd_rowBegin (by omega), ok_bind, hs.rd_rowBegin (by omega), ok_bind]
  have h1 := hb.rb_le (i := i + 1) (by omega)
  have h2 := hs.rb_le (i := j + 1) (by omega)
  apply contributionsLoop_sat hs hb hss hbs hi hj
  · exact Nat.le_refl _
  · exact Csr.Ok.rb_mono _ (by omega)
  · exact Nat.le_refl _
  · exact Csr.Ok.rb_mono _ (by omega)
  · omega
  · exact List.Pairwise.nil
  · intro c
    simp only [List.not_mem_nil, false_iff]
    rintro ⟨h3, h4⟩
    have : rb below i ≤ c.ik := (hb.pos_in_row h3.2.1).1
    omega
  · intro c h3
    have h4 : rb below i ≤ c.ik := (hb.pos_in_row h3.2.1).1
    have h5 : rb sparsity j ≤ c.jk := (hs.pos_in_row h3.2.2).1
    omega

/-- The influenced list as a function of the two patterns. -/
def influencedOf (i j : Nat) (source target : Csr) (limit : Nat) : List Influenced :=
  ((List.range limit).filter (fun k => source.toSparsity.Has k j)).map
    (fun k => ⟨source.entries.idxOf ⟨k, j⟩, target.entries.idxOf ⟨i, k⟩⟩)

theorem getInfluencedListLimit_eq {i j : Nat} {source target : Csr} {limit : Nat} (hs : source.Ok)
    (ht : target.Ok) (hl : limit ≤ source.numRows)
    (hfill : ∀ k < limit, source.toSparsity.Has k j → target.toSparsity.Has i k) :
    getInfluencedListLimit i j source target limit = .ok (influencedOf i j source target limit) := by
  unfold getInfluencedListLimit
  obtain ⟨l, h1, h2⟩ := foldlM_range_inv
    (f := fun list k => do
      if ← source.isNonZero k j then
        return list ++ [⟨← source.entryIndex k j, ← target.entryIndex i k⟩]
      else return list) (n := limit) (init := ([] : List Influenced))
    (fun k l => l = influencedOf i j source target k) rfl (by
    rintro k l hk rfl
    rw [hs.isNonZero_eq j (by omega), ok_bind]
    unfold influencedOf
    rw [List.range_succ, List.filter_append, List.map_append]
    by_cases hh : source.toSparsity.Has k j
    · simp only [hh, decide_true, if_true]
      rw [hs.entryIndex_eq hh, ok_bind, ht.entryIndex_eq (hfill k hk hh), ok_bind]
      refine Sat.pure ?_
      simp [hh]
    · simp only [hh, decide_false, Bool.false_eq_true, if_false]
      refine Sat.pure ?_
      simp [hh])
  rw [h1, h2]

theorem findEntryIndex_eq (s : Sparsity) (e : Entry) :
    findEntryIndex s e = if e ∈ s.entries then some (s.entries.idxOf e) else none := by
  unfold findEntryIndex
  simp only
  have h : s.entries.findIdx (fun e' => e' == e) = s.entries.idxOf e := rfl
  rw [h]
  by_cases he : e ∈ s.entries
  · rw [if_pos he, if_neg]
    exact Nat.ne_of_lt (List.idxOf_lt_length_iff.mpr he)
  · rw [if_neg he, if_pos (List.idxOf_eq_length he)]

theorem getMatrixValueAt_eq {K : Type _} [Zero K] {m : MatIn K}
    (h : m.values.length = m.sparsity.entries.length) (i j : Nat) :
    getMatrixValueAt m i j = .ok (m.elem i j) := by
  unfold getMatrixValueAt MatIn.elem
  rw [findEntryIndex_eq]
  by_cases he : (⟨i, j⟩ : Entry) ∈ m.sparsity.entries
  · rw [if_pos he, if_pos (show m.sparsity.Has i j from he)]
    simp only [MatIn.valueAt]
    have hlt : m.sparsity.entries.idxOf (⟨i, j⟩ : Entry) < m.values.length := by
      rw [h]; exact List.idxOf_lt_length_iff.mpr he
    rw [rd_ok hlt, List.getD_eq_getElem?_getD, List.getElem?_eq_getElem hlt]; rfl
  · rw [if_neg he, if_neg (show ¬ m.sparsity.Has i j from he)]

end Ctldl
