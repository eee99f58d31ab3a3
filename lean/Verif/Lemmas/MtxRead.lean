import Verif.Lemmas.MtxFormat

/-! # Matrix files: all entries -/

namespace Ctldl

open Finset

variable {K : Type} {s : ArrowheadSparsity} {d : Dims} {N : Nat}

theorem fileValue_append [Zero K] (done : List (MtxEntry K)) (e : MtxEntry K) (r c : Nat) :
    fileValue (done ++ [e]) r c = if r = e.row ∧ c = e.col then e.value else fileValue done r c := by
  unfold fileValue
  rw [List.reverse_append, List.reverse_singleton, List.singleton_append, List.find?_cons]
  by_cases h : r = e.row ∧ c = e.col
  · obtain ⟨rfl, rfl⟩ := h
    simp
  · rw [if_neg h]
    have : (e.row == r && e.col == c) = false := by
      rw [Bool.and_eq_false_iff, beq_eq_false_iff_ne, beq_eq_false_iff_ne]
      by_contra hc
      have := not_or.mp hc
      exact h ⟨(not_not.mp this.1).symm, (not_not.mp this.2).symm⟩
    rw [this]

/-- The values of the entries processed so far are in their places. -/
structure MtxArrowhead.Placed [Zero K] (m : MtxArrowhead K) (s : ArrowheadSparsity) (d : Dims) (N : Nat)
    (done : List (MtxEntry K)) : Prop where
  counts : m.Counts N
  slots : ∀ σ : Slot, σ.Ok N → ∃ q, σ.get m = some q ∧ q.Holds (σ.pattern s) fun i j =>
    fileValue done (d.before N (σ.row N) + i) (d.before N (σ.col N) + j)

theorem mtxEmpty_sat [Zero K] (hs : s.Valid d) :
    Sat (mtxEmpty (K := K) s N) (fun m => m.Placed s d N []) := by
  have hz : (fun (i j : Nat) => fileValue ([] : List (MtxEntry K)) i j) = fun _ _ => 0 := rfl
  unfold mtxEmpty
  refine Sat.bind (MtxMatrix.new_sat hs.startDiag.1) fun q1 h1 => ?_
  refine Sat.bind (MtxMatrix.new_sat hs.startNext.1) fun q2 h2 => ?_
  refine Sat.bind (MtxMatrix.new_sat hs.startOuter.1) fun q3 h3 => ?_
  refine Sat.bind (MtxMatrix.new_sat hs.tridiagDiag.1) fun q4 h4 => ?_
  refine Sat.bind (MtxMatrix.new_sat hs.tridiagSubdiag.1) fun q5 h5 => ?_
  refine Sat.bind (MtxMatrix.new_sat hs.linkPrev.1) fun q6 h6 => ?_
  refine Sat.bind (MtxMatrix.new_sat hs.linkDiag.1) fun q7 h7 => ?_
  refine Sat.bind (MtxMatrix.new_sat hs.linkNext.1) fun q8 h8 => ?_
  refine Sat.bind (MtxMatrix.new_sat hs.outerSubdiag.1) fun q9 h9 => ?_
  refine Sat.bind (MtxMatrix.new_sat hs.outerDiag.1) fun q10 h10 => ?_
  refine Sat.pure ⟨⟨by simp, by simp, by simp⟩, ?_⟩
  intro σ hσ
  cases σ with
  | startDiag => exact ⟨q1, rfl, h1⟩
  | startNext => exact ⟨q2, rfl, h2⟩
  | startOuter => exact ⟨q3, rfl, h3⟩
  | tridiagDiag t =>
    refine ⟨q4, ?_, h4⟩
    simp only [Slot.get, Slot.Ok] at *
    rw [List.getElem?_replicate, if_pos (by omega)]
  | tridiagSubdiag t =>
    refine ⟨q5, ?_, h5⟩
    simp only [Slot.get, Slot.Ok] at *
    rw [List.getElem?_replicate, if_pos (by omega)]
  | linkPrev => exact ⟨q6, rfl, h6⟩
  | linkDiag => exact ⟨q7, rfl, h7⟩
  | linkNext => exact ⟨q8, rfl, h8⟩
  | outerSubdiag t =>
    refine ⟨q9, ?_, h9⟩
    simp only [Slot.get, Slot.Ok] at *
    rw [List.getElem?_replicate, if_pos (by omega)]
  | outerDiag => exact ⟨q10, rfl, h10⟩

/-- A covered entry is stored. -/
theorem mtxPlaceEntry_covered [Zero K] (hs : s.Valid d) {m : MtxArrowhead K} {done : List (MtxEntry K)}
    (hm : m.Placed s d N done) {e : MtxEntry K} (hc : s.Covers d N e.row e.col) (hh : d.Handles N e.row e.col) :
    Sat (mtxPlaceEntry s N m e) (fun m' => m'.Placed s d N (done ++ [e])) := by
  obtain ⟨hle, σ, i, j, hok, hr, hcol, hhas⟩ := covers_iff.mp hc
  obtain ⟨q, hq, hholds⟩ := hm.slots σ hok
  have hout : ∀ t, σ = .outerSubdiag t → i < d.tridiag := by
    intro t ht
    subst ht
    exact (hh _ _ i j hr hcol).2.2 t rfl rfl
  have hdims := Slot.pattern_dims hs N σ
  rw [show e = ⟨e.row, e.col, e.value⟩ from rfl, mtxPlaceEntry_slot hs hok hq hr hcol hle hout]
  refine Sat.bind (mtxAddEntry_covered hholds hdims.1 hhas) fun q' hq' => Sat.ok ⟨hm.counts.put σ q', ?_⟩
  intro τ hτ
  by_cases heq : σ = τ
  · subst heq
    refine ⟨q', Slot.get_put_self hq, hq'.congr hdims.1 ?_⟩
    intro i' j' _
    beta_reduce
    rw [fileValue_append]
    simp only [hr.eq, hcol.eq, Nat.add_left_cancel_iff]
  · obtain ⟨p, hp, hpholds⟩ := hm.slots τ hτ
    refine ⟨p, by rw [Slot.get_put_ne heq]; exact hp, ?_⟩
    have hτd := Slot.pattern_dims hs N τ
    refine hpholds.congr hτd.1 ?_
    intro i' j' hij
    have hlt := hτd.1 _ hij
    rw [hτd.2.1, hτd.2.2] at hlt
    beta_reduce
    rw [fileValue_append, if_neg]
    rintro ⟨h1, h2⟩
    have u1 := Dims.Locates.unique (d := d) hr ⟨Slot.row_mem hτ, hlt.1, h1.symm⟩
    have u2 := Dims.Locates.unique (d := d) hcol ⟨Slot.col_mem hτ, hlt.2, h2.symm⟩
    exact heq (Slot.eq_of u1.1 u2.1)

/-- An entry which is not covered is reported. -/
theorem mtxPlaceEntry_uncovered [Zero K] (hs : s.Valid d) (hd : 0 < d.tridiag) {m : MtxArrowhead K}
    {done : List (MtxEntry K)} (hm : m.Placed s d N done) {e : MtxEntry K} (hr : e.row < d.total N)
    (hcl : e.col < d.total N) (hc : ¬ s.Covers d N e.row e.col) (hh : d.Handles N e.row e.col) :
    (e.row < e.col ∧ mtxPlaceEntry s N m e = .error (.mtx .upperTriangle)) ∨
      (e.col ≤ e.row ∧ mtxPlaceEntry s N m e = .error (.mtx .notCovered)) := by
  obtain ⟨a, i, ha⟩ := locate hd hr
  obtain ⟨b, j, hb⟩ := locate hd hcl
  by_cases hex : ∃ σ : Slot, σ.Ok N ∧ σ.row N = a ∧ σ.col N = b ∧ e.col ≤ e.row
  · obtain ⟨σ, hok, rfl, rfl, hle⟩ := hex
    obtain ⟨q, hq, hholds⟩ := hm.slots σ hok
    have hout : ∀ t, σ = .outerSubdiag t → i < d.tridiag := by
      intro t ht
      subst ht
      exact (hh _ _ i j ha hb).2.2 t rfl rfl
    have hdims := Slot.pattern_dims hs N σ
    refine Or.inr ⟨hle, ?_⟩
    rw [show e = ⟨e.row, e.col, e.value⟩ from rfl, mtxPlaceEntry_slot hs hok hq ha hb hle hout,
      mtxAddEntry_uncovered hholds hdims.1 (by rw [hdims.2.1]; exact ha.lt), error_bind]
    exact fun hhas => hc (covers_iff.mpr ⟨hle, σ, i, j, hok, ha, hb, hhas⟩)
  · refine mtxPlaceEntry_none hs ha hb hh ?_
    intro σ h1 h2 h3
    by_contra hlt
    exact hex ⟨σ, h1, h2, h3, by omega⟩

theorem placeAll_covered [Zero K] (hs : s.Valid d) {m : MtxArrowhead K} (hm : m.Placed s d N [])
    {entries : List (MtxEntry K)} (hc : ∀ e ∈ entries, s.Covers d N e.row e.col ∧ d.Handles N e.row e.col) :
    Sat (entries.foldlM (mtxPlaceEntry s N) m) (fun m' => m'.Placed s d N entries) := by
  refine foldlM_inv (fun pre (m : MtxArrowhead K) => m.Placed s d N pre) hm ?_
  intro pre e suf m' hl hm'
  have := hc e (by rw [hl]; simp)
  exact mtxPlaceEntry_covered hs hm' this.1 this.2

theorem placeAll_uncovered [Zero K] (hs : s.Valid d) (hd : 0 < d.tridiag) {m : MtxArrowhead K}
    {done entries : List (MtxEntry K)} (hm : m.Placed s d N done)
    (hr : ∀ e ∈ entries, (e.row < d.total N ∧ e.col < d.total N) ∧ d.Handles N e.row e.col)
    (hc : ∃ e ∈ entries, ¬ s.Covers d N e.row e.col) :
    entries.foldlM (mtxPlaceEntry s N) m = .error (.mtx .upperTriangle) ∨
      entries.foldlM (mtxPlaceEntry s N) m = .error (.mtx .notCovered) := by
  induction entries generalizing done m with
  | nil => simp at hc
  | cons e es ih =>
    rw [List.foldlM_cons]
    have he := hr e (by simp)
    by_cases hce : s.Covers d N e.row e.col
    · obtain ⟨m', h1, h2⟩ := mtxPlaceEntry_covered hs hm hce he.2
      rw [h1, ok_bind]
      refine ih h2 (fun e' he' => hr e' (by simp [he'])) ?_
      obtain ⟨e', he', hn⟩ := hc
      rcases List.mem_cons.mp he' with rfl | he'
      · exact absurd hce hn
      · exact ⟨e', he', hn⟩
    · rcases mtxPlaceEntry_uncovered hs hd hm he.1.1 he.1.2 hce he.2 with ⟨-, h⟩ | ⟨-, h⟩ <;> rw [h, error_bind]
      · exact Or.inl rfl
      · exact Or.inr rfl

theorem getD_map_toMatIn {l : List (MtxMatrix K)} {t : Nat} {q : MtxMatrix K} (h : l[t]? = some q) :
    (l.map MtxMatrix.toMatIn).getD t (.empty K) = q.toMatIn := by
  rw [List.getD_eq_getElem?_getD, List.getElem?_map, h]; rfl

theorem toMatrix_diagBlock {m : MtxArrowhead K} {b : Blk} {q : MtxMatrix K} (h : b.slot.get m = some q) :
    m.toMatrix.diagBlock b = q.toMatIn := by
  cases b <;> simp only [Blk.slot, Slot.get, Option.some.injEq] at h
  · subst h; rfl
  · exact getD_map_toMatIn h
  · subst h; rfl
  · subst h; rfl

theorem toMatrix_lowerBlock {m : MtxArrowhead K} {σ : Slot} {q : MtxMatrix K} (hok : σ.Ok N)
    (hne : σ.row N ≠ σ.col N) (h : σ.get m = some q) :
    m.toMatrix.lowerBlock N (σ.row N) (σ.col N) = some q.toMatIn := by
  cases σ <;> simp only [Slot.get, Slot.row, Slot.col, Slot.Ok, ne_eq, not_true_eq_false, Option.some.injEq] at * <;>
    simp_all [ArrowheadMatrix.lowerBlock, MtxArrowhead.toMatrix]

theorem MtxArrowhead.Placed.isFile [AddCommMonoid K] (hs : s.Valid d) {m : MtxArrowhead K}
    {entries : List (MtxEntry K)} (hm : m.Placed s d N entries)
    (hc : ∀ e ∈ entries, s.Covers d N e.row e.col) : m.toMatrix.IsFile s d N entries := by
  have hzero : ∀ σ : Slot, σ.Ok N → ∀ i < (σ.pattern s).numRows, ∀ j < (σ.pattern s).numCols,
      ¬ (σ.pattern s).Has i j → fileValue entries (d.before N (σ.row N) + i) (d.before N (σ.col N) + j) = 0 := by
    intro σ hok i hi j hj hn
    have hσ := Slot.pattern_dims hs N σ
    rw [hσ.2.1] at hi
    rw [hσ.2.2] at hj
    unfold fileValue
    split
    · rename_i e he
      have h1 := List.find?_some he
      have h2 := List.mem_of_find?_eq_some he
      rw [List.mem_reverse] at h2
      simp only [Bool.and_eq_true, beq_iff_eq] at h1
      obtain ⟨-, τ, i', j', hτ, hr, hcol, hhas⟩ := covers_iff.mp (hc e h2)
      have u1 := Dims.Locates.unique (d := d) hr ⟨Slot.row_mem hok, hi, h1.1⟩
      have u2 := Dims.Locates.unique (d := d) hcol ⟨Slot.col_mem hok, hj, h1.2⟩
      have := Slot.eq_of u1.1 u2.1
      subst this
      rw [u1.2, u2.2] at hhas
      exact absurd hhas hn
    · rfl
  refine ⟨by simpa [toMatrix] using hm.counts.diag, by simpa [toMatrix] using hm.counts.subdiag,
    by simpa [toMatrix] using hm.counts.outer, ?_, ?_⟩
  · intro b hb
    obtain ⟨q, hq, hholds⟩ := hm.slots b.slot (Blk.slot_ok hb)
    rw [toMatrix_diagBlock hq]
    have hz := hzero b.slot (Blk.slot_ok hb)
    rw [Blk.slot_pattern] at hholds hz
    rw [Blk.slot_row, Blk.slot_col] at hholds hz
    have hdims := Slot.pattern_dims hs N b.slot
    rw [Blk.slot_pattern] at hdims
    exact hholds.stores hdims.1 hz
  · intro a b p hp
    obtain ⟨σ, hok, rfl, rfl, hne, rfl⟩ := lowerBlock_slot.mp hp
    obtain ⟨q, hq, hholds⟩ := hm.slots σ hok
    exact ⟨_, toMatrix_lowerBlock hok hne hq, hholds.stores (Slot.pattern_dims hs N σ).1 (hzero σ hok)⟩

/-- The number of repetitions of a file of the right size. -/
theorem mtxNumRepetitions_cases (hs : s.Valid d) (hd : 0 < d.tridiag) (h : MtxDimensions) :
    (∃ N, mtxNumRepetitions s h = .ok N ∧ h.numRows = h.numCols ∧ h.numRows = d.total N) ∨
      ((∃ e, mtxNumRepetitions s h = .error (.mtx e)) ∧ ¬ ∃ N, h.numRows = h.numCols ∧ h.numRows = d.total N) := by
  unfold mtxNumRepetitions
  by_cases h1 : h.numRows = h.numCols
  · rw [mtxCheck_true (by simpa using h1), ok_bind, valid_dimStart hs, ok_bind, valid_dimLink hs, ok_bind,
      valid_dimOuter hs, ok_bind]
    simp only
    by_cases h2 : h.numRows > d.start + d.link + d.outer
    · rw [mtxCheck_true (by simpa using h2), ok_bind, valid_dimTridiag hs, ok_bind, umod_ok (by omega), ok_bind]
      by_cases h3 : (h.numRows - (d.start + d.link + d.outer)) % d.tridiag = 0
      · rw [mtxCheck_true (by simpa using h3), ok_bind, udiv_ok (by omega), ok_bind]
        left
        obtain ⟨k, hk⟩ := Nat.dvd_of_mod_eq_zero h3
        have hk0 : k ≠ 0 := by rintro rfl; rw [Nat.mul_zero] at hk; omega
        rw [hk, Nat.mul_div_cancel_left _ hd, usub_ok (by omega)]
        refine ⟨_, rfl, h1, ?_⟩
        unfold Dims.total
        rw [show k - 1 + 1 = k by omega, Nat.mul_comm]
        omega
      · right
        refine ⟨⟨_, by rw [mtxCheck_false (by simpa using h3)]; rfl⟩, ?_⟩
        rintro ⟨N, -, hN⟩
        apply h3
        unfold Dims.total at hN
        rw [hN, show d.start + (N + 1) * d.tridiag + d.link + d.outer - (d.start + d.link + d.outer) =
          (N + 1) * d.tridiag by omega, Nat.mul_mod_left]
    · right
      refine ⟨⟨_, by rw [mtxCheck_false (by simpa using h2)]; rfl⟩, ?_⟩
      rintro ⟨N, -, hN⟩
      unfold Dims.total at hN
      have : 0 < (N + 1) * d.tridiag := Nat.mul_pos (by omega) hd
      omega
  · right
    exact ⟨⟨_, by rw [mtxCheck_false (by simpa using h1)]; rfl⟩, fun ⟨N, h', _⟩ => h1 h'⟩

theorem total_inj (hd : 0 < d.tridiag) {M : Nat} (h : d.total N = d.total M) : N = M := by
  unfold Dims.total at h
  have : (N + 1) * d.tridiag = (M + 1) * d.tridiag := by omega
  have := Nat.eq_of_mul_eq_mul_right hd this
  omega

end Ctldl
