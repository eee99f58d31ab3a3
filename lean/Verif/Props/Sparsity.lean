import Verif.Lemmas.Lookup
import Verif.Lemmas.BoolMatrix

/-! # C03 – C11, C43: sparsity patterns and look-ups -/

namespace Ctldl

/-- Pattern used as witness: a 4 x 4 pattern in no particular order, with a duplicate, a diagonal and an upper
entry. -/
def witnessSparsity : Sparsity := ⟨4, 4, [⟨3, 1⟩, ⟨1, 0⟩, ⟨3, 1⟩, ⟨2, 2⟩, ⟨0, 3⟩, ⟨3, 0⟩]⟩

theorem witnessSparsity_inRange : witnessSparsity.InRange := by unfold Sparsity.InRange; decide

/-! ### C03 -/

/-- C03: construction succeeds exactly for in-range entries, with exactly the given data. -/
theorem C03_construct_ok_iff (numRows numCols : Nat) (entries : List Entry) (s : Sparsity) :
    Sparsity.make numRows numCols entries = .ok s ↔
      (∀ e ∈ entries, e.row < numRows ∧ e.col < numCols) ∧
        s.numRows = numRows ∧ s.numCols = numCols ∧ s.entries = entries ∧ s.nnz = entries.length := by
  rw [make_ok_iff]
  constructor
  · rintro ⟨rfl, h⟩; exact ⟨h, rfl, rfl, rfl, rfl⟩
  · rintro ⟨h1, h2, h3, h4, -⟩
    obtain ⟨a, b, l⟩ := s
    simp only at h2 h3 h4
    subst h2 h3 h4
    exact ⟨rfl, h1⟩

/-- C03: otherwise, and only otherwise, the result is a contract violation. -/
theorem C03_construct_pre_iff (numRows numCols : Nat) (entries : List Entry) :
    Sparsity.make numRows numCols entries = .error .pre ↔
      ∃ e ∈ entries, numRows ≤ e.row ∨ numCols ≤ e.col := by
  by_cases h : (⟨numRows, numCols, entries⟩ : Sparsity).InRange
  · rw [make_eq h]
    constructor
    · intro h'; cases h'
    · rintro ⟨e, he, h'⟩
      have := h e he
      simp only at this
      omega
  · have h1 : Sparsity.make numRows numCols entries = .error .pre := by
      unfold Sparsity.make pre
      rw [if_neg]
      · rfl
      · intro hall
        apply h
        intro e he
        have := List.all_eq_true.mp hall e he
        simpa [inBounds] using this
    rw [h1]
    simp only [true_iff]
    by_contra hne
    apply h
    intro e he
    by_contra hb
    exact hne ⟨e, he, by simp only at hb; omega⟩

example : Sparsity.make 4 4 witnessSparsity.entries = .ok witnessSparsity ∧
    Sparsity.make 4 3 witnessSparsity.entries = .error .pre := by decide

/-! ### C04 -/

/-- C04: conversion to compressed rows succeeds, keeps dimensions and the multiset of entries, and the row
views are exactly the subsequences of the entries of that row in their given order. -/
theorem C04_csr_rows (s : Sparsity) (h : s.InRange) :
    ∃ c, s.toCsr = .ok c ∧ c.numRows = s.numRows ∧ c.numCols = s.numCols ∧
      c.entries.Perm s.entries ∧
      ∀ i < s.numRows, c.rowView i = .ok (s.entries.filter (fun e => e.row = i)) := by
  refine ⟨csrOf s, toCsr_eq h, rfl, rfl, csrOf_perm fun e he => (h e he).1, ?_⟩
  intro i hi
  rw [csrOf_rowView h hi]
  congr 1

/-- C04: the stored entries are the rows one after the other. -/
theorem C04_csr_entries (s : Sparsity) (h : s.InRange) :
    ∃ c, s.toCsr = .ok c ∧
      c.entries = (List.range s.numRows).flatMap (fun i => s.entries.filter (fun e => e.row = i)) := by
  refine ⟨csrOf s, toCsr_eq h, ?_⟩
  have hok := (csrOf_ok h).entries_eq
  rw [List.flatMap_def]
  rw [show (csrOf s).entries = ((List.range s.numRows).map (rowOf s.entries)).flatten from rfl]
  congr 2

/-- C04: patterns given in row-major order are not rearranged. -/
theorem C04_csr_sorted (s : Sparsity) (h : s.InRange) (hs : s.Sorted) :
    ∃ c, s.toCsr = .ok c ∧ c.toSparsity = s :=
  ⟨csrOf s, toCsr_eq h, csrOf_sorted h hs⟩

example : witnessSparsity.InRange ∧
    (witnessSparsity.toCsr.map (fun c => c.entries)) =
      .ok [⟨0, 3⟩, ⟨1, 0⟩, ⟨2, 2⟩, ⟨3, 1⟩, ⟨3, 1⟩, ⟨3, 0⟩] :=
  ⟨witnessSparsity_inRange, by decide⟩

example : ∃ s : Sparsity, s.InRange ∧ s.Sorted ∧ s.nnz = 3 :=
  ⟨⟨3, 2, [⟨0, 1⟩, ⟨2, 0⟩, ⟨2, 1⟩]⟩, by unfold Sparsity.InRange; decide,
    by unfold Sparsity.Sorted; decide, by decide⟩

/-! ### C05 -/

/-- C05: `isNonZero` decides membership. -/
theorem C05_isNonZero (s : Sparsity) (h : s.InRange) (c : Csr) (hc : s.toCsr = .ok c) (i j : Nat)
    (hi : i < s.numRows) : c.isNonZero i j = .ok (decide ((⟨i, j⟩ : Entry) ∈ s.entries)) := by
  rw [toCsr_eq h] at hc
  cases hc
  rw [(csrOf_ok h).isNonZero_eq j hi]
  congr 1
  rw [decide_eq_decide]
  exact csrOf_mem fun e he => (h e he).1

/-- C05: `entryIndex` of a stored entry is the smallest index of such an entry. -/
theorem C05_entryIndex (s : Sparsity) (h : s.InRange) (c : Csr) (hc : s.toCsr = .ok c) (i j : Nat)
    (hij : (⟨i, j⟩ : Entry) ∈ s.entries) :
    ∃ e, c.entryIndex i j = .ok e ∧ c.entries[e]? = some ⟨i, j⟩ ∧
      (∀ e' < e, c.entries[e']? ≠ some ⟨i, j⟩) ∧
      (s.entries.Nodup → ∀ e', c.entries[e']? = some ⟨i, j⟩ → e' = e) := by
  rw [toCsr_eq h] at hc
  cases hc
  have hm : (csrOf s).toSparsity.Has i j := (csrOf_mem fun e he => (h e he).1).mpr hij
  obtain ⟨e, h1, h2, h3⟩ := (csrOf_ok h).entryIndex_sat hm
  refine ⟨e, h1, h2, h3, ?_⟩
  intro hnd e' he'
  have hnd' : (csrOf s).entries.Nodup := (csrOf_perm fun e he => (h e he).1).nodup_iff.mpr hnd
  have hl := (List.getElem?_eq_some_iff.mp he').1
  exact (List.getElem?_inj hl hnd').mp (he'.trans h2.symm)

/-- C05: `entryIndex` of an entry that is not stored trips the assertion. -/
theorem C05_entryIndex_assertion (s : Sparsity) (h : s.InRange) (c : Csr) (hc : s.toCsr = .ok c) (i j : Nat)
    (hi : i < s.numRows) (hij : (⟨i, j⟩ : Entry) ∉ s.entries) : c.entryIndex i j = .error .assertion := by
  rw [toCsr_eq h] at hc
  cases hc
  exact (csrOf_ok h).entryIndex_error hi fun hh => hij ((csrOf_mem fun e he => (h e he).1).mp hh)

example : (⟨3, 0⟩ : Entry) ∈ witnessSparsity.entries ∧ (⟨3, 3⟩ : Entry) ∉ witnessSparsity.entries ∧
    (do (← witnessSparsity.toCsr).entryIndex 3 0) = .ok 5 := by decide

/-! ### C06 -/

/-- C06: the permuted pattern contains `(i, j)` as often as the original contains
`(row_perm[i], col_perm[j])`, has the same dimensions and the same number of entries; its construction never
fails. -/
theorem C06_permuted_pattern (s : Sparsity) (h : s.InRange) (pr pc : List Nat) (hpr : IsPerm pr s.numRows)
    (hpc : IsPerm pc s.numCols) :
    ∃ t, getSparsityPermuted s pr pc = .ok t ∧ t.numRows = s.numRows ∧ t.numCols = s.numCols ∧
      t.InRange ∧ t.nnz = s.nnz ∧
      ∀ i j a b, i < s.numRows → j < s.numCols → pr[i]? = some a → pc[j]? = some b →
        t.entries.count ⟨i, j⟩ = s.entries.count ⟨a, b⟩ ∧ (t.Has i j ↔ s.Has a b) := by
  obtain ⟨qr, -, hr⟩ := invertPermutation_sat hpr
  obtain ⟨qc, -, hc⟩ := invertPermutation_sat hpc
  refine ⟨_, getSparsityPermuted_eq h hr hc, rfl, rfl, relabel_inRange h hr.right hc.right,
    by simp [Sparsity.nnz], ?_⟩
  intro i j a b hi hj ha hb
  have ha' : permAt pr i = a := by rw [hpr.get?_eq hi] at ha; exact Option.some.inj ha
  have hb' : permAt pc j = b := by rw [hpc.get?_eq hj] at hb; exact Option.some.inj hb
  subst ha' hb'
  exact ⟨count_relabel h hr hc hi hj, mem_relabel h hr hc hi hj⟩

/-- C06: permuting the entries of the result with the permutations themselves (instead of their inverses)
recovers the original entries in their original order. -/
theorem C06_permute_back (s : Sparsity) (h : s.InRange) (pr pc : List Nat) (hpr : IsPerm pr s.numRows)
    (hpc : IsPerm pc s.numCols) (t : Sparsity) (ht : getSparsityPermuted s pr pc = .ok t) :
    t.entries.mapM (fun e => permutedEntry e pr pc) = .ok s.entries := by
  obtain ⟨qr, -, hr⟩ := invertPermutation_sat hpr
  obtain ⟨qc, -, hc⟩ := invertPermutation_sat hpc
  rw [getSparsityPermuted_eq h hr hc] at ht
  cases ht
  simp only
  rw [mapM_ok (g := relabel pr pc)]
  · congr 1
    rw [List.map_map]
    conv_rhs => rw [← List.map_id s.entries]
    apply List.map_congr_left
    intro e he
    have := h e he
    cases e
    simp only [Function.comp, relabel, id_eq, Entry.mk.injEq]
    exact ⟨hr.pq _ this.1, hc.pq _ this.2⟩
  · intro e he
    obtain ⟨e', he', rfl⟩ := List.mem_map.mp he
    exact permutedEntry_eq hpr hpc (hr.right.lt (h e' he').1) (hc.right.lt (h e' he').2)

example : IsPerm [2, 0, 3, 1] witnessSparsity.numRows ∧ IsPerm [1, 3, 0, 2] witnessSparsity.numCols ∧
    (getSparsityPermuted witnessSparsity [2, 0, 3, 1] [1, 3, 0, 2]).map (·.entries) =
      .ok [⟨2, 0⟩, ⟨3, 2⟩, ⟨2, 0⟩, ⟨0, 3⟩, ⟨1, 1⟩, ⟨2, 2⟩] := by
  unfold IsPerm; decide

/-! ### C07 -/

/-- C07: the lower triangle pattern under a symmetric permutation. -/
theorem C07_lower_triangle (s : Sparsity) (h : s.InRange) (hsq : s.numRows = s.numCols) (p : List Nat)
    (hp : IsPerm p s.numRows) :
    ∃ t, getSparsityLowerTriangle s p = .ok t ∧ t.numRows = s.numRows ∧ t.numCols = s.numCols ∧
      t.InRange ∧ (∀ e ∈ t.entries, e.col < e.row) ∧
      t.nnz = (s.entries.filter (fun e => e.col < e.row)).length ∧
      (getNnzLowerTriangle s = .ok t.nnz) ∧
      ∀ i j a b, p[i]? = some a → p[j]? = some b →
        (t.Has i j ↔ j < i ∧ s.Has (max a b) (min a b)) := by
  obtain ⟨q, -, hq⟩ := invertPermutation_sat hp
  have heq := getSparsityLowerTriangle_eq h hsq hq
  refine ⟨_, heq, rfl, rfl, ?_, ?_, ?_, ?_, ?_⟩
  · intro e he
    obtain ⟨e', he', rfl⟩ := List.mem_map.mp he
    have hm := (mem_strictLower.mp he').1
    have ha := hq.right.lt (h e' hm).1
    have hb := hq.right.lt (show e'.col < s.numRows by rw [hsq]; exact (h e' hm).2)
    simp only [relabelLower]
    omega
  · intro e he
    obtain ⟨e', he', rfl⟩ := List.mem_map.mp he
    have hm := mem_strictLower.mp he'
    exact relabelLower_strict hq.right (h e' hm.1).1 hm.2
  · simp [Sparsity.nnz, strictLower]
  · unfold getNnzLowerTriangle
    rw [pre_true (by simp [isSquare, hsq]), ok_bind]
    simp only [pure_eq_ok, Sparsity.nnz, List.length_map]
    congr 1
    suffices H : ∀ (l : List Entry) a, l.foldl (fun nnz entry => nnz + if entry.row > entry.col then 1 else 0) a =
        a + (strictLower l).length by simpa using H s.entries 0
    intro l
    induction l with
    | nil => intro a; simp [strictLower]
    | cons e l ih =>
      intro a
      rw [List.foldl_cons, ih]
      unfold strictLower
      rw [List.filter_cons]
      by_cases hlt : e.row > e.col
      · simp only [hlt, decide_true, if_true, List.length_cons]; omega
      · simp only [hlt, decide_false, Bool.false_eq_true, if_false]; omega
  · intro i j a b ha hb
    have hi : i < s.numRows := by rw [← hp.length]; exact (List.getElem?_eq_some_iff.mp ha).1
    have hj : j < s.numRows := by rw [← hp.length]; exact (List.getElem?_eq_some_iff.mp hb).1
    have ha' : permAt p i = a := by rw [hp.get?_eq hi] at ha; exact Option.some.inj ha
    have hb' : permAt p j = b := by rw [hp.get?_eq hj] at hb; exact Option.some.inj hb
    subst ha' hb'
    exact mem_relabelLower h hsq hq hi

/-- C07: the map of strictly lower entries by a permutation is inverted by the map of the inverse
permutation. -/
theorem C07_entry_round_trip (p q : List Nat) (n : Nat) (hp : IsPerm p n) (hq : invertPermutation p = .ok q)
    (e : Entry) (he : e.row < n) (hlow : e.col < e.row) :
    ∃ e', permutedEntryLowerTriangle e q = .ok e' ∧ e'.row < n ∧ e'.col < e'.row ∧
      permutedEntryLowerTriangle e' p = .ok e := by
  obtain ⟨q', hq', hinv⟩ := invertPermutation_sat hp
  rw [hq] at hq'
  cases hq'
  have hcol : e.col < n := by omega
  have ha := hinv.right.lt he
  have hb := hinv.right.lt hcol
  have hs := relabelLower_strict hinv.right he hlow
  have hr : (relabelLower q e).row < n := by simp only [relabelLower]; omega
  refine ⟨_, permutedEntryLowerTriangle_eq hinv.right he hcol, hr, hs, ?_⟩
  rw [permutedEntryLowerTriangle_eq hp hr (by omega)]
  congr 1
  have := (relabelLower_eq_iff hinv he hlow hr (j := (relabelLower q e).col) hs).mp rfl
  exact this.symm

/-- C07: a non-square pattern is a contract violation. -/
theorem C07_not_square (s : Sparsity) (hsq : s.numRows ≠ s.numCols) (p : List Nat) :
    getSparsityLowerTriangle s p = .error .pre := by
  unfold getSparsityLowerTriangle pre
  rw [if_neg (by simpa [isSquare] using hsq)]
  rfl

example : IsPerm [2, 0, 3, 1] witnessSparsity.numRows ∧
    (getSparsityLowerTriangle witnessSparsity [2, 0, 3, 1]).map (·.entries) =
      .ok [⟨3, 2⟩, ⟨3, 1⟩, ⟨3, 2⟩, ⟨2, 1⟩] := by
  unfold IsPerm; decide

/-! ### C08 -/

/-- C08: `isSparsitySubset` decides inclusion of the relabelled entries. -/
theorem C08_subset (lhs rhs : Sparsity) (hl : lhs.InRange) (hr : rhs.InRange)
    (hrows : lhs.numRows = rhs.numRows) (hcols : lhs.numCols = rhs.numCols) (pr pc : List Nat)
    (hpr : IsPerm pr lhs.numRows) (hpc : IsPerm pc lhs.numCols) :
    ∃ b, isSparsitySubset lhs rhs (some pr) (some pc) = .ok b ∧
      (b = true ↔ ∀ i j a c, pr[i]? = some a → pc[j]? = some c → lhs.Has a c → rhs.Has i j) := by
  obtain ⟨qr, -, hqr⟩ := invertPermutation_sat hpr
  obtain ⟨qc, -, hqc⟩ := invertPermutation_sat hpc
  refine ⟨_, isSparsitySubset_eq hl hr hrows hcols hqr hqc rfl rfl, ?_⟩
  rw [decide_eq_true_eq]
  constructor
  · intro h i j a c ha hc hh
    have hi : i < lhs.numRows := by rw [← hpr.length]; exact (List.getElem?_eq_some_iff.mp ha).1
    have hj : j < lhs.numCols := by rw [← hpc.length]; exact (List.getElem?_eq_some_iff.mp hc).1
    have ha' : permAt pr i = a := by rw [hpr.get?_eq hi] at ha; exact Option.some.inj ha
    have hc' : permAt pc j = c := by rw [hpc.get?_eq hj] at hc; exact Option.some.inj hc
    subst ha' hc'
    exact h _ ((mem_relabel hl hqr hqc hi hj).mpr hh)
  · rintro h ⟨i, j⟩ he
    have hb := relabel_inRange hl hqr.right hqc.right _ he
    simp only at hb
    exact h i j _ _ (hpr.get?_eq hb.1) (hpc.get?_eq hb.2) ((mem_relabel hl hqr hqc hb.1 hb.2).mp he)

/-- C08: without permutations plain inclusion is decided. -/
theorem C08_subset_identity (lhs rhs : Sparsity) (hl : lhs.InRange) (hr : rhs.InRange)
    (hrows : lhs.numRows = rhs.numRows) (hcols : lhs.numCols = rhs.numCols) :
    ∃ b, isSparsitySubset lhs rhs = .ok b ∧ (b = true ↔ ∀ i j, lhs.Has i j → rhs.Has i j) := by
  refine ⟨_, isSparsitySubset_id_eq hl hr hrows hcols, ?_⟩
  rw [decide_eq_true_eq]
  exact ⟨fun h i j hh => h _ hh, fun h e he => h e.row e.col he⟩

/-- C08: the lower triangle version decides inclusion of the strictly lower part. -/
theorem C08_subset_lower_triangle (lhs rhs : Sparsity) (hl : lhs.InRange) (hr : rhs.InRange)
    (hsq : lhs.numRows = lhs.numCols) (hrows : lhs.numRows = rhs.numRows) (hcols : lhs.numCols = rhs.numCols)
    (p : List Nat) (hp : IsPerm p lhs.numRows) :
    ∃ b, isSparsitySubsetLowerTriangle lhs rhs p = .ok b ∧
      (b = true ↔ ∀ i j a c, p[i]? = some a → p[j]? = some c → j < i → lhs.Has (max a c) (min a c) →
        rhs.Has i j) := by
  obtain ⟨t, ht, h1, h2, h3, h4, -, -, h5⟩ := C07_lower_triangle lhs hl hsq p hp
  unfold isSparsitySubsetLowerTriangle
  rw [ht, ok_bind]
  obtain ⟨b, hb, h6⟩ := C08_subset_identity t rhs h3 hr (by omega) (by omega)
  refine ⟨b, hb, ?_⟩
  rw [h6]
  constructor
  · intro h i j a c ha hc hlt hh
    exact h i j ((h5 i j a c ha hc).mpr ⟨hlt, hh⟩)
  · intro h i j hh
    have hb := h3 _ hh
    simp only at hb
    have hgi := hp.get?_eq (show i < lhs.numRows by omega)
    have hgj := hp.get?_eq (show j < lhs.numRows by omega)
    obtain ⟨hlt, hh'⟩ := (h5 i j _ _ hgi hgj).mp hh
    exact h i j _ _ hgi hgj hlt hh'

/-- C08: `isSparsityEqual` decides equality of the sets of entries. -/
theorem C08_equal (lhs rhs : Sparsity) (hl : lhs.InRange) (hr : rhs.InRange)
    (hrows : lhs.numRows = rhs.numRows) (hcols : lhs.numCols = rhs.numCols) :
    ∃ b, isSparsityEqual lhs rhs = .ok b ∧ (b = true ↔ ∀ i j, lhs.Has i j ↔ rhs.Has i j) := by
  obtain ⟨b1, h1, h2⟩ := C08_subset_identity lhs rhs hl hr hrows hcols
  obtain ⟨b2, h3, h4⟩ := C08_subset_identity rhs lhs hr hl hrows.symm hcols.symm
  unfold isSparsityEqual
  rw [h1, ok_bind]
  cases b1 with
  | true =>
    refine ⟨b2, by simpa using h3, ?_⟩
    rw [h4]
    have := h2.mp rfl
    exact ⟨fun h i j => ⟨this i j, h i j⟩, fun h i j => (h i j).mpr⟩
  | false =>
    refine ⟨false, rfl, ?_⟩
    simp only [Bool.false_eq_true, false_iff] at h2 ⊢
    exact fun h => h2 fun i j => (h i j).mp

/-- C08: different dimensions are a contract violation. -/
theorem C08_dimension_mismatch (lhs rhs : Sparsity) (pr pc : Option (List Nat))
    (hd : lhs.numRows ≠ rhs.numRows ∨ lhs.numCols ≠ rhs.numCols) :
    isSparsitySubset lhs rhs pr pc = .error .pre := by
  unfold isSparsitySubset
  by_cases h1 : lhs.numRows = rhs.numRows
  · rw [pre_true (by simpa using h1), ok_bind]
    have h2 : lhs.numCols ≠ rhs.numCols := by
      rcases hd with h | h
      · exact absurd h1 h
      · exact h
    unfold pre
    rw [if_neg (by simpa using h2)]
    rfl
  · unfold pre
    rw [if_neg (by simpa using h1)]
    rfl

/-- C08: also for the check of equality and for the check of the lower triangle. -/
theorem C08_dimension_mismatch_others (lhs rhs : Sparsity)
    (hd : lhs.numRows ≠ rhs.numRows ∨ lhs.numCols ≠ rhs.numCols) :
    isSparsityEqual lhs rhs = .error .pre ∧
    ∀ p, lhs.InRange → IsPerm p lhs.numRows → isSparsitySubsetLowerTriangle lhs rhs p = .error .pre := by
  constructor
  · unfold isSparsityEqual
    rw [C08_dimension_mismatch lhs rhs none none hd]
    rfl
  · intro p h hp
    unfold isSparsitySubsetLowerTriangle
    by_cases hsq : lhs.numRows = lhs.numCols
    · obtain ⟨t, h1, h2, h3, -⟩ := C07_lower_triangle lhs h hsq p hp
      rw [h1, ok_bind]
      exact C08_dimension_mismatch t rhs none none (by rwa [h2, h3])
    · rw [C07_not_square lhs hsq p]
      rfl

/-- Witness for the subset checks: the relabelled pattern in another order without the duplicate. -/
def witnessSuperset : Sparsity := ⟨4, 4, [⟨2, 2⟩, ⟨1, 1⟩, ⟨3, 2⟩, ⟨0, 3⟩, ⟨2, 0⟩, ⟨0, 0⟩]⟩

example : witnessSuperset.InRange ∧
    isSparsitySubset witnessSparsity witnessSuperset (some [2, 0, 3, 1]) (some [1, 3, 0, 2]) = .ok true ∧
    isSparsitySubset witnessSparsity witnessSuperset = .ok false ∧
    isSparsityEqual witnessSparsity ⟨4, 4, [⟨3, 0⟩, ⟨0, 3⟩, ⟨1, 0⟩, ⟨2, 2⟩, ⟨3, 1⟩]⟩ = .ok true := by
  unfold Sparsity.InRange; decide

/-! ### C09 -/

/-- C09: contribution lists are exactly the common columns below the limit, in increasing order, with the
indices of the two entries. -/
theorem C09_contributions (s b : Sparsity) (hs : s.InRange) (hb : b.InRange) (hss : s.Sorted)
    (hbs : b.Sorted) (cs cb : Csr) (hcs : s.toCsr = .ok cs) (hcb : b.toCsr = .ok cb) (i j limit : Nat)
    (hi : i < b.numRows) (hj : j < s.numRows) :
    ∃ l, getContributionsLimit cs cb i j limit = .ok l ∧
      l.Pairwise (fun c c' => c.k < c'.k) ∧
      ∀ c, c ∈ l ↔ (c.k < limit ∧ b.entries[c.ik]? = some ⟨i, c.k⟩ ∧ s.entries[c.jk]? = some ⟨j, c.k⟩) := by
  rw [toCsr_eq hs] at hcs
  rw [toCsr_eq hb] at hcb
  cases hcs
  cases hcb
  have h1 := csrOf_sorted hs hss
  have h2 := csrOf_sorted hb hbs
  obtain ⟨l, hl, h3, h4⟩ := getContributionsLimit_sat (csrOf_ok hs) (csrOf_ok hb)
    (colsSorted_of_sorted (by rw [h1]; exact hss)) (colsSorted_of_sorted (by rw [h2]; exact hbs)) limit hi hj
  refine ⟨l, hl, h3, fun c => ?_⟩
  rw [h4 c]
  unfold IsContribution
  rw [h1, h2]

/-- C09 for the three variants offered: with limit `j` within one pattern, and with all columns. -/
theorem C09_contributions_variants (s b : Sparsity) (hs : s.InRange) (hb : b.InRange) (hss : s.Sorted)
    (hbs : b.Sorted) (cs cb : Csr) (hcs : s.toCsr = .ok cs) (hcb : b.toCsr = .ok cb) (i j : Nat) :
    (i < s.numRows → j < s.numRows → ∃ l, getContributionsLowerTriangle cs i j = .ok l ∧
      l.Pairwise (fun c c' => c.k < c'.k) ∧
      ∀ c, c ∈ l ↔ (c.k < j ∧ s.entries[c.ik]? = some ⟨i, c.k⟩ ∧ s.entries[c.jk]? = some ⟨j, c.k⟩)) ∧
    (i < s.numRows → j < s.numRows → ∃ l, getContributionsRectangular cs i j = .ok l ∧
      l.Pairwise (fun c c' => c.k < c'.k) ∧
      ∀ c, c ∈ l ↔ (s.entries[c.ik]? = some ⟨i, c.k⟩ ∧ s.entries[c.jk]? = some ⟨j, c.k⟩)) ∧
    (i < b.numRows → j < s.numRows → ∃ l, getContributionsMixed cs cb i j = .ok l ∧
      l.Pairwise (fun c c' => c.k < c'.k) ∧
      ∀ c, c ∈ l ↔ (b.entries[c.ik]? = some ⟨i, c.k⟩ ∧ s.entries[c.jk]? = some ⟨j, c.k⟩)) := by
  have hcols : cs.numCols = s.numCols ∧ cb.numCols = b.numCols := by
    rw [toCsr_eq hs] at hcs
    rw [toCsr_eq hb] at hcb
    cases hcs
    cases hcb
    exact ⟨rfl, rfl⟩
  refine ⟨fun hi hj => C09_contributions s s hs hs hss hss cs cs hcs hcs i j j hi hj, ?_, ?_⟩
  · intro hi hj
    obtain ⟨l, h1, h2, h3⟩ := C09_contributions s s hs hs hss hss cs cs hcs hcs i j
      (min cs.numCols cs.numCols) hi hj
    refine ⟨l, h1, h2, fun c => ?_⟩
    rw [h3 c]
    refine ⟨fun h => h.2, fun h => ⟨?_, h⟩⟩
    have := (hs _ (List.mem_of_getElem? h.1)).2
    simp only at this
    omega
  · intro hi hj
    obtain ⟨l, h1, h2, h3⟩ := C09_contributions s b hs hb hss hbs cs cb hcs hcb i j
      (min cs.numCols cb.numCols) hi hj
    refine ⟨l, h1, h2, fun c => ?_⟩
    rw [h3 c]
    refine ⟨fun h => h.2, fun h => ⟨?_, h⟩⟩
    have h4 := (hb _ (List.mem_of_getElem? h.1)).2
    have h5 := (hs _ (List.mem_of_getElem? h.2)).2
    simp only at h4 h5
    omega

/-- Sorted witness pattern with a contribution. -/
def witnessSorted : Sparsity := ⟨4, 4, [⟨2, 0⟩, ⟨2, 1⟩, ⟨3, 0⟩, ⟨3, 1⟩, ⟨3, 2⟩]⟩

theorem witnessSorted_ok : witnessSorted.InRange ∧ witnessSorted.Sorted := by
  unfold Sparsity.InRange Sparsity.Sorted; decide

example : (do getContributionsLowerTriangle (← witnessSorted.toCsr) 3 2) = .ok [⟨2, 0, 0⟩, ⟨3, 1, 1⟩] := by
  decide

/-! ### C10 -/

/-- C10: influenced lists are exact (`k` ranges over the rows below the limit with `(k, j)` in the source
pattern, in increasing order), if the target pattern contains all `(i, k)`. -/
theorem C10_influenced (s t : Sparsity) (hs : s.InRange) (ht : t.InRange) (cs ct : Csr)
    (hcs : s.toCsr = .ok cs) (hct : t.toCsr = .ok ct) (i j limit : Nat)
    (hl : limit ≤ s.numRows) (hfill : ∀ k < limit, s.Has k j → t.Has i k) :
    ∃ ks : List Nat, ∃ f : Nat → Influenced,
      getInfluencedListLimit i j cs ct limit = .ok (ks.map f) ∧ ks.Pairwise (· < ·) ∧
      (∀ k, k ∈ ks ↔ k < limit ∧ s.Has k j) ∧
      ∀ k ∈ ks, cs.entryIndex k j = .ok (f k).source ∧ ct.entryIndex i k = .ok (f k).target := by
  rw [toCsr_eq hs] at hcs
  rw [toCsr_eq ht] at hct
  cases hcs
  cases hct
  have hms : ∀ k, (csrOf s).toSparsity.Has k j ↔ s.Has k j := fun k => csrOf_mem fun e he => (hs e he).1
  have hmt : ∀ k, (csrOf t).toSparsity.Has i k ↔ t.Has i k := fun k => csrOf_mem fun e he => (ht e he).1
  refine ⟨(List.range limit).filter (fun k => (csrOf s).toSparsity.Has k j), _,
    getInfluencedListLimit_eq (csrOf_ok hs) (csrOf_ok ht) hl fun k hk hh =>
      (hmt k).mpr (hfill k hk ((hms k).mp hh)), ?_, ?_, ?_⟩
  · exact List.Pairwise.filter _ List.pairwise_lt_range
  · intro k
    simp [hms]
  · intro k hk
    simp only [List.mem_filter, List.mem_range, decide_eq_true_eq] at hk
    exact ⟨(csrOf_ok hs).entryIndex_eq hk.2,
      (csrOf_ok ht).entryIndex_eq ((hmt k).mpr (hfill k hk.1 ((hms k).mp hk.2)))⟩

/-- C10: the look-up assertion fires if the target lacks one of the entries. -/
theorem C10_influenced_assertion (s t : Sparsity) (hs : s.InRange) (ht : t.InRange) (cs ct : Csr)
    (hcs : s.toCsr = .ok cs) (hct : t.toCsr = .ok ct) (i j limit : Nat) (hi : i < t.numRows)
    (hl : limit ≤ s.numRows) (k : Nat) (hk : k < limit) (h1 : s.Has k j) (h2 : ¬ t.Has i k) :
    getInfluencedListLimit i j cs ct limit = .error .assertion := by
  -- the first such `k`
  have hex : ∃ k, k < limit ∧ s.Has k j ∧ ¬ t.Has i k := ⟨k, hk, h1, h2⟩
  obtain ⟨m, ⟨hm1, hm2, hm3⟩, hmin⟩ : ∃ m, (m < limit ∧ s.Has m j ∧ ¬ t.Has i m) ∧
      ∀ k < m, ¬ (k < limit ∧ s.Has k j ∧ ¬ t.Has i k) := by
    refine ⟨Nat.find hex, Nat.find_spec hex, fun k hk => Nat.find_min hex hk⟩
  obtain ⟨ks, f, hpre, -⟩ := C10_influenced s t hs ht cs ct hcs hct i j m (by omega) (by
    intro k hk hh
    by_contra hn
    exact hmin k hk ⟨by omega, hh, hn⟩)
  rw [toCsr_eq hs] at hcs
  rw [toCsr_eq ht] at hct
  cases hcs
  cases hct
  have hms : (csrOf s).toSparsity.Has m j := (csrOf_mem fun e he => (hs e he).1).mpr hm2
  have hmt : ¬ (csrOf t).toSparsity.Has i m := fun h => hm3 ((csrOf_mem fun e he => (ht e he).1).mp h)
  unfold getInfluencedListLimit at hpre ⊢
  have hsplit : List.range limit = List.range m ++ m :: (List.range' (m + 1) (limit - (m + 1))) := by
    rw [List.range_eq_range', List.range_eq_range', ← List.range'_succ, show limit - (m + 1) + 1 = limit - m by omega]
    have := List.range'_append (s := 0) (m := m) (n := limit - m) (step := 1)
    rw [Nat.mul_comm, Nat.mul_one, Nat.zero_add] at this
    rw [this]
    congr 1
    omega
  rw [hsplit, List.foldlM_append, hpre, ok_bind, List.foldlM_cons, (csrOf_ok hs).isNonZero_eq j
    (show m < s.numRows by omega), ok_bind]
  simp only [hms, decide_true, if_true]
  rw [(csrOf_ok hs).entryIndex_eq hms, ok_bind, (csrOf_ok ht).entryIndex_error hi hmt]
  rfl

/-- C10: the two variants use as limit the number of columns of the target and the row `i`. -/
theorem C10_influenced_variants (cs ct : Csr) (i j : Nat) :
    getInfluencedList i j cs ct = getInfluencedListLimit i j cs ct ct.numCols ∧
    getInfluencedListLowerTriangle i j cs ct = getInfluencedListLimit i j cs ct i := ⟨rfl, rfl⟩

example : (do let c ← witnessSorted.toCsr; getInfluencedListLowerTriangle 3 0 c c) = .ok [⟨0, 4⟩] ∧
    (∀ k < 3, witnessSorted.Has k 0 → witnessSorted.Has 3 k) ∧
    (do let c ← witnessSorted.toCsr; getInfluencedListLimit 2 0 c c 3) = .error .assertion := by
  decide

/-! ### C11 -/

/-- C11: the value of the first stored entry at the position. -/
theorem C11_value_stored {K : Type _} [Zero K] (m : MatIn K) (e i j : Nat) (v : K)
    (h1 : m.sparsity.entries[e]? = some ⟨i, j⟩) (h2 : ∀ e' < e, m.sparsity.entries[e']? ≠ some ⟨i, j⟩)
    (hv : m.values[e]? = some v) : getMatrixValueAt m i j = .ok v := by
  have hlt := (List.getElem?_eq_some_iff.mp h1).1
  have hmem : (⟨i, j⟩ : Entry) ∈ m.sparsity.entries := List.mem_of_getElem? h1
  have hidx : m.sparsity.entries.idxOf (⟨i, j⟩ : Entry) = e := by
    have hg := idxOf_get hmem
    rcases Nat.lt_trichotomy (m.sparsity.entries.idxOf (⟨i, j⟩ : Entry)) e with h | h | h
    · exact absurd hg (h2 _ h)
    · exact h
    · exfalso
      have := List.not_of_lt_findIdx (p := fun x => x == (⟨i, j⟩ : Entry)) (xs := m.sparsity.entries)
        (i := e) h
      rw [List.getElem?_eq_getElem hlt] at h1
      simp at h1 this
      exact this h1
  unfold getMatrixValueAt
  rw [findEntryIndex_eq, if_pos hmem, hidx]
  simp only [MatIn.valueAt]
  exact rd_of_getElem? hv

/-- C11: zero where nothing is stored. -/
theorem C11_value_not_stored {K : Type _} [Zero K] (m : MatIn K) (i j : Nat)
    (h : (⟨i, j⟩ : Entry) ∉ m.sparsity.entries) : getMatrixValueAt m i j = .ok 0 := by
  unfold getMatrixValueAt
  rw [findEntryIndex_eq, if_neg h]

/-- C11: without duplicates every stored value is found at its position. -/
theorem C11_value_nodup {K : Type _} [Zero K] (m : MatIn K) (hnd : m.sparsity.entries.Nodup) (e i j : Nat) (v : K)
    (h1 : m.sparsity.entries[e]? = some ⟨i, j⟩) (hv : m.values[e]? = some v) :
    getMatrixValueAt m i j = .ok v := by
  refine C11_value_stored m e i j v h1 ?_ hv
  intro e' he' h2
  have hl := (List.getElem?_eq_some_iff.mp h2).1
  have := (List.getElem?_inj hl hnd).mp (h2.trans h1.symm)
  omega

example : ∃ m : MatIn Int, m.sparsity = witnessSparsity ∧ getMatrixValueAt m 3 1 = .ok 7 ∧
    getMatrixValueAt m 3 0 = .ok 4 ∧ getMatrixValueAt m 2 0 = .ok 0 :=
  ⟨⟨witnessSparsity, [7, 1, 9, 2, 3, 4]⟩, rfl, by decide, by decide, by decide⟩

/-! ### C43 -/

/-- C43: exactly the true cells in row-major order; the assertion never fires. -/
theorem C43_bool_matrix (numRows numCols : Nat) (values : List (List Bool)) (hr : values.length = numRows)
    (hc : ∀ row ∈ values, row.length = numCols) :
    ∃ es, makeSparseEntriesFromBoolMatrix numRows numCols values = .ok es ∧ es.Pairwise rowMajorLt ∧
      es.length = boolMatrixNnz values ∧
      ∀ i j, (⟨i, j⟩ : Entry) ∈ es ↔ ∃ row, values[i]? = some row ∧ row[j]? = some true := by
  refine ⟨_, makeSparseEntries_eq hr hc, ?_, ?_, ?_⟩
  · unfold cellsBelow
    rw [List.flatMap_def, List.pairwise_flatten]
    constructor
    · intro l hl
      obtain ⟨i, -, rfl⟩ := List.mem_map.mp hl
      unfold rowCells
      rw [List.pairwise_map]
      refine List.Pairwise.imp ?_ (List.Pairwise.filter _ List.pairwise_lt_range)
      intro a b hab
      exact Or.inr ⟨rfl, hab⟩
    · rw [List.pairwise_map]
      refine List.Pairwise.imp ?_ List.pairwise_lt_range
      intro a b hab x hx y hy
      left
      rw [(mem_rowCells.mp hx).1, (mem_rowCells.mp hy).1]
      exact hab
  · rw [cellsBelow_length hc _ (by omega), nnz_eq, ← hr, List.take_length]
  · intro i j
    unfold cellsBelow
    simp only [List.mem_flatMap, List.mem_range, mem_rowCells]
    constructor
    · rintro ⟨k, hk, rfl, h1, h2⟩
      have hk' : i < values.length := by omega
      refine ⟨values[i], List.getElem?_eq_getElem hk', ?_⟩
      simpa [List.getD_eq_getElem?_getD, hk'] using h2
    · rintro ⟨row, h1, h2⟩
      have hi := (List.getElem?_eq_some_iff.mp h1).1
      have hj := (List.getElem?_eq_some_iff.mp h2).1
      refine ⟨i, by omega, rfl, ?_, ?_⟩
      · have := hc row (List.mem_of_getElem? h1); omega
      · simpa [List.getD_eq_getElem?_getD, h1] using h2

example : makeSparseEntriesFromBoolMatrix 2 3 [[true, false, true], [false, true, false]] =
    .ok [⟨0, 0⟩, ⟨0, 2⟩, ⟨1, 1⟩] := by decide

end Ctldl
