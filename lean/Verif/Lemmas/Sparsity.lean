import Verif.Lemmas.Csr
import Verif.Lemmas.Permutation

/-! # Patterns: helper lemmas for look-up, permutation, subset, sorting -/

namespace Ctldl

theorem make_eq {r c : Nat} {es : List Entry} (h : (⟨r, c, es⟩ : Sparsity).InRange) :
    Sparsity.make r c es = .ok ⟨r, c, es⟩ := by
  unfold Sparsity.make
  rw [pre_true, ok_bind]
  · rfl
  · rw [List.all_eq_true]
    intro e he
    have := h e he
    simp [inBounds, this]

theorem make_self {s : Sparsity} (h : s.InRange) : Sparsity.make s.numRows s.numCols s.entries = .ok s :=
  make_eq (r := s.numRows) (c := s.numCols) (es := s.entries) h

theorem make_ok_iff {r c : Nat} {es : List Entry} {s : Sparsity} :
    Sparsity.make r c es = .ok s ↔ s = ⟨r, c, es⟩ ∧ s.InRange := by
  unfold Sparsity.make
  rw [bind_eq_ok]
  constructor
  · rintro ⟨u, h1, h2⟩
    rw [pre_eq_ok, List.all_eq_true] at h1
    cases h2
    refine ⟨rfl, ?_⟩
    intro e he
    simpa [inBounds] using h1 e he
  · rintro ⟨rfl, h⟩
    refine ⟨(), ?_, rfl⟩
    rw [pre_eq_ok, List.all_eq_true]
    intro e he
    have := h e he
    simp [inBounds, this]

theorem emptySparsity_inRange (r c : Nat) : (emptySparsity r c).InRange := by
  intro e he; simp [emptySparsity] at he

theorem Csr.Ok.entryIndex_eq {c : Csr} (h : c.Ok) {i j : Nat} (hh : c.toSparsity.Has i j) :
    c.entryIndex i j = .ok (c.entries.idxOf ⟨i, j⟩) := by
  obtain ⟨e, he, h1, h2⟩ := h.entryIndex_sat hh
  rw [he]
  congr 1
  have hlt := (List.getElem?_eq_some_iff.mp h1).1
  have hidx : c.entries.idxOf (⟨i, j⟩ : Entry) < c.entries.length := List.idxOf_lt_length_iff.mpr hh
  have hget : c.entries[c.entries.idxOf (⟨i, j⟩ : Entry)]? = some ⟨i, j⟩ := by
    rw [List.getElem?_eq_getElem hidx, List.getElem_idxOf]
  rcases Nat.lt_trichotomy e (c.entries.idxOf (⟨i, j⟩ : Entry)) with hlt' | heq | hgt
  · exfalso
    have := List.not_of_lt_findIdx (p := fun x => x == (⟨i, j⟩ : Entry)) (xs := c.entries) (i := e) hlt'
    rw [List.getElem?_eq_getElem hlt] at h1
    simp at h1 this
    exact this h1
  · exact heq
  · exact absurd hget (h2 _ hgt)

theorem idxOf_get {l : List Entry} {x : Entry} (h : x ∈ l) : l[l.idxOf x]? = some x := by
  have hidx : l.idxOf x < l.length := List.idxOf_lt_length_iff.mpr h
  rw [List.getElem?_eq_getElem hidx, List.getElem_idxOf]

/-! ### Permuting -/

/-- Relabelled entry. -/
def relabel (q r : List Nat) (e : Entry) : Entry := ⟨permAt q e.row, permAt r e.col⟩

/-- Relabelled entry of the lower triangle. -/
def relabelLower (q : List Nat) (e : Entry) : Entry :=
  ⟨max (permAt q e.row) (permAt q e.col), min (permAt q e.row) (permAt q e.col)⟩

theorem permutedEntry_eq {q r : List Nat} {n m : Nat} (hq : IsPerm q n) (hr : IsPerm r m) {e : Entry}
    (h1 : e.row < n) (h2 : e.col < m) : permutedEntry e q r = .ok (relabel q r e) := by
  unfold permutedEntry
  rw [hq.rd_eq h1, ok_bind, hr.rd_eq h2, ok_bind]; rfl

theorem permutedEntryLowerTriangle_eq {q : List Nat} {n : Nat} (hq : IsPerm q n) {e : Entry}
    (h1 : e.row < n) (h2 : e.col < n) : permutedEntryLowerTriangle e q = .ok (relabelLower q e) := by
  unfold permutedEntryLowerTriangle
  rw [hq.rd_eq h1, ok_bind, hq.rd_eq h2, ok_bind]; rfl

theorem getEntriesPermuted_eq {s : Sparsity} {pr pc qr qc : List Nat} (hs : s.InRange)
    (hr : IsInv pr qr s.numRows) (hc : IsInv pc qc s.numCols) :
    getEntriesPermuted s pr pc = .ok (s.entries.map (relabel qr qc)) := by
  unfold getEntriesPermuted
  rw [invertPermutation_eq hr, ok_bind, invertPermutation_eq hc, ok_bind]
  exact mapM_ok fun e he => permutedEntry_eq hr.right hc.right (hs e he).1 (hs e he).2

theorem relabel_inRange {s : Sparsity} {qr qc : List Nat} (hs : s.InRange) (hr : IsPerm qr s.numRows)
    (hc : IsPerm qc s.numCols) :
    (⟨s.numRows, s.numCols, s.entries.map (relabel qr qc)⟩ : Sparsity).InRange := by
  intro e he
  obtain ⟨e', he', rfl⟩ := List.mem_map.mp he
  exact ⟨hr.lt (hs e' he').1, hc.lt (hs e' he').2⟩

theorem getSparsityPermuted_eq {s : Sparsity} {pr pc qr qc : List Nat} (hs : s.InRange)
    (hr : IsInv pr qr s.numRows) (hc : IsInv pc qc s.numCols) :
    getSparsityPermuted s pr pc = .ok ⟨s.numRows, s.numCols, s.entries.map (relabel qr qc)⟩ := by
  unfold getSparsityPermuted
  rw [getEntriesPermuted_eq hs hr hc, ok_bind]
  exact make_eq (relabel_inRange hs hr.right hc.right)

theorem relabel_eq_iff {pr pc qr qc : List Nat} {n m i j : Nat} {e : Entry}
    (hr : IsInv pr qr n) (hc : IsInv pc qc m) (h1 : e.row < n) (h2 : e.col < m) (hi : i < n) (hj : j < m) :
    relabel qr qc e = ⟨i, j⟩ ↔ e = ⟨permAt pr i, permAt pc j⟩ := by
  cases e with
  | mk a b =>
    simp only [relabel, Entry.mk.injEq] at *
    rw [hr.eq_iff h1 hi, hc.eq_iff h2 hj]

theorem mem_relabel {s : Sparsity} {pr pc qr qc : List Nat} (hs : s.InRange)
    (hr : IsInv pr qr s.numRows) (hc : IsInv pc qc s.numCols) {i j : Nat} (hi : i < s.numRows)
    (hj : j < s.numCols) :
    (⟨i, j⟩ : Entry) ∈ s.entries.map (relabel qr qc) ↔ s.Has (permAt pr i) (permAt pc j) := by
  rw [List.mem_map]
  constructor
  · rintro ⟨e, he, heq⟩
    rw [relabel_eq_iff hr hc (hs e he).1 (hs e he).2 hi hj] at heq
    subst heq; exact he
  · intro h
    exact ⟨_, h, (relabel_eq_iff hr hc (hs _ h).1 (hs _ h).2 hi hj).mpr rfl⟩

theorem count_relabel {s : Sparsity} {pr pc qr qc : List Nat} (hs : s.InRange)
    (hr : IsInv pr qr s.numRows) (hc : IsInv pc qc s.numCols) {i j : Nat} (hi : i < s.numRows)
    (hj : j < s.numCols) :
    (s.entries.map (relabel qr qc)).count ⟨i, j⟩ = s.entries.count ⟨permAt pr i, permAt pc j⟩ := by
  rw [List.count_eq_countP, List.count_eq_countP, List.countP_map]
  apply List.countP_congr
  intro e he
  simp only [Function.comp, beq_iff_eq]
  exact relabel_eq_iff hr hc (hs e he).1 (hs e he).2 hi hj

/-- Strictly lower entries. -/
def strictLower (l : List Entry) : List Entry := l.filter (fun e => e.row > e.col)

theorem mem_strictLower {l : List Entry} {e : Entry} : e ∈ strictLower l ↔ e ∈ l ∧ e.col < e.row := by
  simp [strictLower]

theorem getSparsityLowerTriangle_eq {s : Sparsity} {p q : List Nat} (hs : s.InRange)
    (hsq : s.numRows = s.numCols) (hp : IsInv p q s.numRows) :
    getSparsityLowerTriangle s p =
      .ok ⟨s.numRows, s.numCols, (strictLower s.entries).map (relabelLower q)⟩ := by
  unfold getSparsityLowerTriangle getEntriesLowerTriangle
  have h1 : isSquare s = true := by simp [isSquare, hsq]
  rw [pre_true h1, ok_bind, ok_bind, invertPermutation_eq hp, ok_bind]
  have h2 : (s.entries.filter (fun entry => entry.row > entry.col)).mapM
      (fun entry => permutedEntryLowerTriangle entry q) =
      .ok ((strictLower s.entries).map (relabelLower q)) := by
    apply mapM_ok
    intro e he
    have hm := (mem_strictLower.mp he).1
    exact permutedEntryLowerTriangle_eq hp.right (hs e hm).1 (by rw [hsq]; exact (hs e hm).2)
  rw [h2, ok_bind]
  apply make_eq
  intro e he
  obtain ⟨e', he', rfl⟩ := List.mem_map.mp he
  have hm := (mem_strictLower.mp he').1
  have ha := hp.right.lt (hs e' hm).1
  have hb := hp.right.lt (show e'.col < s.numRows by rw [hsq]; exact (hs e' hm).2)
  simp only [relabelLower]
  omega

theorem relabelLower_strict {q : List Nat} {n : Nat} (hq : IsPerm q n) {e : Entry} (h1 : e.row < n)
    (h2 : e.col < e.row) : (relabelLower q e).col < (relabelLower q e).row := by
  have hne : permAt q e.row ≠ permAt q e.col := by
    intro h
    have := hq.inj h1 (by omega) h
    omega
  simp only [relabelLower]
  omega

theorem relabelLower_eq_iff {p q : List Nat} {n i j : Nat} {e : Entry} (h : IsInv p q n)
    (h1 : e.row < n) (h2 : e.col < e.row) (hi : i < n) (hj : j < i) :
    relabelLower q e = ⟨i, j⟩ ↔
      e = ⟨max (permAt p i) (permAt p j), min (permAt p i) (permAt p j)⟩ := by
  cases e with
  | mk a b =>
    simp only at h1 h2
    have hb : b < n := by omega
    have hjn : j < n := by omega
    simp only [relabelLower, Entry.mk.injEq]
    have ha' := h.right.lt h1
    have hb' := h.right.lt hb
    have e1 := h.eq_iff h1 hi
    have e2 := h.eq_iff h1 hjn
    have e3 := h.eq_iff hb hi
    have e4 := h.eq_iff hb hjn
    constructor
    · rintro ⟨h3, h4⟩
      rcases Nat.lt_or_ge (permAt q a) (permAt q b) with hlt | hge
      · rw [Nat.max_eq_right (by omega)] at h3
        rw [Nat.min_eq_left (by omega)] at h4
        have h5 := e2.mp h4
        have h6 := e3.mp h3
        omega
      · rw [Nat.max_eq_left (by omega)] at h3
        rw [Nat.min_eq_right (by omega)] at h4
        have h5 := e1.mp h3
        have h6 := e4.mp h4
        omega
    · rintro ⟨h3, h4⟩
      rcases Nat.lt_or_ge (permAt p i) (permAt p j) with hlt | hge
      · rw [Nat.max_eq_right (by omega)] at h3
        rw [Nat.min_eq_left (by omega)] at h4
        have h5 := e2.mpr h3
        have h6 := e3.mpr h4
        omega
      · rw [Nat.max_eq_left (by omega)] at h3
        rw [Nat.min_eq_right (by omega)] at h4
        have h5 := e1.mpr h3
        have h6 := e4.mpr h4
        omega

theorem mem_relabelLower {s : Sparsity} {p q : List Nat} (hs : s.InRange)
    (hsq : s.numRows = s.numCols) (hp : IsInv p q s.numRows) {i j : Nat} (hi : i < s.numRows) :
    (⟨i, j⟩ : Entry) ∈ (strictLower s.entries).map (relabelLower q) ↔
      j < i ∧ s.Has (max (permAt p i) (permAt p j)) (min (permAt p i) (permAt p j)) := by
  rw [List.mem_map]
  constructor
  · rintro ⟨e, he, heq⟩
    obtain ⟨hm, hlt⟩ := mem_strictLower.mp he
    have h1 := relabelLower_strict hp.right (hs e hm).1 hlt
    rw [heq] at h1
    simp only at h1
    rw [relabelLower_eq_iff hp (hs e hm).1 hlt hi h1] at heq
    subst heq
    exact ⟨h1, hm⟩
  · rintro ⟨hji, h⟩
    have hne : permAt p i ≠ permAt p j := by
      intro h'
      have := hp.left.inj hi (by omega) h'
      omega
    refine ⟨_, mem_strictLower.mpr ⟨h, by simp only; omega⟩, ?_⟩
    exact (relabelLower_eq_iff hp (hs _ h).1 (by simp only; omega) hi hji).mpr rfl

/-! ### Subset -/

theorem mark_sat (b : Bool) (l : List Entry) (m : List Bool) (h : ∀ e ∈ l, e.col < m.length) :
    Sat (l.foldlM (fun m entry => wr m entry.col b) m) (fun m' => m'.length = m.length ∧
      ∀ c < m.length, m'[c]? = if ∃ e ∈ l, e.col = c then some b else m[c]?) := by
  refine foldlM_inv (fun (pre : List Entry) (m' : List Bool) => m'.length = m.length ∧
    ∀ c < m.length, m'[c]? = if ∃ e ∈ pre, e.col = c then some b else m[c]?) (by simp) ?_
  rintro pre e suf m' rfl ⟨h1, h2⟩
  have he : e.col < m.length := h e (by simp)
  rw [wr_ok (by omega)]
  refine Sat.ok ⟨by simpa using h1, ?_⟩
  intro c hc
  rw [List.getElem?_set]
  split
  · next heq => subst heq; rw [if_pos (by omega), if_pos ⟨e, by simp, rfl⟩]
  · next hne =>
    rw [h2 c hc]
    congr 1
    apply propext
    constructor
    · rintro ⟨x, hx, hxc⟩; exact ⟨x, by simp [hx], hxc⟩
    · rintro ⟨x, hx, hxc⟩
      rcases List.mem_append.mp hx with hx | hx
      · exact ⟨x, hx, hxc⟩
      · simp at hx; subst hx; exact absurd hxc hne

theorem covered_eq (l : List Entry) (marked : List Bool) (h : ∀ e ∈ l, e.col < marked.length) :
    l.foldlM (fun ok entry => if !ok then pure false else rd marked entry.col) true =
      .ok (decide (∀ e ∈ l, marked[e.col]? = some true)) := by
  suffices H : ∀ (l : List Entry) (b : Bool), (∀ e ∈ l, e.col < marked.length) →
      l.foldlM (fun ok entry => if !ok then pure false else rd marked entry.col) b =
      .ok (b && decide (∀ e ∈ l, marked[e.col]? = some true)) by simpa using H l true h
  intro l
  induction l with
  | nil => intro b _; simp [pure_eq_ok]
  | cons e l ih =>
    intro b hl
    rw [List.foldlM_cons]
    cases b with
    | false =>
      rw [show (if (!false) = true then (pure false : Res Bool) else rd marked e.col) = .ok false from rfl,
        ok_bind, ih false fun e he => hl e (by simp [he])]; simp
    | true =>
      have he : e.col < marked.length := hl e (by simp)
      simp only [Bool.not_true, Bool.false_eq_true, if_false]
      rw [rd_ok he, ok_bind, ih _ fun e he => hl e (by simp [he])]
      congr 1
      cases hm : marked[e.col] <;> simp [hm, he]

theorem isSparsitySubsetRow_eq {lhs rhs : Csr} (hl : lhs.Ok) (hr : rhs.Ok)
    (hrows : lhs.numRows = rhs.numRows) (hcols : lhs.numCols = rhs.numCols) {i : Nat}
    (hi : i < lhs.numRows) :
    Sat (isSparsitySubsetRow lhs rhs (List.replicate lhs.numCols false, true) i)
      (fun st => (st.2 = true ↔ ∀ e ∈ rowOf lhs.entries i, e ∈ rhs.entries) ∧
        (st.2 = true → st.1 = List.replicate lhs.numCols false)) := by
  unfold isSparsitySubsetRow
  simp only [Bool.not_true, Bool.false_eq_true, if_false]
  rw [hr.rowView_eq (by omega), hl.rowView_eq hi]
  simp only [ok_bind]
  have hcr : ∀ e ∈ rowOf rhs.entries i, e.col < lhs.numCols := by
    intro e he; rw [hcols]; exact (hr.inRange e (mem_rowOf.mp he).1).2
  have hcl : ∀ e ∈ rowOf lhs.entries i, e.col < lhs.numCols := by
    intro e he; exact (hl.inRange e (mem_rowOf.mp he).1).2
  refine Sat.bind (mark_sat true _ _ (by simpa using hcr)) ?_
  rintro marked ⟨hm1, hm2⟩
  simp only [List.length_replicate] at hm1 hm2
  rw [covered_eq _ _ (by rw [hm1]; exact hcl), ok_bind]
  have hcov : (∀ e ∈ rowOf lhs.entries i, marked[e.col]? = some true) ↔
      ∀ e ∈ rowOf lhs.entries i, e ∈ rhs.entries := by
    constructor
    · intro h e he
      have h1 := h e he
      rw [hm2 _ (hcl e he)] at h1
      split at h1
      · next hex =>
        obtain ⟨x, hx, hxc⟩ := hex
        have h2 := mem_rowOf.mp hx
        have h3 := mem_rowOf.mp he
        have : x = e := by
          cases x; cases e; simp_all
        rw [← this]; exact h2.1
      · simp [hcl e he] at h1
    · intro h e he
      rw [hm2 _ (hcl e he), if_pos]
      exact ⟨e, mem_rowOf.mpr ⟨h e he, (mem_rowOf.mp he).2⟩, rfl⟩
  split
  · next hnc =>
    refine Sat.pure ⟨?_, by simp⟩
    rw [Bool.not_eq_true', decide_eq_false_iff_not, hcov] at hnc
    simp only [Bool.false_eq_true, false_iff]
    exact hnc
  · next hc =>
    rw [Bool.not_eq_true', decide_eq_false_iff_not, hcov, not_not] at hc
    refine Sat.bind (mark_sat false _ _ (by rw [hm1]; exact hcr)) ?_
    rintro un ⟨hu1, hu2⟩
    refine Sat.pure ⟨by simpa using hc, fun _ => ?_⟩
    apply List.ext_getElem?
    intro c
    by_cases hcl' : c < lhs.numCols
    · rw [hu2 c (by omega), hm2 c hcl']
      split <;> simp [hcl']
    · rw [List.getElem?_eq_none (by simp only; omega), List.getElem?_eq_none (by simp; omega)]

theorem isSparsitySubset_rows {lhs rhs : Csr} (hl : lhs.Ok) (hr : rhs.Ok)
    (hrows : lhs.numRows = rhs.numRows) (hcols : lhs.numCols = rhs.numCols) :
    Sat ((List.range lhs.numRows).foldlM (isSparsitySubsetRow lhs rhs)
      (List.replicate lhs.numCols false, true))
      (fun st => st.2 = true ↔ ∀ e ∈ lhs.entries, e ∈ rhs.entries) := by
  refine Sat.mono (foldlM_range_inv (fun n (st : List Bool × Bool) =>
    (st.2 = true ↔ ∀ e ∈ lhs.entries, e.row < n → e ∈ rhs.entries) ∧
      (st.2 = true → st.1 = List.replicate lhs.numCols false)) (by simp) ?_) ?_
  · rintro i ⟨m, b⟩ hi ⟨h1, h2⟩
    simp only at h1 h2
    have hstep : (∀ e ∈ lhs.entries, e.row < i + 1 → e ∈ rhs.entries) ↔
        (∀ e ∈ lhs.entries, e.row < i → e ∈ rhs.entries) ∧
        ∀ e ∈ rowOf lhs.entries i, e ∈ rhs.entries := by
      constructor
      · intro h
        refine ⟨fun e he hlt => h e he (by omega), fun e he => ?_⟩
        obtain ⟨h3, h4⟩ := mem_rowOf.mp he
        exact h e h3 (by omega)
      · rintro ⟨h3, h4⟩ e he hlt
        rcases Nat.lt_or_eq_of_le (Nat.le_of_lt_succ hlt) with h5 | h5
        · exact h3 e he h5
        · exact h4 e (mem_rowOf.mpr ⟨he, h5⟩)
    cases b with
    | false =>
      unfold isSparsitySubsetRow
      simp only [Bool.not_false, if_true]
      refine Sat.pure ⟨?_, by simp⟩
      rw [hstep, ← h1]
      simp
    | true =>
      rw [h2 rfl]
      refine Sat.mono (isSparsitySubsetRow_eq hl hr hrows hcols hi) ?_
      rintro st ⟨h3, h4⟩
      refine ⟨?_, h4⟩
      rw [h3, hstep, ← h1]
      simp
  · rintro st ⟨h1, -⟩
    rw [h1]
    exact ⟨fun h e he => h e he (hl.row_lt e he), fun h e he _ => h e he⟩

theorem isSparsitySubset_eq {lhs rhs : Sparsity} {pr pc qr qc : List Nat} (hl : lhs.InRange)
    (hr : rhs.InRange) (hrows : lhs.numRows = rhs.numRows) (hcols : lhs.numCols = rhs.numCols)
    (hpr : IsInv pr qr lhs.numRows) (hpc : IsInv pc qc lhs.numCols) {opr opc : Option (List Nat)}
    (ho1 : opr.getD (identityPermutation lhs.numRows) = pr)
    (ho2 : opc.getD (identityPermutation lhs.numCols) = pc) :
    isSparsitySubset lhs rhs opr opc =
      .ok (decide (∀ e ∈ lhs.entries.map (relabel qr qc), e ∈ rhs.entries)) := by
  unfold isSparsitySubset
  rw [pre_true (by simpa using hrows), ok_bind, pre_true (by simpa using hcols), ok_bind]
  rw [ho1, ho2, getSparsityPermuted_eq hl hpr hpc, ok_bind]
  have hl' := relabel_inRange hl hpr.right hpc.right
  rw [toCsr_eq hl', ok_bind, make_self hr, ok_bind, toCsr_eq hr, ok_bind]
  obtain ⟨st, hst, h⟩ := isSparsitySubset_rows (csrOf_ok hl') (csrOf_ok hr) hrows hcols
  rw [hst]
  simp only [ok_bind, pure_eq_ok]
  congr 1
  rw [Bool.eq_iff_iff, decide_eq_true_iff, h]
  constructor
  · intro h e he
    exact (csrOf_mem fun e he => (hr e he).1).mp (h e ((csrOf_mem fun e he => (hl' e he).1).mpr he))
  · intro h e he
    exact (csrOf_mem fun e he => (hr e he).1).mpr (h e ((csrOf_mem fun e he => (hl' e he).1).mp he))

theorem isInv_identity (n : Nat) : IsInv (identityPermutation n) (identityPermutation n) n :=
  ⟨isPerm_identity n, isPerm_identity n,
    fun i hi => by rw [permAt_identity hi, permAt_identity hi],
    fun i hi => by rw [permAt_identity hi, permAt_identity hi]⟩

theorem relabel_identity {n m : Nat} {e : Entry} (h1 : e.row < n) (h2 : e.col < m) :
    relabel (identityPermutation n) (identityPermutation m) e = e := by
  simp [relabel, permAt_identity h1, permAt_identity h2]

theorem map_relabel_identity {s : Sparsity} (h : s.InRange) :
    s.entries.map (relabel (identityPermutation s.numRows) (identityPermutation s.numCols)) = s.entries := by
  conv_rhs => rw [← List.map_id s.entries]
  apply List.map_congr_left
  intro e he
  exact relabel_identity (h e he).1 (h e he).2

theorem isSparsitySubset_id_eq {lhs rhs : Sparsity} (hl : lhs.InRange)
    (hr : rhs.InRange) (hrows : lhs.numRows = rhs.numRows) (hcols : lhs.numCols = rhs.numCols) :
    isSparsitySubset lhs rhs = .ok (decide (∀ e ∈ lhs.entries, e ∈ rhs.entries)) := by
  rw [isSparsitySubset_eq hl hr hrows hcols (isInv_identity _) (isInv_identity _) rfl rfl]
  simp only [map_relabel_identity hl]

/-! ### Sorting -/

theorem rowMajorLe_total (a b : Entry) : rowMajorLe a b || rowMajorLe b a := by
  simp only [rowMajorLe, Bool.or_eq_true, decide_eq_true_eq, Bool.and_eq_true, beq_iff_eq]
  omega

theorem rowMajorLe_trans (a b c : Entry) : rowMajorLe a b → rowMajorLe b c → rowMajorLe a c := by
  simp only [rowMajorLe, Bool.or_eq_true, decide_eq_true_eq, Bool.and_eq_true, beq_iff_eq]
  omega

theorem sort_perm (l : List Entry) : (sortEntriesRowMajor l).Perm l :=
  List.perm_insertionSort _ _

theorem sort_sorted {l : List Entry} (h : l.Nodup) : (sortEntriesRowMajor l).Pairwise rowMajorLt := by
  have h1 : (sortEntriesRowMajor l).Pairwise (fun a b => rowMajorLe a b = true) := by
    haveI : Std.Total (fun a b => rowMajorLe a b = true) :=
      ⟨fun a b => by simpa using rowMajorLe_total a b⟩
    haveI : IsTrans Entry (fun a b => rowMajorLe a b = true) := ⟨rowMajorLe_trans⟩
    exact List.pairwise_insertionSort _ l
  have h2 : (sortEntriesRowMajor l).Nodup := (sort_perm l).nodup_iff.mpr h
  refine List.Pairwise.imp ?_ (List.Pairwise.and h1 h2)
  rintro ⟨a, b⟩ ⟨c, d⟩ ⟨h3, h4⟩
  simp only [rowMajorLe, Bool.or_eq_true, decide_eq_true_eq, Bool.and_eq_true, beq_iff_eq] at h3
  have h5 : ¬ (a = c ∧ b = d) := by
    rintro ⟨rfl, rfl⟩; exact h4 rfl
  simp only [rowMajorLt]
  omega

theorem sorted_unique {l l' : List Entry} (h : l.Pairwise rowMajorLt) (h' : l'.Pairwise rowMajorLt)
    (hm : ∀ e, e ∈ l ↔ e ∈ l') : l = l' := by
  have irr : ∀ {l : List Entry}, l.Pairwise rowMajorLt → l.Nodup := fun h =>
    List.Pairwise.imp (by rintro a b h rfl; unfold rowMajorLt at h; omega) h
  have hp : l.Perm l' := (List.perm_ext_iff_of_nodup (irr h) (irr h')).mpr hm
  refine List.Perm.eq_of_pairwise ?_ h h' hp
  intro a b _ _ h1 h2
  unfold rowMajorLt at h1 h2
  omega

theorem sorted_nodup {l : List Entry} (h : l.Pairwise rowMajorLt) : l.Nodup :=
  List.Pairwise.imp (by rintro a b h rfl; unfold rowMajorLt at h; omega) h

theorem sort_eq_self {l : List Entry} (h : l.Pairwise rowMajorLt) : sortEntriesRowMajor l = l :=
  sorted_unique (sort_sorted (sorted_nodup h)) h fun _ => (sort_perm l).mem_iff

end Ctldl
