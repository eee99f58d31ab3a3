import Verif.Lemmas.MtxMoved
import Verif.Spec.Messages

/-! # What is said about a matrix file -/

namespace Ctldl

variable {K : Type} {s : ArrowheadSparsity} {d : Dims} {N : Nat}

theorem mtxPlaceEntry_upper (hs : s.Valid d) (m : MtxArrowhead K) {e : MtxEntry K} (h : e.row < e.col) :
    mtxPlaceEntry s N m e = .error (.mtx .upperTriangle) := by
  unfold mtxPlaceEntry
  rw [valid_dimStart hs, ok_bind, valid_dimTridiag hs, ok_bind, valid_dimLink hs, ok_bind]
  simp only
  rw [mtxCheck_false (by simpa using h)]
  rfl

theorem le_movedRow (hd : 0 < d.tridiag) {r c : Nat} (h : c ≤ r) : c ≤ d.movedRow N r c := by
  rcases movedRow_cases d N r c with ⟨h0, h1, h2, h4, hm⟩ | ⟨h0, h1, h3, hm⟩ | ⟨hm, -⟩
  · have h5 := Nat.mod_lt (c - d.start) hd
    have h6 := Nat.div_add_mod' (c - d.start) d.tridiag
    have h7 : ((c - d.start) / d.tridiag + 1) * d.tridiag = (c - d.start) / d.tridiag * d.tridiag + d.tridiag :=
      Nat.succ_mul _ _
    rw [hm]
    omega
  · rw [hm]; omega
  · rw [hm]; exact h

/-- What becomes of one line. -/
theorem foreachLine_cases [Zero K] (hs : s.Valid d) (hd : 0 < d.tridiag) (scanner : Scanner K) {dims : MtxDimensions}
    (hrows : dims.numRows = d.total N) (hcols : dims.numCols = d.total N) (line : String) :
    (AcceptedLine scanner s d N line ∧ ∀ (m : MtxArrowhead K) done n, m.Placed s d N done → ∃ m' done',
      mtxForeachLine scanner dims (mtxPlaceEntry s N) (m, n) line = .ok (m', n + 1) ∧ m'.Placed s d N done') ∨
    (∃ kind : MtxErr, LineDefect scanner s d N line kind.message ∧ ∀ (m : MtxArrowhead K) done n, m.Placed s d N done →
      mtxForeachLine scanner dims (mtxPlaceEntry s N) (m, n) line = .error (.mtx kind)) ∨
    (∃ e, scanner.entry line = .error e ∧ ∀ (m : MtxArrowhead K) n,
      mtxForeachLine scanner dims (mtxPlaceEntry s N) (m, n) line = .error e) ∨
    (∃ r c v, scanner.entry line = .ok (some (r + 1, c + 1, v)) ∧ d.Overruns N r c ∧
      ∀ (m : MtxArrowhead K) done n, m.Placed s d N done →
        mtxForeachLine scanner dims (mtxPlaceEntry s N) (m, n) line = .error .ub) := by
  cases h : scanner.entry line with
  | error e =>
    refine Or.inr (Or.inr (Or.inl ⟨e, rfl, fun m n => ?_⟩))
    unfold mtxForeachLine
    rw [h]
  | ok o =>
    rcases line_cases scanner dims line ⟨o, h⟩ with ⟨⟨r, c, v⟩, he⟩ | ⟨hn, he⟩ | ⟨r, c, v, kind, hr, hk, he⟩
    · have hgo := he
      obtain ⟨h1, h2, h3⟩ := he
      rw [h] at h1
      simp only at h1 h2 h3
      rw [hrows] at h2
      rw [hcols] at h3
      cases h1
      by_cases ho : d.Overruns N r c
      · refine Or.inr (Or.inr (Or.inr ⟨r, c, v, rfl, ho, fun m done n hm => ?_⟩))
        rw [foreachLine_good hgo, mtxPlaceEntry_overrun hs hm ho]
        rfl
      have hh := moved_handles hd ho
      by_cases hrc : r < c
      · refine Or.inr (Or.inl ⟨.upperTriangle, .upper h h2 h3 hrc, fun m done n hm => ?_⟩)
        rw [foreachLine_good hgo, mtxPlaceEntry_upper hs m hrc]
        rfl
      by_cases hc : s.Covers d N (d.movedRow N r c) c
      · refine Or.inl ⟨⟨r, c, v, h, h2, h3, ho, hc⟩, fun m done n hm => ?_⟩
        obtain ⟨m', h4, h5⟩ := mtxPlaceEntry_covered hs hm (e := (⟨r, c, v⟩ : MtxEntry K).moved d N) hc hh
        refine ⟨m', _, ?_, h5⟩
        rw [foreachLine_good hgo, mtxPlaceEntry_moved hs hd, h4]
        rfl
      · refine Or.inr (Or.inl ⟨.notCovered, .pattern h h2 h3 (by omega) ho hc, fun m done n hm => ?_⟩)
        rw [foreachLine_good hgo, mtxPlaceEntry_moved hs hd]
        rcases mtxPlaceEntry_uncovered hs hd hm (e := (⟨r, c, v⟩ : MtxEntry K).moved d N) (moved_lt hd h2) h3 hc hh with
          ⟨h6, -⟩ | ⟨-, h6⟩
        · exact absurd (le_movedRow (N := N) hd (show c ≤ r by omega)) (Nat.not_le_of_lt h6)
        · rw [h6]; rfl
    · exact Or.inr (Or.inl ⟨.entryLine, .numbers hn, fun m done n _ => he _ _ _⟩)
    · refine Or.inr (Or.inl ⟨kind, ?_, fun m done n _ => he _ _ _⟩)
      cases hk with
      | rowZero => exact .rowZero hr
      | colZero h0 =>
        obtain ⟨r, rfl⟩ : ∃ r', r = r' + 1 := ⟨r - 1, by omega⟩
        exact .colZero hr
      | rowLarge h0 h1 =>
        obtain ⟨r, rfl⟩ : ∃ r', r = r' + 1 := ⟨r - 1, by omega⟩
        obtain ⟨c, rfl⟩ : ∃ c', c = c' + 1 := ⟨c - 1, by omega⟩
        exact .rowLarge hr (by omega)
      | colLarge h0 h1 h2 =>
        obtain ⟨r, rfl⟩ : ∃ r', r = r' + 1 := ⟨r - 1, by omega⟩
        obtain ⟨c, rfl⟩ : ∃ c', c = c' + 1 := ⟨c - 1, by omega⟩
        exact .colLarge hr (by omega) (by omega)

theorem movedRow_upper {r c : Nat} (h : r < c) : d.movedRow N r c = r := by
  rcases movedRow_cases d N r c with ⟨h0, h1, h2, h4, hm⟩ | ⟨h0, h1, h3, hm⟩ | ⟨hm, -⟩
  · exact absurd (Nat.div_le_div_right (c := d.tridiag) (show r - d.start ≤ c - d.start by omega)) (by omega)
  · omega
  · exact hm

/-- A line with a defect is neither accepted nor one with undefined behavior. -/
theorem LineDefect.not_accepted {scanner : Scanner K} {line message : String}
    (h : LineDefect scanner s d N line message) {r c : Nat} {v : K}
    (h1 : scanner.entry line = .ok (some (r + 1, c + 1, v))) :
    ¬ d.Overruns N r c ∧ ¬ (r < d.total N ∧ c < d.total N ∧ s.Covers d N (d.movedRow N r c) c) := by
  unfold Dims.Overruns
  simp only [Dims.before]
  have ht : d.total N = d.start + (N + 1) * d.tridiag + d.link + d.outer := rfl
  cases h with
  | numbers h => rw [h] at h1; cases h1
  | rowZero h => rw [h] at h1; cases h1
  | colZero h => rw [h] at h1; cases h1
  | rowLarge h hr => rw [h] at h1; cases h1; exact ⟨by omega, by omega⟩
  | colLarge h hr hc => rw [h] at h1; cases h1; exact ⟨by omega, by omega⟩
  | upper h hr hc hrc =>
    rw [h] at h1
    cases h1
    refine ⟨by omega, fun ⟨_, _, h2⟩ => ?_⟩
    have := h2.1
    rw [movedRow_upper hrc] at this
    omega
  | pattern h hr hc hrc ho hs => rw [h] at h1; cases h1; exact ⟨ho, fun h2 => hs h2.2.2⟩

/-- A line has one defect at most. -/
theorem LineDefect.unique {scanner : Scanner K} {line message message' : String}
    (h : LineDefect scanner s d N line message) (h' : LineDefect scanner s d N line message') : message = message' := by
  cases h <;> cases h' <;> first | rfl | (exfalso; simp_all; done) | (exfalso; simp_all; omega)

/-- What is said about the sizes. -/
theorem mtxNumRepetitions_square (s : ArrowheadSparsity) {dims : MtxDimensions} (h : dims.numRows ≠ dims.numCols) :
    mtxNumRepetitions s dims = .error (.mtx .notSquare) := by
  unfold mtxNumRepetitions
  rw [mtxCheck_false (by simpa using h)]
  rfl

theorem mtxNumRepetitions_small (hs : s.Valid d) {dims : MtxDimensions} (h : dims.numRows = dims.numCols)
    (hle : dims.numRows ≤ d.start + d.link + d.outer) : mtxNumRepetitions s dims = .error (.mtx .tooSmall) := by
  unfold mtxNumRepetitions
  rw [mtxCheck_true (by simpa using h), ok_bind, valid_dimStart hs, ok_bind, valid_dimLink hs, ok_bind,
    valid_dimOuter hs, ok_bind]
  simp only
  rw [mtxCheck_false (by simpa using hle)]
  rfl

theorem mtxNumRepetitions_multiple (hs : s.Valid d) (hd : 0 < d.tridiag) {dims : MtxDimensions}
    (h : dims.numRows = dims.numCols) (hlt : d.start + d.link + d.outer < dims.numRows)
    (hne : ∀ N, dims.numRows ≠ d.total N) : mtxNumRepetitions s dims = .error (.mtx .notMultiple) := by
  unfold mtxNumRepetitions
  rw [mtxCheck_true (by simpa using h), ok_bind, valid_dimStart hs, ok_bind, valid_dimLink hs, ok_bind,
    valid_dimOuter hs, ok_bind]
  simp only
  rw [mtxCheck_true (by simpa using hlt), ok_bind, valid_dimTridiag hs, ok_bind, umod_ok (by omega), ok_bind,
    mtxCheck_false]
  · rfl
  · rw [beq_eq_false_iff_ne]
    intro h3
    obtain ⟨k, hk⟩ := Nat.dvd_of_mod_eq_zero h3
    have hk0 : k ≠ 0 := by rintro rfl; rw [Nat.mul_zero] at hk; omega
    apply hne (k - 1)
    unfold Dims.total
    rw [show k - 1 + 1 = k by omega, Nat.mul_comm]
    omega

theorem mtxNumRepetitions_total (hs : s.Valid d) (hd : 0 < d.tridiag) (N nnz : Nat) :
    mtxNumRepetitions s ⟨d.total N, d.total N, nnz⟩ = .ok N := by
  rcases mtxNumRepetitions_cases hs hd ⟨d.total N, d.total N, nnz⟩ with ⟨M, h1, -, h2⟩ | ⟨-, h⟩
  · rw [h1, total_inj hd (N := N) (M := M) h2]
  · exact absurd ⟨N, rfl, rfl⟩ h

/-- Accepted lines are gone through. -/
theorem foreachLines_accepted [Zero K] (hs : s.Valid d) (hd : 0 < d.tridiag) {scanner : Scanner K}
    {dims : MtxDimensions} (hrows : dims.numRows = d.total N) (hcols : dims.numCols = d.total N) {lines : List String}
    (h : ∀ line ∈ lines, AcceptedLine scanner s d N line) {m : MtxArrowhead K} {done : List (MtxEntry K)}
    (hm : m.Placed s d N done) (n : Nat) :
    ∃ m' done', lines.foldlM (mtxForeachLine scanner dims (mtxPlaceEntry s N)) (m, n) = .ok (m', n + lines.length) ∧
      m'.Placed s d N done' := by
  induction lines generalizing m done n with
  | nil => exact ⟨m, done, rfl, hm⟩
  | cons line lines ih =>
    have ha := h line (by simp)
    rw [List.foldlM_cons]
    rcases foreachLine_cases hs hd scanner hrows hcols line with ⟨-, h1⟩ | ⟨kind, h1, -⟩ | ⟨e, h1, -⟩ | ⟨r, c, v, h1, h2, -⟩
    · obtain ⟨m', done', h2, h3⟩ := h1 m done n hm
      obtain ⟨m'', done'', h4, h5⟩ := ih (fun l hl => h l (by simp [hl])) h3 (n + 1)
      refine ⟨m'', done'', ?_, h5⟩
      rw [h2, ok_bind, h4, List.length_cons]
      congr 2
      omega
    · obtain ⟨r, c, v, h2, h3, h4, -, h5⟩ := ha
      exact absurd ⟨h3, h4, h5⟩ (h1.not_accepted h2).2
    · obtain ⟨r, c, v, h2, -⟩ := ha
      rw [h1] at h2
      cases h2
    · obtain ⟨r', c', v', h3, -, -, h4, -⟩ := ha
      rw [h1] at h3
      cases h3
      exact absurd h2 h4

/-- The first line with a defect is reported. -/
theorem foreachLine_defect [Zero K] (hs : s.Valid d) (hd : 0 < d.tridiag) {scanner : Scanner K}
    {dims : MtxDimensions} (hrows : dims.numRows = d.total N) (hcols : dims.numCols = d.total N) {line message : String}
    (h : LineDefect scanner s d N line message) : ∃ kind : MtxErr, kind.message = message ∧
      ∀ (m : MtxArrowhead K) done n, m.Placed s d N done →
        mtxForeachLine scanner dims (mtxPlaceEntry s N) (m, n) line = .error (.mtx kind) := by
  rcases foreachLine_cases hs hd scanner hrows hcols line with ⟨h1, -⟩ | ⟨kind, h1, h2⟩ | ⟨e, h1, -⟩ | ⟨r, c, v, h1, h2, -⟩
  · obtain ⟨r, c, v, h2, h3, h4, -, h5⟩ := h1
    exact absurd ⟨h3, h4, h5⟩ (h.not_accepted h2).2
  · exact ⟨kind, h1.unique h, h2⟩
  · exfalso
    cases h <;> simp_all
  · exact absurd h2 (h.not_accepted h1).1

/-- If going through the lines throws, then the first line which is not accepted has a defect. -/
theorem foreachLines_throws [Zero K] (hs : s.Valid d) (hd : 0 < d.tridiag) {scanner : Scanner K}
    (hsc : ∀ line kind, scanner.entry line ≠ .error (.mtx kind)) {dims : MtxDimensions}
    (hrows : dims.numRows = d.total N) (hcols : dims.numCols = d.total N) {lines : List String} {m : MtxArrowhead K}
    {done : List (MtxEntry K)} (hm : m.Placed s d N done) {n : Nat} {kind : MtxErr}
    (h : lines.foldlM (mtxForeachLine scanner dims (mtxPlaceEntry s N)) (m, n) = .error (.mtx kind)) :
    ∃ good bad more, lines = good ++ bad :: more ∧ (∀ line ∈ good, AcceptedLine scanner s d N line) ∧
      LineDefect scanner s d N bad kind.message := by
  induction lines generalizing m done n with
  | nil => cases h
  | cons line lines ih =>
    rw [List.foldlM_cons] at h
    rcases foreachLine_cases hs hd scanner hrows hcols line with ⟨ha, h1⟩ | ⟨kind', h1, h2⟩ | ⟨e, h1, h2⟩ | ⟨r, c, v, h1, h2, h3⟩
    · obtain ⟨m', done', h2, h3⟩ := h1 m done n hm
      rw [h2, ok_bind] at h
      obtain ⟨good, bad, more, rfl, hg, hb⟩ := ih h3 h
      exact ⟨line :: good, bad, more, rfl, fun l hl => (List.mem_cons.mp hl).elim (fun e => e ▸ ha) (hg l), hb⟩
    · rw [h2 m done n hm, error_bind] at h
      cases h
      exact ⟨[], line, lines, rfl, fun l hl => absurd hl List.not_mem_nil, h1⟩
    · rw [h2, error_bind] at h
      cases h
      exact absurd h1 (hsc line kind)
    · rw [h3 m done n hm, error_bind] at h
      cases h

/-- If all lines are gone through, then all are accepted. -/
theorem foreachLines_ok [Zero K] (hs : s.Valid d) (hd : 0 < d.tridiag) {scanner : Scanner K} {dims : MtxDimensions}
    (hrows : dims.numRows = d.total N) (hcols : dims.numCols = d.total N) {lines : List String} {m : MtxArrowhead K}
    {done : List (MtxEntry K)} (hm : m.Placed s d N done) {n : Nat} {st : MtxArrowhead K × Nat}
    (h : lines.foldlM (mtxForeachLine scanner dims (mtxPlaceEntry s N)) (m, n) = .ok st) :
    (∀ line ∈ lines, AcceptedLine scanner s d N line) ∧ st.2 = n + lines.length := by
  induction lines generalizing m done n with
  | nil => cases h; exact ⟨fun l hl => absurd hl List.not_mem_nil, rfl⟩
  | cons line lines ih =>
    rw [List.foldlM_cons] at h
    rcases foreachLine_cases hs hd scanner hrows hcols line with ⟨ha, h1⟩ | ⟨kind', h1, h2⟩ | ⟨e, h1, h2⟩ | ⟨r, c, v, h1, h2, h3⟩
    · obtain ⟨m', done', h2, h3⟩ := h1 m done n hm
      rw [h2, ok_bind] at h
      obtain ⟨hg, hn⟩ := ih h3 h
      refine ⟨fun l hl => (List.mem_cons.mp hl).elim (fun e => e ▸ ha) (hg l), ?_⟩
      rw [hn, List.length_cons]
      omega
    · rw [h2 m done n hm, error_bind] at h
      cases h
    · rw [h2, error_bind] at h
      cases h
    · rw [h3 m done n hm, error_bind] at h
      cases h

/-- Reading a file, after the sizes. -/
theorem mtxFileRead_sizes [Zero K] {scanner : Scanner K} {comments rest : List String} {header : String}
    (hc : ∀ line ∈ comments, CommentLine line) (hh : ¬ CommentLine header) {dims : MtxDimensions}
    (h : scanner.header header = .ok (some (dims.numRows, dims.numCols, dims.nnz))) :
    mtxFileRead scanner s (comments ++ header :: rest) = (do
      let N ← mtxNumRepetitions s dims
      let m ← mtxEmpty s N
      let (m, n) ← rest.foldlM (mtxForeachLine scanner dims (mtxPlaceEntry s N)) (m, 0)
      mtxCheck (n == dims.nnz) .entryCount
      return m) := by
  unfold mtxFileRead mtxForeachEntry
  rw [mtxReadHeader_eq hc hh, h]
  rfl

end Ctldl
