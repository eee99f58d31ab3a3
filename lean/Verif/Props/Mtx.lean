import Verif.Lemmas.MtxRead
import Verif.Spec.Tridiagonal

/-! # C40, C41: reading matrix files -/

namespace Ctldl

variable {K : Type}

/-! ### C41 -/

/-- C41: the entries of a file are delivered one after the other, each once and in order; if all of them are accepted,
reading succeeds. -/
theorem C41_traverses {S : Type} (scanner : Scanner K) (lines : List String) (dims : MtxDimensions)
    (entries : List (MtxEntry K)) (h : IsMtxFile scanner lines dims entries) (func : S → MtxEntry K → Res S)
    (init : S) :
    mtxForeachEntry scanner lines func init = entries.foldlM func init := by
  obtain ⟨comments, header, rest, rfl, hc, hh, hs, hr, hin, hlen⟩ := h
  unfold mtxForeachEntry
  rw [mtxReadHeader_eq hc hh, hs]
  simp only [ok_bind]
  rw [foreachLines_good (forall₂_iff.mpr ⟨hr, hin⟩), bind_assoc]
  simp only [ok_bind, Nat.zero_add]
  rw [mtxCheck_true (by simpa using hlen)]
  simp only [ok_bind]
  exact bind_pure _

/-- C41: a file which is not of this form is reported, unless an entry before the defect is not accepted. -/
theorem C41_detects {S : Type} (scanner : Scanner K) (lines : List String)
    (hd : ∀ line ∈ lines, (∃ o, scanner.header line = .ok o) ∧ ∃ o, scanner.entry line = .ok o)
    (h : ∀ dims entries, ¬ IsMtxFile scanner lines dims entries) (func : S → MtxEntry K → Res S) (init : S) :
    ∃ accepted : List (MtxEntry K), ∃ kind : MtxErr,
      mtxForeachEntry scanner lines func init = (accepted.foldlM func init >>= fun _ => .error (.mtx kind)) := by
  unfold mtxForeachEntry
  rcases header_cases lines with hall | ⟨comments, header, rest, rfl, hc, hh⟩
  · exact ⟨[], .header, by rw [mtxReadHeader_comments hall]; rfl⟩
  rw [mtxReadHeader_eq hc hh]
  obtain ⟨o, hs⟩ := (hd header (by simp)).1
  rw [hs]
  cases o with
  | none => exact ⟨[], .header, rfl⟩
  | some x =>
    obtain ⟨numRows, numCols, nnz⟩ := x
    simp only [ok_bind]
    rcases lines_cases scanner ⟨numRows, numCols, nnz⟩ rest with ⟨entries, hg⟩ | ⟨good, bad, more, entries, rfl, hg, hb⟩
    · refine ⟨entries, .entryCount, ?_⟩
      rw [foreachLines_good hg, bind_assoc]
      congr 1
      funext s
      simp only [ok_bind, Nat.zero_add]
      rw [mtxCheck_false]
      · rfl
      · rw [beq_eq_false_iff_ne]
        intro hlen
        have := forall₂_iff.mp hg
        exact h ⟨numRows, numCols, nnz⟩ entries
          ⟨comments, header, rest, rfl, hc, hh, hs, this.1, this.2, hlen⟩
    · rw [List.foldlM_append, foreachLines_good hg]
      have : ∃ kind, ∀ st, mtxForeachLine scanner ⟨numRows, numCols, nnz⟩ func st bad = .error (.mtx kind) := by
        rcases line_cases scanner ⟨numRows, numCols, nnz⟩ bad (hd bad (by simp)).2 with ⟨e, he⟩ | ⟨-, he⟩ | ⟨_, _, _, _, -, -, he⟩
        · exact absurd he (hb e)
        · exact ⟨_, fun st => he S func st⟩
        · exact ⟨_, fun st => he S func st⟩
      obtain ⟨kind, hk⟩ := this
      refine ⟨entries, kind, ?_⟩
      rw [bind_assoc, bind_assoc]
      congr 1
      funext s
      rw [ok_bind, List.foldlM_cons, hk]
      rfl

/-- C41: in particular, reading a file which is not of this form ends with an exception if no entry is refused. -/
theorem C41_throws {S : Type} (scanner : Scanner K) (lines : List String)
    (hd : ∀ line ∈ lines, (∃ o, scanner.header line = .ok o) ∧ ∃ o, scanner.entry line = .ok o)
    (h : ∀ dims entries, ¬ IsMtxFile scanner lines dims entries) (func : S → MtxEntry K → Res S)
    (hf : ∀ s e, ∃ s', func s e = .ok s') (init : S) :
    ∃ kind : MtxErr, mtxForeachEntry scanner lines func init = .error (.mtx kind) := by
  obtain ⟨accepted, kind, h⟩ := C41_detects scanner lines hd h func init
  refine ⟨kind, ?_⟩
  rw [h]
  obtain ⟨s, hs, -⟩ : Sat (accepted.foldlM func init) (fun _ => True) :=
    foldlM_inv (fun _ _ => True) trivial fun _ a _ s _ _ => by
      obtain ⟨s', hs'⟩ := hf s a
      exact ⟨s', hs', trivial⟩
  rw [hs]
  rfl

/-- C41: which exception: no line other than comments, or no three numbers in the first such line. -/
theorem C41_header {S : Type} (scanner : Scanner K) (lines : List String)
    (h : (∀ line ∈ lines, CommentLine line) ∨ ∃ comments header rest, lines = comments ++ header :: rest ∧
      (∀ line ∈ comments, CommentLine line) ∧ ¬ CommentLine header ∧ scanner.header header = .ok none)
    (func : S → MtxEntry K → Res S) (init : S) :
    mtxForeachEntry scanner lines func init = .error (.mtx .header) := by
  unfold mtxForeachEntry
  rcases h with h | ⟨comments, header, rest, rfl, hc, hh, hs⟩
  · rw [mtxReadHeader_comments h]; rfl
  · rw [mtxReadHeader_eq hc hh, hs]; rfl

/-- C41: which exception: the first line which is not an entry, or not in range, is reported after the entries before
it have been delivered. -/
theorem C41_entry {S : Type} (scanner : Scanner K) (comments good more : List String) (header bad : String)
    (hc : ∀ line ∈ comments, CommentLine line) (hh : ¬ CommentLine header) (dims : MtxDimensions)
    (hs : scanner.header header = .ok (some (dims.numRows, dims.numCols, dims.nnz))) (entries : List (MtxEntry K))
    (hr : good.map scanner.entry = entries.map (fun e => .ok (some (e.row + 1, e.col + 1, e.value))))
    (hin : ∀ e ∈ entries, e.row < dims.numRows ∧ e.col < dims.numCols) (func : S → MtxEntry K → Res S) (init : S) :
    (scanner.entry bad = .ok none →
      mtxForeachEntry scanner (comments ++ header :: (good ++ bad :: more)) func init =
        (entries.foldlM func init >>= fun _ => .error (.mtx .entryLine))) ∧
    (∀ r c v kind, scanner.entry bad = .ok (some (r, c, v)) → IndexDefect dims r c kind →
      mtxForeachEntry scanner (comments ++ header :: (good ++ bad :: more)) func init =
        (entries.foldlM func init >>= fun _ => .error (.mtx kind))) := by
  have key : ∀ kind, (∀ st, mtxForeachLine scanner dims func st bad = .error (.mtx kind)) →
      mtxForeachEntry scanner (comments ++ header :: (good ++ bad :: more)) func init =
        (entries.foldlM func init >>= fun _ => .error (.mtx kind)) := by
    intro kind hk
    unfold mtxForeachEntry
    rw [mtxReadHeader_eq hc hh, hs]
    simp only [ok_bind]
    rw [List.foldlM_append, foreachLines_good (forall₂_iff.mpr ⟨hr, hin⟩), bind_assoc, bind_assoc]
    congr 1
    funext s
    rw [ok_bind, List.foldlM_cons, hk]
    rfl
  refine ⟨fun hn => key _ ?_, fun r c v kind hn hbad => key _ fun st => foreachLine_index hn hbad st⟩
  intro st
  rcases line_cases scanner dims bad ⟨_, hn⟩ with ⟨e, he⟩ | ⟨-, he⟩ | ⟨_, _, _, _, he, -⟩
  · exact absurd he.1 (by rw [hn]; simp)
  · exact he S func st
  · rw [hn] at he; cases he

/-- C41: which exception: a wrong number of entries is reported after all of them have been delivered. -/
theorem C41_count {S : Type} (scanner : Scanner K) (comments rest : List String) (header : String)
    (hc : ∀ line ∈ comments, CommentLine line) (hh : ¬ CommentLine header) (dims : MtxDimensions)
    (hs : scanner.header header = .ok (some (dims.numRows, dims.numCols, dims.nnz))) (entries : List (MtxEntry K))
    (hr : rest.map scanner.entry = entries.map (fun e => .ok (some (e.row + 1, e.col + 1, e.value))))
    (hin : ∀ e ∈ entries, e.row < dims.numRows ∧ e.col < dims.numCols) (hlen : entries.length ≠ dims.nnz)
    (func : S → MtxEntry K → Res S) (init : S) :
    mtxForeachEntry scanner (comments ++ header :: rest) func init =
      (entries.foldlM func init >>= fun _ => .error (.mtx .entryCount)) := by
  unfold mtxForeachEntry
  rw [mtxReadHeader_eq hc hh, hs]
  simp only [ok_bind]
  rw [foreachLines_good (forall₂_iff.mpr ⟨hr, hin⟩), bind_assoc]
  congr 1
  funext s
  simp only [ok_bind, Nat.zero_add]
  rw [mtxCheck_false (by simpa using hlen)]
  rfl

/-- C41: the reader of the repeating form accepts the sizes of the form `start + (N+1)*block + link + outer`, and
throws for all others, whatever comes after the header. -/
theorem C41_size (s : ArrowheadSparsity) (d : Dims) (hs : s.Valid d) (hd : 0 < d.tridiag) (dims : MtxDimensions) :
    (∀ N, mtxNumRepetitions s dims = .ok N ↔
      dims.numRows = dims.numCols ∧ dims.numRows = d.start + (N + 1) * d.tridiag + d.link + d.outer) ∧
    ((∀ N, ¬ (dims.numRows = dims.numCols ∧
        dims.numRows = d.start + (N + 1) * d.tridiag + d.link + d.outer)) →
      ∃ e, mtxNumRepetitions s dims = .error (.mtx e)) := by
  have hcases := mtxNumRepetitions_cases hs hd dims
  constructor
  · intro N
    constructor
    · intro h
      rcases hcases with ⟨M, h1, h2, h3⟩ | ⟨⟨e, he⟩, -⟩
      · rw [h] at h1; cases h1
        exact ⟨h2, h3⟩
      · rw [h] at he; cases he
    · rintro ⟨h1, h2⟩
      rcases hcases with ⟨M, h3, h4, h5⟩ | ⟨-, hn⟩
      · rw [h3, total_inj hd (N := M) (M := N) (h5.symm.trans h2)]
      · exact absurd ⟨N, h1, h2⟩ hn
  · intro hn
    rcases hcases with ⟨M, -, h4, h5⟩ | ⟨he, -⟩
    · exact absurd ⟨h4, h5⟩ (hn M)
    · exact he

/-- C41: reading a file of a wrong size throws. -/
theorem C41_read_size [Zero K] (s : ArrowheadSparsity) (d : Dims) (hs : s.Valid d) (hd : 0 < d.tridiag)
    (scanner : Scanner K) (comments rest : List String) (header : String)
    (hc : ∀ line ∈ comments, CommentLine line) (hh : ¬ CommentLine header) (dims : MtxDimensions)
    (hh' : scanner.header header = .ok (some (dims.numRows, dims.numCols, dims.nnz)))
    (hn : ∀ N, ¬ (dims.numRows = dims.numCols ∧
      dims.numRows = d.start + (N + 1) * d.tridiag + d.link + d.outer)) :
    ∃ e, mtxFileRead scanner s (comments ++ header :: rest) = .error (.mtx e) := by
  obtain ⟨e, he⟩ := (C41_size s d hs hd dims).2 hn
  refine ⟨e, ?_⟩
  unfold mtxFileRead
  rw [mtxReadHeader_eq hc hh, hh']
  simp only [ok_bind]
  rw [he]
  rfl

/-- Scanner of the examples: the numbers of a few lines. -/
def exampleScanner : Scanner Int where
  header := fun line => .ok <|
    if line = "2 2 2" then some (2, 2, 2) else if line = "3 3 1" then some (3, 3, 1)
    else if line = "4 4 1" then some (4, 4, 1) else none
  entry := fun line => .ok <|
    if line = "1 1 5" then some (1, 1, 5) else if line = "2 1 7" then some (2, 1, 7)
    else if line = "3 1 9" then some (3, 1, 9) else if line = "4 1 8" then some (4, 1, 8) else none

/-- A file with two entries, and files with defects. -/
example : IsMtxFile exampleScanner ["% comment", "2 2 2", "1 1 5", "2 1 7"] ⟨2, 2, 2⟩ [⟨0, 0, 5⟩, ⟨1, 0, 7⟩] := by
  refine ⟨["% comment"], "2 2 2", ["1 1 5", "2 1 7"], rfl, ?_, ?_, by decide, by decide, ?_, rfl⟩
  · intro l hl
    rw [List.mem_singleton] at hl
    subst hl
    exact ⟨" comment".toList, by decide⟩
  · rintro ⟨r, hr⟩
    have : "2 2 2".toList = ['2', ' ', '2', ' ', '2'] := by decide
    rw [this] at hr
    cases hr
  · simp

example : mtxForeachEntry exampleScanner ["% comment", "2 2 2", "1 1 5", "2 1 7"]
      (fun (n : Int) e => .ok (10 * n + e.value)) 0 = .ok 57 ∧
    mtxForeachEntry exampleScanner ["2 2 2", "1 1 5"] (fun (n : Int) e => .ok (10 * n + e.value)) 0 =
      .error (.mtx .entryCount) ∧
    mtxForeachEntry exampleScanner ["2 2 2", "1 1 5", "3 1 9"] (fun (n : Int) e => .ok (10 * n + e.value)) 0 =
      .error (.mtx .rowRange) ∧
    mtxForeachEntry exampleScanner ["2 2 2", "1 1 5", ""] (fun (n : Int) e => .ok (10 * n + e.value)) 0 =
      .error (.mtx .entryLine) := by decide

/-- With an empty repeating block, the size check divides by zero. -/
theorem C41_zero_block_undefined :
    ∃ s : ArrowheadSparsity, tridiagonalSparsity ⟨0, 0, []⟩ ⟨0, 0, []⟩ [] = .ok s ∧
      s.dimTridiag = .ok 0 ∧ mtxFileRead exampleScanner s ["2 2 2", "1 1 5", "2 1 7"] = .error .ub := by
  refine ⟨_, rfl, by decide, ?_⟩
  rfl

/-! ### C40 -/

/-- C40: if all entries are in the declared pattern, reading succeeds and gives a matrix which has, element by
element, the values of the file (the last one for repeated positions) and zeros elsewhere. Missing for the full claim:
entries which are not looked for in the right place (`Dims.Handles`), see `C40_far_block_accepted`,
`C40_outer_row_misplaced` and `C40_start_row_undefined`. -/
theorem C40_placed_partial [AddCommMonoid K] (s : ArrowheadSparsity) (d : Dims) (hs : s.Valid d) (hd : 0 < d.tridiag)
    (scanner : Scanner K) (lines : List String) (dims : MtxDimensions) (entries : List (MtxEntry K))
    (hf : IsMtxFile scanner lines dims entries) (N : Nat) (hrows : dims.numRows = d.total N)
    (hcols : dims.numCols = d.total N) (hc : ∀ e ∈ entries, s.Covers d N e.row e.col)
    (hh : ∀ e ∈ entries, d.Handles N e.row e.col) :
    ∃ m, mtxFileRead scanner s lines = .ok m ∧ m.toMatrix.IsFile s d N entries := by
  have hN : mtxNumRepetitions s dims = .ok N := ((C41_size s d hs hd dims).1 N).mpr ⟨by omega, hrows⟩
  obtain ⟨m0, hm0, hp0⟩ := mtxEmpty_sat (K := K) (N := N) hs
  obtain ⟨m, hm, hp⟩ := placeAll_covered hs hp0 fun e he => ⟨hc e he, hh e he⟩
  have htr := C41_traverses scanner lines dims entries hf (mtxPlaceEntry s N) m0
  refine ⟨m, ?_, hp.isFile hs hc⟩
  obtain ⟨comments, header, rest, rfl, hcm, hhd, hsc, -⟩ := hf
  unfold mtxFileRead
  rw [mtxReadHeader_eq hcm hhd, hsc]
  simp only [ok_bind]
  rw [hN, ok_bind, hm0, ok_bind, htr, hm]

/-- C40: if some entry is not in the declared pattern or above the diagonal, reading throws, saying so. Missing for the
full claim: as for `C40_placed_partial`. -/
theorem C40_uncovered_partial [AddCommMonoid K] (s : ArrowheadSparsity) (d : Dims) (hs : s.Valid d)
    (hd : 0 < d.tridiag) (scanner : Scanner K) (lines : List String) (dims : MtxDimensions)
    (entries : List (MtxEntry K)) (hf : IsMtxFile scanner lines dims entries) (N : Nat)
    (hrows : dims.numRows = d.total N) (hcols : dims.numCols = d.total N)
    (hc : ∃ e ∈ entries, ¬ s.Covers d N e.row e.col) (hh : ∀ e ∈ entries, d.Handles N e.row e.col) :
    mtxFileRead scanner s lines = .error (.mtx .upperTriangle) ∨
      mtxFileRead scanner s lines = .error (.mtx .notCovered) := by
  have hN : mtxNumRepetitions s dims = .ok N := ((C41_size s d hs hd dims).1 N).mpr ⟨by omega, hrows⟩
  obtain ⟨m0, hm0, hp0⟩ := mtxEmpty_sat (K := K) (N := N) hs
  have htr := C41_traverses scanner lines dims entries hf (mtxPlaceEntry s N) m0
  obtain ⟨comments, header, rest, rfl, hcm, hhd, hsc, -, hin, -⟩ := hf
  have := placeAll_uncovered hs hd hp0 (fun e he => ⟨by rw [← hrows]; have := hin e he; omega, hh e he⟩) hc
  unfold mtxFileRead
  rw [mtxReadHeader_eq hcm hhd, hsc]
  simp only [ok_bind]
  rw [hN, ok_bind, hm0, ok_bind, htr]
  exact this

/-- C40: for at most two repeated blocks, without start block, and if the outer block is not larger than the
repeated ones, every position is looked for in the right place: here, the claim holds for all files. -/
theorem C40_small [AddCommMonoid K] (s : ArrowheadSparsity) (d : Dims) (hs : s.Valid d) (hd : 0 < d.tridiag)
    (hstart : d.start = 0) (houter : d.outer ≤ d.tridiag)
    (scanner : Scanner K) (lines : List String) (dims : MtxDimensions) (entries : List (MtxEntry K))
    (hf : IsMtxFile scanner lines dims entries) (N : Nat) (hN : N ≤ 1) (hrows : dims.numRows = d.total N)
    (hcols : dims.numCols = d.total N) :
    ((∀ e ∈ entries, s.Covers d N e.row e.col) →
      ∃ m, mtxFileRead scanner s lines = .ok m ∧ m.toMatrix.IsFile s d N entries) ∧
    ((∃ e ∈ entries, ¬ s.Covers d N e.row e.col) →
      mtxFileRead scanner s lines = .error (.mtx .upperTriangle) ∨
        mtxFileRead scanner s lines = .error (.mtx .notCovered)) := by
  have hh : ∀ e ∈ entries, d.Handles N e.row e.col := by
    intro e _ a b i j ha hb
    refine ⟨?_, ?_, ?_⟩
    · rintro rfl
      have := hb.lt
      simp only [Dims.of] at this
      omega
    · rintro t u rfl rfl
      have := mem_blocks_tridiag.mp ha.block
      omega
    · rintro u rfl rfl
      have := ha.lt
      simp only [Dims.of] at this
      omega
  exact ⟨fun hc => C40_placed_partial s d hs hd scanner lines dims entries hf N hrows hcols hc hh,
    fun hc => C40_uncovered_partial s d hs hd scanner lines dims entries hf N hrows hcols hc hh⟩

/-- A value of the file ends up in one place only: the places of two different positions are different. -/
theorem C40_places_distinct (d : Dims) (N : Nat) (r r' : Nat) (b : Blk) (i : Nat) (h : d.Locates N r b i)
    (h' : d.Locates N r' b i) : r = r' := by rw [h.eq, h'.eq]

/-- Every row of the assembled matrix is a row of exactly one block. -/
theorem C40_places_cover (d : Dims) (hd : 0 < d.tridiag) (N : Nat) (r : Nat) :
    (r < d.total N ↔ ∃ b i, d.Locates N r b i) ∧
      ∀ a b i j, d.Locates N r a i → d.Locates N r b j → a = b ∧ i = j :=
  ⟨⟨locate hd, fun ⟨_, _, h⟩ => h.lt_total⟩, fun _ _ _ _ h h' => h.unique h'⟩

/-- Three repeated blocks of size one: an entry at `(3, 1)`, two blocks off the diagonal and not part of the declared
tridiagonal pattern, is accepted and stored as if it was at `(2, 1)`. -/
theorem C40_far_block_accepted :
    ∃ s : ArrowheadSparsity, tridiagonalSparsity ⟨1, 1, [⟨0, 0⟩]⟩ ⟨1, 1, [⟨0, 0⟩]⟩ [0] = .ok s ∧
      ((mtxFileRead exampleScanner s ["3 3 1", "3 1 9"]).map
        fun m => (m.tridiagDiag.map (·.values), m.tridiagSubdiag.map (·.values))) =
          .ok ([[0], [0], [0]], [[9], [0]]) := by
  refine ⟨_, rfl, ?_⟩
  decide

/-- Sparsity with repeating blocks of size one and an outer block of size two. -/
def outerExample : ArrowheadSparsity :=
  { start := ⟨⟨0, 0, []⟩, ⟨1, 0, []⟩, ⟨2, 0, []⟩, []⟩
    tridiag := ⟨⟨1, 1, [⟨0, 0⟩]⟩, ⟨1, 1, []⟩, [0]⟩
    link := ⟨⟨0, 1, []⟩, ⟨0, 0, []⟩, ⟨2, 0, []⟩, []⟩
    outer := ⟨⟨2, 1, [⟨0, 0⟩, ⟨1, 0⟩]⟩, ⟨2, 2, [⟨0, 0⟩, ⟨1, 1⟩]⟩, [0, 1]⟩ }

theorem outerExample_valid : outerExample.Valid ⟨0, 1, 0, 2⟩ where
  startDiag := by unfold Sparsity.OfDims Sparsity.InRange; decide
  startNext := by unfold Sparsity.OfDims Sparsity.InRange; decide
  startOuter := by unfold Sparsity.OfDims Sparsity.InRange; decide
  tridiagDiag := by unfold Sparsity.OfDims Sparsity.InRange; decide
  tridiagSubdiag := by unfold Sparsity.OfDims Sparsity.InRange; decide
  linkPrev := by unfold Sparsity.OfDims Sparsity.InRange; decide
  linkDiag := by unfold Sparsity.OfDims Sparsity.InRange; decide
  linkNext := by unfold Sparsity.OfDims Sparsity.InRange; decide
  outerSubdiag := by unfold Sparsity.OfDims Sparsity.InRange; decide
  outerDiag := by unfold Sparsity.OfDims Sparsity.InRange; decide
  permStart := by unfold IsPerm; decide
  permTridiag := by unfold IsPerm; decide
  permLink := by unfold IsPerm; decide
  permOuter := by unfold IsPerm; decide
  smallStart := by decide
  smallTridiag := by decide
  smallLink := by decide

/-- The hypotheses of `C40_placed_partial` can be met: an entry in the first row of the outer block. -/
example : IsMtxFile exampleScanner ["3 3 1", "2 1 7"] ⟨3, 3, 1⟩ [⟨1, 0, 7⟩] ∧
    outerExample.Covers ⟨0, 1, 0, 2⟩ 0 1 0 ∧ Dims.Handles ⟨0, 1, 0, 2⟩ 0 1 0 ∧ (⟨0, 1, 0, 2⟩ : Dims).total 0 = 3 ∧
    ((mtxFileRead exampleScanner outerExample ["3 3 1", "2 1 7"]).map
      fun m => m.outerSubdiag.map (·.values)) = .ok [[7, 0]] := by
  have hr : (⟨0, 1, 0, 2⟩ : Dims).Locates 0 1 .outer 0 := ⟨by decide, by decide, by decide⟩
  have hc : (⟨0, 1, 0, 2⟩ : Dims).Locates 0 0 (.tridiag 0) 0 := ⟨by decide, by decide, by decide⟩
  refine ⟨⟨[], "3 3 1", ["2 1 7"], rfl, by simp, ?_, by decide, by decide, by simp, rfl⟩,
    ⟨by decide, _, _, _, _, hr, hc, Or.inr ⟨_, rfl, by unfold Sparsity.Has; decide⟩⟩, ?_, rfl, by decide⟩
  · rintro ⟨r, hr⟩
    have : "3 3 1".toList = ['3', ' ', '3', ' ', '1'] := by decide
    rw [this] at hr
    cases hr
  · intro a b i j ha hb
    obtain ⟨rfl, rfl⟩ := hr.unique ha
    obtain ⟨rfl, rfl⟩ := hc.unique hb
    exact ⟨by simp, by simp, fun _ _ _ => by decide⟩

/-- The entry at `(3, 1)`, which is in row 2 of the outer block, is stored in row 1 of it. -/
theorem C40_outer_row_misplaced :
    ((mtxFileRead exampleScanner outerExample ["3 3 1", "3 1 9"]).map
        fun m => m.outerSubdiag.map (fun q => (q.sparsity.entries, q.values))) =
      .ok [([⟨0, 0⟩, ⟨1, 0⟩], [9, 0])] := by
  decide

/-- Sparsity with a start block of size one and repeating blocks of size one. -/
def startExample : ArrowheadSparsity :=
  { start := ⟨⟨1, 1, [⟨0, 0⟩]⟩, ⟨1, 1, [⟨0, 0⟩]⟩, ⟨0, 1, []⟩, [0]⟩
    tridiag := ⟨⟨1, 1, [⟨0, 0⟩]⟩, ⟨1, 1, []⟩, [0]⟩
    link := ⟨⟨0, 1, []⟩, ⟨0, 0, []⟩, ⟨0, 0, []⟩, []⟩
    outer := ⟨⟨0, 1, []⟩, ⟨0, 0, []⟩, []⟩ }

/-- The entry at `(3, 1)`, in the columns of the start block and the rows of the second repeated block, makes the
reader look beyond the end of the pattern of the block between the start and the first repeated one. -/
theorem C40_start_row_undefined :
    (mtxFileRead exampleScanner startExample ["3 3 1", "3 1 9"]).map (fun m => m.startNext.values) =
      .error .ub := by
  decide

end Ctldl
