import Verif.Lemmas.MtxMoved
import Verif.Lemmas.ValidDecidable
import Verif.Props.Scan

/-! # C65: what the reader does with every file -/

namespace Ctldl

variable {K : Type}

private theorem foldlM_moved {s : ArrowheadSparsity} {d : Dims} {N : Nat} (hs : s.Valid d) (hd : 0 < d.tridiag)
    (entries : List (MtxEntry K)) (m : MtxArrowhead K) :
    entries.foldlM (mtxPlaceEntry s N) m = (entries.map (·.moved d N)).foldlM (mtxPlaceEntry s N) m := by
  induction entries generalizing m with
  | nil => rfl
  | cons e entries ih =>
    rw [List.map_cons, List.foldlM_cons, List.foldlM_cons, ← mtxPlaceEntry_moved hs hd]
    congr 1
    funext m'
    exact ih m'

private theorem read_eq [Zero K] {s : ArrowheadSparsity} {d : Dims} (hs : s.Valid d) (hd : 0 < d.tridiag)
    {scanner : Scanner K} {lines : List String} {dims : MtxDimensions} {entries : List (MtxEntry K)}
    (hf : IsMtxFile scanner lines dims entries) {N : Nat} (hrows : dims.numRows = d.total N)
    (hcols : dims.numCols = d.total N) : ∃ m0 : MtxArrowhead K, m0.Placed s d N [] ∧
      mtxFileRead scanner s lines = entries.foldlM (mtxPlaceEntry s N) m0 := by
  have hN : mtxNumRepetitions s dims = .ok N := ((C41_size s d hs hd dims).1 N).mpr ⟨by omega, hrows⟩
  obtain ⟨m0, hm0, hp0⟩ := mtxEmpty_sat (K := K) (N := N) hs
  refine ⟨m0, hp0, ?_⟩
  rw [← C41_traverses scanner lines dims entries hf (mtxPlaceEntry s N) m0]
  obtain ⟨comments, header, rest, rfl, hcm, hhd, hsc, -⟩ := hf
  unfold mtxFileRead
  rw [mtxReadHeader_eq hcm hhd, hsc]
  simp only [ok_bind]
  rw [hN]
  simp only [ok_bind]
  rw [hm0]
  rfl

/-- C65: a file of the right size without entries in columns of the start below the first repeated block is read as if
its entries were moved, if the moved entries are in the declared pattern. -/
theorem C65_accepted [AddCommMonoid K] (s : ArrowheadSparsity) (d : Dims) (hs : s.Valid d) (hd : 0 < d.tridiag)
    (scanner : Scanner K) (lines : List String) (dims : MtxDimensions) (entries : List (MtxEntry K))
    (hf : IsMtxFile scanner lines dims entries) (N : Nat) (hrows : dims.numRows = d.total N)
    (hcols : dims.numCols = d.total N) (ho : ∀ e ∈ entries, ¬ d.Overruns N e.row e.col)
    (hc : ∀ e ∈ entries, s.Covers d N (d.movedRow N e.row e.col) e.col) :
    ∃ m, mtxFileRead scanner s lines = .ok m ∧ m.toMatrix.IsFile s d N (entries.map (·.moved d N)) := by
  obtain ⟨m0, hp0, h⟩ := read_eq hs hd hf hrows hcols
  have hc' : ∀ e ∈ entries.map (·.moved d N), s.Covers d N e.row e.col ∧ d.Handles N e.row e.col := by
    intro e he
    obtain ⟨e', he', rfl⟩ := List.mem_map.mp he
    exact ⟨hc e' he', moved_handles hd (ho e' he')⟩
  obtain ⟨m, hm, hp⟩ := placeAll_covered hs hp0 hc'
  rw [h, foldlM_moved hs hd]
  exact ⟨m, hm, hp.isFile hs fun e he => (hc' e he).1⟩

/-- C65: such a file is rejected if one of the moved entries is not in the declared pattern. -/
theorem C65_rejected [AddCommMonoid K] (s : ArrowheadSparsity) (d : Dims) (hs : s.Valid d) (hd : 0 < d.tridiag)
    (scanner : Scanner K) (lines : List String) (dims : MtxDimensions) (entries : List (MtxEntry K))
    (hf : IsMtxFile scanner lines dims entries) (N : Nat) (hrows : dims.numRows = d.total N)
    (hcols : dims.numCols = d.total N) (ho : ∀ e ∈ entries, ¬ d.Overruns N e.row e.col)
    (hc : ∃ e ∈ entries, ¬ s.Covers d N (d.movedRow N e.row e.col) e.col) :
    mtxFileRead scanner s lines = .error (.mtx .upperTriangle) ∨
      mtxFileRead scanner s lines = .error (.mtx .notCovered) := by
  obtain ⟨m0, hp0, h⟩ := read_eq hs hd hf hrows hcols
  rw [h, foldlM_moved hs hd]
  refine placeAll_uncovered hs hd hp0 (fun e he => ?_) ?_
  · obtain ⟨e', he', rfl⟩ := List.mem_map.mp he
    obtain ⟨comments, header, rest, -, -, -, -, -, hin, -⟩ := hf
    obtain ⟨h1, h2⟩ := hin e' he'
    rw [hrows] at h1
    rw [hcols] at h2
    exact ⟨⟨moved_lt hd h1, h2⟩, moved_handles hd (ho e' he')⟩
  · obtain ⟨e, he, hn⟩ := hc
    exact ⟨_, List.mem_map_of_mem he, hn⟩

/-- C65: if there are entries in columns of the start below the first repeated block, then the entries before the first
of them decide: the file is rejected if one of those is, when moved, not in the declared pattern, otherwise the behaviour
is undefined. -/
theorem C65_undefined [AddCommMonoid K] (s : ArrowheadSparsity) (d : Dims) (hs : s.Valid d) (hd : 0 < d.tridiag)
    (scanner : Scanner K) (lines : List String) (dims : MtxDimensions) (before after : List (MtxEntry K)) (e : MtxEntry K)
    (hf : IsMtxFile scanner lines dims (before ++ e :: after)) (N : Nat) (hrows : dims.numRows = d.total N)
    (hcols : dims.numCols = d.total N) (ho : ∀ e ∈ before, ¬ d.Overruns N e.row e.col) (he : d.Overruns N e.row e.col) :
    ((∀ e ∈ before, s.Covers d N (d.movedRow N e.row e.col) e.col) → mtxFileRead scanner s lines = .error .ub) ∧
    ((∃ e ∈ before, ¬ s.Covers d N (d.movedRow N e.row e.col) e.col) →
      mtxFileRead scanner s lines = .error (.mtx .upperTriangle) ∨
        mtxFileRead scanner s lines = .error (.mtx .notCovered)) := by
  obtain ⟨m0, hp0, h⟩ := read_eq hs hd hf hrows hcols
  rw [h, List.foldlM_append, foldlM_moved hs hd before]
  constructor
  · intro hc
    have hc' : ∀ e ∈ before.map (·.moved d N), s.Covers d N e.row e.col ∧ d.Handles N e.row e.col := by
      intro e he
      obtain ⟨e', he', rfl⟩ := List.mem_map.mp he
      exact ⟨hc e' he', moved_handles hd (ho e' he')⟩
    obtain ⟨m, hm, hp⟩ := placeAll_covered hs hp0 hc'
    rw [hm, ok_bind, List.foldlM_cons, mtxPlaceEntry_overrun hs hp he]
    rfl
  · rintro ⟨e', he', hn⟩
    have := placeAll_uncovered hs hd hp0 (entries := before.map (·.moved d N)) (fun e he => ?_)
      ⟨_, List.mem_map_of_mem he', hn⟩
    · rcases this with h | h <;> rw [h]
      · exact Or.inl rfl
      · exact Or.inr rfl
    · obtain ⟨e', he', rfl⟩ := List.mem_map.mp he
      obtain ⟨comments, header, rest, -, -, -, -, -, hin, -⟩ := hf
      obtain ⟨h1, h2⟩ := hin e' (by simp [he'])
      rw [hrows] at h1
      rw [hcols] at h2
      exact ⟨⟨moved_lt hd h1, h2⟩, moved_handles hd (ho e' he')⟩

/-- C65: positions which are handled are not moved. -/
theorem C65_not_moved (d : Dims) (hd : 0 < d.tridiag) (N r c : Nat) (hr : r < d.total N) (hc : c < d.total N)
    (h : d.Handles N r c) : d.movedRow N r c = r ∧ ¬ d.Overruns N r c := by
  obtain ⟨a, i, ha⟩ := locate hd hr
  obtain ⟨b, j, hb⟩ := locate hd hc
  obtain ⟨h1, h2, h3⟩ := h a b i j ha hb
  have hab := ha.block
  have hbb := hb.block
  obtain ⟨-, li, er⟩ := ha
  obtain ⟨-, lj, ec⟩ := hb
  have hmul : ∀ x y : Nat, x ≤ y → x * d.tridiag ≤ y * d.tridiag := fun x y h => Nat.mul_le_mul_right _ h
  have hN1 : d.tridiag ≤ (N + 1) * d.tridiag := Nat.le_mul_of_pos_left _ (by omega)
  constructor
  · rcases movedRow_cases d N r c with ⟨h4, h5, h6, h7, hm⟩ | ⟨h4, h5, h6, hm⟩ | ⟨hm, -⟩
    · cases b with
      | start => simp only [Dims.before, Dims.of] at lj ec; omega
      | link => simp only [Dims.before, Dims.of] at lj ec; omega
      | outer => simp only [Dims.before, Dims.of] at lj ec; omega
      | tridiag u =>
        simp only [Dims.before, Dims.of] at lj ec
        have ecu : (c - d.start) / d.tridiag = u := by
          rw [show c - d.start = u * d.tridiag + j by omega]
          exact div_of_block lj
        cases a with
        | start =>
          simp only [Dims.before, Dims.of] at li er
          rw [show r - d.start = 0 by omega, Nat.zero_div] at h7
          omega
        | link => simp only [Dims.before, Dims.of] at li er; omega
        | outer => simp only [Dims.before, Dims.of] at li er; omega
        | tridiag t =>
          simp only [Dims.before, Dims.of] at li er
          have e : r - d.start = t * d.tridiag + i := by omega
          rw [hm, ecu, e, mod_of_block li]
          rw [ecu, e, div_of_block li] at h7
          have := h2 t u rfl rfl
          rw [show u + 1 = t by omega]
          omega
    · cases b with
      | start => simp only [Dims.before, Dims.of] at lj ec; omega
      | link => simp only [Dims.before, Dims.of] at lj ec; omega
      | outer => simp only [Dims.before, Dims.of] at lj ec; omega
      | tridiag u =>
        cases a with
        | start => simp only [Dims.before, Dims.of] at li er; omega
        | link => simp only [Dims.before, Dims.of] at li er; omega
        | tridiag t =>
          have := tridiag_before_le (d := d) (mem_blocks_tridiag.mp hab)
          simp only [Dims.before, Dims.of] at li er
          omega
        | outer =>
          simp only [Dims.before, Dims.of] at li er
          have := h3 u rfl rfl
          rw [hm, show r - (d.start + (N + 1) * d.tridiag + d.link) = i by omega, Nat.mod_eq_of_lt this]
          omega
    · exact hm
  · rintro ⟨h4, h5, h6⟩
    simp only [Dims.before] at h5 h6
    have hb0 : b = .start := by
      cases b with
      | start => rfl
      | tridiag u => simp only [Dims.before, Dims.of] at lj ec; omega
      | link => simp only [Dims.before, Dims.of] at lj ec; omega
      | outer => simp only [Dims.before, Dims.of] at lj ec; omega
    rcases h1 hb0 with rfl | rfl | rfl
    · simp only [Dims.before, Dims.of] at li er; omega
    · simp only [Dims.before, Dims.of] at li er; omega
    · simp only [Dims.before, Dims.of] at li er; omega

/-! ### Every file -/

private theorem lines_outcome [AddCommMonoid K] {s : ArrowheadSparsity} {d : Dims} (hs : s.Valid d) (hd : 0 < d.tridiag)
    {scanner : Scanner K} {dims : MtxDimensions} {N : Nat} (hrows : dims.numRows = d.total N)
    (hcols : dims.numCols = d.total N) (lines : List String) (hl : ∀ line ∈ lines, ∃ o, scanner.entry line = .ok o)
    (ho : ∀ line ∈ lines, ∀ e : MtxEntry K, scanner.entry line = .ok (some (e.row + 1, e.col + 1, e.value)) →
      ¬ d.Overruns N e.row e.col) (m : MtxArrowhead K) (done : List (MtxEntry K)) (hm : m.Placed s d N done) (n : Nat) :
    (∃ st, lines.foldlM (mtxForeachLine scanner dims (mtxPlaceEntry s N)) (m, n) = .ok st) ∨
      ∃ kind : MtxErr, lines.foldlM (mtxForeachLine scanner dims (mtxPlaceEntry s N)) (m, n) = .error (.mtx kind) := by
  induction lines generalizing m done n with
  | nil => exact Or.inl ⟨_, rfl⟩
  | cons line lines ih =>
    rw [List.foldlM_cons]
    rcases line_cases scanner dims line (hl line (by simp)) with ⟨e, he⟩ | ⟨-, he⟩ | ⟨_, _, _, _, -, -, he⟩
    · rw [foreachLine_good he]
      simp only
      rw [mtxPlaceEntry_moved hs hd]
      obtain ⟨h1, h2, h3⟩ := he
      rw [hrows] at h2
      rw [hcols] at h3
      have hh := moved_handles hd (ho line (by simp) e h1)
      by_cases hc : s.Covers d N (d.movedRow N e.row e.col) e.col
      · obtain ⟨m', h4, h5⟩ := mtxPlaceEntry_covered hs hm (e := e.moved d N) hc hh
        rw [h4]
        exact ih (fun l h => hl l (by simp [h])) (fun l h => ho l (by simp [h])) m' _ h5 _
      · rcases mtxPlaceEntry_uncovered hs hd hm (e := e.moved d N) (moved_lt hd h2) h3 hc hh with ⟨-, h⟩ | ⟨-, h⟩ <;> rw [h]
        · exact Or.inr ⟨_, rfl⟩
        · exact Or.inr ⟨_, rfl⟩
    · rw [he]; exact Or.inr ⟨_, rfl⟩
    · rw [he]; exact Or.inr ⟨_, rfl⟩

/-- C65: for all lines, reading either gives a matrix with the moved entries of a file of the right size or throws, if
no line has an entry in the columns of the start below the first repeated block. -/
theorem C65_lines [AddCommMonoid K] (s : ArrowheadSparsity) (d : Dims) (hs : s.Valid d) (hd : 0 < d.tridiag)
    (scanner : Scanner K) (lines : List String)
    (hl : ∀ line ∈ lines, (∃ o, scanner.header line = .ok o) ∧ ∃ o, scanner.entry line = .ok o)
    (ho : ∀ line ∈ lines, ∀ e : MtxEntry K, scanner.entry line = .ok (some (e.row + 1, e.col + 1, e.value)) →
      ∀ N, ¬ d.Overruns N e.row e.col) :
    (∃ m N dims entries, mtxFileRead scanner s lines = .ok m ∧ IsMtxFile scanner lines dims entries ∧
      dims.numRows = d.total N ∧ dims.numCols = d.total N ∧
      m.toMatrix.IsFile s d N (entries.map (·.moved d N))) ∨
    ∃ kind : MtxErr, mtxFileRead scanner s lines = .error (.mtx kind) := by
  by_cases hex : ∃ dims entries, IsMtxFile scanner lines dims entries
  · obtain ⟨dims, entries, hf⟩ := hex
    by_cases hN : ∃ N, dims.numRows = dims.numCols ∧ dims.numRows = d.start + (N + 1) * d.tridiag + d.link + d.outer
    · obtain ⟨N, h1, h2⟩ := hN
      have hrows : dims.numRows = d.total N := h2
      have hcols : dims.numCols = d.total N := h1 ▸ h2
      have hno : ∀ e ∈ entries, ¬ d.Overruns N e.row e.col := by
        intro e he
        obtain ⟨comments, header, rest, rfl, -, -, -, hr, -⟩ := hf
        have : (.ok (some (e.row + 1, e.col + 1, e.value)) : Res (Option (Nat × Nat × K))) ∈ rest.map scanner.entry := by
          rw [hr]
          exact List.mem_map_of_mem (f := fun e : MtxEntry K => (.ok (some (e.row + 1, e.col + 1, e.value)) : Res _)) he
        obtain ⟨line, hline, h3⟩ := List.mem_map.mp this
        exact ho line (by simp [hline]) e h3 N
      by_cases hc : ∀ e ∈ entries, s.Covers d N (d.movedRow N e.row e.col) e.col
      · obtain ⟨m, hm, hi⟩ := C65_accepted s d hs hd scanner lines dims entries hf N hrows hcols hno hc
        exact Or.inl ⟨m, N, dims, entries, hm, hf, hrows, hcols, hi⟩
      · push Not at hc
        rcases C65_rejected s d hs hd scanner lines dims entries hf N hrows hcols hno hc with h | h
        · exact Or.inr ⟨_, h⟩
        · exact Or.inr ⟨_, h⟩
    · obtain ⟨comments, header, rest, rfl, hcm, hhd, hsc, -⟩ := hf
      exact Or.inr (C41_read_size s d hs hd scanner comments rest header hcm hhd dims hsc fun N h => hN ⟨N, h⟩)
  · right
    rcases header_cases lines with hall | ⟨comments, header, rest, rfl, hcm, hhd⟩
    · refine ⟨.header, ?_⟩
      unfold mtxFileRead
      rw [mtxReadHeader_comments hall]
      rfl
    · obtain ⟨o, hsc⟩ := (hl header (by simp)).1
      cases o with
      | none =>
        refine ⟨.header, ?_⟩
        unfold mtxFileRead
        rw [mtxReadHeader_eq hcm hhd, hsc]
        rfl
      | some x =>
        obtain ⟨numRows, numCols, nnz⟩ := x
        by_cases hN : ∃ N, numRows = numCols ∧ numRows = d.start + (N + 1) * d.tridiag + d.link + d.outer
        · obtain ⟨N, h1, h2⟩ := hN
          have hrep : mtxNumRepetitions s ⟨numRows, numCols, nnz⟩ = .ok N :=
            ((C41_size s d hs hd ⟨numRows, numCols, nnz⟩).1 N).mpr ⟨h1, h2⟩
          obtain ⟨m0, hm0, hp0⟩ := mtxEmpty_sat (K := K) (N := N) hs
          have hread : mtxFileRead scanner s (comments ++ header :: rest) =
              mtxForeachEntry scanner (comments ++ header :: rest) (mtxPlaceEntry s N) m0 := by
            unfold mtxFileRead
            rw [mtxReadHeader_eq hcm hhd, hsc]
            simp only [ok_bind]
            rw [hrep]
            simp only [ok_bind]
            rw [hm0]
            rfl
          rcases lines_outcome hs hd (scanner := scanner) (dims := ⟨numRows, numCols, nnz⟩) (N := N) h2 (h1 ▸ h2) rest
            (fun l h => (hl l (by simp [h])).2) (fun l h e he => ho l (by simp [h]) e he N) m0 [] hp0 0 with
            ⟨st, hst⟩ | ⟨kind, hk⟩
          · obtain ⟨accepted, kind, hacc⟩ := C41_detects scanner (comments ++ header :: rest) hl
              (fun dims entries hf => hex ⟨dims, entries, hf⟩) (mtxPlaceEntry s N) m0
            refine ⟨.entryCount, ?_⟩
            rw [hread]
            have h3 : mtxForeachEntry scanner (comments ++ header :: rest) (mtxPlaceEntry s N) m0 =
                (mtxCheck (st.2 == nnz) .entryCount >>= fun _ => .ok st.1) := by
              unfold mtxForeachEntry
              rw [mtxReadHeader_eq hcm hhd, hsc]
              simp only [ok_bind]
              rw [hst]
              rfl
            rw [h3] at hacc ⊢
            cases hb : st.2 == nnz with
            | false => rw [mtxCheck_false rfl]; rfl
            | true =>
              rw [hb, mtxCheck_true rfl] at hacc
              cases hx : accepted.foldlM (mtxPlaceEntry s N) m0 <;> rw [hx] at hacc <;> cases hacc
          · refine ⟨kind, ?_⟩
            rw [hread]
            unfold mtxForeachEntry
            rw [mtxReadHeader_eq hcm hhd, hsc]
            simp only [ok_bind]
            rw [hk]
            rfl
        · exact C41_read_size s d hs hd scanner comments rest header hcm hhd ⟨numRows, numCols, nnz⟩ hsc
            fun N h => hN ⟨N, h⟩

/-- C65: for all texts without integers of `2 ^ 64` and more and all structures without start, reading either gives a
matrix with the moved entries of the file or throws. -/
theorem C65_text [AddCommMonoid K] (convert : FloatLiteral → K) (s : ArrowheadSparsity) (d : Dims) (hs : s.Valid d)
    (hd : 0 < d.tridiag) (h0 : d.start = 0) (text : List Char)
    (h : ∀ before t rest negative n, text = before ++ t ++ rest → SpellsInteger t negative n → n < 2 ^ 64) :
    (∃ m N dims entries, mtxTextRead convert s text = .ok m ∧
      IsMtxFile (textScanner convert) ((getLines [] text).map String.ofList) dims entries ∧
      dims.numRows = d.total N ∧ dims.numCols = d.total N ∧
      m.toMatrix.IsFile s d N (entries.map (·.moved d N))) ∨
    ∃ kind : MtxErr, mtxTextRead convert s text = .error (.mtx kind) :=
  C65_lines s d hs hd (textScanner convert) _ (C64_scans convert text h) fun line _ e _ N ho => by
    have := ho.1
    omega

/-- C65: conversely, if reading succeeds then the lines are those of a file of the right size, no entry is in the columns
of the start below the first repeated block, and the moved entries are in the declared pattern. -/
theorem C65_succeeds [AddCommMonoid K] (s : ArrowheadSparsity) (d : Dims) (hs : s.Valid d) (hd : 0 < d.tridiag)
    (scanner : Scanner K) (lines : List String)
    (hl : ∀ line ∈ lines, (∃ o, scanner.header line = .ok o) ∧ ∃ o, scanner.entry line = .ok o) (m : MtxArrowhead K)
    (hm : mtxFileRead scanner s lines = .ok m) :
    ∃ N dims entries, IsMtxFile scanner lines dims entries ∧ dims.numRows = d.total N ∧ dims.numCols = d.total N ∧
      (∀ e ∈ entries, ¬ d.Overruns N e.row e.col) ∧
      (∀ e ∈ entries, s.Covers d N (d.movedRow N e.row e.col) e.col) ∧
      m.toMatrix.IsFile s d N (entries.map (·.moved d N)) := by
  have hex : ∃ dims entries, IsMtxFile scanner lines dims entries := by
    by_contra hex
    unfold mtxFileRead at hm
    obtain ⟨h1, -, hm⟩ := bind_eq_ok.mp hm
    obtain ⟨h2, -, hm⟩ := bind_eq_ok.mp hm
    obtain ⟨h3, -, hm⟩ := bind_eq_ok.mp hm
    obtain ⟨accepted, kind, hacc⟩ := C41_detects scanner lines hl (fun dims entries hf => hex ⟨dims, entries, hf⟩)
      (mtxPlaceEntry s h2) h3
    rw [hacc] at hm
    obtain ⟨_, -, hm⟩ := bind_eq_ok.mp hm
    cases hm
  obtain ⟨dims, entries, hf⟩ := hex
  have hN : ∃ N, dims.numRows = dims.numCols ∧ dims.numRows = d.start + (N + 1) * d.tridiag + d.link + d.outer := by
    by_contra hN
    obtain ⟨comments, header, rest, rfl, hcm, hhd, hsc, -⟩ := hf
    obtain ⟨e, he⟩ := C41_read_size s d hs hd scanner comments rest header hcm hhd dims hsc fun N h => hN ⟨N, h⟩
    rw [hm] at he
    cases he
  obtain ⟨N, h1, h2⟩ := hN
  have hrows : dims.numRows = d.total N := h2
  have hcols : dims.numCols = d.total N := h1 ▸ h2
  have hno : ∀ e ∈ entries, ¬ d.Overruns N e.row e.col := by
    by_contra hn
    push Not at hn
    have : ∃ before e after, entries = before ++ e :: after ∧ (∀ e ∈ before, ¬ d.Overruns N e.row e.col) ∧
        d.Overruns N e.row e.col := by
      clear hf
      induction entries with
      | nil => obtain ⟨_, h, -⟩ := hn; cases h
      | cons e entries ih =>
        by_cases he : d.Overruns N e.row e.col
        · exact ⟨[], e, entries, rfl, fun _ h => (nomatch h), he⟩
        · obtain ⟨e', he', ho⟩ := hn
          rcases List.mem_cons.mp he' with rfl | he'
          · exact absurd ho he
          · obtain ⟨before, x, after, h3, h4, h5⟩ := ih ⟨e', he', ho⟩
            refine ⟨e :: before, x, after, by rw [h3]; rfl, fun y hy => ?_, h5⟩
            rcases List.mem_cons.mp hy with rfl | hy
            · exact he
            · exact h4 y hy
    obtain ⟨before, e, after, rfl, hb, he⟩ := this
    obtain ⟨h3, h4⟩ := C65_undefined s d hs hd scanner lines dims before after e hf N hrows hcols hb he
    by_cases hc : ∀ e ∈ before, s.Covers d N (d.movedRow N e.row e.col) e.col
    · rw [h3 hc] at hm
      cases hm
    · push Not at hc
      rcases h4 hc with h | h <;> rw [h] at hm <;> cases hm
  have hc : ∀ e ∈ entries, s.Covers d N (d.movedRow N e.row e.col) e.col := by
    by_contra hc
    push Not at hc
    rcases C65_rejected s d hs hd scanner lines dims entries hf N hrows hcols hno hc with h | h <;> rw [h] at hm <;> cases hm
  obtain ⟨m', hm', hi⟩ := C65_accepted s d hs hd scanner lines dims entries hf N hrows hcols hno hc
  rw [hm] at hm'
  cases hm'
  exact ⟨N, dims, entries, hf, hrows, hcols, hno, hc, hi⟩

/-! ### Examples -/

private theorem example_file {lines : List String} {header line : String} {dims : MtxDimensions} {e : MtxEntry Int}
    (hl : lines = [header, line]) (hh : header.toList.head? ≠ some '%')
    (h1 : exampleScanner.header header = .ok (some (dims.numRows, dims.numCols, dims.nnz)))
    (h2 : exampleScanner.entry line = .ok (some (e.row + 1, e.col + 1, e.value)))
    (h3 : e.row < dims.numRows ∧ e.col < dims.numCols) (h4 : 1 = dims.nnz) : IsMtxFile exampleScanner lines dims [e] := by
  refine ⟨[], header, [line], hl, fun _ h => (nomatch h), ?_, h1, by simp [h2], fun x hx => ?_, h4⟩
  · rintro ⟨rest, hr⟩
    rw [hr] at hh
    exact hh rfl
  · rw [List.mem_singleton.mp hx]
    exact h3

/-- A file with an entry in the second row of the outer block, which is moved to the first row and accepted. -/
example : ∃ m, mtxFileRead exampleScanner outerExample ["3 3 1", "3 1 9"] = .ok m ∧
    m.toMatrix.IsFile outerExample ⟨0, 1, 0, 2⟩ 0 [⟨1, 0, 9⟩] := by
  have hr : (⟨0, 1, 0, 2⟩ : Dims).Locates 0 1 .outer 0 := ⟨by decide, by decide, by decide⟩
  have hc : (⟨0, 1, 0, 2⟩ : Dims).Locates 0 0 (.tridiag 0) 0 := ⟨by decide, by decide, by decide⟩
  refine C65_accepted outerExample ⟨0, 1, 0, 2⟩ (by decide) (by decide) exampleScanner _ ⟨3, 3, 1⟩ [⟨2, 0, 9⟩]
    (example_file rfl (by decide) (by decide) (by decide) (by decide) rfl) 0 (by decide) (by decide) ?_ ?_
  · intro e he
    rw [List.mem_singleton.mp he]
    exact fun h => absurd h.1 (by decide)
  · intro e he
    rw [List.mem_singleton.mp he]
    exact ⟨by decide, _, _, _, _, hr, hc, Or.inr ⟨_, rfl, by unfold Sparsity.Has; decide⟩⟩

/-- A file with an entry below the diagonal, where the pattern has none. -/
example : mtxFileRead exampleScanner outerExample ["4 4 1", "2 1 7"] = .error (.mtx .upperTriangle) ∨
    mtxFileRead exampleScanner outerExample ["4 4 1", "2 1 7"] = .error (.mtx .notCovered) := by
  refine C65_rejected outerExample ⟨0, 1, 0, 2⟩ (by decide) (by decide) exampleScanner _ ⟨4, 4, 1⟩ [⟨1, 0, 7⟩]
    (example_file rfl (by decide) (by decide) (by decide) (by decide) rfl) 1 (by decide) (by decide) ?_ ?_
  · intro e he
    rw [List.mem_singleton.mp he]
    exact fun h => absurd h.1 (by decide)
  · refine ⟨_, List.mem_singleton_self _, ?_⟩
    rintro ⟨-, a, b, i, j, ha, hb, h⟩
    have hr : (⟨0, 1, 0, 2⟩ : Dims).Locates 1 1 (.tridiag 1) 0 := ⟨by decide, by decide, by decide⟩
    have hc : (⟨0, 1, 0, 2⟩ : Dims).Locates 1 0 (.tridiag 0) 0 := ⟨by decide, by decide, by decide⟩
    obtain ⟨rfl, rfl⟩ := hr.unique (show (⟨0, 1, 0, 2⟩ : Dims).Locates 1 1 a i from ha)
    obtain ⟨rfl, rfl⟩ := hc.unique hb
    rcases h with ⟨h, -⟩ | ⟨p, h, hp⟩
    · cases h
    · cases h
      cases hp

/-- A file with an entry in the column of the start and the row of the second repeated block. -/
example : mtxFileRead exampleScanner startExample ["3 3 1", "3 1 9"] = .error .ub :=
  (C65_undefined startExample ⟨1, 1, 0, 0⟩ (by decide) (by decide) exampleScanner _ ⟨3, 3, 1⟩ [] [] ⟨2, 0, 9⟩
    (example_file rfl (by decide) (by decide) (by decide) (by decide) rfl) 1 (by decide) (by decide)
    (fun _ h => nomatch h) (by unfold Dims.Overruns; decide)).1 fun _ h => nomatch h

end Ctldl
