import Verif.Lemmas.Words
import Verif.Spec.Words
import Verif.Props.Scan
import Verif.Lemmas.ValidDecidable

/-! # C79: sizes and indices do not overflow; what happens without memory -/

namespace Ctldl

variable {K : Type}

theorem allocateVectors_eq {allocate : Nat → Nat → Bool} {k N : Nat} (h : N + 1 < 2 ^ 64) :
    allocateVectors allocate k N = true ↔ MemorySuffices allocate k N := by
  unfold allocateVectors MemorySuffices
  rw [wadd_eq h, Bool.and_eq_true, Bool.and_eq_true, and_assoc]

theorem mtxFileReadWords_sizes [Zero K] {allocate : Nat → Nat → Bool} {scanner : Scanner K} {s : ArrowheadSparsity}
    {comments rest : List String} {header : String}
    (hc : ∀ line ∈ comments, CommentLine line) (hh : ¬ CommentLine header) {dims : MtxDimensions}
    (h : scanner.header header = .ok (some (dims.numRows, dims.numCols, dims.nnz))) :
    mtxFileReadWords allocate scanner s (comments ++ header :: rest) = (do
      let N ← mtxNumRepetitionsWords s dims
      let m ← mtxEmptyWords s N
      if allocateVectors allocate 0 N then
        let m ← (do
          let (m, n) ← rest.foldlM (mtxForeachLineWords scanner dims (mtxPlaceEntryWords s N)) (m, 0)
          mtxCheck (n == dims.nnz) .entryCount
          return m)
        if allocateVectors allocate 3 N then return some m else return none
      else return none) := by
  unfold mtxFileReadWords mtxForeachEntryWords
  rw [mtxReadHeader_eq hc hh, h]
  rfl

/-- C79: with sizes and indices of 64 bits and with limited memory, reading a file is the same as without these limits, but
for allocations which fail: none of the sums, products and differences wraps around, whatever numbers the file has. -/
theorem C79_reader [Zero K] (s : ArrowheadSparsity) (d : Dims) (hs : s.Valid d) (hd : 0 < d.tridiag)
    (hsum : d.start + d.link + d.outer < 2 ^ 64) (scanner : Scanner K)
    (hheader : ∀ line r c n, scanner.header line = .ok (some (r, c, n)) → r < 2 ^ 64)
    (hentry : ∀ line r c v, scanner.entry line = .ok (some (r, c, v)) → r < 2 ^ 64 ∧ c < 2 ^ 64)
    (lines : List String) (hlen : lines.length < 2 ^ 64) (allocate : Nat → Nat → Bool) :
    (∀ N, DeclaresSizes scanner d lines N →
      (¬ MemorySuffices allocate 0 N → mtxFileReadWords allocate scanner s lines = .ok none) ∧
      (MemorySuffices allocate 0 N →
        (∀ e, mtxFileRead scanner s lines = .error e → mtxFileReadWords allocate scanner s lines = .error e) ∧
        (∀ m, mtxFileRead scanner s lines = .ok m →
          (MemorySuffices allocate 3 N → mtxFileReadWords allocate scanner s lines = .ok (some m)) ∧
          (¬ MemorySuffices allocate 3 N → mtxFileReadWords allocate scanner s lines = .ok none)))) ∧
    ((∀ N, ¬ DeclaresSizes scanner d lines N) →
      ∃ e, mtxFileRead scanner s lines = .error e ∧ mtxFileReadWords allocate scanner s lines = .error e) := by
  constructor
  · rintro N ⟨comments, header, rest, count, rfl, hc, hh, hx⟩
    have htotal : d.total N < 2 ^ 64 := hheader header _ _ _ hx
    have hN : N + 1 < 2 ^ 64 := by
      have : N + 1 ≤ (N + 1) * d.tridiag := Nat.le_mul_of_pos_right _ hd
      unfold Dims.total at htotal
      omega
    obtain ⟨m0, hm0, -⟩ := mtxEmpty_sat (K := K) (N := N) hs
    have hrest : 0 + rest.length < 2 ^ 64 := by
      rw [List.length_append, List.length_cons] at hlen
      omega
    have hw : mtxFileReadWords allocate scanner s (comments ++ header :: rest) =
        if allocateVectors allocate 0 N then
          (mtxFileRead scanner s (comments ++ header :: rest) >>= fun m =>
            if allocateVectors allocate 3 N then .ok (some m) else .ok none)
        else .ok none := by
      rw [mtxFileReadWords_sizes hc hh (dims := ⟨d.total N, d.total N, count⟩) hx,
        mtxFileRead_sizes hc hh (dims := ⟨d.total N, d.total N, count⟩) hx, mtxNumRepetitionsWords_eq hs hsum htotal,
        mtxNumRepetitions_total hs hd, ok_bind, ok_bind, mtxEmptyWords_eq hN, hm0, ok_bind, ok_bind,
        foreachLinesWords_eq hs htotal scanner _ rest (fun line _ => hentry line) m0 0 hrest]
      rfl
    rw [hw]
    refine ⟨fun h => ?_, fun h => ⟨fun e he => ?_, fun m hm => ⟨fun h' => ?_, fun h' => ?_⟩⟩⟩
    · rw [if_neg (fun h' => h ((allocateVectors_eq hN).mp h'))]
    · rw [if_pos ((allocateVectors_eq hN).mpr h), he, error_bind]
    · rw [if_pos ((allocateVectors_eq hN).mpr h), hm, ok_bind, if_pos ((allocateVectors_eq hN).mpr h')]
    · rw [if_pos ((allocateVectors_eq hN).mpr h), hm, ok_bind, if_neg (fun h'' => h' ((allocateVectors_eq hN).mp h''))]
  · intro hno
    rcases header_cases lines with hall | ⟨comments, header, rest, rfl, hc, hh⟩
    · unfold mtxFileRead mtxFileReadWords
      rw [mtxReadHeader_comments hall, error_bind, error_bind]
      exact ⟨_, rfl, rfl⟩
    rcases hx : scanner.header header with e | (_ | ⟨rows, cols, count⟩)
    · unfold mtxFileRead mtxFileReadWords
      rw [mtxReadHeader_eq hc hh, hx, error_bind, error_bind]
      exact ⟨_, rfl, rfl⟩
    · unfold mtxFileRead mtxFileReadWords
      rw [mtxReadHeader_eq hc hh, hx, error_bind, error_bind]
      exact ⟨_, rfl, rfl⟩
    have hrows : rows < 2 ^ 64 := hheader header _ _ _ hx
    rw [mtxFileReadWords_sizes hc hh (dims := ⟨rows, cols, count⟩) hx,
      mtxFileRead_sizes hc hh (dims := ⟨rows, cols, count⟩) hx, mtxNumRepetitionsWords_eq hs hsum hrows]
    by_cases h1 : rows = cols
    swap
    · rw [mtxNumRepetitions_square s h1, error_bind, error_bind]
      exact ⟨_, rfl, rfl⟩
    subst h1
    by_cases h2 : rows ≤ d.start + d.link + d.outer
    · rw [mtxNumRepetitions_small hs rfl h2, error_bind, error_bind]
      exact ⟨_, rfl, rfl⟩
    rw [mtxNumRepetitions_multiple hs hd rfl (by simpa using h2) fun N hN => ?_, error_bind, error_bind]
    · exact ⟨_, rfl, rfl⟩
    · simp only at hN
      exact hno N ⟨comments, header, rest, count, rfl, hc, hh, hN ▸ hx⟩

theorem scanSize_lt {s rest : List Char} {n : Nat} (h : scanSize s = .ok (some (n, rest))) : n < 2 ^ 64 := by
  unfold scanSize at h
  simp only at h
  split at h
  · cases h
  split at h
  · simp only [Except.ok.injEq, Option.some.injEq, Prod.mk.injEq] at h
    rw [← h.1]
    split
    · exact Nat.mod_lt _ (by decide)
    · assumption
  · cases h

theorem scanHeader_lt {line : String} {r c n : Nat} (h : scanHeader line = .ok (some (r, c, n))) : r < 2 ^ 64 := by
  unfold scanHeader at h
  rcases h1 : scanSize (cString line) with e | (_ | ⟨x, rest⟩) <;> rw [h1] at h
  · cases h
  · cases h
  rw [ok_bind] at h
  simp only at h
  rcases h2 : scanSize rest with e | (_ | ⟨y, rest'⟩) <;> rw [h2] at h
  · cases h
  · cases h
  rw [ok_bind] at h
  simp only at h
  rcases h3 : scanSize rest' with e | (_ | ⟨z, rest''⟩) <;> rw [h3] at h
  · cases h
  · cases h
  cases h
  exact scanSize_lt h1

theorem scanEntry_lt {line : String} {r c : Nat} {v : FloatLiteral} (h : scanEntry line = .ok (some (r, c, v))) :
    r < 2 ^ 64 ∧ c < 2 ^ 64 := by
  unfold scanEntry at h
  rcases h1 : scanSize (cString line) with e | (_ | ⟨x, rest⟩) <;> rw [h1] at h
  · cases h
  · cases h
  rw [ok_bind] at h
  simp only at h
  rcases h2 : scanSize rest with e | (_ | ⟨y, rest'⟩) <;> rw [h2] at h
  · cases h
  · cases h
  rw [ok_bind] at h
  simp only at h
  rcases h3 : scanFloat rest' with _ | z <;> rw [h3] at h
  · cases h
  cases h
  exact ⟨scanSize_lt h1, scanSize_lt h2⟩

theorem getLines_length (text : List Char) : ∀ current, (getLines current text).length ≤ current.length + text.length := by
  induction text with
  | nil =>
    intro current
    unfold getLines
    cases current <;> simp
  | cons c text ih =>
    intro current
    unfold getLines
    split
    · have := ih []
      simp only [List.length_cons, List.length_nil] at this ⊢
      omega
    · have := ih (c :: current)
      simp only [List.length_cons] at this ⊢
      omega

/-- C79: the same for every text of less than `2 ^ 64` characters. -/
theorem C79_text [Zero K] (convert : FloatLiteral → K) (s : ArrowheadSparsity) (d : Dims) (hs : s.Valid d)
    (hd : 0 < d.tridiag) (hsum : d.start + d.link + d.outer < 2 ^ 64) (text : List Char) (hlen : text.length < 2 ^ 64)
    (allocate : Nat → Nat → Bool) (lines : List String) (hlines : lines = (getLines [] text).map String.ofList) :
    (∀ N, DeclaresSizes (textScanner convert) d lines N →
      (¬ MemorySuffices allocate 0 N → mtxFileReadWords allocate (textScanner convert) s lines = .ok none) ∧
      (MemorySuffices allocate 0 N →
        (∀ e, mtxTextRead convert s text = .error e → mtxFileReadWords allocate (textScanner convert) s lines = .error e) ∧
        (∀ m, mtxTextRead convert s text = .ok m →
          (MemorySuffices allocate 3 N → mtxFileReadWords allocate (textScanner convert) s lines = .ok (some m)) ∧
          (¬ MemorySuffices allocate 3 N → mtxFileReadWords allocate (textScanner convert) s lines = .ok none)))) ∧
    ((∀ N, ¬ DeclaresSizes (textScanner convert) d lines N) →
      ∃ e, mtxTextRead convert s text = .error e ∧
        mtxFileReadWords allocate (textScanner convert) s lines = .error e) := by
  subst hlines
  refine C79_reader s d hs hd hsum (textScanner convert) (fun line r c n h => scanHeader_lt h) (fun line r c v h => ?_) _ ?_
    allocate
  · have h' : (scanEntry line >>= fun o => .ok (o.map fun x : Nat × Nat × FloatLiteral => (x.1, x.2.1, convert x.2.2))) =
      .ok (some (r, c, v)) := h
    rcases he : scanEntry line with e | (_ | ⟨r', c', v'⟩) <;> rw [he] at h'
    · cases h'
    · cases h'
    cases h'
    exact scanEntry_lt he
  · rw [List.length_map]
    have := getLines_length text []
    rw [List.length_nil] at this
    omega

/-- C79: if there is always memory, nothing but the result without limits remains. -/
theorem C79_memory [Zero K] (s : ArrowheadSparsity) (d : Dims) (hs : s.Valid d) (hd : 0 < d.tridiag)
    (hsum : d.start + d.link + d.outer < 2 ^ 64) (scanner : Scanner K)
    (hheader : ∀ line r c n, scanner.header line = .ok (some (r, c, n)) → r < 2 ^ 64)
    (hentry : ∀ line r c v, scanner.entry line = .ok (some (r, c, v)) → r < 2 ^ 64 ∧ c < 2 ^ 64)
    (lines : List String) (hlen : lines.length < 2 ^ 64) :
    mtxFileReadWords (fun _ _ => true) scanner s lines = (mtxFileRead scanner s lines).map some := by
  obtain ⟨h1, h2⟩ := C79_reader s d hs hd hsum scanner hheader hentry lines hlen (fun _ _ => true)
  by_cases h : ∃ N, DeclaresSizes scanner d lines N
  · obtain ⟨N, hN⟩ := h
    obtain ⟨h3, h4⟩ := (h1 N hN).2 ⟨rfl, rfl, rfl⟩
    cases hr : mtxFileRead scanner s lines with
    | error e => rw [h3 e hr]; rfl
    | ok m => rw [(h4 m hr).1 ⟨rfl, rfl, rfl⟩]; rfl
  · obtain ⟨e, he, hw⟩ := h2 fun N hN => h ⟨N, hN⟩
    rw [he, hw]
    rfl

/-- C79: constructing the object for any number of repetitions ends with the right numbers of blocks, or an allocation has
thrown; no assertion is violated as long as there is no memory for `2 ^ 64 - 1` elements. -/
theorem C79_constructor (allocate : Nat → Nat → Bool) (hmax : ∀ k, allocate k (2 ^ 64 - 1) = false) (N : Nat)
    (hN : N < 2 ^ 64) :
    (MemorySuffices allocate 0 N → constructRepeating allocate N = .ok (some ⟨N + 1, N, N + 1⟩)) ∧
      (¬ MemorySuffices allocate 0 N → constructRepeating allocate N = .ok none) := by
  by_cases hlast : N = 2 ^ 64 - 1
  · have hnone : constructRepeating allocate N = .ok none := by
      unfold constructRepeating allocateVectors
      rw [hlast, hmax 1, Bool.and_false, Bool.false_and]
      rfl
    refine ⟨fun h => ?_, fun _ => hnone⟩
    have := h.2.1
    rw [hlast, hmax] at this
    cases this
  · have h1 : N + 1 < 2 ^ 64 := by omega
    refine ⟨fun h => ?_, fun h => ?_⟩
    · unfold constructRepeating
      rw [if_pos ((allocateVectors_eq h1).mpr h)]
      simp only [wadd_eq h1]
      rw [assert', if_pos (by simpa using (by omega : N < 2 ^ 64 - 1)), ok_bind]
      simp [assert', ok_bind]
    · unfold constructRepeating
      rw [if_neg fun h' => h ((allocateVectors_eq h1).mp h')]
      rfl

/-- C79: the assertion is violated exactly if there is such memory and so many repetitions are wanted. -/
theorem C79_assertion (allocate : Nat → Nat → Bool) (N : Nat) (hN : N < 2 ^ 64) :
    constructRepeating allocate N = .error .assertion ↔
      N = 2 ^ 64 - 1 ∧ allocate 0 0 = true ∧ allocate 1 (2 ^ 64 - 1) = true ∧ allocate 2 0 = true := by
  have hz : wadd (2 ^ 64 - 1) 1 = 0 := by decide
  constructor
  · intro h
    by_cases hlast : N = 2 ^ 64 - 1
    · subst hlast
      refine ⟨rfl, ?_⟩
      unfold constructRepeating at h
      by_cases ha : allocateVectors allocate 0 (2 ^ 64 - 1) = true
      · unfold allocateVectors at ha
        rw [hz, Bool.and_eq_true, Bool.and_eq_true] at ha
        exact ⟨ha.1.1, ha.1.2, ha.2⟩
      · rw [if_neg ha] at h
        cases h
    · have h1 : N + 1 < 2 ^ 64 := by omega
      exfalso
      unfold constructRepeating at h
      by_cases ha : allocateVectors allocate 0 N = true
      · rw [if_pos ha] at h
        simp only [wadd_eq h1] at h
        rw [assert', if_pos (by simpa using (by omega : N < 2 ^ 64 - 1)), ok_bind] at h
        simp [assert', ok_bind] at h
      · rw [if_neg ha] at h
        cases h
  · rintro ⟨rfl, h0, h1, h2⟩
    unfold constructRepeating allocateVectors
    rw [hz, h0, h1, h2]
    rfl

/-! ### An example -/

/-- Repeated blocks of size one without anything else. -/
def wordsExample : ArrowheadSparsity :=
  { start := ⟨⟨0, 0, []⟩, ⟨1, 0, []⟩, ⟨0, 0, []⟩, []⟩
    tridiag := ⟨⟨1, 1, [⟨0, 0⟩]⟩, ⟨1, 1, [⟨0, 0⟩]⟩, [0]⟩
    link := ⟨⟨0, 1, []⟩, ⟨0, 0, []⟩, ⟨0, 0, []⟩, []⟩
    outer := ⟨⟨0, 1, []⟩, ⟨0, 0, []⟩, []⟩ }

/-- The largest sizes which can be written: `2 ^ 64 - 1` rows. Memory for two vectors only is not enough. -/
example : mtxFileReadWords (K := Int) (fun k _ => k < 2) (textScanner fun _ => 1) wordsExample
    ["18446744073709551615 18446744073709551615 0"] = .ok none := by
  refine ((C79_reader wordsExample ⟨0, 1, 0, 0⟩ (by decide) (by decide) (by decide) (textScanner fun _ => 1)
    (fun line r c n h => scanHeader_lt h) (fun line r c v h => ?_) _ (by decide) _).1 (2 ^ 64 - 2) ?_).1 (by
      rintro ⟨-, -, h⟩; cases h)
  · have h' : (scanEntry line >>= fun o => .ok (o.map fun x : Nat × Nat × FloatLiteral => (x.1, x.2.1, (1 : Int)))) =
      .ok (some (r, c, v)) := h
    rcases he : scanEntry line with e | (_ | ⟨r', c', v'⟩) <;> rw [he] at h'
    · cases h'
    · cases h'
    cases h'
    exact scanEntry_lt he
  · exact ⟨[], "18446744073709551615 18446744073709551615 0", [], 0, rfl, by simp, by
    rintro ⟨rest, h⟩
    have h' := congrArg List.head? h
    revert h'
    exact (by decide +kernel : ¬ "18446744073709551615 18446744073709551615 0".toList.head? = some '%'), by decide +kernel⟩

/-- Three entries in a file, and memory for all of it. -/
example : (mtxFileReadWords (K := Int) (fun _ n => n < 10) (textScanner fun _ => 1) wordsExample
    ["2 2 3", "1 1 1.5", "2 1 1.5", "2 2 1.5"]).map (Option.map fun m => m.tridiagDiag.length) = .ok (some 2) := by
  decide +kernel

/-- Constructing objects. -/
example : constructRepeating (fun _ n => n < 2 ^ 40) 5 = .ok (some ⟨6, 5, 6⟩) ∧
    constructRepeating (fun _ n => n < 2 ^ 40) (2 ^ 64 - 1) = .ok none ∧
    constructRepeating (fun _ _ => true) (2 ^ 64 - 1) = .error .assertion := by decide +kernel

end Ctldl
