import Verif.Lemmas.Scan
import Verif.Props.Mtx

/-! # C64: the text of matrix files -/

namespace Ctldl

/-! ### Lines -/

private theorem getLines_line {line : List Char} (h : '\n' ∉ line) (current text : List Char) :
    getLines current (line ++ '\n' :: text) = (current.reverse ++ line) :: getLines [] text := by
  induction line generalizing current with
  | nil =>
    rw [List.nil_append, List.append_nil]
    rfl
  | cons c line ih =>
    have hc : c ≠ '\n' := fun hc => h (by rw [hc]; simp)
    rw [List.cons_append, show getLines current (c :: (line ++ '\n' :: text)) = if c == '\n' then current.reverse ::
      getLines [] (line ++ '\n' :: text) else getLines (c :: current) (line ++ '\n' :: text) from rfl,
      if_neg (by simpa using hc), ih (fun hm => h (by simp [hm]))]
    simp

private theorem getLines_last {line : List Char} (h : '\n' ∉ line) (current : List Char) :
    getLines current line = if (current.reverse ++ line).isEmpty then [] else [current.reverse ++ line] := by
  induction line generalizing current with
  | nil => unfold getLines; simp
  | cons c line ih =>
    have hc : c ≠ '\n' := fun hc => h (by rw [hc]; simp)
    unfold getLines
    rw [if_neg (by simpa using hc), ih (fun hm => h (by simp [hm]))]
    simp

private theorem getLines_lines {lines : List (List Char)} (h : ∀ line ∈ lines, '\n' ∉ line) (text : List Char) :
    getLines [] ((lines.map (· ++ ['\n'])).flatten ++ text) = lines ++ getLines [] text := by
  induction lines with
  | nil => rfl
  | cons line lines ih =>
    rw [List.map_cons, List.flatten_cons, List.append_assoc, List.append_assoc, List.singleton_append,
      getLines_line (h line (by simp)), ih fun l hl => h l (by simp [hl])]
    rfl

/-- C64: reading line by line delivers the lines of a text, whether or not there is a newline at its end. -/
theorem C64_lines (text : List Char) (lines : List (List Char)) (h : ∀ line ∈ lines, '\n' ∉ line)
    (ht : IsText text lines) : getLines [] text = lines := by
  rcases ht with rfl | ⟨before, last, rfl, h0, rfl⟩
  · have := getLines_lines h []
    rwa [List.append_nil, show getLines [] [] = [] from rfl, List.append_nil] at this
  · rw [getLines_lines fun l hl => h l (by simp [hl]), getLines_last (h last (by simp))]
    simp [h0]

/-- C64: every text has lines. -/
theorem C64_lines_cover (text : List Char) : IsText text (getLines [] text) ∧ ∀ line ∈ getLines [] text, '\n' ∉ line := by
  have key : ∀ (text current : List Char), '\n' ∉ current →
      IsText (current.reverse ++ text) (getLines current text) ∧ ∀ line ∈ getLines current text, '\n' ∉ line := by
    intro text
    induction text with
    | nil =>
      intro current hc
      unfold getLines
      cases current with
      | nil => exact ⟨Or.inl rfl, fun _ h => nomatch h⟩
      | cons c cs =>
        refine ⟨Or.inr ⟨[], (c :: cs).reverse, rfl, by simp, by simp⟩, fun line hl => ?_⟩
        rw [List.mem_singleton.mp hl, List.mem_reverse]
        exact hc
    | cons c text ih =>
      intro current hc
      unfold getLines
      by_cases h : c = '\n'
      · subst h
        rw [if_pos (by simp)]
        obtain ⟨h1, h2⟩ := ih [] (by simp)
        rw [List.reverse_nil, List.nil_append] at h1
        refine ⟨?_, fun line hl => ?_⟩
        · rcases h1 with h1 | ⟨before, last, h3, h4, h5⟩
          · left
            rw [List.map_cons, List.flatten_cons, ← h1]
            simp
          · right
            refine ⟨current.reverse :: before, last, by rw [h3]; rfl, h4, ?_⟩
            rw [List.map_cons, List.flatten_cons, List.append_assoc, ← h5]
            simp
        · rcases List.mem_cons.mp hl with rfl | hl
          · simpa using hc
          · exact h2 line hl
      · rw [if_neg (by simpa using h)]
        have := ih (c :: current) (by simp [hc, Ne.symm h])
        rw [List.reverse_cons, List.append_assoc, List.singleton_append] at this
        exact this
  have := key text [] (by simp)
  rwa [List.reverse_nil, List.nil_append] at this

/-! ### Numbers -/

/-- C64: a line is accepted as header exactly if it has three integers below `2 ^ 64` in front, which may have signs and
need not be separated by white space if they have. -/
theorem C64_header (line : String) (r c n : Nat) : scanHeader line = .ok (some (r, c, n)) ↔
    ∃ b t b' t' b'' t'' rest, cString line = b ++ t ++ (b' ++ t' ++ (b'' ++ t'' ++ rest)) ∧ Blank b ∧ Blank b' ∧ Blank b'' ∧
      SpellsIndex t r ∧ SpellsIndex t' c ∧ SpellsIndex t'' n ∧ NoDigit decimalAlphabet (b' ++ t' ++ (b'' ++ t'' ++ rest)) ∧
      NoDigit decimalAlphabet (b'' ++ t'' ++ rest) ∧ NoDigit decimalAlphabet rest := by
  unfold scanHeader
  constructor
  · intro h
    obtain ⟨o1, h1, h⟩ := bind_eq_ok.mp h
    cases o1 with
    | none => cases h
    | some x =>
      obtain ⟨v1, s1⟩ := x
      obtain ⟨o2, h2, h⟩ := bind_eq_ok.mp h
      cases o2 with
      | none => cases h
      | some x =>
        obtain ⟨v2, s2⟩ := x
        obtain ⟨o3, h3, h⟩ := bind_eq_ok.mp h
        cases o3 with
        | none => cases h
        | some x =>
          obtain ⟨v3, s3⟩ := x
          have h := Option.some.inj (Except.ok.inj h)
          simp only [Prod.mk.injEq] at h
          obtain ⟨rfl, rfl, rfl⟩ := h
          obtain ⟨b, t, e1, hb, ht, hr⟩ := scanSize_some.mp h1
          obtain ⟨b', t', rfl, hb', ht', hr'⟩ := scanSize_some.mp h2
          obtain ⟨b'', t'', rfl, hb'', ht'', hr''⟩ := scanSize_some.mp h3
          exact ⟨b, t, b', t', b'', t'', s3, e1, hb, hb', hb'', ht, ht', ht'', hr, hr', hr''⟩
  · rintro ⟨b, t, b', t', b'', t'', rest, e1, hb, hb', hb'', ht, ht', ht'', hr, hr', hr''⟩
    rw [scanSize_some.mpr ⟨b, t, e1, hb, ht, hr⟩, ok_bind]
    simp only
    rw [scanSize_some.mpr ⟨b', t', rfl, hb', ht', hr'⟩, ok_bind]
    simp only
    rw [scanSize_some.mpr ⟨b'', t'', rfl, hb'', ht'', hr''⟩, ok_bind]
    rfl

/-- C64: what is accepted as an entry has two integers below `2 ^ 64`, which may have signs, and a numeral in front. -/
theorem C64_entry_sound (line : String) (r c : Nat) (x : FloatLiteral) (h : scanEntry line = .ok (some (r, c, x))) :
    ∃ b t b' t' b'' t'' rest, cString line = b ++ t ++ (b' ++ t' ++ (b'' ++ t'' ++ rest)) ∧ Blank b ∧ Blank b' ∧ Blank b'' ∧
      SpellsIndex t r ∧ SpellsIndex t' c ∧ SpellsFloat t'' x := by
  unfold scanEntry at h
  obtain ⟨o1, h1, h⟩ := bind_eq_ok.mp h
  cases o1 with
  | none => cases h
  | some y =>
    obtain ⟨v1, s1⟩ := y
    obtain ⟨o2, h2, h⟩ := bind_eq_ok.mp h
    cases o2 with
    | none => cases h
    | some y =>
      obtain ⟨v2, s2⟩ := y
      obtain ⟨x', h3, h4⟩ := Option.map_eq_some_iff.mp (Except.ok.inj h)
      simp only [Prod.mk.injEq] at h4
      obtain ⟨rfl, rfl, rfl⟩ := h4
      obtain ⟨b, t, e1, hb, ht, -⟩ := scanSize_some.mp h1
      obtain ⟨b', t', rfl, hb', ht', -⟩ := scanSize_some.mp h2
      obtain ⟨b'', t'', rest, rfl, hb'', ht''⟩ := scanFloat_split h3
      exact ⟨b, t, b', t', b'', t'', rest, e1, hb, hb', hb'', ht, ht', ht''⟩

/-- C64: a line with two integers below `2 ^ 64` and a numeral, followed by white space or nothing, is accepted as entry. -/
theorem C64_entry_complete (line : String) (r c : Nat) (x : FloatLiteral) (b t b' t' b'' t'' rest : List Char)
    (h : cString line = b ++ t ++ (b' ++ t' ++ (b'' ++ t'' ++ rest))) (hb : Blank b) (hb' : Blank b') (hb'' : Blank b'')
    (ht : SpellsIndex t r) (ht' : SpellsIndex t' c) (ht'' : SpellsFloat t'' x)
    (hr : NoDigit decimalAlphabet (b' ++ t' ++ (b'' ++ t'' ++ rest))) (hr' : NoDigit decimalAlphabet (b'' ++ t'' ++ rest))
    (hr'' : Separated rest) : scanEntry line = .ok (some (r, c, x)) := by
  unfold scanEntry
  rw [scanSize_some.mpr ⟨b, t, h, hb, ht, hr⟩, ok_bind]
  simp only
  rw [scanSize_some.mpr ⟨b', t', rfl, hb', ht', hr'⟩, ok_bind]
  simp only
  rw [scanFloat_append hb'' ht'' hr'']
  rfl

/-- C64: scanning a line is undefined only if it has an integer of at least `2 ^ 64`. -/
theorem C64_undefined (line : String) (e : Err) (h : scanHeader line = .error e ∨ scanEntry line = .error e) :
    e = .ub ∧ ∃ before t rest negative n, cString line = before ++ t ++ rest ∧ SpellsInteger t negative n ∧ 2 ^ 64 ≤ n := by
  have step : ∀ {α : Type} {s : List Char} {f : Option (Nat × List Char) → Res α}, scanSize s >>= f = .error e →
      (e = .ub ∧ ∃ before t rest negative n, s = before ++ t ++ rest ∧ SpellsInteger t negative n ∧ 2 ^ 64 ≤ n) ∨
        f none = .error e ∨ ∃ v before s', s = before ++ s' ∧ f (some (v, s')) = .error e := by
    intro α s f h
    cases hs : scanSize s with
    | error e' =>
      rw [hs] at h
      have : e' = e := Except.error.inj h
      subst this
      obtain ⟨h1, b, t, rest, negative, n, h2, -, h3, -, h4⟩ := scanSize_error.mp hs
      exact Or.inl ⟨h1, b, t, rest, negative, n, h2, h3, h4⟩
    | ok o =>
      rw [hs, ok_bind] at h
      cases o with
      | none => exact Or.inr (Or.inl h)
      | some x =>
        obtain ⟨v, s'⟩ := x
        obtain ⟨b, t, h1, -⟩ := scanSize_some.mp hs
        exact Or.inr (Or.inr ⟨v, b ++ t, s', h1, h⟩)
  have lift : ∀ {s s' before : List Char}, s = before ++ s' →
      (e = .ub ∧ ∃ before t rest negative n, s' = before ++ t ++ rest ∧ SpellsInteger t negative n ∧ 2 ^ 64 ≤ n) →
      e = .ub ∧ ∃ before t rest negative n, s = before ++ t ++ rest ∧ SpellsInteger t negative n ∧ 2 ^ 64 ≤ n := by
    rintro s s' before rfl ⟨h1, b, t, rest, negative, n, rfl, h2, h3⟩
    exact ⟨h1, before ++ b, t, rest, negative, n, by simp, h2, h3⟩
  rcases h with h | h
  · unfold scanHeader at h
    rcases step h with h | h | ⟨v, b, s, h1, h⟩
    · exact h
    · cases h
    · refine lift h1 ?_
      rcases step h with h | h | ⟨v, b, s, h1, h⟩
      · exact h
      · cases h
      · refine lift h1 ?_
        rcases step h with h | h | ⟨v, b, s, h1, h⟩
        · exact h
        · cases h
        · cases h
  · unfold scanEntry at h
    rcases step h with h | h | ⟨v, b, s, h1, h⟩
    · exact h
    · cases h
    · refine lift h1 ?_
      rcases step h with h | h | ⟨v, b, s, h1, h⟩
      · exact h
      · cases h
      · cases h

/-- C64: a line with nothing but white space is neither a header nor an entry. -/
theorem C64_blank (line : String) (h : Blank line.toList) : scanHeader line = .ok none ∧ scanEntry line = .ok none := by
  have hb : Blank (cString line) := fun c hc => h c (List.takeWhile_subset _ hc)
  have : scanSize (cString line) = .ok none := by
    have hd : (cString line).dropWhile isSpace = [] := by
      rw [List.dropWhile_eq_nil_iff]
      exact fun c hc => isSpace_iff.mpr (hb c hc)
    unfold scanSize
    rw [hd]
    rfl
  unfold scanHeader scanEntry
  rw [this]
  exact ⟨rfl, rfl⟩

/-! ### Files -/

private theorem cString_plain {line : List Char} (h : PlainLine line) : cString (String.ofList line) = line := by
  unfold cString
  rw [String.toList_ofList, List.takeWhile_eq_self_iff]
  intro c hc
  simp only [bne_iff_ne, ne_eq]
  rintro rfl
  exact h.2 hc

private theorem noDigit_blank {b s : List Char} (hb : Blank b) (h0 : b ≠ []) : NoDigit decimalAlphabet (b ++ s) := by
  refine noDigit_of_separated (fun c d h => (decimal_char h).1) fun c r hc => ?_
  cases b with
  | nil => exact (h0 rfl).elim
  | cons a b =>
    rw [← (List.cons.inj hc).1]
    exact fun c hc => hb c (by rw [List.mem_singleton.mp hc]; simp)

private theorem header_scanned {line : List Char} {dims : MtxDimensions} (hp : PlainLine line) (h : IsSizeLine line dims)
    (h1 : dims.numRows < 2 ^ 64) (h2 : dims.numCols < 2 ^ 64) (h3 : dims.nnz < 2 ^ 64) :
    scanHeader (String.ofList line) = .ok (some (dims.numRows, dims.numCols, dims.nnz)) := by
  obtain ⟨b, t, b', t', b'', t'', rest, rfl, hb, hb', hb'', h0', h0'', ht, ht', ht'', hr⟩ := h
  refine (C64_header _ _ _ _).mpr ⟨b, t, b', t', b'', t'', rest, cString_plain hp, hb, hb', hb'', ⟨_, _, ht, h1, rfl⟩,
    ⟨_, _, ht', h2, rfl⟩, ⟨_, _, ht'', h3, rfl⟩, ?_, ?_, noDigit_of_separated (fun c d h => (decimal_char h).1) hr⟩
  · rw [List.append_assoc]
    exact noDigit_blank hb' h0'
  · rw [List.append_assoc]
    exact noDigit_blank hb'' h0''

private theorem entry_scanned {line : List Char} {e : MtxEntry FloatLiteral} (hp : PlainLine line) (h : IsEntryLine line e)
    (h1 : e.row + 1 < 2 ^ 64) (h2 : e.col + 1 < 2 ^ 64) :
    scanEntry (String.ofList line) = .ok (some (e.row + 1, e.col + 1, e.value)) := by
  obtain ⟨b, t, b', t', b'', t'', rest, rfl, hb, hb', hb'', h0', h0'', ht, ht', ht'', hr⟩ := h
  refine C64_entry_complete _ _ _ _ b t b' t' b'' t'' rest (cString_plain hp) hb hb' hb'' ⟨_, _, ht, h1, rfl⟩
    ⟨_, _, ht', h2, rfl⟩ ht'' ?_ ?_ hr
  · rw [List.append_assoc]
    exact noDigit_blank hb' h0'
  · rw [List.append_assoc]
    exact noDigit_blank hb'' h0''

variable {K : Type}

/-- C64: the text of a Matrix Market file is read as a file with its sizes and entries. -/
theorem C64_file (convert : FloatLiteral → K) (text : List Char) (dims : MtxDimensions)
    (entries : List (MtxEntry FloatLiteral)) (h : IsMtxText text dims entries) :
    IsMtxFile (textScanner convert) ((getLines [] text).map String.ofList) dims
      (entries.map fun e => ⟨e.row, e.col, convert e.value⟩) := by
  obtain ⟨comments, header, rest, ht, hc, hp, hh, hs, hrp, hre, hin, hlen, h1, h2, h3⟩ := h
  have hl : getLines [] text = comments.map ('%' :: ·) ++ header :: rest := by
    refine C64_lines text _ (fun line hl => ?_) ht
    rcases List.mem_append.mp hl with hl | hl
    · obtain ⟨l, hl', rfl⟩ := List.mem_map.mp hl
      simpa using hc l hl'
    · rcases List.mem_cons.mp hl with rfl | hl
      · exact hp.1
      · exact (hrp line hl).1
  refine ⟨(comments.map ('%' :: ·)).map String.ofList, String.ofList header, rest.map String.ofList, ?_, ?_, ?_,
    header_scanned hp hs h1 h2 h3, ?_, ?_, by rw [List.length_map]; exact hlen⟩
  · rw [hl, List.map_append, List.map_cons]
  · intro line hl
    obtain ⟨l', hl', rfl⟩ := List.mem_map.mp hl
    obtain ⟨l, -, rfl⟩ := List.mem_map.mp hl'
    exact ⟨l, String.toList_ofList⟩
  · rintro ⟨l, hl⟩
    rw [String.toList_ofList] at hl
    exact hh (by rw [hl]; rfl)
  · rw [List.map_map, List.map_map]
    clear hlen hl ht h3
    induction hre with
    | nil => rfl
    | @cons line e rest entries h _ ih =>
      rw [List.map_cons, List.map_cons]
      congr 1
      · obtain ⟨h4, h5⟩ := hin e (by simp)
        simp only [Function.comp_apply, textScanner]
        rw [entry_scanned (hrp line (by simp)) h (by omega) (by omega), ok_bind]
        rfl
      · exact ih (fun l hl => hrp l (by simp [hl])) fun e he => hin e (by simp [he])
  · intro e he
    obtain ⟨e', he', rfl⟩ := List.mem_map.mp he
    exact hin e' he'

/-- C40: reading the text of a Matrix Market file whose entries are all in the declared pattern, and in places which are
handled (see `C40_placed_partial`), gives the matrix with the values of the numerals of the text. -/
theorem C40_text_partial [AddCommMonoid K] (convert : FloatLiteral → K) (s : ArrowheadSparsity) (d : Dims) (hs : s.Valid d)
    (hd : 0 < d.tridiag) (text : List Char) (dims : MtxDimensions) (entries : List (MtxEntry FloatLiteral))
    (hf : IsMtxText text dims entries) (N : Nat) (hrows : dims.numRows = d.total N) (hcols : dims.numCols = d.total N)
    (hc : ∀ e ∈ entries, s.Covers d N e.row e.col) (hh : ∀ e ∈ entries, d.Handles N e.row e.col) :
    ∃ m, mtxTextRead convert s text = .ok m ∧
      m.toMatrix.IsFile s d N (entries.map fun e => ⟨e.row, e.col, convert e.value⟩) :=
  C40_placed_partial s d hs hd _ _ dims _ (C64_file convert text dims entries hf) N hrows hcols
    (fun e he => by obtain ⟨e', he', rfl⟩ := List.mem_map.mp he; exact hc e' he')
    fun e he => by obtain ⟨e', he', rfl⟩ := List.mem_map.mp he; exact hh e' he'

private theorem defined_of {line : List Char}
    (h : ∀ before t rest negative n, line = before ++ t ++ rest → SpellsInteger t negative n → n < 2 ^ 64)
    (convert : FloatLiteral → K) : (∃ o, (textScanner convert).header (String.ofList line) = .ok o) ∧
      ∃ o, (textScanner convert).entry (String.ofList line) = .ok o := by
  have key : ∀ e, ¬ (scanHeader (String.ofList line) = .error e ∨ scanEntry (String.ofList line) = .error e) := by
    intro e he
    obtain ⟨-, before, t, rest, negative, n, h1, h2, h3⟩ := C64_undefined _ e he
    obtain ⟨more, hm⟩ := List.takeWhile_prefix (fun c : Char => c != '\x00') (l := (String.ofList line).toList)
    rw [String.toList_ofList] at hm
    have hc : cString (String.ofList line) ++ more = line := by
      unfold cString
      rw [String.toList_ofList]
      exact hm
    have := h before t (rest ++ more) negative n (by rw [← hc, h1]; simp) h2
    omega
  constructor
  · change ∃ o, scanHeader (String.ofList line) = .ok o
    cases hs : scanHeader (String.ofList line) with
    | error e => exact (key e (Or.inl hs)).elim
    | ok o => exact ⟨o, rfl⟩
  · cases hs : scanEntry (String.ofList line) with
    | error e => exact (key e (Or.inr hs)).elim
    | ok o => exact ⟨_, show (scanEntry (String.ofList line) >>= _) = _ by rw [hs]; rfl⟩

private theorem line_of_text {text line : List Char} {lines : List (List Char)} (ht : IsText text lines) (hl : line ∈ lines) :
    ∃ before rest, text = before ++ line ++ rest := by
  rcases ht with rfl | ⟨before, last, rfl, -, rfl⟩
  · obtain ⟨l1, l2, rfl⟩ := List.append_of_mem hl
    exact ⟨(l1.map (· ++ ['\n'])).flatten, '\n' :: (l2.map (· ++ ['\n'])).flatten, by simp⟩
  · rcases List.mem_append.mp hl with hl | hl
    · obtain ⟨l1, l2, rfl⟩ := List.append_of_mem hl
      exact ⟨(l1.map (· ++ ['\n'])).flatten, '\n' :: (l2.map (· ++ ['\n'])).flatten ++ last, by simp⟩
    · rw [List.mem_singleton.mp hl]
      exact ⟨(before.map (· ++ ['\n'])).flatten, [], by simp⟩

/-- C64: scanning the lines of a text without integers of `2 ^ 64` and more is defined. -/
theorem C64_scans (convert : FloatLiteral → K) (text : List Char)
    (h : ∀ before t rest negative n, text = before ++ t ++ rest → SpellsInteger t negative n → n < 2 ^ 64) :
    ∀ line ∈ (getLines [] text).map String.ofList, (∃ o, (textScanner convert).header line = .ok o) ∧
      ∃ o, (textScanner convert).entry line = .ok o := by
  intro line hl
  obtain ⟨l, hl', rfl⟩ := List.mem_map.mp hl
  obtain ⟨b, r, hb⟩ := line_of_text (C64_lines_cover text).1 hl'
  refine defined_of (fun before t rest negative n h1 h2 => ?_) convert
  exact h (b ++ before) t (rest ++ r) negative n (by rw [hb, h1]; simp) h2

/-- C64: for a text without integers of `2 ^ 64` and more, going through the file either delivers all entries or throws. -/
theorem C64_defined {S : Type} (convert : FloatLiteral → K) (text : List Char)
    (h : ∀ before t rest negative n, text = before ++ t ++ rest → SpellsInteger t negative n → n < 2 ^ 64)
    (func : S → MtxEntry K → Res S) (hf : ∀ s e, ∃ s', func s e = .ok s') (init : S) :
    (∃ dims entries, IsMtxFile (textScanner convert) ((getLines [] text).map String.ofList) dims entries ∧
      mtxForeachEntry (textScanner convert) ((getLines [] text).map String.ofList) func init =
        entries.foldlM func init) ∨
    ∃ kind : MtxErr, mtxForeachEntry (textScanner convert) ((getLines [] text).map String.ofList) func init =
      .error (.mtx kind) := by
  by_cases hm : ∃ dims entries, IsMtxFile (textScanner convert) ((getLines [] text).map String.ofList) dims entries
  · obtain ⟨dims, entries, hm⟩ := hm
    exact Or.inl ⟨dims, entries, hm, C41_traverses _ _ dims entries hm func init⟩
  · exact Or.inr (C41_throws _ _ (C64_scans convert text h) (fun dims entries hx => hm ⟨dims, entries, hx⟩) func hf init)

/-! ### Every matrix can be written -/

private theorem spells_digits {ds : List Nat} (h : ∀ d ∈ ds, d < 10) :
    ∃ s, Spells decimalAlphabet s ds ∧ ∀ c ∈ s, c ≠ '\n' ∧ c ≠ '\x00' ∧ c ≠ '%' := by
  induction ds with
  | nil => exact ⟨[], List.Forall₂.nil, fun _ h => nomatch h⟩
  | cons d ds ih =>
    obtain ⟨s, hs, hn⟩ := ih fun d hd => h d (by simp [hd])
    have hd := h d (by simp)
    obtain ⟨c, hc, hc'⟩ : ∃ c, HasValue decimalAlphabet c d ∧ c ≠ '\n' ∧ c ≠ '\x00' ∧ c ≠ '%' := by
      interval_cases d
      · exact ⟨'0', ⟨_, List.mem_singleton_self _, rfl⟩, by decide⟩
      · exact ⟨'1', ⟨_, List.mem_singleton_self _, rfl⟩, by decide⟩
      · exact ⟨'2', ⟨_, List.mem_singleton_self _, rfl⟩, by decide⟩
      · exact ⟨'3', ⟨_, List.mem_singleton_self _, rfl⟩, by decide⟩
      · exact ⟨'4', ⟨_, List.mem_singleton_self _, rfl⟩, by decide⟩
      · exact ⟨'5', ⟨_, List.mem_singleton_self _, rfl⟩, by decide⟩
      · exact ⟨'6', ⟨_, List.mem_singleton_self _, rfl⟩, by decide⟩
      · exact ⟨'7', ⟨_, List.mem_singleton_self _, rfl⟩, by decide⟩
      · exact ⟨'8', ⟨_, List.mem_singleton_self _, rfl⟩, by decide⟩
      · exact ⟨'9', ⟨_, List.mem_singleton_self _, rfl⟩, by decide⟩
    exact ⟨c :: s, List.Forall₂.cons hc hs, fun x hx => (List.mem_cons.mp hx).elim (fun h => h ▸ hc') (hn x)⟩

private theorem spells_nat (n : Nat) :
    ∃ s, SpellsInteger s false n ∧ s ≠ [] ∧ ∀ c ∈ s, c ≠ '\n' ∧ c ≠ '\x00' ∧ c ≠ '%' := by
  obtain ⟨ds, h0, hd, hn⟩ : ∃ ds : List Nat, ds ≠ [] ∧ (∀ d ∈ ds, d < 10) ∧ n = Nat.ofDigits 10 ds.reverse := by
    rcases Nat.eq_zero_or_pos n with rfl | hn
    · exact ⟨[0], by simp, by simp, by simp⟩
    · refine ⟨(Nat.digits 10 n).reverse, ?_, fun d hd => ?_, ?_⟩
      · simpa using Nat.digits_ne_nil_iff_ne_zero.mpr hn.ne'
      · exact Nat.digits_lt_base (by norm_num) (List.mem_reverse.mp hd)
      · rw [List.reverse_reverse, Nat.ofDigits_digits]
  obtain ⟨s, hs, hc⟩ := spells_digits hd
  refine ⟨s, ⟨[], s, ds, rfl, .none, h0, hs, hn⟩, ?_, hc⟩
  rintro rfl
  cases hs
  exact h0 rfl

/-- C64: for all sizes below `2 ^ 64` and all entries with values which can be spelled there is a text. -/
theorem C64_written (dims : MtxDimensions) (entries : List (MtxEntry FloatLiteral))
    (hv : ∀ e ∈ entries, ∃ s, SpellsFloat s e.value ∧ PlainLine s)
    (hin : ∀ e ∈ entries, e.row < dims.numRows ∧ e.col < dims.numCols) (hlen : entries.length = dims.nnz)
    (h1 : dims.numRows < 2 ^ 64) (h2 : dims.numCols < 2 ^ 64) (h3 : dims.nnz < 2 ^ 64) :
    ∃ text, IsMtxText text dims entries := by
  have hsp : Blank [' '] := fun c hc => by rw [List.mem_singleton.mp hc]; decide
  obtain ⟨t, ht, h0, hc⟩ := spells_nat dims.numRows
  obtain ⟨t', ht', -, hc'⟩ := spells_nat dims.numCols
  obtain ⟨t'', ht'', -, hc''⟩ := spells_nat dims.nnz
  obtain ⟨rest, hr, hp⟩ : ∃ rest, List.Forall₂ IsEntryLine rest entries ∧ ∀ line ∈ rest, PlainLine line := by
    clear hlen hin
    induction entries with
    | nil => exact ⟨[], .nil, fun _ h => nomatch h⟩
    | cons e entries ih =>
      obtain ⟨rest, hr, hp⟩ := ih fun e he => hv e (by simp [he])
      obtain ⟨u, hu, -, hcu⟩ := spells_nat (e.row + 1)
      obtain ⟨u', hu', -, hcu'⟩ := spells_nat (e.col + 1)
      obtain ⟨u'', hu'', hp''⟩ := hv e (by simp)
      refine ⟨([] ++ u ++ ([' '] ++ u' ++ ([' '] ++ u'' ++ []))) :: rest, .cons ⟨[], u, [' '], u', [' '], u'', [], rfl,
        fun _ h => (nomatch h), hsp, hsp, by simp, by simp, hu, hu', hu'', fun _ _ h => (nomatch h)⟩ hr, fun line hl => ?_⟩
      rcases List.mem_cons.mp hl with rfl | hl
      · constructor
        · simp only [List.nil_append, List.append_nil, List.mem_append, List.mem_singleton]
          rintro (h | (h | h) | h | h)
          · exact (hcu _ h).1 rfl
          · exact absurd h (by decide)
          · exact (hcu' _ h).1 rfl
          · exact absurd h (by decide)
          · exact hp''.1 h
        · simp only [List.nil_append, List.append_nil, List.mem_append, List.mem_singleton]
          rintro (h | (h | h) | h | h)
          · exact (hcu _ h).2.1 rfl
          · exact absurd h (by decide)
          · exact (hcu' _ h).2.1 rfl
          · exact absurd h (by decide)
          · exact hp''.2 h
      · exact hp line hl
  refine ⟨_, [], [] ++ t ++ ([' '] ++ t' ++ ([' '] ++ t'' ++ [])), rest, Or.inl rfl, fun _ h => (nomatch h), ⟨?_, ?_⟩, ?_,
    ⟨[], t, [' '], t', [' '], t'', [], rfl, fun _ h => (nomatch h), hsp, hsp, by simp, by simp, ht, ht', ht'',
      fun _ _ h => (nomatch h)⟩, hp, hr, hin, hlen, h1, h2, h3⟩
  · simp only [List.nil_append, List.append_nil, List.mem_append, List.mem_singleton]
    rintro (h | (h | h) | h | h)
    · exact (hc _ h).1 rfl
    · exact absurd h (by decide)
    · exact (hc' _ h).1 rfl
    · exact absurd h (by decide)
    · exact (hc'' _ h).1 rfl
  · simp only [List.nil_append, List.append_nil, List.mem_append, List.mem_singleton]
    rintro (h | (h | h) | h | h)
    · exact (hc _ h).2.1 rfl
    · exact absurd h (by decide)
    · exact (hc' _ h).2.1 rfl
    · exact absurd h (by decide)
    · exact (hc'' _ h).2.1 rfl
  · cases t with
    | nil => exact (h0 rfl).elim
    | cons c t =>
      intro h
      have : c = '%' := by simpa using h
      exact (hc c (by simp)).2.2 this

/-! ### An example -/

/-- A file with the matrix `[[2, 1], [1, 5]]`, with a carriage return in one line and without newline at the end. -/
def textExample : List Char := "%%MatrixMarket\n2 2 3\r\n1 1 2.0\n 2\t1 .1e+1 x\n2 2 0x1.4p2".toList

example : IsMtxText textExample ⟨2, 2, 3⟩
    [⟨0, 0, ⟨false, .decimal 20 (-1)⟩⟩, ⟨1, 0, ⟨false, .decimal 1 0⟩⟩, ⟨1, 1, ⟨false, .hexadecimal 20 (-2)⟩⟩] := by
  have hb : Blank [' '] := fun c hc => by rw [List.mem_singleton.mp hc]; decide
  have hb' : Blank ['\t'] := fun c hc => by rw [List.mem_singleton.mp hc]; decide
  have hb0 : Blank [] := fun _ h => nomatch h
  have hs0 : Separated [] := fun _ _ h => nomatch h
  have d : ∀ c d, ['0', '1', '2', '3', '4', '5', '6', '7', '8', '9'][d]? = some c → HasValue decimalAlphabet c d :=
    fun c d h => ⟨_, List.mem_singleton_self _, h⟩
  have x : ∀ c d, ['0', '1', '2', '3', '4', '5', '6', '7', '8', '9', 'a', 'b', 'c', 'd', 'e', 'f'][d]? = some c →
      HasValue hexadecimalAlphabet c d := fun c d h => ⟨_, List.mem_cons_self, h⟩
  have i1 : SpellsInteger ['1'] false 1 := ⟨[], ['1'], [1], rfl, .none, by simp, .cons (d _ _ rfl) .nil, by simp⟩
  have i1' : SpellsInteger ['+', '1'] false 1 := ⟨['+'], ['1'], [1], rfl, .plus, by simp, .cons (d _ _ rfl) .nil, by simp⟩
  have i2 : SpellsInteger ['2'] false 2 := ⟨[], ['2'], [2], rfl, .none, by simp, .cons (d _ _ rfl) .nil, by simp⟩
  have i3 : SpellsInteger ['3'] false 3 := ⟨[], ['3'], [3], rfl, .none, by simp, .cons (d _ _ rfl) .nil, by simp⟩
  refine ⟨["%MatrixMarket".toList], "2 2 3\r".toList, ["1 1 2.0".toList, " 2\t1 .1e+1 x".toList, "2 2 0x1.4p2".toList],
    Or.inr ⟨["%%MatrixMarket".toList, "2 2 3\r".toList, "1 1 2.0".toList, " 2\t1 .1e+1 x".toList], "2 2 0x1.4p2".toList,
      by decide, by decide, by decide⟩, by decide, by unfold PlainLine; decide, by decide,
    ⟨[], ['2'], [' '], ['2'], [' '], ['3'], ['\r'], rfl, hb0, hb, hb, by decide, by decide, i2, i2, i3, ?_⟩,
    by unfold PlainLine; decide, .cons ?_ (.cons ?_ (.cons ?_ .nil)), by decide, rfl, by decide, by decide, by decide⟩
  · rintro c r h
    obtain ⟨rfl, -⟩ := List.cons.inj h
    exact fun c hc => by rw [List.mem_singleton.mp hc]; decide
  · exact ⟨[], ['1'], [' '], ['1'], [' '], ['2', '.', '0'], [], rfl, hb0, hb, hb, by decide, by decide, i1, i1,
      ⟨[], _, rfl, .none, .decimal ⟨['2'], ['0'], ['.'], [], [2], [0], 0, rfl, .cons (d _ _ rfl) .nil,
        .cons (d _ _ rfl) .nil, Or.inl rfl, Or.inl (by decide), Or.inl ⟨rfl, rfl⟩, by decide, by decide⟩⟩, hs0⟩
  · refine ⟨[' '], ['2'], ['\t'], ['1'], [' '], ['.', '1', 'e', '+', '1'], [' ', 'x'], rfl, hb, hb', hb, by decide, by decide,
      i2, i1, ⟨[], _, rfl, .none, .decimal ⟨[], ['1'], ['.'], ['e', '+', '1'], [], [1], 1, rfl, .nil,
        .cons (d _ _ rfl) .nil, Or.inl rfl, Or.inr (by decide), Or.inr ⟨'e', by decide, _, _, _, rfl, i1', rfl⟩,
        by decide, by decide⟩⟩, ?_⟩
    rintro c r h
    obtain ⟨rfl, -⟩ := List.cons.inj h
    exact hb
  · exact ⟨[], ['2'], [' '], ['2'], [' '], ['0', 'x', '1', '.', '4', 'p', '2'], [], rfl, hb0, hb, hb, by decide, by decide,
      i2, i2, ⟨[], _, rfl, .none, .hexadecimal (p := ['0', 'x']) (by unfold SpellsWord; decide)
        ⟨['1'], ['4'], ['.'], ['p', '2'], [1], [4], 2, rfl, .cons (x _ _ rfl) .nil, .cons (x _ _ rfl) .nil, Or.inl rfl,
          Or.inl (by decide), Or.inr ⟨'p', by decide, _, _, _, rfl, i2, rfl⟩, by decide, by decide⟩⟩, hs0⟩

example : mtxForeachEntry (textScanner fun x => x.toRat.getD 0) ((getLines [] textExample).map String.ofList)
    (fun s e => .ok (s ++ [(e.row, e.col, e.value)])) [] = .ok [(0, 0, (2 : ℚ)), (1, 0, 1), (1, 1, 5)] := by decide +kernel

/-! ### Texts which are not of this form, but accepted -/

/-- A fraction in the place of the column is split: the column is `2` and the value is `0.5`. -/
theorem C64_fraction_split : scanEntry "1 2.5 7" = .ok (some (1, 2, ⟨false, .decimal 5 (-1)⟩)) := by decide

/-- A size with a minus is accepted: it is taken modulo `2 ^ 64`. -/
theorem C64_negative_accepted : scanHeader "-18446744073709551614 2 1" = .ok (some (2, 2, 1)) := by decide +kernel

/-- What comes after the numbers is ignored. -/
theorem C64_rest_ignored : scanHeader "2 2 3 %" = .ok (some (2, 2, 3)) ∧
    scanEntry "1 1 5,3 7" = .ok (some (1, 1, ⟨false, .decimal 5 0⟩)) ∧
    scanEntry "1 1 0 1" = .ok (some (1, 1, ⟨false, .decimal 0 0⟩)) := by decide

/-- A number which is too large is undefined behaviour. -/
theorem C64_too_large : scanHeader "18446744073709551616 1 1" = .error .ub ∧
    scanEntry "1 18446744073709551616 1" = .error .ub := by decide +kernel

/-- An empty line, also at the end of the file, is an error. -/
theorem C64_empty_line (convert : FloatLiteral → Int) : mtxForeachEntry (textScanner convert)
    ((getLines [] "1 1 1\n1 1 3\n\n".toList).map String.ofList) (fun (n : Int) _ => .ok n) 0 = .error (.mtx .entryLine) :=
  rfl

end Ctldl
