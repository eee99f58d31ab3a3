import Verif.Lemmas.MtxStep

/-! # Matrix files: lines -/

namespace Ctldl

variable {K : Type} {S : Type}

theorem isComment_iff (line : String) : isComment line = true ↔ CommentLine line := by
  unfold isComment CommentLine
  cases h : line.toList with
  | nil => simp
  | cons c cs =>
    simp only [List.head?_cons, beq_iff_eq, Option.some.injEq, List.cons.injEq]
    exact ⟨fun h => ⟨cs, h, rfl⟩, fun ⟨_, h, _⟩ => h⟩

theorem dropWhile_comments {comments rest : List String} {header : String}
    (hc : ∀ line ∈ comments, CommentLine line) (hh : ¬ CommentLine header) :
    (comments ++ header :: rest).dropWhile isComment = header :: rest := by
  rw [List.dropWhile_append_of_pos fun l hl => (isComment_iff l).mpr (hc l hl), List.dropWhile_cons_of_neg]
  rw [isComment_iff]
  exact hh

theorem mtxReadHeader_eq {scanner : Scanner K} {comments rest : List String} {header : String}
    (hc : ∀ line ∈ comments, CommentLine line) (hh : ¬ CommentLine header) :
    mtxReadHeader scanner (comments ++ header :: rest) =
      match scanner.header header with
      | .ok (some (numRows, numCols, nnz)) => .ok (⟨numRows, numCols, nnz⟩, rest)
      | .ok none => .error (.mtx .header)
      | .error e => .error e := by
  unfold mtxReadHeader
  rw [dropWhile_comments hc hh]
  rfl

/-- A line with an entry which is in range. -/
def GoodLine (scanner : Scanner K) (dims : MtxDimensions) (line : String) (e : MtxEntry K) : Prop :=
  scanner.entry line = .ok (some (e.row + 1, e.col + 1, e.value)) ∧ e.row < dims.numRows ∧ e.col < dims.numCols

theorem foreachLine_good {scanner : Scanner K} {dims : MtxDimensions} {func : S → MtxEntry K → Res S} {line : String}
    {e : MtxEntry K} (h : GoodLine scanner dims line e) (st : S × Nat) :
    mtxForeachLine scanner dims func st line = (func st.1 e >>= fun s => .ok (s, st.2 + 1)) := by
  obtain ⟨h1, h2, h3⟩ := h
  unfold mtxForeachLine
  rw [h1]
  simp only
  rw [mtxCheck_true (by simp), ok_bind, mtxCheck_true (by simp), ok_bind,
    mtxCheck_true (by rw [decide_eq_true_eq]; omega), ok_bind, mtxCheck_true (by rw [decide_eq_true_eq]; omega), ok_bind]
  rfl

theorem foreachLines_good {scanner : Scanner K} {dims : MtxDimensions} {func : S → MtxEntry K → Res S}
    {rest : List String} {entries : List (MtxEntry K)} (h : List.Forall₂ (GoodLine scanner dims) rest entries)
    (s : S) (n : Nat) :
    rest.foldlM (mtxForeachLine scanner dims func) (s, n) =
      (entries.foldlM func s >>= fun s => .ok (s, n + entries.length)) := by
  induction h generalizing s n with
  | nil => rfl
  | cons h _ ih =>
    rw [List.foldlM_cons, List.foldlM_cons, foreachLine_good h, bind_assoc, bind_assoc]
    congr 1
    funext s'
    rw [ok_bind, ih]
    congr 1
    funext s''
    simp [Nat.add_assoc, Nat.add_comm 1]

/-- An entry whose indices are not in range is reported. -/
theorem foreachLine_index {scanner : Scanner K} {dims : MtxDimensions} {func : S → MtxEntry K → Res S} {line : String}
    {r c : Nat} {v : K} {kind : MtxErr} (h : scanner.entry line = .ok (some (r, c, v))) (hk : IndexDefect dims r c kind)
    (st : S × Nat) : mtxForeachLine scanner dims func st line = .error (.mtx kind) := by
  unfold mtxForeachLine
  rw [h]
  simp only
  cases hk with
  | rowZero => rw [mtxCheck_false (by simp)]; rfl
  | colZero hr => rw [mtxCheck_true (by simpa using hr), ok_bind, mtxCheck_false (by simp)]; rfl
  | rowLarge hr hc =>
    rw [mtxCheck_true (by simp; omega), ok_bind, mtxCheck_true (by simpa using hc), ok_bind,
      mtxCheck_false (by simpa using hr)]
    rfl
  | colLarge hr hr' hc =>
    rw [mtxCheck_true (by simpa using hr), ok_bind, mtxCheck_true (by simp; omega), ok_bind,
      mtxCheck_true (by simpa using hr'), ok_bind, mtxCheck_false (by simpa using hc)]
    rfl

/-- Every line either has an entry which is in range, or is reported. -/
theorem line_cases (scanner : Scanner K) (dims : MtxDimensions) (line : String)
    (hd : ∃ o, scanner.entry line = .ok o) :
    (∃ e, GoodLine scanner dims line e) ∨
      (scanner.entry line = .ok none ∧ ∀ (S : Type) (func : S → MtxEntry K → Res S) st,
        mtxForeachLine scanner dims func st line = .error (.mtx .entryLine)) ∨
      ∃ r c v kind, scanner.entry line = .ok (some (r, c, v)) ∧ IndexDefect dims r c kind ∧
        ∀ (S : Type) (func : S → MtxEntry K → Res S) st,
          mtxForeachLine scanner dims func st line = .error (.mtx kind) := by
  obtain ⟨o, h⟩ := hd
  rw [h]
  cases o with
  | none =>
    right; left
    refine ⟨rfl, ?_⟩
    intro S func st
    unfold mtxForeachLine
    rw [h]
  | some x =>
    obtain ⟨r, c, v⟩ := x
    by_cases hg : r = 0 ∨ c = 0 ∨ dims.numRows < r ∨ dims.numCols < c
    · right; right
      have : ∃ kind, IndexDefect dims r c kind := by
        by_cases h1 : r = 0
        · subst h1; exact ⟨_, .rowZero c⟩
        by_cases h2 : c = 0
        · subst h2; exact ⟨_, .colZero (by omega)⟩
        by_cases h3 : dims.numRows < r
        · exact ⟨_, .rowLarge h3 (by omega)⟩
        · exact ⟨_, .colLarge (by omega) (by omega) (by omega)⟩
      obtain ⟨kind, hk⟩ := this
      exact ⟨r, c, v, kind, rfl, hk, fun S func st => foreachLine_index h hk st⟩
    · left
      refine ⟨⟨r - 1, c - 1, v⟩, ?_, ?_, ?_⟩
      · rw [h]; simp only [Except.ok.injEq, Option.some.injEq, Prod.mk.injEq, and_true]; omega
      · simp only; omega
      · simp only; omega

theorem forall₂_iff {scanner : Scanner K} {dims : MtxDimensions} {rest : List String} {entries : List (MtxEntry K)} :
    List.Forall₂ (GoodLine scanner dims) rest entries ↔
      rest.map scanner.entry = entries.map (fun e => .ok (some (e.row + 1, e.col + 1, e.value))) ∧
        ∀ e ∈ entries, e.row < dims.numRows ∧ e.col < dims.numCols := by
  constructor
  · intro h
    induction h with
    | nil => simp
    | cons h _ ih =>
      obtain ⟨h1, h2⟩ := h
      simp only [List.map_cons, h1, ih.1, true_and, List.mem_cons, forall_eq_or_imp]
      exact ⟨h2, ih.2⟩
  · rintro ⟨h1, h2⟩
    induction rest generalizing entries with
    | nil =>
      cases entries with
      | nil => exact .nil
      | cons e es => simp at h1
    | cons l rest ih =>
      cases entries with
      | nil => simp at h1
      | cons e es =>
        simp only [List.map_cons, List.cons.injEq] at h1
        exact .cons ⟨h1.1, h2 e (by simp)⟩ (ih h1.2 fun e' he' => h2 e' (by simp [he']))

/-- Either all lines have entries which are in range, or there is a first one which has not. -/
theorem lines_cases (scanner : Scanner K) (dims : MtxDimensions) (rest : List String) :
    (∃ entries, List.Forall₂ (GoodLine scanner dims) rest entries) ∨
      ∃ good bad more entries, rest = good ++ bad :: more ∧ List.Forall₂ (GoodLine scanner dims) good entries ∧
        ∀ e, ¬ GoodLine scanner dims bad e := by
  induction rest with
  | nil => exact Or.inl ⟨[], .nil⟩
  | cons l rest ih =>
    by_cases hl : ∃ e, GoodLine scanner dims l e
    · obtain ⟨e, he⟩ := hl
      rcases ih with ⟨es, h⟩ | ⟨good, bad, more, es, rfl, h2, h3⟩
      · exact Or.inl ⟨e :: es, .cons he h⟩
      · exact Or.inr ⟨l :: good, bad, more, e :: es, rfl, .cons he h2, h3⟩
    · exact Or.inr ⟨[], l, rest, [], rfl, .nil, fun e he => hl ⟨e, he⟩⟩

/-- Either there is a header line or all lines are comments. -/
theorem header_cases (lines : List String) :
    (∀ line ∈ lines, CommentLine line) ∨
      ∃ comments header rest, lines = comments ++ header :: rest ∧ (∀ line ∈ comments, CommentLine line) ∧
        ¬ CommentLine header := by
  induction lines with
  | nil => exact Or.inl (by simp)
  | cons l rest ih =>
    by_cases hl : CommentLine l
    · rcases ih with h | ⟨cs, h, r, rfl, h2, h3⟩
      · exact Or.inl (by simpa using ⟨hl, h⟩)
      · exact Or.inr ⟨l :: cs, h, r, rfl, by simpa using ⟨hl, h2⟩, h3⟩
    · exact Or.inr ⟨[], l, rest, rfl, by simp, hl⟩

theorem mtxReadHeader_comments {scanner : Scanner K} {lines : List String} (h : ∀ line ∈ lines, CommentLine line) :
    mtxReadHeader scanner lines = .error (.mtx .header) := by
  unfold mtxReadHeader
  have : lines.dropWhile isComment = [] := by
    induction lines with
    | nil => rfl
    | cons l rest ih =>
      rw [List.dropWhile_cons_of_pos ((isComment_iff l).mpr (h l (by simp)))]
      exact ih fun l' hl' => h l' (by simp [hl'])
  rw [this]

end Ctldl
