import Verif.Lemmas.MtxMessages
import Verif.Props.Scan
import Verif.Lemmas.ValidDecidable

/-! # C77: the messages of the reader of matrix files -/

namespace Ctldl

variable {K : Type}

/-- C77: reading lines throws exactly if something is wrong with them, with the message which names the first thing wrong. -/
theorem C77_lines [Zero K] (s : ArrowheadSparsity) (d : Dims) (hs : s.Valid d) (hd : 0 < d.tridiag)
    (scanner : Scanner K) (hsc : ∀ line kind, scanner.header line ≠ .error (.mtx kind) ∧ scanner.entry line ≠ .error (.mtx kind))
    (lines : List String) (message : String) :
    (∃ kind : MtxErr, mtxFileRead scanner s lines = .error (.mtx kind) ∧ kind.message = message) ↔
      FileDefect scanner s d lines message := by
  constructor
  · rintro ⟨kind, h, rfl⟩
    rcases header_cases lines with hall | ⟨comments, header, rest, rfl, hc, hh⟩
    · unfold mtxFileRead at h
      rw [mtxReadHeader_comments hall, error_bind] at h
      cases h
      exact .comments hall
    cases hx : scanner.header header with
    | error e =>
      unfold mtxFileRead at h
      rw [mtxReadHeader_eq hc hh, hx, error_bind] at h
      cases h
      exact absurd hx (hsc header kind).1
    | ok o =>
      cases o with
      | none =>
        unfold mtxFileRead at h
        rw [mtxReadHeader_eq hc hh, hx, error_bind] at h
        cases h
        exact .header hc hh hx
      | some x =>
        obtain ⟨rows, cols, nnz⟩ := x
        rw [mtxFileRead_sizes hc hh (dims := ⟨rows, cols, nnz⟩) hx] at h
        by_cases h1 : rows = cols
        · subst h1
          by_cases h2 : rows ≤ d.start + d.link + d.outer
          · rw [mtxNumRepetitions_small hs rfl h2, error_bind] at h
            cases h
            exact .small hc hh hx h2
          by_cases h3 : ∃ N, rows = d.total N
          · obtain ⟨N, rfl⟩ := h3
            obtain ⟨m0, hm0, hp0⟩ := mtxEmpty_sat (K := K) (N := N) hs
            rw [mtxNumRepetitions_total hs hd, ok_bind, hm0, ok_bind] at h
            cases hf : rest.foldlM (mtxForeachLine scanner ⟨d.total N, d.total N, nnz⟩ (mtxPlaceEntry s N)) (m0, 0) with
            | error e =>
              rw [hf, error_bind] at h
              cases h
              obtain ⟨good, bad, more, rfl, hg, hb⟩ := foreachLines_throws hs hd (fun l k => (hsc l k).2) rfl rfl hp0 hf
              exact .line hc hh hx hg hb
            | ok st =>
              obtain ⟨hg, hn⟩ := foreachLines_ok hs hd rfl rfl hp0 hf
              rw [hf, ok_bind] at h
              obtain ⟨m, n⟩ := st
              simp only at h hn
              rw [Nat.zero_add] at hn
              subst hn
              by_cases hb : rest.length = nnz
              · rw [mtxCheck_true (by simpa using hb), ok_bind] at h
                cases h
              · rw [mtxCheck_false (by simpa using hb), error_bind] at h
                cases h
                exact .count hc hh hx hg hb
          · rw [mtxNumRepetitions_multiple hs hd rfl (by simpa using h2) (fun N hN => h3 ⟨N, hN⟩), error_bind] at h
            cases h
            exact .multiple hc hh hx (by omega) fun N hN => h3 ⟨N, hN⟩
        · rw [mtxNumRepetitions_square s h1, error_bind] at h
          cases h
          exact .square hc hh hx h1
  · intro h
    cases h with
    | comments hall =>
      refine ⟨.header, ?_, rfl⟩
      unfold mtxFileRead
      rw [mtxReadHeader_comments hall, error_bind]
    | header hc hh hx =>
      refine ⟨.header, ?_, rfl⟩
      unfold mtxFileRead
      rw [mtxReadHeader_eq hc hh, hx, error_bind]
    | @square _ _ _ rows cols count hc hh hx hne =>
      refine ⟨.notSquare, ?_, rfl⟩
      rw [mtxFileRead_sizes hc hh (dims := ⟨rows, cols, count⟩) hx, mtxNumRepetitions_square s hne, error_bind]
    | @small _ _ _ size count hc hh hx hle =>
      refine ⟨.tooSmall, ?_, rfl⟩
      rw [mtxFileRead_sizes hc hh (dims := ⟨size, size, count⟩) hx, mtxNumRepetitions_small hs rfl hle, error_bind]
    | @multiple _ _ _ size count hc hh hx hlt hne =>
      refine ⟨.notMultiple, ?_, rfl⟩
      rw [mtxFileRead_sizes hc hh (dims := ⟨size, size, count⟩) hx, mtxNumRepetitions_multiple hs hd rfl hlt hne, error_bind]
    | @line _ _ _ _ _ _ N count hc hh hx hg hb =>
      obtain ⟨m0, hm0, hp0⟩ := mtxEmpty_sat (K := K) (N := N) hs
      obtain ⟨m1, done, h1, hp1⟩ := foreachLines_accepted (dims := ⟨d.total N, d.total N, count⟩) hs hd rfl rfl hg hp0 0
      obtain ⟨kind, hk, h2⟩ := foreachLine_defect (dims := ⟨d.total N, d.total N, count⟩) hs hd rfl rfl hb
      refine ⟨kind, ?_, hk⟩
      rw [mtxFileRead_sizes hc hh (dims := ⟨d.total N, d.total N, count⟩) hx, mtxNumRepetitions_total hs hd, ok_bind, hm0,
        ok_bind, List.foldlM_append, h1, ok_bind, List.foldlM_cons, h2 m1 done _ hp1]
      rfl
    | @count _ _ _ N count hc hh hx hg hne =>
      obtain ⟨m0, hm0, hp0⟩ := mtxEmpty_sat (K := K) (N := N) hs
      obtain ⟨m1, done, h1, hp1⟩ := foreachLines_accepted (dims := ⟨d.total N, d.total N, count⟩) hs hd rfl rfl hg hp0 0
      refine ⟨.entryCount, ?_, rfl⟩
      rw [mtxFileRead_sizes hc hh (dims := ⟨d.total N, d.total N, count⟩) hx, mtxNumRepetitions_total hs hd, ok_bind, hm0,
        ok_bind, h1, ok_bind]
      simp only
      rw [mtxCheck_false (by simpa using hne)]
      rfl

/-- C77: the same for all texts. -/
theorem C77_text [Zero K] (convert : FloatLiteral → K) (s : ArrowheadSparsity) (d : Dims) (hs : s.Valid d)
    (hd : 0 < d.tridiag) (text : List Char) (message : String) :
    (∃ kind : MtxErr, mtxTextRead convert s text = .error (.mtx kind) ∧ kind.message = message) ↔
      FileDefect (textScanner convert) s d ((getLines [] text).map String.ofList) message := by
  refine C77_lines s d hs hd (textScanner convert) (fun line kind => ⟨fun h => ?_, fun h => ?_⟩) _ message
  · exact absurd (C64_undefined line _ (Or.inl h)).1 (by simp)
  · cases he : scanEntry line with
    | error e =>
      have h' : (scanEntry line >>= fun o => .ok (o.map fun x : Nat × Nat × FloatLiteral => (x.1, x.2.1, convert x.2.2))) =
        .error (.mtx kind) := h
      rw [he, error_bind] at h'
      cases h'
      exact absurd (C64_undefined line _ (Or.inr he)).1 (by simp)
    | ok o =>
      have h' : (scanEntry line >>= fun o => .ok (o.map fun x : Nat × Nat × FloatLiteral => (x.1, x.2.1, convert x.2.2))) =
        .error (.mtx kind) := h
      rw [he, ok_bind] at h'
      cases h'

/-- C77: different reasons have different messages, so there is one thing wrong with a file at most. -/
theorem C77_differ (kind kind' : MtxErr) (h : kind.message = kind'.message) : kind = kind' := by
  revert h
  cases kind <;> cases kind' <;> decide

theorem C77_unique [Zero K] (s : ArrowheadSparsity) (d : Dims) (hs : s.Valid d) (hd : 0 < d.tridiag)
    (scanner : Scanner K) (hsc : ∀ line kind, scanner.header line ≠ .error (.mtx kind) ∧ scanner.entry line ≠ .error (.mtx kind))
    (lines : List String) (message message' : String) (h : FileDefect scanner s d lines message)
    (h' : FileDefect scanner s d lines message') : message = message' := by
  obtain ⟨kind, h1, rfl⟩ := (C77_lines s d hs hd scanner hsc lines message).mpr h
  obtain ⟨kind', h2, rfl⟩ := (C77_lines s d hs hd scanner hsc lines message').mpr h'
  rw [h1] at h2
  cases h2
  rfl

/-! ### An example -/

/-- Repeated blocks of size two and an outer block of size one, with diagonal entries only. -/
def messageExample : ArrowheadSparsity :=
  { start := ⟨⟨0, 0, []⟩, ⟨2, 0, []⟩, ⟨1, 0, []⟩, []⟩
    tridiag := ⟨⟨2, 2, [⟨0, 0⟩, ⟨1, 1⟩]⟩, ⟨2, 2, []⟩, [0, 1]⟩
    link := ⟨⟨0, 2, []⟩, ⟨0, 0, []⟩, ⟨1, 0, []⟩, []⟩
    outer := ⟨⟨1, 2, []⟩, ⟨1, 1, [⟨0, 0⟩]⟩, [0]⟩ }

/-- The message for a text; empty if no exception is thrown. -/
def messageOf (text : String) : String :=
  match mtxTextRead (fun x => x.toRat.getD 0) messageExample text.toList with
  | .error (.mtx kind) => kind.message
  | _ => ""

example : [ "% no sizes", "3 3", "3 4 1", "1 1 1", "4 4 1", "3 3 1\n1 x 2", "3 3 1\n0 0 2", "3 3 1\n4 0 2", "3 3 1\n4 4 2",
    "3 3 1\n1 4 2", "3 3 1\n1 2 2", "3 3 1\n2 1 2", "3 3 2\n1 1 2", "3 3 1\n1 1 2" ].map messageOf =
    [ "Error reading matrix dimensions", "Error reading matrix dimensions", "Matrix must be square",
      "Matrix dimension must be greater than sum of dimensions of non-repeating blocks.",
      "Dimension of repeating part of matrix must be multiple of expected repeating block dimension",
      "Error reading matrix entry", "Row index must be positive", "Column index must be positive", "Row index is out of range",
      "Column index is out of range", "Matrix entries must be in lower triangle", "Entry is not covered by compiled sparsity",
      "Number of nonzeros in header does not equal number of read entries", "" ] := by decide +kernel

example : FileDefect (textScanner fun x => x.toRat.getD 0) messageExample ⟨0, 2, 0, 1⟩
    ((getLines [] "3 3 1\n2 1 2".toList).map String.ofList) "Entry is not covered by compiled sparsity" :=
  (C77_text _ messageExample ⟨0, 2, 0, 1⟩ (by decide) (by decide) _ _).mp ⟨.notCovered, by
    have h : mtxTextRead (fun x => x.toRat.getD 0) messageExample "3 3 1\n2 1 2".toList =
        (.error (.mtx .notCovered) : Res (MtxArrowhead ℚ)) := by rfl
    exact h, rfl⟩

end Ctldl
