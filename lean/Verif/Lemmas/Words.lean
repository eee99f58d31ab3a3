import Verif.Lemmas.MtxMessages
import Verif.Model.Words

/-! # The reader of matrix files with words of 64 bits -/

namespace Ctldl

theorem wadd_eq {a b : Nat} (h : a + b < 2 ^ 64) : wadd a b = a + b := Nat.mod_eq_of_lt h

theorem wsub_eq {a b : Nat} (hb : b ≤ a) (ha : a < 2 ^ 64) : wsub a b = a - b := by
  unfold wsub
  rw [show a + (2 ^ 64 - b) = (a - b) + 2 ^ 64 by omega, Nat.add_mod_right]
  exact Nat.mod_eq_of_lt (by omega)

theorem wmul_eq {a b : Nat} (h : a * b < 2 ^ 64) : wmul a b = a * b := Nat.mod_eq_of_lt h

variable {K : Type} {s : ArrowheadSparsity} {d : Dims} {N : Nat}

theorem mtxNumRepetitionsWords_eq (hs : s.Valid d) (hsum : d.start + d.link + d.outer < 2 ^ 64) {header : MtxDimensions}
    (hrows : header.numRows < 2 ^ 64) : mtxNumRepetitionsWords s header = mtxNumRepetitions s header := by
  unfold mtxNumRepetitionsWords mtxNumRepetitions
  rw [valid_dimStart hs, ok_bind, ok_bind, valid_dimLink hs, ok_bind, ok_bind, valid_dimOuter hs, ok_bind, ok_bind,
    valid_dimTridiag hs]
  rw [wadd_eq (a := d.start) (by omega), wadd_eq hsum]
  by_cases h1 : header.numRows = header.numCols
  swap
  · rw [mtxCheck_false (by simpa using h1)]; rfl
  rw [mtxCheck_true (by simpa using h1), ok_bind, ok_bind]
  simp only
  by_cases h2 : header.numRows > d.start + d.link + d.outer
  swap
  · rw [mtxCheck_false (by simpa using h2)]; rfl
  rw [mtxCheck_true (by simpa using h2), ok_bind, ok_bind, wsub_eq h2.le hrows, ok_bind, ok_bind]
  by_cases h3 : d.tridiag = 0
  · rw [umod, if_pos h3]; rfl
  rw [umod, if_neg h3, ok_bind, ok_bind, udiv, if_neg h3]
  by_cases h4 : (header.numRows - (d.start + d.link + d.outer)) % d.tridiag = 0
  swap
  · rw [mtxCheck_false (by simpa using h4)]; rfl
  rw [mtxCheck_true (by simpa using h4), ok_bind, ok_bind, ok_bind, ok_bind]
  have h5 : 1 ≤ (header.numRows - (d.start + d.link + d.outer)) / d.tridiag := by
    rw [Nat.one_le_div_iff (by omega)]
    exact Nat.le_of_dvd (by omega) (Nat.dvd_of_mod_eq_zero h4)
  rw [usub_ok h5, wsub_eq h5 (lt_of_le_of_lt (Nat.div_le_self _ _) (by omega))]
  rfl

theorem mtxEmptyWords_eq [Zero K] (h : N + 1 < 2 ^ 64) : mtxEmptyWords (K := K) s N = mtxEmpty s N := by
  unfold mtxEmptyWords mtxEmpty
  rw [wadd_eq h]

theorem mtxAddEntryStartWords_eq (t : SparsityStart) {e : MtxEntry K} (h : e.row < 2 ^ 64) (m : MtxArrowhead K) :
    mtxAddEntryStartWords t e m = mtxAddEntryStart t e m := by
  unfold mtxAddEntryStartWords mtxAddEntryStart
  cases hd : t.dim with
  | error x => rfl
  | ok dim =>
    rw [ok_bind, ok_bind]
    by_cases hr : e.row < dim
    · rw [if_pos hr, if_pos hr]
    · rw [if_neg hr, if_neg hr, wsub_eq (by omega) h]

theorem mtxAddEntryLinkWords_eq (t : SparsityLink) {e : MtxEntry K} (hr : e.row < 2 ^ 64) (hc : e.col < 2 ^ 64)
    (m : MtxArrowhead K) : mtxAddEntryLinkWords t e m = mtxAddEntryLink t e m := by
  unfold mtxAddEntryLinkWords mtxAddEntryLink
  simp only
  by_cases h : e.col < t.prev.numCols
  · rw [if_pos h, if_pos h]
  rw [if_neg h, if_neg h, usub_ok (by omega), wsub_eq (by omega) hc]
  cases hd : t.dim with
  | error x => rfl
  | ok dim =>
    simp only [ok_bind]
    by_cases h' : e.row ≥ dim
    · rw [if_pos h', if_pos h', wsub_eq h' hr]
    · rw [if_neg h', if_neg h']

theorem mtxPlaceEntryWords_eq (hs : s.Valid d) (htotal : d.total N < 2 ^ 64) (m : MtxArrowhead K) {e : MtxEntry K}
    (hr : e.row < 2 ^ 64) (hc : e.col < 2 ^ 64) : mtxPlaceEntryWords s N m e = mtxPlaceEntry s N m e := by
  unfold Dims.total at htotal
  have hN : (N + 1) * d.tridiag = N * d.tridiag + d.tridiag := Nat.succ_mul _ _
  unfold mtxPlaceEntryWords mtxPlaceEntry
  rw [valid_dimStart hs, ok_bind, ok_bind, valid_dimTridiag hs, ok_bind, ok_bind, valid_dimLink hs, ok_bind, ok_bind]
  have hmul : wmul (wadd N 1) d.tridiag = (N + 1) * d.tridiag := by
    rcases Nat.eq_zero_or_pos d.tridiag with h0 | h0
    · rw [h0]; simp [wmul]
    · have : N + 1 ≤ (N + 1) * d.tridiag := Nat.le_mul_of_pos_right _ h0
      rw [wadd_eq (by omega), wmul_eq (by omega)]
  simp only [hmul]
  rw [wadd_eq (a := d.start) (by omega), wadd_eq (by omega)]
  by_cases h1 : e.row ≥ e.col
  swap
  · rw [mtxCheck_false (by simpa using h1)]; rfl
  rw [mtxCheck_true (by simpa using h1), ok_bind, ok_bind]
  by_cases h2 : e.col < d.start
  · rw [if_pos h2, if_pos h2]
    by_cases h3 : e.row < d.start + (N + 1) * d.tridiag + d.link
    · rw [if_pos h3, if_pos h3, mtxAddEntryStartWords_eq _ hr]
    · rw [if_neg h3, if_neg h3, wsub_eq (by omega) hr]
  rw [if_neg h2, if_neg h2]
  by_cases h3 : e.row < d.start + (N + 1) * d.tridiag
  · rw [if_pos h3, if_pos h3, usub_ok (by omega), ok_bind, usub_ok (by omega), ok_bind, wsub_eq (by omega) hr,
      wsub_eq (by omega) hc]
  rw [if_neg h3, if_neg h3]
  by_cases h4 : e.row ≥ d.start + (N + 1) * d.tridiag + d.link ∧ e.col ≥ d.start + (N + 1) * d.tridiag + d.link
  · rw [if_pos h4, if_pos h4, wsub_eq h4.1 hr, wsub_eq h4.2 hc]
  rw [if_neg h4, if_neg h4]
  by_cases h5 : e.row ≥ d.start + (N + 1) * d.tridiag + d.link ∧ e.col < d.start + (N + 1) * d.tridiag
  · rw [if_pos h5, if_pos h5, usub_ok (by omega), ok_bind, wsub_eq h5.1 hr, wsub_eq (by omega) hc]
  rw [if_neg h5, if_neg h5, usub_ok (by omega), ok_bind, wsub_eq (b := d.tridiag) (by omega) (by omega)]
  by_cases h6 : e.col ≥ d.start + (N + 1) * d.tridiag - d.tridiag
  · rw [mtxCheck_true (by simpa using h6), ok_bind, ok_bind, usub_ok (by omega), ok_bind, wsub_eq (by omega) hr,
      wsub_eq h6 hc]
    refine mtxAddEntryLinkWords_eq _ ?_ ?_ m <;> simp only <;> omega
  · rw [mtxCheck_false (by simpa using h6)]; rfl

theorem mtxForeachLineWords_eq (hs : s.Valid d) (htotal : d.total N < 2 ^ 64) (scanner : Scanner K) {line : String}
    (hw : ∀ r c v, scanner.entry line = .ok (some (r, c, v)) → r < 2 ^ 64 ∧ c < 2 ^ 64) (dims : MtxDimensions)
    (m : MtxArrowhead K) {n : Nat} (hn : n + 1 < 2 ^ 64) :
    mtxForeachLineWords scanner dims (mtxPlaceEntryWords s N) (m, n) line =
      mtxForeachLine scanner dims (mtxPlaceEntry s N) (m, n) line := by
  unfold mtxForeachLineWords mtxForeachLine
  rcases hx : scanner.entry line with e | (_ | ⟨r, c, v⟩)
  · rfl
  · rfl
  · obtain ⟨hr, hc⟩ := hw r c v hx
    simp only
    by_cases h1 : r > 0
    swap
    · rw [mtxCheck_false (by simpa using h1), error_bind, error_bind]
    rw [mtxCheck_true (by simpa using h1), ok_bind, ok_bind]
    by_cases h2 : c > 0
    swap
    · rw [mtxCheck_false (by simpa using h2), error_bind, error_bind]
    rw [mtxCheck_true (by simpa using h2), ok_bind, ok_bind, wsub_eq h1 hr, wsub_eq h2 hc, wadd_eq hn]
    rw [mtxPlaceEntryWords_eq hs htotal m (by simp only; omega) (by simp only; omega)]

theorem foreachLine_counts {σ : Type} {scanner : Scanner K} {dims : MtxDimensions} {func : σ → MtxEntry K → Res σ}
    {st st' : σ × Nat} {line : String} (h : mtxForeachLine scanner dims func st line = .ok st') : st'.2 = st.2 + 1 := by
  unfold mtxForeachLine at h
  rcases hx : scanner.entry line with e | (_ | ⟨r, c, v⟩) <;> rw [hx] at h
  · cases h
  · cases h
  · simp only [bind_eq_ok] at h
    obtain ⟨_, -, _, -, _, -, _, -, x, -, h⟩ := h
    cases h
    rfl

theorem foreachLinesWords_eq (hs : s.Valid d) (htotal : d.total N < 2 ^ 64) (scanner : Scanner K) (dims : MtxDimensions)
    (lines : List String)
    (hw : ∀ line ∈ lines, ∀ r c v, scanner.entry line = .ok (some (r, c, v)) → r < 2 ^ 64 ∧ c < 2 ^ 64)
    (m : MtxArrowhead K) (n : Nat) (hn : n + lines.length < 2 ^ 64) :
    lines.foldlM (mtxForeachLineWords scanner dims (mtxPlaceEntryWords s N)) (m, n) =
      lines.foldlM (mtxForeachLine scanner dims (mtxPlaceEntry s N)) (m, n) := by
  induction lines generalizing m n with
  | nil => rw [List.foldlM_nil, List.foldlM_nil]
  | cons line lines ih =>
    rw [List.length_cons] at hn
    rw [List.foldlM_cons, List.foldlM_cons,
      mtxForeachLineWords_eq hs htotal scanner (hw line List.mem_cons_self) dims m (by omega)]
    cases h : mtxForeachLine scanner dims (mtxPlaceEntry s N) (m, n) line with
    | error e => rw [error_bind, error_bind]
    | ok st =>
      obtain ⟨m', n'⟩ := st
      have hn' : n' = n + 1 := foreachLine_counts h
      rw [ok_bind, ok_bind, hn']
      exact ih (fun l hl => hw l (List.mem_cons_of_mem _ hl)) m' (n + 1) (by omega)

end Ctldl
