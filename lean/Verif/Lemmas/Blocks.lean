import Verif.Lemmas.Sweep
import Verif.Spec.Permutation

/-! # Well-formed factor blocks, initial values, influenced entries: helper lemmas -/

namespace Ctldl

/-- A well-formed diagonal block of size `n`. -/
structure DiagOk {K : Type _} (f : DiagFactor K) (n : Nat) : Prop where
  good : f.sparsity.Good
  rows : f.sparsity.numRows = n
  cols : f.sparsity.numCols = n
  lower : ∀ i j, f.sparsity.Has i j → j < i
  perm : f.permutation.length = n
  lenL : f.L.length = f.sparsity.entries.length
  lenD : f.D.length = n

/-- A well-formed off-diagonal block. -/
structure SubOk {K : Type _} (f : SubFactor K) (r c : Nat) : Prop where
  good : f.sparsity.Good
  rows : f.sparsity.numRows = r
  cols : f.sparsity.numCols = c
  prow : f.permutationRow.length = r
  pcol : f.permutationCol.length = c
  lenL : f.L.length = f.sparsity.entries.length

/-- Entries of the factor (zero outside of the pattern). -/
abbrev DiagFactor.l {K : Type _} [Zero K] (f : DiagFactor K) (i j : Nat) : K := val f.sparsity f.L i j

/-- Pivots. -/
abbrev DiagFactor.d {K : Type _} [Zero K] (f : DiagFactor K) (i : Nat) : K := f.D.getD i 0

/-- Entries of the factor (zero outside of the pattern). -/
abbrev SubFactor.l {K : Type _} [Zero K] (f : SubFactor K) (i j : Nat) : K := val f.sparsity f.L i j

theorem DiagOk.withL {K : Type _} {f : DiagFactor K} {n : Nat} (h : DiagOk f n) {L : List K}
    (hl : L.length = f.sparsity.entries.length) : DiagOk { f with L := L } n :=
  ⟨h.good, h.rows, h.cols, h.lower, h.perm, hl, h.lenD⟩

theorem SubOk.withL {K : Type _} {f : SubFactor K} {r c : Nat} (h : SubOk f r c) {L : List K}
    (hl : L.length = f.sparsity.entries.length) : SubOk { f with L := L } r c :=
  ⟨h.good, h.rows, h.cols, h.prow, h.pcol, hl⟩

theorem DiagOk.withD {K : Type _} {f : DiagFactor K} {n : Nat} (h : DiagOk f n) {D : List K}
    (hl : D.length = n) : DiagOk { f with D := D } n :=
  ⟨h.good, h.rows, h.cols, h.lower, h.perm, h.lenL, hl⟩

/-- The initialization suits a block with the given pattern. -/
def InitOk {K : Type _} (init : Init K) (c : Csr) : Prop :=
  match init with
  | .none r k => r = c.numRows ∧ k = c.numCols
  | .matrix m => m.Sized

/-- Initial values of a block: the stored ones or those of the matrix at the original places. -/
def initVal {K : Type _} [Zero K] (init : Init K) (orig : Nat → Nat → Entry) (v : Nat → Nat → K) (i j : Nat) : K :=
  match init with
  | .none _ _ => v i j
  | .matrix m => m.elem (orig i j).row (orig i j).col

/-- Original place of an entry of a diagonal block. -/
def origDiag (p : List Nat) (i j : Nat) : Entry := ⟨max (permAt p i) (permAt p j), min (permAt p i) (permAt p j)⟩

/-- Original place of an entry of an off-diagonal block. -/
def origSub (pr pc : List Nat) (i j : Nat) : Entry := ⟨permAt pr i, permAt pc j⟩

theorem rd_permAt {p : List Nat} {i : Nat} (h : i < p.length) : rd p i = .ok (permAt p i) := by
  rw [rd_ok h, permAt, List.getD_eq_getElem?_getD, List.getElem?_eq_getElem h]
  rfl

theorem rd_getD {K : Type _} [Zero K] {p : List K} {i : Nat} (h : i < p.length) : rd p i = .ok (p.getD i 0) := by
  rw [rd_ok h, List.getD_eq_getElem?_getD, List.getElem?_eq_getElem h]
  rfl

theorem getD_set {K : Type _} [Zero K] {p : List K} {i : Nat} (h : i < p.length) (v : K) (a : Nat) :
    (p.set i v).getD a 0 = if a = i then v else p.getD a 0 := by
  rw [List.getD_eq_getElem?_getD, List.getElem?_set, List.getD_eq_getElem?_getD]
  by_cases ha : a = i
  · subst ha
    simp [h]
  · rw [if_neg (fun h => ha h.symm), if_neg ha]

theorem DiagOk.origEntry {K : Type _} {f : DiagFactor K} {n : Nat} (h : DiagOk f n) {i j : Nat}
    (hi : i < n) (hj : j < n) : f.origEntry ⟨i, j⟩ = .ok (origDiag f.permutation i j) := by
  unfold DiagFactor.origEntry permutedEntryLowerTriangle
  rw [rd_permAt (by rw [h.perm]; exact hi), ok_bind, rd_permAt (by rw [h.perm]; exact hj), ok_bind]
  rfl

theorem SubOk.origEntry {K : Type _} {f : SubFactor K} {r c : Nat} (h : SubOk f r c) {i j : Nat}
    (hi : i < r) (hj : j < c) : f.origEntry ⟨i, j⟩ = .ok (origSub f.permutationRow f.permutationCol i j) := by
  unfold SubFactor.origEntry permutedEntry
  rw [rd_permAt (by rw [h.prow]; exact hi), ok_bind, rd_permAt (by rw [h.pcol]; exact hj), ok_bind]
  rfl

section

variable {K : Type _} [Zero K]

theorem getInitialFactorValueL_eq {init : Init K} {c : Csr} (hi : InitOk init c) {oe : Entry → Res Entry}
    {orig : Nat → Nat → Entry} {L : List K} (hl : L.length = c.entries.length) {i j : Nat} (h : c.Has i j)
    (ho : oe ⟨i, j⟩ = .ok (orig i j)) :
    getInitialFactorValueL (c.idx i j) init c oe L = .ok (initVal init orig (val c L) i j) := by
  unfold getInitialFactorValueL initVal
  cases init with
  | none r k =>
    simp only
    rw [if_pos (show _ ∧ _ from hi), rd_val hl h]
  | matrix m =>
    simp only
    rw [h.rd, ok_bind, ho, ok_bind, getMatrixValueAt_eq hi]

theorem getInitialFactorValueD_eq {init : Init K} {f : DiagFactor K} {n : Nat} (h : DiagOk f n)
    (hi : InitOk init f.sparsity) {i : Nat} (hin : i < n) :
    getInitialFactorValueD i init f =
      .ok (initVal init (origDiag f.permutation) (fun i _ => f.d i) i i) := by
  unfold getInitialFactorValueD initVal
  cases init with
  | none r k =>
    simp only
    rw [if_pos (show _ ∧ _ from hi), rd_getD (by rw [h.lenD]; exact hin)]
  | matrix m =>
    simp only [DiagFactor.origRowIndex]
    rw [rd_permAt (by rw [h.perm]; exact hin), ok_bind, getMatrixValueAt_eq hi]
    simp [origDiag]

/-- Initialization of one row. -/
theorem initializeFactorRow_sat {init : Init K} {c : Csr} (hc : c.Good) (hi : InitOk init c)
    {oe : Entry → Res Entry} {orig : Nat → Nat → Entry} {L : List K} (hl : L.length = c.entries.length) {i : Nat}
    (hin : i < c.numRows) (ho : ∀ j, c.Has i j → oe ⟨i, j⟩ = .ok (orig i j)) :
    Sat (initializeFactorRow i init c oe L) (fun L' => L'.length = c.entries.length ∧
      ∀ a b, val c L' a b = if a = i ∧ c.Has i b then initVal init orig (val c L) i b else val c L a b) := by
  unfold initializeFactorRow
  cases init with
  | none r k =>
    simp only
    rw [if_pos (show _ ∧ _ from hi)]
    refine Sat.ok ⟨hl, fun a b => ?_⟩
    unfold initVal
    by_cases h : a = i ∧ c.Has i b
    · rw [if_pos h, h.1]
    · rw [if_neg h]
  | matrix m =>
    simp only
    unfold fillRowWithOriginalMatrixValues
    rw [hc.rowLoop hin]
    refine Sat.mono (foldlM_inv (fun pre L' => L'.length = c.entries.length ∧
      ∀ a b, val c L' a b = if a = i ∧ b ∈ pre then initVal (.matrix m) orig (val c L) i b else val c L a b)
      ⟨hl, fun a b => by simp⟩ ?_) ?_
    · rintro pre j suf L' hcols ⟨h1, h2⟩
      have hj : c.Has i j := Csr.mem_cols.mp (by rw [hcols]; simp)
      rw [hj.rd, ok_bind, ho j hj, ok_bind, getMatrixValueAt_eq hi, ok_bind, wr_val h1 hj]
      refine Sat.ok ⟨by simpa using h1, fun a b => ?_⟩
      rw [val_set hc h1 hj, h2]
      simp only [List.mem_append, List.mem_singleton]
      by_cases hab : a = i ∧ b = j
      · rw [if_pos hab, if_pos ⟨hab.1, Or.inr hab.2⟩]
        obtain ⟨rfl, rfl⟩ := hab
        rfl
      · rw [if_neg hab]
        by_cases hp : a = i ∧ b ∈ pre
        · rw [if_pos hp, if_pos ⟨hp.1, Or.inl hp.2⟩]
        · rw [if_neg hp, if_neg]
          rintro ⟨rfl, hb | rfl⟩
          · exact hp ⟨rfl, hb⟩
          · exact hab ⟨rfl, rfl⟩
    · rintro L' ⟨h1, h2⟩
      refine ⟨h1, fun a b => ?_⟩
      rw [h2]
      simp only [Csr.mem_cols]

/-- Updates of influenced entries, different arrays. -/
theorem applyInfluenced_sat [Sub K] [Mul K] {cs ct : Csr} (ht : ct.Good) {S T : List K}
    (hS : S.length = cs.entries.length) (hT : T.length = ct.entries.length) {i j lim : Nat}
    (hfill : ∀ k < lim, cs.Has k j → ct.Has i k) (w : K) :
    Sat (applyInfluenced S T (influencedOf i j cs ct lim) w) (fun T' => T'.length = ct.entries.length ∧
      ∀ a b, val ct T' a b = if a = i ∧ b < lim ∧ cs.Has b j then val ct T a b - val cs S b j * w
        else val ct T a b) := by
  unfold applyInfluenced influencedOf
  rw [List.foldlM_map]
  have hnd : ((List.range lim).filter (fun k => cs.toSparsity.Has k j)).Nodup := List.nodup_range.filter _
  refine Sat.mono (foldlM_inv (fun pre T' => T'.length = ct.entries.length ∧
    ∀ a b, val ct T' a b = if a = i ∧ b ∈ pre then val ct T a b - val cs S b j * w else val ct T a b)
    ⟨hT, fun a b => by simp⟩ ?_) ?_
  · rintro pre k suf T' hl ⟨h1, h2⟩
    have hk : k ∈ (List.range lim).filter (fun k => cs.toSparsity.Has k j) := by rw [hl]; simp
    rw [List.mem_filter, List.mem_range] at hk
    have hks : cs.Has k j := by simpa using hk.2
    have hkt := hfill k hk.1 hks
    have hkp : k ∉ pre := by
      intro hp
      rw [hl, List.nodup_append] at hnd
      exact hnd.2.2 k hp k (by simp) rfl
    simp only
    rw [show ct.entries.idxOf (⟨i, k⟩ : Entry) = ct.idx i k from rfl,
      show cs.entries.idxOf (⟨k, j⟩ : Entry) = cs.idx k j from rfl, rd_val h1 hkt, ok_bind, rd_val hS hks, ok_bind,
      wr_val h1 hkt]
    refine Sat.ok ⟨by simpa using h1, fun a b => ?_⟩
    rw [val_set ht h1 hkt, h2 i k, h2 a b]
    simp only [List.mem_append, List.mem_singleton, hkp, and_false, if_false]
    by_cases hab : a = i ∧ b = k
    · rw [if_pos hab, if_pos ⟨hab.1, Or.inr hab.2⟩, hab.1, hab.2]
    · rw [if_neg hab]
      by_cases hp : a = i ∧ b ∈ pre
      · rw [if_pos hp, if_pos ⟨hp.1, Or.inl hp.2⟩]
      · rw [if_neg hp, if_neg]
        rintro ⟨rfl, hb | rfl⟩
        · exact hp ⟨rfl, hb⟩
        · exact hab ⟨rfl, rfl⟩
  · rintro T' ⟨h1, h2⟩
    refine ⟨h1, fun a b => ?_⟩
    rw [h2]
    simp

/-- Updates of influenced entries, same array. -/
theorem applyInfluencedSelf_sat [Sub K] [Mul K] {c : Csr} (hc : c.Good) {L : List K}
    (hL : L.length = c.entries.length) {i j lim : Nat} (hlim : lim ≤ i)
    (hfill : ∀ k < lim, c.Has k j → c.Has i k) (w : K) :
    Sat (applyInfluencedSelf L (influencedOf i j c c lim) w) (fun L' => L'.length = c.entries.length ∧
      ∀ a b, val c L' a b = if a = i ∧ b < lim ∧ c.Has b j then val c L a b - val c L b j * w
        else val c L a b) := by
  unfold applyInfluencedSelf influencedOf
  rw [List.foldlM_map]
  have hnd : ((List.range lim).filter (fun k => c.toSparsity.Has k j)).Nodup := List.nodup_range.filter _
  refine Sat.mono (foldlM_inv (fun pre L' => L'.length = c.entries.length ∧
    ∀ a b, val c L' a b = if a = i ∧ b ∈ pre then val c L a b - val c L b j * w else val c L a b)
    ⟨hL, fun a b => by simp⟩ ?_) ?_
  · rintro pre k suf L' hl ⟨h1, h2⟩
    have hk : k ∈ (List.range lim).filter (fun k => c.toSparsity.Has k j) := by rw [hl]; simp
    rw [List.mem_filter, List.mem_range] at hk
    have hks : c.Has k j := by simpa using hk.2
    have hkt := hfill k hk.1 hks
    have hki : k ≠ i := by omega
    have hkp : k ∉ pre := by
      intro hp
      rw [hl, List.nodup_append] at hnd
      exact hnd.2.2 k hp k (by simp) rfl
    simp only
    rw [show c.entries.idxOf (⟨i, k⟩ : Entry) = c.idx i k from rfl,
      show c.entries.idxOf (⟨k, j⟩ : Entry) = c.idx k j from rfl, rd_val h1 hkt, ok_bind, rd_val h1 hks, ok_bind,
      wr_val h1 hkt]
    refine Sat.ok ⟨by simpa using h1, fun a b => ?_⟩
    rw [val_set hc h1 hkt, h2 i k, h2 k j, h2 a b]
    simp only [List.mem_append, List.mem_singleton, hkp, hki, and_false, false_and, if_false]
    by_cases hab : a = i ∧ b = k
    · rw [if_pos hab, if_pos ⟨hab.1, Or.inr hab.2⟩, hab.1, hab.2]
    · rw [if_neg hab]
      by_cases hp : a = i ∧ b ∈ pre
      · rw [if_pos hp, if_pos ⟨hp.1, Or.inl hp.2⟩]
      · rw [if_neg hp, if_neg]
        rintro ⟨rfl, hb | rfl⟩
        · exact hp ⟨rfl, hb⟩
        · exact hab ⟨rfl, rfl⟩
  · rintro L' ⟨h1, h2⟩
    refine ⟨h1, fun a b => ?_⟩
    rw [h2]
    simp

end

end Ctldl
