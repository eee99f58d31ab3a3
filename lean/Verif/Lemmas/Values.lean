import Verif.Lemmas.Lookup
import Verif.Model.Factorize

/-! # Values of sparse blocks: helper lemmas -/

namespace Ctldl

/-- A compressed pattern in strictly increasing row-major order. -/
structure Csr.Good (c : Csr) : Prop where
  ok : c.Ok
  sorted : c.toSparsity.Sorted

/-- Position of an entry of the pattern. -/
def Csr.idx (c : Csr) (i j : Nat) : Nat := c.entries.idxOf ⟨i, j⟩

/-- Columns of row `i`. -/
def Csr.cols (c : Csr) (i : Nat) : List Nat := (rowOf c.entries i).map Entry.col

/-- `(i, j)` belongs to the pattern. -/
abbrev Csr.Has (c : Csr) (i j : Nat) : Prop := c.toSparsity.Has i j

/-- Value at `(i, j)`, zero outside of the pattern. -/
def val {K : Type _} [Zero K] (c : Csr) (L : List K) (i j : Nat) : K := (⟨c.toSparsity, L⟩ : MatIn K).elem i j

theorem Csr.mem_cols {c : Csr} {i j : Nat} : j ∈ c.cols i ↔ c.Has i j := by
  unfold Csr.cols
  rw [List.mem_map]
  exact Csr.Ok.exists_col_iff c i j

theorem Csr.Has.idx_lt {c : Csr} {i j : Nat} (h : c.Has i j) : c.idx i j < c.entries.length :=
  List.idxOf_lt_length_of_mem h

theorem Csr.Has.get {c : Csr} {i j : Nat} (h : c.Has i j) : c.entries[c.idx i j]? = some ⟨i, j⟩ := by
  rw [List.getElem?_eq_some_iff]
  exact ⟨h.idx_lt, List.getElem_idxOf _⟩

theorem Csr.Has.rd {c : Csr} {i j : Nat} (h : c.Has i j) : Ctldl.rd c.entries (c.idx i j) = .ok ⟨i, j⟩ :=
  rd_of_getElem? h.get

namespace Csr.Good

variable {c : Csr}

theorem nodup (h : c.Good) : c.entries.Nodup := by
  refine h.sorted.imp ?_
  rintro a b hab rfl
  unfold rowMajorLt at hab
  omega

theorem colsSorted (h : c.Good) : c.ColsSorted := colsSorted_of_sorted h.sorted

theorem row_lt (h : c.Good) {i j : Nat} (hh : c.Has i j) : i < c.numRows := (h.ok.inRange _ hh).1

theorem col_lt (h : c.Good) {i j : Nat} (hh : c.Has i j) : j < c.numCols := (h.ok.inRange _ hh).2

theorem cols_sorted (h : c.Good) (i : Nat) : (c.cols i).Pairwise (· < ·) := by
  unfold Csr.cols
  rw [List.pairwise_map]
  have := h.sorted.filter (fun e => e.row = i)
  refine List.Pairwise.imp_of_mem ?_ this
  intro a b ha hb hab
  have ha' := (mem_rowOf.mp ha).2
  have hb' := (mem_rowOf.mp hb).2
  unfold rowMajorLt at hab
  omega

theorem cols_nodup (h : c.Good) (i : Nat) : (c.cols i).Nodup :=
  (h.cols_sorted i).imp fun hab => by omega

theorem idx_of_get (h : c.Good) {e i j : Nat} (he : c.entries[e]? = some ⟨i, j⟩) : c.idx i j = e := by
  obtain ⟨h1, h2⟩ := List.getElem?_eq_some_iff.mp he
  unfold Csr.idx
  rw [← h2]
  exact h.nodup.idxOf_getElem e h1

theorem idx_inj (h : c.Good) {i j a b : Nat} (hij : c.Has i j) (hab : c.Has a b) (he : c.idx i j = c.idx a b) :
    i = a ∧ j = b := by
  have h1 := hij.get
  rw [he, hab.get] at h1
  simp only [Option.some.injEq, Entry.mk.injEq] at h1
  exact ⟨h1.1.symm, h1.2.symm⟩

/-- The positions of a row, by columns. -/
theorem range_row (h : c.Good) {i : Nat} (hi : i < c.numRows) :
    List.range' (rb c i) (rb c (i + 1) - rb c i) = (c.cols i).map (c.idx i) := by
  have hlen : rb c (i + 1) - rb c i = (rowOf c.entries i).length := by rw [Csr.Ok.rb_succ]; omega
  apply List.ext_getElem
  · simp [Csr.cols, hlen]
  · intro k h1 h2
    simp only [List.length_range'] at h1
    rw [List.getElem_range']
    simp only [Csr.cols, List.map_map, List.getElem_map, Function.comp_apply, Nat.one_mul]
    have hk : k < (rowOf c.entries i).length := by omega
    have hg := h.ok.get_in_row hi hk
    rw [List.getElem?_eq_getElem hk] at hg
    have hr : ((rowOf c.entries i)[k]).row = i := (mem_rowOf.mp (List.getElem_mem hk)).2
    symm
    apply h.idx_of_get
    rw [hg]
    congr 1
    cases hx : (rowOf c.entries i)[k]
    rw [hx] at hr
    simp only at hr
    simp [hr]

theorem entryRange_row (h : c.Good) {i : Nat} (hi : i < c.numRows) :
    entryRange (rb c i) (rb c (i + 1)) = .ok ((c.cols i).map (c.idx i)) := by
  unfold entryRange
  rw [usub_ok (Csr.Ok.rb_mono c (by omega)), ok_bind, h.range_row hi]
  rfl

/-- A loop over the positions of a row is a loop over its columns. -/
theorem rowLoop (h : c.Good) {σ : Type _} {i : Nat} (hi : i < c.numRows) (f : σ → Nat → Res σ) (s : σ) :
    (do
      let rowBegin ← Ctldl.rd c.rowBegin i
      let rowEnd ← Ctldl.rd c.rowBegin (i + 1)
      (← entryRange rowBegin rowEnd).foldlM f s) = (c.cols i).foldlM (fun s j => f s (c.idx i j)) s := by
  rw [h.ok.rd_rowBegin (by omega), ok_bind, h.ok.rd_rowBegin (by omega), ok_bind, h.entryRange_row hi, ok_bind,
    List.foldlM_map]

end Csr.Good

section

variable {K : Type _} [Zero K] {c : Csr} {L : List K}

theorem val_has {i j : Nat} (h : c.Has i j) : val c L i j = L.getD (c.idx i j) 0 := by
  unfold val MatIn.elem
  rw [if_pos h]
  rfl

theorem val_off {i j : Nat} (h : ¬ c.Has i j) : val c L i j = 0 := by
  unfold val MatIn.elem
  rw [if_neg h]

theorem rd_val (hl : L.length = c.entries.length) {i j : Nat} (h : c.Has i j) :
    rd L (c.idx i j) = .ok (val c L i j) := by
  rw [val_has h]
  have := h.idx_lt
  rw [rd_ok (by omega), List.getD_eq_getElem?_getD, List.getElem?_eq_getElem (by omega)]
  rfl

theorem wr_val (hl : L.length = c.entries.length) {i j : Nat} (h : c.Has i j) (v : K) :
    wr L (c.idx i j) v = .ok (L.set (c.idx i j) v) := wr_ok (by rw [hl]; exact h.idx_lt)

theorem val_set (hc : c.Good) (hl : L.length = c.entries.length) {i j : Nat} (h : c.Has i j) (v : K) (a b : Nat) :
    val c (L.set (c.idx i j) v) a b = if a = i ∧ b = j then v else val c L a b := by
  by_cases hab : c.Has a b
  · rw [val_has hab, val_has hab, List.getD_eq_getElem?_getD, List.getD_eq_getElem?_getD, List.getElem?_set]
    by_cases he : c.idx i j = c.idx a b
    · obtain ⟨rfl, rfl⟩ := hc.idx_inj h hab he
      rw [if_pos rfl, if_pos (by rw [hl]; exact h.idx_lt), if_pos ⟨rfl, rfl⟩]
      rfl
    · rw [if_neg he, if_neg]
      rintro ⟨rfl, rfl⟩
      exact he rfl
  · rw [val_off hab, val_off hab, if_neg]
    rintro ⟨rfl, rfl⟩
    exact hab h

/-- The list of values is determined by the values at the positions of the pattern. -/
theorem val_ext (hc : c.Good) {L L' : List K} (hl : L.length = c.entries.length)
    (hl' : L'.length = c.entries.length) (h : ∀ i j, c.Has i j → val c L i j = val c L' i j) : L = L' := by
  apply List.ext_getElem (by omega)
  intro e h1 h2
  have he : e < c.entries.length := by omega
  have hg : c.entries[e]? = some ⟨(c.entries[e]).row, (c.entries[e]).col⟩ := List.getElem?_eq_getElem he
  have hh : c.Has (c.entries[e]).row (c.entries[e]).col := List.getElem_mem he
  have := h _ _ hh
  rw [val_has hh, val_has hh, hc.idx_of_get hg, List.getD_eq_getElem?_getD, List.getD_eq_getElem?_getD,
    List.getElem?_eq_getElem h1, List.getElem?_eq_getElem h2] at this
  simpa using this

end

/-! ### Sequential subtraction -/

/-- Subtract the terms one after the other. -/
def subAll {K : Type _} {ι : Type} [Sub K] (l : List ι) (f : ι → K) (init : K) : K :=
  l.foldl (fun acc k => acc - f k) init

section

variable {K : Type _} {ι : Type} [Sub K]

theorem subAll_append (l l' : List ι) (f : ι → K) (init : K) :
    subAll (l ++ l') f init = subAll l' f (subAll l f init) := by
  simp [subAll]

theorem subAll_nil (f : ι → K) (init : K) : subAll [] f init = init := rfl

theorem subAll_single (k : ι) (f : ι → K) (init : K) : subAll [k] f init = init - f k := rfl

theorem subAll_congr {l : List ι} {f g : ι → K} (h : ∀ k ∈ l, f k = g k) (init : K) :
    subAll l f init = subAll l g init := by
  induction l generalizing init with
  | nil => rfl
  | cons k l ih =>
    show subAll l f (init - f k) = subAll l g (init - g k)
    rw [h k (by simp)]
    exact ih (fun k hk => h k (by simp [hk])) _

end

end Ctldl
