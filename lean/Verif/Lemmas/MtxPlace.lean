import Verif.Lemmas.Mtx

/-! # Matrix files: the block an entry is stored in -/

namespace Ctldl

open Finset

variable {K : Type}

/-- The stored blocks. -/
inductive Slot where
  | startDiag | startNext | startOuter
  | tridiagDiag (t : Nat) | tridiagSubdiag (t : Nat)
  | linkPrev | linkDiag | linkNext
  | outerSubdiag (t : Nat) | outerDiag
  deriving DecidableEq

namespace Slot

def row (N : Nat) : Slot → Blk
  | startDiag => .start
  | startNext => .tridiag 0
  | startOuter => .outer
  | tridiagDiag t => .tridiag t
  | tridiagSubdiag t => .tridiag (t + 1)
  | linkPrev => .link
  | linkDiag => .link
  | linkNext => .outer
  | outerSubdiag _ => .outer
  | outerDiag => .outer

def col (N : Nat) : Slot → Blk
  | startDiag => .start
  | startNext => .start
  | startOuter => .start
  | tridiagDiag t => .tridiag t
  | tridiagSubdiag t => .tridiag t
  | linkPrev => .tridiag N
  | linkDiag => .link
  | linkNext => .link
  | outerSubdiag t => .tridiag t
  | outerDiag => .outer

def Ok (N : Nat) : Slot → Prop
  | tridiagDiag t => t ≤ N
  | tridiagSubdiag t => t < N
  | outerSubdiag t => t ≤ N
  | _ => True

def pattern (s : ArrowheadSparsity) : Slot → Sparsity
  | startDiag => s.start.diag
  | startNext => s.start.next
  | startOuter => s.start.outer
  | tridiagDiag _ => s.tridiag.diag
  | tridiagSubdiag _ => s.tridiag.subdiag
  | linkPrev => s.link.prev
  | linkDiag => s.link.diag
  | linkNext => s.link.next
  | outerSubdiag _ => s.outer.subdiag
  | outerDiag => s.outer.diag

def get (m : MtxArrowhead K) : Slot → Option (MtxMatrix K)
  | startDiag => some m.startDiag
  | startNext => some m.startNext
  | startOuter => some m.startOuter
  | tridiagDiag t => m.tridiagDiag[t]?
  | tridiagSubdiag t => m.tridiagSubdiag[t]?
  | linkPrev => some m.linkPrev
  | linkDiag => some m.linkDiag
  | linkNext => some m.linkNext
  | outerSubdiag t => m.outerSubdiag[t]?
  | outerDiag => some m.outerDiag

def put (m : MtxArrowhead K) (q : MtxMatrix K) : Slot → MtxArrowhead K
  | startDiag => { m with startDiag := q }
  | startNext => { m with startNext := q }
  | startOuter => { m with startOuter := q }
  | tridiagDiag t => { m with tridiagDiag := m.tridiagDiag.set t q }
  | tridiagSubdiag t => { m with tridiagSubdiag := m.tridiagSubdiag.set t q }
  | linkPrev => { m with linkPrev := q }
  | linkDiag => { m with linkDiag := q }
  | linkNext => { m with linkNext := q }
  | outerSubdiag t => { m with outerSubdiag := m.outerSubdiag.set t q }
  | outerDiag => { m with outerDiag := q }

theorem get_put_self {m : MtxArrowhead K} {q q' : MtxMatrix K} {σ : Slot} (h : σ.get m = some q') :
    σ.get (σ.put m q) = some q := by
  cases σ <;> simp only [get, put] at h ⊢ <;>
    rw [List.getElem?_set_self (List.getElem?_eq_some_iff.mp h).1]

theorem get_put_ne {m : MtxArrowhead K} {q : MtxMatrix K} {σ τ : Slot} (h : σ ≠ τ) :
    τ.get (σ.put m q) = τ.get m := by
  cases σ <;> cases τ <;> simp only [get, put, ne_eq, reduceCtorEq, not_true_eq_false] at h ⊢ <;>
    rw [List.getElem?_set_ne (by simpa using h)]

end Slot

/-- The numbers of blocks. -/
structure MtxArrowhead.Counts (m : MtxArrowhead K) (N : Nat) : Prop where
  diag : m.tridiagDiag.length = N + 1
  subdiag : m.tridiagSubdiag.length = N
  outer : m.outerSubdiag.length = N + 1

theorem MtxArrowhead.Counts.put {m : MtxArrowhead K} {N : Nat} (h : m.Counts N) (σ : Slot) (q : MtxMatrix K) :
    (σ.put m q).Counts N := by
  obtain ⟨h1, h2, h3⟩ := h
  cases σ <;> constructor <;> simp only [Slot.put, List.length_set] <;> assumption

theorem Slot.pattern_dims {s : ArrowheadSparsity} {d : Dims} (hs : s.Valid d) (N : Nat) (σ : Slot) :
    (σ.pattern s).OfDims (d.of (σ.row N)) (d.of (σ.col N)) := by
  cases σ <;> simp only [Slot.pattern, Slot.row, Slot.col, Dims.of]
  exacts [hs.startDiag, hs.startNext, hs.startOuter, hs.tridiagDiag, hs.tridiagSubdiag, hs.linkPrev, hs.linkDiag,
    hs.linkNext, hs.outerSubdiag, hs.outerDiag]

section Dims

variable {d : Dims} {N : Nat}

theorem mem_blocks_tridiag {t : Nat} : Blk.tridiag t ∈ blocks N ↔ t ≤ N := by
  simp [blocks]; omega

theorem locate (hd : 0 < d.tridiag) {r : Nat} (hr : r < d.total N) : ∃ b i, d.Locates N r b i := by
  unfold Dims.total at hr
  by_cases h1 : r < d.start
  · exact ⟨.start, r, by simp [blocks], h1, by simp [Dims.before]⟩
  by_cases h2 : r < d.start + (N + 1) * d.tridiag
  · have h3 : (r - d.start) / d.tridiag < N + 1 := Nat.div_lt_of_lt_mul (by rw [Nat.mul_comm]; omega)
    refine ⟨.tridiag ((r - d.start) / d.tridiag), (r - d.start) % d.tridiag, mem_blocks_tridiag.mpr (by omega),
      Nat.mod_lt _ hd, ?_⟩
    have := Nat.div_add_mod (r - d.start) d.tridiag
    rw [Nat.mul_comm] at this
    simp only [Dims.before]
    omega
  by_cases h3 : r < d.start + (N + 1) * d.tridiag + d.link
  · exact ⟨.link, r - (d.start + (N + 1) * d.tridiag), by simp [blocks], by simp only [Dims.of]; omega,
      by simp only [Dims.before]; omega⟩
  · exact ⟨.outer, r - (d.start + (N + 1) * d.tridiag + d.link), by simp [blocks], by simp only [Dims.of]; omega,
      by simp only [Dims.before]; omega⟩

theorem tridiag_before_le {t : Nat} (ht : t ≤ N) :
    t * d.tridiag + d.tridiag ≤ (N + 1) * d.tridiag := by
  rw [← Nat.succ_mul]
  exact Nat.mul_le_mul_right _ (by omega)

theorem Dims.Locates.unique {r i j : Nat} {a b : Blk} (h : d.Locates N r a i) (h' : d.Locates N r b j) :
    a = b ∧ i = j := by
  obtain ⟨m1, l1, e1⟩ := h
  obtain ⟨m2, l2, e2⟩ := h'
  have key : ∀ t u, t < u → t * d.tridiag + d.tridiag ≤ u * d.tridiag := by
    intro t u htu
    rw [← Nat.succ_mul]
    exact Nat.mul_le_mul_right _ (by omega)
  cases a <;> cases b <;> simp only [Dims.before, Dims.of, reduceCtorEq, false_and, true_and, Blk.tridiag.injEq] at * <;>
    try omega
  · rename_i t
    have := tridiag_before_le (d := d) (mem_blocks_tridiag.mp m2)
    rename_i u
    rcases Nat.lt_trichotomy t u with h | h | h
    · have := key _ _ h; omega
    · subst h; omega
    · have := key _ _ h; omega
  all_goals
    first
      | (have := tridiag_before_le (d := d) (mem_blocks_tridiag.mp m2); omega)
      | (have := tridiag_before_le (d := d) (mem_blocks_tridiag.mp m1); omega)

theorem Dims.Locates.lt_total {r i : Nat} {b : Blk} (h : d.Locates N r b i) : r < d.total N := by
  obtain ⟨m1, l1, e1⟩ := h
  unfold Dims.total
  cases b <;> simp only [Dims.before, Dims.of] at *
  · omega
  · have := tridiag_before_le (d := d) (mem_blocks_tridiag.mp m1); omega
  · omega
  · omega

theorem Slot.row_mem {σ : Slot} (h : σ.Ok N) : σ.row N ∈ blocks N := by
  cases σ <;> simp only [Slot.row, Slot.Ok, mem_blocks_tridiag] at * <;> first | omega | simp [blocks]

theorem Slot.col_mem {σ : Slot} (h : σ.Ok N) : σ.col N ∈ blocks N := by
  cases σ <;> simp only [Slot.col, Slot.Ok, mem_blocks_tridiag] at * <;> first | omega | simp [blocks]

theorem Slot.eq_of {σ τ : Slot} (hr : σ.row N = τ.row N) (hc : σ.col N = τ.col N) : σ = τ := by
  cases σ <;> cases τ <;> simp_all [Slot.row, Slot.col]

/-- The declared blocks. -/
theorem lowerBlock_slot {s : ArrowheadSparsity} {a b : Blk} {p : Sparsity} :
    s.lowerBlock N a b = some p ↔ ∃ σ : Slot, σ.Ok N ∧ σ.row N = a ∧ σ.col N = b ∧ a ≠ b ∧ σ.pattern s = p := by
  constructor
  · intro h
    unfold ArrowheadSparsity.lowerBlock at h
    split at h
    · cases h; exact ⟨.startNext, trivial, rfl, rfl, by simp, rfl⟩
    · split at h
      · rename_i t u hc
        cases h
        exact ⟨.tridiagSubdiag t, hc.2, rfl, by rw [hc.1]; rfl, by rw [hc.1]; simp, rfl⟩
      · cases h
    · split at h
      · rename_i t hc
        cases h
        exact ⟨.linkPrev, trivial, rfl, by rw [hc]; rfl, by simp, rfl⟩
      · cases h
    · cases h; exact ⟨.startOuter, trivial, rfl, rfl, by simp, rfl⟩
    · split at h
      · rename_i t hc
        cases h
        exact ⟨.outerSubdiag t, hc, rfl, rfl, by simp, rfl⟩
      · cases h
    · cases h; exact ⟨.linkNext, trivial, rfl, rfl, by simp, rfl⟩
    · cases h
  · rintro ⟨σ, hok, rfl, rfl, hne, rfl⟩
    cases σ <;> simp only [Slot.row, Slot.col, Slot.Ok, ne_eq, not_true_eq_false] at * <;>
      simp_all [ArrowheadSparsity.lowerBlock, Slot.pattern]

/-- The slot of a diagonal block. -/
def Blk.slot : Blk → Slot
  | .start => .startDiag
  | .tridiag t => .tridiagDiag t
  | .link => .linkDiag
  | .outer => .outerDiag

theorem Blk.slot_row (b : Blk) : b.slot.row N = b := by cases b <;> rfl
theorem Blk.slot_col (b : Blk) : b.slot.col N = b := by cases b <;> rfl
theorem Blk.slot_pattern (s : ArrowheadSparsity) (b : Blk) : b.slot.pattern s = s.diagBlock b := by cases b <;> rfl
theorem Blk.slot_ok {b : Blk} (h : b ∈ blocks N) : b.slot.Ok N := by
  cases b <;> simp only [Blk.slot, Slot.Ok]
  exact mem_blocks_tridiag.mp h

/-- Covered positions are those of declared entries of slots. -/
theorem covers_iff {s : ArrowheadSparsity} {r c : Nat} : s.Covers d N r c ↔
    c ≤ r ∧ ∃ (σ : Slot) (i j : Nat), σ.Ok N ∧ d.Locates N r (σ.row N) i ∧ d.Locates N c (σ.col N) j ∧
      (σ.pattern s).Has i j := by
  unfold ArrowheadSparsity.Covers
  refine and_congr_right fun _ => ?_
  constructor
  · rintro ⟨a, b, i, j, ha, hb, h⟩
    rcases h with ⟨rfl, h⟩ | ⟨p, hp, h⟩
    · exact ⟨a.slot, i, j, Blk.slot_ok ha.block, by rwa [Blk.slot_row], by rwa [Blk.slot_col],
        by rwa [Blk.slot_pattern]⟩
    · obtain ⟨σ, h1, rfl, rfl, -, rfl⟩ := lowerBlock_slot.mp hp
      exact ⟨σ, i, j, h1, ha, hb, h⟩
  · rintro ⟨σ, i, j, hok, ha, hb, h⟩
    refine ⟨_, _, i, j, ha, hb, ?_⟩
    by_cases he : σ.row N = σ.col N
    · left
      refine ⟨he, ?_⟩
      have : σ = (σ.row N).slot := Slot.eq_of (N := N) (by rw [Blk.slot_row]) (by rw [Blk.slot_col, he])
      rw [← Blk.slot_pattern, ← this]
      exact h
    · exact Or.inr ⟨_, lowerBlock_slot.mpr ⟨σ, hok, rfl, rfl, he, rfl⟩, h⟩

end Dims

end Ctldl
