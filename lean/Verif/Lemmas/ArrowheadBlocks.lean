import Verif.Lemmas.ArrowheadFactorize
import Verif.Lemmas.ChainExact
import Verif.Lemmas.MultiplyArrowhead

/-! # Blocks of an arrowhead matrix and positions in the chain -/

namespace Ctldl

open Finset

theorem rank_le {N : Nat} {a : Blk} (h : a ∈ blocks N) : a.rank N ≤ N + 3 := by
  rw [mem_blocks] at h
  cases a with
  | tridiag t =>
    have := h t rfl
    simp only [Blk.rank]
    omega
  | start => simp [Blk.rank]
  | link => simp [Blk.rank]
  | outer => simp [Blk.rank]

theorem rank_inj {N : Nat} {a b : Blk} (ha : a ∈ blocks N) (hb : b ∈ blocks N) : a.rank N = b.rank N ↔ a = b := by
  rw [mem_blocks] at ha hb
  constructor
  · intro h
    cases a with
    | tridiag t =>
      have := ha t rfl
      cases b with
      | tridiag u => simp only [Blk.rank] at h; congr 1; omega
      | start => simp only [Blk.rank] at h; omega
      | link => simp only [Blk.rank] at h; omega
      | outer => simp only [Blk.rank] at h; omega
    | start => cases b <;> simp only [Blk.rank] at h <;> first | rfl | omega
    | link =>
      cases b with
      | tridiag u => have := hb u rfl; simp only [Blk.rank] at h; omega
      | start => simp only [Blk.rank] at h; omega
      | link => rfl
      | outer => simp only [Blk.rank] at h; omega
    | outer =>
      cases b with
      | tridiag u => have := hb u rfl; simp only [Blk.rank] at h; omega
      | start => simp only [Blk.rank] at h; omega
      | link => simp only [Blk.rank] at h; omega
      | outer => rfl
  · rintro rfl
    rfl

theorem sum_rank {K : Type} [AddCommMonoid K] (N : Nat) (F : Nat → K) :
    ∑ b ∈ blocks N, F (b.rank N) = ∑ p ∈ range (N + 4), F p := by
  rw [sum_blocks]
  have : ∑ p ∈ range (N + 4), F p = ∑ t ∈ range (N + 1), F (t + 1) + F 0 + F (N + 2) + F (N + 3) := by
    rw [sum_range_succ, sum_range_succ, sum_range_succ']
  rw [this, add_comm (F (Blk.rank N .start))]
  rfl

/-- The block coupling two positions of a chain. -/
def lowPos {β : Type _} (M : Nat) (S O : Nat → β) (p q : Nat) : Option β :=
  if p = M + 1 ∧ q ≤ M then some (O q) else if p = q + 1 ∧ p ≤ M then some (S q) else none

/-- The common form of the blocks below the diagonal. -/
def genLower {β : Type _} (N : Nat) (sn : β) (ts : Nat → Option β) (lp so : β) (os : Nat → Option β) (ln : β)
    (a b : Blk) : Option β :=
  match a, b with
  | .tridiag 0, .start => some sn
  | .tridiag (t + 1), .tridiag u => if u = t ∧ t < N then ts t else none
  | .link, .tridiag t => if t = N then some lp else none
  | .outer, .start => some so
  | .outer, .tridiag t => if t ≤ N then os t else none
  | .outer, .link => some ln
  | _, _ => none

theorem genLower_eq {β : Type _} {N : Nat} {sn : β} {ts : Nat → Option β} {lp so : β} {os : Nat → Option β} {ln : β}
    {S O : Nat → β} (hS : ∀ t < N, ts t = some (S t)) (hO : ∀ t < N + 1, os t = some (O t)) {a b : Blk}
    (ha : a ∈ blocks N) (hb : b ∈ blocks N) :
    genLower N sn ts lp so os ln a b =
      lowPos (N + 2) (sel N sn S lp) (sel (N + 1) so O ln) (a.rank N) (b.rank N) := by
  rw [mem_blocks] at ha hb
  unfold lowPos
  cases a with
  | start =>
    rw [if_neg (by simp only [Blk.rank]; omega), if_neg (by simp only [Blk.rank]; omega)]
    rfl
  | tridiag t =>
    have ht := ha t rfl
    rw [if_neg (by simp only [Blk.rank]; omega)]
    cases t with
    | zero =>
      cases b with
      | start => rw [if_pos (show _ ∧ _ from ⟨by simp only [Blk.rank], by simp only [Blk.rank]; omega⟩)]; rfl
      | tridiag u => rw [if_neg (by simp only [Blk.rank]; omega)]; rfl
      | link => rw [if_neg (by simp only [Blk.rank]; omega)]; rfl
      | outer => rw [if_neg (by simp only [Blk.rank]; omega)]; rfl
    | succ t =>
      cases b with
      | start => rw [if_neg (by simp only [Blk.rank]; omega)]; rfl
      | tridiag u =>
        have hu := hb u rfl
        simp only [genLower]
        by_cases h : u = t
        · subst h
          rw [if_pos ⟨rfl, by omega⟩, if_pos (show _ ∧ _ from ⟨by simp only [Blk.rank], by simp only [Blk.rank]; omega⟩)]
          simp only [Blk.rank]
          rw [sel_succ (by omega), hS u (by omega)]
        · rw [if_neg (fun hh => h hh.1), if_neg (by simp only [Blk.rank]; omega)]
      | link => rw [if_neg (by simp only [Blk.rank]; omega)]; rfl
      | outer => rw [if_neg (by simp only [Blk.rank]; omega)]; rfl
  | link =>
    rw [if_neg (by simp only [Blk.rank]; omega)]
    cases b with
    | start => rw [if_neg (by simp only [Blk.rank]; omega)]; rfl
    | tridiag u =>
      have hu := hb u rfl
      simp only [genLower]
      by_cases h : u = N
      · subst h
        rw [if_pos rfl, if_pos (show _ ∧ _ from ⟨by simp only [Blk.rank], by simp only [Blk.rank]; omega⟩)]
        simp only [Blk.rank]
        rw [sel_last (Nat.le_refl _)]
      · rw [if_neg h, if_neg (by simp only [Blk.rank]; omega)]
    | link => rw [if_neg (by simp only [Blk.rank]; omega)]; rfl
    | outer => rw [if_neg (by simp only [Blk.rank]; omega)]; rfl
  | outer =>
    cases b with
    | start => rw [if_pos (show _ ∧ _ from ⟨by simp only [Blk.rank], by simp only [Blk.rank]; omega⟩)]; rfl
    | tridiag u =>
      have hu := hb u rfl
      rw [if_pos (show _ ∧ _ from ⟨by simp only [Blk.rank], by simp only [Blk.rank]; omega⟩)]
      simp only [genLower, Blk.rank]
      rw [if_pos (by omega), sel_succ hu, hO u hu]
    | link =>
      rw [if_pos (show _ ∧ _ from ⟨by simp only [Blk.rank], by simp only [Blk.rank]; omega⟩)]
      simp only [genLower, Blk.rank]
      rw [sel_last (Nat.le_refl _)]
    | outer =>
      rw [if_neg (by simp only [Blk.rank]; omega), if_neg (by simp only [Blk.rank]; omega)]
      rfl

theorem getElem?_eq_getD {α : Type _} {v : List α} {t : Nat} (h : t < v.length) (x : α) :
    v[t]? = some (v.getD t x) := by
  rw [← getElem_eq_getD h, List.getElem?_eq_getElem]

section

variable {K : Type}

theorem factor_lowerBlock_eq {f : ArrowheadFactor K} {s : ArrowheadSparsity} {T : ArrowheadTypes} {d : Dims} {N : Nat}
    (hf : f.Declared s T d N) {a b : Blk} (ha : a ∈ blocks N) (hb : b ∈ blocks N) :
    f.lowerBlock N a b = lowPos (N + 2)
      (sel N f.startNext (fun t => f.tridiagSubdiag.getD t f.startNext) f.linkPrev)
      (sel (N + 1) f.startOuter (fun t => f.outerSubdiag.getD t f.startOuter) f.linkNext) (a.rank N) (b.rank N) := by
  rw [← genLower_eq (ts := fun t => f.tridiagSubdiag[t]?) (os := fun t => f.outerSubdiag[t]?)
    (fun t ht => getElem?_eq_getD (by rw [hf.numSubdiag]; exact ht) _)
    (fun t ht => getElem?_eq_getD (by rw [hf.numOuter]; exact ht) _) ha hb]
  rcases a with _ | (_ | t) | _ | _ <;> rcases b with _ | _ | _ | _ <;> rfl

theorem matrix_lowerBlock_eq {m : ArrowheadMatrix K} {N : Nat} (h1 : N ≤ m.tridiagSubdiag.length)
    (h2 : N + 1 ≤ m.outerSubdiag.length) {a b : Blk} (ha : a ∈ blocks N) (hb : b ∈ blocks N) :
    m.lowerBlock N a b = lowPos (N + 2)
      (sel N m.startNext (fun t => m.tridiagSubdiag.getD t (.empty K)) m.linkPrev)
      (sel (N + 1) m.startOuter (fun t => m.outerSubdiag.getD t (.empty K)) m.linkNext) (a.rank N) (b.rank N) := by
  rw [← genLower_eq (ts := fun t => m.tridiagSubdiag[t]?) (os := fun t => m.outerSubdiag[t]?)
    (fun t ht => getElem?_eq_getD (by omega) _) (fun t ht => getElem?_eq_getD (by omega) _) ha hb]
  rcases a with _ | (_ | t) | _ | _ <;> rcases b with _ | _ | _ | _ <;> rfl

theorem types_lowerBlock_eq {T : ArrowheadTypes} {N : Nat} {a b : Blk} (ha : a ∈ blocks N) (hb : b ∈ blocks N) :
    T.lowerBlock N a b = lowPos (N + 2) (sel N T.startNext (fun _ => T.tridiagSubdiag) T.linkPrev)
      (sel (N + 1) T.startOuter (fun _ => T.outerSubdiag) T.linkNext) (a.rank N) (b.rank N) := by
  rw [← genLower_eq (ts := fun _ => some T.tridiagSubdiag) (os := fun _ => some T.outerSubdiag)
    (fun t ht => rfl) (fun t ht => rfl) ha hb]
  rcases a with _ | (_ | t) | _ | _ <;> rcases b with _ | _ | _ | _ <;> rfl

theorem sparsity_lowerBlock_eq {s : ArrowheadSparsity} {N : Nat} {a b : Blk} (ha : a ∈ blocks N) (hb : b ∈ blocks N) :
    s.lowerBlock N a b = lowPos (N + 2) (sel N s.start.next (fun _ => s.tridiag.subdiag) s.link.prev)
      (sel (N + 1) s.start.outer (fun _ => s.outer.subdiag) s.link.next) (a.rank N) (b.rank N) := by
  rw [← genLower_eq (ts := fun _ => some s.tridiag.subdiag) (os := fun _ => some s.outer.subdiag)
    (fun t ht => rfl) (fun t ht => rfl) ha hb]
  rcases a with _ | (_ | t) | _ | _ <;> rcases b with _ | _ | _ | _ <;> rfl

/-- Data of a block of each kind, by position. -/
theorem rank_sel {α : Type _} {N : Nat} {a : Blk} (ha : a ∈ blocks N) (st : α) (tr : Nat → α) (li ou : α) :
    (match a with | .start => st | .tridiag t => tr t | .link => li | .outer => ou) =
      if a.rank N ≤ N + 2 then sel (N + 1) st tr li (a.rank N) else ou := by
  rw [mem_blocks] at ha
  cases a with
  | start => rfl
  | tridiag t =>
    have := ha t rfl
    have e : Blk.rank N (.tridiag t) = t + 1 := rfl
    rw [e, if_pos (by omega), sel_succ this]
  | link =>
    have e : Blk.rank N .link = N + 2 := rfl
    rw [e, if_pos (by omega), sel_last (Nat.le_refl _)]
  | outer =>
    have e : Blk.rank N .outer = N + 3 := rfl
    rw [e, if_neg (by omega)]

theorem dims_of_eq {T : ArrowheadTypes} {d : Dims} {N : Nat} {a : Blk} (ha : a ∈ blocks N) :
    d.of a = chainN (chainPat T d N) (N + 2) (a.rank N) := by
  have := rank_sel ha d.start (fun _ => d.tridiag) d.link d.outer
  unfold chainN
  refine Eq.trans ?_ this
  cases a <;> rfl

theorem factor_pivotAt_eq [Zero K] {f : ArrowheadFactor K} {s : ArrowheadSparsity} {T : ArrowheadTypes} {d : Dims} {N : Nat}
    (hf : f.Declared s T d N) {a : Blk} (ha : a ∈ blocks N) (i : Nat) :
    f.pivotAt a i = chainD (f.chainVals N) (N + 2) (a.rank N) i := by
  unfold chainD
  have h1 : ∀ p, (f.chainVals N).d p = sel (N + 1) (vec f.startDiag.D)
      (fun t => vec (f.tridiagDiag.getD t f.startDiag).D) (vec f.linkDiag.D) p := fun p => by
    simp only [ChainVals.d, ArrowheadFactor.chainVals]
    rw [sel_map (f := vec)]
  rw [h1, ← rank_sel ha]
  cases a with
  | tridiag t =>
    have := mem_blocks.mp ha t rfl
    unfold ArrowheadFactor.pivotAt ArrowheadFactor.diagBlock
    simp only
    rw [getElem?_eq_getD (by rw [hf.numDiag]; exact this) f.startDiag]
    rfl
  | start => rfl
  | link => rfl
  | outer => rfl

variable [Field K]

theorem factor_diag_lower {f : ArrowheadFactor K} {s : ArrowheadSparsity} {T : ArrowheadTypes} {d : Dims} {N : Nat}
    (hf : f.Declared s T d N) {a : Blk} (ha : a ∈ blocks N) :
    ∃ g, f.diagBlock a = some g ∧ ∀ i j, g.lower i j =
      (if a.rank N ≤ N + 2 then (f.chainVals N).l (chainPat T d N) (a.rank N)
        else (f.chainVals N).e (chainPat T d N)) i j := by
  obtain ⟨hDt, -, -⟩ := getD_ofType' hf
  have h1 : ∀ p, (f.chainVals N).l (chainPat T d N) p = sel (N + 1) (val T.startDiag f.startDiag.L)
      (fun t => val T.tridiagDiag (f.tridiagDiag.getD t f.startDiag).L) (val T.linkDiag f.linkDiag.L) p := fun p => by
    simp only [ChainVals.l, ArrowheadFactor.chainVals, chainPat]
    rw [sel_map₂ (f := val)]
  rw [h1, ← rank_sel ha]
  cases a with
  | tridiag t =>
    have := mem_blocks.mp ha t rfl
    refine ⟨f.tridiagDiag.getD t f.startDiag, getElem?_eq_getD (by rw [hf.numDiag]; exact this) _, fun i j => ?_⟩
    unfold DiagFactor.lower
    rw [(hDt t this).pattern]
    rfl
  | start =>
    refine ⟨f.startDiag, rfl, fun i j => ?_⟩
    unfold DiagFactor.lower
    rw [hf.startDiag.pattern]
    rfl
  | link =>
    refine ⟨f.linkDiag, rfl, fun i j => ?_⟩
    unfold DiagFactor.lower
    rw [hf.linkDiag.pattern]
    rfl
  | outer =>
    refine ⟨f.outerDiag, rfl, fun i j => ?_⟩
    unfold DiagFactor.lower
    rw [hf.outerDiag.pattern]
    rfl

theorem factor_lowerElement_eq {f : ArrowheadFactor K} {s : ArrowheadSparsity} {T : ArrowheadTypes} {d : Dims}
    {N : Nat} (hf : f.Declared s T d N) {a b : Blk} (ha : a ∈ blocks N) (hb : b ∈ blocks N) (i j : Nat) :
    f.lowerElement N a b i j = chainL (chainPat T d N) (f.chainVals N) (N + 2) (a.rank N) (b.rank N) i j := by
  obtain ⟨-, hSt, hOt⟩ := getD_ofType' hf
  unfold ArrowheadFactor.lowerElement chainL
  by_cases hab : a = b
  · subst hab
    rw [if_pos rfl, if_pos rfl]
    obtain ⟨g, h1, h2⟩ := factor_diag_lower hf ha
    rw [h1]
    simp only
    unfold unitLower
    rw [h2]
  · rw [if_neg hab, if_neg (fun h => hab ((rank_inj ha hb).mp h)), factor_lowerBlock_eq hf ha hb]
    have ra := rank_le ha
    have rb := rank_le hb
    have rab : a.rank N ≠ b.rank N := fun h => hab ((rank_inj ha hb).mp h)
    unfold lowPos
    by_cases h1 : a.rank N = N + 2 + 1
    · rw [if_pos ⟨h1, by omega⟩, if_pos h1]
      simp only
      rcases pos_cases (N := N) (p := b.rank N) (by omega) with h | ⟨t, ht, h⟩ | h
      · rw [h]
        simp only [sel_zero, ChainVals.o, chainPat, ArrowheadFactor.chainVals, SubFactor.entry,
          hf.startOuter.pattern]
        rfl
      · rw [h]
        simp only [sel_succ ht, ChainVals.o, chainPat, ArrowheadFactor.chainVals, SubFactor.entry, (hOt t ht).pattern]
        rfl
      · rw [h]
        simp only [sel_last (Nat.le_refl _), ChainVals.o, chainPat, ArrowheadFactor.chainVals, SubFactor.entry,
          hf.linkNext.pattern]
        rfl
    · rw [if_neg (fun h => h1 h.1), if_neg h1]
      by_cases h2 : a.rank N = b.rank N + 1
      · rw [if_pos ⟨h2, by omega⟩, if_pos h2]
        simp only
        rcases pos_cases' (N := N) (p := b.rank N) (by omega) with h | ⟨t, ht, h⟩ | h
        · rw [h]
          simp only [sel_zero, ChainVals.s, chainPat, ArrowheadFactor.chainVals, SubFactor.entry,
            hf.startNext.pattern]
          rfl
        · rw [h]
          simp only [sel_succ ht, ChainVals.s, chainPat, ArrowheadFactor.chainVals, SubFactor.entry,
            (hSt t ht).pattern]
          rfl
        · rw [h]
          simp only [sel_last (Nat.le_refl _), ChainVals.s, chainPat, ArrowheadFactor.chainVals, SubFactor.entry,
            hf.linkPrev.pattern]
          rfl
      · rw [if_neg (fun h => h2 h.1), if_neg h2]

theorem factor_ldlt_eq {f : ArrowheadFactor K} {s : ArrowheadSparsity} {T : ArrowheadTypes} {d : Dims} {N : Nat}
    (hf : f.Declared s T d N) {a b : Blk} (ha : a ∈ blocks N) (hb : b ∈ blocks N) (i j : Nat) :
    f.ldlt d N a b i j = chainLdlt (chainPat T d N) (f.chainVals N) (N + 2) (a.rank N) (b.rank N) i j := by
  unfold ArrowheadFactor.ldlt chainLdlt
  rw [← sum_rank]
  refine sum_congr rfl fun c hc => ?_
  rw [dims_of_eq (T := T) hc]
  refine sum_congr rfl fun k _ => ?_
  rw [factor_lowerElement_eq hf ha hc, factor_lowerElement_eq hf hb hc, factor_pivotAt_eq hf hc]
end

section

variable {K : Type} [Zero K]

theorem sym_comm (m : MatIn K) (i j : Nat) : m.sym i j = m.sym j i := by
  unfold MatIn.sym
  rw [Nat.max_comm, Nat.min_comm]

theorem symOf_inA (m : MatIn K) (p : List Nat) (i j : Nat) :
    symOf (inA m p) (inD m p) i j = m.sym (permAt p i) (permAt p j) := by
  unfold symOf inA inD
  split
  · next h => rw [h]
  · split
    · rfl
    · rw [sym_comm]

/-- The blocks of the permuted input below the diagonal. -/
theorem matrix_low_eq {m : ArrowheadMatrix K} {s : ArrowheadSparsity} {N : Nat} (h1 : N ≤ m.tridiagSubdiag.length)
    (h2 : N + 1 ≤ m.outerSubdiag.length) {a b : Blk} (ha : a ∈ blocks N) (hb : b ∈ blocks N)
    (hlt : b.rank N < a.rank N) (i j : Nat) :
    (match (m.lowerBlock N a b).map MatIn.elem with
      | some l => l (permAt (s.perm a) i) (permAt (s.perm b) j)
      | none => 0) = chainLow (m.chainInput s N) (N + 2) (a.rank N) (b.rank N) i j := by
  have ra := rank_le ha
  have rb := rank_le hb
  have hp : ∀ {c : Blk}, c ∈ blocks N → s.perm c = if c.rank N ≤ N + 2 then
      sel (N + 1) s.start.permutation (fun _ => s.tridiag.permutation) s.link.permutation (c.rank N)
      else s.outer.permutation := fun {c} hc => by
    rw [← rank_sel hc]
    cases c <;> rfl
  rw [matrix_lowerBlock_eq h1 h2 ha hb, hp ha, hp hb]
  unfold chainLow lowPos
  rw [if_neg (by omega : ¬ a.rank N = b.rank N)]
  by_cases h3 : a.rank N = N + 2 + 1
  · rw [if_pos ⟨h3, by omega⟩, if_pos h3, if_neg (by omega), if_pos (by omega)]
    simp only [Option.map_some]
    rcases pos_cases (N := N) (p := b.rank N) (by omega) with h | ⟨t, ht, h⟩ | h
    · rw [h]
      simp only [sel_zero, ArrowheadMatrix.chainInput]
    · rw [h]
      simp only [sel_succ ht, ArrowheadMatrix.chainInput]
    · rw [h]
      simp only [sel_last (Nat.le_refl _), ArrowheadMatrix.chainInput]
  · rw [if_neg (fun h => h3 h.1), if_neg h3]
    by_cases h4 : a.rank N = b.rank N + 1
    · rw [if_pos ⟨h4, by omega⟩, if_pos h4, if_pos (by omega), if_pos (by omega), h4]
      simp only [Option.map_some]
      rcases pos_cases' (N := N) (p := b.rank N) (by omega) with h | ⟨t, ht, h⟩ | h
      · rw [h]
        simp only [sel_zero, sel_succ (Nat.succ_pos N), ArrowheadMatrix.chainInput]
      · rw [h]
        simp only [sel_succ ht, sel_succ (show t < N + 1 by omega), sel_succ (show t + 1 < N + 1 by omega),
          ArrowheadMatrix.chainInput]
      · rw [h]
        simp only [sel_last (Nat.le_refl _), sel_succ (Nat.lt_succ_self N), ArrowheadMatrix.chainInput]
    · rw [if_neg (fun h => h4 h.1), if_neg h4]
      rfl

omit [Zero K] in
theorem matrix_lowerBlock_none {m : ArrowheadMatrix K} {N : Nat} (h1 : N ≤ m.tridiagSubdiag.length)
    (h2 : N + 1 ≤ m.outerSubdiag.length) {a b : Blk} (ha : a ∈ blocks N) (hb : b ∈ blocks N)
    (hlt : a.rank N ≤ b.rank N) : m.lowerBlock N a b = none := by
  have rb := rank_le hb
  rw [matrix_lowerBlock_eq h1 h2 ha hb]
  unfold lowPos
  rw [if_neg (by omega), if_neg (by omega)]

theorem matrix_symElement_eq {m : ArrowheadMatrix K} {s : ArrowheadSparsity} {N : Nat}
    (h1 : N ≤ m.tridiagSubdiag.length) (h2 : N + 1 ≤ m.outerSubdiag.length) {a b : Blk} (ha : a ∈ blocks N)
    (hb : b ∈ blocks N) (i j : Nat) :
    m.symElement N a b (permAt (s.perm a) i) (permAt (s.perm b) j) =
      chainA (m.chainInput s N) (N + 2) (a.rank N) (b.rank N) i j := by
  unfold ArrowheadMatrix.symElement assembledElement
  by_cases hab : a = b
  · subst hab
    rw [if_pos rfl]
    unfold chainA chainLow
    rw [if_pos (Nat.le_refl _), if_pos rfl]
    have e1 : (if a.rank N ≤ N + 2 then symOf ((m.chainInput s N).a (a.rank N)) ((m.chainInput s N).aD (a.rank N))
        else symOf (m.chainInput s N).h (m.chainInput s N).hD) i j =
        (m.diagBlock a).sym (permAt (s.perm a) i) (permAt (s.perm a) j) := by
      have e2 : ∀ p, symOf ((m.chainInput s N).a p) ((m.chainInput s N).aD p) = sel (N + 1)
          (symOf (inA m.startDiag s.start.permutation) (inD m.startDiag s.start.permutation))
          (fun t => symOf (inA (m.tridiagDiag.getD t (.empty K)) s.tridiag.permutation)
            (inD (m.tridiagDiag.getD t (.empty K)) s.tridiag.permutation))
          (symOf (inA m.linkDiag s.link.permutation) (inD m.linkDiag s.link.permutation)) p := fun p => by
        simp only [ArrowheadMatrix.chainInput]
        rw [sel_map₂ (f := symOf)]
      rw [e2, ← rank_sel ha]
      cases a <;> exact symOf_inA _ _ _ _
    beta_reduce
    rw [← e1]
    split <;> rfl
  · rw [if_neg hab]
    have hr : a.rank N ≠ b.rank N := fun h => hab ((rank_inj ha hb).mp h)
    unfold chainA
    by_cases hle : b.rank N ≤ a.rank N
    · rw [if_pos hle, ← matrix_low_eq h1 h2 ha hb (by omega)]
      beta_reduce
      rw [matrix_lowerBlock_none h1 h2 hb ha hle]
      cases h : m.lowerBlock N a b <;> rfl
    · rw [if_neg hle, ← matrix_low_eq h1 h2 hb ha (by omega)]
      beta_reduce
      rw [matrix_lowerBlock_none h1 h2 ha hb (by omega)]
      cases h : m.lowerBlock N b a <;> rfl

end

end Ctldl
