import Verif.Spec.EndToEnd
import Verif.Props.ArrowheadSolve
import Verif.Props.Mtx
import Mathlib.Data.List.GetD

/-! # C45: from a matrix file to the solution of the system of equations -/

namespace Ctldl

open Finset

variable {K : Type} {s : ArrowheadSparsity} {d : Dims} {N : Nat}

theorem flatten_getD [Zero K] (l : List (List K)) (k : Nat) (h : ∀ b ∈ l, b.length = k) (t : Nat)
    (ht : t < l.length) (i : Nat) (hi : i < k) : l.flatten.getD (t * k + i) 0 = blockAt l t i := by
  induction l generalizing t with
  | nil => simp at ht
  | cons b l ih =>
    have hb : b.length = k := h b (by simp)
    cases t with
    | zero =>
      simp only [List.flatten_cons, blockAt, List.getD_cons_zero, Nat.zero_mul, Nat.zero_add]
      rw [List.getD_append _ _ _ _ (by omega)]
    | succ t =>
      have := ih (fun b' hb' => h b' (by simp [hb'])) t (by simpa using ht)
      simp only [List.flatten_cons, blockAt, List.getD_cons_succ] at this ⊢
      rw [List.getD_append_right _ _ _ _ (by rw [hb, Nat.succ_mul]; omega), hb, ← this]
      congr 1
      rw [Nat.succ_mul]; omega

theorem flatten_length (l : List (List K)) (k : Nat) (h : ∀ b ∈ l, b.length = k) :
    l.flatten.length = l.length * k := by
  induction l with
  | nil => simp
  | cons b l ih =>
    rw [List.flatten_cons, List.length_append, ih fun b' hb' => h b' (by simp [hb']), h b (by simp),
      List.length_cons, Nat.succ_mul, Nat.add_comm]

theorem flat_length {v : ArrowheadVector K} (hv : v.OfSize d N) : v.flat.length = d.total N := by
  simp only [ArrowheadVector.flat, List.length_append, flatten_length _ _ hv.tridiag, hv.num, hv.start, hv.link,
    hv.outer, Dims.total]

theorem flat_at [Zero K] {v : ArrowheadVector K} (hv : v.OfSize d N) {r : Nat} {b : Blk} {i : Nat}
    (h : d.Locates N r b i) : v.flat.getD r 0 = v.at b i := by
  obtain ⟨hb, hi, rfl⟩ := h
  have hl := flatten_length _ _ hv.tridiag
  rw [hv.num] at hl
  cases b with
  | start =>
    simp only [Dims.of, Dims.before, Nat.zero_add, ArrowheadVector.at, ArrowheadVector.flat, List.append_assoc] at *
    rw [List.getD_append _ _ _ _ (by rw [hv.start]; exact hi)]
  | tridiag t =>
    have ht := mem_blocks_tridiag.mp hb
    have h1 := tridiag_before_le (d := d) ht
    simp only [Dims.of, Dims.before, ArrowheadVector.at, ArrowheadVector.flat, List.append_assoc] at *
    rw [List.getD_append_right _ _ _ _ (by rw [hv.start]; omega), hv.start,
      List.getD_append _ _ _ _ (by rw [hl]; omega),
      ← flatten_getD v.tridiag d.tridiag hv.tridiag t (by rw [hv.num]; omega) i hi]
    congr 1; omega
  | link =>
    simp only [Dims.of, Dims.before, ArrowheadVector.at, ArrowheadVector.flat, List.append_assoc] at *
    rw [List.getD_append_right _ _ _ _ (by rw [hv.start]; omega), hv.start,
      List.getD_append_right _ _ _ _ (by rw [hl]; omega), hl, List.getD_append _ _ _ _ (by rw [hv.link]; omega)]
    congr 1; omega
  | outer =>
    simp only [Dims.of, Dims.before, ArrowheadVector.at, ArrowheadVector.flat, List.append_assoc] at *
    rw [List.getD_append_right _ _ _ _ (by rw [hv.start]; omega), hv.start,
      List.getD_append_right _ _ _ _ (by rw [hl]; omega), hl,
      List.getD_append_right _ _ _ _ (by rw [hv.link]; omega), hv.link]
    congr 1; omega

private theorem sum_range_mul' [AddCommMonoid K] (n k : Nat) (F : Nat → K) :
    ∑ r ∈ range (n * k), F r = ∑ t ∈ range n, ∑ j ∈ range k, F (t * k + j) := by
  induction n with
  | zero => simp
  | succ n ih => rw [Nat.succ_mul, sum_range_add, sum_range_succ, ih]

theorem sum_total [AddCommMonoid K] (F : Nat → K) :
    ∑ r ∈ range (d.total N), F r = ∑ b ∈ blocks N, ∑ j ∈ range (d.of b), F (d.before N b + j) := by
  rw [sum_blocks]
  simp only [Dims.total, Dims.of, Dims.before, sum_range_add, sum_range_mul', Nat.zero_add, Nat.add_assoc, add_assoc]

/-- The matrix which is read is the symmetric matrix of the file. -/
theorem symElement_file [AddCommMonoid K] {m : ArrowheadMatrix K} {entries : List (MtxEntry K)}
    (hs : s.Valid d) (hm : m.IsFile s d N entries) (hc : ∀ e ∈ entries, s.Covers d N e.row e.col) {r c : Nat}
    {a b : Blk} {i j : Nat} (ha : d.Locates N r a i) (hb : d.Locates N c b j) :
    m.symElement N a b i j = fileSymmetric entries r c := by
  have hlow : ∀ {r c : Nat} {a b : Blk} {i j : Nat} {p : Sparsity}, d.Locates N r a i → d.Locates N c b j →
      s.lowerBlock N a b = some p → c < r := by
    intro r c a b i j p ha hb hp
    obtain ⟨ma, la, rfl⟩ := ha
    obtain ⟨mb, lb, rfl⟩ := hb
    rcases a with _ | (_ | t) | _ | _ <;> rcases b with _ | u | _ | _ <;>
      simp only [ArrowheadSparsity.lowerBlock, reduceCtorEq] at hp <;>
      simp only [Dims.before, Dims.of] at *
    · omega
    · split at hp
      · rename_i h
        rw [h.1, Nat.succ_mul]; omega
      · cases hp
    · have := tridiag_before_le (d := d) (mem_blocks_tridiag.mp mb)
      omega
    · omega
    · have := tridiag_before_le (d := d) (mem_blocks_tridiag.mp mb)
      omega
    · omega
  have hsome : ∀ {a b : Blk} {q : MatIn K}, m.lowerBlock N a b = some q → ∃ p, s.lowerBlock N a b = some p := by
    intro a b q hq
    rcases a with _ | (_ | t) | _ | _ <;> rcases b with _ | u | _ | _ <;>
      simp only [ArrowheadMatrix.lowerBlock, ArrowheadSparsity.lowerBlock, reduceCtorEq] at hq ⊢
    all_goals first
      | exact ⟨_, rfl⟩
      | (split at hq
         · rename_i h; exact ⟨_, if_pos h⟩
         · cases hq)
  have hval : ∀ {r c : Nat} {a b : Blk} {i j : Nat} {q : MatIn K}, d.Locates N r a i → d.Locates N c b j →
      m.lowerBlock N a b = some q → q.elem i j = fileValue entries r c ∧ c < r := by
    intro r c a b i j q ha hb hq
    obtain ⟨p, hp⟩ := hsome hq
    obtain ⟨q', hq', hst⟩ := hm.lower a b p hp
    rw [hq] at hq'
    cases hq'
    obtain ⟨σ, hok, rfl, rfl, -, rfl⟩ := lowerBlock_slot.mp hp
    have hdim := Slot.pattern_dims hs N σ
    refine ⟨?_, hlow ha hb hp⟩
    rw [hst.elem i (by rw [hdim.2.1]; exact ha.lt) j (by rw [hdim.2.2]; exact hb.lt), ha.eq, hb.eq]
  unfold ArrowheadMatrix.symElement assembledElement fileSymmetric
  by_cases hab : a = b
  · rw [if_pos hab]
    subst hab
    have hst := hm.diag a ha.block
    have hdim := Slot.pattern_dims hs N a.slot
    rw [Blk.slot_pattern, Blk.slot_row, Blk.slot_col] at hdim
    unfold MatIn.sym
    beta_reduce
    have h1 := ha.lt
    have h2 := hb.lt
    rw [hst.elem _ (by rw [hdim.2.1]; omega) _ (by rw [hdim.2.2]; omega), ha.eq, hb.eq]
    congr 1 <;> omega
  · rw [if_neg hab]
    cases h1 : m.lowerBlock N a b with
    | some q =>
      obtain ⟨e1, e2⟩ := hval ha hb h1
      simp only [h1, Option.map_some]
      rw [e1, Nat.max_eq_left (by omega), Nat.min_eq_right (by omega)]
    | none =>
      cases h2 : m.lowerBlock N b a with
      | some q =>
        obtain ⟨e1, e2⟩ := hval hb ha h2
        simp only [h1, h2, Option.map_none, Option.map_some]
        rw [e1, Nat.max_eq_right (by omega), Nat.min_eq_left (by omega)]
      | none =>
        simp only [h1, h2, Option.map_none]
        unfold fileValue
        split
        · rename_i e he
          exfalso
          have h3 := List.find?_some he
          have h4 := List.mem_of_find?_eq_some he
          rw [List.mem_reverse] at h4
          simp only [Bool.and_eq_true, beq_iff_eq] at h3
          obtain ⟨hle, a', b', i', j', ha', hb', hcov⟩ := hc e h4
          have key : ∀ {a b : Blk} {i j : Nat}, a ≠ b → m.lowerBlock N a b = none → d.Locates N e.row a i →
              d.Locates N e.col b j → False := by
            intro a b i j hne hn ha hb
            have u1 := ha'.unique ha
            have u2 := hb'.unique hb
            rcases hcov with ⟨h, -⟩ | ⟨p, hp, -⟩
            · exact hne (by rw [← u1.1, ← u2.1, h])
            · rw [u1.1, u2.1] at hp
              obtain ⟨q, hq, -⟩ := hm.lower a b p hp
              rw [hn] at hq
              cases hq
          by_cases hrc : c ≤ r
          · rw [Nat.max_eq_left hrc, Nat.min_eq_right hrc] at h3
            exact key hab h1 (h3.1 ▸ ha) (h3.2 ▸ hb)
          · rw [Nat.max_eq_right (by omega), Nat.min_eq_left (by omega)] at h3
            exact key (Ne.symm hab) h2 (h3.1 ▸ hb) (h3.2 ▸ ha)
        · rfl

/-- The matrix which is read can be factorized. -/
theorem isFile_fits [AddCommMonoid K] {m : ArrowheadMatrix K} {entries : List (MtxEntry K)}
    {T : ArrowheadTypes} (hs : s.Valid d) (hT : arrowheadTypes s = .ok T) (hm : m.IsFile s d N entries) :
    m.Fits s T d N := by
  have hperm : ∀ {q : MatIn K} {p : Sparsity} {f : Nat → Nat → K} {r c : Nat}, q.Stores p f → p.OfDims r c →
      q.Sized ∧ q.sparsity.OfDims r c ∧ ∀ i j, q.sparsity.Has i j → p.Has i j := by
    intro q p f r c hq hp
    refine ⟨hq.values, ⟨fun e he => ?_, by rw [hq.numRows, hp.2.1], by rw [hq.numCols, hp.2.2]⟩,
      fun i j h => hq.entries.mem_iff.mp h⟩
    rw [hq.numRows, hq.numCols]
    exact hp.1 e (hq.entries.mem_iff.mp he)
  refine C21_within_fits s d hs T hT N m hm.numDiag.ge hm.numSubdiag.ge hm.numOuter.ge (fun b hb => ?_)
    fun a b q p hq hp => ?_
  · have hdim := Slot.pattern_dims hs N b.slot
    rw [Blk.slot_pattern, Blk.slot_row, Blk.slot_col] at hdim
    exact hperm (hm.diag b hb) hdim
  · obtain ⟨q', hq', hst⟩ := hm.lower a b p hp
    rw [hq] at hq'
    cases hq'
    obtain ⟨σ, hok, rfl, rfl, -, rfl⟩ := lowerBlock_slot.mp hp
    exact hperm hst (Slot.pattern_dims hs N σ)

/-- C45: for any arithmetic, a file of the right size whose entries are in the declared pattern is read into a matrix
which can be factorized by every object constructed for the number of repetitions of the file. -/
theorem C45_read_factorize [AddCommMonoid K] [Sub K] [Mul K] [Div K] (s : ArrowheadSparsity) (d : Dims)
    (hs : s.Valid d) (hd : 0 < d.tridiag) (scanner : Scanner K) (lines : List String) (dims : MtxDimensions)
    (entries : List (MtxEntry K)) (hf : IsMtxFile scanner lines dims entries) (N : Nat)
    (hrows : dims.numRows = d.total N) (hcols : dims.numCols = d.total N)
    (hc : ∀ e ∈ entries, s.Covers d N e.row e.col) (hh : ∀ e ∈ entries, d.Handles N e.row e.col)
    (T : ArrowheadTypes) (f : ArrowheadFactor K) (hD : f.Declared s T d N) (reg : K → Nat → K) (method : Method) :
    ∃ m f', mtxFileRead scanner s lines = .ok m ∧
      f.factorize d.tridiag d.link d.outer m.toMatrix reg method = .ok f' := by
  obtain ⟨m, h1, h2⟩ := C40_placed_partial s d hs hd scanner lines dims entries hf N hrows hcols hc hh
  obtain ⟨f', h3, -⟩ := C21_factorize_total s d hs T N f hD m.toMatrix (isFile_fits hs hD.types h2) reg method
  exact ⟨m, f', h1, h3⟩

/-- C45: reading a file, factorizing and solving gives the solution of the system of equations whose matrix is the
symmetric matrix of the file and whose right-hand side is given block after block, if no pivot is zero. That solution
is the only one. -/
theorem C45_read_solve [Field K] (s : ArrowheadSparsity) (d : Dims)
    (hs : s.Valid d) (hd : 0 < d.tridiag) (scanner : Scanner K) (lines : List String) (dims : MtxDimensions)
    (entries : List (MtxEntry K)) (hf : IsMtxFile scanner lines dims entries) (N : Nat)
    (hrows : dims.numRows = d.total N) (hcols : dims.numCols = d.total N)
    (hc : ∀ e ∈ entries, s.Covers d N e.row e.col) (hh : ∀ e ∈ entries, d.Handles N e.row e.col)
    (T : ArrowheadTypes) (f : ArrowheadFactor K) (hD : f.Declared s T d N) (method : Method)
    (m : MtxArrowhead K) (hm : mtxFileRead scanner s lines = .ok m) (f' : ArrowheadFactor K)
    (hf' : f.factorize d.tridiag d.link d.outer m.toMatrix regularizationNone method = .ok f')
    (hpiv : ∀ a ∈ blocks N, ∀ i < d.of a, f'.pivotAt a i ≠ 0) (b : ArrowheadVector K) (hb : b.OfSize d N) :
    ∃ x, f'.solveInPlace b = .ok x ∧ x.flat.length = d.total N ∧
      (∀ r < d.total N, ∑ c ∈ range (d.total N), fileSymmetric entries r c * x.flat.getD c 0 = b.flat.getD r 0) ∧
      ∀ y : Nat → K, (∀ r < d.total N,
        ∑ c ∈ range (d.total N), fileSymmetric entries r c * y c = b.flat.getD r 0) →
        ∀ r < d.total N, y r = x.flat.getD r 0 := by
  obtain ⟨m', h1, h2⟩ := C40_placed_partial s d hs hd scanner lines dims entries hf N hrows hcols hc hh
  rw [hm] at h1
  cases h1
  have hfit := isFile_fits hs hD.types h2
  obtain ⟨x, hx1, hx2, hx3⟩ := C35_solve_unregularized s d hs T N f hD m.toMatrix hfit method f' hf' hpiv b hb
  refine ⟨x, hx1, flat_length hx2, fun r hr => ?_, fun y hy r hr => ?_⟩
  · obtain ⟨a, i, ha⟩ := locate hd hr
    rw [flat_at hb ha, ← hx3 a ha.block i ha.lt, sum_total]
    refine sum_congr rfl fun c hcb => sum_congr rfl fun j hj => ?_
    have hl : d.Locates N (d.before N c + j) c j := ⟨hcb, mem_range.mp hj, rfl⟩
    rw [symElement_file hs h2 hc ha hl, flat_at hx2 hl]
  · -- the vector of blocks with the elements of `y`
    let v : ArrowheadVector K :=
      { start := (List.range d.start).map fun i => y (d.before N .start + i)
        tridiag := (List.range (N + 1)).map fun t => (List.range d.tridiag).map fun i => y (d.before N (.tridiag t) + i)
        link := (List.range d.link).map fun i => y (d.before N .link + i)
        outer := (List.range d.outer).map fun i => y (d.before N .outer + i) }
    have hv : v.OfSize d N := by
      refine ⟨by simp [v], by simp [v], ?_, by simp [v], by simp [v]⟩
      intro b hb
      simp only [v, List.mem_map] at hb
      obtain ⟨t, -, rfl⟩ := hb
      simp
    have hmap : ∀ (k i : Nat) {α : Type} (z : α) (F : Nat → α), i < k → ((List.range k).map F).getD i z = F i := by
      intro k i α z F hi
      rw [List.getD_eq_getElem _ _ (by simpa using hi)]
      simp
    have hva : ∀ {r : Nat} {c : Blk} {j : Nat}, d.Locates N r c j → v.at c j = y r := by
      intro r c j h
      obtain ⟨h1, h2, rfl⟩ := h
      cases c with
      | start => exact hmap _ _ _ _ h2
      | tridiag t =>
        have := mem_blocks_tridiag.mp h1
        simp only [ArrowheadVector.at, v, blockAt]
        rw [hmap _ _ _ _ (by omega)]
        exact hmap _ _ _ _ h2
      | link => exact hmap _ _ _ _ h2
      | outer => exact hmap _ _ _ _ h2
    have := C35_solve_unique s d hs T N f hD m.toMatrix hfit method f' hf' hpiv v b hv hb (by
      intro a ha i hi
      have hl : d.Locates N (d.before N a + i) a i := ⟨ha, hi, rfl⟩
      rw [← flat_at hb hl, ← hy _ hl.lt_total, sum_total]
      refine sum_congr rfl fun c hcb => sum_congr rfl fun j hj => ?_
      have hl' : d.Locates N (d.before N c + j) c j := ⟨hcb, mem_range.mp hj, rfl⟩
      rw [symElement_file hs h2 hc hl hl', hva hl'])
    rw [hx1] at this
    obtain ⟨a, i, ha⟩ := locate hd hr
    rw [Except.ok.inj this, flat_at hv ha, hva ha]

/-! A file with the matrix `[[2, 1], [1, 5]]` for repeating blocks of size one. -/

/-- Scanner of the example. -/
def solveScanner : Scanner ℚ where
  header := fun line => .ok <| if line = "2 2 3" then some (2, 2, 3) else none
  entry := fun line => .ok <|
    if line = "1 1 2" then some (1, 1, 2) else if line = "2 1 1" then some (2, 1, 1)
    else if line = "2 2 5" then some (2, 2, 5) else none

/-- The lines of the example. -/
def solveLines : List String := ["%%MatrixMarket", "2 2 3", "1 1 2", "2 1 1", "2 2 5"]

/-- The entries of the example. -/
def solveEntries : List (MtxEntry ℚ) := [⟨0, 0, 2⟩, ⟨1, 0, 1⟩, ⟨1, 1, 5⟩]

/-- The declared patterns of the example. -/
def solveSparsity : ArrowheadSparsity :=
  { start := ⟨⟨0, 0, []⟩, ⟨1, 0, []⟩, ⟨0, 0, []⟩, []⟩
    tridiag := ⟨⟨1, 1, [⟨0, 0⟩]⟩, ⟨1, 1, [⟨0, 0⟩]⟩, [0]⟩
    link := ⟨⟨0, 1, []⟩, ⟨0, 0, []⟩, ⟨0, 0, []⟩, []⟩
    outer := ⟨⟨0, 1, []⟩, ⟨0, 0, []⟩, []⟩ }

example : IsMtxFile solveScanner solveLines ⟨2, 2, 3⟩ solveEntries := by
  refine ⟨["%%MatrixMarket"], "2 2 3", ["1 1 2", "2 1 1", "2 2 5"], rfl, ?_, ?_, by decide, by decide +kernel, ?_, rfl⟩
  · intro l hl
    rw [List.mem_singleton] at hl
    subst hl
    exact ⟨"%MatrixMarket".toList, by decide⟩
  · rintro ⟨r, hr⟩
    have : "2 2 3".toList = ['2', ' ', '2', ' ', '3'] := by decide
    rw [this] at hr
    cases hr
  · simp [solveEntries]

example : solveSparsity.Valid ⟨0, 1, 0, 0⟩ where
  startDiag := by unfold Sparsity.OfDims Sparsity.InRange; decide
  startNext := by unfold Sparsity.OfDims Sparsity.InRange; decide
  startOuter := by unfold Sparsity.OfDims Sparsity.InRange; decide
  tridiagDiag := by unfold Sparsity.OfDims Sparsity.InRange; decide
  tridiagSubdiag := by unfold Sparsity.OfDims Sparsity.InRange; decide
  linkPrev := by unfold Sparsity.OfDims Sparsity.InRange; decide
  linkDiag := by unfold Sparsity.OfDims Sparsity.InRange; decide
  linkNext := by unfold Sparsity.OfDims Sparsity.InRange; decide
  outerSubdiag := by unfold Sparsity.OfDims Sparsity.InRange; decide
  outerDiag := by unfold Sparsity.OfDims Sparsity.InRange; decide
  permStart := by constructor <;> simp [solveSparsity]
  permTridiag := by constructor <;> simp [solveSparsity]
  permLink := by constructor <;> simp [solveSparsity]
  permOuter := by constructor <;> simp [solveSparsity]
  smallStart := by simp [noParent]
  smallTridiag := by simp [noParent]
  smallLink := by simp [noParent]

example : (∀ e ∈ solveEntries, solveSparsity.Covers ⟨0, 1, 0, 0⟩ 1 e.row e.col) ∧
    ∀ e ∈ solveEntries, (⟨0, 1, 0, 0⟩ : Dims).Handles 1 e.row e.col := by
  have hl : ∀ t ≤ 1, (⟨0, 1, 0, 0⟩ : Dims).Locates 1 t (.tridiag t) 0 := fun t ht =>
    ⟨mem_blocks_tridiag.mpr ht, by simp [Dims.of], by simp [Dims.before]⟩
  constructor
  · intro e he
    simp only [solveEntries, List.mem_cons, List.not_mem_nil, or_false] at he
    rcases he with rfl | rfl | rfl
    · exact ⟨by decide, _, _, _, _, hl 0 (by decide), hl 0 (by decide), .inl ⟨rfl, by unfold Sparsity.Has; decide⟩⟩
    · exact ⟨by decide, _, _, _, _, hl 1 (by decide), hl 0 (by decide), .inr ⟨_, rfl, by unfold Sparsity.Has; decide⟩⟩
    · exact ⟨by decide, _, _, _, _, hl 1 (by decide), hl 1 (by decide), .inl ⟨rfl, by unfold Sparsity.Has; decide⟩⟩
  · have : ∀ r ≤ 1, ∀ a i, (⟨0, 1, 0, 0⟩ : Dims).Locates 1 r a i → a = .tridiag r := fun r hr a i h =>
      (h.unique (hl r hr)).1
    intro e he
    have h1 : e.row ≤ 1 ∧ e.col ≤ 1 := by
      simp only [solveEntries, List.mem_cons, List.not_mem_nil, or_false] at he
      rcases he with rfl | rfl | rfl <;> decide
    intro a b i j ha hb
    rw [this _ h1.1 _ _ ha, this _ h1.2 _ _ hb]
    refine ⟨by simp, fun t u ht hu => ?_, by simp⟩
    rw [Blk.tridiag.injEq] at ht hu
    omega

example : (do
    let m ← mtxFileRead solveScanner solveSparsity solveLines
    let T ← arrowheadTypes solveSparsity
    let f ← (freshFactor solveSparsity T ⟨0, 1, 0, 0⟩ 1 17).factorize 1 0 0 m.toMatrix regularizationNone .upLooking
    f.solveInPlace ⟨[], [[4], [11]], [], []⟩ : Res _) = .ok ⟨[], [[1], [2]], [], []⟩ := by decide +kernel

end Ctldl
