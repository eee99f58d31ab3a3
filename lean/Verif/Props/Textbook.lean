import Verif.Spec.Textbook
import Verif.Props.Assembled
import Verif.Lemmas.MixedOperations

/-! # C73: factor and solution are given by formulas, to the last digit -/

namespace Ctldl

variable {K : Type}

private theorem subtract_eq [Sub K] {ι : Type} (xs : List ι) (f : ι → K) (a : K) :
    subtractInOrder a (xs.map f) = subAll xs f a := by
  unfold subtractInOrder subAll
  rw [List.foldl_map]

private theorem row_sorted (P : Nat → Nat → Prop) (i : Nat) : (rowEntriesOf P i).Pairwise (· < ·) := by
  classical
  exact (List.pairwise_lt_range).filter _

private theorem mem_row {P : Nat → Nat → Prop} {i j : Nat} : j ∈ rowEntriesOf P i ↔ j < i ∧ P i j := by
  simp [rowEntriesOf]

private theorem common_sorted (P : Nat → Nat → Prop) (i j : Nat) : (commonEntriesOf P i j).Pairwise (· < ·) := by
  classical
  exact (List.pairwise_lt_range).filter _

private theorem mem_common {P : Nat → Nat → Prop} {i j k : Nat} : k ∈ commonEntriesOf P i j ↔ k < j ∧ P i k ∧ P j k := by
  simp [commonEntriesOf]

private theorem column_sorted (P : Nat → Nat → Prop) (n j : Nat) : (columnEntriesOf P n j).Pairwise (· > ·) := by
  classical
  unfold columnEntriesOf
  rw [List.pairwise_reverse]
  exact (List.pairwise_lt_range).filter _

private theorem mem_column {P : Nat → Nat → Prop} {n i j : Nat} : i ∈ columnEntriesOf P n j ↔ i < n ∧ P i j := by
  simp [columnEntriesOf]

variable [Zero K] [Sub K] [Mul K] [Div K]

private theorem fits1 {f : DiagFactor K} {s : Sparsity} {p : List Nat} (hv : ValidSparsity s p)
    (hf : f.Declared s p) {m : MatIn K} (hm : m.Fits s p) : Fits1 m f s.numRows := by
  refine ⟨hm.sized, ⟨hm.inRange, hm.rows, hm.cols⟩, ?_⟩
  intro i j hij
  rw [hf.perm] at hij
  have h1 := hm.subset i j hij
  rw [Csr.Has, (hf.closed1 hv).2.2.2.2]
  have h2 := hij.1
  have h3 := hij.2.1
  rw [hm.rows] at h3
  exact ⟨h3, by omega, h1⟩

omit [Zero K] [Sub K] [Mul K] [Div K] in
private theorem fill_bounds {s : Sparsity} {p : List Nat} {i j : Nat} (h : Fill (LowerPermuted s p) i j) :
    j < i ∧ i < s.numRows := ⟨h.lt, h.row_bound fun _ _ hab => hab.2.1⟩

omit [Zero K] [Sub K] [Mul K] [Div K] in
private theorem has_iff {s : Sparsity} {p : List Nat} (hv : ValidSparsity s p) {f : DiagFactor K} (hf : f.Declared s p)
    (i j : Nat) : f.sparsity.Has i j ↔ Fill (LowerPermuted s p) i j := by
  rw [Csr.Has, (hf.closed1 hv).2.2.2.2]
  refine ⟨fun h => h.2.2, fun h => ?_⟩
  have := fill_bounds h
  exact ⟨this.2, by omega, h⟩

omit [Zero K] [Sub K] [Mul K] [Div K] in
private theorem cols_eq {s : Sparsity} {p : List Nat} (hv : ValidSparsity s p) {f : DiagFactor K} (hf : f.Declared s p)
    (i : Nat) : f.sparsity.cols i = rowEntriesOf (Fill (LowerPermuted s p)) i :=
  ascending_ext ((hf.closed1 hv).1.ok.good.cols_sorted i) (row_sorted _ _) fun k => by
    rw [Csr.mem_cols, has_iff hv hf, mem_row]
    exact ⟨fun h => ⟨h.lt, h⟩, fun h => h.2⟩

/-- C73: for any arithmetic, the factor of a single matrix is given by the formulas of the method, where `L` has entries
exactly where there is fill-in. -/
theorem C73_factor (s : Sparsity) (p : List Nat) (hv : ValidSparsity s p) (f : DiagFactor K) (hf : f.Declared s p)
    (m : MatIn K) (hm : m.Fits s p) (reg : K → Nat → K) (method : Method) :
    ∃ f', f.factorize m reg method = .ok f' ∧
      FactorFormulas method (Fill (LowerPermuted s p)) s.numRows (fun i j => m.sym (permAt p i) (permAt p j)) f'.lower f'.pivot
        reg ∧
      ∀ i j, ¬ Fill (LowerPermuted s p) i j → f'.lower i j = 0 := by
  obtain ⟨f', h1, -⟩ := C25_factorize_total s p hv f hf m hm reg method
  obtain ⟨hc, -⟩ := hf.closed1 hv
  obtain ⟨L, D, rfl, -, -, hrow⟩ := Sat.of_ok (factorize_sat hc (fits1 hv hf hm) reg method) h1
  have hcommon : ∀ i j, (f.sparsity.cols i).filter (f.sparsity.Has j ·) = commonEntriesOf (Fill (LowerPermuted s p)) i j :=
    fun i j => ascending_ext ((hc.ok.good.cols_sorted i).filter _) (common_sorted _ _ _) fun k => by
      rw [List.mem_filter, Csr.mem_cols, decide_eq_true_eq, has_iff hv hf, has_iff hv hf, mem_common]
      exact ⟨fun h => ⟨h.2.lt, h⟩, fun h => h.2⟩
  have hA : ∀ i j, (if i = j then aDOf (.matrix m) f i else a22Of (.matrix m) f i j) =
      m.sym (permAt p i) (permAt p j) := by
    intro i j
    rw [← hf.perm]
    split
    · rename_i h
      rw [← h]
      rfl
    · rfl
  refine ⟨_, h1, ?_, fun i j h => ?_⟩
  · cases method with
    | upLooking =>
      intro i hi
      obtain ⟨w, h2, h3⟩ := (hrow i hi).abs hc.ok.lower
      refine ⟨w, fun j hj => ?_, fun j hj => (h2 j ((has_iff hv hf i j).mpr hj)).2, ?_⟩
      · rw [subtract_eq, ← hcommon]
        beta_reduce
        rw [← hA]
        exact (h2 j ((has_iff hv hf i j).mpr hj)).1
      · rw [subtract_eq, ← cols_eq hv hf]
        beta_reduce
        rw [← hA]
        exact h3
    | entryWise =>
      intro i hi
      obtain ⟨h2, h3⟩ := (hrow i hi).abs hc.ok.lower
      refine ⟨fun j hj => ?_, ?_⟩
      · rw [subtract_eq, ← hcommon]
        beta_reduce
        rw [← hA]
        exact h2 j ((has_iff hv hf i j).mpr hj)
      · rw [subtract_eq, ← cols_eq hv hf]
        beta_reduce
        rw [← hA]
        exact h3
  · exact val_off fun h' => h ((has_iff hv hf i j).mp h')

omit [Zero K] in
/-- C73: the formulas determine all entries of the factor. -/
theorem C73_determined (method : Method) (P : Nat → Nat → Prop) (n : Nat) (hP : ∀ i j, P i j → j < i)
    (A L L' : Nat → Nat → K) (D D' : Nat → K) (reg : K → Nat → K) (h : FactorFormulas method P n A L D reg)
    (h' : FactorFormulas method P n A L' D' reg) :
    ∀ i < n, (∀ j, P i j → L' i j = L i j) ∧ D' i = D i := by
  have hplaced : Placed (· < n) id (fun i j => i < n ∧ P i j) (commonEntriesOf P) (rowEntriesOf P) P (commonEntriesOf P)
      (rowEntriesOf P) := by
    refine ⟨fun hx hxy => ?_, fun hx hxy => ?_, fun hx => ?_⟩
    · have := hP _ _ hxy.2
      exact ⟨by omega, this, hxy.2⟩
    · rw [List.map_id]
      refine ⟨rfl, fun z hz => ?_⟩
      have h1 := mem_common.mp hz
      have h2 := hP _ _ hxy.2
      exact ⟨⟨hx, h1.2.1⟩, by omega, h1.2.2⟩
    · rw [List.map_id]
      exact ⟨rfl, fun z hz => ⟨hx, (mem_row.mp hz).2⟩⟩
  have key : ∀ {L : Nat → Nat → K} {D : Nat → K}, FactorFormulas method P n A L D reg → ∀ x < n,
      RowAbs method P (commonEntriesOf P) (rowEntriesOf P) A L D (fun i x => reg x i) x := by
    intro L D h x hx
    cases method with
    | upLooking =>
      obtain ⟨w, h1, h2, h3⟩ := h x hx
      refine ⟨w, fun y hy => ⟨?_, h2 y hy⟩, ?_⟩
      · rw [← subtract_eq]
        exact h1 y hy
      · rw [← subtract_eq]
        exact h3
    | entryWise =>
      obtain ⟨h1, h2⟩ := h x hx
      refine ⟨fun y hy => ?_, ?_⟩
      · rw [← subtract_eq]
        exact h1 y hy
      · rw [← subtract_eq]
        exact h2
  intro i hi
  have := hplaced.same (method := method) (A := A) (A' := A) (l := L) (l' := L') (d := D) (d' := D')
    (reg := fun i x => reg x i) (reg' := fun i x => reg x i) (fun x hx => by
      have := key h x hx
      cases method with
      | upLooking =>
        obtain ⟨w, h1, h2⟩ := this
        exact ⟨w, fun y hy => h1 y hy.2, h2⟩
      | entryWise => exact ⟨fun y hy => this.1 y hy.2, this.2⟩) (fun x hx => key h' x hx) (fun _ _ => rfl) (fun _ => rfl)
    (fun _ => rfl) i hi
  exact ⟨fun j hj => this.1 j ⟨hi, hj⟩, this.2⟩

/-- C73: for any arithmetic, solving with the factor of a single matrix is given by formulas. -/
theorem C73_solve (s : Sparsity) (p : List Nat) (hv : ValidSparsity s p) (f : DiagFactor K) (hf : f.Declared s p)
    (b : List K) (hb : b.length = s.numRows) :
    ∃ x, f.solveInPlace b = .ok x ∧ x.length = s.numRows ∧
      SolveFormulas (Fill (LowerPermuted s p)) s.numRows f.lower f.pivot (fun i => b.getD (permAt p i) 0)
        fun i => x.getD (permAt p i) 0 := by
  have hc := (hf.closed1 hv).1
  have hcp : IsPerm f.permutation s.numRows := hc.perm
  obtain ⟨y, h1, h2, h3⟩ := forwardInPlace_sat hc.ok hcp hb
  obtain ⟨z, h4, h5, h6⟩ := diagonalSolve_sat hc.ok hcp h2
  obtain ⟨x, h7, h8, h9⟩ := backwardInPlace_sat hc.ok hcp h5
  rw [hf.perm] at h3 h6 h9
  refine ⟨x, ?_, h8, atp p y, fun i hi => ?_, fun i hi => ?_⟩
  · unfold DiagFactor.solveInPlace
    rw [h1]
    show f.diagonalSolve y >>= _ = _
    rw [h4]
    exact h7
  · rw [subtract_eq, ← cols_eq hv hf]
    exact h3 i hi
  · have hcol : columnEntriesOf (Fill (LowerPermuted s p)) s.numRows i = rowsDown f.sparsity i 0 s.numRows :=
      descending_ext (column_sorted _ _ _) (rowsDown_sorted _ _ _) fun k => by
        rw [mem_column, mem_rowsDown, has_iff hv hf]
    rw [subtract_eq, hcol]
    refine (h9 i hi).trans ?_
    rw [h6 i hi]
    rfl

omit [Zero K] in
/-- C73: the formulas determine the solution. -/
theorem C73_solve_determined (P : Nat → Nat → Prop) (n : Nat) (hP : ∀ i j, P i j → j < i) (L : Nat → Nat → K)
    (D b x x' : Nat → K) (h : SolveFormulas P n L D b x) (h' : SolveFormulas P n L D b x') : ∀ i < n, x' i = x i := by
  obtain ⟨y, h1, h2⟩ := h
  obtain ⟨y', h3, h4⟩ := h'
  have hy : ∀ i, i < n → y' i = y i := by
    intro i
    induction i using Nat.strong_induction_on with
    | _ i ih =>
      intro hi
      rw [h1 i hi, h3 i hi]
      congr 1
      refine List.map_congr_left fun j hj => ?_
      have := (mem_row.mp hj).1
      rw [ih j this (by omega)]
  have hx : ∀ k i, i < n → n - i = k → x' i = x i := by
    intro k
    induction k using Nat.strong_induction_on with
    | _ k ih =>
      intro i hi hk
      rw [h2 i hi, h4 i hi, hy i hi]
      congr 1
      refine List.map_congr_left fun j hj => ?_
      have h5 := mem_column.mp hj
      have h6 := hP _ _ h5.2
      rw [ih (n - j) (by omega) j h5.1 rfl]
  exact fun i hi => hx _ i hi rfl

/-- The entries of the factors of all blocks, by rows of the whole matrix. -/
def wholePattern (T : ArrowheadTypes) (d : Dims) (N : Nat) (r c : Nat) : Prop :=
  ∃ k ∈ positions d N, ∃ l ∈ positions d N, r = d.place N k ∧ c = d.place N l ∧ T.Has N k.1 k.2 l.1 l.2

omit [Zero K] [Sub K] [Mul K] [Div K] in
private theorem typesOk {s : ArrowheadSparsity} {T : ArrowheadTypes} {d : Dims} (hs : s.Valid d)
    (hT : arrowheadTypes s = .ok T) : TypesOk s T d := by
  obtain ⟨T', h, h'⟩ := arrowheadTypes_sat hs
  rw [hT] at h
  cases h
  exact h'

omit [Zero K] [Sub K] [Mul K] [Div K] in
private theorem whole_eq {s : ArrowheadSparsity} {T : ArrowheadTypes} {d : Dims} {N : Nat} {S : Sparsity} {P : List Nat}
    (hA : S.Assembles P s T d N) : Fill (LowerPermuted S P) = wholePattern T d N := by
  funext r c
  refine propext ⟨fun h => ?_, fun h => ?_⟩
  · have hb := fill_bounds h
    rw [hA.size] at hb
    obtain ⟨k, hk, rfl⟩ := exists_place (d := d) (N := N) hb.2 T
    obtain ⟨l, hl, rfl⟩ := exists_place (d := d) (N := N) (r := c) (by omega) T
    exact ⟨k, hk, l, hl, rfl, rfl, (hA.pattern k hk l hl).mp h⟩
  · obtain ⟨k, hk, l, hl, rfl, rfl, h⟩ := h
    exact (hA.pattern k hk l hl).mpr h

/-- Numbers for the whole matrix which are given by blocks. -/
private theorem exists_whole (T : ArrowheadTypes) (d : Dims) (N : Nat) :
    ∃ e : Nat → Σ _ : Blk, Nat, ∀ k ∈ positions d N, e (d.place N k) = k := by
  have hex : ∀ r, ∃ k, r < d.total N → k ∈ positions d N ∧ d.place N k = r := fun r => by
    by_cases hr : r < d.total N
    · obtain ⟨k, hk, h⟩ := exists_place hr T
      exact ⟨k, fun _ => ⟨hk, h⟩⟩
    · exact ⟨⟨.start, 0⟩, fun h => absurd h hr⟩
  choose e he using hex
  exact ⟨e, fun k hk => place_inj T (he _ (place_lt hk T)).1 hk (he _ (place_lt hk T)).2⟩

omit [Zero K] [Sub K] [Mul K] [Div K] in
private theorem before_outer {d : Dims} {N : Nat} {k : Σ _ : Blk, Nat} (hk : k ∈ positions d N) :
    d.before N .outer ≤ d.place N k ↔ N + 2 + 1 ≤ (chainPos N k).1 := by
  obtain ⟨a, i⟩ := k
  obtain ⟨ha, hi⟩ := mem_positions.mp hk
  unfold Dims.place chainPos
  cases a with
  | tridiag t =>
    have ht := mem_blocks.mp ha t rfl
    have := Nat.mul_le_mul_right d.tridiag (show t + 1 ≤ N + 1 by omega)
    simp only [Dims.before, Blk.rank, Dims.of, Nat.add_mul] at *
    omega
  | _ =>
    simp only [Dims.before, Blk.rank, Dims.of] at *
    omega

omit [Zero K] [Sub K] [Mul K] [Div K] in
private theorem before_link {d : Dims} {N : Nat} {k : Σ _ : Blk, Nat} (hk : k ∈ positions d N) :
    d.place N k < d.before N .link ↔ (chainPos N k).1 < N + 2 := by
  obtain ⟨a, i⟩ := k
  obtain ⟨ha, hi⟩ := mem_positions.mp hk
  unfold Dims.place chainPos
  cases a with
  | tridiag t =>
    have ht := mem_blocks.mp ha t rfl
    have := Nat.mul_le_mul_right d.tridiag (show t + 1 ≤ N + 1 by omega)
    simp only [Dims.before, Blk.rank, Dims.of, Nat.add_mul] at *
    omega
  | _ =>
    simp only [Dims.before, Blk.rank, Dims.of, Nat.add_mul] at *
    omega

/-- C73: for any arithmetic, the factor of a repeating block matrix is given by the same formulas for the whole matrix,
whose rows are those of the blocks one after the other, in the order of the permutation of each block. With the
entry-wise method the up-looking method is used for the rows of the outer block and the columns before the block of the
links. -/
theorem C73_repeating (s : ArrowheadSparsity) (d : Dims) (hs : s.Valid d) (T : ArrowheadTypes) (N : Nat)
    (hsmall : d.total N ≤ noParent) (f : ArrowheadFactor K) (hf : f.Declared s T d N) (m : ArrowheadMatrix K)
    (hm : m.Fits s T d N) (reg reg' : K → Nat → K)
    (hreg : ∀ k ∈ positions d N, ∀ x, reg' x (d.place N k) = reg x k.2) (method : Method) :
    ∃ f', f.factorize d.tridiag d.link d.outer m reg method = .ok f' ∧ ∃ (A L : Nat → Nat → K) (D : Nat → K),
      (∀ k ∈ positions d N, ∀ l ∈ positions d N, A (d.place N k) (d.place N l) =
        m.symElement N k.1 l.1 (permAt (s.perm k.1) k.2) (permAt (s.perm l.1) l.2)) ∧
      (∀ k ∈ positions d N, ∀ l ∈ positions d N, L (d.place N k) (d.place N l) = f'.storedAt N k l) ∧
      (∀ k ∈ positions d N, D (d.place N k) = f'.pivotAt k.1 k.2) ∧
      match method with
      | .upLooking => UpLookingFormulas (wholePattern T d N) (d.total N) A L D reg'
      | .entryWise => EntryWiseOuterFormulas (wholePattern T d N) (d.total N) (d.before N .link) (d.before N .outer) A L D
          reg' := by
  have hT := typesOk hs hf.types
  have hX := chainPat_ok hT N
  have hO := chainOff_offsets T d N
  obtain ⟨S, P, hv, hA, -⟩ := C71_assembled s d hs T hf.types N hsmall
  obtain ⟨c, hc, -⟩ := factorizationSparsity_sat hv.inRange hv.square hv.perm hv.small
  let g : DiagFactor K := ⟨c, P, List.replicate c.entries.length 0, List.replicate S.numRows 0⟩
  have hg : g.Declared S P := ⟨hc, rfl, List.length_replicate, List.length_replicate⟩
  have hcsr := hA.csr hv hg
  have hpl := hcsr.placed hX hO
  have hhas : g.sparsity.Has = wholePattern T d N := by
    funext i j
    exact (propext (has_iff hv hg i j)).trans (by rw [whole_eq hA])
  have hcols : g.sparsity.cols = rowEntriesOf (wholePattern T d N) := by
    funext i
    rw [cols_eq hv hg, whole_eq hA]
  have hcommon : (fun i j => (g.sparsity.cols i).filter (g.sparsity.Has j ·)) = commonEntriesOf (wholePattern T d N) := by
    funext i j
    refine ascending_ext (((hg.closed1 hv).1.ok.good.cols_sorted i).filter _) (common_sorted _ _ _) fun k => ?_
    rw [List.mem_filter, Csr.mem_cols, decide_eq_true_eq, has_iff hv hg, has_iff hv hg, mem_common, whole_eq hA]
    refine ⟨fun h => ⟨?_, h⟩, fun h => h.2⟩
    rw [← whole_eq hA] at h
    exact h.2.lt
  rw [hcommon, hhas, hcols] at hpl
  obtain ⟨f', h1, hd⟩ := C21_factorize_total s d hs T N f hf m hm reg method
  obtain ⟨-, hrows⟩ := Sat.of_ok (arrowheadFactorize_sat hs hT hf hm.matrixOk reg method) h1
  obtain ⟨e, he⟩ := exists_whole T d N
  let A : Nat → Nat → K := fun r c =>
    m.symElement N (e r).1 (e c).1 (permAt (s.perm (e r).1) (e r).2) (permAt (s.perm (e c).1) (e c).2)
  let L : Nat → Nat → K := fun r c => f'.storedAt N (e r) (e c)
  let D : Nat → K := fun r => f'.pivotAt (e r).1 (e r).2
  refine ⟨f', h1, A, L, D, fun k hk l hl => ?_, fun k hk l hl => ?_, fun k hk => ?_, ?_⟩
  · show m.symElement N _ _ _ _ = _
    rw [he k hk, he l hl]
  · show f'.storedAt N _ _ = _
    rw [he k hk, he l hl]
  · show f'.pivotAt _ _ = _
    rw [he k hk]
  have key : ∀ k ∈ positions d N, ∀ (U : (Σ _ : Nat, Nat) → Bool) (U' : Nat → Bool),
      (∀ l ∈ positions d N, U' (d.place N l) = U (chainPos N l)) →
      MixAbs U (posHas (chainPat T d N) (N + 2)) (numList (chainPat T d N) (N + 2)) (pivList (chainPat T d N) (N + 2))
        (posA (N + 2) (m.chainInput s N)) (posVal (chainPat T d N) (N + 2) (f'.chainVals N))
        (posD (N + 2) (f'.chainVals N)) (fun x a => reg a x.2) (chainPos N k) →
      MixAbs U' (wholePattern T d N) (commonEntriesOf (wholePattern T d N)) (rowEntriesOf (wholePattern T d N)) A L D
        (fun i x => reg' x i) (d.place N k) := by
    intro k hk U U' hU h
    have k1 := (mem_positions.mp hk).1
    have := hpl.mix (inv := fun j => chainPos N (e j)) (fun y hy => ?_) (fun {x} hx j hj => ?_) (U := U) (U' := U')
      (fun {z} hz => ?_) (chainPos_mem hk) h (A' := A) (l' := L) (d' := D) (reg' := fun i x => reg' x i)
      (fun {y} hy => ?_) (fun {x y} hx hy => ?_) (fun {x} hx => ?_) ?_
    · rw [place_eq k1]
      exact this
    · obtain ⟨l, hl, rfl⟩ := exists_chainPos hy
      rw [← place_eq (mem_positions.mp hl).1, he l hl]
    · obtain ⟨k', hk', l', hl', h2, rfl, h3⟩ := hj
      obtain ⟨k, hk, rfl⟩ := exists_chainPos hx
      rw [← place_eq (mem_positions.mp hk).1] at h2
      obtain rfl := place_inj T hk hk' h2
      exact ⟨chainPos N l', (posHas_chainPos (mem_positions.mp hk).1 (mem_positions.mp hl').1).mpr h3,
        (place_eq (mem_positions.mp hl').1).symm⟩
    · obtain ⟨l, hl, rfl⟩ := exists_chainPos hz
      rw [← place_eq (mem_positions.mp hl).1]
      exact hU l hl
    · obtain ⟨l, hl, rfl⟩ := exists_chainPos hy
      rw [← place_eq (mem_positions.mp hl).1, ← place_eq k1]
      show m.symElement N _ _ _ _ = _
      rw [he k hk, he l hl]
      exact matrix_symElement_eq hm.numSubdiag hm.numOuter k1 (mem_positions.mp hl).1 k.2 l.2
    · obtain ⟨k, hk, rfl⟩ := exists_chainPos hx
      obtain ⟨l, hl, rfl⟩ := exists_chainPos hy
      rw [← place_eq (mem_positions.mp hl).1, ← place_eq (mem_positions.mp hk).1]
      show f'.storedAt N _ _ = _
      rw [he k hk, he l hl, storedAt_chainPos hd (mem_positions.mp hk).1 (mem_positions.mp hl).1]
    · obtain ⟨k, hk, rfl⟩ := exists_chainPos hx
      rw [← place_eq (mem_positions.mp hk).1]
      show f'.pivotAt _ _ = _
      rw [he k hk]
      exact factor_pivotAt_eq hd (mem_positions.mp hk).1 k.2
    · funext a
      rw [← place_eq k1]
      exact hreg k hk a
  cases method with
  | upLooking =>
    intro i hi
    obtain ⟨k, hk, rfl⟩ := exists_place (d := d) (N := N) hi T
    obtain ⟨w, h2, h3, h4⟩ := key k hk (fun _ => true) (fun _ => true) (fun _ _ => rfl)
      ((hrows.abs hX (.inl rfl) _ (chainPos_mem hk)).mix_up fun _ => rfl)
    refine ⟨w, fun j hj => ?_, h3, ?_⟩
    · rw [subtract_eq]
      exact h2 j hj
    · rw [subtract_eq]
      exact h4
  | entryWise =>
    intro i hi
    obtain ⟨k, hk, rfl⟩ := exists_place (d := d) (N := N) hi T
    obtain ⟨w, h2, h3, h4⟩ := key k hk _ (fun j => decide (d.before N .outer ≤ d.place N k ∧ j < d.before N .link))
      (fun l hl => decide_eq_decide.mpr (and_congr (before_outer hk) (before_link hl))) (hrows.mix hX _ (chainPos_mem hk))
    simp only [decide_eq_true_eq] at h2 h4
    refine ⟨w, fun j hj => ?_, h3, ?_⟩
    · rw [subtract_eq]
      exact h2 j hj
    · rw [subtract_eq]
      exact h4

omit [Zero K] in
/-- C73: without outer block these are the formulas of the entry-wise method. -/
theorem C73_without_outer (P : Nat → Nat → Prop) (n c o : Nat) (ho : n ≤ o) (A L : Nat → Nat → K) (D : Nat → K)
    (reg : K → Nat → K) : EntryWiseOuterFormulas P n c o A L D reg ↔ EntryWiseFormulas P n A L D reg := by
  have hno : ∀ i < n, ∀ k, ¬ (o ≤ i ∧ k < c) := fun i hi k h => by omega
  refine ⟨fun h i hi => ?_, fun h i hi => ?_⟩
  · obtain ⟨w, h1, h2, h3⟩ := h i hi
    simp only [if_neg (hno i hi _)] at h1 h3
    exact ⟨fun j hj => by rw [h2 j hj, h1 j hj], h3⟩
  · obtain ⟨h1, h2⟩ := h i hi
    refine ⟨fun j => subtractInOrder (A i j) ((commonEntriesOf P i j).map fun k => L i k * L j k * D k), fun j hj => ?_, h1, ?_⟩
    · simp only [if_neg (hno i hi _)]
    · simp only [if_neg (hno i hi _)]
      exact h2

omit [Zero K] in
/-- C73: the formulas with outer block determine all entries of the factor, too. -/
theorem C73_determined_outer (P : Nat → Nat → Prop) (n c o : Nat) (hP : ∀ i j, P i j → j < i)
    (A L L' : Nat → Nat → K) (D D' : Nat → K) (reg : K → Nat → K) (h : EntryWiseOuterFormulas P n c o A L D reg)
    (h' : EntryWiseOuterFormulas P n c o A L' D' reg) :
    ∀ i < n, (∀ j, P i j → L' i j = L i j) ∧ D' i = D i := by
  intro i
  induction i using Nat.strong_induction_on with
  | _ i ih =>
    intro hi
    obtain ⟨w, h1, h2, h3⟩ := h i hi
    obtain ⟨w', h1', h2', h3'⟩ := h' i hi
    have key : ∀ j, P i j → w' j = w j ∧ L' i j = L i j := by
      intro j
      induction j using Nat.strong_induction_on with
      | _ j ihj =>
        intro hj
        have hji := hP i j hj
        obtain ⟨i1, i2⟩ := ih j hji (by omega)
        have hw : w' j = w j := by
          rw [h1 j hj, h1' j hj]
          congr 1
          refine List.map_congr_left fun k hk => ?_
          obtain ⟨k1, k2, k3⟩ := mem_common.mp hk
          obtain ⟨e1, e2⟩ := ihj k k1 k2
          rw [i1 k k3, e1, e2, (ih k (by omega) (by omega)).2]
        exact ⟨hw, by rw [h2 j hj, h2' j hj, hw, i2]⟩
    refine ⟨fun j hj => (key j hj).2, ?_⟩
    rw [h3, h3']
    congr 2
    refine List.map_congr_left fun k hk => ?_
    obtain ⟨k1, k2⟩ := mem_row.mp hk
    rw [(key k k2).1, (key k k2).2, (ih k k1 (by omega)).2]

/-- C73: for any arithmetic, solving with the factor of a repeating block matrix, however it was computed, is given by the
formulas for the whole matrix. -/
theorem C73_repeating_solve (s : ArrowheadSparsity) (d : Dims) (hs : s.Valid d) (T : ArrowheadTypes) (N : Nat)
    (hsmall : d.total N ≤ noParent) (f : ArrowheadFactor K) (hf : f.Declared s T d N) (b : ArrowheadVector K)
    (hb : b.OfSize d N) :
    ∃ x, f.solveInPlace b = .ok x ∧ ∃ (L : Nat → Nat → K) (D v w : Nat → K),
      (∀ k ∈ positions d N, ∀ l ∈ positions d N, L (d.place N k) (d.place N l) = f.storedAt N k l) ∧
      (∀ k ∈ positions d N, D (d.place N k) = f.pivotAt k.1 k.2) ∧
      (∀ k ∈ positions d N, v (d.place N k) = b.at k.1 (permAt (s.perm k.1) k.2)) ∧
      (∀ k ∈ positions d N, w (d.place N k) = x.at k.1 (permAt (s.perm k.1) k.2)) ∧
      SolveFormulas (wholePattern T d N) (d.total N) L D v w := by
  obtain ⟨S, P, hv, hA, -⟩ := C71_assembled s d hs T hf.types N hsmall
  obtain ⟨c, hc, -⟩ := factorizationSparsity_sat hv.inRange hv.square hv.perm hv.small
  obtain ⟨e, he⟩ := exists_whole T d N
  let g : DiagFactor K := ⟨c, P, c.entries.map fun x => f.storedAt N (e x.row) (e x.col),
    (List.range S.numRows).map fun r => f.pivotAt (e r).1 (e r).2⟩
  have hg : g.Declared S P := ⟨hc, rfl, by simp [g], by simp [g]⟩
  have hl : ∀ k ∈ positions d N, ∀ l ∈ positions d N, g.lower (d.place N k) (d.place N l) = f.storedAt N k l := by
    intro k hk l hl
    have k1 := (mem_positions.mp hk).1
    have l1 := (mem_positions.mp hl).1
    unfold DiagFactor.lower MatIn.elem
    by_cases h : g.sparsity.Has (d.place N k) (d.place N l)
    · have hmem : (⟨d.place N k, d.place N l⟩ : Entry) ∈ c.entries := h
      rw [if_pos (show g.sparsity.toSparsity.Has _ _ from h)]
      dsimp only [g]
      rw [List.getD_eq_getElem _ _ (by simpa using List.idxOf_lt_length_of_mem hmem), List.getElem_map,
        List.getElem_idxOf, he k hk, he l hl]
    · rw [if_neg (show ¬ g.sparsity.toSparsity.Has _ _ from h), storedAt_chainPos hf k1 l1, posVal, if_neg]
      rw [posHas_chainPos k1 l1, ← hA.pattern k hk l hl, ← has_iff hv hg]
      exact h
  have hp : ∀ k ∈ positions d N, g.pivot (d.place N k) = f.pivotAt k.1 k.2 := by
    intro k hk
    unfold DiagFactor.pivot
    dsimp only [g]
    rw [List.getD_eq_getElem _ _ (by simpa [hA.size] using place_lt hk T), List.getElem_map, List.getElem_range, he k hk]
  obtain ⟨x, h1, hxs, h2⟩ := assembled_solve hs hf hv hg hA hl hp hb
  obtain ⟨y, h3, -, h4⟩ := C73_solve S P hv g hg b.flat ((flat_length hb).trans hA.size.symm)
  rw [h2] at h3
  cases h3
  rw [whole_eq hA, hA.size] at h4
  have hperm := (permPos_facts hs N).1
  have hat : ∀ {v : ArrowheadVector K}, v.OfSize d N → ∀ k ∈ positions d N,
      v.flat.getD (permAt P (d.place N k)) 0 = v.at k.1 (permAt (s.perm k.1) k.2) := by
    intro v hv k hk
    have hp := mem_positions.mp (hperm k hk)
    rw [hA.order k hk]
    exact flat_at hv ⟨hp.1, hp.2, rfl⟩
  exact ⟨x, h1, g.lower, g.pivot, _, _, hl, hp, hat hb, hat hxs, h4⟩

/-- The factor of the matrix with rows `5 1` and `1 1/4` in double precision, by both methods: the second pivot is
`1/4 - 1 * (1 / 5)` or `1/4 - 1/5 * 1/5 * 5`, each operation rounded. -/
example (c : Csr) (hc : factorizationSparsity edgeWholeS [0, 1] = .ok c) (method : Method) :
    ∃ g', (⟨c, [0, 1], .replicate c.entries.length 0, [0, 0]⟩ : DiagFactor Double).factorize edgeWholeM regularizationNone
        method = .ok g' ∧
      g'.pivot 1 = match (generalizing := false) method with
        | .upLooking => dbl (1 / 4) - dbl 1 * (dbl 1 / dbl 5)
        | .entryWise => dbl (1 / 4) - dbl 1 / dbl 5 * (dbl 1 / dbl 5) * dbl 5 := by
  obtain ⟨g', h1, h2, -⟩ := C73_factor edgeWholeS [0, 1] edgeWholeS_valid
    (⟨c, [0, 1], .replicate c.entries.length 0, [0, 0]⟩ : DiagFactor Double) ⟨hc, rfl, List.length_replicate, rfl⟩ edgeWholeM
    ⟨rfl, edgeWholeS_valid.inRange, rfl, rfl, fun _ _ h => .base h h.1⟩ regularizationNone method
  have hfill : Fill (LowerPermuted edgeWholeS [0, 1]) 1 0 := .base (by unfold LowerPermuted; decide) (by decide)
  have hnone : ∀ j, commonEntriesOf (Fill (LowerPermuted edgeWholeS [0, 1])) j 0 = [] := fun _ => rfl
  have hrow0 : rowEntriesOf (Fill (LowerPermuted edgeWholeS [0, 1])) 0 = [] := rfl
  have hrow1 : rowEntriesOf (Fill (LowerPermuted edgeWholeS [0, 1])) 1 = [0] := by
    unfold rowEntriesOf
    simp [hfill]
  refine ⟨g', h1, ?_⟩
  cases method with
  | upLooking =>
    obtain ⟨_, -, -, h3⟩ := h2 0 (by decide)
    obtain ⟨w, h4, -, h5⟩ := h2 1 (by decide)
    rw [hrow0] at h3
    have h6 := h4 0 hfill
    rw [hnone] at h6
    rw [hrow1] at h5
    rw [h5]
    show _ - w 0 * (w 0 / g'.pivot 0) = _
    rw [h6, h3]
    rfl
  | entryWise =>
    obtain ⟨-, h3⟩ := h2 0 (by decide)
    obtain ⟨h4, h5⟩ := h2 1 (by decide)
    rw [hrow0] at h3
    have h6 := h4 0 hfill
    rw [hnone] at h6
    rw [hrow1] at h5
    rw [h5]
    show _ - g'.lower 1 0 * g'.lower 1 0 * g'.pivot 0 = _
    rw [h6, h3]
    rfl

/-- The hypotheses for repeating block matrices are met by `arrowM` in double precision. -/
example (T : ArrowheadTypes) (hT : arrowheadTypes arrowS = .ok T) :
    ∃ f', (freshFactor arrowS T arrowD 1 (0 : Double)).factorize 2 1 1 doubleM regularizationNone .upLooking = .ok f' ∧
      ∃ (A L : Nat → Nat → Double) (D : Nat → Double), D 6 = f'.pivotAt .outer 0 ∧
        UpLookingFormulas (wholePattern T arrowD 1) 7 A L D regularizationNone := by
  obtain ⟨f', h1, A, L, D, -, -, h2, h3⟩ := C73_repeating arrowS arrowD arrowS_valid T 1 (by decide) _
    (C21_constructible arrowS arrowD T hT 1 (0 : Double)) doubleM ((arrowM_fits hT).map _) regularizationNone
    regularizationNone (fun _ _ _ => rfl) .upLooking
  exact ⟨f', h1, A, L, D, h2 ⟨.outer, 0⟩ (by decide), h3⟩

/-- The same with the entry-wise method: the rows from row 6 on are those of the outer block, the columns before column 5
those of the first blocks. The solution for a right-hand side is given by formulas, too. -/
example (T : ArrowheadTypes) (hT : arrowheadTypes arrowS = .ok T) :
    ∃ f' x, (freshFactor arrowS T arrowD 1 (0 : Double)).factorize 2 1 1 doubleM regularizationNone .entryWise = .ok f' ∧
      f'.solveInPlace ⟨[dbl 1], [[dbl 2, dbl 3], [dbl 4, dbl 5]], [dbl 6], [dbl 7]⟩ = .ok x ∧
      (∃ (A L : Nat → Nat → Double) (D : Nat → Double), D 6 = f'.pivotAt .outer 0 ∧
        EntryWiseOuterFormulas (wholePattern T arrowD 1) 7 5 6 A L D regularizationNone) ∧
      ∃ (L : Nat → Nat → Double) (D v w : Nat → Double), v 6 = dbl 7 ∧ w 6 = x.at .outer 0 ∧
        SolveFormulas (wholePattern T arrowD 1) 7 L D v w := by
  have hf := C21_constructible arrowS arrowD T hT 1 (0 : Double)
  obtain ⟨f', h1, A, L, D, -, -, h2, h3⟩ := C73_repeating arrowS arrowD arrowS_valid T 1 (by decide) _ hf doubleM
    ((arrowM_fits hT).map _) regularizationNone regularizationNone (fun _ _ _ => rfl) .entryWise
  obtain ⟨f'', h4, hf'⟩ := C21_factorize_total arrowS arrowD arrowS_valid T 1 _ hf doubleM ((arrowM_fits hT).map _)
    regularizationNone .entryWise
  rw [h1] at h4
  cases h4
  obtain ⟨x, h5, L', D', v, w, -, -, h6, h7, h8⟩ := C73_repeating_solve arrowS arrowD arrowS_valid T 1 (by decide) f' hf'
    ⟨[dbl 1], [[dbl 2, dbl 3], [dbl 4, dbl 5]], [dbl 6], [dbl 7]⟩ ⟨rfl, rfl, by simp [arrowD], rfl, rfl⟩
  exact ⟨f', x, h1, h5, ⟨A, L, D, h2 ⟨.outer, 0⟩ (by decide), h3⟩, L', D', v, w, h6 ⟨.outer, 0⟩ (by decide),
    h7 ⟨.outer, 0⟩ (by decide), h8⟩

end Ctldl
