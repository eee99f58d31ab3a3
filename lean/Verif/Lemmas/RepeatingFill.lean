import Verif.Lemmas.RepeatingTree

/-! # Fill-in of repeating block tridiagonal arrowhead matrices: helper lemmas -/

namespace Ctldl

/-- Columns of outer row `o` reached from the pattern `C` by following successors. -/
def OuterReach (n : Nat) (T : Nat → Option Nat) (C : Nat → Nat → Prop) (o j : Nat) : Prop :=
  ∃ j0, C o j0 ∧ Relation.ReflTransGen (fun a b => outerNext n T a = b) j0 j

theorem OuterReach.closed (n : Nat) (T : Nat → Option Nat) (C : Nat → Nat → Prop) (o : Nat) :
    OuterClosed n T (OuterReach n T C o) := by
  rintro m ⟨j0, h1, h2⟩
  exact ⟨j0, h1, h2.tail rfl⟩

theorem reach_iff_reflTransGen {next : Nat → Nat} {j k : Nat} :
    Reach next (fun _ => False) j k ↔ Relation.ReflTransGen (fun a b => next a = b) j k := by
  constructor
  · intro h
    induction h with
    | refl _ => exact .refl
    | step _ _ ih => exact Relation.ReflTransGen.head rfl ih
  · intro h
    induction h using Relation.ReflTransGen.head_induction_on with
    | refl => exact .refl (fun h => h)
    | head hab _ ih => subst hab; exact .step (fun h => h) ih

/-- State after visiting the outer rows below `i`. -/
structure OuterInv (n i : Nat) (calls0 : List Entry) (O : Nat → Nat → Prop) (st : List Nat × List Entry) :
    Prop where
  length : st.1.length = n
  visitor : ∀ m < n, ∃ v, st.1[m]? = some v ∧ v < i + 2 * n
  nodup : st.2.Nodup
  calls : ∀ e : Entry, e ∈ st.2 ↔ e ∈ calls0 ∨ (2 * n ≤ e.row ∧ e.row < i + 2 * n ∧ O (e.row - 2 * n) e.col)

theorem OuterInv.init {n : Nat} {calls0 : List Entry} (hnd : calls0.Nodup) (O : Nat → Nat → Prop) :
    OuterInv n 0 calls0 O (List.range n, calls0) := by
  refine ⟨by simp, ?_, hnd, ?_⟩
  · intro m hm
    exact ⟨m, by simp [hm], by omega⟩
  · intro e
    simp only
    constructor
    · exact Or.inl
    · rintro (h | ⟨h1, h2, -⟩)
      · exact h
      · omega

theorem outerRow_sat {c : Csr} (hc : c.Ok) {n i : Nat} {tree : List Nat} (ht : tree.length = 2 * n)
    (cc : c.numCols = n) (hi : i < c.numRows)
    {calls0 : List Entry} (hc0 : ∀ e ∈ calls0, e.row < 2 * n) {st : List Nat × List Entry}
    (h : OuterInv n i calls0 (OuterReach n (parOf tree) c.pat) st) :
    Sat (foreachAncestorInSubtreeRepeatingOuter c tree i st (2 * n))
      (OuterInv n (i + 1) calls0 (OuterReach n (parOf tree) c.pat)) := by
  unfold foreachAncestorInSubtreeRepeatingOuter
  have hstart : RowState n (i + 2 * n) (outerNext n (parOf tree)) (fun _ => False) st.1 st.2 (fun _ => False) st := by
    refine ⟨h.length, ⟨[], by simp⟩, ?_, ?_⟩
    · intro m hm
      obtain ⟨v, hv, h1⟩ := h.visitor m hm
      unfold Marked
      rw [hv]
      simp only [Option.some.injEq, or_self, iff_false]
      omega
    · intro m hm _
      exfalso
      have hml := (List.getElem?_eq_some_iff.mp hm).1
      obtain ⟨v, hv, h1⟩ := h.visitor m (by have := h.length; omega)
      unfold Marked at hm
      rw [hv] at hm
      simp only [Option.some.injEq] at hm
      omega
  refine Sat.mono (visitRow_sat hc (Live := fun m => m < n) (co := 0) hi (fun m hm => hm) ?_ ?_ hstart) ?_
  · intro m hm _
    rw [h.length]
    unfold getParentOuter outerNext
    rw [hasParent_eq (by omega), ok_bind]
    cases hp : parOf tree m with
    | none => exact ⟨rfl, hm⟩
    | some p =>
      rw [if_neg (by simp), getParent_eq hp, ok_bind, umod_ok (by omega)]
      exact ⟨rfl, Nat.mod_lt _ (by omega)⟩
  · intro j hj
    have := (hc.inRange _ hj).2
    simp only at this ⊢
    omega
  · intro st' hst'
    obtain ⟨l, g1, g2, g3, g4, g5⟩ := hst'.calls
    have hl : ∀ m, m ∈ l ↔ OuterReach n (parOf tree) c.pat i m := by
      intro m
      rw [g3 m]
      simp only [false_or, not_false_eq_true, and_true, Nat.add_zero]
      unfold OuterReach
      simp only [reach_iff_reflTransGen]
    refine ⟨hst'.length, ?_, ?_, ?_⟩
    · intro m hm
      by_cases hml : m ∈ l
      · exact ⟨_, (hst'.marked m hm).mpr (Or.inl ((g3 m).mp hml).1), by omega⟩
      · rw [g5 m hml]
        obtain ⟨v, hv, h1⟩ := h.visitor m hm
        exact ⟨v, hv, by omega⟩
    · rw [g1, List.nodup_append]
      refine ⟨h.nodup, ?_, ?_⟩
      · exact List.Nodup.map (fun a b hab => by simpa using hab) g2
      · rintro e he e' he' rfl
        obtain ⟨k, -, rfl⟩ := List.mem_map.mp he'
        rcases (h.calls _).mp he with he | ⟨-, he, -⟩
        · have := hc0 _ he
          simp only at this
          omega
        · simp only at he
          omega
    · intro e
      rw [g1, List.mem_append, h.calls e]
      constructor
      · rintro ((h1 | ⟨h1, h2, h3⟩) | h1)
        · exact Or.inl h1
        · exact Or.inr ⟨h1, by omega, h3⟩
        · obtain ⟨k, hk, rfl⟩ := List.mem_map.mp h1
          refine Or.inr ⟨by simp only; omega, by simp only; omega, ?_⟩
          simp only [Nat.add_sub_cancel]
          exact (hl k).mp hk
      · rintro (h1 | ⟨h1, h2, h3⟩)
        · exact Or.inl (Or.inl h1)
        · rcases (show e.row < i + 2 * n ∨ e.row = i + 2 * n by omega) with h4 | h4
          · exact Or.inl (Or.inr ⟨h1, h4, h3⟩)
          · right
            rw [h4, Nat.add_sub_cancel] at h3
            exact List.mem_map.mpr ⟨e.col, (hl _).mpr h3, by cases e; simp_all⟩

theorem OuterReach.col_lt {n : Nat} {T : Nat → Option Nat} {C : Nat → Nat → Prop} (hC : ∀ o j, C o j → j < n)
    {o j : Nat} (h : OuterReach n T C o j) : j < n := by
  obtain ⟨j0, h1, h2⟩ := h
  induction h2 with
  | refl => exact hC _ _ h1
  | @tail a b _ hab ih =>
    subst hab
    unfold outerNext
    split
    · exact ih
    · exact Nat.mod_lt _ (by omega)

theorem OuterReach.row {n : Nat} {T : Nat → Option Nat} {C : Nat → Nat → Prop} {m : Nat}
    (hC : ∀ o j, C o j → o < m) {o j : Nat} (h : OuterReach n T C o j) : o < m := by
  obtain ⟨j0, h1, -⟩ := h
  exact hC _ _ h1

/-- The two visited blocks together: what the first loop calls. -/
theorem foreachNonZeroWithFillRepeatingArrowhead_sat {spA spB spC : Csr} {n : Nat} (hA : spA.Ok) (hB : spB.Ok)
    (hC : spC.Ok) (rA : spA.numRows = n) (cA : spA.numCols = n) (rB : spB.numRows = n) (cB : spB.numCols = n)
    (cC : spC.numCols = n) (hlow : ∀ i j, spA.toSparsity.Has i j → j < i) (hn : 2 * n ≤ noParent) :
    Sat (foreachNonZeroWithFillRepeatingArrowhead spA spB spC) (fun calls => calls.Nodup ∧
      ∃ k F T, RepIter n spA.pat spB.pat k F ∧ RepFix n spA.pat spB.pat F T ∧
        ∀ e : Entry, e ∈ calls ↔ (n ≤ e.row ∧ e.row < 2 * n ∧ Fill (stepGraph n spA.pat spB.pat F) e.row e.col) ∨
          (2 * n ≤ e.row ∧ e.row < 2 * n + spC.numRows ∧ OuterReach n T spC.pat (e.row - 2 * n) e.col)) := by
  unfold foreachNonZeroWithFillRepeatingArrowhead
  rw [pre_true (by simp [isSquare, rA, cA]), ok_bind, pre_true (by simp [isSquare, rB, cB]), ok_bind,
    pre_true (by simp [rA, rB]), ok_bind, pre_true (by simp [cA, cC]), ok_bind]
  simp only
  unfold computeEliminationTreeRepeating
  refine Sat.bind (computeEliminationTreeRepeatingFuel_sat hA hB rA cA rB cB hlow hn (by rw [rA])) ?_
  rintro tree ⟨hlen, k, F, hk, hfix⟩
  have hT := hfix.tree
  have hb := hfix.blocks
  rw [rA]
  refine Sat.bind (foldlM_range_inv (fun i st => VisInv (2 * n) (i + n)
    (fun i j => n ≤ i ∧ Fill (stepGraph n spA.pat spB.pat F) i j) st)
    (by rw [Nat.zero_add]; exact VisInv.init _ _ (fun i j h => h.1)) ?_) ?_
  · intro i st hi hinv
    refine Sat.bind (visitTreeRow_sat hB hT (r := i) (ro := n) (co := 0) (by omega) (by omega)
      (fun j hj => ?_) (hinv.rowStart _)) ?_
    · have := hb.sub _ _ hj
      exact ⟨Or.inr (Or.inl ⟨by omega, by rw [Nat.add_sub_cancel]; exact hj⟩), by omega⟩
    intro st' hst'
    refine Sat.mono (visitTreeRow_sat hA hT (r := i) (ro := n) (co := n) (by omega) (by omega)
      (fun j hj => ?_) hst') ?_
    · have := hb.diag _ _ hj
      exact ⟨Or.inr (Or.inr ⟨by omega, by omega, by rw [Nat.add_sub_cancel, Nat.add_sub_cancel]; exact hj⟩),
        by omega⟩
    intro st'' hst''
    rw [show i + 1 + n = i + n + 1 by omega]
    refine hinv.rowEnd hst'' (fun m h => h.2.lt) ?_
    intro m
    rw [hT.fill_row]
    simp only [false_or, Nat.add_zero]
    constructor
    · rintro ⟨⟨j, h1, h2, h3⟩ | ⟨j, h1, h2, h3⟩, -⟩
      · have := hb.sub _ _ h1
        exact ⟨by omega, h3, j, by omega, Or.inr (Or.inl ⟨by omega, by rw [Nat.add_sub_cancel]; exact h1⟩), h2⟩
      · have := hb.diag _ _ h1
        exact ⟨by omega, h3, j + n, by omega,
          Or.inr (Or.inr ⟨by omega, by omega, by rw [Nat.add_sub_cancel, Nat.add_sub_cancel]; exact h1⟩), h2⟩
    · rintro ⟨-, h3, j, -, h1, h2⟩
      refine ⟨?_, by omega⟩
      rcases h1 with h | ⟨h4, h⟩ | ⟨h4, h5, h⟩
      · have := hfix.front _ _ h; omega
      · rw [Nat.add_sub_cancel] at h; exact Or.inl ⟨j, h, h2, h3⟩
      · rw [Nat.add_sub_cancel] at h
        refine Or.inr ⟨j - n, h, ?_, h3⟩
        rw [show j - n + n = j by omega]; exact h2
  intro st hst
  refine Sat.bind (foldlM_range_inv (fun i st' => OuterInv n i st.2 (OuterReach n (parOf tree) spC.pat) st')
    (OuterInv.init hst.nodup _) ?_) ?_
  · intro i st' hi hinv
    refine outerRow_sat hC hlen cC hi ?_ hinv
    intro e he
    have := ((hst.calls e).mp he).1
    omega
  intro st' hinv
  refine Sat.pure ⟨hinv.nodup, k, F, parOf tree, hk, hfix, fun e => ?_⟩
  rw [hinv.calls e, hst.calls e]
  constructor
  · rintro (⟨h1, h2, h3⟩ | ⟨h1, h2, h3⟩)
    · exact Or.inl ⟨h2, by omega, h3⟩
    · exact Or.inr ⟨h1, by omega, h3⟩
  · rintro (⟨h1, h2, h3⟩ | ⟨h1, h2, h3⟩)
    · exact Or.inl ⟨by omega, h1, h3⟩
    · exact Or.inr ⟨h1, by omega, h3⟩

theorem splitRepeating_sat {n m : Nat} {calls : List Entry}
    (h : ∀ e ∈ calls, n ≤ e.row ∧ e.row < 2 * n + m ∧ e.col < e.row ∧ (2 * n ≤ e.row → e.col < n)) :
    calls.foldlM (addNonzeroRepeating n) ⟨[], [], []⟩ = .ok
      ⟨calls.filterMap (pick n n n n), calls.filterMap (pick n n 0 n), calls.filterMap (pick (2 * n) m 0 n)⟩ := by
  obtain ⟨x, hx, h'⟩ := foldlM_inv (f := addNonzeroRepeating n) (l := calls)
    (init := ⟨[], [], []⟩) (fun l s => s =
      ⟨l.filterMap (pick n n n n), l.filterMap (pick n n 0 n), l.filterMap (pick (2 * n) m 0 n)⟩) rfl (by
      rintro l ⟨i, j⟩ suf s hl rfl
      obtain ⟨h1, h2, h3, h4⟩ := h ⟨i, j⟩ (by rw [hl]; simp)
      simp only at h1 h2 h3 h4
      unfold addNonzeroRepeating
      simp only [List.filterMap_append, List.filterMap_cons, List.filterMap_nil, pick]
      by_cases a1 : i ≥ 2 * n
      · have h5 := h4 a1
        rw [if_pos a1, usub_ok (by omega), ok_bind, umod_ok (by omega), ok_bind, Nat.mod_eq_of_lt h5]
        refine ⟨_, rfl, ?_⟩
        rw [if_neg (by omega), if_neg (by omega), if_pos (by omega)]
        simp
      · rw [if_neg a1]
        by_cases a2 : j ≥ n
        · rw [if_pos a2, usub_ok (by omega), ok_bind, usub_ok (by omega)]
          refine ⟨_, rfl, ?_⟩
          rw [if_pos (by omega), if_neg (by omega), if_neg (by omega)]
          simp
        · rw [if_neg a2, usub_ok (by omega)]
          refine ⟨_, rfl, ?_⟩
          rw [if_neg (by omega), if_pos (by omega), if_neg (by omega)]
          simp)
  rw [hx, h']

/-- The result of the fill-in computation for repeating blocks. -/
structure RepeatingFill (n m : Nat) (A B C : Nat → Nat → Prop) (f : RepeatingArrowhead Sparsity) : Prop where
  ex : ∃ k F T, RepIter n A B k F ∧ RepFix n A B F T ∧
    f.diag.IsPattern n n (fun i j => Fill (stepGraph n A B F) (n + i) (n + j)) ∧
    f.subdiag.IsPattern n n (fun i j => Fill (stepGraph n A B F) (n + i) j) ∧
    f.outer.IsPattern m n (OuterReach n T C)

theorem getFilledInSparsityRepeatingArrowhead_sat {inA inB inC : Sparsity} {p pC : List Nat}
    (hA : inA.InRange) (hB : inB.InRange) (hC : inC.InRange) (sqA : inA.numRows = inA.numCols)
    (sqB : inB.numRows = inB.numCols) (rB : inB.numRows = inA.numRows) (cC : inC.numCols = inA.numCols)
    (hp : IsPerm p inA.numRows) (hpC : IsPerm pC inC.numRows) (hn : 2 * inA.numRows ≤ noParent) :
    Sat (getFilledInSparsityRepeatingArrowhead inA inB inC p pC)
      (RepeatingFill inA.numRows inC.numRows (LowerPermuted inA p) (RectPermuted inB p p)
        (RectPermuted inC pC p)) := by
  obtain ⟨tA, cA', aA, bA, okA, dA, eA, mA⟩ := lowerCsr_sat hA sqA hp
  obtain ⟨tB, cB', aB, bB, okB, dB, eB, mB⟩ := rectCsr_sat (pr := p) (pc := p) hB
    (by rw [rB]; exact hp) (by rw [← sqB, rB]; exact hp)
  obtain ⟨tC, cC', aC, bC, okC, dC, eC, mC⟩ := rectCsr_sat (pr := pC) (pc := p) hC hpC
    (by rw [cC, ← sqA]; exact hp)
  unfold getFilledInSparsityRepeatingArrowhead
  rw [pre_true (by simp [isSquare, sqA]), ok_bind, pre_true (by simp [isSquare, sqB]), ok_bind,
    pre_true (by simp [rB]), ok_bind, pre_true (by simp [cC]), ok_bind]
  simp only
  rw [aA, ok_bind, bA, ok_bind, aB, ok_bind, bB, ok_bind, aC, ok_bind, bC, ok_bind]
  refine Sat.bind (foreachNonZeroWithFillRepeatingArrowhead_sat (n := inA.numRows) okA okB okC dA (by omega)
    (by omega) (by omega) (by omega) (fun i j h => ((mA i j).mp h).1) hn) ?_
  rintro calls ⟨hnd, k, F, T, hk, hfix, hcalls⟩
  have pA : cA'.pat = LowerPermuted inA p := by funext i j; exact propext (mA i j)
  have pB : cB'.pat = RectPermuted inB p p := by funext i j; exact propext (mB i j)
  have pC' : cC'.pat = RectPermuted inC pC p := by funext i j; exact propext (mC i j)
  rw [pA, pB] at hk hfix hcalls
  rw [pC', dC] at hcalls
  have hcol : ∀ o j, OuterReach inA.numRows T (RectPermuted inC pC p) o j → j < inA.numRows := fun o j h =>
    h.col_lt fun a b hab => by have := hab.2.1; omega
  have hrow : ∀ i j, Fill (stepGraph inA.numRows (LowerPermuted inA p) (RectPermuted inB p p) F) i j →
      i < 2 * inA.numRows := fun i j h => h.row_bound fun a b hab => (stepGraph_edges hfix.blocks hfix.front hab).2
  rw [splitRepeating_sat (m := inC.numRows), ok_bind]
  rotate_left
  · intro e he
    rcases (hcalls e).mp he with ⟨h1, h2, h3⟩ | ⟨h1, h2, h3⟩
    · exact ⟨h1, by omega, h3.lt, fun h => by omega⟩
    · have := hcol _ _ h3
      exact ⟨by omega, h2, by omega, fun _ => this⟩
  refine Sat.bind (makeSorted_sat (nodup_pick hnd _ _ _ _) (P := fun i j =>
    Fill (stepGraph inA.numRows (LowerPermuted inA p) (RectPermuted inB p p) F) (inA.numRows + i)
      (inA.numRows + j)) ?_) fun f1 g1 => ?_
  · intro i j
    rw [mem_pick, hcalls, Nat.add_comm i, Nat.add_comm j]
    simp only
    constructor
    · rintro ⟨h1, h2, ⟨-, -, h3⟩ | ⟨h3, -⟩⟩
      · exact ⟨h1, h2, h3⟩
      · omega
    · rintro ⟨h1, h2, h3⟩
      exact ⟨h1, h2, Or.inl ⟨by omega, by omega, h3⟩⟩
  refine Sat.bind (makeSorted_sat (nodup_pick hnd _ _ _ _) (P := fun i j =>
    Fill (stepGraph inA.numRows (LowerPermuted inA p) (RectPermuted inB p p) F) (inA.numRows + i) j) ?_)
    fun f2 g2 => ?_
  · intro i j
    rw [mem_pick, hcalls, Nat.add_comm i, Nat.add_zero]
    simp only
    constructor
    · rintro ⟨h1, h2, ⟨-, -, h3⟩ | ⟨h3, -⟩⟩
      · exact ⟨h1, h2, h3⟩
      · omega
    · rintro ⟨h1, h2, h3⟩
      exact ⟨h1, h2, Or.inl ⟨by omega, by omega, h3⟩⟩
  refine Sat.bind (makeSorted_sat (nodup_pick hnd _ _ _ _)
    (P := OuterReach inA.numRows T (RectPermuted inC pC p)) ?_) fun f3 g3 => ?_
  · intro i j
    rw [mem_pick, hcalls]
    simp only [Nat.add_zero, Nat.add_sub_cancel]
    constructor
    · rintro ⟨h1, h2, ⟨-, h3, -⟩ | ⟨-, -, h3⟩⟩
      · omega
      · exact ⟨h1, h2, h3⟩
    · rintro ⟨h1, h2, h3⟩
      exact ⟨h1, h2, Or.inr ⟨by omega, by omega, h3⟩⟩
  exact Sat.pure ⟨k, F, T, hk, hfix, g1, g2, g3⟩

end Ctldl
