import Verif.Lemmas.Graded
import Verif.Lemmas.SolveLists
import Verif.Lemmas.ArrowheadUnique

/-! # Weights of the values computed for repeating block matrices -/

namespace Ctldl

open Finset

section

variable {K : Type} [Zero K] [Sub K] [Mul K] [Div K] {P : Int → K → Prop} {s : ArrowheadSparsity} {T : ArrowheadTypes}
  {d : Dims} {N : Nat}

private theorem of_eq {v w : Int} {a : K} (h : P v a) (e : v = w) : P w a := e ▸ h

omit [Sub K] [Mul K] [Div K] in
private theorem getD_blocks' {m : ArrowheadMatrix K} (hm : m.Fits s T d N) :
    (∀ t < N, m.lowerBlock N (.tridiag (t + 1)) (.tridiag t) = some (m.tridiagSubdiag.getD t (.empty K))) ∧
    ∀ t < N + 1, m.lowerBlock N .outer (.tridiag t) = some (m.outerSubdiag.getD t (.empty K)) := by
  have h1 := hm.numSubdiag
  have h2 := hm.numOuter
  constructor
  · intro t ht
    simp only [ArrowheadMatrix.lowerBlock]
    rw [if_pos ⟨trivial, ht⟩, getElem?_eq_getD (by omega)]
  · intro t ht
    simp only [ArrowheadMatrix.lowerBlock]
    rw [if_pos (by omega), getElem?_eq_getD (by omega)]

/-- Weights of the rows of the chain. -/
def chainWeight (s : ArrowheadSparsity) (N : Nat) (α : Blk → Nat → Int) : Nat → Nat → Int :=
  sel (N + 1) (fun i => α .start (permAt s.start.permutation i))
    (fun t i => α (.tridiag t) (permAt s.tridiag.permutation i)) (fun i => α .link (permAt s.link.permutation i))

theorem chainInput_graded (hs : s.Valid d) (hT : TypesOk s T d) {m : ArrowheadMatrix K} (hm : m.Fits s T d N) {c : Int}
    {α : Blk → Nat → Int} (hA : ∀ a ∈ blocks N, ∀ b ∈ blocks N, ∀ i < d.of a, ∀ j < d.of b,
      P (c + α a i + α b j) (m.symElement N a b i j)) :
    (m.chainInput s N).Graded P c (chainWeight s N α) (fun i => α .outer (permAt s.outer.permutation i))
      (chainPat T d N) (N + 2) := by
  have hX := chainPat_ok hT N
  have pS := valid_perm hs .start
  have pT := valid_perm hs (.tridiag 0)
  have pL := valid_perm hs .link
  have pO := valid_perm hs .outer
  obtain ⟨b1, b2⟩ := getD_blocks' hm
  have hdiag : ∀ a ∈ blocks N, ∀ i < d.of a, ∀ j < d.of a, P (c + α a i + α a j) ((m.diagBlock a).sym i j) := by
    intro a ha i hi j hj
    have := hA a ha a ha i hi j hj
    rwa [ArrowheadMatrix.symElement, assembledElement, if_pos rfl] at this
  have hlow : ∀ a ∈ blocks N, ∀ b ∈ blocks N, a ≠ b → ∀ q, m.lowerBlock N a b = some q → ∀ i < d.of a, ∀ j < d.of b,
      P (c + α a i + α b j) (q.elem i j) := by
    intro a ha b hb hab q hq i hi j hj
    have := hA a ha b hb i hi j hj
    rwa [ArrowheadMatrix.symElement, assembledElement, if_neg hab, hq] at this
  have lt : ∀ {cs : Csr} {r k i j : Nat}, CsrOk cs r k → cs.Has i j → i < r ∧ j < k :=
    fun h hij => ⟨h.rows ▸ h.good.row_lt hij, h.cols ▸ h.good.col_lt hij⟩
  refine ⟨?_, ?_, ?_, ?_, ?_, ?_⟩
  · intro p hp i j hij
    obtain ⟨hi, hj⟩ := lt (hX.hD p hp) hij
    rcases pos_cases hp with rfl | ⟨t, ht, rfl⟩ | rfl
    · exact hdiag .start (mem_start N) _ (pS.lt hi) _ (pS.lt hj)
    · simp only [ArrowheadMatrix.chainInput, chainWeight, chainPat, sel_succ ht] at hi hj ⊢
      exact hdiag (.tridiag t) (mem_tridiag ht) _ (pT.lt hi) _ (pT.lt hj)
    · simp only [ArrowheadMatrix.chainInput, chainWeight, chainPat, sel_last (Nat.le_refl _)] at hi hj ⊢
      exact hdiag .link (mem_link N) _ (pL.lt hi) _ (pL.lt hj)
  · intro p hp i hi
    rcases pos_cases hp with rfl | ⟨t, ht, rfl⟩ | rfl
    · exact hdiag .start (mem_start N) _ (pS.lt hi) _ (pS.lt hi)
    · simp only [ArrowheadMatrix.chainInput, chainWeight, chainPat, sel_succ ht] at hi ⊢
      exact hdiag (.tridiag t) (mem_tridiag ht) _ (pT.lt hi) _ (pT.lt hi)
    · simp only [ArrowheadMatrix.chainInput, chainWeight, chainPat, sel_last (Nat.le_refl _)] at hi ⊢
      exact hdiag .link (mem_link N) _ (pL.lt hi) _ (pL.lt hi)
  · intro p hp i j hij
    obtain ⟨hi, hj⟩ := lt (hX.hS p hp) hij
    rcases pos_cases' (N := N) (p := p) (by omega) with rfl | ⟨t, ht, rfl⟩ | rfl
    · simp only [ArrowheadMatrix.chainInput, chainWeight, chainPat, sel_succ (Nat.succ_pos N)] at hi hj ⊢
      exact hlow (.tridiag 0) (mem_tridiag (Nat.succ_pos N)) .start (mem_start N) (by simp) _ rfl _ (pT.lt hi) _ (pS.lt hj)
    · simp only [ArrowheadMatrix.chainInput, chainWeight, chainPat, sel_succ ht,
        sel_succ (show t < N + 1 by omega), sel_succ (show t + 1 < N + 1 by omega)] at hi hj ⊢
      exact hlow (.tridiag (t + 1)) (mem_tridiag (by omega)) (.tridiag t) (mem_tridiag (by omega)) (by simp) _ (b1 t ht)
        _ (pT.lt hi) _ (pT.lt hj)
    · simp only [ArrowheadMatrix.chainInput, chainWeight, chainPat, sel_last (Nat.le_refl _),
        sel_succ (Nat.lt_succ_self N)] at hi hj ⊢
      exact hlow .link (mem_link N) (.tridiag N) (mem_tridiag (Nat.lt_succ_self N)) (by simp) _ (if_pos rfl) _ (pL.lt hi)
        _ (pT.lt hj)
  · intro p hp i j hij
    obtain ⟨hi, hj⟩ := lt (hX.hO p hp) hij
    rcases pos_cases hp with rfl | ⟨t, ht, rfl⟩ | rfl
    · exact hlow .outer (mem_outer N) .start (mem_start N) (by simp) _ rfl _ (pO.lt hi) _ (pS.lt hj)
    · simp only [ArrowheadMatrix.chainInput, chainWeight, chainPat, sel_succ ht] at hi hj ⊢
      exact hlow .outer (mem_outer N) (.tridiag t) (mem_tridiag ht) (by simp) _ (b2 t ht) _ (pO.lt hi) _ (pT.lt hj)
    · simp only [ArrowheadMatrix.chainInput, chainWeight, chainPat, sel_last (Nat.le_refl _)] at hi hj ⊢
      exact hlow .outer (mem_outer N) .link (mem_link N) (by simp) _ rfl _ (pO.lt hi) _ (pL.lt hj)
  · intro i j hij
    obtain ⟨hi, hj⟩ := lt hX.hE hij
    exact hdiag .outer (mem_outer N) _ (pO.lt hi) _ (pO.lt hj)
  · intro i hi
    exact hdiag .outer (mem_outer N) _ (pO.lt hi) _ (pO.lt hi)

/-- The entries and the pivots of the factor have their weights. -/
structure FactorGraded (P : Int → K → Prop) (c : Int) (α : Blk → Nat → Int) (s : ArrowheadSparsity) (d : Dims) (N : Nat)
    (f : ArrowheadFactor K) : Prop where
  entry : ∀ k ∈ positions d N, ∀ l ∈ positions d N,
    P (α k.1 (permAt (s.perm k.1) k.2) - α l.1 (permAt (s.perm l.1) l.2)) (f.storedAt N k l)
  pivot : ∀ k ∈ positions d N, P (c + α k.1 (permAt (s.perm k.1) k.2) + α k.1 (permAt (s.perm k.1) k.2))
    (f.pivotAt k.1 k.2)

omit [Sub K] [Mul K] [Div K] in
private theorem getD_blocks {f : ArrowheadFactor K} (hf : f.Declared s T d N) :
    (∀ t < N + 1, f.diagBlock (.tridiag t) = some (f.tridiagDiag.getD t f.startDiag)) ∧
    (∀ t < N, f.tridiagSubdiag[t]? = some (f.tridiagSubdiag.getD t f.startNext)) ∧
    ∀ t < N + 1, f.outerSubdiag[t]? = some (f.outerSubdiag.getD t f.startOuter) :=
  ⟨fun t ht => getElem?_eq_getD (by rw [hf.numDiag]; exact ht) _,
    fun t ht => getElem?_eq_getD (by rw [hf.numSubdiag]; exact ht) _,
    fun t ht => getElem?_eq_getD (by rw [hf.numOuter]; exact ht) _⟩

private theorem val_graded (hP : Grading P) {cs : Csr} {L : List K} {i j : Nat} {w : Int}
    (h : cs.Has i j → P w (val cs L i j)) : P w (val cs L i j) := by
  by_cases hij : cs.Has i j
  · exact h hij
  · have : val cs L i j = 0 := if_neg hij
    rw [this]
    exact hP.zero w

private theorem lower_graded (hP : Grading P) {g : DiagFactor K} {cs : Csr} {p : List Nat} {n i j : Nat} {w : Int}
    (hg : g.OfType cs p n) (h : cs.Has i j → P w (val cs g.L i j)) : P w (g.lower i j) := by
  have := val_graded hP h
  rw [← hg.pattern] at this
  exact this

private theorem entry_graded (hP : Grading P) {g : SubFactor K} {cs : Csr} {p q : List Nat} {i j : Nat} {w : Int}
    (hg : g.OfType cs p q) (h : cs.Has i j → P w (val cs g.L i j)) : P w (g.entry i j) := by
  have := val_graded hP h
  rw [← hg.pattern] at this
  exact this

theorem factorGraded_of (hP : Grading P) {f : ArrowheadFactor K} (hf : f.Declared s T d N) {c : Int}
    {α : Blk → Nat → Int} (h : (f.chainVals N).Graded P c (chainWeight s N α)
      (fun i => α .outer (permAt s.outer.permutation i)) (chainPat T d N) (N + 2)) : FactorGraded P c α s d N f := by
  obtain ⟨hDt, hSt, hOt⟩ := getD_ofType' hf
  obtain ⟨hDb, hSb, hOb⟩ := getD_blocks hf
  constructor
  · rintro ⟨a, i⟩ hk ⟨b, j⟩ hl
    obtain ⟨ha, hi⟩ := mem_positions.mp hk
    obtain ⟨hb, hj⟩ := mem_positions.mp hl
    unfold ArrowheadFactor.storedAt
    dsimp only at ha hb hi hj ⊢
    split
    · next hab =>
      subst hab
      cases a with
      | start => exact lower_graded hP hf.startDiag fun hij => h.l 0 (by omega) i j hij
      | tridiag t =>
        have ht := mem_blocks.mp ha t rfl
        rw [hDb t ht]
        refine lower_graded hP (hDt t ht) fun hij => ?_
        have := h.l (t + 1) (by omega) i j
        simp only [ArrowheadFactor.chainVals, ChainVals.l, ChainVals.s, ChainVals.o, ChainVals.d, chainWeight, chainPat, sel_succ ht] at this
        exact this hij
      | link =>
        refine lower_graded hP hf.linkDiag fun hij => ?_
        have := h.l (N + 2) (by omega) i j
        simp only [ArrowheadFactor.chainVals, ChainVals.l, ChainVals.s, ChainVals.o, ChainVals.d, chainWeight, chainPat, sel_last (Nat.le_refl _)] at this
        exact this hij
      | outer => exact lower_graded hP hf.outerDiag fun hij => h.e i j hij
    · next hab =>
      rcases a with _ | (_ | t) | _ | _ <;> rcases b with _ | u | _ | _ <;>
        simp only [ArrowheadFactor.lowerBlock, Option.elim] <;> try exact hP.zero _
      · refine entry_graded hP hf.startNext fun hij => ?_
        have := h.s 0 (by omega) i j
        simp only [ArrowheadFactor.chainVals, ChainVals.l, ChainVals.s, ChainVals.o, ChainVals.d, chainWeight, chainPat, sel_succ (Nat.succ_pos N)] at this
        exact this hij
      · by_cases hu : u = t ∧ t < N
        · obtain ⟨rfl, hu⟩ := hu
          rw [if_pos ⟨rfl, hu⟩, hSb u hu]
          refine entry_graded hP (hSt u hu) fun hij => ?_
          have := h.s (u + 1) (by omega) i j
          simp only [ArrowheadFactor.chainVals, ChainVals.l, ChainVals.s, ChainVals.o, ChainVals.d, chainWeight, chainPat, sel_succ hu, sel_succ (show u < N + 1 by omega),
            sel_succ (show u + 1 < N + 1 by omega)] at this
          exact this hij
        · rw [if_neg hu]
          exact hP.zero _
      · by_cases hu : u = N
        · subst hu
          rw [if_pos rfl]
          refine entry_graded hP hf.linkPrev fun hij => ?_
          have := h.s (u + 1) (by omega) i j
          simp only [ArrowheadFactor.chainVals, ChainVals.l, ChainVals.s, ChainVals.o, ChainVals.d, chainWeight, chainPat, sel_last (Nat.le_refl _),
            sel_succ (Nat.lt_succ_self u)] at this
          exact this hij
        · rw [if_neg hu]
          exact hP.zero _
      · exact entry_graded hP hf.startOuter fun hij => h.o 0 (by omega) i j hij
      · have hu := mem_blocks.mp hb u rfl
        rw [if_pos (by omega), hOb u hu]
        refine entry_graded hP (hOt u hu) fun hij => ?_
        have := h.o (u + 1) (by omega) i j
        simp only [ArrowheadFactor.chainVals, ChainVals.l, ChainVals.s, ChainVals.o, ChainVals.d, chainWeight, chainPat, sel_succ hu] at this
        exact this hij
      · refine entry_graded hP hf.linkNext fun hij => ?_
        have := h.o (N + 2) (by omega) i j
        simp only [ArrowheadFactor.chainVals, ChainVals.l, ChainVals.s, ChainVals.o, ChainVals.d, chainWeight, chainPat, sel_last (Nat.le_refl _)] at this
        exact this hij
  · rintro ⟨a, i⟩ hk
    obtain ⟨ha, hi⟩ := mem_positions.mp hk
    unfold ArrowheadFactor.pivotAt
    dsimp only at ha hi ⊢
    cases a with
    | start => exact h.d 0 (by omega) i hi
    | tridiag t =>
      have ht := mem_blocks.mp ha t rfl
      rw [hDb t ht]
      have := h.d (t + 1) (by omega) i
      simp only [ArrowheadFactor.chainVals, ChainVals.l, ChainVals.s, ChainVals.o, ChainVals.d, chainWeight, chainPat, sel_succ ht] at this
      exact this hi
    | link =>
      have := h.d (N + 2) (by omega) i
      simp only [ArrowheadFactor.chainVals, ChainVals.l, ChainVals.s, ChainVals.o, ChainVals.d, chainWeight, chainPat, sel_last (Nat.le_refl _)] at this
      exact this hi
    | outer => exact h.g i hi

/-- Factorizing. -/
theorem arrowheadFactorize_graded (hP : Grading P) (hs : s.Valid d) (hT : TypesOk s T d) {f : ArrowheadFactor K}
    (hf : f.Declared s T d N) {m : ArrowheadMatrix K} (hm : m.Fits s T d N) {reg : K → Nat → K} (method : Method)
    {c : Int} {α : Blk → Nat → Int} (hA : ∀ a ∈ blocks N, ∀ b ∈ blocks N, ∀ i < d.of a, ∀ j < d.of b,
      P (c + α a i + α b j) (m.symElement N a b i j))
    (hreg : ∀ k ∈ positions d N, ∀ x, P (c + α k.1 (permAt (s.perm k.1) k.2) + α k.1 (permAt (s.perm k.1) k.2)) x →
      P (c + α k.1 (permAt (s.perm k.1) k.2) + α k.1 (permAt (s.perm k.1) k.2)) (reg x k.2)) :
    Sat (f.factorize d.tridiag d.link d.outer m reg method) fun f' =>
      f'.Declared s T d N ∧ FactorGraded P c α s d N f' := by
  obtain ⟨f', h1, h2, h3⟩ := arrowheadFactorize_sat hs hT hf hm.matrixOk reg method
  refine ⟨f', h1, h2, factorGraded_of hP h2 (h3.graded hP (chainPat_ok hT N) ?_ ?_ (chainInput_graded hs hT hm hA))⟩
  · intro p hp i hi
    rcases pos_cases hp with rfl | ⟨t, ht, rfl⟩ | rfl
    · exact hreg ⟨.start, i⟩ (mem_positions.mpr ⟨mem_start N, hi⟩)
    · simp only [chainWeight, chainPat, sel_succ ht] at hi ⊢
      exact hreg ⟨.tridiag t, i⟩ (mem_positions.mpr ⟨mem_tridiag ht, hi⟩)
    · simp only [chainWeight, chainPat, sel_last (Nat.le_refl _)] at hi ⊢
      exact hreg ⟨.link, i⟩ (mem_positions.mpr ⟨mem_link N, hi⟩)
  · intro i hi
    exact hreg ⟨.outer, i⟩ (mem_positions.mpr ⟨mem_outer N, hi⟩)

/-- A weight in the order of elimination. -/
private def wt (s : ArrowheadSparsity) (α : Blk → Nat → Int) (k : Σ _ : Blk, Nat) : Int := α k.1 (permAt (s.perm k.1) k.2)

omit [Sub K] [Mul K] [Div K] in
private theorem entries_true (f : ArrowheadFactor K) : f.Entries fun _ => True :=
  ⟨fun _ _ _ => trivial, fun _ _ _ => trivial, fun _ _ _ => trivial, fun _ _ _ _ _ => trivial, fun _ _ _ _ _ => trivial,
    fun _ _ _ => trivial, fun _ _ _ => trivial, fun _ _ _ => trivial, fun _ _ _ _ _ => trivial, fun _ _ _ => trivial⟩

/-- Solving. -/
theorem arrowheadSolve_graded (hP : Grading P) (hs : s.Valid d) (hT : TypesOk s T d) {f : ArrowheadFactor K}
    (hf : f.Declared s T d N) {c e : Int} {α : Blk → Nat → Int} (hG : FactorGraded P c α s d N f)
    {b : ArrowheadVector K} (hb : b.OfSize d N) (hw : ∀ a ∈ blocks N, ∀ i < d.of a, P (e + α a i) (b.at a i)) :
    Sat (f.solveInPlace b) fun x => ∀ a ∈ blocks N, ∀ i < d.of a, P (e - c - α a i) (x.at a i) := by
  obtain ⟨y, hy, hyd, -⟩ := forwardSolve_steps hs hT hf hb
  have hyl := Sat.of_ok (forwardSolve_lists hs hT hf (entries_true f) hb) hy
  obtain ⟨z, hz, hzd, hzv⟩ := arrowheadDiagonalSolve_sat hs hT hf hyd
  obtain ⟨x, hx, hxd, -⟩ := backwardSolve_steps hs hT hf hzd
  have hxl := Sat.of_ok (backwardSolve_lists hs hT hf (entries_true f) hzd) hx
  have hlt : ∀ k ∈ positions d N, permAt (s.perm k.1) k.2 < d.of k.1 :=
    fun k hk => (valid_perm hs k.1).lt (mem_positions.mp hk).2
  have gy : ∀ n, ∀ k ∈ positions d N, posRank d N k = n → P (e + wt s α k) (permAt' s y k) := by
    intro n
    induction n using Nat.strong_induction_on with
    | _ n ih =>
      intro k hk hn
      obtain ⟨ks, -, h1, -, h2⟩ := hyl k hk
      rw [h2]
      refine hP.subAll (hw k.1 (mem_positions.mp hk).1 _ (hlt k hk)) fun l hl => ?_
      obtain ⟨h3, h4, -⟩ := h1 l hl
      exact of_eq (hP.mul (hG.entry k hk l h3) (ih _ (hn ▸ h4) l h3 rfl)) (by unfold wt; ring)
  have gz : ∀ k ∈ positions d N, P (e - c - wt s α k) (permAt' s z k) := by
    intro k hk
    unfold permAt'
    rw [hzv k.1 (mem_positions.mp hk).1 k.2 (mem_positions.mp hk).2]
    exact of_eq (hP.div (gy _ k hk rfl) (hG.pivot k hk)) (by unfold wt; ring)
  have bound : ∃ B, ∀ k ∈ positions d N, posRank d N k < B :=
    ⟨(positions d N).sup (posRank d N) + 1, fun k hk => Nat.lt_succ_of_le (le_sup (f := posRank d N) hk)⟩
  obtain ⟨B, hB⟩ := bound
  have gx : ∀ n, ∀ k ∈ positions d N, B - posRank d N k = n → P (e - c - wt s α k) (permAt' s x k) := by
    intro n
    induction n using Nat.strong_induction_on with
    | _ n ih =>
      intro k hk hn
      obtain ⟨ks, -, h1, -, h2⟩ := hxl k hk
      rw [h2]
      refine hP.subAll (gz k hk) fun l hl => ?_
      obtain ⟨h3, h4, -⟩ := h1 l hl
      have := hB l h3
      exact of_eq (hP.mul (hG.entry l h3 k hk) (ih _ (by omega) l h3 rfl)) (by unfold wt; ring)
  refine ⟨x, ?_, fun a ha i hi => ?_⟩
  · unfold ArrowheadFactor.solveInPlace
    rw [hy, ok_bind, hz, ok_bind, hx]
  · obtain ⟨j, hj, rfl⟩ := (valid_perm hs a).surj hi
    exact gx _ ⟨a, j⟩ (mem_positions.mpr ⟨ha, hj⟩) rfl

end

end Ctldl
