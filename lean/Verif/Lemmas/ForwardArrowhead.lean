import Verif.Lemmas.ForwardRows
import Verif.Lemmas.Quotients
import Verif.Lemmas.Inactive
import Verif.Props.DefiniteRounding

/-! # The factorization of repeating block matrices does not overflow -/

namespace Ctldl

open Finset

section

variable {K F : Type} [Zero K] [Zero F]

theorem chainA_map {g : K → F} (hg : g 0 = 0) (m : ArrowheadMatrix K) (s : ArrowheadSparsity) (N M p q i j : Nat) :
    chainA ((m.map g).chainInput s N) M p q i j = g (chainA (m.chainInput s N) M p q i j) := by
  have hs : ∀ (a a' : Nat → Nat → K) (b : Nat → Nat → F) (aD : Nat → K) (bD : Nat → F) (i j : Nat),
      (∀ i j, b i j = g (a i j)) → (∀ i, bD i = g (aD i)) → symOf b bD i j = g (symOf a aD i j) := by
    intro a a' b aD bD i j h1 h2
    unfold symOf
    split
    · exact h2 _
    · split
      · exact h1 _ _
      · exact h1 _ _
  have hl : ∀ p q i j, chainLow ((m.map g).chainInput s N) M p q i j = g (chainLow (m.chainInput s N) M p q i j) := by
    intro p q i j
    unfold chainLow
    split
    · split
      · exact hs _ (fun _ _ => 0) _ _ _ i j (chainInput_map_a hg m s N p) (chainInput_map_aD hg m s N p)
      · exact hs _ (fun _ _ => 0) _ _ _ i j (chainInput_map_h hg m s N) (chainInput_map_hD hg m s N)
    · split
      · exact chainInput_map_c hg m s N q i j
      · split
        · exact chainInput_map_b hg m s N q i j
        · exact hg.symm
  unfold chainA
  split
  · exact hl _ _ _ _
  · exact hl _ _ _ _

end

variable {K F : Type} [Zero K] [Sub K] [Mul K] [Div K] [Field F] [LinearOrder F] [IsStrictOrderedRing F]

private theorem typesOk {s : ArrowheadSparsity} {T : ArrowheadTypes} {d : Dims} (hs : s.Valid d)
    (hT : arrowheadTypes s = .ok T) : TypesOk s T d := by
  obtain ⟨T', h, h'⟩ := arrowheadTypes_sat hs
  rw [hT] at h
  cases h
  exact h'

/-- Position in the chain. -/
def chainPos (N : Nat) (k : Σ _ : Blk, Nat) : Σ _ : Nat, Nat := ⟨k.1.rank N, k.2⟩

theorem chainPos_mem {T : ArrowheadTypes} {d : Dims} {N : Nat} {k : Σ _ : Blk, Nat} (hk : k ∈ positions d N) :
    chainPos N k ∈ chainPositions (chainPat T d N) (N + 2) := by
  obtain ⟨h1, h2⟩ := mem_positions.mp hk
  exact mem_chainPositions.mpr ⟨rank_le h1, by rw [dims_of_eq (T := T) h1] at h2; exact h2⟩

theorem chainPos_inj {d : Dims} {N : Nat} {k l : Σ _ : Blk, Nat} (hk : k ∈ positions d N) (hl : l ∈ positions d N)
    (h : chainPos N k = chainPos N l) : k = l := by
  obtain ⟨a, i⟩ := k
  obtain ⟨b, j⟩ := l
  unfold chainPos at h
  dsimp only at h
  rw [Sigma.mk.injEq] at h
  obtain ⟨h1, h2⟩ := h
  have := (rank_inj (mem_positions.mp hk).1 (mem_positions.mp hl).1).mp h1
  dsimp only at this
  subst this
  rw [eq_of_heq h2]

theorem exists_chainPos {T : ArrowheadTypes} {d : Dims} {N : Nat} {x : Σ _ : Nat, Nat}
    (hx : x ∈ chainPositions (chainPat T d N) (N + 2)) : ∃ k ∈ positions d N, chainPos N k = x := by
  obtain ⟨h1, h2⟩ := mem_chainPositions.mp hx
  obtain ⟨a, ha, hr⟩ := exists_rank (N := N) h1
  refine ⟨⟨a, x.2⟩, mem_positions.mpr ⟨ha, ?_⟩, ?_⟩
  · dsimp only
    rw [dims_of_eq (T := T) ha, hr]
    exact h2
  · unfold chainPos
    dsimp only
    rw [hr]

theorem posHas_chainPos {T : ArrowheadTypes} {d : Dims} {N : Nat} {k l : Σ _ : Blk, Nat} (hk : k.1 ∈ blocks N)
    (hl : l.1 ∈ blocks N) : posHas (chainPat T d N) (N + 2) (chainPos N k) (chainPos N l) ↔ T.Has N k.1 k.2 l.1 l.2 := by
  rw [types_has_iff (d := d) hk hl, posHas_iff]
  have h1 := rank_le hk
  have h2 := rank_le hl
  unfold chainHas lowPos chainPos
  dsimp only
  generalize k.1.rank N = p at *
  generalize l.1.rank N = q at *
  constructor
  · rintro (⟨rfl, h3, h4⟩ | ⟨rfl, rfl, h4⟩ | ⟨rfl, h3, h4⟩ | ⟨rfl, h3, h4⟩)
    · exact Or.inl ⟨rfl, by rw [if_pos h3]; exact h4⟩
    · exact Or.inl ⟨rfl, by rw [if_neg (by omega)]; exact h4⟩
    · exact Or.inr ⟨_, if_pos ⟨rfl, h3⟩, h4⟩
    · exact Or.inr ⟨_, by rw [if_neg (by omega), if_pos ⟨rfl, h3⟩], h4⟩
  · rintro (⟨rfl, h4⟩ | ⟨G, hG, h4⟩)
    · by_cases h3 : p ≤ N + 2
      · rw [if_pos h3] at h4
        exact Or.inl ⟨rfl, h3, h4⟩
      · rw [if_neg h3] at h4
        exact Or.inr (Or.inl ⟨by omega, by omega, h4⟩)
    · split at hG
      · cases hG
        exact Or.inr (Or.inr (Or.inl ⟨by omega, by omega, h4⟩))
      · split at hG
        · cases hG
          exact Or.inr (Or.inr (Or.inr ⟨by omega, by omega, h4⟩))
        · cases hG

theorem posVal_chainPos {f : ArrowheadFactor K} {s : ArrowheadSparsity} {T : ArrowheadTypes} {d : Dims} {N : Nat} {g : K → F}
    (hg : g 0 = 0) (hf : f.Declared s T d N) {k l : Σ _ : Blk, Nat} (hk : k ∈ positions d N) (hl : l ∈ positions d N)
    (h : T.Has N k.1 k.2 l.1 l.2) (hne : k ≠ l) :
    (f.map g).lowerElement N k.1 l.1 k.2 l.2 =
      g (posVal (chainPat T d N) (N + 2) (f.chainVals N) (chainPos N k) (chainPos N l)) := by
  obtain ⟨k1, k2⟩ := mem_positions.mp hk
  obtain ⟨l1, l2⟩ := mem_positions.mp hl
  have hP := (posHas_chainPos (d := d) k1 l1).mpr h
  rw [factor_lowerElement_eq (hf.map g) k1 l1, chainVals_map]
  unfold posVal
  rw [if_pos hP]
  unfold chainL chainPos
  dsimp only
  have hr := posHas_iff.mp hP
  unfold chainPos at hr
  dsimp only at hr
  by_cases hr' : k.1.rank N = l.1.rank N
  · rw [if_pos hr', if_pos hr', unitLower, if_neg fun h' => hne ?_]
    · split <;> exact val_map hg _ _ _ _
    · obtain ⟨a, i⟩ := k
      obtain ⟨b, j⟩ := l
      dsimp only at hr' h'
      have := (rank_inj k1 l1).mp hr'
      dsimp only at this
      rw [this, h']
  · rw [if_neg hr', if_neg hr']
    split
    · exact val_map hg _ _ _ _
    · rw [if_pos (by omega)]
      exact val_map hg _ _ _ _

theorem arrowhead_forward (R : Rounding K F) {s : ArrowheadSparsity} {d : Dims} (hs : s.Valid d) {T : ArrowheadTypes}
    {N : Nat} {f : ArrowheadFactor K} (hf : f.Declared s T d N) {m : ArrowheadMatrix K} (hm : m.Fits s T d N)
    {method : Method} {f' : ArrowheadFactor K}
    (h : f.factorize d.tridiag d.link d.outer m (fun x _ => x) method = .ok f')
    {n : Nat} (hn : ∀ a ∈ blocks N, ∀ i < d.of a, T.rowEntries N a i ≤ n)
    {c : Nat} (hc : ∀ a ∈ blocks N, ∀ j < d.of a, T.colEntries N a j < c)
    {Ω α μ Λ ε : F} (hR : R.Ample n c Ω α μ Λ ε)
    (hfin : ∀ k ∈ positions d N, ∀ l ∈ positions d N, R.fin (m.assembled N k l) ∧ R.stored (m.assembled N k l))
    (hα : ∀ k ∈ positions d N, (m.map R.v).assembled N k k ≤ α)
    (hpd : PosDef (positions d N) μ fun k l => (m.map R.v).assembled N k l -
      if k = l then R.margin n c (positions d N).card ε ((m.map R.v).assembled N k k) else 0) :
    (∀ a ∈ blocks N, ∀ i < d.of a,
      R.fin (f'.pivotAt a i) ∧ μ < R.v (f'.pivotAt a i) ∧ R.v (f'.pivotAt a i) ≤ 3 * α) ∧
    f'.Entries (fun y => R.fin y ∧ |R.v y| ≤ Λ) ∧
    (∀ a ∈ blocks N, ∀ b ∈ blocks N, ∀ i j, T.Has N a i b j →
      R.η * (1 + |R.v (f'.pivotAt b j)| * (1 + |(f'.map R.v).lowerElement N a b i j|)) ≤ ε) ∧
    ((positions d N).Nonempty → 0 ≤ ε ∧ R.gamma (n + 2) < 1) ∧
    ∀ a ∈ blocks N, ∀ i < d.of a, R.stored (f'.pivotAt a i) := by
  classical
  have hT := typesOk hs hf.types
  have hX := chainPat_ok hT N
  obtain ⟨hd, hrows⟩ := Sat.of_ok (arrowheadFactorize_sat hs hT hf hm.matrixOk (fun x _ => x) method) h
  obtain ⟨B, hB⟩ : ∃ B, ∀ p ≤ N + 2 + 1, chainN (chainPat T d N) (N + 2) p ≤ B :=
    ⟨∑ p ∈ range (N + 4), chainN (chainPat T d N) (N + 2) p, fun p hp =>
      single_le_sum (f := fun p => chainN (chainPat T d N) (N + 2) p) (fun _ _ => Nat.zero_le _)
        (mem_range.mpr (by omega))⟩
  obtain ⟨w, hE⟩ := ChainRows.elim hX hrows hm.zero hB (n := n) (fun p hp i hi => by
    obtain ⟨a, ha, rfl⟩ := exists_rank (N := N) hp
    rw [rowLen_eq ha]
    exact hn a ha i (by rw [dims_of_eq ha]; exact hi))
  obtain ⟨p1, p2, p3⟩ := permPos_facts hs N
  have hA : ∀ k ∈ positions d N, ∀ l ∈ positions d N, posA (N + 2) (m.chainInput s N) (chainPos N k) (chainPos N l) =
      m.assembled N (s.permPos k) (s.permPos l) := fun k hk l hl =>
    (matrix_symElement_eq hm.numSubdiag hm.numOuter (mem_positions.mp hk).1 (mem_positions.mp hl).1
      k.2 l.2).symm
  have hAv : ∀ k ∈ positions d N, ∀ l ∈ positions d N,
      R.v (posA (N + 2) (m.chainInput s N) (chainPos N k) (chainPos N l)) =
      (m.map R.v).assembled N (s.permPos k) (s.permPos l) := fun k hk l hl => by
    unfold posA
    rw [← chainA_map R.v_zero]
    exact (matrix_symElement_eq (by simp [ArrowheadMatrix.map, hm.numSubdiag]) (by simp [ArrowheadMatrix.map, hm.numOuter])
      (mem_positions.mp hk).1 (mem_positions.mp hl).1 k.2 l.2).symm
  have hex : ∀ x, ∃ k, x ∈ chainPositions (chainPat T d N) (N + 2) → k ∈ positions d N ∧ chainPos N k = x := fun x => by
    by_cases hx : x ∈ chainPositions (chainPat T d N) (N + 2)
    · obtain ⟨k, hk, h⟩ := exists_chainPos hx
      exact ⟨k, fun _ => ⟨hk, h⟩⟩
    · exact ⟨⟨.start, 0⟩, fun h => absurd h hx⟩
  choose e he using hex
  have hcard : (chainPositions (chainPat T d N) (N + 2)).card = (positions d N).card := by
    symm
    refine card_bij (fun k _ => chainPos N k) (fun k hk => chainPos_mem hk) (fun k hk l hl h => chainPos_inj hk hl h) ?_
    intro x hx
    obtain ⟨k, hk, h⟩ := exists_chainPos hx
    exact ⟨k, hk, h⟩
  have hBd : Elim.Bounds R (chainPositions (chainPat T d N) (N + 2)) (posHas (chainPat T d N) (N + 2))
      (posA (N + 2) (m.chainInput s N)) n c Ω α μ Λ ε (R.growth (n + 2) * ((n + 1) * ε)) := by
    refine ⟨hR.range, ?_, ?_, ?_, hR.alpha, hR.pos, hR.nonneg, hR.entry, hR.small, rfl, ?_, hR.gamma, ?_, hR.max,
      hR.max_div⟩
    · intro x hx y hy
      obtain ⟨k, hk, rfl⟩ := exists_chainPos hx
      obtain ⟨l, hl, rfl⟩ := exists_chainPos hy
      rw [hA k hk l hl]
      exact (hfin _ (p1 k hk) _ (p1 l hl)).1
    · intro x hx y hy
      obtain ⟨k, hk, rfl⟩ := exists_chainPos hx
      obtain ⟨l, hl, rfl⟩ := exists_chainPos hy
      rw [hA k hk l hl]
      exact (hfin _ (p1 k hk) _ (p1 l hl)).2
    · intro x hx
      obtain ⟨k, hk, rfl⟩ := exists_chainPos hx
      rw [hAv k hk k hk]
      exact hα _ (p1 k hk)
    · intro r hr t ht hh
      obtain ⟨l, hl, rfl⟩ := exists_chainPos hr
      refine le_trans ?_ ((card_col_arrowhead (F := ℚ) (T := T) (d := d) (N := N)
        (l := fun k l => if k = l ∨ T.Has N k.1 k.2 l.1 l.2 then 1 else 0) (fun x _ y _ hxy => ?_) hl).trans
        (hc l.1 (mem_positions.mp hl).1 l.2 (mem_positions.mp hl).2))
      · refine card_le_card_of_injOn e (fun x hx => ?_) (fun x hx y hy hxy => ?_)
        · obtain ⟨h1, h2⟩ := he x (ht hx)
          refine mem_coe.mpr (mem_filter.mpr ⟨h1, ?_⟩)
          rw [if_pos]
          · exact one_ne_zero
          rcases hh x hx with h3 | h3
          · exact Or.inl (chainPos_inj h1 hl (h2.trans h3))
          · rw [← h2] at h3
            exact Or.inr ((posHas_chainPos (mem_positions.mp h1).1 (mem_positions.mp hl).1).mp h3)
        · rw [← (he x (ht hx)).2, ← (he y (ht hy)).2, hxy]
      · by_contra hn'
        exact hxy (if_neg hn')
    · refine (PosDef.submatrix (e := e) (fun x hx => (he x hx).1) (fun x hx y hy hxy => ?_)
        (hpd.reindex p1 p2 p3)).congr fun x hx y hy => ?_
      · rw [← (he x hx).2, ← (he y hy).2, hxy]
      · obtain ⟨h1, h2⟩ := he x hx
        obtain ⟨h3, h4⟩ := he y hy
        conv_rhs => rw [← h2, ← h4]
        rw [hAv _ h1 _ h3, hAv _ h1 _ h1, hcard]
        congr 1
        by_cases hij : e x = e y
        · rw [if_pos (by rw [hij]), if_pos (by rw [hij])]
          rfl
        · rw [if_neg fun h => hij (p2 _ h1 _ h3 h), if_neg fun h => hij (chainPos_inj h1 h3 h)]
  have hrow := hE.rows hBd
  have hpiv : ∀ a ∈ blocks N, ∀ i < d.of a,
      R.fin (f'.pivotAt a i) ∧ μ < R.v (f'.pivotAt a i) ∧ R.v (f'.pivotAt a i) ≤ 3 * α := by
    intro a ha i hi
    have hk := hrow (chainPos N ⟨a, i⟩) (chainPos_mem (mem_positions.mpr ⟨ha, hi⟩))
    rw [factor_pivotAt_eq hd ha]
    exact ⟨hk.fin, hk.pos, hk.le⟩
  have hent : ∀ x y, posHas (chainPat T d N) (N + 2) x y →
      R.fin (posVal (chainPat T d N) (N + 2) (f'.chainVals N) x y) ∧
      |R.v (posVal (chainPat T d N) (N + 2) (f'.chainVals N) x y)| ≤ Λ := by
    intro x y hxy
    have := (hrow x (posHas_lower hX hB hxy).1).entry y hxy
    exact ⟨this.fin, this.le⟩
  refine ⟨hpiv, ArrowheadFactor.entries_of_chain hd ⟨?_, ?_, ?_, ?_⟩, ?_, ?_, ?_⟩
  · intro p hp i j hij
    rw [← posVal_D hp]
    exact hent _ _ ((posHas_D hp).mpr hij)
  · intro p hp i j hij
    rw [← posVal_S hp]
    exact hent _ _ ((posHas_S hp).mpr hij)
  · intro p hp i j hij
    rw [← posVal_O hp]
    exact hent _ _ ((posHas_O hp).mpr hij)
  · intro i j hij
    rw [← posVal_E]
    exact hent _ _ (posHas_E.mpr hij)
  · intro a ha b hb i j hij
    have hP := (posHas_chainPos (d := d) (k := ⟨a, i⟩) (l := ⟨b, j⟩) ha hb).mpr hij
    obtain ⟨q1, q2, q3⟩ := posHas_lower hX hB hP
    have hk : (⟨a, i⟩ : Σ _ : Blk, Nat) ∈ positions d N :=
      mem_positions.mpr ⟨ha, by dsimp only; rw [dims_of_eq (T := T) ha]; exact (mem_chainPositions.mp q1).2⟩
    have hl : (⟨b, j⟩ : Σ _ : Blk, Nat) ∈ positions d N :=
      mem_positions.mpr ⟨hb, by dsimp only; rw [dims_of_eq (T := T) hb]; exact (mem_chainPositions.mp q2).2⟩
    refine le_trans (mul_le_mul_of_nonneg_left ?_ R.η_nonneg) hR.small
    have hj := hpiv b hb j (mem_positions.mp hl).2
    have h1 : |R.v (f'.pivotAt b j)| ≤ 3 * α := by
      rw [abs_of_pos (hR.pos.trans hj.2.1)]
      exact hj.2.2
    rw [posVal_chainPos R.v_zero hd hk hl hij (fun h' => by rw [h'] at q3; omega)]
    have := mul_le_mul h1 (add_le_add_right (hent _ _ hP).2 1) (by positivity) (by have := hR.alpha; positivity)
    exact add_le_add_right this 1
  · rintro ⟨k, hk⟩
    have hF := hE.facts hBd (chainPos_mem hk)
    exact ⟨hF.ε0, hF.gamma1⟩
  · intro a ha i hi
    rw [factor_pivotAt_eq hd ha]
    exact (hrow (chainPos N ⟨a, i⟩) (chainPos_mem (mem_positions.mpr ⟨ha, hi⟩))).stored

end Ctldl
