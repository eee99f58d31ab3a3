import Verif.Lemmas.SameOperations

/-! # The operations of the factorization of a chain of blocks with an outer block row -/

namespace Ctldl

open Finset

variable {K : Type} [Zero K] [Sub K] [Mul K] [Div K] {X : ChainPat} {M : Nat} {V : ChainVals K} {I : ChainInput K}
  {reg : K → Nat → K}

/-- Row of a chain. -/
abbrev ChainRowAbs (method : Method) (X : ChainPat) (M : Nat) (V : ChainVals K) (I : ChainInput K) (reg : K → Nat → K)
    (x : Σ _ : Nat, Nat) : Prop :=
  RowAbs method (posHas X M) (numList X M) (pivList X M) (posA M I) (posVal X M V) (posD M V) (fun x a => reg a x.2) x

theorem ChainRows.abs_first (hX : X.Ok M) {method : Method} (hV : ChainRows X M V I reg method) {i : Nat}
    (hi : i < X.n 0) : ChainRowAbs method X M V I reg ⟨0, i⟩ := by
  obtain ⟨c11, c21, z11, z21, g21, hc21, L11, L21, d1, a21, h⟩ := hV.first i hi
  have h0 := Nat.zero_le M
  have hy0 : ∀ {y}, posHas X M ⟨0, i⟩ y → y.1 = 0 := fun hy => by have := posHas_inner h0 hy; omega
  cases method with
  | upLooking =>
    obtain ⟨w1, w2, -, -, h3, h4, h5⟩ := h
    refine ⟨fun z => w2 z.2, ?_, ?_⟩
    · rintro ⟨q, j⟩ hy
      obtain rfl : q = 0 := hy0 hy
      rw [posHas_D h0] at hy
      have k3 := h3 j hy
      rw [cols_empty z21, List.filter_nil, subAll_nil] at k3
      refine ⟨?_, by rw [posVal_D h0, posD_D h0]; exact h4 j hy⟩
      rw [numList_first, subAll_map, posA_D h0 (hX.lowD 0 h0 i j hy)]
      simp only [posVal_D h0]
      exact k3
    · rw [cols_empty z21, subAll_nil] at h5
      rw [pivList_first, subAll_map, posA_DD h0]
      simp only [posD_D h0]
      exact h5
  | entryWise =>
    obtain ⟨-, h4, h5⟩ := h
    refine ⟨?_, ?_⟩
    · rintro ⟨q, j⟩ hy
      obtain rfl : q = 0 := hy0 hy
      rw [posHas_D h0] at hy
      have k3 := h4 j hy
      unfold EntryDiag at k3
      rw [cols_empty z21, List.filter_nil, subAll_nil] at k3
      rw [numList_first, subAll_map, posA_D h0 (hX.lowD 0 h0 i j hy)]
      simp only [posVal_D h0, posD_D h0]
      exact k3
    · rw [cols_empty z21, subAll_nil] at h5
      rw [pivList_first, subAll_map, posA_DD h0]
      simp only [posVal_D h0, posD_D h0]
      exact h5

/-- Function on two blocks. -/
private def two (p : Nat) (f g : Nat → K) (z : Σ _ : Nat, Nat) : K := if z.1 = p then f z.2 else g z.2

omit [Zero K] [Sub K] [Mul K] [Div K] in
private theorem two_fst (p : Nat) (f g : Nat → K) (k : Nat) : two p f g ⟨p, k⟩ = f k := if_pos rfl

omit [Zero K] [Sub K] [Mul K] [Div K] in
private theorem two_snd {p q : Nat} (h : q ≠ p) (f g : Nat → K) (k : Nat) : two p f g ⟨q, k⟩ = g k := if_neg h

theorem ChainRows.abs_inner (hX : X.Ok M) {method : Method} (hV : ChainRows X M V I reg method) {p i : Nat} (hp : p < M)
    (hi : i < X.n (p + 1)) : ChainRowAbs method X M V I reg ⟨p + 1, i⟩ := by
  have hp0 : p ≤ M := by omega
  have hp1 : p + 1 ≤ M := hp
  have hne : p + 1 ≠ p := by omega
  have h := hV.inner p hp i hi
  cases method with
  | upLooking =>
    obtain ⟨w1, w2, h1, h2, h3, h4, h5⟩ := h
    refine ⟨two p w1 w2, ?_, ?_⟩
    · rintro ⟨q, j⟩ hy
      have hq := posHas_inner hp1 hy
      dsimp only at hq
      rcases hq with rfl | hq
      · rw [posHas_D hp1] at hy
        refine ⟨?_, by rw [posVal_D hp1, posD_D hp1, two_snd hne]; exact h4 j hy⟩
        rw [numList_D hp, subAll_append, subAll_map, subAll_map, posA_D hp1 (hX.lowD _ hp1 i j hy)]
        simp only [two_fst, two_snd hne, posVal_D hp1, posVal_S hp]
        exact h3 j hy
      · obtain rfl : q = p := by omega
        rw [posHas_S hp] at hy
        refine ⟨?_, by rw [posVal_S hp, posD_D hp0, two_fst]; exact h2 j hy⟩
        rw [numList_S hp, subAll_map, posA_S hp]
        simp only [two_fst, posVal_D hp0]
        exact h1 j hy
    · rw [pivList_D hp, subAll_append, subAll_map, subAll_map, posA_DD hp1, posD_D hp1]
      simp only [two_fst, two_snd hne, posD_D hp1, posD_D hp0]
      exact h5
  | entryWise =>
    obtain ⟨h1, h4, h5⟩ := h
    refine ⟨?_, ?_⟩
    · rintro ⟨q, j⟩ hy
      have hq := posHas_inner hp1 hy
      dsimp only at hq
      rcases hq with rfl | hq
      · rw [posHas_D hp1] at hy
        rw [numList_D hp, subAll_append, subAll_map, subAll_map, posA_D hp1 (hX.lowD _ hp1 i j hy)]
        simp only [posVal_D hp1, posVal_S hp, posD_D hp1, posD_D hp0]
        exact h4 j hy
      · obtain rfl : q = p := by omega
        rw [posHas_S hp] at hy
        rw [numList_S hp, subAll_map, posA_S hp]
        simp only [posVal_D hp0, posVal_S hp, posD_D hp0]
        exact h1 j hy
    · rw [pivList_D hp, subAll_append, subAll_map, subAll_map, posA_DD hp1, posD_D hp1]
      simp only [posVal_D hp1, posVal_S hp, posD_D hp1, posD_D hp0]
      exact h5

theorem ChainRows.abs_outer (hX : X.Ok M) (hV : ChainRows X M V I reg .upLooking) {i : Nat} (hi : i < X.nO) :
    ChainRowAbs .upLooking X M V I reg ⟨M + 1, i⟩ := by
  obtain ⟨x, e, eD, x0, e0, eD0, hP, hlast⟩ := hV.outer
  obtain ⟨u1, u2, l1, l2, l3, l4, l5⟩ := hlast i hi
  have hex : ∀ p, ∃ w : Nat → K, p < M → (∀ j, (X.cO p).Has i j → w j = subAll (((X.cO p).cols i).filter ((X.cD p).Has j ·))
        (fun k => V.l X p j k * w k) (x p i j)) ∧
      (∀ j, (X.cO p).Has i j → V.o X p i j = w j / V.d p j) ∧
      (∀ j, (X.cO (p + 1)).Has i j → x (p + 1) i j =
        subAll (((X.cO p).cols i).filter ((X.cS p).Has j ·)) (fun k => V.s X p j k * w k) (I.c (p + 1) i j)) ∧
      (∀ j, X.cE.Has i j → e (p + 1) i j =
        subAll (((X.cO p).cols i).filter ((X.cO p).Has j ·)) (fun k => V.o X p j k * w k) (e p i j)) ∧
      eD (p + 1) i = subAll ((X.cO p).cols i) (fun j => w j * (w j / V.d p j)) (eD p i) := by
    intro p
    by_cases hp : p < M
    · obtain ⟨w, hw⟩ := (hP p hp).2.2 i hi
      exact ⟨w, fun _ => hw⟩
    · exact ⟨fun _ => 0, fun h => absurd h hp⟩
  choose w hw using hex
  let W : (Σ _ : Nat, Nat) → K := fun z => if z.1 < M then w z.1 z.2 else if z.1 = M then u1 z.2 else u2 z.2
  have W1 : ∀ {q}, q < M → ∀ k, W ⟨q, k⟩ = w q k := fun hq k => if_pos hq
  have W2 : ∀ k, W ⟨M, k⟩ = u1 k := fun k => by
    show (if M < M then _ else if M = M then _ else _) = _
    rw [if_neg (by omega), if_pos rfl]
  have W3 : ∀ k, W ⟨M + 1, k⟩ = u2 k := fun k => by
    show (if M + 1 < M then _ else if M + 1 = M then _ else _) = _
    rw [if_neg (by omega), if_neg (by omega)]
  have hO : ∀ q ≤ M, ∀ j, (X.cO q).Has i j → V.o X q i j = W ⟨q, j⟩ / V.d q j ∧
      W ⟨q, j⟩ = subAll (((X.cO q).cols i).filter ((X.cD q).Has j ·)) (fun k => V.l X q j k * W ⟨q, k⟩) (x q i j) := by
    intro q hq j hj
    rcases Nat.lt_or_eq_of_le hq with hlt | rfl
    · simp only [W1 hlt]
      obtain ⟨p1, p2, -⟩ := hw q hlt
      exact ⟨p2 j hj, p1 j hj⟩
    · simp only [W2]
      exact ⟨l2 j hj, l1 j hj⟩
  have hle : ∀ {z : Σ _ : Nat, Nat}, posHas X M ⟨M + 1, i⟩ z → z.1 ≤ M ∨ z.1 = M + 1 := fun h => by
    have := h.2.1
    dsimp only at this
    omega
  refine ⟨W, ?_, ?_⟩
  · rintro ⟨q, j⟩ hy
    rcases hle hy with hq | hq <;> dsimp only at hq
    · rw [posHas_O hq] at hy
      obtain ⟨k1, k3⟩ := hO q hq j hy
      refine ⟨?_, by rw [posVal_O hq, posD_D hq]; exact k1⟩
      cases q with
      | zero =>
        rw [numList_O0, subAll_map, posA_O hq]
        rw [x0] at k3
        simp only [posVal_D hq]
        exact k3
      | succ q =>
        have hq0 : q ≤ M := by omega
        obtain ⟨-, -, p3, -⟩ := hw q hq
        rw [numList_O hq, subAll_append, subAll_map, subAll_map, posA_O hq]
        simp only [posVal_D hq, posVal_S hq]
        rw [p3 j hy] at k3
        simp only [W1 hq]
        exact k3
    · subst hq
      rw [posHas_E] at hy
      refine ⟨?_, by rw [posVal_E, posD_E, W3]; exact l4 j hy⟩
      have hpart : ∀ q ≤ M, subAll (sigmaList (fun r => ((X.cO r).cols i).filter ((X.cO r).Has j ·)) q)
          (fun z => posVal X M V ⟨M + 1, j⟩ z * W z) (I.h i j) = e q i j := by
        intro q
        induction q with
        | zero => intro _; rw [e0]; rfl
        | succ q ih =>
          intro hq
          rw [sigmaList_succ, subAll_append, ih (by omega), subAll_map, (hw q hq).2.2.2.1 j hy]
          exact subAll_congr (fun k _ => by rw [posVal_O (by omega), W1 hq]) _
      rw [numList_E, sigmaList_succ, subAll_append, subAll_append, posA_E (hX.lowE i j hy), hpart M le_rfl, subAll_map,
        subAll_map, W3]
      simp only [posVal_O le_rfl, posVal_E, W2, W3]
      exact l3 j hy
  · have hpart : ∀ q ≤ M, subAll (sigmaList (fun r => (X.cO r).cols i) q)
        (fun z => W z * (W z / posD M V z)) (I.hD i) = eD q i := by
      intro q
      induction q with
      | zero => intro _; rw [eD0]; rfl
      | succ q ih =>
        intro hq
        rw [sigmaList_succ, subAll_append, ih (by omega), subAll_map, (hw q hq).2.2.2.2]
        exact subAll_congr (fun k _ => by rw [W1 hq, posD_D (by omega)]) _
    rw [pivList_E, sigmaList_succ, subAll_append, subAll_append, posA_ED, hpart M le_rfl, subAll_map, subAll_map, posD_E]
    simp only [W2, W3, posD_D le_rfl, posD_E]
    exact l5

/-- The operations performed for the rows of a chain; the rows of the outer block are always computed by the up-looking
method up to the last block. -/
theorem ChainRows.abs (hX : X.Ok M) {method : Method} (hV : ChainRows X M V I reg method)
    (hm : method = .upLooking ∨ X.nO = 0) (x : Σ _ : Nat, Nat) (hx : x ∈ chainPositions X M) :
    ChainRowAbs method X M V I reg x := by
  obtain ⟨p, i⟩ := x
  obtain ⟨hp, hi⟩ := mem_chainPositions.mp hx
  dsimp only at hp hi
  unfold chainN at hi
  split at hi
  · next hle =>
    cases p with
    | zero => exact hV.abs_first hX hi
    | succ p => exact hV.abs_inner hX hle hi
  · obtain rfl : p = M + 1 := by omega
    rcases hm with rfl | hm
    · exact hV.abs_outer hX hi
    · omega

end Ctldl
