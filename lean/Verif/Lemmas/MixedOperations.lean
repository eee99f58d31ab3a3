import Verif.Lemmas.ChainOperations

/-! # The operations of the entry-wise factorization of a chain of blocks with an outer block row -/

namespace Ctldl

section

variable {ι K : Type} [Sub K] [Mul K] [Div K]

/-- One row, computed by the up-looking method in the columns `U` and by the entry-wise method in the other ones. -/
def MixAbs (U : ι → Bool) (has : ι → ι → Prop) (num : ι → ι → List ι) (piv : ι → List ι) (A l : ι → ι → K) (d : ι → K)
    (reg : ι → K → K) (x : ι) : Prop :=
  ∃ w : ι → K,
    (∀ y, has x y → w y = subAll (num x y) (fun z => if U z then l y z * w z else l x z * l y z * d z) (A x y)) ∧
    (∀ y, has x y → l x y = w y / d y) ∧
    d x = reg x (subAll (piv x) (fun z => if U z then w z * (w z / d z) else l x z * l x z * d z) (A x x))

variable {has : ι → ι → Prop} {num : ι → ι → List ι} {piv : ι → List ι} {A l : ι → ι → K} {d : ι → K} {reg : ι → K → K}
  {x : ι}

theorem EntryAbs.mix (h : EntryAbs has num piv A l d reg x) {U : ι → Bool} (hU : ∀ z, ¬ U z = true) :
    MixAbs U has num piv A l d reg x := by
  refine ⟨fun y => subAll (num x y) (fun z => l x z * l y z * d z) (A x y), fun y _ => ?_, h.1, ?_⟩
  · simp only [if_neg (hU _)]
  · simp only [if_neg (hU _)]
    exact h.2

theorem RowAbs.mix (h : RowAbs .entryWise has num piv A l d reg x) {U : ι → Bool} (hU : ∀ z, ¬ U z = true) :
    MixAbs U has num piv A l d reg x := EntryAbs.mix h hU

theorem UpAbs.mix (h : UpAbs has num piv A l d reg x) {U : ι → Bool} (hU : ∀ z, U z = true) :
    MixAbs U has num piv A l d reg x := by
  obtain ⟨w, h1, h2⟩ := h
  refine ⟨w, fun y hy => ?_, fun y hy => (h1 y hy).2, ?_⟩
  · simp only [if_pos (hU _)]
    exact (h1 y hy).1
  · simp only [if_pos (hU _)]
    exact h2

theorem RowAbs.mix_up (h : RowAbs .upLooking has num piv A l d reg x) {U : ι → Bool} (hU : ∀ z, U z = true) :
    MixAbs U has num piv A l d reg x := UpAbs.mix h hU

/-- The same operations for the rows of another matrix. -/
theorem Placed.mix {S : ι → Prop} {g : ι → Nat} {has' : Nat → Nat → Prop} {num' : Nat → Nat → List Nat}
    {piv' : Nat → List Nat} (hP : Placed S g has num piv has' num' piv') {inv : Nat → ι} (hinv : ∀ y, S y → inv (g y) = y)
    (hsurj : ∀ {x}, S x → ∀ j, has' (g x) j → ∃ y, has x y ∧ g y = j) {A' l' : Nat → Nat → K} {d' : Nat → K}
    {reg' : Nat → K → K} {U : ι → Bool} {U' : Nat → Bool} (hU : ∀ {z}, S z → U' (g z) = U z) (hx : S x)
    (h : MixAbs U has num piv A l d reg x) (hA : ∀ {y}, S y → A' (g x) (g y) = A x y)
    (hl : ∀ {x y}, S x → S y → l' (g x) (g y) = l x y) (hd : ∀ {x}, S x → d' (g x) = d x) (hreg : reg' (g x) = reg x) :
    MixAbs U' has' num' piv' A' l' d' reg' (g x) := by
  obtain ⟨w, h1, h2, h3⟩ := h
  refine ⟨fun j => w (inv j), fun j hj => ?_, fun j hj => ?_, ?_⟩
  · obtain ⟨y, hy, rfl⟩ := hsurj hx j hj
    have hyS := (hP.entry hx hy).1
    obtain ⟨n1, n2⟩ := hP.num hx hy
    beta_reduce
    rw [hinv y hyS, h1 y hy, n1, hA hyS]
    symm
    refine subAll_map_congr g _ (fun z hz => ?_) _
    have hzS := (hP.entry hx (n2 z hz).1).1
    rw [hl hyS hzS, hl hx hzS, hd hzS, hinv z hzS, hU hzS]
  · obtain ⟨y, hy, rfl⟩ := hsurj hx j hj
    have hyS := (hP.entry hx hy).1
    beta_reduce
    rw [hinv y hyS, hl hx hyS, hd hyS]
    exact h2 y hy
  · obtain ⟨p1, p2⟩ := hP.piv hx
    rw [hd hx, h3, p1, hA hx, hreg]
    congr 1
    symm
    refine subAll_map_congr g _ (fun z hz => ?_) _
    have hzS := (hP.entry hx (p2 z hz)).1
    beta_reduce
    rw [hl hx hzS, hd hzS, hinv z hzS, hU hzS]

end

variable {K : Type} [Zero K] [Sub K] [Mul K] [Div K] {X : ChainPat} {M : Nat} {V : ChainVals K} {I : ChainInput K}
  {reg : K → Nat → K}

theorem ChainRows.mix_outer (hX : X.Ok M) (hV : ChainRows X M V I reg .entryWise) {i : Nat} (hi : i < X.nO) :
    MixAbs (fun z => decide (z.1 < M)) (posHas X M) (numList X M) (pivList X M) (posA M I) (posVal X M V) (posD M V)
      (fun x a => reg a x.2) ⟨M + 1, i⟩ := by
  obtain ⟨x, e, eD, x0, e0, eD0, hP, hlast⟩ := hV.outer
  obtain ⟨l1, l3, l5⟩ := hlast i hi
  have hex : ∀ p, ∃ w : Nat → K, p < M → (∀ j, (X.cO p).Has i j → w j = subAll (((X.cO p).cols i).filter ((X.cD p).Has j ·))
        (fun k => V.l X p j k * w k) (x p i j)) ∧
      (∀ j, (X.cO p).Has i j → V.o X p i j = w j / V.d p j) ∧
      (∀ j, (X.cO (p + 1)).Has i j → x (p + 1) i j =
        subAll (((X.cO p).cols i).filter ((X.cS p).Has j ·)) (fun k => V.s X p j k * w k) (I.c (p + 1) i j)) ∧
      (∀ j, X.cE.Has i j → e (p + 1) i j =
        subAll (((X.cO p).cols i).filter ((X.cO p).Has j ·)) (fun k => V.o X p j k * w k) (e p i j)) ∧
      eD (p + 1) i = subAll ((X.cO p).cols i) (fun j => w j * (w j / V.d p j)) (eD p i) := by
    intro p
    by_cases hp : p < M
    · obtain ⟨w, hw⟩ := (hP p hp).2.2 i hi
      exact ⟨w, fun _ => hw⟩
    · exact ⟨fun _ => 0, fun h => absurd h hp⟩
  choose w hw using hex
  let u1 : Nat → K := fun j => subAll (((X.cO M).cols i).filter ((X.cD M).Has j ·))
    (fun k => V.o X M i k * V.l X M j k * V.d M k) (x M i j)
  let u2 : Nat → K := fun j => subAll ((X.cE.cols i).filter (X.cE.Has j ·)) (fun k => V.e X i k * V.e X j k * V.g k)
    (subAll (((X.cO M).cols i).filter ((X.cO M).Has j ·)) (fun k => V.o X M i k * V.o X M j k * V.d M k) (e M i j))
  let W : (Σ _ : Nat, Nat) → K := fun z => if z.1 < M then w z.1 z.2 else if z.1 = M then u1 z.2 else u2 z.2
  have W1 : ∀ {q}, q < M → ∀ k, W ⟨q, k⟩ = w q k := fun hq k => if_pos hq
  have W2 : ∀ k, W ⟨M, k⟩ = u1 k := fun k => by
    show (if M < M then _ else if M = M then _ else _) = _
    rw [if_neg (by omega), if_pos rfl]
  have W3 : ∀ k, W ⟨M + 1, k⟩ = u2 k := fun k => by
    show (if M + 1 < M then _ else if M + 1 = M then _ else _) = _
    rw [if_neg (by omega), if_neg (by omega)]
  have hle : ∀ {z : Σ _ : Nat, Nat}, posHas X M ⟨M + 1, i⟩ z → z.1 < M ∨ z.1 = M ∨ z.1 = M + 1 := fun h => by
    have := h.2.1
    dsimp only at this
    omega
  have n0 : ¬ decide (M < M) = true := by simp
  have n1 : ¬ decide (M + 1 < M) = true := by simp
  have n2 : ∀ {q}, q < M → decide (q < M) = true := fun h => decide_eq_true h
  refine ⟨W, ?_, ?_, ?_⟩
  · rintro ⟨q, j⟩ hy
    rcases hle hy with hq | hq | hq <;> dsimp only at hq
    · have hq' : q ≤ M := by omega
      rw [posHas_O hq'] at hy
      have k3 := (hw q hq).1 j hy
      rw [W1 hq]
      cases q with
      | zero =>
        rw [numList_O0, subAll_map, posA_O hq']
        rw [x0] at k3
        simp only [posVal_D hq', if_pos (n2 hq), W1 hq]
        exact k3
      | succ q =>
        have hq0 : q < M := by omega
        obtain ⟨-, -, p3, -⟩ := hw q hq0
        rw [numList_O hq', subAll_append, subAll_map, subAll_map, posA_O hq']
        simp only [posVal_D hq', posVal_S hq', if_pos (n2 hq), if_pos (n2 hq0), W1 hq, W1 hq0]
        rw [p3 j hy] at k3
        exact k3
    · subst hq
      rw [posHas_O le_rfl] at hy
      rw [W2]
      cases q with
      | zero =>
        rw [numList_O0, subAll_map, posA_O le_rfl]
        simp only [posVal_D le_rfl, posVal_O le_rfl, if_neg n0, posD_D le_rfl]
        show subAll _ _ (x 0 i j) = _
        rw [x0]
      | succ q =>
        have hq0 : q < q + 1 := by omega
        obtain ⟨-, -, p3, -⟩ := hw q hq0
        rw [numList_O hq0, subAll_append, subAll_map, subAll_map, posA_O le_rfl]
        simp only [posVal_D le_rfl, posVal_S hq0, posVal_O le_rfl, if_neg n0, if_pos (n2 hq0), W1 hq0, posD_D le_rfl]
        show subAll _ _ (x (q + 1) i j) = _
        rw [p3 j hy]
    · subst hq
      rw [posHas_E] at hy
      have hpart : ∀ q ≤ M, subAll (sigmaList (fun r => ((X.cO r).cols i).filter ((X.cO r).Has j ·)) q)
          (fun z => if decide (z.1 < M) then posVal X M V ⟨M + 1, j⟩ z * W z else
            posVal X M V ⟨M + 1, i⟩ z * posVal X M V ⟨M + 1, j⟩ z * posD M V z) (I.h i j) = e q i j := by
        intro q
        induction q with
        | zero => intro _; rw [e0]; rfl
        | succ q ih =>
          intro hq
          rw [sigmaList_succ, subAll_append, ih (by omega), subAll_map, (hw q hq).2.2.2.1 j hy]
          exact subAll_congr (fun k _ => by rw [if_pos (n2 hq), posVal_O (by omega), W1 hq]) _
      rw [numList_E, sigmaList_succ, subAll_append, subAll_append, posA_E (hX.lowE i j hy), hpart M le_rfl, subAll_map,
        subAll_map, W3]
      simp only [posVal_O le_rfl, posVal_E, if_neg n0, if_neg n1, posD_D le_rfl, posD_E]
      rfl
  · rintro ⟨q, j⟩ hy
    rcases hle hy with hq | hq | hq <;> dsimp only at hq
    · have hq' : q ≤ M := by omega
      rw [posHas_O hq'] at hy
      rw [posVal_O hq', posD_D hq', W1 hq]
      exact (hw q hq).2.1 j hy
    · subst hq
      rw [posHas_O le_rfl] at hy
      rw [posVal_O le_rfl, posD_D le_rfl, W2]
      exact l1 j hy
    · subst hq
      rw [posHas_E] at hy
      rw [posVal_E, posD_E, W3]
      exact l3 j hy
  · have hpart : ∀ q ≤ M, subAll (sigmaList (fun r => (X.cO r).cols i) q)
        (fun z => if decide (z.1 < M) then W z * (W z / posD M V z) else
          posVal X M V ⟨M + 1, i⟩ z * posVal X M V ⟨M + 1, i⟩ z * posD M V z) (I.hD i) = eD q i := by
      intro q
      induction q with
      | zero => intro _; rw [eD0]; rfl
      | succ q ih =>
        intro hq
        rw [sigmaList_succ, subAll_append, ih (by omega), subAll_map, (hw q hq).2.2.2.2]
        exact subAll_congr (fun k _ => by rw [if_pos (n2 hq), W1 hq, posD_D (by omega)]) _
    rw [pivList_E, sigmaList_succ, subAll_append, subAll_append, posA_ED, hpart M le_rfl, subAll_map, subAll_map, posD_E]
    simp only [posVal_O le_rfl, posVal_E, if_neg n0, if_neg n1, posD_D le_rfl, posD_E]
    exact l5

/-- The operations of the entry-wise method for all rows of a chain. -/
theorem ChainRows.mix (hX : X.Ok M) (hV : ChainRows X M V I reg .entryWise) (x : Σ _ : Nat, Nat)
    (hx : x ∈ chainPositions X M) :
    MixAbs (fun z => decide (M + 1 ≤ x.1 ∧ z.1 < M)) (posHas X M) (numList X M) (pivList X M) (posA M I) (posVal X M V) (posD M V)
      (fun x a => reg a x.2) x := by
  obtain ⟨p, i⟩ := x
  obtain ⟨hp, hi⟩ := mem_chainPositions.mp hx
  dsimp only at hp hi
  unfold chainN at hi
  split at hi
  · next hle =>
    have hU : ∀ z : Σ _ : Nat, Nat, ¬ decide (M + 1 ≤ p ∧ z.1 < M) = true := fun z h => by
      have := of_decide_eq_true h
      omega
    cases p with
    | zero => exact (hV.abs_first hX hi).mix hU
    | succ p => exact (hV.abs_inner hX hle hi).mix hU
  · obtain rfl : p = M + 1 := by omega
    have := hV.mix_outer hX hi
    simpa using this

end Ctldl
