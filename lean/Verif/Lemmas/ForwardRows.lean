import Verif.Lemmas.ForwardChain

/-! # The rows of the factorization of a chain of blocks with an outer block row -/

namespace Ctldl

open Finset

variable {K : Type} [Zero K] [Sub K] [Mul K] [Div K] {X : ChainPat} {M : Nat} {V : ChainVals K} {I : ChainInput K}

/-- A row, with the lists of the entries. -/
theorem elimRow_of (hX : X.Ok M) {n : Nat} {x : Σ _ : Nat, Nat} (hx : x ∈ chainPositions X M) (hn : X.rowLen M x.1 x.2 ≤ n)
    {w : (Σ _ : Nat, Nat) → K}
    (h : ∀ y, posHas X M x y → posVal X M V x y = w y / posD M V y ∧ ∃ t,
      (∀ z, posHas X M x z → posHas X M y z →
        t z = posVal X M V y z * w z ∨ t z = posVal X M V x z * posVal X M V y z * posD M V z) ∧
      w y = subAll (numList X M x y) t (posA M I x y))
    (h' : ∃ t, (∀ z, posHas X M x z → t z = w z * posVal X M V x z ∨
        t z = posVal X M V x z * posVal X M V x z * posD M V z) ∧
      posD M V x = subAll (pivList X M x) t (posA M I x x)) :
    ElimRow (posHas X M) (posA M I) (posVal X M V) (posD M V) n x w := by
  refine ⟨fun hy => (h _ hy).1, fun {y} hy => ?_, ?_⟩
  · obtain ⟨-, t, h1, h2⟩ := h y hy
    exact ⟨_, nodup_numList hX hy, fun k => mem_numList hy, t,
      fun k hk => h1 k ((mem_numList hy).mp hk).1 ((mem_numList hy).mp hk).2, h2⟩
  · obtain ⟨t, h1, h2⟩ := h'
    exact ⟨_, nodup_pivList hX hx, fun k => mem_pivList hx, by rwa [length_pivList hx], t,
      fun k hk => h1 k ((mem_pivList hx).mp hk), h2⟩

theorem posHas_D {p : Nat} (h : p ≤ M) {i j : Nat} : posHas X M ⟨p, i⟩ ⟨p, j⟩ ↔ (X.cD p).Has i j := by
  unfold posHas
  dsimp only
  rw [chainCols_D h, Csr.mem_cols]
  exact ⟨fun h => h.2.2, fun h' => ⟨by omega, le_rfl, h'⟩⟩

theorem posHas_E {i j : Nat} : posHas X M ⟨M + 1, i⟩ ⟨M + 1, j⟩ ↔ X.cE.Has i j := by
  unfold posHas
  dsimp only
  rw [chainCols_E, Csr.mem_cols]
  exact ⟨fun h => h.2.2, fun h' => ⟨by omega, le_rfl, h'⟩⟩

theorem posHas_O {q : Nat} (h : q ≤ M) {i j : Nat} : posHas X M ⟨M + 1, i⟩ ⟨q, j⟩ ↔ (X.cO q).Has i j := by
  unfold posHas
  dsimp only
  rw [chainCols_O h, Csr.mem_cols]
  exact ⟨fun h => h.2.2, fun h' => ⟨by omega, by omega, h'⟩⟩

theorem posHas_S {q : Nat} (h : q < M) {i j : Nat} : posHas X M ⟨q + 1, i⟩ ⟨q, j⟩ ↔ (X.cS q).Has i j := by
  unfold posHas
  dsimp only
  rw [chainCols_S h, Csr.mem_cols]
  exact ⟨fun h => h.2.2, fun h' => ⟨by omega, by omega, h'⟩⟩

theorem posHas_inner {p : Nat} (h : p ≤ M) {i : Nat} {y : Σ _ : Nat, Nat} (hy : posHas X M ⟨p, i⟩ y) :
    y.1 = p ∨ y.1 + 1 = p := by
  rcases posHas_iff.mp hy with ⟨h1, -⟩ | ⟨h1, -⟩ | ⟨h1, -⟩ | ⟨h1, -⟩ <;> dsimp only at h1 <;> omega

/-- Rows of the first block. -/
theorem ChainRows.elim_first (hX : X.Ok M) {method : Method} (hV : ChainRows X M V I (fun x _ => x) method) {n i : Nat}
    (hi : i < X.n 0) (hn : X.rowLen M 0 i ≤ n) :
    ∃ w, ElimRow (posHas X M) (posA M I) (posVal X M V) (posD M V) n ⟨0, i⟩ w := by
  obtain ⟨c11, c21, z11, z21, g21, hc21, L11, L21, d1, a21, h⟩ := hV.first i hi
  obtain ⟨w1, w2, -, h2, t1, t2, -, h3, h4⟩ := h.block
  have h0 := Nat.zero_le M
  refine ⟨fun z => w2 z.2, elimRow_of hX (mem_chainPositions.mpr ⟨Nat.zero_le _, by rw [chainN, if_pos h0]; exact hi⟩) hn ?_ ?_⟩
  · rintro ⟨q, j⟩ hy
    obtain rfl : q = 0 := by have := posHas_inner h0 hy; dsimp only at this; omega
    rw [posHas_D h0] at hy
    obtain ⟨k1, s1, s2, -, k2, k3⟩ := h2 j hy
    refine ⟨by rw [posVal_D h0, posD_D h0]; exact k1, fun z => s2 z.2, ?_, ?_⟩
    · rintro ⟨r, k⟩ hz -
      obtain rfl : r = 0 := by have := posHas_inner h0 hz; dsimp only at this; omega
      rw [posHas_D h0] at hz
      rw [posVal_D h0, posVal_D h0, posD_D h0]
      exact k2 k hz
    · rw [cols_empty z21, List.filter_nil, subAll_nil] at k3
      rw [numList_first, subAll_map, posA_D h0 (hX.lowD 0 h0 i j hy)]
      exact k3
  · refine ⟨fun z => t2 z.2, ?_, ?_⟩
    · rintro ⟨r, k⟩ hz
      obtain rfl : r = 0 := by have := posHas_inner h0 hz; dsimp only at this; omega
      rw [posHas_D h0] at hz
      rw [posVal_D h0, posD_D h0]
      exact h3 k hz
    · rw [cols_empty z21, subAll_nil] at h4
      rw [pivList_first, subAll_map, posA_DD h0, posD_D h0]
      exact h4

/-- Function on two blocks. -/
private def two (p : Nat) (f g : Nat → K) (z : Σ _ : Nat, Nat) : K := if z.1 = p then f z.2 else g z.2

omit [Zero K] [Sub K] [Mul K] [Div K] in
private theorem two_fst (p : Nat) (f g : Nat → K) (k : Nat) : two p f g ⟨p, k⟩ = f k := if_pos rfl

omit [Zero K] [Sub K] [Mul K] [Div K] in
private theorem two_snd {p q : Nat} (h : q ≠ p) (f g : Nat → K) (k : Nat) : two p f g ⟨q, k⟩ = g k := if_neg h

/-- Rows of the other blocks of the chain. -/
theorem ChainRows.elim_inner (hX : X.Ok M) {method : Method} (hV : ChainRows X M V I (fun x _ => x) method) {n p i : Nat}
    (hp : p < M) (hi : i < X.n (p + 1)) (hn : X.rowLen M (p + 1) i ≤ n) :
    ∃ w, ElimRow (posHas X M) (posA M I) (posVal X M V) (posD M V) n ⟨p + 1, i⟩ w := by
  obtain ⟨w1, w2, h1, h2, t1, t2, h3, h3', h4⟩ := (hV.inner p hp i hi).block
  have hp0 : p ≤ M := by omega
  have hp1 : p + 1 ≤ M := hp
  have hne : p + 1 ≠ p := by omega
  refine ⟨two p w1 w2, elimRow_of hX (mem_chainPositions.mpr ⟨by dsimp only; omega, by rw [chainN, if_pos hp1]; exact hi⟩)
    hn ?_ ?_⟩
  · rintro ⟨q, j⟩ hy
    have hq := posHas_inner hp1 hy
    dsimp only at hq
    rcases hq with rfl | hq
    · rw [posHas_D hp1] at hy
      obtain ⟨k1, s1, s2, k2, k2', k3⟩ := h2 j hy
      refine ⟨by rw [posVal_D hp1, posD_D hp1, two_snd hne]; exact k1, two p s1 s2, ?_, ?_⟩
      · rintro ⟨r, k⟩ hz -
        have hr := posHas_inner hp1 hz
        dsimp only at hr
        rcases hr with rfl | hr
        · rw [posHas_D hp1] at hz
          rw [posVal_D hp1, posVal_D hp1, posD_D hp1, two_snd hne, two_snd hne]
          exact k2' k hz
        · obtain rfl : r = p := by omega
          rw [posHas_S hp] at hz
          rw [posVal_S hp, posVal_S hp, posD_D hp0, two_fst, two_fst]
          exact k2 k hz
      · rw [numList_D hp, subAll_append, subAll_map, subAll_map, posA_D hp1 (hX.lowD _ hp1 i j hy)]
        simp only [two_fst, two_snd hne]
        exact k3
    · obtain rfl : q = p := by omega
      rw [posHas_S hp] at hy
      obtain ⟨k1, s1, k2, k3⟩ := h1 j hy
      refine ⟨by rw [posVal_S hp, posD_D hp0, two_fst]; exact k1, fun z => s1 z.2, ?_, ?_⟩
      · rintro ⟨r, k⟩ hz hz'
        have hr := posHas_inner hp1 hz
        have hr' := posHas_inner hp0 hz'
        dsimp only at hr hr'
        obtain rfl : r = q := by omega
        rw [posHas_S hp] at hz
        rw [posVal_D hp0, posVal_S hp, posD_D hp0, two_fst]
        exact k2 k hz
      · rw [numList_S hp, subAll_map, posA_S hp, two_fst]
        exact k3
  · refine ⟨two p t1 t2, ?_, ?_⟩
    · rintro ⟨r, k⟩ hz
      have hr := posHas_inner hp1 hz
      dsimp only at hr
      rcases hr with rfl | hr
      · rw [posHas_D hp1] at hz
        rw [posVal_D hp1, posD_D hp1, two_snd hne, two_snd hne]
        exact h3' k hz
      · obtain rfl : r = p := by omega
        rw [posHas_S hp] at hz
        rw [posVal_S hp, posD_D hp0, two_fst, two_fst]
        exact h3 k hz
    · rw [pivList_D hp, subAll_append, subAll_map, subAll_map, posA_DD hp1, posD_D hp1]
      simp only [two_fst, two_snd hne]
      exact h4

/-- Rows of the outer block. -/
theorem ChainRows.elim_outer (hX : X.Ok M) {method : Method} (hV : ChainRows X M V I (fun x _ => x) method) {n i : Nat}
    (hi : i < X.nO) (hn : X.rowLen M (M + 1) i ≤ n) :
    ∃ w, ElimRow (posHas X M) (posA M I) (posVal X M V) (posD M V) n ⟨M + 1, i⟩ w := by
  obtain ⟨x, e, eD, x0, e0, eD0, hP, hlast⟩ := hV.outer
  obtain ⟨u1, u2, l1, l2, r1, r2, l3, l3', l4⟩ := (hlast i hi).block
  have hex : ∀ p, ∃ w : Nat → K, p < M → (∀ j, (X.cO p).Has i j → w j = subAll (((X.cO p).cols i).filter ((X.cD p).Has j ·))
        (fun k => V.l X p j k * w k) (x p i j)) ∧
      (∀ j, (X.cO p).Has i j → V.o X p i j = w j / V.d p j) ∧
      (∀ j, (X.cO (p + 1)).Has i j → x (p + 1) i j =
        subAll (((X.cO p).cols i).filter ((X.cS p).Has j ·)) (fun k => V.s X p j k * w k) (I.c (p + 1) i j)) ∧
      (∀ j, X.cE.Has i j → e (p + 1) i j =
        subAll (((X.cO p).cols i).filter ((X.cO p).Has j ·)) (fun k => V.o X p j k * w k) (e p i j)) ∧
      eD (p + 1) i = subAll ((X.cO p).cols i) (fun j => w j * (w j / V.d p j)) (eD p i) := by
    intro p
    by_cases hp : p < M
    · obtain ⟨w, hw⟩ := (hP p hp).2.2 i hi
      exact ⟨w, fun _ => hw⟩
    · exact ⟨fun _ => 0, fun h => absurd h hp⟩
  choose w hw using hex
  -- numerators
  let W : (Σ _ : Nat, Nat) → K := fun z => if z.1 < M then w z.1 z.2 else if z.1 = M then u1 z.2 else u2 z.2
  have W1 : ∀ {q}, q < M → ∀ k, W ⟨q, k⟩ = w q k := fun hq k => if_pos hq
  have W2 : ∀ k, W ⟨M, k⟩ = u1 k := fun k => by
    show (if M < M then _ else if M = M then _ else _) = _
    rw [if_neg (by omega), if_pos rfl]
  have W3 : ∀ k, W ⟨M + 1, k⟩ = u2 k := fun k => by
    show (if M + 1 < M then _ else if M + 1 = M then _ else _) = _
    rw [if_neg (by omega), if_neg (by omega)]
  have hO : ∀ q ≤ M, ∀ j, (X.cO q).Has i j → V.o X q i j = W ⟨q, j⟩ / V.d q j ∧ ∃ t,
      (∀ k, (X.cO q).Has i k → t k = V.l X q j k * W ⟨q, k⟩ ∨ t k = V.o X q i k * V.l X q j k * V.d q k) ∧
      W ⟨q, j⟩ = subAll (((X.cO q).cols i).filter ((X.cD q).Has j ·)) t (x q i j) := by
    intro q hq j hj
    rcases Nat.lt_or_eq_of_le hq with hlt | rfl
    · simp only [W1 hlt]
      obtain ⟨p1, p2, -⟩ := hw q hlt
      exact ⟨p2 j hj, _, fun k _ => Or.inl rfl, p1 j hj⟩
    · simp only [W2]
      exact l1 j hj
  have hmem : (⟨M + 1, i⟩ : Σ _ : Nat, Nat) ∈ chainPositions X M :=
    mem_chainPositions.mpr ⟨le_rfl, by rw [chainN, if_neg (by dsimp only; omega)]; exact hi⟩
  have hle : ∀ {z : Σ _ : Nat, Nat}, posHas X M ⟨M + 1, i⟩ z → z.1 ≤ M ∨ z.1 = M + 1 := fun h => by
    have := h.2.1
    dsimp only at this
    omega
  refine ⟨W, elimRow_of hX hmem hn ?_ ?_⟩
  · rintro ⟨q, j⟩ hy
    rcases hle hy with hq | hq <;> dsimp only at hq
    · rw [posHas_O hq] at hy
      obtain ⟨k1, t, k2, k3⟩ := hO q hq j hy
      refine ⟨by rw [posVal_O hq, posD_D hq]; exact k1, ?_⟩
      cases q with
      | zero =>
        refine ⟨fun z => t z.2, ?_, ?_⟩
        · rintro ⟨r, k⟩ hz hz'
          obtain rfl : r = 0 := by have := posHas_inner hq hz'; dsimp only at this; omega
          rw [posHas_O hq] at hz
          rw [posVal_D hq, posVal_O hq, posD_D hq]
          exact k2 k hz
        · rw [numList_O0, subAll_map, posA_O hq]
          rw [x0] at k3
          exact k3
      | succ q =>
        have hq0 : q ≤ M := by omega
        have hne : q + 1 ≠ q := by omega
        obtain ⟨-, -, p3, -⟩ := hw q hq
        refine ⟨two q (fun k => V.s X q j k * w q k) t, ?_, ?_⟩
        · rintro ⟨r, k⟩ hz hz'
          have hr := posHas_inner hq hz'
          dsimp only at hr
          rcases hr with rfl | hr
          · rw [posHas_O hq] at hz
            rw [posVal_D hq, posVal_O hq, posD_D hq, two_snd hne]
            exact k2 k hz
          · obtain rfl : r = q := by omega
            rw [posHas_O hq0] at hz
            rw [posVal_S hq, two_fst, W1 hq]
            exact Or.inl rfl
        · rw [numList_O hq, subAll_append, subAll_map, subAll_map, posA_O hq]
          simp only [two_fst, two_snd hne]
          rw [← p3 j hy]
          exact k3
    · subst hq
      rw [posHas_E] at hy
      obtain ⟨k1, s1, s2, k2, k2', k3⟩ := l2 j hy
      refine ⟨by rw [posVal_E, posD_E, W3]; exact k1, ?_⟩
      let t : (Σ _ : Nat, Nat) → K := fun z =>
        if z.1 < M then V.o X z.1 j z.2 * w z.1 z.2 else if z.1 = M then s1 z.2 else s2 z.2
      have T1 : ∀ {q}, q < M → ∀ k, t ⟨q, k⟩ = V.o X q j k * w q k := fun hq k => if_pos hq
      have T2 : ∀ k, t ⟨M, k⟩ = s1 k := fun k => by
        show (if M < M then _ else if M = M then _ else _) = _
        rw [if_neg (by omega), if_pos rfl]
      have T3 : ∀ k, t ⟨M + 1, k⟩ = s2 k := fun k => by
        show (if M + 1 < M then _ else if M + 1 = M then _ else _) = _
        rw [if_neg (by omega), if_neg (by omega)]
      refine ⟨t, ?_, ?_⟩
      · rintro ⟨r, k⟩ hz hz'
        rcases hle hz with hr | hr <;> dsimp only at hr
        · rw [posHas_O hr] at hz
          rw [posVal_O hr, posVal_O hr, posD_D hr]
          rcases Nat.lt_or_eq_of_le hr with hlt | rfl
          · rw [T1 hlt, W1 hlt]
            exact Or.inl rfl
          · rw [T2, W2]
            exact k2 k hz
        · subst hr
          rw [posHas_E] at hz
          rw [posVal_E, posVal_E, posD_E, T3, W3]
          exact k2' k hz
      · have hpart : ∀ q ≤ M, subAll (sigmaList (fun r => ((X.cO r).cols i).filter ((X.cO r).Has j ·)) q) t (I.h i j) =
            e q i j := by
          intro q
          induction q with
          | zero => intro _; rw [e0]; rfl
          | succ q ih =>
            intro hq
            rw [sigmaList_succ, subAll_append, ih (by omega), subAll_map, (hw q hq).2.2.2.1 j hy]
            exact subAll_congr (fun k _ => T1 hq k) _
        rw [numList_E, sigmaList_succ, subAll_append, subAll_append, posA_E (hX.lowE i j hy), hpart M le_rfl, subAll_map,
          subAll_map, W3]
        simp only [T2, T3]
        exact k3
  · let t : (Σ _ : Nat, Nat) → K := fun z =>
      if z.1 < M then w z.1 z.2 * (w z.1 z.2 / V.d z.1 z.2) else if z.1 = M then r1 z.2 else r2 z.2
    have T1 : ∀ {q}, q < M → ∀ k, t ⟨q, k⟩ = w q k * (w q k / V.d q k) := fun hq k => if_pos hq
    have T2 : ∀ k, t ⟨M, k⟩ = r1 k := fun k => by
      show (if M < M then _ else if M = M then _ else _) = _
      rw [if_neg (by omega), if_pos rfl]
    have T3 : ∀ k, t ⟨M + 1, k⟩ = r2 k := fun k => by
      show (if M + 1 < M then _ else if M + 1 = M then _ else _) = _
      rw [if_neg (by omega), if_neg (by omega)]
    refine ⟨t, ?_, ?_⟩
    · rintro ⟨r, k⟩ hz
      rcases hle hz with hr | hr <;> dsimp only at hr
      · rw [posHas_O hr] at hz
        rw [posVal_O hr, posD_D hr]
        rcases Nat.lt_or_eq_of_le hr with hlt | rfl
        · rw [T1 hlt, W1 hlt, ← (hw r hlt).2.1 k hz]
          exact Or.inl rfl
        · rw [T2, W2]
          exact l3 k hz
      · subst hr
        rw [posHas_E] at hz
        rw [posVal_E, posD_E, T3, W3]
        exact l3' k hz
    · have hpart : ∀ q ≤ M, subAll (sigmaList (fun r => (X.cO r).cols i) q) t (I.hD i) = eD q i := by
        intro q
        induction q with
        | zero => intro _; rw [eD0]; rfl
        | succ q ih =>
          intro hq
          rw [sigmaList_succ, subAll_append, ih (by omega), subAll_map, (hw q hq).2.2.2.2]
          exact subAll_congr (fun k _ => T1 hq k) _
      rw [pivList_E, sigmaList_succ, subAll_append, subAll_append, posA_ED, hpart M le_rfl, subAll_map, subAll_map, posD_E]
      simp only [T2, T3]
      exact l4

/-- The factorization of a chain is a sequence of eliminations. -/
theorem ChainRows.elim (hX : X.Ok M) {method : Method} (hV : ChainRows X M V I (fun x _ => x) method) (hI : I.Zero X M)
    {B : Nat} (hB : ∀ p ≤ M + 1, chainN X M p ≤ B) {n : Nat}
    (hn : ∀ p ≤ M + 1, ∀ i < chainN X M p, X.rowLen M p i ≤ n) :
    ∃ w, Elim (chainPositions X M) (chainRk B) (posHas X M) (posA M I) (posVal X M V) w (posD M V) n := by
  refine Elim.of_rows ?_ (fun h => posHas_lower hX hB h) (fun h1 h2 h3 => posHas_closed hX hB h1 h2 h3)
    (fun h1 h2 h3 h4 => posA_zero hI hB h1 h2 h3 h4) (fun h => if_neg h) posA_symm ?_
  · rintro ⟨p, i⟩ hx ⟨q, j⟩ hy h
    rw [mem_chainPositions] at hx hy
    have h1 := mt (lex_lt (hx.2.trans_le (hB _ hx.1)) (hy.2.trans_le (hB _ hy.1))).mpr (h.not_lt)
    have h2 := mt (lex_lt (hy.2.trans_le (hB _ hy.1)) (hx.2.trans_le (hB _ hx.1))).mpr (h.symm.not_lt)
    dsimp only at h1 h2
    obtain rfl : p = q := by omega
    obtain rfl : i = j := by omega
    rfl
  · rintro ⟨p, i⟩ hx
    obtain ⟨hp, hi⟩ := mem_chainPositions.mp hx
    dsimp only at hp hi
    have hn' := hn p hp i hi
    unfold chainN at hi
    split at hi
    · next hle =>
      cases p with
      | zero => exact hV.elim_first hX hi hn'
      | succ p => exact hV.elim_inner hX hle hi hn'
    · obtain rfl : p = M + 1 := by omega
      exact hV.elim_outer hX hi hn'

end Ctldl
