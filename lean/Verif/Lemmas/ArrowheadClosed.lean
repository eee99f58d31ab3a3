import Verif.Lemmas.ArrowheadExact

/-! # The patterns of the repeating block factor are closed under elimination -/

namespace Ctldl

/-- Pattern of a chain. -/
def chainHas (X : ChainPat) (M p i q j : Nat) : Prop :=
  (p = q ∧ (if p ≤ M then X.cD p else X.cE).Has i j) ∨ ∃ G, lowPos M X.cS X.cO p q = some G ∧ G.Has i j

theorem lowPos_lt {β : Type _} {M p q : Nat} {S O : Nat → β} {x : β} (h : lowPos M S O p q = some x) : q < p := by
  unfold lowPos at h
  split at h
  · omega
  · split at h
    · omega
    · cases h

theorem chainHas_lower {X : ChainPat} {M : Nat} (hX : X.Ok M) {p i q j : Nat} (h : chainHas X M p i q j) :
    q < p ∨ (q = p ∧ j < i) := by
  rcases h with ⟨rfl, h⟩ | ⟨G, h, -⟩
  · split at h
    · exact Or.inr ⟨rfl, hX.lowD p (by omega) i j h⟩
    · exact Or.inr ⟨rfl, hX.lowE i j h⟩
  · exact Or.inl (lowPos_lt h)

theorem chainHas_range {X : ChainPat} {M : Nat} (hX : X.Ok M) {p i q j : Nat} (hp : p ≤ M + 1)
    (h : chainHas X M p i q j) : i < chainN X M p ∧ j < chainN X M q := by
  unfold chainN
  rcases h with ⟨rfl, h⟩ | ⟨G, h, hh⟩
  · split at h
    · next hp => rw [if_pos hp]; have := hX.hD p hp; exact ⟨this.rows ▸ this.good.row_lt h, this.cols ▸ this.good.col_lt h⟩
    · next hp => rw [if_neg hp]; have := hX.hE; exact ⟨this.rows ▸ this.good.row_lt h, this.cols ▸ this.good.col_lt h⟩
  · unfold lowPos at h
    split at h
    · next hc =>
      cases h
      rw [if_neg (by omega), if_pos hc.2]
      have := hX.hO q hc.2
      exact ⟨this.rows ▸ this.good.row_lt hh, this.cols ▸ this.good.col_lt hh⟩
    · split at h
      · next hc =>
        cases h
        rw [if_pos hc.2, if_pos (by omega), hc.1]
        have := hX.hS q (by omega)
        exact ⟨this.rows ▸ this.good.row_lt hh, this.cols ▸ this.good.col_lt hh⟩
      · cases h

theorem chainPat_clD {X : ChainPat} {M : Nat} (hX : X.Ok M) {p : Nat} (hp : p ≤ M) {i j k : Nat}
    (h1 : (X.cD p).Has i j) (h2 : (X.cD p).Has k j) (h3 : k < i) : (X.cD p).Has i k := by
  cases p with
  | zero => exact hX.cl0 i j k h1 h2 h3
  | succ p => exact (hX.clS p hp).c22' i j k h1 h2 h3

theorem chainHas_closed {X : ChainPat} {M : Nat} (hX : X.Ok M) {p i q j r k : Nat} (hp : p ≤ M + 1)
    (h1 : chainHas X M p i r k) (h2 : chainHas X M q j r k) (h3 : q < p ∨ (q = p ∧ j < i)) :
    chainHas X M p i q j := by
  rcases h1 with ⟨rfl, h1⟩ | ⟨G, hG, h1⟩
  · rcases h2 with ⟨rfl, h2⟩ | ⟨H, hH, h2⟩
    · refine Or.inl ⟨rfl, ?_⟩
      split at h1
      · next hc => rw [if_pos hc] at h2 ⊢; exact chainPat_clD hX hc h1 h2 (by omega)
      · next hc => rw [if_neg hc] at h2 ⊢; exact hX.clE.c22' i k j h1 h2 (by omega)
    · have := lowPos_lt hH
      omega
  · have hlt := lowPos_lt hG
    rcases h2 with ⟨rfl, h2⟩ | ⟨H, hH, h2⟩
    · refine Or.inr ⟨G, hG, ?_⟩
      rw [if_pos (by omega)] at h2
      unfold lowPos at hG
      split at hG
      · next hc =>
        cases hG
        by_cases hq : q < M
        · exact hX.o1 q hq i k j h1 h2
        · obtain rfl : q = M := by omega
          exact hX.clE.c21 i k j h1 h2
      · split at hG
        · cases hG
          exact (hX.clS q (by omega)).c21 i k j h1 h2
        · cases hG
    · unfold lowPos at hG hH
      split at hG
      · next hc =>
        cases hG
        split at hH
        · next hc' =>
          cases hH
          refine Or.inl ⟨by omega, ?_⟩
          rw [if_neg (by omega)]
          by_cases hq : r < M
          · exact hX.o3 r hq i k j h1 h2 (by omega)
          · obtain rfl : r = M := by omega
            exact hX.clE.c22 i k j h1 h2 (by omega)
        · split at hH
          · next hc' =>
            cases hH
            refine Or.inr ⟨X.cO q, if_pos ⟨hc.1, by omega⟩, ?_⟩
            rw [hc'.1]
            exact hX.o2 r (by omega) i k j h1 h2
          · cases hH
      · split at hG
        · next hc =>
          cases hG
          split at hH
          · omega
          · split at hH
            · next hc' =>
              cases hH
              have hpq : p = q := by omega
              refine Or.inl ⟨hpq, ?_⟩
              rw [if_pos (by omega), hc.1]
              exact (hX.clS r (by omega)).c22 i k j h1 h2 (by omega)
            · cases hH
        · cases hG

variable {T : ArrowheadTypes} {s : ArrowheadSparsity} {d : Dims} {N : Nat}

theorem types_has_iff {a b : Blk} (ha : a ∈ blocks N) (hb : b ∈ blocks N) (i j : Nat) :
    T.Has N a i b j ↔ chainHas (chainPat T d N) (N + 2) (a.rank N) i (b.rank N) j := by
  unfold ArrowheadTypes.Has blockPattern chainHas
  have h1 : T.diagBlock a = if a.rank N ≤ N + 2 then (chainPat T d N).cD (a.rank N) else (chainPat T d N).cE := by
    refine Eq.trans ?_ (rank_sel ha T.startDiag (fun _ => T.tridiagDiag) T.linkDiag T.outerDiag)
    cases a <;> rfl
  beta_reduce
  rw [rank_inj ha hb, h1, types_lowerBlock_eq ha hb]
  refine or_congr Iff.rfl ?_
  constructor
  · rintro ⟨G, h, h'⟩
    obtain ⟨c, h2, rfl⟩ := Option.map_eq_some_iff.mp h
    exact ⟨c, h2, h'⟩
  · rintro ⟨c, h, h'⟩
    exact ⟨_, Option.map_eq_some_iff.mpr ⟨c, h, rfl⟩, h'⟩

theorem types_has_out {a b : Blk} (hn : ¬ (a ∈ blocks N ∧ b ∈ blocks N)) {i j : Nat} (h : T.Has N a i b j) :
    ∃ t, ¬ t < N + 1 ∧ a = .tridiag t ∧ b = .tridiag t ∧ T.tridiagDiag.Has i j := by
  have key : ∀ {a : Blk}, ¬ a ∈ blocks N → ∃ t, ¬ t < N + 1 ∧ a = .tridiag t := fun {a} h => by
    rw [mem_blocks] at h
    push Not at h
    obtain ⟨t, rfl, h⟩ := h
    exact ⟨t, by omega, rfl⟩
  rcases h with ⟨rfl, h⟩ | ⟨G, h, -⟩
  · obtain ⟨t, ht, rfl⟩ := key (fun hh => hn ⟨hh, hh⟩)
    exact ⟨t, ht, rfl, rfl, h⟩
  · exfalso
    by_cases ha : a ∈ blocks N
    · obtain ⟨t, ht, rfl⟩ := key (fun hh => hn ⟨ha, hh⟩)
      rcases a with _ | (_ | u) | _ | _
      · cases h
      · cases h
      · simp only [ArrowheadTypes.lowerBlock] at h
        rw [if_neg (by omega)] at h
        cases h
      · simp only [ArrowheadTypes.lowerBlock] at h
        rw [if_neg (by omega)] at h
        cases h
      · simp only [ArrowheadTypes.lowerBlock] at h
        rw [if_neg (by omega)] at h
        cases h
    · obtain ⟨t, ht, rfl⟩ := key ha
      rcases t with _ | t
      · omega
      · rcases b with _ | u | _ | _
        · cases h
        · simp only [ArrowheadTypes.lowerBlock] at h
          rw [if_neg (by omega)] at h
          cases h
        · cases h
        · cases h

theorem types_has_before (hT : TypesOk s T d) {a b : Blk} {i j : Nat} (h : T.Has N a i b j) : Before N b j a i := by
  by_cases hab : a ∈ blocks N ∧ b ∈ blocks N
  · rcases chainHas_lower (chainPat_ok hT N) ((types_has_iff hab.1 hab.2 i j).mp h) with h | ⟨h, h'⟩
    · exact Or.inl h
    · exact Or.inr ⟨(rank_inj hab.2 hab.1).mp h, h'⟩
  · obtain ⟨t, -, rfl, rfl, h'⟩ := types_has_out hab h
    exact Or.inr ⟨rfl, hT.lowTridiag i j h'⟩

theorem types_has_range (hT : TypesOk s T d) {a b : Blk} {i j : Nat} (h : T.Has N a i b j) :
    i < d.of a ∧ j < d.of b := by
  by_cases hab : a ∈ blocks N ∧ b ∈ blocks N
  · rw [dims_of_eq (T := T) hab.1, dims_of_eq (T := T) hab.2]
    exact chainHas_range (chainPat_ok hT N) (rank_le hab.1) ((types_has_iff hab.1 hab.2 i j).mp h)
  · obtain ⟨t, -, rfl, rfl, h'⟩ := types_has_out hab h
    have := hT.tridiagDiag
    have h1 := this.good.row_lt h'
    have h2 := this.good.col_lt h'
    rw [this.rows] at h1
    rw [this.cols] at h2
    exact ⟨h1, h2⟩

theorem types_has_closed (hT : TypesOk s T d) {a b c : Blk} {i j k : Nat} (h1 : T.Has N a i c k)
    (h2 : T.Has N b j c k) (h3 : Before N b j a i) : T.Has N a i b j := by
  by_cases hc : c ∈ blocks N
  · by_cases ha : a ∈ blocks N
    · by_cases hb : b ∈ blocks N
      · refine (types_has_iff (d := d) ha hb i j).mpr (chainHas_closed (chainPat_ok hT N) (rank_le ha)
          ((types_has_iff ha hc i k).mp h1) ((types_has_iff hb hc j k).mp h2) ?_)
        rcases h3 with h | ⟨h, h'⟩
        · exact Or.inl h
        · exact Or.inr ⟨by rw [h], h'⟩
      · obtain ⟨t, ht, rfl, rfl, h⟩ := types_has_out (fun h => hb h.1) h2
        exact absurd hc hb
    · obtain ⟨t, ht, rfl, rfl, h⟩ := types_has_out (fun h => ha h.1) h1
      exact absurd hc ha
  · obtain ⟨t, ht, rfl, rfl, h⟩ := types_has_out (fun h => hc h.2) h1
    obtain ⟨u, hu, rfl, e, h'⟩ := types_has_out (fun h => hc h.2) h2
    cases e
    refine Or.inl ⟨rfl, ?_⟩
    rcases h3 with h3 | ⟨-, h3⟩
    · omega
    · exact hT.cTridiag.c11 i k j h h' h3

theorem types_has_pattern (hT : TypesOk s T d) {a b : Blk} {i j : Nat} (h : s.PermutedHas N a i b j) :
    T.Has N a i b j := by
  rcases h with ⟨rfl, h⟩ | ⟨G, h, hh⟩
  · refine Or.inl ⟨rfl, ?_⟩
    cases a with
    | start => exact hT.sStartDiag i j h
    | tridiag t => exact hT.sTridiagDiag i j h
    | link => exact hT.sLinkDiag i j h
    | outer => exact hT.sOuterDiag i j h
  · obtain ⟨c, h2, rfl⟩ := Option.map_eq_some_iff.mp h
    refine Or.inr ?_
    rcases a with _ | (_ | t) | _ | _
    · cases h2
    · rcases b with _ | u | _ | _ <;> cases h2
      exact ⟨_, rfl, hT.sStartNext i j hh⟩
    · rcases b with _ | u | _ | _
      · cases h2
      · simp only [ArrowheadSparsity.lowerBlock] at h2
        split at h2
        · next hc =>
          cases h2
          exact ⟨T.tridiagSubdiag.Has, by simp only [ArrowheadTypes.lowerBlock]; rw [if_pos hc]; rfl,
            hT.sTridiagSubdiag i j hh⟩
        · cases h2
      · cases h2
      · cases h2
    · rcases b with _ | u | _ | _
      · cases h2
      · simp only [ArrowheadSparsity.lowerBlock] at h2
        split at h2
        · next hc =>
          cases h2
          exact ⟨T.linkPrev.Has, by simp only [ArrowheadTypes.lowerBlock]; rw [if_pos hc]; rfl,
            hT.sLinkPrev i j hh⟩
        · cases h2
      · cases h2
      · cases h2
    · rcases b with _ | u | _ | _
      · cases h2
        exact ⟨_, rfl, hT.sStartOuter i j hh⟩
      · simp only [ArrowheadSparsity.lowerBlock] at h2
        split at h2
        · next hc =>
          cases h2
          exact ⟨T.outerSubdiag.Has, by simp only [ArrowheadTypes.lowerBlock]; rw [if_pos hc]; rfl,
            hT.sOuterSubdiag i j hh⟩
        · cases h2
      · cases h2
        exact ⟨_, rfl, hT.sLinkNext i j hh⟩
      · cases h2

end Ctldl
