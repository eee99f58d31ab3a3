import Verif.Lemmas.ChainOperations
import Verif.Lemmas.Solve

/-! # The rows of a chain of blocks as the rows of one matrix -/

namespace Ctldl

open Finset

/-- Lists in ascending order with the same elements are the same. -/
theorem ascending_ext {xs ys : List Nat} (hx : xs.Pairwise (· < ·)) (hy : ys.Pairwise (· < ·)) (h : ∀ k, k ∈ xs ↔ k ∈ ys) :
    xs = ys :=
  List.Perm.eq_of_pairwise (fun a b _ _ h1 h2 => by omega) hx hy
    ((List.perm_ext_iff_of_nodup (hx.imp fun h => by omega) (hy.imp fun h => by omega)).mpr h)

/-- Lists in descending order with the same elements are the same. -/
theorem descending_ext {xs ys : List Nat} (hx : xs.Pairwise (· > ·)) (hy : ys.Pairwise (· > ·)) (h : ∀ k, k ∈ xs ↔ k ∈ ys) :
    xs = ys :=
  List.Perm.eq_of_pairwise (fun a b _ _ h1 h2 => by omega) hx hy
    ((List.perm_ext_iff_of_nodup (hx.imp fun h => by omega) (hy.imp fun h => by omega)).mpr h)

section

variable {X : ChainPat} {M : Nat} {off : Nat → Nat}

/-- The blocks are placed one after the other. -/
structure Offsets (X : ChainPat) (M : Nat) (off : Nat → Nat) : Prop where
  zero : off 0 = 0
  succ : ∀ p ≤ M, off (p + 1) = off p + X.n p

/-- Position in the whole matrix. -/
def placeAt (off : Nat → Nat) (x : Σ _ : Nat, Nat) : Nat := off x.1 + x.2

theorem Offsets.le (h : Offsets X M off) {p q : Nat} (hpq : p < q) (hq : q ≤ M + 1) : off p + X.n p ≤ off q := by
  induction q with
  | zero => omega
  | succ q ih =>
    have := h.succ q (by omega)
    rcases Nat.lt_or_eq_of_le (Nat.le_of_lt_succ hpq) with h1 | rfl
    · have := ih h1 (by omega)
      omega
    · omega

theorem Offsets.lt (h : Offsets X M off) {x y : Σ _ : Nat, Nat} (hx : x ∈ chainPositions X M) (hy : y ∈ chainPositions X M)
    (hxy : x.1 < y.1 ∨ (x.1 = y.1 ∧ x.2 < y.2)) : placeAt off x < placeAt off y := by
  obtain ⟨x1, x2⟩ := mem_chainPositions.mp hx
  obtain ⟨y1, y2⟩ := mem_chainPositions.mp hy
  unfold placeAt
  rcases hxy with hlt | ⟨heq, hlt⟩
  · have := h.le hlt y1
    rw [chainN, if_pos (by omega)] at x2
    omega
  · rw [heq]
    omega

theorem Offsets.lt_iff (h : Offsets X M off) {x y : Σ _ : Nat, Nat} (hx : x ∈ chainPositions X M)
    (hy : y ∈ chainPositions X M) : placeAt off x < placeAt off y ↔ x.1 < y.1 ∨ (x.1 = y.1 ∧ x.2 < y.2) := by
  refine ⟨fun hlt => ?_, h.lt hx hy⟩
  by_contra hn
  by_cases heq : x.1 = y.1 ∧ x.2 = y.2
  · unfold placeAt at hlt
    rw [heq.1, heq.2] at hlt
    omega
  · have := h.lt hy hx (by omega)
    omega

theorem Offsets.lt_total (h : Offsets X M off) {x : Σ _ : Nat, Nat} (hx : x ∈ chainPositions X M) :
    placeAt off x < off (M + 1) + X.nO := by
  obtain ⟨x1, x2⟩ := mem_chainPositions.mp hx
  unfold placeAt
  rw [chainN] at x2
  split at x2
  · next hle =>
    have := h.le (p := x.1) (q := M + 1) (by omega) le_rfl
    omega
  · obtain hx1 : x.1 = M + 1 := by omega
    rw [hx1]
    omega

theorem Offsets.surj (h : Offsets X M off) {r : Nat} (hr : r < off (M + 1) + X.nO) :
    ∃ x ∈ chainPositions X M, placeAt off x = r := by
  by_cases hO : off (M + 1) ≤ r
  · refine ⟨⟨M + 1, r - off (M + 1)⟩, mem_chainPositions.mpr ⟨le_rfl, ?_⟩, ?_⟩
    · dsimp only
      rw [chainN, if_neg (by omega)]
      omega
    · unfold placeAt
      dsimp only
      omega
  · have key : ∀ q ≤ M + 1, r < off q → ∃ x ∈ chainPositions X M, placeAt off x = r := by
      intro q
      induction q with
      | zero => intro _ h'; rw [h.zero] at h'; omega
      | succ q ih =>
        intro hq h'
        by_cases hlt : r < off q
        · exact ih (by omega) hlt
        · rw [h.succ q (by omega)] at h'
          refine ⟨⟨q, r - off q⟩, mem_chainPositions.mpr ⟨by dsimp only; omega, ?_⟩, ?_⟩
          · dsimp only
            rw [chainN, if_pos (by omega)]
            omega
          · unfold placeAt
            dsimp only
            omega
    exact key (M + 1) le_rfl (by omega)

theorem chainCols_sorted (hX : X.Ok M) {p q i : Nat} (hp : p ≤ M + 1) (hq : q ≤ p) :
    (chainCols X M p q i).Pairwise (· < ·) := by
  unfold chainCols
  split
  · split
    · next h => exact (hX.hD _ h).good.cols_sorted i
    · exact hX.hE.good.cols_sorted i
  · split
    · exact (hX.hO q (by omega)).good.cols_sorted i
    · split
      · exact (hX.hS q (by omega)).good.cols_sorted i
      · exact List.Pairwise.nil

theorem sigmaList_sorted (h : Offsets X M off) {f : Nat → List Nat} {m : Nat} (hm : m ≤ M + 2)
    (hs : ∀ q < m, (f q).Pairwise (· < ·)) (hb : ∀ q < m, ∀ k ∈ f q, k < chainN X M q) :
    ((sigmaList f m).map (placeAt off)).Pairwise (· < ·) := by
  induction m with
  | zero => exact List.Pairwise.nil
  | succ m ih =>
    have mem : ∀ {x : Σ _ : Nat, Nat}, x.1 < m + 1 → x.2 ∈ f x.1 → x ∈ chainPositions X M := fun h1 h2 =>
      mem_chainPositions.mpr ⟨by omega, hb _ h1 _ h2⟩
    rw [sigmaList_succ, List.map_append, List.pairwise_append]
    refine ⟨ih (by omega) (fun q hq => hs q (by omega)) (fun q hq => hb q (by omega)), ?_, ?_⟩
    · rw [List.map_map, List.pairwise_map]
      refine (hs m (by omega)).imp_of_mem fun {a b} ha hb' hab => ?_
      exact h.lt (mem (x := ⟨m, a⟩) (by dsimp only; omega) ha) (mem (x := ⟨m, b⟩) (by dsimp only; omega) hb')
        (Or.inr ⟨rfl, hab⟩)
    · intro a ha b hb'
      obtain ⟨x, hx, rfl⟩ := List.mem_map.mp ha
      obtain ⟨y, hy, rfl⟩ := List.mem_map.mp hb'
      obtain ⟨k, hk, rfl⟩ := List.mem_map.mp hy
      obtain ⟨x1, x2⟩ := mem_sigmaList.mp hx
      exact h.lt (mem (by omega) x2) (mem (x := ⟨m, k⟩) (by dsimp only; omega) hk) (Or.inl x1)

/-- The pattern of one matrix consists of the patterns of the blocks. -/
structure ChainAssembles (X : ChainPat) (M : Nat) (off : Nat → Nat) (c : Csr) : Prop where
  ok : CsrOk c (off (M + 1) + X.nO) (off (M + 1) + X.nO)
  has : ∀ x ∈ chainPositions X M, ∀ y ∈ chainPositions X M, c.Has (placeAt off x) (placeAt off y) ↔ posHas X M x y

theorem posHas_mem (hX : X.Ok M) {x y : Σ _ : Nat, Nat} (h : posHas X M x y) :
    x ∈ chainPositions X M ∧ y ∈ chainPositions X M ∧ (y.1 < x.1 ∨ (y.1 = x.1 ∧ y.2 < x.2)) := by
  let B := ∑ p ∈ range (M + 2), chainN X M p
  have hB : ∀ p ≤ M + 1, chainN X M p ≤ B := fun p hp =>
    single_le_sum (f := chainN X M) (fun _ _ => Nat.zero_le _) (mem_range.mpr (by omega))
  obtain ⟨h1, h2, h3⟩ := posHas_lower hX hB h
  obtain ⟨x1, x2⟩ := mem_chainPositions.mp h1
  obtain ⟨y1, y2⟩ := mem_chainPositions.mp h2
  exact ⟨h1, h2, (lex_lt (y2.trans_le (hB _ y1)) (x2.trans_le (hB _ x1))).mp h3⟩

theorem ChainAssembles.placed (hX : X.Ok M) (hO : Offsets X M off) {c : Csr} (hc : ChainAssembles X M off c) :
    Placed (· ∈ chainPositions X M) (placeAt off) (posHas X M) (numList X M) (pivList X M) c.Has
      (fun i j => (c.cols i).filter (c.Has j ·)) c.cols := by
  have hb : ∀ x : Σ _ : Nat, Nat, x.1 ≤ M + 1 → ∀ q < x.1 + 1, ∀ k ∈ chainCols X M x.1 q x.2, k < chainN X M q := by
    intro x hx q hq k hk
    exact (mem_chainPositions.mp (posHas_mem hX (x := x) (y := ⟨q, k⟩) ⟨hx, by dsimp only; omega, hk⟩).2.1).2
  have hcol : ∀ {r k}, c.Has r k → ∃ y ∈ chainPositions X M, placeAt off y = k := fun h =>
    hO.surj (by have := hc.ok.good.col_lt h; rwa [hc.ok.cols] at this)
  refine ⟨fun hx h => ?_, fun {x y} hx h => ⟨?_, fun z hz => (mem_numList h).mp hz⟩, fun {x} hx => ⟨?_, fun z hz => (mem_pivList hx).mp hz⟩⟩
  · obtain ⟨h1, h2, h3⟩ := posHas_mem hX h
    exact ⟨h2, hO.lt h2 h1 h3, (hc.has _ h1 _ h2).mpr h⟩
  · obtain ⟨h1, h2, h3⟩ := posHas_mem hX h
    have hy1 := (mem_chainPositions.mp h2).1
    refine ascending_ext ((hc.ok.good.cols_sorted _).filter _) ?_ fun k => ?_
    · refine sigmaList_sorted hO (by omega) (fun q hq => (chainCols_sorted hX h.1 (by have := h.2.1; omega)).filter _)
        fun q hq k hk => hb x h.1 q (by have := h.2.1; omega) k (List.mem_filter.mp hk).1
    · rw [List.mem_filter, Csr.mem_cols, decide_eq_true_eq, List.mem_map]
      constructor
      · rintro ⟨k1, k2⟩
        obtain ⟨z, hz, rfl⟩ := hcol k1
        exact ⟨z, (mem_numList h).mpr ⟨(hc.has _ h1 _ hz).mp k1, (hc.has _ h2 _ hz).mp k2⟩, rfl⟩
      · rintro ⟨z, hz, rfl⟩
        obtain ⟨z1, z2⟩ := (mem_numList h).mp hz
        have hz' := (posHas_mem hX z1).2.1
        exact ⟨(hc.has _ h1 _ hz').mpr z1, (hc.has _ h2 _ hz').mpr z2⟩
  · have hx1 := (mem_chainPositions.mp hx).1
    refine ascending_ext (hc.ok.good.cols_sorted _) ?_ fun k => ?_
    · exact sigmaList_sorted hO (by omega) (fun q hq => chainCols_sorted hX hx1 (by omega)) fun q hq k hk => hb x hx1 q hq k hk
    · rw [Csr.mem_cols, List.mem_map]
      constructor
      · intro k1
        obtain ⟨z, hz, rfl⟩ := hcol k1
        exact ⟨z, (mem_pivList hx).mpr ((hc.has _ hx _ hz).mp k1), rfl⟩
      · rintro ⟨z, hz, rfl⟩
        have z1 := (mem_pivList hx).mp hz
        exact (hc.has _ hx _ (posHas_mem hX z1).2.1).mpr z1

end

/-- The operations performed for the rows of a single matrix. -/
theorem SingleRow.abs {K : Type} [Zero K] [Sub K] [Mul K] [Div K] {method : Method} {c : Csr} {a : Nat → Nat → K} {aD : Nat → K}
    {reg : K → Nat → K} {l : Nat → Nat → K} {d : Nat → K} {i : Nat} (h : SingleRow method c a aD reg l d i)
    (low : ∀ i j, c.Has i j → j < i) :
    RowAbs method c.Has (fun i j => (c.cols i).filter (c.Has j ·)) c.cols (fun i j => if i = j then aD i else a i j) l d
      (fun i x => reg x i) i := by
  obtain ⟨c11, c21, z11, z21, -, -, L11, L21, d1, a21, h⟩ := h
  have hne : ∀ {j}, c.Has i j → i ≠ j := fun hj => by have := low _ _ hj; omega
  cases method with
  | upLooking =>
    obtain ⟨w1, w2, -, -, h3, h4, h5⟩ := h
    refine ⟨w2, fun j hj => ⟨?_, h4 j hj⟩, ?_⟩
    · have := h3 j hj
      rw [cols_empty z21, List.filter_nil, subAll_nil] at this
      simp only [if_neg (hne hj)]
      exact this
    · rw [cols_empty z21, subAll_nil] at h5
      simp only [if_true]
      exact h5
  | entryWise =>
    obtain ⟨-, h4, h5⟩ := h
    refine ⟨fun j hj => ?_, ?_⟩
    · have := h4 j hj
      unfold EntryDiag at this
      rw [cols_empty z21, List.filter_nil, subAll_nil] at this
      simp only [if_neg (hne hj)]
      exact this
    · rw [cols_empty z21, subAll_nil] at h5
      simp only [if_true]
      exact h5

end Ctldl
