import Verif.Lemmas.Forward
import Verif.Lemmas.ChainExact
import Verif.Lemmas.RoundingChain
import Verif.Lemmas.DefiniteFactor

/-! # The factorization of a chain of blocks with an outer block row as a sequence of eliminations -/

namespace Ctldl

open Finset

section

variable {ι : Type} {K : Type} [Zero K] [Sub K] [Mul K] [Div K]

/-- The computation of one row. -/
structure ElimRow (has : ι → ι → Prop) (A l : ι → ι → K) (d : ι → K) (n : Nat) (i : ι) (w : ι → K) : Prop where
  quot : ∀ {j}, has i j → l i j = w j / d j
  num : ∀ {j}, has i j → ∃ ks : List ι, ks.Nodup ∧ (∀ k, k ∈ ks ↔ has i k ∧ has j k) ∧
    ∃ t : ι → K, (∀ k ∈ ks, t k = l j k * w k ∨ t k = l i k * l j k * d k) ∧ w j = subAll ks t (A i j)
  piv : ∃ ks : List ι, ks.Nodup ∧ (∀ k, k ∈ ks ↔ has i k) ∧ ks.length ≤ n ∧
    ∃ t : ι → K, (∀ k ∈ ks, t k = w k * l i k ∨ t k = l i k * l i k * d k) ∧ d i = subAll ks t (A i i)

theorem Elim.of_rows {s : Finset ι} {rk : ι → Nat} {has : ι → ι → Prop} {A l : ι → ι → K} {d : ι → K} {n : Nat}
    (inj : ∀ x ∈ s, ∀ y ∈ s, rk x = rk y → x = y) (lower : ∀ {i j}, has i j → i ∈ s ∧ j ∈ s ∧ rk j < rk i)
    (closed : ∀ {i j k}, has i k → has j k → rk j < rk i → has i j)
    (zero : ∀ {i j}, i ∈ s → j ∈ s → rk j < rk i → ¬ has i j → A i j = 0) (off : ∀ {i j}, ¬ has i j → l i j = 0)
    (symm : ∀ i j, A i j = A j i) (rows : ∀ i ∈ s, ∃ w, ElimRow has A l d n i w) : ∃ w, Elim s rk has A l w d n := by
  classical
  have : ∀ i, ∃ w, i ∈ s → ElimRow has A l d n i w := by
    intro i
    by_cases hi : i ∈ s
    · obtain ⟨w, hw⟩ := rows i hi
      exact ⟨w, fun _ => hw⟩
    · exact ⟨fun _ => 0, fun h => absurd h hi⟩
  choose w hw using this
  exact ⟨w, inj, lower, closed, zero, off, symm, fun h => (hw _ (lower h).1).quot h, fun h => (hw _ (lower h).1).num h,
    fun h => (hw _ h).piv⟩

theorem subAll_map {κ : Type} (g : κ → ι) (ks : List κ) (t : ι → K) (a : K) :
    subAll (ks.map g) t a = subAll ks (fun k => t (g k)) a := by
  unfold subAll
  rw [List.foldl_map]

/-- A row of a diagonal block and the block left of it, for both methods. -/
def BlockRow (c11 c21 c22 : Csr) (l11 : Nat → Nat → K) (d1 : Nat → K) (a21 a22 : Nat → Nat → K) (aD : Nat → K)
    (l21 l22 : Nat → Nat → K) (d2 : Nat → K) (i : Nat) (w1 w2 : Nat → K) : Prop :=
  (∀ j, c21.Has i j → l21 i j = w1 j / d1 j ∧ ∃ t, (∀ k, c21.Has i k → t k = l11 j k * w1 k ∨ t k = l21 i k * l11 j k * d1 k) ∧
    w1 j = subAll ((c21.cols i).filter (c11.Has j ·)) t (a21 i j)) ∧
  (∀ j, c22.Has i j → l22 i j = w2 j / d2 j ∧ ∃ t1 t2,
    (∀ k, c21.Has i k → t1 k = l21 j k * w1 k ∨ t1 k = l21 i k * l21 j k * d1 k) ∧
    (∀ k, c22.Has i k → t2 k = l22 j k * w2 k ∨ t2 k = l22 i k * l22 j k * d2 k) ∧
    w2 j = subAll ((c22.cols i).filter (c22.Has j ·)) t2 (subAll ((c21.cols i).filter (c21.Has j ·)) t1 (a22 i j))) ∧
  ∃ t1 t2, (∀ k, c21.Has i k → t1 k = w1 k * l21 i k ∨ t1 k = l21 i k * l21 i k * d1 k) ∧
    (∀ k, c22.Has i k → t2 k = w2 k * l22 i k ∨ t2 k = l22 i k * l22 i k * d2 k) ∧
    d2 i = subAll (c22.cols i) t2 (subAll (c21.cols i) t1 (aD i))

theorem MethodRow.block {method : Method} {c11 c21 c22 : Csr} {l11 : Nat → Nat → K} {d1 : Nat → K} {a21 a22 : Nat → Nat → K}
    {aD : Nat → K} {l21 l22 : Nat → Nat → K} {d2 : Nat → K} {i : Nat}
    (h : MethodRow method c11 c21 c22 l11 d1 a21 a22 aD (fun x _ => x) l21 l22 d2 i) :
    ∃ w1 w2, BlockRow c11 c21 c22 l11 d1 a21 a22 aD l21 l22 d2 i w1 w2 := by
  cases method with
  | upLooking =>
    obtain ⟨w1, w2, h1, h2, h3, h4, h5⟩ := h
    refine ⟨w1, w2, fun j hj => ⟨h2 j hj, _, fun k _ => Or.inl rfl, h1 j hj⟩,
      fun j hj => ⟨h4 j hj, _, _, fun k _ => Or.inl rfl, fun k _ => Or.inl rfl, h3 j hj⟩,
      _, _, fun k hk => Or.inl ?_, fun k hk => Or.inl ?_, h5⟩
    · rw [h2 k hk]
    · rw [h4 k hk]
  | entryWise =>
    obtain ⟨h1, h2, h3⟩ := h
    refine ⟨fun j => subAll ((c21.cols i).filter (c11.Has j ·)) (fun k => l21 i k * l11 j k * d1 k) (a21 i j),
      fun j => subAll ((c22.cols i).filter (c22.Has j ·)) (fun k => l22 i k * l22 j k * d2 k)
        (subAll ((c21.cols i).filter (c21.Has j ·)) (fun k => l21 i k * l21 j k * d1 k) (a22 i j)),
      fun j hj => ⟨h1 j hj, _, fun k _ => Or.inr rfl, rfl⟩,
      fun j hj => ⟨h2 j hj, _, _, fun k _ => Or.inr rfl, fun k _ => Or.inr rfl, rfl⟩,
      _, _, fun k hk => Or.inr rfl, fun k hk => Or.inr rfl, h3⟩

end

/-- Positions of the entries of several blocks. -/
def sigmaList (f : Nat → List Nat) (m : Nat) : List (Σ _ : Nat, Nat) :=
  (List.range m).flatMap fun q => (f q).map (Sigma.mk q)

theorem mem_sigmaList {f : Nat → List Nat} {m : Nat} {x : Σ _ : Nat, Nat} :
    x ∈ sigmaList f m ↔ x.1 < m ∧ x.2 ∈ f x.1 := by
  obtain ⟨q, k⟩ := x
  simp [sigmaList, List.mem_flatMap]

theorem nodup_sigmaList {f : Nat → List Nat} {m : Nat} (h : ∀ q < m, (f q).Nodup) : (sigmaList f m).Nodup := by
  unfold sigmaList
  rw [List.nodup_flatMap]
  refine ⟨fun q hq => (h q (List.mem_range.mp hq)).map fun a b hab => by cases hab; rfl, ?_⟩
  refine (List.nodup_range (n := m)).imp_of_mem ?_
  intro a b _ _ hab x hx hx'
  obtain ⟨i, -, rfl⟩ := List.mem_map.mp hx
  obtain ⟨j, -, hj⟩ := List.mem_map.mp hx'
  cases hj
  exact hab rfl

theorem sigmaList_succ (f : Nat → List Nat) (m : Nat) :
    sigmaList f (m + 1) = sigmaList f m ++ (f m).map (Sigma.mk m) := by
  simp [sigmaList, List.range_succ, List.flatMap_append]

theorem sigmaList_nil {f : Nat → List Nat} {m : Nat} (h : ∀ q < m, f q = []) : sigmaList f m = [] := by
  rw [List.eq_nil_iff_forall_not_mem]
  intro x hx
  obtain ⟨h1, h2⟩ := mem_sigmaList.mp hx
  rw [h _ h1] at h2
  cases h2

theorem sigmaList_last {f : Nat → List Nat} {m : Nat} (h : ∀ q < m, f q = []) :
    sigmaList f (m + 1) = (f m).map (Sigma.mk m) := by
  rw [sigmaList_succ, sigmaList_nil h, List.nil_append]

theorem sigmaList_last2 {f : Nat → List Nat} {m : Nat} (h : ∀ q < m, f q = []) :
    sigmaList f (m + 2) = (f m).map (Sigma.mk m) ++ (f (m + 1)).map (Sigma.mk (m + 1)) := by
  rw [sigmaList_succ, sigmaList_last h]

theorem length_sigmaList (f : Nat → List Nat) (m : Nat) : (sigmaList f m).length = ∑ q ∈ range m, (f q).length := by
  induction m with
  | zero => rfl
  | succ m ih => rw [sigmaList_succ, List.length_append, ih, sum_range_succ, List.length_map]

/-- Columns of the entries in row `i` of block `(p, q)`. -/
def chainCols (X : ChainPat) (M p q i : Nat) : List Nat :=
  if p = q then (if p ≤ M then (X.cD p).cols i else X.cE.cols i)
  else if p = M + 1 then (X.cO q).cols i
  else if p = q + 1 then (X.cS q).cols i
  else []

/-- Pattern of the entries. -/
def posHas (X : ChainPat) (M : Nat) (x y : Σ _ : Nat, Nat) : Prop :=
  x.1 ≤ M + 1 ∧ y.1 ≤ x.1 ∧ y.2 ∈ chainCols X M x.1 y.1 x.2

instance (X : ChainPat) (M : Nat) (x y : Σ _ : Nat, Nat) : Decidable (posHas X M x y) := by
  unfold posHas
  infer_instance

/-- Positions of a chain. -/
def chainPositions (X : ChainPat) (M : Nat) : Finset (Σ _ : Nat, Nat) := (range (M + 2)).sigma fun p => range (chainN X M p)

theorem mem_chainPositions {X : ChainPat} {M : Nat} {x : Σ _ : Nat, Nat} :
    x ∈ chainPositions X M ↔ x.1 ≤ M + 1 ∧ x.2 < chainN X M x.1 := by
  unfold chainPositions
  rw [mem_sigma, mem_range, mem_range]
  omega

section

variable {X : ChainPat} {M : Nat}

theorem chainCols_nodup (hX : X.Ok M) {p q i : Nat} (hp : p ≤ M + 1) (hq : q ≤ p) : (chainCols X M p q i).Nodup := by
  unfold chainCols
  split
  · split
    · next h => exact Csr.Good.cols_nodup (hX.hD _ h).good i
    · exact Csr.Good.cols_nodup hX.hE.good i
  · split
    · exact Csr.Good.cols_nodup (hX.hO q (by omega)).good i
    · split
      · exact Csr.Good.cols_nodup (hX.hS q (by omega)).good i
      · exact List.nodup_nil

/-- Cases of an entry. -/
theorem posHas_iff {x y : Σ _ : Nat, Nat} : posHas X M x y ↔
    (x.1 = y.1 ∧ x.1 ≤ M ∧ (X.cD y.1).Has x.2 y.2) ∨ (x.1 = M + 1 ∧ y.1 = M + 1 ∧ X.cE.Has x.2 y.2) ∨
    (x.1 = M + 1 ∧ y.1 ≤ M ∧ (X.cO y.1).Has x.2 y.2) ∨ (x.1 = y.1 + 1 ∧ x.1 ≤ M ∧ (X.cS y.1).Has x.2 y.2) := by
  obtain ⟨p, i⟩ := x
  obtain ⟨q, j⟩ := y
  simp only [posHas, chainCols]
  constructor
  · rintro ⟨h1, h2, h3⟩
    split at h3
    · next h =>
      subst h
      split at h3
      · next h => exact Or.inl ⟨rfl, h, Csr.mem_cols.mp h3⟩
      · exact Or.inr (Or.inl ⟨by omega, by omega, Csr.mem_cols.mp h3⟩)
    · split at h3
      · next h => exact Or.inr (Or.inr (Or.inl ⟨h, by omega, Csr.mem_cols.mp h3⟩))
      · split at h3
        · next h => exact Or.inr (Or.inr (Or.inr ⟨h, by omega, Csr.mem_cols.mp h3⟩))
        · cases h3
  · rintro (⟨rfl, h2, h3⟩ | ⟨rfl, rfl, h3⟩ | ⟨rfl, h2, h3⟩ | ⟨rfl, h2, h3⟩)
    · rw [if_pos rfl, if_pos h2]
      exact ⟨by omega, le_rfl, Csr.mem_cols.mpr h3⟩
    · rw [if_pos rfl, if_neg (by omega)]
      exact ⟨le_rfl, le_rfl, Csr.mem_cols.mpr h3⟩
    · rw [if_neg (by omega), if_pos rfl]
      exact ⟨le_rfl, by omega, Csr.mem_cols.mpr h3⟩
    · rw [if_neg (by omega), if_neg (by omega), if_pos rfl]
      exact ⟨by omega, by omega, Csr.mem_cols.mpr h3⟩

/-- Order of elimination, for blocks of at most `B` rows. -/
def chainRk (B : Nat) (x : Σ _ : Nat, Nat) : Nat := x.1 * B + x.2

theorem posHas_lower (hX : X.Ok M) {B : Nat} (hB : ∀ p ≤ M + 1, chainN X M p ≤ B) {x y : Σ _ : Nat, Nat}
    (h : posHas X M x y) : x ∈ chainPositions X M ∧ y ∈ chainPositions X M ∧ chainRk B y < chainRk B x := by
  obtain ⟨p, i⟩ := x
  obtain ⟨q, j⟩ := y
  have key : i < chainN X M p ∧ j < chainN X M q ∧ p ≤ M + 1 ∧ q ≤ M + 1 ∧ (q < p ∨ (q = p ∧ j < i)) := by
    rcases posHas_iff.mp h with ⟨h1, h2, h3⟩ | ⟨h1, h2, h3⟩ | ⟨h1, h2, h3⟩ | ⟨h1, h2, h3⟩
    · dsimp only at h1 h2 h3
      subst h1
      have hc := hX.hD p h2
      have := hc.good.row_lt h3
      have := hc.good.col_lt h3
      have := hX.lowD p h2 i j h3
      rw [hc.rows, hc.cols] at *
      unfold chainN
      rw [if_pos h2]
      exact ⟨‹_›, ‹_›, by omega, by omega, Or.inr ⟨rfl, this⟩⟩
    · dsimp only at h1 h2 h3
      subst h1 h2
      have hc := hX.hE
      have := hc.good.row_lt h3
      have := hc.good.col_lt h3
      have := hX.lowE i j h3
      rw [hc.rows, hc.cols] at *
      unfold chainN
      rw [if_neg (by omega)]
      exact ⟨‹_›, ‹_›, by omega, by omega, Or.inr ⟨rfl, this⟩⟩
    · dsimp only at h1 h2 h3
      subst h1
      have hc := hX.hO q h2
      have := hc.good.row_lt h3
      have := hc.good.col_lt h3
      rw [hc.rows, hc.cols] at *
      unfold chainN
      rw [if_neg (by omega), if_pos h2]
      exact ⟨‹_›, ‹_›, by omega, by omega, Or.inl (by omega)⟩
    · dsimp only at h1 h2 h3
      subst h1
      have hc := hX.hS q (by omega)
      have := hc.good.row_lt h3
      have := hc.good.col_lt h3
      rw [hc.rows, hc.cols] at *
      unfold chainN
      rw [if_pos h2, if_pos (by omega)]
      exact ⟨‹_›, ‹_›, by omega, by omega, Or.inl (by omega)⟩
  obtain ⟨k1, k2, k3, k4, k5⟩ := key
  exact ⟨mem_chainPositions.mpr ⟨k3, k1⟩, mem_chainPositions.mpr ⟨k4, k2⟩,
    (lex_lt (k2.trans_le (hB q k4)) (k1.trans_le (hB p k3))).mpr k5⟩

theorem posHas_closed (hX : X.Ok M) {B : Nat} (hB : ∀ p ≤ M + 1, chainN X M p ≤ B) {x y z : Σ _ : Nat, Nat}
    (h : posHas X M x z) (h' : posHas X M y z) (hlt : chainRk B y < chainRk B x) : posHas X M x y := by
  have hx := mem_chainPositions.mp (posHas_lower hX hB h).1
  have hy := mem_chainPositions.mp (posHas_lower hX hB h').1
  have hlt' : y.1 < x.1 ∨ (y.1 = x.1 ∧ y.2 < x.2) :=
    (lex_lt (hy.2.trans_le (hB _ hy.1)) (hx.2.trans_le (hB _ hx.1))).mp hlt
  obtain ⟨p, i⟩ := x
  obtain ⟨q, j⟩ := y
  obtain ⟨r, k⟩ := z
  dsimp only at hlt'
  rw [posHas_iff]
  dsimp only
  rcases posHas_iff.mp h with ⟨h1, h2, h3⟩ | ⟨h1, h2, h3⟩ | ⟨h1, h2, h3⟩ | ⟨h1, h2, h3⟩ <;>
    rcases posHas_iff.mp h' with ⟨k1, k2, k3⟩ | ⟨k1, k2, k3⟩ | ⟨k1, k2, k3⟩ | ⟨k1, k2, k3⟩ <;>
    dsimp only at h1 h2 h3 k1 k2 k3 <;> try omega
  · subst h1 k1
    refine Or.inl ⟨rfl, h2, ?_⟩
    have : j < i := by omega
    cases q with
    | zero => exact hX.cl0 i k j h3 k3 this
    | succ q => exact (hX.clS q (by omega)).c22' i k j h3 k3 this
  · subst h1 h2 k1
    exact Or.inr (Or.inl ⟨rfl, rfl, hX.clE.c22' i k j h3 k3 (by omega)⟩)
  · subst h1 k1
    refine Or.inr (Or.inr (Or.inl ⟨rfl, h2, ?_⟩))
    rcases Nat.lt_or_eq_of_le h2 with hl | rfl
    · exact hX.o1 q hl i k j h3 k3
    · exact hX.clE.c21 i k j h3 k3
  · subst h1 k1
    refine Or.inr (Or.inl ⟨rfl, rfl, ?_⟩)
    have : j < i := by omega
    rcases Nat.lt_or_eq_of_le h2 with hl | rfl
    · exact hX.o3 r hl i k j h3 k3 this
    · exact hX.clE.c22 i k j h3 k3 this
  · subst h1 k1
    exact Or.inr (Or.inr (Or.inl ⟨rfl, by omega, hX.o2 r (by omega) i k j h3 k3⟩))
  · subst h1 k1
    exact Or.inr (Or.inr (Or.inr ⟨rfl, h2, (hX.clS q (by omega)).c21 i k j h3 k3⟩))
  · subst h1 k1
    exact Or.inl ⟨rfl, h2, (hX.clS r (by omega)).c22 i k j h3 k3 (by omega)⟩

/-- Common entries of two rows. -/
def numList (X : ChainPat) (M : Nat) (x y : Σ _ : Nat, Nat) : List (Σ _ : Nat, Nat) :=
  sigmaList (fun r => (chainCols X M x.1 r x.2).filter (· ∈ chainCols X M y.1 r y.2)) (y.1 + 1)

/-- Entries of a row. -/
def pivList (X : ChainPat) (M : Nat) (x : Σ _ : Nat, Nat) : List (Σ _ : Nat, Nat) :=
  sigmaList (fun r => chainCols X M x.1 r x.2) (x.1 + 1)

theorem mem_numList {x y z : Σ _ : Nat, Nat} (h : posHas X M x y) :
    z ∈ numList X M x y ↔ posHas X M x z ∧ posHas X M y z := by
  unfold numList
  rw [mem_sigmaList, List.mem_filter, decide_eq_true_eq]
  unfold posHas at h ⊢
  constructor
  · rintro ⟨h1, h2, h3⟩
    exact ⟨⟨h.1, by omega, h2⟩, by omega, by omega, h3⟩
  · rintro ⟨⟨h1, h2, h3⟩, h4, h5, h6⟩
    exact ⟨by omega, h3, h6⟩

theorem nodup_numList (hX : X.Ok M) {x y : Σ _ : Nat, Nat} (h : posHas X M x y) : (numList X M x y).Nodup :=
  nodup_sigmaList fun q hq => (chainCols_nodup hX h.1 (by have := h.2.1; omega)).filter _

theorem mem_pivList {x z : Σ _ : Nat, Nat} (h : x ∈ chainPositions X M) : z ∈ pivList X M x ↔ posHas X M x z := by
  have := (mem_chainPositions.mp h).1
  unfold pivList
  rw [mem_sigmaList]
  unfold posHas
  constructor
  · rintro ⟨h1, h2⟩
    exact ⟨this, by omega, h2⟩
  · rintro ⟨h1, h2, h3⟩
    exact ⟨by omega, h3⟩

theorem nodup_pivList (hX : X.Ok M) {x : Σ _ : Nat, Nat} (h : x ∈ chainPositions X M) : (pivList X M x).Nodup :=
  nodup_sigmaList fun q hq => chainCols_nodup hX (mem_chainPositions.mp h).1 (by omega)

theorem filter_cols (c c' : Csr) (i j : Nat) :
    (c.cols i).filter (fun k => decide (k ∈ c'.cols j)) = (c.cols i).filter (c'.Has j ·) :=
  List.filter_congr fun k _ => by simp only [Csr.mem_cols]

theorem chainCols_D {p : Nat} (h : p ≤ M) (i : Nat) : chainCols X M p p i = (X.cD p).cols i := by
  rw [chainCols, if_pos rfl, if_pos h]

theorem chainCols_E (i : Nat) : chainCols X M (M + 1) (M + 1) i = X.cE.cols i := by
  rw [chainCols, if_pos rfl, if_neg (by omega)]

theorem chainCols_O {q : Nat} (h : q ≤ M) (i : Nat) : chainCols X M (M + 1) q i = (X.cO q).cols i := by
  rw [chainCols, if_neg (by omega), if_pos rfl]

theorem chainCols_S {q : Nat} (h : q < M) (i : Nat) : chainCols X M (q + 1) q i = (X.cS q).cols i := by
  rw [chainCols, if_neg (by omega), if_neg (by omega), if_pos rfl]

theorem chainCols_nil {p q : Nat} (h : p ≤ M) (hq : q + 1 < p) (i : Nat) : chainCols X M p q i = [] := by
  rw [chainCols, if_neg (by omega), if_neg (by omega), if_neg (by omega)]

theorem numList_first (i j : Nat) :
    numList X M ⟨0, i⟩ ⟨0, j⟩ = (((X.cD 0).cols i).filter ((X.cD 0).Has j ·)).map (Sigma.mk 0) := by
  unfold numList
  rw [sigmaList_last (by intro q hq; dsimp only at hq; omega)]
  simp only [chainCols_D (Nat.zero_le M), filter_cols]

theorem numList_S {p : Nat} (h : p < M) (i j : Nat) :
    numList X M ⟨p + 1, i⟩ ⟨p, j⟩ = (((X.cS p).cols i).filter ((X.cD p).Has j ·)).map (Sigma.mk p) := by
  unfold numList
  rw [sigmaList_last (by intro q hq; dsimp only at hq ⊢; rw [chainCols_nil (p := p + 1) (by omega) (by omega), List.filter_nil])]
  simp only [chainCols_D (show p ≤ M by omega), chainCols_S h, filter_cols]

theorem numList_D {p : Nat} (h : p < M) (i j : Nat) :
    numList X M ⟨p + 1, i⟩ ⟨p + 1, j⟩ = (((X.cS p).cols i).filter ((X.cS p).Has j ·)).map (Sigma.mk p) ++
      (((X.cD (p + 1)).cols i).filter ((X.cD (p + 1)).Has j ·)).map (Sigma.mk (p + 1)) := by
  unfold numList
  rw [sigmaList_last2 (by intro q hq; dsimp only at hq ⊢; rw [chainCols_nil (p := p + 1) (i := i) (by omega) (by omega)]; rfl)]
  simp only [chainCols_D (show p + 1 ≤ M by omega), chainCols_S h, filter_cols]

theorem numList_O0 (i j : Nat) :
    numList X M ⟨M + 1, i⟩ ⟨0, j⟩ = (((X.cO 0).cols i).filter ((X.cD 0).Has j ·)).map (Sigma.mk 0) := by
  unfold numList
  rw [sigmaList_last (by intro q hq; dsimp only at hq; omega)]
  simp only [chainCols_D (Nat.zero_le M), chainCols_O (Nat.zero_le M), filter_cols]

theorem numList_O {p : Nat} (h : p < M) (i j : Nat) :
    numList X M ⟨M + 1, i⟩ ⟨p + 1, j⟩ = (((X.cO p).cols i).filter ((X.cS p).Has j ·)).map (Sigma.mk p) ++
      (((X.cO (p + 1)).cols i).filter ((X.cD (p + 1)).Has j ·)).map (Sigma.mk (p + 1)) := by
  unfold numList
  rw [sigmaList_last2 (by
    intro q hq
    dsimp only
    rw [chainCols_nil (p := p + 1) (by omega) (by omega)]
    simp)]
  simp only [chainCols_D (show p + 1 ≤ M by omega), chainCols_O (show p + 1 ≤ M by omega),
    chainCols_O (show p ≤ M by omega), chainCols_S h, filter_cols]

theorem numList_E (i j : Nat) :
    numList X M ⟨M + 1, i⟩ ⟨M + 1, j⟩ =
      sigmaList (fun r => ((X.cO r).cols i).filter ((X.cO r).Has j ·)) (M + 1) ++
      ((X.cE.cols i).filter (X.cE.Has j ·)).map (Sigma.mk (M + 1)) := by
  unfold numList
  rw [sigmaList_succ]
  simp only [chainCols_E, filter_cols]
  congr 1
  unfold sigmaList
  refine List.flatMap_congr fun q hq => ?_
  have := List.mem_range.mp hq
  dsimp only
  rw [chainCols_O (by omega), chainCols_O (by omega), filter_cols]

theorem pivList_first (i : Nat) : pivList X M ⟨0, i⟩ = ((X.cD 0).cols i).map (Sigma.mk 0) := by
  unfold pivList
  rw [sigmaList_last (by intro q hq; dsimp only at hq; omega)]
  simp only [chainCols_D (Nat.zero_le M)]

theorem pivList_D {p : Nat} (h : p < M) (i : Nat) :
    pivList X M ⟨p + 1, i⟩ = ((X.cS p).cols i).map (Sigma.mk p) ++ ((X.cD (p + 1)).cols i).map (Sigma.mk (p + 1)) := by
  unfold pivList
  rw [sigmaList_last2 (by intro q hq; dsimp only; rw [chainCols_nil (by omega) (by omega)])]
  simp only [chainCols_D (show p + 1 ≤ M by omega), chainCols_S h]

theorem pivList_E (i : Nat) :
    pivList X M ⟨M + 1, i⟩ = sigmaList (fun r => (X.cO r).cols i) (M + 1) ++ (X.cE.cols i).map (Sigma.mk (M + 1)) := by
  unfold pivList
  rw [sigmaList_succ]
  simp only [chainCols_E]
  congr 1
  unfold sigmaList
  refine List.flatMap_congr fun q hq => ?_
  have := List.mem_range.mp hq
  dsimp only
  rw [chainCols_O (by omega)]

theorem length_pivList {x : Σ _ : Nat, Nat} (h : x ∈ chainPositions X M) :
    (pivList X M x).length = X.rowLen M x.1 x.2 := by
  obtain ⟨p, i⟩ := x
  have hp := (mem_chainPositions.mp h).1
  dsimp only at hp ⊢
  unfold ChainPat.rowLen
  rcases Nat.lt_or_ge M p with hlt | hle
  · obtain rfl : p = M + 1 := by omega
    rw [if_neg (by omega), pivList_E, List.length_append, length_sigmaList, List.length_map]
  · rw [if_pos hle]
    cases p with
    | zero => rw [pivList_first, List.length_map, Nat.zero_add]
    | succ p => rw [pivList_D (by omega), List.length_append, List.length_map, List.length_map]

variable {K : Type} [Zero K]

/-- Entries of the factor. -/
def posVal (X : ChainPat) (M : Nat) (V : ChainVals K) (x y : Σ _ : Nat, Nat) : K :=
  if posHas X M x y then
    if x.1 = y.1 then (if x.1 ≤ M then V.l X x.1 x.2 y.2 else V.e X x.2 y.2)
    else if x.1 = M + 1 then V.o X y.1 x.2 y.2 else V.s X y.1 x.2 y.2
  else 0

/-- Pivots. -/
def posD (M : Nat) (V : ChainVals K) (x : Σ _ : Nat, Nat) : K := chainD V M x.1 x.2

/-- Elements of the matrix. -/
def posA (M : Nat) (I : ChainInput K) (x y : Σ _ : Nat, Nat) : K := chainA I M x.1 y.1 x.2 y.2

variable {V : ChainVals K}

theorem posVal_D {p : Nat} (h : p ≤ M) (i j : Nat) : posVal X M V ⟨p, i⟩ ⟨p, j⟩ = V.l X p i j := by
  unfold posVal
  dsimp only
  split
  · simp only [if_true, if_pos h]
  · next hn =>
    refine (val_off fun h' => hn ?_).symm
    exact posHas_iff.mpr (Or.inl ⟨rfl, h, h'⟩)

theorem posVal_E (i j : Nat) : posVal X M V ⟨M + 1, i⟩ ⟨M + 1, j⟩ = V.e X i j := by
  unfold posVal
  split
  · rw [if_pos rfl, if_neg (by dsimp only; omega)]
  · next hn =>
    refine (val_off fun h' => hn ?_).symm
    exact posHas_iff.mpr (Or.inr (Or.inl ⟨rfl, rfl, h'⟩))

theorem posVal_O {q : Nat} (h : q ≤ M) (i j : Nat) : posVal X M V ⟨M + 1, i⟩ ⟨q, j⟩ = V.o X q i j := by
  unfold posVal
  split
  · rw [if_neg (by dsimp only; omega), if_pos rfl]
  · next hn =>
    refine (val_off fun h' => hn ?_).symm
    exact posHas_iff.mpr (Or.inr (Or.inr (Or.inl ⟨rfl, h, h'⟩)))

theorem posVal_S {q : Nat} (h : q < M) (i j : Nat) : posVal X M V ⟨q + 1, i⟩ ⟨q, j⟩ = V.s X q i j := by
  unfold posVal
  split
  · rw [if_neg (by dsimp only; omega), if_neg (by dsimp only; omega)]
  · next hn =>
    refine (val_off fun h' => hn ?_).symm
    exact posHas_iff.mpr (Or.inr (Or.inr (Or.inr ⟨rfl, h, h'⟩)))

theorem posD_D {p : Nat} (h : p ≤ M) (i : Nat) : posD M V ⟨p, i⟩ = V.d p i := by
  unfold posD chainD
  rw [if_pos h]

theorem posD_E (i : Nat) : posD M V ⟨M + 1, i⟩ = V.g i := by
  unfold posD chainD
  rw [if_neg (by dsimp only; omega)]

variable {I : ChainInput K}

theorem posA_D {p : Nat} (h : p ≤ M) {i j : Nat} (hij : j < i) : posA M I ⟨p, i⟩ ⟨p, j⟩ = I.a p i j := by
  unfold posA chainA chainLow symOf
  rw [if_pos le_rfl, if_pos rfl, if_pos h, if_neg (by dsimp only; omega), if_pos hij]

theorem posA_DD {p : Nat} (h : p ≤ M) (i : Nat) : posA M I ⟨p, i⟩ ⟨p, i⟩ = I.aD p i := by
  unfold posA chainA chainLow symOf
  rw [if_pos le_rfl, if_pos rfl, if_pos h, if_pos rfl]

theorem posA_E {i j : Nat} (hij : j < i) : posA M I ⟨M + 1, i⟩ ⟨M + 1, j⟩ = I.h i j := by
  unfold posA chainA chainLow symOf
  rw [if_pos le_rfl, if_pos rfl, if_neg (by dsimp only; omega), if_neg (by dsimp only; omega), if_pos hij]

theorem posA_ED (i : Nat) : posA M I ⟨M + 1, i⟩ ⟨M + 1, i⟩ = I.hD i := by
  unfold posA chainA chainLow symOf
  rw [if_pos le_rfl, if_pos rfl, if_neg (by dsimp only; omega), if_pos rfl]

theorem posA_O {q : Nat} (h : q ≤ M) (i j : Nat) : posA M I ⟨M + 1, i⟩ ⟨q, j⟩ = I.c q i j := by
  unfold posA chainA chainLow
  rw [if_pos (by dsimp only; omega), if_neg (by dsimp only; omega), if_pos rfl]

theorem posA_S {q : Nat} (h : q < M) (i j : Nat) : posA M I ⟨q + 1, i⟩ ⟨q, j⟩ = I.b q i j := by
  unfold posA chainA chainLow
  rw [if_pos (by dsimp only; omega), if_neg (by dsimp only; omega), if_neg (by dsimp only; omega), if_pos rfl]

theorem posA_symm (x y : Σ _ : Nat, Nat) : posA M I x y = posA M I y x := by
  obtain ⟨p, i⟩ := x
  obtain ⟨q, j⟩ := y
  unfold posA chainA
  dsimp only
  rcases Nat.lt_trichotomy p q with h | rfl | h
  · rw [if_neg (by omega), if_pos h.le]
  · rw [if_pos le_rfl, if_pos le_rfl]
    unfold chainLow symOf
    rw [if_pos rfl, if_pos rfl]
    rcases Nat.lt_trichotomy i j with h | rfl | h
    · simp only [show ¬ i = j by omega, show ¬ j = i by omega, show ¬ j < i by omega, h, if_true, if_false]
    · rfl
    · simp only [show ¬ i = j by omega, show ¬ j = i by omega, show ¬ i < j by omega, h, if_true, if_false]
  · rw [if_pos h.le, if_neg (by omega)]

theorem posA_zero (hI : I.Zero X M) {B : Nat} (hB : ∀ p ≤ M + 1, chainN X M p ≤ B) {x y : Σ _ : Nat, Nat}
    (hx : x ∈ chainPositions X M) (hy : y ∈ chainPositions X M) (hlt : chainRk B y < chainRk B x) (h : ¬ posHas X M x y) :
    posA M I x y = 0 := by
  rw [mem_chainPositions] at hx hy
  have hlt' : y.1 < x.1 ∨ (y.1 = x.1 ∧ y.2 < x.2) :=
    (lex_lt (hy.2.trans_le (hB _ hy.1)) (hx.2.trans_le (hB _ hx.1))).mp hlt
  obtain ⟨p, i⟩ := x
  obtain ⟨q, j⟩ := y
  dsimp only at hlt' hx hy
  have h' := mt posHas_iff.mpr h
  simp only [not_or] at h'
  obtain ⟨h1, h2, h3, h4⟩ := h'
  unfold chainN at hx hy
  by_cases hpq : q = p
  · subst hpq
    have hji : j < i := by omega
    by_cases hM : q ≤ M
    · rw [posA_D hM hji]
      rw [if_pos hM] at hx
      exact hI.a q hM i hx.2 j hji fun hh => h1 ⟨rfl, hM, hh⟩
    · obtain rfl : q = M + 1 := by omega
      rw [posA_E hji]
      rw [if_neg hM] at hx
      exact hI.h i hx.2 j hji fun hh => h2 ⟨rfl, rfl, hh⟩
  · by_cases hM : p = M + 1
    · subst hM
      rw [if_neg (by omega)] at hx
      rw [if_pos (by omega)] at hy
      rw [posA_O (by omega)]
      exact hI.c q (by omega) i hx.2 j hy.2 fun hh => h3 ⟨rfl, by omega, hh⟩
    · rw [if_pos (by omega)] at hx hy
      by_cases hp : p = q + 1
      · subst hp
        rw [posA_S (by omega)]
        exact hI.b q (by omega) i hx.2 j hy.2 fun hh => h4 ⟨rfl, by omega, hh⟩
      · unfold posA chainA chainLow
        dsimp only
        rw [if_pos (by omega), if_neg (by omega), if_neg hM, if_neg hp]

end

end Ctldl
