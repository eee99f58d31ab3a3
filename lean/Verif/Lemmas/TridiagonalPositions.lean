import Verif.Lemmas.Tridiagonal
import Verif.Lemmas.DefiniteFactor
import Verif.Spec.Rounding

/-! # Rows and definiteness of block tridiagonal matrices -/

namespace Ctldl.Tridiagonal

open Finset

variable {K F : Type}

theorem blocks_cases {n N : Nat} {P : Blk → Nat → Prop} (h : ∀ t < N + 1, ∀ i < n, P (.tridiag t) i) :
    ∀ a ∈ blocks N, ∀ i < (⟨0, n, 0, 0⟩ : Dims).of a, P a i := by
  intro a ha i hi
  cases a with
  | tridiag t => exact h t (mem_blocks.mp ha t rfl) i hi
  | start => cases hi
  | link => cases hi
  | outer => cases hi

theorem sum_positions [AddCommMonoid K] {n N : Nat} (g : (Σ _ : Blk, Nat) → K) :
    ∑ x ∈ positions ⟨0, n, 0, 0⟩ N, g x = ∑ k ∈ tridiagonalPositions n N, g ⟨.tridiag k.1, k.2⟩ := by
  unfold positions tridiagonalPositions
  rw [sum_sigma, sum_product]
  exact sum_tridiag fun b j => g ⟨b, j⟩

theorem ldlt_eq [Semiring K] (f : ArrowheadFactor K) (n N t u i j : Nat) :
    f.ldlt ⟨0, n, 0, 0⟩ N (.tridiag t) (.tridiag u) i j = tridiagonalLdlt f n N t u i j :=
  sum_tridiag _

theorem matrix_map (n N : Nat) (A B : List (MatIn K)) (g : K → F) :
    (tridiagonalMatrix n N A B).map g = tridiagonalMatrix n N (A.map (·.map g)) (B.map (·.map g)) := by
  unfold ArrowheadMatrix.map tridiagonalMatrix
  simp only [List.map_replicate]
  rfl

theorem mem_positions' {n N : Nat} {k : Nat × Nat} : k ∈ tridiagonalPositions n N ↔ k.1 < N + 1 ∧ k.2 < n := by
  unfold tridiagonalPositions
  rw [mem_product, mem_range, mem_range]

theorem position_cases {n N : Nat} {x : Σ _ : Blk, Nat} (hx : x ∈ positions ⟨0, n, 0, 0⟩ N) :
    ∃ k ∈ tridiagonalPositions n N, x = ⟨.tridiag k.1, k.2⟩ := by
  obtain ⟨a, i⟩ := x
  obtain ⟨h1, h2⟩ := mem_positions.mp hx
  cases a with
  | tridiag t => exact ⟨(t, i), mem_positions'.mpr ⟨mem_blocks.mp h1 t rfl, h2⟩, rfl⟩
  | start => cases h2
  | link => cases h2
  | outer => cases h2

theorem position_mem {n N : Nat} {k : Nat × Nat} (hk : k ∈ tridiagonalPositions n N) :
    (⟨.tridiag k.1, k.2⟩ : Σ _ : Blk, Nat) ∈ positions ⟨0, n, 0, 0⟩ N := by
  obtain ⟨h1, h2⟩ := mem_positions'.mp hk
  exact mem_positions.mpr ⟨tridiag_mem h1, h2⟩

section

variable [Field F] [LinearOrder F]

theorem posDef_of {n N : Nat} {μ : F} {C : Nat × Nat → Nat × Nat → F}
    {D : (Σ _ : Blk, Nat) → (Σ _ : Blk, Nat) → F}
    (hCD : ∀ k ∈ tridiagonalPositions n N, ∀ l ∈ tridiagonalPositions n N,
      D ⟨.tridiag k.1, k.2⟩ ⟨.tridiag l.1, l.2⟩ = C k l) (h : PosDef (tridiagonalPositions n N) μ C) :
    PosDef (positions ⟨0, n, 0, 0⟩ N) μ D := by
  rintro x ⟨p, hp, hne⟩
  obtain ⟨k, hk, rfl⟩ := position_cases hp
  have := h (fun k => x ⟨.tridiag k.1, k.2⟩) ⟨k, hk, hne⟩
  rw [sum_positions, sum_positions]
  refine this.trans_le (le_of_eq (sum_congr rfl fun k hk => ?_))
  rw [sum_positions]
  exact sum_congr rfl fun l hl => by rw [hCD k hk l hl]

theorem of_posDef {n N : Nat} {μ : F} {C : Nat × Nat → Nat × Nat → F}
    {D : (Σ _ : Blk, Nat) → (Σ _ : Blk, Nat) → F}
    (hCD : ∀ k ∈ tridiagonalPositions n N, ∀ l ∈ tridiagonalPositions n N,
      D ⟨.tridiag k.1, k.2⟩ ⟨.tridiag l.1, l.2⟩ = C k l) (h : PosDef (positions ⟨0, n, 0, 0⟩ N) μ D) :
    PosDef (tridiagonalPositions n N) μ C := by
  rintro x ⟨k, hk, hne⟩
  let y : (Σ _ : Blk, Nat) → F := fun p =>
    match p.1 with
    | .tridiag t => x (t, p.2)
    | _ => 0
  have := h y ⟨_, position_mem hk, hne⟩
  rw [sum_positions, sum_positions] at this
  refine this.trans_le (le_of_eq (sum_congr rfl fun k hk => ?_))
  rw [sum_positions]
  exact sum_congr rfl fun l hl => by rw [hCD k hk l hl]

theorem quasiDef_of {n N : Nat} {μ : F} {S : Nat × Nat → Prop} {C : Nat × Nat → Nat × Nat → F}
    {D : (Σ _ : Blk, Nat) → (Σ _ : Blk, Nat) → F} {S' : (Σ _ : Blk, Nat) → Prop}
    (hCD : ∀ k ∈ tridiagonalPositions n N, ∀ l ∈ tridiagonalPositions n N,
      D ⟨.tridiag k.1, k.2⟩ ⟨.tridiag l.1, l.2⟩ = C k l) (hS : ∀ k, S' ⟨.tridiag k.1, k.2⟩ ↔ S k)
    (h : QuasiDef (tridiagonalPositions n N) S μ C) :
    QuasiDef (positions ⟨0, n, 0, 0⟩ N) S' μ D := by
  have key : ∀ x : (Σ _ : Blk, Nat) → F, ∑ i ∈ positions ⟨0, n, 0, 0⟩ N, ∑ j ∈ positions ⟨0, n, 0, 0⟩ N, x i * D i j * x j =
      ∑ k ∈ tridiagonalPositions n N, ∑ l ∈ tridiagonalPositions n N,
        x ⟨.tridiag k.1, k.2⟩ * C k l * x ⟨.tridiag l.1, l.2⟩ := by
    intro x
    rw [sum_positions]
    refine sum_congr rfl fun k hk => ?_
    rw [sum_positions]
    exact sum_congr rfl fun l hl => by rw [hCD k hk l hl]
  constructor
  · rintro x ⟨p, hp, hne⟩ h0
    obtain ⟨k, hk, rfl⟩ := position_cases hp
    rw [key, sum_positions]
    exact h.1 (fun k => x ⟨.tridiag k.1, k.2⟩) ⟨k, hk, hne⟩ fun k hk hn =>
      h0 _ (position_mem hk) fun hh => hn ((hS k).mp hh)
  · rintro x ⟨p, hp, hne⟩ h0
    obtain ⟨k, hk, rfl⟩ := position_cases hp
    rw [key, sum_positions]
    exact h.2 (fun k => x ⟨.tridiag k.1, k.2⟩) ⟨k, hk, hne⟩ fun k hk hn =>
      h0 _ (position_mem hk) ((hS k).mpr hn)

end

private theorem no_entries {c : Csr} {r k : Nat} (h : CsrOk c r k) (h0 : r = 0 ∨ k = 0) : c.entries = [] := by
  rw [List.eq_nil_iff_forall_not_mem]
  intro e he
  have := h.good.ok.inRange e he
  rw [h.rows, h.cols] at this
  omega

private theorem rowEntries_zero {c : Csr} {r k : Nat} (h : CsrOk c r k) (h0 : r = 0 ∨ k = 0) (i : Nat) :
    c.rowEntries i = 0 := by
  unfold Csr.rowEntries
  rw [no_entries h h0]
  rfl

private theorem colEntries_zero {c : Csr} {r k : Nat} (h : CsrOk c r k) (h0 : r = 0 ∨ k = 0) (i : Nat) :
    c.colEntries i = 0 := by
  unfold Csr.colEntries
  rw [no_entries h h0]
  rfl

private theorem typesOk {s : ArrowheadSparsity} {T : ArrowheadTypes} {d : Dims} (hs : s.Valid d)
    (hT : arrowheadTypes s = .ok T) : TypesOk s T d := by
  obtain ⟨T', h, h'⟩ := arrowheadTypes_sat hs
  rw [hT] at h
  cases h
  exact h'

theorem rowEntries_le {spA spB : Sparsity} {p : List Nat} {n : Nat} (h : ValidTridiagonal spA spB p n)
    {T : ArrowheadTypes} (hT : arrowheadTypes (emptied spA spB p n) = .ok T) (N t i : Nat) :
    T.rowEntries N (.tridiag t) i ≤ T.tridiagDiag.rowEntries i + T.tridiagSubdiag.rowEntries i := by
  have hok := typesOk (emptied_valid h) hT
  unfold ArrowheadTypes.rowEntries
  refine Nat.add_le_add_left ?_ _
  rw [sum_blocks]
  cases t with
  | zero =>
    simp [ArrowheadTypes.lowerBlock, rowEntries_zero hok.startNext (Or.inr rfl)]
  | succ t =>
    simp only [ArrowheadTypes.lowerBlock, Option.elim_none, add_zero, zero_add]
    refine (sum_le_sum (g := fun u => if u = t then T.tridiagSubdiag.rowEntries i else 0) fun u _ => ?_).trans ?_
    · split_ifs with h1 h2 h2
      · exact le_rfl
      · exact absurd h1.1 h2
      · exact Nat.zero_le _
      · exact le_rfl
    · rw [sum_ite_eq']
      split_ifs
      · exact le_rfl
      · exact Nat.zero_le _

theorem colEntries_le {spA spB : Sparsity} {p : List Nat} {n : Nat} (h : ValidTridiagonal spA spB p n)
    {T : ArrowheadTypes} (hT : arrowheadTypes (emptied spA spB p n) = .ok T) (N t i : Nat) :
    T.colEntries N (.tridiag t) i ≤ T.tridiagDiag.colEntries i + T.tridiagSubdiag.colEntries i := by
  have hok := typesOk (emptied_valid h) hT
  have h0 := colEntries_zero hok.linkPrev (Or.inl rfl) i
  have h1 := colEntries_zero hok.outerSubdiag (Or.inl rfl) i
  unfold ArrowheadTypes.colEntries
  refine Nat.add_le_add_left ?_ _
  rw [sum_blocks]
  have h2 : (T.lowerBlock N .link (.tridiag t)).elim 0 (fun c => c.colEntries i) = 0 := by
    simp only [ArrowheadTypes.lowerBlock]
    split_ifs
    · exact h0
    · rfl
  have h3 : (T.lowerBlock N .outer (.tridiag t)).elim 0 (fun c => c.colEntries i) = 0 := by
    simp only [ArrowheadTypes.lowerBlock]
    split_ifs
    · exact h1
    · rfl
  rw [h2, h3, add_zero, add_zero, show T.lowerBlock N .start (.tridiag t) = none from rfl, Option.elim_none, zero_add]
  refine (sum_le_sum (g := fun u => if u = t + 1 then T.tridiagSubdiag.colEntries i else 0) fun u _ => ?_).trans ?_
  · cases u with
    | zero => exact Nat.zero_le _
    | succ u =>
      simp only [ArrowheadTypes.lowerBlock]
      split_ifs with h1 h2 h2
      · exact le_rfl
      · exact absurd (by omega) h2
      · exact Nat.zero_le _
      · exact le_rfl
  · rw [sum_ite_eq']
    split_ifs
    · exact le_rfl
    · exact Nat.zero_le _

theorem has_range {spA spB : Sparsity} {p : List Nat} {n : Nat} (h : ValidTridiagonal spA spB p n)
    {T : ArrowheadTypes} (hT : arrowheadTypes (emptied spA spB p n) = .ok T) {N t u i j : Nat}
    (hh : T.Has N (.tridiag t) i (.tridiag u) j) : i < n ∧ j < n :=
  types_has_range (typesOk (emptied_valid h) hT) hh

theorem has_cases {spA spB : Sparsity} {p : List Nat} {n : Nat} (h : ValidTridiagonal spA spB p n)
    {T : ArrowheadTypes} (hT : arrowheadTypes (emptied spA spB p n) = .ok T) {N : Nat} {P : Blk → Nat → Blk → Nat → Prop}
    (hP : ∀ t < N + 1, ∀ u < N + 1, ∀ i j, T.Has N (.tridiag t) i (.tridiag u) j → P (.tridiag t) i (.tridiag u) j) :
    ∀ a ∈ blocks N, ∀ b ∈ blocks N, ∀ i j, T.Has N a i b j → P a i b j := by
  intro a ha b hb i j hh
  obtain ⟨h1, h2⟩ := types_has_range (typesOk (emptied_valid h) hT) hh
  have key : ∀ (a : Blk) (i : Nat), i < (⟨0, n, 0, 0⟩ : Dims).of a → ∃ t, a = .tridiag t := by
    intro a i hi
    cases a with
    | tridiag t => exact ⟨t, rfl⟩
    | start => cases hi
    | link => cases hi
    | outer => cases hi
  obtain ⟨t, rfl⟩ := key a i h1
  obtain ⟨u, rfl⟩ := key b j h2
  exact hP t (mem_blocks.mp ha t rfl) u (mem_blocks.mp hb u rfl) i j hh

end Ctldl.Tridiagonal
