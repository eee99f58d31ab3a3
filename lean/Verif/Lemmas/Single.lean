import Verif.Lemmas.Exact
import Verif.Spec.Factor

/-! # Factorization of a single diagonal block -/

namespace Ctldl

theorem Csr.Good.of_toCsr {s : Sparsity} {c : Csr} (hs : s.InRange) (hst : s.Sorted) (h : s.toCsr = .ok c) :
    c.Good ∧ c.toSparsity = s := by
  rw [toCsr_eq hs] at h
  cases h
  have := csrOf_sorted hs hst
  exact ⟨⟨csrOf_ok hs, by rw [this]; exact hst⟩, this⟩

section

variable {K : Type}

theorem emptyCsr_spec (r c : Nat) : ∃ e, (emptySparsity r c).toCsr = .ok e ∧ e.Good ∧ e.numRows = r ∧
    e.numCols = c ∧ e.entries = [] ∧ ∀ i j, ¬ e.Has i j := by
  have h1 : (emptySparsity r c).InRange := by intro e he; cases he
  have h2 : (emptySparsity r c).Sorted := List.Pairwise.nil
  refine ⟨csrOf (emptySparsity r c), toCsr_eq h1, ?_⟩
  obtain ⟨h3, h4⟩ := Csr.Good.of_toCsr h1 h2 (toCsr_eq h1)
  refine ⟨h3, by rw [h4]; rfl, by rw [h4]; rfl, by rw [h4]; rfl, ?_⟩
  intro i j h
  unfold Csr.Has at h
  rw [h4] at h
  cases h

/-- A diagonal block which can be factorized on its own. -/
structure Closed1 (f : DiagFactor K) (n : Nat) : Prop where
  ok : DiagOk f n
  perm : IsPerm f.permutation n
  small : n ≤ noParent
  closed : ∀ i j k, f.sparsity.Has i j → f.sparsity.Has k j → k < i → f.sparsity.Has i k

theorem DiagFactor.Declared.closed1 {f : DiagFactor K} {s : Sparsity} {p : List Nat} (h : f.Declared s p)
    (hv : ValidSparsity s p) :
    Closed1 f s.numRows ∧ f.sparsity.toSparsity.IsPattern s.numRows s.numRows (Fill (LowerPermuted s p)) := by
  obtain ⟨h1, h2⟩ := Sat.of_ok (factorizationSparsity_sat hv.inRange hv.square hv.perm hv.small) h.pattern
  have hl : ∀ {i j}, Fill (LowerPermuted s p) i j → j < i := fun h => by
    induction h with
    | base _ h => exact h
    | step _ _ h => exact h
  refine ⟨⟨⟨⟨h1, h2.2.2.1⟩, h2.1, h2.2.1, ?_, ?_, h.sizeL, h.sizeD⟩, ?_, hv.small, ?_⟩, h2⟩
  · intro i j hij
    exact hl ((h2.2.2.2 i j).mp hij).2.2
  · rw [h.perm, hv.perm.length]
  · rw [h.perm]
    exact hv.perm
  · intro i j k hij hkj hk
    rw [Csr.Has, h2.2.2.2] at hij hkj ⊢
    exact ⟨hij.1, by omega, .step hij.2.2 hkj.2.2 hk⟩

variable [Zero K] [Sub K] [Mul K] [Div K]

/-- The empty blocks used for a single factor. -/
theorem factorize_unfold {f : DiagFactor K} {n : Nat} (h : Closed1 f n) :
    ∃ f11 f21, DiagOk f11 0 ∧ SubOk f21 n 0 ∧
      IsPerm f21.permutationRow n ∧ IsPerm f21.permutationCol 0 ∧
      (∀ i j, ¬ f11.sparsity.Has i j) ∧ (∀ i j, ¬ f21.sparsity.Has i j) ∧
      ∀ (m : MatIn K) (reg : K → Nat → K) (method : Method) (g : DiagFactor K), g.sparsity = f.sparsity →
        g.permutation = f.permutation →
        g.factorize m reg method = (do
          let (_, g') ← factorizeBlocks f11 (.matrix (emptyMatrixInput K n 0)) (.matrix m) f21 g reg method
          return g') := by
  obtain ⟨e11, q11, g11, r11, c11, n11, z11⟩ := emptyCsr_spec 0 0
  obtain ⟨e21, q21, g21, r21, c21, n21, z21⟩ := emptyCsr_spec n 0
  refine ⟨⟨e11, [], [], []⟩, ⟨e21, f.permutation, identityPermutation 0, []⟩, ?_, ?_, h.perm,
    isPerm_identity 0, z11, z21, ?_⟩
  · exact ⟨g11, r11, c11, fun i j h => absurd h (z11 i j), rfl, by simp [n11], rfl⟩
  · exact ⟨g21, r21, c21, h.ok.perm, rfl, by simp [n21]⟩
  · intro m reg method g hg hgp
    unfold DiagFactor.factorize emptyFactorDataLeft emptyFactorDataDiagonal
    rw [hg, h.ok.rows, q21, q11, hgp]
    rfl

/-- Rows of a single factor. -/
def SingleRow (method : Method) (c : Csr) (a : Nat → Nat → K) (aD : Nat → K) (reg : K → Nat → K)
    (l : Nat → Nat → K) (d : Nat → K) (i : Nat) : Prop :=
  ∃ c11 c21 : Csr, (∀ i j, ¬ c11.Has i j) ∧ (∀ i j, ¬ c21.Has i j) ∧ c21.Good ∧ c21.numCols = 0 ∧ ∃ L11 L21 d1 a21,
    MethodRow method c11 c21 c (val c11 L11) d1 a21 a aD reg (val c21 L21) l d i

/-- The input suits a single factor. -/
structure Fits1 (m : MatIn K) (f : DiagFactor K) (n : Nat) : Prop where
  sized : m.Sized
  dims : InitDims (.matrix m) n n
  subset : ∀ i j, LowerPermuted m.sparsity f.permutation i j → f.sparsity.Has i j

theorem initDims_empty (r c : Nat) : InitDims (.matrix (emptyMatrixInput K r c)) r c :=
  ⟨fun _ he => absurd he (by simp [Init.sparsity, emptyMatrixInput, emptySparsity]), rfl, rfl⟩

theorem initSubset_single {f21 : SubFactor K} {f : DiagFactor K} {m : MatIn K} {n : Nat} (hm : Fits1 m f n) :
    InitSubset (.matrix (emptyMatrixInput K n 0)) (.matrix m) f21 f := by
  refine ⟨hm.subset, ?_⟩
  rintro i j ⟨-, -, h⟩
  cases h

theorem closed2_single {f11 : DiagFactor K} {f21 : SubFactor K} {f : DiagFactor K} {n : Nat} (h : Closed1 f n)
    (z11 : ∀ i j, ¬ f11.sparsity.Has i j) (z21 : ∀ i j, ¬ f21.sparsity.Has i j) :
    Closed2 f11.sparsity.Has f21.sparsity.Has f.sparsity.Has :=
  ⟨fun i j _ h => absurd h (z11 i j), fun i j _ h => absurd h (z21 i j), fun i j _ h => absurd h (z21 i j),
    h.closed⟩

theorem factorize_sat {f : DiagFactor K} {n : Nat} (h : Closed1 f n) {m : MatIn K} (hm : Fits1 m f n)
    (reg : K → Nat → K) (method : Method) :
    Sat (f.factorize m reg method) (fun f' => ∃ L D, f' = { f with L := L, D := D } ∧
      L.length = f.sparsity.entries.length ∧ D.length = n ∧
      ∀ i < n, SingleRow method f.sparsity (a22Of (.matrix m) f) (aDOf (.matrix m) f) reg (val f.sparsity L)
        (fun a => D.getD a 0) i) := by
  obtain ⟨f11, f21, h11, h21, hpr, hpc, z11, z21, hun⟩ := factorize_unfold h
  rw [hun m reg method f rfl rfl]
  refine Sat.bind (factorizeBlocks_sat h11 h21 h.ok ⟨h.perm, hpr, hpc, by rw [Nat.zero_add]; exact h.small⟩ (initDims_empty n 0) hm.dims
    rfl hm.sized (closed2_single h z11 z21) (initSubset_single hm) reg method) ?_
  rintro st ⟨L21, L22, D, rfl, -, hl22, hlD, hrows⟩
  refine Sat.ok ⟨L22, D, rfl, hl22, hlD, fun i hi => ?_⟩
  exact ⟨f11.sparsity, f21.sparsity, z11, z21, h21.good, h21.cols, f11.L, L21, _, _, hrows i hi⟩

/-- The result depends only on the values of the lower triangle of the input. -/
theorem factorize_det {f g : DiagFactor K} {n : Nat} (h : Closed1 f n) {m m' : MatIn K} (hm : Fits1 m f n)
    (hm' : Fits1 m' f n)
    (hg : ∃ L D, g = { f with L := L, D := D } ∧ L.length = f.sparsity.entries.length ∧ D.length = n)
    (hlow : ∀ i j, j ≤ i → m.elem i j = m'.elem i j) (reg : K → Nat → K) (method : Method) :
    f.factorize m reg method = g.factorize m' reg method := by
  obtain ⟨f11, f21, h11, h21, hpr, hpc, z11, z21, hun⟩ := factorize_unfold h
  obtain ⟨L, D, rfl, hL, hD⟩ := hg
  rw [hun m reg method f rfl rfl, hun m' reg method { f with L := L, D := D } rfl rfl]
  rw [factorizeBlocks_det h11 h21 h.ok ⟨h.perm, hpr, hpc, by rw [Nat.zero_add]; exact h.small⟩
    (initDims_empty n 0) hm.dims rfl hm.sized (initDims_empty n 0) hm'.dims rfl hm'.sized
    (closed2_single h z11 z21) (initSubset_single hm) (initSubset_single hm') reg method
    (g21 := f21) (g22 := { f with L := L, D := D }) ⟨f21.L, rfl, h21.lenL⟩ ⟨L, D, rfl, hL, hD⟩
    (fun i j hij => absurd hij (z21 i j)) ?_ ?_]
  · intro i j _
    exact hlow _ _ (by simp only [origDiag]; omega)
  · intro i _
    exact hlow _ _ (by simp only [origDiag]; omega)

end

theorem factorize_agree {K : Type} [Field K] {f f' : DiagFactor K} {n : Nat} (h : Closed1 f n) {m : MatIn K}
    (hm : Fits1 m f n) {reg : K → Nat → K} {method : Method} (hf : f.factorize m reg method = .ok f')
    (hp : ∀ i j, f.sparsity.Has i j → f'.d j ≠ 0) (method' : Method) :
    f.factorize m reg method' = .ok f' := by
  obtain ⟨f11, f21, h11, h21, hpr, hpc, z11, z21, hun⟩ := factorize_unfold h
  rw [hun m reg method f rfl rfl] at hf
  rw [hun m reg method' f rfl rfl]
  obtain ⟨⟨g21, g22⟩, h1, h2⟩ := bind_eq_ok.mp hf
  cases h2
  have := factorizeBlocks_agree h11 h21 h.ok ⟨h.perm, hpr, hpc, by rw [Nat.zero_add]; exact h.small⟩
    (initDims_empty n 0) hm.dims rfl hm.sized (closed2_single h z11 z21) (initSubset_single hm) h1
    (fun i j hij => absurd hij (z21 i j)) hp method'
  rw [this]
  rfl

section

open Finset

variable {K : Type} [Field K]

theorem unitLower_self {l : Nat → Nat → K} (i : Nat) : unitLower l i i = 1 := by simp [unitLower]

theorem unitLower_ne {l : Nat → Nat → K} {i j : Nat} (h : i ≠ j) : unitLower l i j = l i j := by
  simp [unitLower, h]

theorem ldlt_symm (n : Nat) (l : Nat → Nat → K) (d : Nat → K) (i j : Nat) : ldlt n l d i j = ldlt n l d j i := by
  unfold ldlt
  exact Finset.sum_congr rfl fun k _ => by ring

theorem unitLower_eq {l : Nat → Nat → K} (hl : ∀ i j, i ≤ j → l i j = 0) (i j : Nat) :
    unitLower l i j = l i j + if i = j then 1 else 0 := by
  unfold unitLower
  by_cases h : i = j
  · subst h
    simp [hl i i (le_refl _)]
  · simp [h]

/-- Row `i` of the product, left of the diagonal. -/
theorem ldlt_lt {n : Nat} {l : Nat → Nat → K} {d : Nat → K} (hl : ∀ i j, i ≤ j → l i j = 0) {i j : Nat}
    (hi : i < n) (hj : j < i) :
    ldlt n l d i j = ∑ k ∈ range n, l i k * d k * l j k + l i j * d j := by
  unfold ldlt
  have : ∀ k ∈ range n, unitLower l i k * d k * unitLower l j k =
      l i k * d k * l j k + (if k = j then l i j * d j else 0) + (if k = i then d i * l j i else 0) := by
    intro k _
    rw [unitLower_eq hl, unitLower_eq hl]
    by_cases h1 : k = j
    · subst h1
      have : i ≠ k := by omega
      have h2 : k ≠ i := by omega
      simp [this, h2]
      ring
    · by_cases h2 : k = i
      · subst h2
        have : ¬ j = k := by omega
        simp [this, h1]
        ring
      · simp [h1, h2, Ne.symm h1, Ne.symm h2]
  rw [Finset.sum_congr rfl this, Finset.sum_add_distrib, Finset.sum_add_distrib, Finset.sum_ite_eq',
    Finset.sum_ite_eq', if_pos (by simp; omega), if_pos (by simp; omega), hl j i (by omega)]
  ring

/-- The diagonal of the product. -/
theorem ldlt_self {n : Nat} {l : Nat → Nat → K} {d : Nat → K} (hl : ∀ i j, i ≤ j → l i j = 0) {i : Nat}
    (hi : i < n) :
    ldlt n l d i i = ∑ k ∈ range n, l i k * d k * l i k + d i := by
  unfold ldlt
  have : ∀ k ∈ range n, unitLower l i k * d k * unitLower l i k =
      l i k * d k * l i k + (if k = i then d i else 0) := by
    intro k _
    rw [unitLower_eq hl]
    by_cases h2 : k = i
    · subst h2
      simp [hl k k (le_refl _)]
    · have a : ¬ i = k := Ne.symm h2
      simp [h2, a]
  rw [Finset.sum_congr rfl this, Finset.sum_add_distrib, Finset.sum_ite_eq', if_pos (by simp; omega)]

theorem SingleRow.exact {method : Method} {f : DiagFactor K} {n : Nat} (h : Closed1 f n) {m : MatIn K}
    (hm : Fits1 m f n) {reg : K → Nat → K} {L D : List K} {i : Nat} (hi : i < n)
    (hp : ∀ j, f.sparsity.Has i j → D.getD j 0 ≠ 0)
    (hr : SingleRow method f.sparsity (a22Of (.matrix m) f) (aDOf (.matrix m) f) reg (val f.sparsity L)
        (fun a => D.getD a 0) i) :
    (∀ j < i, ldlt n (val f.sparsity L) (fun a => D.getD a 0) i j =
      m.sym (permAt f.permutation i) (permAt f.permutation j)) ∧
    ∃ δ, D.getD i 0 = reg δ i ∧ ldlt n (val f.sparsity L) (fun a => D.getD a 0) i i =
      m.sym (permAt f.permutation i) (permAt f.permutation i) + (D.getD i 0 - δ) := by
  obtain ⟨c11, c21, z11, z21, g21, hc21, L11, L21, d1, a21, hrow⟩ := hr
  have hpo : PivotsOk c21 f.sparsity d1 (fun a => D.getD a 0) i := ⟨fun j h => absurd h (z21 i j), hp⟩
  rw [methodRow_iff_entryRow hpo] at hrow
  have hx := exactRow_of_entryRow g21 h.ok.good hc21 h.ok.cols (fun i j _ h => absurd h (z21 i j))
    (fun i j _ h => absurd h (z21 i j)) h.closed (by omega)
    (fun j hj hn => a22Of_zero hm.dims hm.subset hi hj hn) hpo hrow
  have hl : ∀ i j, i ≤ j → val f.sparsity L i j = 0 := fun a b hab => val_off fun hh => by
    have := h.ok.lower a b hh
    omega
  refine ⟨?_, ?_⟩
  · intro j hj
    have := hx.e22 j hj
    rw [range_zero, sum_empty, zero_add] at this
    rw [ldlt_lt hl hi hj, this]
    rfl
  · obtain ⟨δ, h1, h2⟩ := hx.eD
    refine ⟨δ, h1, ?_⟩
    rw [range_zero, sum_empty, zero_add] at h2
    rw [ldlt_self hl hi]
    have : aDOf (.matrix m) f i = m.sym (permAt f.permutation i) (permAt f.permutation i) := rfl
    rw [← this, ← h2]
    ring

end

end Ctldl
