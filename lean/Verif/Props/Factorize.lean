import Verif.Lemmas.Single
import Mathlib.Algebra.Order.Field.Basic
import Mathlib.Algebra.Order.Group.Abs
import Mathlib.Algebra.Field.Rat

/-! # C22 - C28, C38: factorization -/

namespace Ctldl

open Finset

section

variable {K : Type}

private theorem fits1 [Zero K] [Sub K] [Mul K] [Div K] {f : DiagFactor K} {s : Sparsity} {p : List Nat}
    (hv : ValidSparsity s p)
    (hf : f.Declared s p) {m : MatIn K} (hm : m.Fits s p) : Fits1 m f s.numRows := by
  refine ⟨hm.sized, ⟨hm.inRange, hm.rows, hm.cols⟩, ?_⟩
  intro i j hij
  rw [hf.perm] at hij
  have h1 := hm.subset i j hij
  rw [Csr.Has, (hf.closed1 hv).2.2.2.2]
  have h2 := hij.1
  have h3 := hij.2.1
  rw [hm.rows] at h3
  exact ⟨h3, by omega, h1⟩

/-- What `L D Lᵀ` of a computed factor is: the symmetric matrix given by the lower triangle of `m`, permuted, where
the regularization changed the pivots `δ` to the stored ones. -/
def Reproduces [Field K] (f : DiagFactor K) (m : MatIn K) (p : List Nat) (n : Nat) (reg : K → Nat → K)
    (δ : Nat → K) : Prop :=
  (∀ i < n, f.pivot i = reg (δ i) i) ∧
  ∀ i < n, ∀ j < n, ldlt n f.lower f.pivot i j =
    m.sym (permAt p i) (permAt p j) + if i = j then f.pivot i - δ i else 0

private theorem reproduces [Field K] {f : DiagFactor K} {s : Sparsity} {p : List Nat} (hv : ValidSparsity s p)
    (hf : f.Declared s p) {m : MatIn K} (hm : m.Fits s p) (reg : K → Nat → K) (method : Method)
    {f' : DiagFactor K} (h : f.factorize m reg method = .ok f')
    (hpiv : ∀ i j, f'.sparsity.toSparsity.Has i j → f'.pivot j ≠ 0) :
    f'.Declared s p ∧ ∃ δ, Reproduces f' m p s.numRows reg δ := by
  obtain ⟨hc, -⟩ := hf.closed1 hv
  obtain ⟨L, D, rfl, hL, hD, hrows⟩ := Sat.of_ok (factorize_sat hc (fits1 hv hf hm) reg method) h
  refine ⟨⟨hf.pattern, hf.perm, hL, hD⟩, ?_⟩
  have hr : ∀ i, ∃ δ, i < s.numRows → (∀ j < i, ldlt s.numRows (val f.sparsity L) (fun a => D.getD a 0) i j =
      m.sym (permAt f.permutation i) (permAt f.permutation j)) ∧ D.getD i 0 = reg δ i ∧
      ldlt s.numRows (val f.sparsity L) (fun a => D.getD a 0) i i =
      m.sym (permAt f.permutation i) (permAt f.permutation i) + (D.getD i 0 - δ) := by
    intro i
    by_cases hi : i < s.numRows
    · obtain ⟨h1, δ, h2⟩ := (hrows i hi).exact hc (fits1 hv hf hm) hi (fun j hj => hpiv i j hj)
      exact ⟨δ, fun _ => ⟨h1, h2⟩⟩
    · exact ⟨0, fun h => absurd h hi⟩
  choose δ hδ using hr
  refine ⟨δ, fun i hi => (hδ i hi).2.1, ?_⟩
  have hlt : ∀ i < s.numRows, ∀ j < i, ldlt s.numRows (val f.sparsity L) (fun a => D.getD a 0) i j =
      m.sym (permAt p i) (permAt p j) := fun i hi j hj => by rw [(hδ i hi).1 j hj, hf.perm]
  intro i hi j hj
  show ldlt s.numRows (val f.sparsity L) (fun a => D.getD a 0) i j = _
  rcases Nat.lt_trichotomy j i with hji | hji | hji
  · rw [if_neg (by omega), add_zero, hlt i hi j hji]
  · subst hji
    rw [if_pos rfl, (hδ j hj).2.2, hf.perm]
    rfl
  · rw [if_neg (by omega), add_zero, ldlt_symm, hlt j hj i hji]
    simp only [MatIn.sym, Nat.max_comm, Nat.min_comm]

/-- C22: if no pivot divided by is zero, the up-looking method computes a factorization of the permuted matrix, up to
the change of the pivots by the regularization. -/
theorem C22_upLooking_reproduces [Field K] (s : Sparsity) (p : List Nat) (hv : ValidSparsity s p)
    (f : DiagFactor K) (hf : f.Declared s p) (m : MatIn K) (hm : m.Fits s p) (reg : K → Nat → K)
    (f' : DiagFactor K) (h : f.factorize m reg .upLooking = .ok f')
    (hpiv : ∀ i j, f'.sparsity.toSparsity.Has i j → f'.pivot j ≠ 0) :
    f'.Declared s p ∧ ∃ δ, Reproduces f' m p s.numRows reg δ :=
  reproduces hv hf hm reg _ h hpiv

/-- C23: if no pivot divided by is zero, the entry-wise method computes a factorization of the permuted matrix, up to
the change of the pivots by the regularization. -/
theorem C23_entryWise_reproduces [Field K] (s : Sparsity) (p : List Nat) (hv : ValidSparsity s p)
    (f : DiagFactor K) (hf : f.Declared s p) (m : MatIn K) (hm : m.Fits s p) (reg : K → Nat → K)
    (f' : DiagFactor K) (h : f.factorize m reg .entryWise = .ok f')
    (hpiv : ∀ i j, f'.sparsity.toSparsity.Has i j → f'.pivot j ≠ 0) :
    f'.Declared s p ∧ ∃ δ, Reproduces f' m p s.numRows reg δ :=
  reproduces hv hf hm reg _ h hpiv

end

/-! ### Blocks with a left neighbour -/

section

variable {K : Type}

theorem Csr.Valid.good {c : Csr} {r k : Nat} (h : c.Valid r k) : c.Good ∧ c.numRows = r ∧ c.numCols = k := by
  obtain ⟨s, h1, h2, h3, h4, h5⟩ := h
  obtain ⟨h6, h7⟩ := Csr.Good.of_toCsr h1 h2 h5
  exact ⟨h6, by rw [h7]; exact h3, by rw [h7]; exact h4⟩

private theorem BlocksDeclared.ok11 {f11 : DiagFactor K} {f21 : SubFactor K} {f22 : DiagFactor K} {n1 n2 : Nat}
    (h : BlocksDeclared f11 f21 f22 n1 n2) : DiagOk f11 n1 :=
  ⟨h.pat11.good.1, h.pat11.good.2.1, h.pat11.good.2.2, h.low11, h.perm11, h.size11, h.sizeD1⟩

private theorem BlocksDeclared.ok21 {f11 : DiagFactor K} {f21 : SubFactor K} {f22 : DiagFactor K} {n1 n2 : Nat}
    (h : BlocksDeclared f11 f21 f22 n1 n2) : SubOk f21 n2 n1 :=
  ⟨h.pat21.good.1, h.pat21.good.2.1, h.pat21.good.2.2, h.perm21r.length, h.perm21c.length, h.size21⟩

private theorem BlocksDeclared.ok22 {f11 : DiagFactor K} {f21 : SubFactor K} {f22 : DiagFactor K} {n1 n2 : Nat}
    (h : BlocksDeclared f11 f21 f22 n1 n2) : DiagOk f22 n2 :=
  ⟨h.pat22.good.1, h.pat22.good.2.1, h.pat22.good.2.2, h.low22, h.perm22.length, h.size22, h.sizeD2⟩

private theorem BlocksDeclared.perms {f11 : DiagFactor K} {f21 : SubFactor K} {f22 : DiagFactor K} {n1 n2 : Nat}
    (h : BlocksDeclared f11 f21 f22 n1 n2) : PermsOk f21 f22 n1 n2 :=
  ⟨h.perm22, h.perm21r, h.perm21c, h.small⟩

private theorem Init.Valid.dims {init : Init K} {r c : Nat} (h : init.Valid r c) : InitDims init r c := by
  cases init with
  | none r' c' =>
    obtain ⟨rfl, rfl⟩ := h
    exact ⟨fun _ he => absurd he (by simp [Init.sparsity, emptySparsity]), rfl, rfl⟩
  | matrix m => exact h.2

private theorem Init.Valid.ok {init : Init K} {c : Csr} {r k : Nat} (h : init.Valid r k) (hr : c.numRows = r)
    (hk : c.numCols = k) : InitOk init c := by
  cases init with
  | none r' c' =>
    obtain ⟨rfl, rfl⟩ := h
    exact ⟨hr.symm, hk.symm⟩
  | matrix m => exact h.1

/-- C25: for any arithmetic, a call with a left neighbour whose blocks and inputs have matching sizes either does not
compile (a static assertion fails) or runs without any error, and keeps patterns, permutations and sizes. -/
theorem C25_blocks_total [Zero K] [Sub K] [Mul K] [Div K] (f11 : DiagFactor K) (f21 : SubFactor K)
    (f22 : DiagFactor K) (n1 n2 : Nat) (h : BlocksDeclared f11 f21 f22 n1 n2) (init21 init22 : Init K)
    (h21 : init21.Valid n2 n1) (h22 : init22.Valid n2 n2) (reg : K → Nat → K) (method : Method) :
    factorizeStaticAsserts f11 init21 init22 f21 f22 = .error .staticAssert ∨
    ∃ g21 g22, factorizeBlocks f11 init21 init22 f21 f22 reg method = .ok (g21, g22) ∧
      BlocksDeclared f11 g21 g22 n1 n2 ∧ g21.sparsity = f21.sparsity ∧ g22.sparsity = f22.sparsity ∧
      g21.permutationRow = f21.permutationRow ∧ g21.permutationCol = f21.permutationCol ∧
      g22.permutation = f22.permutation := by
  rcases staticAsserts_eq h.ok11 h.ok21 h.ok22 h.perms h21.dims h22.dims with ⟨hc, hs, -⟩ | ⟨-, he⟩
  · right
    obtain ⟨st, e, L21, L22, D, rfl, hl21, hl22, hlD, -⟩ := factorizeBlocks_sat h.ok11 h.ok21 h.ok22 h.perms h21.dims
      h22.dims (h21.ok h.ok21.rows h.ok21.cols) (h22.ok h.ok22.rows h.ok22.cols) hc hs reg method
    exact ⟨_, _, e, { h with size21 := hl21, size22 := hl22, sizeD2 := hlD }, rfl, rfl, rfl, rfl, rfl⟩
  · exact Or.inl he

/-- C38: the static assertions hold exactly if the declared block patterns have no fill-in and contain the
(permuted) patterns of the given matrices; otherwise the call is rejected, whatever the method. -/
theorem C38_blocks_rejected [Zero K] [Sub K] [Mul K] [Div K] (f11 : DiagFactor K) (f21 : SubFactor K)
    (f22 : DiagFactor K) (n1 n2 : Nat) (h : BlocksDeclared f11 f21 f22 n1 n2) (init21 init22 : Init K)
    (h21 : init21.Valid n2 n1) (h22 : init22.Valid n2 n2) (reg : K → Nat → K) (method : Method) :
    ((FillFree (Assembled2 n1 f11.sparsity.toSparsity.Has f21.sparsity.toSparsity.Has f22.sparsity.toSparsity.Has) ∧
      (∀ i j, LowerPermuted init22.sparsity f22.permutation i j → f22.sparsity.toSparsity.Has i j) ∧
      (∀ i j, RectPermuted init21.sparsity f21.permutationRow f21.permutationCol i j →
        f21.sparsity.toSparsity.Has i j)) →
      ∃ g, factorizeBlocks f11 init21 init22 f21 f22 reg method = .ok g) ∧
    (¬ (FillFree (Assembled2 n1 f11.sparsity.toSparsity.Has f21.sparsity.toSparsity.Has
        f22.sparsity.toSparsity.Has) ∧
      (∀ i j, LowerPermuted init22.sparsity f22.permutation i j → f22.sparsity.toSparsity.Has i j) ∧
      (∀ i j, RectPermuted init21.sparsity f21.permutationRow f21.permutationCol i j →
        f21.sparsity.toSparsity.Has i j)) →
      factorizeBlocks f11 init21 init22 f21 f22 reg method = .error .staticAssert) := by
  have hff := fillFree_assembled2 (n1 := n1) (G11 := f11.sparsity.Has) (G21 := f21.sparsity.Has)
    (G22 := f22.sparsity.Has) h.low11 h.low22 (fun i j hh => h.ok11.rows ▸ h.ok11.good.row_lt hh)
    (fun i j hh => h.ok21.cols ▸ h.ok21.good.col_lt hh)
  rcases staticAsserts_eq h.ok11 h.ok21 h.ok22 h.perms h21.dims h22.dims with ⟨hc, hs, -⟩ | ⟨hn, he⟩
  · refine ⟨fun _ => ?_, fun hne => absurd ⟨hff.mpr hc, hs.1, hs.2⟩ hne⟩
    obtain ⟨st, e, -⟩ := factorizeBlocks_sat h.ok11 h.ok21 h.ok22 h.perms h21.dims
      h22.dims (h21.ok h.ok21.rows h.ok21.cols) (h22.ok h.ok22.rows h.ok22.cols) hc hs reg method
    exact ⟨st, e⟩
  · refine ⟨fun hh => absurd ⟨hff.mp hh.1, hh.2.1, hh.2.2⟩ hn, fun _ => ?_⟩
    cases method with
    | upLooking =>
      simp only [factorizeBlocks, factorizeUpLooking]
      rw [he]
      rfl
    | entryWise =>
      simp only [factorizeBlocks, factorizeEntryWise]
      rw [he]
      rfl

private theorem blocks_rows [Zero K] [Sub K] [Mul K] [Div K] {f11 : DiagFactor K} {f21 : SubFactor K}
    {f22 : DiagFactor K} {n1 n2 : Nat} (h : BlocksDeclared f11 f21 f22 n1 n2) {init21 init22 : Init K}
    (h21 : init21.Valid n2 n1) (h22 : init22.Valid n2 n2) {reg : K → Nat → K} {method : Method}
    {g : SubFactor K × DiagFactor K} (hg : factorizeBlocks f11 init21 init22 f21 f22 reg method = .ok g) :
    Closed2 f11.sparsity.Has f21.sparsity.Has f22.sparsity.Has ∧ InitSubset init21 init22 f21 f22 ∧
    ∃ L21 L22 D, g = ({ f21 with L := L21 }, { f22 with L := L22, D := D }) ∧
      L21.length = f21.sparsity.entries.length ∧ L22.length = f22.sparsity.entries.length ∧ D.length = n2 ∧
      ∀ i < n2, MethodRow method f11.sparsity f21.sparsity f22.sparsity f11.l f11.d (a21Of init21 f21)
        (a22Of init22 f22) (aDOf init22 f22) reg (val f21.sparsity L21) (val f22.sparsity L22)
        (fun a => D.getD a 0) i := by
  have hclosed : Closed2 f11.sparsity.Has f21.sparsity.Has f22.sparsity.Has ∧ InitSubset init21 init22 f21 f22 := by
    rcases staticAsserts_eq h.ok11 h.ok21 h.ok22 h.perms h21.dims h22.dims with ⟨hc, hs, -⟩ | ⟨-, he⟩
    · exact ⟨hc, hs⟩
    · cases method with
      | upLooking =>
        simp only [factorizeBlocks, factorizeUpLooking] at hg
        rw [he] at hg
        cases hg
      | entryWise =>
        simp only [factorizeBlocks, factorizeEntryWise] at hg
        rw [he] at hg
        cases hg
  have hsat := Sat.of_ok (factorizeBlocks_sat h.ok11 h.ok21 h.ok22 h.perms h21.dims
    h22.dims (h21.ok h.ok21.rows h.ok21.cols) (h22.ok h.ok22.rows h.ok22.cols) hclosed.1 hclosed.2 reg method) hg
  exact ⟨hclosed.1, hclosed.2, hsat⟩

/-- C22, C23: with a left neighbour, `L₂₁ D₁ L₁₁ᵀ = A₂₁` and `L₂₁ D₁ L₂₁ᵀ + L₂₂ D₂ L₂₂ᵀ = A₂₂` up to the change of the
pivots by the regularization, for both methods. -/
theorem C22_blocks_reproduce [Field K] (f11 : DiagFactor K) (f21 : SubFactor K)
    (f22 : DiagFactor K) (n1 n2 : Nat) (h : BlocksDeclared f11 f21 f22 n1 n2) (init21 init22 : Init K)
    (h21 : init21.Valid n2 n1) (h22 : init22.Valid n2 n2) (reg : K → Nat → K) (method : Method)
    (g21 : SubFactor K) (g22 : DiagFactor K)
    (hg : factorizeBlocks f11 init21 init22 f21 f22 reg method = .ok (g21, g22))
    (hpiv1 : ∀ i j, f21.sparsity.toSparsity.Has i j → f11.pivot j ≠ 0)
    (hpiv2 : ∀ i j, f22.sparsity.toSparsity.Has i j → g22.pivot j ≠ 0) :
    (∀ i < n2, ∀ j < n1, ∑ k ∈ range n1, g21.entry i k * f11.pivot k * unitLower f11.lower j k =
      f21.initial init21 i j) ∧
    ∃ δ : Nat → K, (∀ i < n2, g22.pivot i = reg (δ i) i) ∧
      ∀ i < n2, ∀ j ≤ i, ∑ k ∈ range n1, g21.entry i k * f11.pivot k * g21.entry j k +
        ldlt n2 g22.lower g22.pivot i j = f22.initial init22 i j + if i = j then g22.pivot i - δ i else 0 := by
  obtain ⟨hc, hs, L21, L22, D, he, hl21, hl22, hlD, hrows⟩ := blocks_rows h h21 h22 hg
  simp only [Prod.mk.injEq] at he
  obtain ⟨rfl, rfl⟩ := he
  have hx : ∀ i, i < n2 → ExactRow n1 n2 f11.l f11.d (a21Of init21 f21) (a22Of init22 f22) (aDOf init22 f22) reg
      (val f21.sparsity L21) (val f22.sparsity L22) (fun a => D.getD a 0) i := by
    intro i hi
    have hpo : PivotsOk f21.sparsity f22.sparsity f11.d (fun a => D.getD a 0) i :=
      ⟨fun j hj => hpiv1 i j hj, fun j hj => hpiv2 i j hj⟩
    exact exactRow_of_entryRow h.ok21.good h.ok22.good h.ok21.cols h.ok22.cols hc.c21 hc.c22 hc.c22'
      (fun j hj hn => a21Of_zero h21.dims hs.2 hi hj hn) (fun j hj hn => a22Of_zero h22.dims hs.1 hi hj hn) hpo
      ((methodRow_iff_entryRow hpo).mp (hrows i hi))
  have low1 : ∀ i j, i ≤ j → f11.l i j = 0 := fun a b hab => val_off fun hh => by
    have := h.low11 a b hh
    omega
  have low2 : ∀ i j, i ≤ j → val f22.sparsity L22 i j = 0 := fun a b hab => val_off fun hh => by
    have := h.low22 a b hh
    omega
  refine ⟨?_, ?_⟩
  · intro i hi j hj
    have h0 := (hx i hi).e21 j hj
    have hini : f21.initial init21 i j = a21Of init21 f21 i j := by
      cases init21 <;> rfl
    rw [hini, ← h0]
    have : ∀ k ∈ range n1, val f21.sparsity L21 i k * f11.d k * unitLower f11.l j k =
        val f21.sparsity L21 i k * f11.d k * f11.l j k +
          (if j = k then val f21.sparsity L21 i k * f11.d k else 0) := by
      intro k _
      rw [unitLower_eq low1]
      by_cases hjk : j = k
      · simp [hjk]
        ring
      · simp [hjk]
    refine (Finset.sum_congr rfl this).trans ?_
    rw [Finset.sum_add_distrib, Finset.sum_ite_eq, if_pos (by simpa using hj)]
  · have : ∀ i, ∃ δ, i < n2 → D.getD i 0 = reg δ i ∧ _ := fun i => by
      by_cases hi : i < n2
      · obtain ⟨δ, hδ⟩ := (hx i hi).eD
        exact ⟨δ, fun _ => hδ⟩
      · exact ⟨0, fun hh => absurd hh hi⟩
    choose δ hδ using this
    refine ⟨δ, fun i hi => (hδ i hi).1, ?_⟩
    intro i hi j hj
    show ∑ k ∈ range n1, val f21.sparsity L21 i k * f11.d k * val f21.sparsity L21 j k +
      ldlt n2 (val f22.sparsity L22) (fun a => D.getD a 0) i j = _
    rcases Nat.lt_or_eq_of_le hj with hji | rfl
    · have h0 := (hx i hi).e22 j hji
      have hini : f22.initial init22 i j = a22Of init22 f22 i j := by
        cases init22 with
        | none r c => exact if_neg (by omega)
        | matrix m => rfl
      rw [ldlt_lt low2 hi hji, if_neg (by omega), hini, ← h0]
      ring
    · have h0 := (hδ j hi).2
      have hini : f22.initial init22 j j = aDOf init22 f22 j := by
        cases init22 with
        | none r c => exact if_pos rfl
        | matrix m => rfl
      rw [ldlt_self low2 hi, if_pos rfl, hini, ← h0]
      show _ = _ + (D.getD j 0 - δ j)
      ring

/-- C24: with a left neighbour, a result with non-zero pivots of one method is also the result of the other. -/
theorem C24_blocks_agree [Field K] (f11 : DiagFactor K) (f21 : SubFactor K)
    (f22 : DiagFactor K) (n1 n2 : Nat) (h : BlocksDeclared f11 f21 f22 n1 n2) (init21 init22 : Init K)
    (h21 : init21.Valid n2 n1) (h22 : init22.Valid n2 n2) (reg : K → Nat → K) (method method' : Method)
    (g21 : SubFactor K) (g22 : DiagFactor K)
    (hg : factorizeBlocks f11 init21 init22 f21 f22 reg method = .ok (g21, g22))
    (hpiv1 : ∀ i j, f21.sparsity.toSparsity.Has i j → f11.pivot j ≠ 0)
    (hpiv2 : ∀ i j, f22.sparsity.toSparsity.Has i j → g22.pivot j ≠ 0) :
    factorizeBlocks f11 init21 init22 f21 f22 reg method' = .ok (g21, g22) := by
  obtain ⟨hc, hs, -⟩ := blocks_rows h h21 h22 hg
  exact factorizeBlocks_agree h.ok11 h.ok21 h.ok22
    h.perms h21.dims h22.dims (h21.ok h.ok21.rows h.ok21.cols) (h22.ok h.ok22.rows h.ok22.cols) hc hs hg hpiv1 hpiv2 method'

end

/-! ### Single factors -/

section

variable {K : Type}

/-- C24: a result with non-zero pivots of one method is also the result of the other. -/
theorem C24_methods_agree [Field K] (s : Sparsity) (p : List Nat) (hv : ValidSparsity s p)
    (f : DiagFactor K) (hf : f.Declared s p) (m : MatIn K) (hm : m.Fits s p) (reg : K → Nat → K)
    (method method' : Method) (f' : DiagFactor K) (h : f.factorize m reg method = .ok f')
    (hpiv : ∀ i j, f'.sparsity.toSparsity.Has i j → f'.pivot j ≠ 0) :
    f.factorize m reg method' = .ok f' := by
  have hc := (hf.closed1 hv).1
  obtain ⟨L, D, rfl, -⟩ := Sat.of_ok (factorize_sat hc (fits1 hv hf hm) reg method) h
  exact factorize_agree hc (fits1 hv hf hm) h hpiv method'

variable [Zero K] [Sub K] [Mul K] [Div K]

/-- C25: for any arithmetic (no law is assumed, so in particular floating point arithmetic) and any stored values,
`factorize` succeeds: no access is out of bounds, no assertion fails. -/
theorem C25_factorize_total (s : Sparsity) (p : List Nat) (hv : ValidSparsity s p)
    (f : DiagFactor K) (hf : f.Declared s p) (m : MatIn K) (hm : m.Fits s p) (reg : K → Nat → K)
    (method : Method) : ∃ f', f.factorize m reg method = .ok f' ∧ f'.Declared s p := by
  obtain ⟨f', h, L, D, rfl, hL, hD, -⟩ := factorize_sat (hf.closed1 hv).1 (fits1 hv hf hm) reg method
  exact ⟨_, h, hf.pattern, hf.perm, hL, hD⟩

/-- C26: for any arithmetic the result does not depend on the values stored before. -/
theorem C26_history_independent (s : Sparsity) (p : List Nat) (hv : ValidSparsity s p)
    (f g : DiagFactor K) (hf : f.Declared s p) (hg : g.Declared s p) (m : MatIn K) (hm : m.Fits s p)
    (reg : K → Nat → K) (method : Method) : f.factorize m reg method = g.factorize m reg method := by
  have hsp : g.sparsity = f.sparsity := by
    have := hg.pattern
    rw [hf.pattern] at this
    exact (Except.ok.inj this).symm
  refine factorize_det (hf.closed1 hv).1 (fits1 hv hf hm) (fits1 hv hf hm)
    ⟨g.L, g.D, ?_, by rw [hg.sizeL, hsp], hg.sizeD⟩ (fun _ _ _ => rfl) reg method
  cases g
  cases f
  simp only at hsp
  have h1 := hf.perm
  have h2 := hg.perm
  simp only at h1 h2
  simp [hsp, h1, h2]

/-- C26: factorizing again gives what a fresh object would give, after any earlier call (with any other matrix,
regularization and method). -/
theorem C26_refactorize (s : Sparsity) (p : List Nat) (hv : ValidSparsity s p)
    (f g f' : DiagFactor K) (hf : f.Declared s p) (hg : g.Declared s p) (m m' : MatIn K) (hm : m.Fits s p)
    (hm' : m'.Fits s p) (reg reg' : K → Nat → K) (method method' : Method)
    (h : f.factorize m' reg' method' = .ok f') : f'.factorize m reg method = g.factorize m reg method := by
  obtain ⟨f'', h1, h2⟩ := C25_factorize_total s p hv f hf m' hm' reg' method'
  rw [h] at h1
  cases h1
  exact C26_history_independent s p hv f' g h2 hg m hm reg method

/-- C27: inputs agreeing on the lower triangle (including the diagonal) give the same result, for any arithmetic. -/
theorem C27_lower_triangle_only (s : Sparsity) (p : List Nat) (hv : ValidSparsity s p)
    (f : DiagFactor K) (hf : f.Declared s p) (m m' : MatIn K) (hm : m.Fits s p) (hm' : m'.Fits s p)
    (hlow : ∀ i j, j ≤ i → m.elem i j = m'.elem i j) (reg : K → Nat → K) (method : Method) :
    f.factorize m reg method = f.factorize m' reg method :=
  factorize_det (hf.closed1 hv).1 (fits1 hv hf hm) (fits1 hv hf hm')
    ⟨f.L, f.D, rfl, hf.sizeL, hf.sizeD⟩ hlow reg method

/-- C38: a matrix of the right size with a non-zero in its lower triangle outside of the declared pattern is rejected
at compile time. -/
theorem C38_rejected (s : Sparsity) (p : List Nat) (hv : ValidSparsity s p)
    (f : DiagFactor K) (hf : f.Declared s p) (m : MatIn K) (hin : m.sparsity.InRange)
    (hr : m.sparsity.numRows = s.numRows) (hc : m.sparsity.numCols = s.numRows)
    (i j : Nat) (hij : LowerPermuted m.sparsity p i j) (hn : ¬ Fill (LowerPermuted s p) i j) (reg : K → Nat → K)
    (method : Method) : f.factorize m reg method = .error .staticAssert := by
  obtain ⟨h, hpat⟩ := hf.closed1 hv
  obtain ⟨f11, f21, h11, h21, hpr, hpc, z11, z21, hun⟩ := factorize_unfold h
  rw [hun m reg method f rfl rfl]
  have he : factorizeStaticAsserts f11 (.matrix (emptyMatrixInput K s.numRows 0)) (.matrix m) f21 f =
      .error .staticAssert := by
    rcases staticAsserts_eq h11 h21 h.ok ⟨h.perm, hpr, hpc, by rw [Nat.zero_add]; exact h.small⟩
      (initDims_empty s.numRows 0) (init22 := .matrix m) ⟨hin, hr, hc⟩ with ⟨-, hs, -⟩ | ⟨-, he⟩
    · have := hs.1 i j (by rw [hf.perm]; exact hij)
      rw [Csr.Has, hpat.2.2.2] at this
      exact absurd this.2.2 hn
    · exact he
  cases method with
  | upLooking =>
    simp only [factorizeBlocks, factorizeUpLooking]
    rw [he]
    rfl
  | entryWise =>
    simp only [factorizeBlocks, factorizeEntryWise]
    rw [he]
    rfl

end

/-! ### Regularization -/

section

/-- C28: with the small positive constant regularization no pivot is zero, hence the factorization reproduces the
matrix up to changes of exactly those pivots whose magnitude was below the tolerance; these become the constant. -/
theorem C28_small_positive_constant {K : Type} [Field K] [LinearOrder K] [IsStrictOrderedRing K]
    (s : Sparsity) (p : List Nat) (hv : ValidSparsity s p) (f : DiagFactor K) (hf : f.Declared s p) (m : MatIn K)
    (hm : m.Fits s p) (tol c : K) (ht : 0 < tol) (hc : 0 < c) (method : Method) :
    ∃ f', f.factorize m (regularizationSmallPositiveConstant (fun x => |x|) tol c) method = .ok f' ∧
      (∀ i < s.numRows, min tol c ≤ |f'.pivot i|) ∧ (∀ i < s.numRows, f'.pivot i ≠ 0) ∧
      ∃ δ : Nat → K,
        (∀ i < s.numRows, (|δ i| < tol → f'.pivot i = c) ∧ (tol ≤ |δ i| → f'.pivot i = δ i)) ∧
        ∀ i < s.numRows, ∀ j < s.numRows, ldlt s.numRows f'.lower f'.pivot i j =
          m.sym (permAt p i) (permAt p j) + if i = j then f'.pivot i - δ i else 0 := by
  obtain ⟨f', h, hd⟩ := C25_factorize_total s p hv f hf m hm
    (regularizationSmallPositiveConstant (fun x => |x|) tol c) method
  have hbound : ∀ x i, min tol c ≤ |regularizationSmallPositiveConstant (fun x => |x|) tol c x i| := by
    intro x i
    unfold regularizationSmallPositiveConstant
    beta_reduce
    split
    · rw [abs_of_pos hc]
      exact min_le_right _ _
    · rename_i hx
      exact (min_le_left _ _).trans (not_lt.mp hx)
  obtain ⟨hc1, hpat⟩ := hf.closed1 hv
  obtain ⟨L, D, rfl, hL, hD, hrows⟩ := Sat.of_ok (factorize_sat hc1 (fits1 hv hf hm)
    (regularizationSmallPositiveConstant (fun x => |x|) tol c) method) h
  have hmin : ∀ i < s.numRows, min tol c ≤ |D.getD i 0| := by
    intro i hi
    obtain ⟨c11, c21, -, -, -, -, L11, L21, d1, a21, hrow⟩ := hrows i hi
    have : ∃ x, D.getD i 0 = regularizationSmallPositiveConstant (fun x => |x|) tol c x i := by
      cases method with
      | upLooking =>
        obtain ⟨w1, w2, -, -, -, -, h5⟩ := hrow
        exact ⟨_, h5⟩
      | entryWise => exact ⟨_, hrow.2.2⟩
    obtain ⟨x, hx⟩ := this
    rw [hx]
    exact hbound x i
  have hne : ∀ i < s.numRows, D.getD i 0 ≠ 0 := by
    intro i hi h0
    have := hmin i hi
    rw [h0, abs_zero] at this
    exact absurd this (not_le.mpr (lt_min ht hc))
  refine ⟨_, h, hmin, hne, ?_⟩
  obtain ⟨-, δ, h1, h2⟩ := reproduces hv hf hm _ method h (fun i j hij => by
    refine hne j ?_
    have := hc1.ok.good.col_lt hij
    rw [hc1.ok.cols] at this
    exact this)
  refine ⟨δ, fun i hi => ?_, h2⟩
  have := h1 i hi
  unfold regularizationSmallPositiveConstant at this
  constructor
  · intro hlt
    rwa [if_pos hlt] at this
  · intro hge
    rwa [if_neg (not_lt.mpr hge)] at this

/-- C28: without regularization the factorization reproduces the matrix exactly if no pivot is zero. -/
theorem C28_none {K : Type} [Field K] (s : Sparsity) (p : List Nat) (hv : ValidSparsity s p)
    (f : DiagFactor K) (hf : f.Declared s p) (m : MatIn K) (hm : m.Fits s p) (method : Method) (f' : DiagFactor K)
    (h : f.factorize m regularizationNone method = .ok f')
    (hpiv : ∀ i j, f'.sparsity.toSparsity.Has i j → f'.pivot j ≠ 0) :
    ∀ i < s.numRows, ∀ j < s.numRows, ldlt s.numRows f'.lower f'.pivot i j =
      m.sym (permAt p i) (permAt p j) := by
  obtain ⟨-, δ, h1, h2⟩ := reproduces hv hf hm _ method h hpiv
  intro i hi j hj
  rw [h2 i hi j hj, show f'.pivot i = δ i from h1 i hi, sub_self, ite_self, add_zero]

end

/-! ### A case meeting the hypotheses -/

/-- Witness: pattern of a 3 x 3 matrix in no particular order, with an upper entry. -/
def witnessS : Sparsity := ⟨3, 3, [⟨1, 1⟩, ⟨2, 0⟩, ⟨1, 0⟩, ⟨0, 0⟩, ⟨0, 2⟩, ⟨2, 2⟩]⟩

/-- Witness: values; the last but one is in the upper triangle. -/
def witnessM : MatIn ℚ := ⟨witnessS, [3, 2, -1, 4, 100, 5]⟩

/-- Witness: another matrix with the same lower triangle and another pattern. -/
def witnessM' : MatIn ℚ := ⟨⟨3, 3, [⟨0, 0⟩, ⟨1, 0⟩, ⟨1, 1⟩, ⟨1, 2⟩, ⟨2, 0⟩, ⟨2, 2⟩]⟩, [4, -1, 3, 77, 2, 5]⟩

/-- Witness: a factor object with arbitrary contents. -/
def witnessF : DiagFactor ℚ := ⟨csrOf ⟨3, 3, [⟨1, 0⟩, ⟨2, 0⟩, ⟨2, 1⟩]⟩, [0, 2, 1], [7, 8, 9], [0, 1, 2]⟩

theorem witness_valid : ValidSparsity witnessS [0, 2, 1] :=
  ⟨by unfold Sparsity.InRange; decide, rfl, by unfold IsPerm; decide, by decide⟩

theorem witness_declared : witnessF.Declared witnessS [0, 2, 1] := ⟨by decide, rfl, by decide, by decide⟩

theorem witness_fits : witnessM.Fits witnessS [0, 2, 1] :=
  ⟨rfl, witness_valid.inRange, rfl, rfl, fun i j h => .base h h.1⟩

/-- The hypotheses of C22 - C28 are met, with a fill-in entry, by non-trivial values and contents. -/
example : ∃ f', witnessF.factorize witnessM regularizationNone .upLooking = .ok f' ∧
    f'.L = [1 / 2, -1 / 4, 1 / 8] ∧ f'.D = [4, 4, 43 / 16] ∧
    ∀ i j, f'.sparsity.toSparsity.Has i j → f'.pivot j ≠ 0 := by
  obtain ⟨f', h, hd⟩ := C25_factorize_total witnessS [0, 2, 1] witness_valid witnessF witness_declared witnessM
    witness_fits regularizationNone .upLooking
  have h0 : (do let f ← witnessF.factorize witnessM regularizationNone .upLooking; return (f.L, f.D) : Res _) =
    .ok ([1 / 2, -1 / 4, 1 / 8], [4, 4, 43 / 16]) := by decide +kernel
  rw [h] at h0
  have h1 : (f'.L, f'.D) = ([1 / 2, -1 / 4, 1 / 8], [4, 4, 43 / 16]) := Except.ok.inj h0
  simp only [Prod.mk.injEq] at h1
  refine ⟨f', h, h1.1, h1.2, ?_⟩
  intro i j hij
  have hp := hd.pattern
  rw [witness_declared.pattern] at hp
  rw [← Except.ok.inj hp] at hij
  have : ∀ e ∈ witnessF.sparsity.entries, e.col < 2 := by decide
  have hj := this _ hij
  unfold DiagFactor.pivot
  rw [h1.2]
  have hj' : j = 0 ∨ j = 1 := by simp only at hj; omega
  rcases hj' with rfl | rfl <;> decide +kernel

example : (∀ i j, j ≤ i → witnessM.elem i j = witnessM'.elem i j) ∧ witnessM.elem 0 2 ≠ witnessM'.elem 0 2 := by
  refine ⟨?_, by decide +kernel⟩
  intro i j hij
  by_cases h : i < 3
  · have : ∀ i < 3, ∀ j < 3, j ≤ i → witnessM.elem i j = witnessM'.elem i j := by decide +kernel
    exact this i h j (by omega) hij
  · have h1 : ¬ witnessM.sparsity.Has i j := fun hh => h (witness_valid.inRange _ hh).1
    have h2 : ¬ witnessM'.sparsity.Has i j := fun hh => by
      have : ∀ e ∈ witnessM'.sparsity.entries, e.row < 3 := by decide
      exact h (this _ hh)
    rw [MatIn.elem, if_neg h1, MatIn.elem, if_neg h2]

/-- A matrix rejected by C38: the declared pattern is diagonal. -/
example : ValidSparsity ⟨2, 2, [⟨0, 0⟩, ⟨1, 1⟩]⟩ [0, 1] ∧ LowerPermuted ⟨2, 2, [⟨1, 0⟩]⟩ [0, 1] 1 0 ∧
    ¬ Fill (LowerPermuted ⟨2, 2, [⟨0, 0⟩, ⟨1, 1⟩]⟩ [0, 1]) 1 0 := by
  refine ⟨⟨by unfold Sparsity.InRange; decide, rfl, by unfold IsPerm; decide, by decide⟩, ⟨by decide, by decide,
    by decide⟩, ?_⟩
  have : ∀ i j, ¬ Fill (LowerPermuted ⟨2, 2, [⟨0, 0⟩, ⟨1, 1⟩]⟩ [0, 1]) i j := by
    intro i j h
    induction h with
    | @base i j h _ =>
      obtain ⟨h1, h2, h3⟩ := h
      have : i = 1 ∧ j = 0 := by simp only at h2; omega
      obtain ⟨rfl, rfl⟩ := this
      revert h3
      decide
    | step _ _ _ ih => exact ih
  exact this 1 0

/-- Blocks meeting the hypotheses of the theorems with a left neighbour. -/
example : BlocksDeclared witnessF
    (⟨csrOf ⟨1, 3, [⟨0, 1⟩, ⟨0, 2⟩]⟩, [0], [0, 2, 1], [5, 5]⟩ : SubFactor ℚ) ⟨csrOf ⟨1, 1, []⟩, [0], [], [3]⟩ 3 1 ∧
    (Init.matrix ⟨⟨1, 3, [⟨0, 2⟩]⟩, [1]⟩ : Init ℚ).Valid 1 3 ∧ (Init.matrix ⟨⟨1, 1, [⟨0, 0⟩]⟩, [9]⟩ : Init ℚ).Valid 1 1 ∧
    factorizeStaticAsserts witnessF (Init.matrix ⟨⟨1, 3, [⟨0, 2⟩]⟩, [1]⟩ : Init ℚ)
      (Init.matrix ⟨⟨1, 1, [⟨0, 0⟩]⟩, [9]⟩ : Init ℚ) ⟨csrOf ⟨1, 3, [⟨0, 1⟩, ⟨0, 2⟩]⟩, [0], [0, 2, 1], [5, 5]⟩
      ⟨csrOf ⟨1, 1, []⟩, [0], [], [3]⟩ = .ok () := by
  refine ⟨⟨?_, ?_, ?_, ?_, ?_, by decide, ?_, ?_, ?_, by decide, by decide, by decide, by decide, by decide,
    by decide⟩, ⟨rfl, ?_, rfl, rfl⟩, ⟨rfl, ?_, rfl, rfl⟩, by decide +kernel⟩
  · exact ⟨⟨3, 3, [⟨1, 0⟩, ⟨2, 0⟩, ⟨2, 1⟩]⟩, by unfold Sparsity.InRange; decide, by unfold Sparsity.Sorted; decide,
      rfl, rfl, by decide⟩
  · exact ⟨⟨1, 3, [⟨0, 1⟩, ⟨0, 2⟩]⟩, by unfold Sparsity.InRange; decide, by unfold Sparsity.Sorted; decide,
      rfl, rfl, by decide⟩
  · exact ⟨⟨1, 1, []⟩, by unfold Sparsity.InRange; decide, by unfold Sparsity.Sorted; decide,
      rfl, rfl, by decide⟩
  · have : ∀ e ∈ witnessF.sparsity.entries, e.col < e.row := by decide
    exact fun i j h => this _ h
  · have : ∀ e ∈ (csrOf ⟨1, 1, []⟩).entries, e.col < e.row := by decide
    exact fun i j h => this _ h
  · unfold IsPerm; decide
  · unfold IsPerm; decide
  · unfold IsPerm; decide
  · unfold Sparsity.InRange; decide
  · unfold Sparsity.InRange; decide

end Ctldl
