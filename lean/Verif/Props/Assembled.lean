import Verif.Lemmas.AssembledExists
import Verif.Props.Scaling

/-! # C71: the repeating block matrix and the assembled matrix

The class for repeating block matrices executes, block by block, exactly the operations which the class for one block
executes for the assembled matrix: both store the same numbers, whatever the arithmetic. -/

namespace Ctldl

open Finset Tridiagonal

private theorem typesOk {s : ArrowheadSparsity} {T : ArrowheadTypes} {d : Dims} (hs : s.Valid d)
    (hT : arrowheadTypes s = .ok T) : TypesOk s T d := by
  obtain ⟨T', h1, h2⟩ := arrowheadTypes_sat hs
  rw [hT] at h1
  cases h1
  exact h2

/-- C71: for every repeating block matrix there is one matrix, with a pattern and an order of elimination, which is the
assembled one. -/
theorem C71_assembled (s : ArrowheadSparsity) (d : Dims) (hs : s.Valid d) (T : ArrowheadTypes)
    (hT : arrowheadTypes s = .ok T) (N : Nat) (hsmall : d.total N ≤ noParent) :
    ∃ S P, ValidSparsity S P ∧ S.Assembles P s T d N ∧
      ∀ (K : Type) [Zero K] (m : ArrowheadMatrix K), m.Fits s T d N → ∃ M : MatIn K, M.Fits S P ∧ M.Assembles m d N := by
  obtain ⟨S, P, h1, h2⟩ := exists_pattern hs (typesOk hs hT) N hsmall
  exact ⟨S, P, h1, h2, fun K _ m hm => exists_matrix hs (typesOk hs hT) hm h2⟩

section

variable {K : Type} [Zero K] [Sub K] [Mul K] [Div K]

/-- C71: for any arithmetic the two classes compute the same factor and the same solutions, with the up-looking method. -/
theorem C71_same (s : ArrowheadSparsity) (d : Dims) (hs : s.Valid d) (T : ArrowheadTypes) (N : Nat)
    (f : ArrowheadFactor K) (hf : f.Declared s T d N) (m : ArrowheadMatrix K) (hm : m.Fits s T d N)
    (S : Sparsity) (P : List Nat) (hv : ValidSparsity S P) (g : DiagFactor K) (hg : g.Declared S P) (M : MatIn K)
    (hM : M.Fits S P) (hA : S.Assembles P s T d N) (hMA : M.Assembles m d N) (reg reg' : K → Nat → K)
    (hreg : ∀ k ∈ positions d N, ∀ x, reg' x (d.place N k) = reg x k.2) (method : Method)
    (hmethod : method = .upLooking ∨ d.outer = 0) :
    ∃ f' g', f.factorize d.tridiag d.link d.outer m reg method = .ok f' ∧ g.factorize M reg' method = .ok g' ∧
      (∀ k ∈ positions d N, ∀ l ∈ positions d N, g'.lower (d.place N k) (d.place N l) = f'.storedAt N k l) ∧
      (∀ k ∈ positions d N, g'.pivot (d.place N k) = f'.pivotAt k.1 k.2) ∧
      ∀ b : ArrowheadVector K, b.OfSize d N → ∃ x, f'.solveInPlace b = .ok x ∧ g'.solveInPlace b.flat = .ok x.flat := by
  obtain ⟨f', h1, h2⟩ := C21_factorize_total s d hs T N f hf m hm reg method
  obtain ⟨g', h3, h4⟩ := C25_factorize_total S P hv g hg M hM reg' method
  obtain ⟨h5, h6⟩ := assembled_factor hs hf hm hmethod hv hg hM hA hMA hreg h1 h3
  refine ⟨f', g', h1, h3, h5, h6, fun b hb => ?_⟩
  obtain ⟨x, h7, -, h8⟩ := assembled_solve hs h2 hv h4 hA h5 h6 hb
  exact ⟨x, h7, h8⟩

/-- C71 without regularization. -/
theorem C71_same_unregularized (s : ArrowheadSparsity) (d : Dims) (hs : s.Valid d) (T : ArrowheadTypes) (N : Nat)
    (f : ArrowheadFactor K) (hf : f.Declared s T d N) (m : ArrowheadMatrix K) (hm : m.Fits s T d N)
    (S : Sparsity) (P : List Nat) (hv : ValidSparsity S P) (g : DiagFactor K) (hg : g.Declared S P) (M : MatIn K)
    (hM : M.Fits S P) (hA : S.Assembles P s T d N) (hMA : M.Assembles m d N) (method : Method)
    (hmethod : method = .upLooking ∨ d.outer = 0) :
    ∃ f' g', f.factorize d.tridiag d.link d.outer m regularizationNone method = .ok f' ∧
      g.factorize M regularizationNone method = .ok g' ∧
      (∀ k ∈ positions d N, ∀ l ∈ positions d N, g'.lower (d.place N k) (d.place N l) = f'.storedAt N k l) ∧
      (∀ k ∈ positions d N, g'.pivot (d.place N k) = f'.pivotAt k.1 k.2) ∧
      ∀ b : ArrowheadVector K, b.OfSize d N → ∃ x, f'.solveInPlace b = .ok x ∧ g'.solveInPlace b.flat = .ok x.flat :=
  C71_same s d hs T N f hf m hm S P hv g hg M hM hA hMA _ _ (fun _ _ _ => rfl) method hmethod

end

/-! ### Block tridiagonal matrices -/

section

variable {K : Type} [Zero K]

private theorem place_tridiag (n N t i : Nat) : (⟨0, n, 0, 0⟩ : Dims).place N ⟨.tridiag t, i⟩ = t * n + i := by
  show 0 + t * n + i = _
  omega

private theorem total_tridiag (n N : Nat) : (⟨0, n, 0, 0⟩ : Dims).total N = (N + 1) * n := by
  show 0 + (N + 1) * n + 0 + 0 = _
  omega

private theorem has_tridiag {T : ArrowheadTypes} {N t u i j : Nat} (ht : t < N + 1) :
    T.Has N (.tridiag t) i (.tridiag u) j ↔
      (t = u ∧ T.tridiagDiag.toSparsity.Has i j) ∨ (t = u + 1 ∧ T.tridiagSubdiag.toSparsity.Has i j) := by
  unfold ArrowheadTypes.Has blockPattern
  rcases t with _ | t
  · simp [ArrowheadTypes.lowerBlock, ArrowheadTypes.diagBlock]
  · by_cases h : u = t
    · subst h
      simp [ArrowheadTypes.lowerBlock, ArrowheadTypes.diagBlock, show u < N by omega]
    · simp [ArrowheadTypes.lowerBlock, ArrowheadTypes.diagBlock, h, Ne.symm h]

private theorem tridiag_positions {n N : Nat} {Q : (Σ _ : Blk, Nat) → Prop} :
    (∀ k ∈ positions ⟨0, n, 0, 0⟩ N, Q k) ↔ ∀ t < N + 1, ∀ i < n, Q ⟨.tridiag t, i⟩ := by
  constructor
  · exact fun h t ht i hi => h _ (mem_positions.mpr ⟨tridiag_mem ht, hi⟩)
  · rintro h ⟨a, i⟩ hk
    obtain ⟨ha, hi⟩ := mem_positions.mp hk
    exact blocks_cases (P := fun a i => Q ⟨a, i⟩) h a ha i hi

private theorem assembles_tridiagonal {S : Sparsity} {P p : List Nat} {T : ArrowheadTypes} {n N : Nat} {spA spB : Sparsity} :
    S.Assembles P (emptied spA spB p n) T ⟨0, n, 0, 0⟩ N ↔ S.AssemblesTridiagonal P p T n N := by
  constructor
  · rintro ⟨h1, h2, h3⟩
    rw [total_tridiag] at h1
    simp only [tridiag_positions, place_tridiag] at h2 h3
    refine ⟨h1, h2, fun t ht i hi u hu j hj => ?_⟩
    rw [h3 t ht i hi u hu j hj]
    exact has_tridiag ht
  · rintro ⟨h1, h2, h3⟩
    refine ⟨h1.trans (total_tridiag n N).symm, ?_, ?_⟩
    · simp only [tridiag_positions, place_tridiag]
      exact h2
    · simp only [tridiag_positions, place_tridiag]
      intro t ht i hi u hu j hj
      rw [h3 t ht i hi u hu j hj]
      exact (has_tridiag ht).symm

private theorem matrix_tridiagonal {M : MatIn K} {A B : List (MatIn K)} {n N : Nat} (hB : N ≤ B.length) :
    M.Assembles (tridiagonalMatrix n N A B) ⟨0, n, 0, 0⟩ N ↔ M.AssemblesTridiagonal A B n N := by
  unfold MatIn.Assembles MatIn.AssemblesTridiagonal
  simp only [tridiag_positions, place_tridiag]
  constructor
  · intro h t ht i hi u hu j hj
    rw [h t ht i hi u hu j hj, symElement_eq hB ht hu]
  · intro h t ht i hi u hu j hj
    rw [h t ht i hi u hu j hj, symElement_eq hB ht hu]

end

/-- C71: for every block tridiagonal matrix there is one matrix which is the assembled one. -/
theorem C71_tridiagonal_assembled (spA spB : Sparsity) (p : List Nat) (n : Nat) (h : ValidTridiagonal spA spB p n) (N : Nat)
    (hsmall : (N + 1) * n ≤ noParent) (K : Type) (f : ArrowheadFactor K) (T : ArrowheadTypes)
    (hf : TridiagonalDeclared f spA spB p T n N) :
    ∃ S P, ValidSparsity S P ∧ S.AssemblesTridiagonal P p T n N ∧
      ∀ (K : Type) [Zero K] (A B : List (MatIn K)), TridiagonalFits A B p T n N →
        ∃ M : MatIn K, M.Fits S P ∧ M.AssemblesTridiagonal A B n N := by
  obtain ⟨S, P, h1, h2, h3⟩ := C71_assembled _ _ (emptied_valid h) T (declared_of h hf).types N
    (by rw [total_tridiag]; exact hsmall)
  refine ⟨S, P, h1, assembles_tridiagonal.mp h2, fun K _ A B hm => ?_⟩
  obtain ⟨M, h4, h5⟩ := h3 K _ (fits_of hm)
  exact ⟨M, h4, (matrix_tridiagonal hm.numB).mp h5⟩

/-- C71: for any arithmetic and with both methods, the class for block tridiagonal matrices computes what the class for
one block computes for the assembled matrix. -/
theorem C71_tridiagonal {K : Type} [Zero K] [Sub K] [Mul K] [Div K] (spA spB : Sparsity) (p : List Nat) (n : Nat)
    (h : ValidTridiagonal spA spB p n) (N : Nat)
    (f : ArrowheadFactor K) (T : ArrowheadTypes) (hf : TridiagonalDeclared f spA spB p T n N) (A B : List (MatIn K))
    (hm : TridiagonalFits A B p T n N) (S : Sparsity) (P : List Nat) (hv : ValidSparsity S P) (g : DiagFactor K)
    (hg : g.Declared S P) (M : MatIn K) (hM : M.Fits S P) (hA : S.AssemblesTridiagonal P p T n N)
    (hMA : M.AssemblesTridiagonal A B n N) (reg reg' : K → Nat → K)
    (hreg : ∀ t < N + 1, ∀ i < n, ∀ x, reg' x (t * n + i) = reg x i) (method : Method) :
    ∃ f' g', tridiagonalFactorize n f A B reg method = .ok f' ∧ g.factorize M reg' method = .ok g' ∧
      (∀ t < N + 1, ∀ i < n, ∀ u < N + 1, ∀ j < n,
        g'.lower (t * n + i) (u * n + j) = f'.storedAt N ⟨.tridiag t, i⟩ ⟨.tridiag u, j⟩) ∧
      (∀ t < N + 1, ∀ i < n, g'.pivot (t * n + i) = f'.pivotAt (.tridiag t) i) ∧
      ∀ b : List (List K), BlockVector b n N →
        ∃ x, tridiagonalSolveInPlace f' b = .ok x ∧ g'.solveInPlace b.flatten = .ok x.flatten := by
  have hd := declared_of h hf
  obtain ⟨f', g', h1, h2, h3, h4, h5⟩ := C71_same _ _ (emptied_valid h) T N f hd _ (fits_of hm) S P hv g hg M hM
    (assembles_tridiagonal.mpr hA) ((matrix_tridiagonal hm.numB).mpr hMA) reg reg' (by
      simp only [tridiag_positions, place_tridiag]
      exact hreg) method (.inr rfl)
  simp only [tridiag_positions, place_tridiag] at h3 h4
  refine ⟨f', g', by rw [factorize_eq hd]; exact h1, h2, h3, h4, fun b hb => ?_⟩
  obtain ⟨x, h6, h7⟩ := h5 _ (vector_of hb)
  obtain ⟨f'', h8, h9⟩ := C21_factorize_total _ _ (emptied_valid h) T N f hd _ (fits_of hm) reg method
  rw [h1] at h8
  cases h8
  obtain ⟨y, h10, h11⟩ := (C35_solve_total _ _ (emptied_valid h) T N f' h9 _ (vector_of hb)).1
  rw [h6] at h10
  cases h10
  refine ⟨x.tridiag, ?_, ?_⟩
  · unfold tridiagonalSolveInPlace
    rw [h6]
    rfl
  · have e1 : x.start = [] := List.length_eq_zero_iff.mp h11.start
    have e2 : x.link = [] := List.length_eq_zero_iff.mp h11.link
    have e3 : x.outer = [] := List.length_eq_zero_iff.mp h11.outer
    simpa [ArrowheadVector.flat, e1, e2, e3] using h7

/-! ### The hypotheses can be met -/

instance (T : ArrowheadTypes) (N : Nat) (a : Blk) (i : Nat) (b : Blk) (j : Nat) : Decidable (T.Has N a i b j) :=
  decidable_of_iff ((a = b ∧ (T.diagBlock a).Has i j) ∨ ∃ c ∈ (T.lowerBlock N a b).toList, c.Has i j) (by
    unfold ArrowheadTypes.Has blockPattern
    dsimp only
    cases h : T.lowerBlock N a b <;> simp)

/-- The pattern of the assembled matrix can be found by execution. -/
theorem assembles_of {S : Sparsity} {P : List Nat} (hv : ValidSparsity S P) {s : ArrowheadSparsity} {T : ArrowheadTypes}
    {d : Dims} {N : Nat} {c : Csr} (hc : factorizationSparsity S P = .ok c) (hsize : S.numRows = d.total N)
    (h : ∀ k ∈ positions d N, permAt P (d.place N k) = d.place N ⟨k.1, permAt (s.perm k.1) k.2⟩ ∧
      ∀ l ∈ positions d N, c.Has (d.place N k) (d.place N l) ↔ T.Has N k.1 k.2 l.1 l.2) : S.Assembles P s T d N := by
  obtain ⟨hc', hp⟩ := DiagFactor.Declared.closed1 (K := Unit)
    (f := ⟨c, P, .replicate c.entries.length (), .replicate S.numRows ()⟩) ⟨hc, rfl, by simp, by simp⟩ hv
  refine ⟨hsize, fun k hk => (h k hk).1, fun k hk l hl => ?_⟩
  rw [← (h k hk).2 l hl, Csr.Has, hp.2.2.2, hsize]
  exact ⟨fun h => ⟨place_lt hk T, place_lt hl T, h⟩, fun h => h.2.2⟩

/-- Witness: the pattern of the assembled matrix for `arrowS` with one repetition. -/
def wholeS : Sparsity := ⟨7, 7, [⟨0, 0⟩, ⟨1, 0⟩, ⟨1, 1⟩, ⟨2, 1⟩, ⟨2, 2⟩, ⟨3, 2⟩, ⟨3, 3⟩, ⟨4, 3⟩, ⟨4, 4⟩, ⟨5, 3⟩, ⟨5, 5⟩,
  ⟨6, 0⟩, ⟨6, 5⟩, ⟨6, 6⟩]⟩

/-- Witness: the order of elimination. -/
def wholeP : List Nat := [0, 2, 1, 4, 3, 5, 6]

/-- Witness: the assembled matrix for `arrowM`. -/
def wholeM : MatIn ℚ := ⟨wholeS, [2, 1, 3, 1, 4, 1, 5, 1, 4, 1, 3, -1, 1, 7]⟩

theorem wholeS_valid : ValidSparsity wholeS wholeP :=
  ⟨by unfold Sparsity.InRange; decide, rfl, by unfold IsPerm; decide, by decide⟩

theorem wholeS_assembles {T : ArrowheadTypes} (hT : arrowheadTypes arrowS = .ok T) :
    wholeS.Assembles wholeP arrowS T arrowD 1 := by
  have h : (do
      let T ← arrowheadTypes arrowS
      let c ← factorizationSparsity wholeS wholeP
      return decide (∀ k ∈ positions arrowD 1,
        permAt wholeP (arrowD.place 1 k) = arrowD.place 1 ⟨k.1, permAt (arrowS.perm k.1) k.2⟩ ∧
        ∀ l ∈ positions arrowD 1, c.Has (arrowD.place 1 k) (arrowD.place 1 l) ↔ T.Has 1 k.1 k.2 l.1 l.2)) =
      (.ok true : Res Bool) := by
    decide +kernel
  rw [hT, ok_bind, bind_eq_ok] at h
  obtain ⟨c, hc, h⟩ := h
  exact assembles_of wholeS_valid hc rfl (of_decide_eq_true (Except.ok.inj h))

theorem wholeM_assembles : wholeM.Assembles arrowM arrowD 1 := by
  unfold MatIn.Assembles
  decide +kernel

theorem wholeM_fits : wholeM.Fits wholeS wholeP :=
  ⟨rfl, wholeS_valid.inRange, rfl, rfl, fun _ _ h => .base h h.1⟩

/-- Witness: numbers of the double precision format. -/
def dbl (x : ℚ) : Double := Binary.ofRat .binary64 false x

/-- The assembled matrix of `arrowM` in double precision. -/
theorem wholeM_double : (wholeM.map dbl).Assembles doubleM arrowD 1 := by
  intro k hk l hl
  have h0 : dbl 0 = 0 := by
    unfold dbl
    exact dif_pos (by decide +kernel)
  refine (sym_map h0 _ _ _).trans ?_
  rw [wholeM_assembles k hk l hl]
  exact (matrix_symElement_map h0 arrowM 1 _ _ _ _).symm

/-- The two classes compute the same in double precision for the assembled matrix of `arrowM`. -/
example : ∃ T c f' g' x, arrowheadTypes arrowS = .ok T ∧ factorizationSparsity wholeS wholeP = .ok c ∧
    (freshFactor arrowS T arrowD 1 (0 : Double)).factorize 2 1 1 doubleM regularizationNone .upLooking = .ok f' ∧
    (⟨c, wholeP, .replicate c.entries.length 0, .replicate 7 0⟩ : DiagFactor Double).factorize (wholeM.map dbl)
      regularizationNone .upLooking = .ok g' ∧
    g'.pivot 6 = f'.pivotAt .outer 0 ∧ g'.lower 4 3 = f'.storedAt 1 ⟨.tridiag 1, 1⟩ ⟨.tridiag 1, 0⟩ ∧
    f'.solveInPlace ⟨[dbl 1], [[dbl 2, dbl 3], [dbl 4, dbl 5]], [dbl 6], [dbl 7]⟩ = .ok x ∧
    g'.solveInPlace [dbl 1, dbl 2, dbl 3, dbl 4, dbl 5, dbl 6, dbl 7] = .ok x.flat := by
  obtain ⟨T, hT, -⟩ := arrowheadTypes_sat arrowS_valid
  have hF := C21_constructible arrowS arrowD T hT 1 (0 : Double)
  have hc : (do let c ← factorizationSparsity wholeS wholeP; return c.numRows) = (.ok 7 : Res Nat) := by decide +kernel
  obtain ⟨c, hc, -⟩ := bind_eq_ok.mp hc
  obtain ⟨f', g', h1, h2, h3, h4, h5⟩ := C71_same_unregularized arrowS arrowD arrowS_valid T 1 _ hF doubleM
    ((arrowM_fits hT).map _) wholeS wholeP wholeS_valid
    (⟨c, wholeP, .replicate c.entries.length 0, .replicate 7 0⟩ : DiagFactor Double)
    ⟨hc, rfl, List.length_replicate, List.length_replicate⟩ (wholeM.map dbl)
    ⟨rfl, wholeM_fits.inRange, rfl, rfl, wholeM_fits.subset⟩ (wholeS_assembles hT) wholeM_double .upLooking (.inl rfl)
  obtain ⟨x, h6, h7⟩ := h5 ⟨[dbl 1], [[dbl 2, dbl 3], [dbl 4, dbl 5]], [dbl 6], [dbl 7]⟩
    ⟨rfl, rfl, by simp [arrowD], rfl, rfl⟩
  exact ⟨T, c, f', g', x, hT, hc, h1, h2, h4 ⟨.outer, 0⟩ (by decide),
    h3 ⟨.tridiag 1, 1⟩ (by decide) ⟨.tridiag 1, 0⟩ (by decide), h6, h7⟩

/-! ### The condition on the method is needed -/

/-- Witness: one block and one outer row. -/
def edgeS : ArrowheadSparsity where
  start := ⟨⟨0, 0, []⟩, ⟨1, 0, []⟩, ⟨1, 0, []⟩, []⟩
  tridiag := ⟨⟨1, 1, [⟨0, 0⟩]⟩, ⟨1, 1, []⟩, [0]⟩
  link := ⟨⟨0, 1, []⟩, ⟨0, 0, []⟩, ⟨1, 0, []⟩, []⟩
  outer := ⟨⟨1, 1, [⟨0, 0⟩]⟩, ⟨1, 1, [⟨0, 0⟩]⟩, [0]⟩

def edgeD : Dims := ⟨0, 1, 0, 1⟩

/-- Witness: the matrix with rows `5 1` and `1 1/4`. -/
def edgeM : ArrowheadMatrix Double where
  startDiag := ⟨⟨0, 0, []⟩, []⟩
  startNext := ⟨⟨1, 0, []⟩, []⟩
  startOuter := ⟨⟨1, 0, []⟩, []⟩
  tridiagDiag := [⟨⟨1, 1, [⟨0, 0⟩]⟩, [dbl 5]⟩]
  tridiagSubdiag := []
  linkPrev := ⟨⟨0, 1, []⟩, []⟩
  linkDiag := ⟨⟨0, 0, []⟩, []⟩
  linkNext := ⟨⟨1, 0, []⟩, []⟩
  outerSubdiag := [⟨⟨1, 1, [⟨0, 0⟩]⟩, [dbl 1]⟩]
  outerDiag := ⟨⟨1, 1, [⟨0, 0⟩]⟩, [dbl (1 / 4)]⟩

def edgeWholeS : Sparsity := ⟨2, 2, [⟨0, 0⟩, ⟨1, 0⟩, ⟨1, 1⟩]⟩

def edgeWholeM : MatIn Double := ⟨edgeWholeS, [dbl 5, dbl 1, dbl (1 / 4)]⟩

def edgeRun (method : Method) : Res (ℚ × ℚ) := do
  let T ← arrowheadTypes edgeS
  let f ← (freshFactor edgeS T edgeD 0 (0 : Double)).factorize 1 0 1 edgeM regularizationNone method
  let c ← factorizationSparsity edgeWholeS [0, 1]
  let g ← (⟨c, [0, 1], [0], [0, 0]⟩ : DiagFactor Double).factorize edgeWholeM regularizationNone method
  return ((f.pivotAt .outer 0).toRat, (g.pivot 1).toRat)

theorem edgeS_valid : edgeS.Valid edgeD := by
  constructor <;> first
    | exact ⟨by unfold Sparsity.InRange; decide, rfl, rfl⟩
    | (unfold IsPerm; decide)
    | decide

theorem edgeWholeS_valid : ValidSparsity edgeWholeS [0, 1] :=
  ⟨by unfold Sparsity.InRange; decide, rfl, by unfold IsPerm; decide, by decide⟩

theorem edgeWholeS_assembles {T : ArrowheadTypes} (hT : arrowheadTypes edgeS = .ok T) :
    edgeWholeS.Assembles [0, 1] edgeS T edgeD 0 := by
  have h : (do
      let T ← arrowheadTypes edgeS
      let c ← factorizationSparsity edgeWholeS [0, 1]
      return decide (∀ k ∈ positions edgeD 0,
        permAt [0, 1] (edgeD.place 0 k) = edgeD.place 0 ⟨k.1, permAt (edgeS.perm k.1) k.2⟩ ∧
        ∀ l ∈ positions edgeD 0, c.Has (edgeD.place 0 k) (edgeD.place 0 l) ↔ T.Has 0 k.1 k.2 l.1 l.2)) =
      (.ok true : Res Bool) := by
    decide +kernel
  rw [hT, ok_bind, bind_eq_ok] at h
  obtain ⟨c, hc, h⟩ := h
  exact assembles_of edgeWholeS_valid hc rfl (of_decide_eq_true (Except.ok.inj h))

theorem edgeWholeM_assembles : edgeWholeM.Assembles edgeM edgeD 0 := by
  have : ∀ k ∈ positions edgeD 0, ∀ l ∈ positions edgeD 0,
      (edgeWholeM.sym (edgeD.place 0 k) (edgeD.place 0 l)) = edgeM.symElement 0 k.1 l.1 k.2 l.2 := by
    have hk : ∀ k ∈ positions edgeD 0, k = ⟨.tridiag 0, 0⟩ ∨ k = ⟨.outer, 0⟩ := by decide +kernel
    intro k h1 l h2
    rcases hk k h1 with rfl | rfl <;> rcases hk l h2 with rfl | rfl <;> rfl
  exact this

/-- C71 fails for the entry-wise method if there is an outer block: for the matrix with rows `5 1` and `1 1/4` the two
classes compute different last pivots in double precision. The class for repeating block matrices computes that part of
the pivots of the outer block which is due to the blocks before the last one as `w * (w / d)`, the other one as
`l * l * d`. -/
theorem C71_entryWise_differs : ∃ T c f' g', arrowheadTypes edgeS = .ok T ∧ edgeS.Valid edgeD ∧
    edgeWholeS.Assembles [0, 1] edgeS T edgeD 0 ∧ edgeWholeM.Assembles edgeM edgeD 0 ∧
    factorizationSparsity edgeWholeS [0, 1] = .ok c ∧
    (freshFactor edgeS T edgeD 0 (0 : Double)).factorize 1 0 1 edgeM regularizationNone .entryWise = .ok f' ∧
    (⟨c, [0, 1], [0], [0, 0]⟩ : DiagFactor Double).factorize edgeWholeM regularizationNone .entryWise = .ok g' ∧
    (f'.pivotAt .outer 0).toRat = 900719925474099 / 18014398509481984 ∧
    (g'.pivot 1).toRat = 1801439850948197 / 36028797018963968 := by
  have h : edgeRun .entryWise = .ok (900719925474099 / 18014398509481984, 1801439850948197 / 36028797018963968) := by
    decide +kernel
  unfold edgeRun at h
  obtain ⟨T, hT, h⟩ := bind_eq_ok.mp h
  obtain ⟨f', hf, h⟩ := bind_eq_ok.mp h
  obtain ⟨c, hc, h⟩ := bind_eq_ok.mp h
  obtain ⟨g', hg, h⟩ := bind_eq_ok.mp h
  have h' := Prod.mk.inj (Except.ok.inj h)
  exact ⟨T, c, f', g', hT, edgeS_valid, edgeWholeS_assembles hT, edgeWholeM_assembles, hc, hf, hg, h'.1, h'.2⟩

end Ctldl
