import Verif.Lemmas.SignChange
import Verif.Lemmas.TridiagonalPositions
import Verif.Spec.BinaryOrder
import Verif.Props.Scaling
import Verif.Props.Textbook

/-! # C80: changes of sign

The matrix with the signs of some rows and the same columns changed, or of the whole matrix, has the same factors and
solutions in floating point arithmetic, with signs changed accordingly, without any difference in magnitudes, even if
numbers overflow or underflow: if no pivot is zero. Only the signs of zeros may differ otherwise. -/

namespace Ctldl

open Tridiagonal

variable {fmt : Format}

/-- C80: single matrices. The signs of row and column `i` are changed if `α i` is true, and that of the whole matrix if
`γ` is true. Then the signs of the pivots change if `γ` is true, that of an entry of `L` if exactly one of the signs of its
row and its column is changed; and those of the solution accordingly. -/
theorem C80_single (s : Sparsity) (p : List Nat) (hv : ValidSparsity s p) (f g : DiagFactor (Binary fmt))
    (hf : f.Declared s p) (hg : g.Declared s p) (m m' : MatIn (Binary fmt)) (hm : m.Fits s p) (hm' : m'.Fits s p)
    (γ : Bool) (α : Nat → Bool)
    (hA : ∀ i < s.numRows, ∀ j < s.numRows, SignChanged (γ ^^ (α i ^^ α j)) (m.sym i j) (m'.sym i j))
    (reg reg' : Binary fmt → Nat → Binary fmt)
    (hreg : ∀ i < s.numRows, ∀ x x', SignChanged γ x x' → SignChanged γ (reg x i) (reg' x' i)) (method : Method)
    (f' : DiagFactor (Binary fmt)) (h : f.factorize m reg method = .ok f')
    (hpiv : ∀ i < s.numRows, ¬ (f'.pivot i).IsZero)
    (b b' : List (Binary fmt)) (hb : b.length = s.numRows) (hb' : b'.length = s.numRows) (ε : Bool)
    (hw : ∀ i < s.numRows, SignChanged (ε ^^ α i) (b.getD i 0) (b'.getD i 0)) :
    ∃ g' x x', g.factorize m' reg' method = .ok g' ∧ f'.solveInPlace b = .ok x ∧ g'.solveInPlace b' = .ok x' ∧
      (∀ i < s.numRows, ∀ j, SignChanged (α (permAt p i) ^^ α (permAt p j)) (f'.lower i j) (g'.lower i j)) ∧
      (∀ i < s.numRows, SignChanged γ (f'.pivot i) (g'.pivot i)) ∧
      ∀ i < s.numRows, SignChanged (ε ^^ (γ ^^ α i)) (x.getD i 0) (x'.getD i 0) := by
  obtain ⟨f'', h1, h2, h3⟩ := C73_factor s p hv f hf m hm reg method
  rw [h] at h1
  cases h1
  obtain ⟨g', h4, h5, h6⟩ := C73_factor s p hv g hg m' hm' reg' method
  obtain ⟨_, e1, hfd⟩ := C25_factorize_total s p hv f hf m hm reg method
  rw [h] at e1
  cases e1
  obtain ⟨_, e1, hgd⟩ := C25_factorize_total s p hv g hg m' hm' reg' method
  rw [h4] at e1
  cases e1
  have hP : ∀ i j, Fill (LowerPermuted s p) i j → j < i := fun i j h => h.lt
  have outer : ∀ {A L : Nat → Nat → Binary fmt} {D : Nat → Binary fmt} {reg : Binary fmt → Nat → Binary fmt},
      FactorFormulas method (Fill (LowerPermuted s p)) s.numRows A L D reg →
      EntryWiseOuterFormulas (Fill (LowerPermuted s p)) s.numRows s.numRows
        (match method with | .upLooking => 0 | .entryWise => s.numRows) A L D reg := by
    intro A L D reg h
    cases method with
    | upLooking => exact upLooking_outer hP h
    | entryWise => exact (C73_without_outer _ _ _ _ le_rfl _ _ _ _).mpr h
  have key := formulas_rel (Q := SignChanged) (nz := fun x => ¬ x.IsZero) SignChanged.sub SignChanged.mul SignChanged.div hP
    (outer h2) (outer h5) γ (fun i => α (permAt p i))
    (fun i hi j hj => hA _ (hv.perm.lt hi) _ (hv.perm.lt (by omega))) hreg hpiv
  obtain ⟨x, h7, -, h8⟩ := C73_solve s p hv f' hfd b hb
  obtain ⟨x', h9, -, h10⟩ := C73_solve s p hv g' hgd b' hb'
  refine ⟨g', x, x', h4, h7, h9, fun i hi j => ?_, fun i hi => (key i hi).2, fun i hi => ?_⟩
  · by_cases hij : Fill (LowerPermuted s p) i j
    · exact (key i hi).1 j hij
    · rw [h3 i j hij, h6 i j hij]
      exact .zero _ _
  · obtain ⟨k, hk, rfl⟩ := hv.perm.surj hi
    exact solve_formulas_rel (Q := SignChanged) (nz := fun x => ¬ x.IsZero) SignChanged.sub SignChanged.mul SignChanged.div hP
      h8 h10 γ ε (fun i => α (permAt p i)) (fun i hi => (key i hi).1) (fun i hi => (key i hi).2) hpiv
      (fun i hi => hw _ (hv.perm.lt hi)) k hk

private theorem whole_lt {s : ArrowheadSparsity} {d : Dims} (hs : s.Valid d) {T : ArrowheadTypes}
    (hT : arrowheadTypes s = .ok T) {N : Nat} (hsmall : d.total N ≤ noParent) {r c : Nat} (h : wholePattern T d N r c) :
    c < r := by
  obtain ⟨S, P, hv, hA, -⟩ := C71_assembled s d hs T hT N hsmall
  obtain ⟨k, hk, l, hl, rfl, rfl, h⟩ := h
  exact ((hA.pattern k hk l hl).mpr h).lt

private theorem exists_position (T : ArrowheadTypes) (d : Dims) (N : Nat) :
    ∃ e : Nat → Σ _ : Blk, Nat, ∀ k ∈ positions d N, e (d.place N k) = k := by
  have hex : ∀ r, ∃ k, r < d.total N → k ∈ positions d N ∧ d.place N k = r := fun r => by
    by_cases hr : r < d.total N
    · obtain ⟨k, hk, h⟩ := exists_place hr T
      exact ⟨k, fun _ => ⟨hk, h⟩⟩
    · exact ⟨⟨.start, 0⟩, fun h => absurd h hr⟩
  choose e he using hex
  exact ⟨e, fun k hk => place_inj T (he _ (place_lt hk T)).1 hk (he _ (place_lt hk T)).2⟩

private theorem isPerm_of {s : ArrowheadSparsity} {d : Dims} (hs : s.Valid d) (a : Blk) : IsPerm (s.perm a) (d.of a) := by
  cases a
  exacts [hs.permStart, hs.permTridiag, hs.permLink, hs.permOuter]

/-- C80: the class for repeating block tridiagonal arrowhead linked matrices. -/
theorem C80_repeating (s : ArrowheadSparsity) (d : Dims) (hs : s.Valid d) (T : ArrowheadTypes) (N : Nat)
    (hsmall : d.total N ≤ noParent) (f g : ArrowheadFactor (Binary fmt)) (hf : f.Declared s T d N)
    (hg : g.Declared s T d N) (m m' : ArrowheadMatrix (Binary fmt)) (hm : m.Fits s T d N) (hm' : m'.Fits s T d N)
    (γ : Bool) (α : Blk → Nat → Bool)
    (hA : ∀ a₁ ∈ blocks N, ∀ a₂ ∈ blocks N, ∀ i < d.of a₁, ∀ j < d.of a₂,
      SignChanged (γ ^^ (α a₁ i ^^ α a₂ j)) (m.symElement N a₁ a₂ i j) (m'.symElement N a₁ a₂ i j))
    (reg reg' : Binary fmt → Nat → Binary fmt)
    (hreg : ∀ k ∈ positions d N, ∀ x x', SignChanged γ x x' → SignChanged γ (reg x k.2) (reg' x' k.2)) (method : Method)
    (f' : ArrowheadFactor (Binary fmt)) (h : f.factorize d.tridiag d.link d.outer m reg method = .ok f')
    (hpiv : ∀ a ∈ blocks N, ∀ i < d.of a, ¬ (f'.pivotAt a i).IsZero)
    (b b' : ArrowheadVector (Binary fmt)) (hb : b.OfSize d N) (hb' : b'.OfSize d N) (ε : Bool)
    (hw : ∀ a ∈ blocks N, ∀ i < d.of a, SignChanged (ε ^^ α a i) (b.at a i) (b'.at a i)) :
    ∃ g' x x', g.factorize d.tridiag d.link d.outer m' reg' method = .ok g' ∧ f'.solveInPlace b = .ok x ∧
      g'.solveInPlace b' = .ok x' ∧
      (∀ k ∈ positions d N, ∀ l ∈ positions d N, T.Has N k.1 k.2 l.1 l.2 →
        SignChanged (α k.1 (permAt (s.perm k.1) k.2) ^^ α l.1 (permAt (s.perm l.1) l.2)) (f'.storedAt N k l)
          (g'.storedAt N k l)) ∧
      (∀ a ∈ blocks N, ∀ i < d.of a, SignChanged γ (f'.pivotAt a i) (g'.pivotAt a i)) ∧
      ∀ a ∈ blocks N, ∀ i < d.of a, SignChanged (ε ^^ (γ ^^ α a i)) (x.at a i) (x'.at a i) := by
  obtain ⟨e, he⟩ := exists_position T d N
  have hT := hf.types
  have hP : ∀ i j, wholePattern T d N i j → j < i := fun i j h => whole_lt hs hT hsmall h
  have hplace : ∀ r < d.total N, ∃ k ∈ positions d N, d.place N k = r := fun r hr => exists_place hr T
  have hperm : ∀ a ∈ blocks N, ∀ {i}, i < d.of a → permAt (s.perm a) i < d.of a := fun a _ _ hi => (isPerm_of hs a).lt hi
  have hreg0 : ∀ (reg : Binary fmt → Nat → Binary fmt), ∀ k ∈ positions d N, ∀ x,
      (fun x r => reg x (e r).2) x (d.place N k) = reg x k.2 := by
    intro reg k hk x
    show reg x (e _).2 = _
    rw [he k hk]
  obtain ⟨f'', h1, A, L, D, a1, a2, a3, a4⟩ := C73_repeating s d hs T N hsmall f hf m hm reg (fun x r => reg x (e r).2)
    (hreg0 reg) method
  rw [h] at h1
  cases h1
  obtain ⟨g', h2, A', L', D', b1, b2, b3, b4⟩ := C73_repeating s d hs T N hsmall g hg m' hm' reg'
    (fun x r => reg' x (e r).2) (hreg0 reg') method
  obtain ⟨_, e1, hfd⟩ := C21_factorize_total s d hs T N f hf m hm reg method
  rw [h] at e1
  cases e1
  obtain ⟨_, e1, hgd⟩ := C21_factorize_total s d hs T N g hg m' hm' reg' method
  rw [h2] at e1
  cases e1
  have hpiv' : ∀ r < d.total N, ¬ (D r).IsZero := by
    intro r hr
    obtain ⟨k, hk, rfl⟩ := hplace r hr
    rw [a3 k hk]
    exact hpiv _ (mem_positions.mp hk).1 _ (mem_positions.mp hk).2
  have key : ∀ r < d.total N, (∀ c, wholePattern T d N r c →
      SignChanged (α (e r).1 (permAt (s.perm (e r).1) (e r).2) ^^ α (e c).1 (permAt (s.perm (e c).1) (e c).2)) (L r c)
        (L' r c)) ∧ SignChanged γ (D r) (D' r) := by
    have hA' : ∀ r < d.total N, ∀ c ≤ r, SignChanged (γ ^^ (α (e r).1 (permAt (s.perm (e r).1) (e r).2) ^^
        α (e c).1 (permAt (s.perm (e c).1) (e c).2))) (A r c) (A' r c) := by
      intro r hr c hc
      obtain ⟨k, hk, rfl⟩ := hplace r hr
      obtain ⟨l, hl, rfl⟩ := hplace c (by omega)
      rw [a1 k hk l hl, b1 k hk l hl, he k hk, he l hl]
      obtain ⟨k1, k2⟩ := mem_positions.mp hk
      obtain ⟨l1, l2⟩ := mem_positions.mp hl
      exact hA _ k1 _ l1 _ (hperm _ k1 k2) _ (hperm _ l1 l2)
    have hreg' : ∀ r < d.total N, ∀ x x', SignChanged γ x x' → SignChanged γ (reg x (e r).2) (reg' x' (e r).2) := by
      intro r hr
      obtain ⟨k, hk, rfl⟩ := hplace r hr
      rw [he k hk]
      exact hreg k hk
    cases method with
    | upLooking =>
      exact formulas_rel (Q := SignChanged) (nz := fun x => ¬ x.IsZero) SignChanged.sub SignChanged.mul SignChanged.div hP
        (upLooking_outer hP a4) (upLooking_outer hP b4) γ (fun r => α (e r).1 (permAt (s.perm (e r).1) (e r).2)) hA' hreg'
        hpiv'
    | entryWise =>
      exact formulas_rel (Q := SignChanged) (nz := fun x => ¬ x.IsZero) SignChanged.sub SignChanged.mul SignChanged.div hP
        a4 b4 γ (fun r => α (e r).1 (permAt (s.perm (e r).1) (e r).2)) hA' hreg' hpiv'
  have keyL : ∀ k ∈ positions d N, ∀ l ∈ positions d N, T.Has N k.1 k.2 l.1 l.2 →
      SignChanged (α k.1 (permAt (s.perm k.1) k.2) ^^ α l.1 (permAt (s.perm l.1) l.2)) (f'.storedAt N k l)
          (g'.storedAt N k l) := by
    intro k hk l hl hkl
    have := (key _ (place_lt hk T)).1 _ ⟨k, hk, l, hl, rfl, rfl, hkl⟩
    rwa [a2 k hk l hl, b2 k hk l hl, he k hk, he l hl] at this
  have keyD : ∀ k ∈ positions d N, SignChanged γ (f'.pivotAt k.1 k.2) (g'.pivotAt k.1 k.2) := by
    intro k hk
    have := (key _ (place_lt hk T)).2
    rwa [a3 k hk, b3 k hk] at this
  obtain ⟨x, h7, M, E, v, w, c1, c2, c3, c4, c5⟩ := C73_repeating_solve s d hs T N hsmall f' hfd b hb
  obtain ⟨x', h9, M', E', v', w', d1, d2, d3, d4, d5⟩ := C73_repeating_solve s d hs T N hsmall g' hgd b' hb'
  refine ⟨g', x, x', h2, h7, h9, keyL, fun a ha i hi => keyD ⟨a, i⟩ (mem_positions.mpr ⟨ha, hi⟩), fun a ha i hi => ?_⟩
  obtain ⟨q, hq, rfl⟩ := (isPerm_of hs a).surj hi
  have hk : (⟨a, q⟩ : Σ _ : Blk, Nat) ∈ positions d N := mem_positions.mpr ⟨ha, hq⟩
  have := solve_formulas_rel (Q := SignChanged) (nz := fun x => ¬ x.IsZero) SignChanged.sub SignChanged.mul SignChanged.div
    hP c5 d5 γ ε (fun r => α (e r).1 (permAt (s.perm (e r).1) (e r).2))
    (by
      rintro _ - _ ⟨k, hk, l, hl, rfl, rfl, hkl⟩
      rw [c1 k hk l hl, d1 k hk l hl, he k hk, he l hl]
      exact keyL k hk l hl hkl)
    (by
      intro r hr
      obtain ⟨k, hk, rfl⟩ := hplace r hr
      rw [c2 k hk, d2 k hk]
      exact keyD k hk)
    (by
      intro r hr
      obtain ⟨k, hk, rfl⟩ := hplace r hr
      rw [c2 k hk]
      exact hpiv _ (mem_positions.mp hk).1 _ (mem_positions.mp hk).2)
    (by
      intro r hr
      obtain ⟨k, hk, rfl⟩ := hplace r hr
      rw [c3 k hk, d3 k hk, he k hk]
      obtain ⟨k1, k2⟩ := mem_positions.mp hk
      exact hw _ k1 _ (hperm _ k1 k2)) _ (place_lt hk T)
  rwa [c4 _ hk, d4 _ hk, he _ hk] at this

/-- C80: the class for block tridiagonal matrices. -/
theorem C80_tridiagonal (spA spB : Sparsity) (p : List Nat) (n : Nat) (hv : ValidTridiagonal spA spB p n) (N : Nat)
    (hsmall : (N + 1) * n ≤ noParent) (f g : ArrowheadFactor (Binary fmt)) (T : ArrowheadTypes)
    (hf : TridiagonalDeclared f spA spB p T n N) (hg : TridiagonalDeclared g spA spB p T n N)
    (A B A' B' : List (MatIn (Binary fmt))) (hm : TridiagonalFits A B p T n N) (hm' : TridiagonalFits A' B' p T n N)
    (γ : Bool) (α : Nat → Nat → Bool)
    (hA : ∀ t < N + 1, ∀ u < N + 1, ∀ i < n, ∀ j < n,
      SignChanged (γ ^^ (α t i ^^ α u j)) (tridiagonalSym A B t u i j) (tridiagonalSym A' B' t u i j))
    (reg reg' : Binary fmt → Nat → Binary fmt)
    (hreg : ∀ i < n, ∀ x x', SignChanged γ x x' → SignChanged γ (reg x i) (reg' x' i)) (method : Method)
    (f' : ArrowheadFactor (Binary fmt)) (h : tridiagonalFactorize n f A B reg method = .ok f')
    (hpiv : ∀ t < N + 1, ∀ i < n, ¬ (f'.pivotAt (.tridiag t) i).IsZero)
    (b b' : List (List (Binary fmt))) (hb : BlockVector b n N) (hb' : BlockVector b' n N) (ε : Bool)
    (hw : ∀ t < N + 1, ∀ i < n, SignChanged (ε ^^ α t i) (blockAt b t i) (blockAt b' t i)) :
    ∃ g' x x', tridiagonalFactorize n g A' B' reg' method = .ok g' ∧ tridiagonalSolveInPlace f' b = .ok x ∧
      tridiagonalSolveInPlace g' b' = .ok x' ∧
      (∀ v < N + 1, ∀ u < N + 1, ∀ i < n, ∀ j < n, T.Has N (.tridiag v) i (.tridiag u) j →
        SignChanged (α v (permAt p i) ^^ α u (permAt p j)) (f'.storedAt N ⟨.tridiag v, i⟩ ⟨.tridiag u, j⟩)
          (g'.storedAt N ⟨.tridiag v, i⟩ ⟨.tridiag u, j⟩)) ∧
      (∀ v < N + 1, ∀ i < n, SignChanged γ (f'.pivotAt (.tridiag v) i) (g'.pivotAt (.tridiag v) i)) ∧
      ∀ v < N + 1, ∀ i < n, SignChanged (ε ^^ (γ ^^ α v i)) (blockAt x v i) (blockAt x' v i) := by
  have hd := declared_of hv hf
  have hd' := declared_of hv hg
  let β : Blk → Nat → Bool := fun a i => match a with
    | .tridiag t => α t i
    | _ => false
  have hA' : ∀ a₁ ∈ blocks N, ∀ a₂ ∈ blocks N, ∀ i < (⟨0, n, 0, 0⟩ : Dims).of a₁, ∀ j < (⟨0, n, 0, 0⟩ : Dims).of a₂,
      SignChanged (γ ^^ (β a₁ i ^^ β a₂ j)) ((tridiagonalMatrix n N A B).symElement N a₁ a₂ i j)
        ((tridiagonalMatrix n N A' B').symElement N a₁ a₂ i j) := by
    intro a₁ h1 a₂ h2 i hi j hj
    revert j
    refine blocks_cases (P := fun a₂ j => SignChanged (γ ^^ (β a₁ i ^^ β a₂ j))
      ((tridiagonalMatrix n N A B).symElement N a₁ a₂ i j) ((tridiagonalMatrix n N A' B').symElement N a₁ a₂ i j))
      (fun u hu j hj => ?_) a₂ h2
    refine blocks_cases (P := fun a₁ i => SignChanged (γ ^^ (β a₁ i ^^ β (.tridiag u) j))
      ((tridiagonalMatrix n N A B).symElement N a₁ (.tridiag u) i j)
      ((tridiagonalMatrix n N A' B').symElement N a₁ (.tridiag u) i j)) (fun t ht i hi => ?_) a₁ h1 i hi
    rw [symElement_eq hm.numB ht hu, symElement_eq hm'.numB ht hu]
    exact hA t ht u hu i hi j hj
  have hreg' : ∀ k ∈ positions ⟨0, n, 0, 0⟩ N, ∀ x x', SignChanged γ x x' →
      SignChanged γ (reg x k.2) (reg' x' k.2) := by
    rintro ⟨a, i⟩ hk
    obtain ⟨ha, hi⟩ := mem_positions.mp hk
    exact blocks_cases (P := fun a i => ∀ x x', SignChanged γ x x' → SignChanged γ (reg x i) (reg' x' i))
      (fun t ht i hi => hreg i hi) a ha i hi
  have solved : ∀ {t : ArrowheadFactor (Binary fmt)} {b : List (List (Binary fmt))} {y : ArrowheadVector (Binary fmt)},
      t.solveInPlace ⟨[], b, [], []⟩ = .ok y → tridiagonalSolveInPlace t b = .ok y.tridiag := by
    intro t b y hy
    unfold tridiagonalSolveInPlace
    rw [hy]
    rfl
  have pos : ∀ {v i}, v < N + 1 → i < n → (⟨.tridiag v, i⟩ : Σ _ : Blk, Nat) ∈ positions ⟨0, n, 0, 0⟩ N :=
    fun hv hi => mem_positions.mpr ⟨tridiag_mem hv, hi⟩
  rw [factorize_eq hd] at h
  obtain ⟨g', x, x', h1, h2, h3, h4, h5, h6⟩ := C80_repeating _ _ (emptied_valid hv) T N
    (by simp only [Dims.total]; omega) f g hd hd' _ _ (fits_of hm) (fits_of hm') γ β hA' reg reg' hreg' method f' h
    (blocks_cases fun t ht i hi => hpiv t ht i hi) _ _ (vector_of hb) (vector_of hb') ε
    (blocks_cases fun t ht i hi => hw t ht i hi)
  refine ⟨g', x.tridiag, x'.tridiag, ?_, solved h2, solved h3,
    fun v hv u hu i hi j hj => h4 _ (pos hv hi) _ (pos hu hj), fun v hv i hi => h5 _ (tridiag_mem hv) i hi,
    fun v hv i hi => h6 _ (tridiag_mem hv) i hi⟩
  rw [factorize_eq hd']
  exact h1

/-! ### Regularization -/

private theorem changed_abs {γ : Bool} {x x' : Binary fmt} (h : SignChanged γ x x') : SignChanged false x.abs x'.abs := by
  cases h with
  | zero t t' => exact .zero false false
  | num hx hr hy hs h => exact .num _ _ _ _ (by rw [h]; cases γ <;> simp)
  | inf t => exact .inf false
  | nan => exact .nan

private theorem changed_lt {a a' b b' : Binary fmt} (ha : SignChanged false a a') (hb : SignChanged false b b') :
    a' < b' ↔ a < b := by
  change Binary.lt a' b' = true ↔ Binary.lt a b = true
  have rat : ∀ {a a' : Binary fmt}, SignChanged false a a' → a'.toRat = a.toRat := by
    intro a a' h
    cases h with
    | num hx hr hy hs h => exact h
    | _ => rfl
  have h1 := rat ha
  have h2 := rat hb
  cases ha <;> cases hb <;> simp only [Binary.lt, decide_eq_true_eq, h1, h2, Bool.xor_false]

/-- C80: the condition on regularizations holds for the replacement of small pivots, if the sign of the constant is
changed as well when that of the whole matrix is changed. -/
theorem C80_small_constant {γ : Bool} {tol tol' const const' : Binary fmt} (ht : SignChanged false tol tol')
    (hc : SignChanged γ const const') (x x' : Binary fmt) (h : SignChanged γ x x') (i : Nat) :
    SignChanged γ (regularizationSmallPositiveConstant Binary.abs tol const x i)
      (regularizationSmallPositiveConstant Binary.abs tol' const' x' i) := by
  unfold regularizationSmallPositiveConstant
  by_cases hlt : x.abs < tol
  · rw [if_pos hlt, if_pos ((changed_lt (changed_abs h) ht).mpr hlt)]
    exact hc
  · rw [if_neg hlt, if_neg (fun h' => hlt ((changed_lt (changed_abs h) ht).mp h'))]
    exact h

/-! ### The hypotheses can be met, and are needed -/

/-- Witness: the rows and columns of which the sign is changed. -/
def signsOf (i : Nat) : Bool := [true, false, true].getD i false

/-- Change the signs of elements of a matrix. -/
def flipMat (w : Nat → Nat → Bool) (m : MatIn ℚ) : MatIn ℚ :=
  { m with values := List.zipWith (fun e x => if w e.row e.col then -x else x) m.sparsity.entries m.values }

/-- Witness: a matrix with signs changed. -/
def signM (w : Nat → Nat → Bool) : MatIn Double := (flipMat w witnessM).map (Binary.ofRat .binary64 false)

theorem signM_fits (w : Nat → Nat → Bool) : (signM w).Fits witnessS [0, 2, 1] :=
  ⟨rfl, witness_valid.inRange, rfl, rfl, fun _ _ h => .base h h.1⟩

/-- Witness: a right-hand side with signs changed. -/
def signB (w : Nat → Bool) : List Double :=
  [1, 1 / 3, 7].mapIdx fun i x => Binary.ofRat .binary64 false (if w i then -x else x)

/-- Whether the factor has no zero pivot. -/
def pivotsRun (m : MatIn Double) (reg : Double → Nat → Double) (method : Method) : Res Bool := do
  let f ← scalingF.factorize m reg method
  return decide (∀ i ∈ List.range 3, ¬ (f.pivot i).IsZero)

/-- The solution for the matrix with signs changed is the solution with signs changed. -/
example (γ ε : Bool) (method : Method) : ∃ f x f' x',
    scalingF.factorize (signM fun _ _ => false) regularizationNone method = .ok f ∧
    f.solveInPlace (signB fun _ => false) = .ok x ∧
    scalingF.factorize (signM fun i j => γ ^^ (signsOf i ^^ signsOf j)) regularizationNone method = .ok f' ∧
    f'.solveInPlace (signB fun i => ε ^^ signsOf i) = .ok x' ∧
    ∀ i < 3, SignChanged (ε ^^ (γ ^^ signsOf i)) (x.getD i 0) (x'.getD i 0) := by
  have e1 : pivotsRun (signM fun _ _ => false) regularizationNone method = .ok true := by
    cases method <;> decide +kernel
  obtain ⟨f, h1, e1⟩ := bind_eq_ok.mp e1
  obtain ⟨g, x, x', h2, h3, h4, -, -, h5⟩ := C80_single witnessS [0, 2, 1] witness_valid scalingF scalingF scalingF_declared
    scalingF_declared _ _ (signM_fits fun _ _ => false) (signM_fits fun i j => γ ^^ (signsOf i ^^ signsOf j)) γ signsOf
    (by revert γ; decide +kernel) regularizationNone regularizationNone (fun _ _ _ _ h => h) method f h1
    (fun i hi => of_decide_eq_true (Except.ok.inj e1) i (List.mem_range.mpr hi)) (signB fun _ => false) (signB fun i => ε ^^ signsOf i) rfl rfl ε
    (by revert ε; decide +kernel)
  exact ⟨f, x, g, x', h1, h3, h2, h4, h5⟩

/-- Witness: the matrix with all elements one, of size two, or its negative. -/
def onesM (γ : Bool) : MatIn Double :=
  ⟨⟨2, 2, [⟨0, 0⟩, ⟨1, 0⟩, ⟨1, 1⟩]⟩, List.replicate 3 (Binary.ofRat .binary64 false (if γ then -1 else 1))⟩

/-- Whether the elements of the solution of the second system are those of the first, with signs as given by `s`. -/
def signCheck (s : Sparsity) (p : List Nat) (m m' : MatIn Double) (b : List Double) (reg : Double → Nat → Double)
    (γ : Bool) : Res (List Bool) := do
  let c ← factorizationSparsity s p
  let f₀ : DiagFactor Double := ⟨c, p, List.replicate c.entries.length 0, List.replicate s.numRows 0⟩
  let f ← f₀.factorize m reg .upLooking
  let x ← f.solveInPlace b
  let f' ← f₀.factorize m' reg .upLooking
  let x' ← f'.solveInPlace b
  return (List.range s.numRows).map fun i => decide (SignChanged γ (x.getD i 0) (x'.getD i 0))

/-- Nonzero pivots are needed: for the singular matrix of ones, the last pivot is a positive zero in both cases, and the
solutions are infinities of the same sign instead of opposite ones. -/
theorem C80_nonzero_needed :
    (∀ i < 2, ∀ j < 2, SignChanged true ((onesM false).sym i j) ((onesM true).sym i j)) ∧
    signCheck (onesM false).sparsity [0, 1] (onesM false) (onesM true)
      [Binary.ofRat .binary64 false 0, Binary.ofRat .binary64 false 1] regularizationNone true = .ok [false, false] := by
  decide +kernel

/-- The regularization of small pivots with a positive constant does not meet the condition if the sign of the whole
matrix is changed: the pivots which are replaced keep their sign. -/
theorem C80_positive_constant :
    signCheck (onesM false).sparsity [0, 1] (onesM false) (onesM true)
      [Binary.ofRat .binary64 false 0, Binary.ofRat .binary64 false 1]
      (regularizationSmallPositiveConstant Binary.abs (Binary.ofRat .binary64 false (2 ^ (-33 : Int)))
        (Binary.ofRat .binary64 false (2 ^ (-26 : Int)))) true = .ok [false, false] := by
  decide +kernel

/-- Witness: rows of a repeating block matrix of which the sign is changed. -/
def arrowSigns : Blk → Nat → Bool
  | .start, _ => true
  | .tridiag t, i => decide ((t + i) % 2 = 1)
  | .link, _ => false
  | .outer, _ => true

/-- Witness: the matrix of C29 with signs changed. -/
def arrowFlipped (w : Blk → Nat → Blk → Nat → Bool) : ArrowheadMatrix Double :=
  let at' (a b : Blk) (m : MatIn ℚ) : MatIn ℚ := flipMat (fun i j => w a i b j) m
  ({ startDiag := at' .start .start arrowM.startDiag
     startNext := at' (.tridiag 0) .start arrowM.startNext
     startOuter := at' .outer .start arrowM.startOuter
     tridiagDiag := arrowM.tridiagDiag.mapIdx fun t m => at' (.tridiag t) (.tridiag t) m
     tridiagSubdiag := arrowM.tridiagSubdiag.mapIdx fun t m => at' (.tridiag (t + 1)) (.tridiag t) m
     linkPrev := at' .link (.tridiag 1) arrowM.linkPrev
     linkDiag := at' .link .link arrowM.linkDiag
     linkNext := at' .outer .link arrowM.linkNext
     outerSubdiag := arrowM.outerSubdiag.mapIdx fun t m => at' .outer (.tridiag t) m
     outerDiag := at' .outer .outer arrowM.outerDiag } : ArrowheadMatrix ℚ).map (Binary.ofRat .binary64 false)

theorem arrowFlipped_fits (w : Blk → Nat → Blk → Nat → Bool) {T : ArrowheadTypes} (hT : arrowheadTypes arrowS = .ok T) :
    (arrowFlipped w).Fits arrowS T arrowD 1 :=
  ArrowheadMatrix.Fits.of_map (g := fun _ => ()) (by
    rw [show (arrowFlipped w).map (fun _ => ()) = arrowM.map (fun _ => ()) from rfl]; exact (arrowM_fits hT).map _)

/-- Witness: a right-hand side with signs changed. -/
def arrowFlippedB (w : Blk → Nat → Bool) : ArrowheadVector Double :=
  let at' (a : Blk) (l : List ℚ) : List ℚ := l.mapIdx fun i x => if w a i then -x else x
  (⟨at' .start [1], [[-2, 1], [4, 7]].mapIdx fun t l => at' (.tridiag t) l, at' .link [3], at' .outer [5]⟩ :
    ArrowheadVector ℚ).map (Binary.ofRat .binary64 false)

/-- Whether the factor of the repeating block matrix has no zero pivot. -/
def arrowPivotsRun : Res Bool := do
  let T ← arrowheadTypes arrowS
  let f ← (freshFactor arrowS T arrowD 1 (0 : Double)).factorize 2 1 1 (arrowFlipped fun _ _ _ _ => false)
    regularizationNone .entryWise
  return decide (∀ a ∈ blocks 1, ∀ i ∈ List.range (arrowD.of a), ¬ (f.pivotAt a i).IsZero)

/-- The solution for the repeating block matrix with signs changed is the solution with signs changed. -/
example : ∃ T f x f' x', (freshFactor arrowS T arrowD 1 (0 : Double)).Declared arrowS T arrowD 1 ∧
    (freshFactor arrowS T arrowD 1 (0 : Double)).factorize 2 1 1 (arrowFlipped fun _ _ _ _ => false) regularizationNone
      .entryWise = .ok f ∧
    f.solveInPlace (arrowFlippedB fun _ _ => false) = .ok x ∧
    (freshFactor arrowS T arrowD 1 (0 : Double)).factorize 2 1 1
      (arrowFlipped fun a i b j => true ^^ (arrowSigns a i ^^ arrowSigns b j)) regularizationNone .entryWise = .ok f' ∧
    f'.solveInPlace (arrowFlippedB fun a i => false ^^ arrowSigns a i) = .ok x' ∧
    ∀ a ∈ blocks 1, ∀ i < arrowD.of a, SignChanged (false ^^ (true ^^ arrowSigns a i)) (x.at a i) (x'.at a i) := by
  have e1 : arrowPivotsRun = .ok true := by decide +kernel
  unfold arrowPivotsRun at e1
  obtain ⟨T, hT, e1⟩ := bind_eq_ok.mp e1
  obtain ⟨f, h1, e1⟩ := bind_eq_ok.mp e1
  have hF := C21_constructible arrowS arrowD T hT 1 (0 : Double)
  obtain ⟨g, x, x', h2, h3, h4, -, -, h5⟩ := C80_repeating arrowS arrowD arrowS_valid T 1 (by decide) _ _ hF hF _ _
    (arrowFlipped_fits (fun _ _ _ _ => false) hT)
    (arrowFlipped_fits (fun a i b j => true ^^ (arrowSigns a i ^^ arrowSigns b j)) hT) true arrowSigns (by decide +kernel)
    regularizationNone regularizationNone (fun _ _ _ _ h => h) .entryWise f h1
    (fun a ha i hi => of_decide_eq_true (Except.ok.inj e1) a ha i (List.mem_range.mpr hi))
    (arrowFlippedB fun _ _ => false) (arrowFlippedB fun a i => false ^^ arrowSigns a i)
    (by constructor <;> decide +kernel) (by constructor <;> decide +kernel) false (by decide +kernel)
  exact ⟨T, f, x, g, x', hF, h1, h3, h2, h4, h5⟩

/-- Witness: rows of a block tridiagonal matrix of which the sign is changed. -/
def tridiagSigns (t i : Nat) : Bool := decide ((t + 2 * i) % 3 = 1)

/-- Witness: blocks of a block tridiagonal matrix with signs changed. -/
def tridiagFlipped (k : Nat) (w : Nat → Nat → Nat → Nat → Bool) (A : List (MatIn ℚ)) : List (MatIn Double) :=
  A.mapIdx fun t q => (flipMat (fun i j => w (t + k) i t j) q).map (Binary.ofRat .binary64 false)

def tridiagFlippedB (w : Nat → Nat → Bool) : List (List Double) :=
  [[1, 2], [3, 4], [5, 7]].mapIdx fun t l => l.mapIdx fun i x => Binary.ofRat .binary64 false (if w t i then -x else x)

theorem tridiagFlipped_fits (w : Nat → Nat → Nat → Nat → Bool) {f : ArrowheadFactor Double} {T : ArrowheadTypes}
    (hf : TridiagonalDeclared f tridiagA tridiagB [1, 0] T 2 2) :
    TridiagonalFits (tridiagFlipped 0 w tridiagValuesA) (tridiagFlipped 1 w tridiagValuesB) [1, 0] T 2 2 :=
  C37_declared_fits tridiagA tridiagB [1, 0] 2 tridiag_valid 2 f T hf _ _ le_rfl le_rfl
    (fun t ht => by rcases t with _ | _ | _ | t <;> first | exact ⟨rfl, rfl⟩ | omega)
    (fun t ht => by rcases t with _ | _ | t <;> first | exact ⟨rfl, rfl⟩ | omega)

/-- Whether the factor of the block tridiagonal matrix has no zero pivot. -/
def tridiagPivotsRun : Res Bool := do
  let s ← tridiagonalSparsity tridiagA tridiagB [1, 0]
  let T ← arrowheadTypes s
  let f ← tridiagonalFactorize 2 (freshFactor s T ⟨0, 2, 0, 0⟩ 2 (0 : Double))
    (tridiagFlipped 0 (fun _ _ _ _ => false) tridiagValuesA) (tridiagFlipped 1 (fun _ _ _ _ => false) tridiagValuesB)
    regularizationNone .upLooking
  return decide (∀ t < 2 + 1, ∀ i ∈ List.range 2, ¬ (f.pivotAt (.tridiag t) i).IsZero)

/-- The solution for the block tridiagonal matrix with signs changed is the solution with signs changed. -/
example : ∃ f₀ T f x f' x', TridiagonalDeclared f₀ tridiagA tridiagB [1, 0] T 2 2 ∧
    tridiagonalFactorize 2 f₀ (tridiagFlipped 0 (fun _ _ _ _ => false) tridiagValuesA)
      (tridiagFlipped 1 (fun _ _ _ _ => false) tridiagValuesB) regularizationNone .upLooking = .ok f ∧
    tridiagonalSolveInPlace f (tridiagFlippedB fun _ _ => false) = .ok x ∧
    tridiagonalFactorize 2 f₀
      (tridiagFlipped 0 (fun t i u j => true ^^ (tridiagSigns t i ^^ tridiagSigns u j)) tridiagValuesA)
      (tridiagFlipped 1 (fun t i u j => true ^^ (tridiagSigns t i ^^ tridiagSigns u j)) tridiagValuesB)
      regularizationNone .upLooking = .ok f' ∧
    tridiagonalSolveInPlace f' (tridiagFlippedB fun t i => true ^^ tridiagSigns t i) = .ok x' ∧
    ∀ t < 2 + 1, ∀ i < 2, SignChanged (true ^^ (true ^^ tridiagSigns t i)) (blockAt x t i) (blockAt x' t i) := by
  have e1 : tridiagPivotsRun = .ok true := by decide +kernel
  unfold tridiagPivotsRun at e1
  obtain ⟨s, hs, e1⟩ := bind_eq_ok.mp e1
  obtain ⟨T, hT, e1⟩ := bind_eq_ok.mp e1
  obtain ⟨f, h1, e1⟩ := bind_eq_ok.mp e1
  have hF : TridiagonalDeclared (freshFactor s T ⟨0, 2, 0, 0⟩ 2 (0 : Double)) tridiagA tridiagB [1, 0] T 2 2 :=
    ⟨s, hs, C21_constructible s _ T hT 2 0⟩
  obtain ⟨g, x, x', h2, h3, h4, -, -, h5⟩ := C80_tridiagonal tridiagA tridiagB [1, 0] 2 tridiag_valid 2 (by decide) _ _ T
    hF hF _ _ _ _ (tridiagFlipped_fits (fun _ _ _ _ => false) hF)
    (tridiagFlipped_fits (fun t i u j => true ^^ (tridiagSigns t i ^^ tridiagSigns u j)) hF) true tridiagSigns
    (by decide +kernel) regularizationNone regularizationNone (fun _ _ _ _ h => h) .upLooking f h1
    (fun t ht i hi => of_decide_eq_true (Except.ok.inj e1) t ht i (List.mem_range.mpr hi))
    (tridiagFlippedB fun _ _ => false) (tridiagFlippedB fun t i => true ^^ tridiagSigns t i)
    (by constructor <;> decide +kernel) (by constructor <;> decide +kernel) true (by decide +kernel)
  exact ⟨_, T, f, x, g, x', hF, h1, h3, h2, h4, h5⟩

end Ctldl
