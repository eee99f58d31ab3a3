import Verif.Lemmas.ComparisonFactor
import Verif.Lemmas.Parts
import Verif.Props.Superset

/-! # C87: matrices without positive entries off the diagonal

Rounding is monotone, so that signs and comparisons which hold for the exact results of such matrices also hold for the
computed results, without any tolerance. The comparisons are those of floating point numbers, hence say nothing about
values which are not numbers; no value has to be finite. -/

namespace Ctldl

variable {K : Type}

private theorem fillBelow {s : Sparsity} {p : List Nat} : ∀ i j, Fill (LowerPermuted s p) i j → j < i := fun _ _ h => h.lt

private theorem permAt_ne {p : List Nat} {n : Nat} (hp : IsPerm p n) {i j : Nat} (hi : i < n) (hji : j < i) :
    permAt p i ≠ permAt p j := fun h => hji.ne' (hp.inj hi (hji.trans hi) h)

private theorem asMixed [Sub K] [Mul K] [Div K] {P : Nat → Nat → Prop} {n : Nat} (hP : ∀ i j, P i j → j < i)
    {A L : Nat → Nat → K} {D : Nat → K} {reg : K → Nat → K} {method : Method} (h : FactorFormulas method P n A L D reg) :
    ∃ c o, EntryWiseOuterFormulas P n c o A L D reg := by
  cases method with
  | upLooking => exact ⟨_, _, upLooking_mixed hP h⟩
  | entryWise => exact ⟨_, _, entryWise_mixed h⟩

/-- In exact arithmetic all methods compute the same. -/
private theorem exact_upLooking [Field K] {P : Nat → Nat → Prop} {n c o : Nat} (hP : ∀ i j, P i j → j < i)
    {A L : Nat → Nat → K} {D : Nat → K} {reg : K → Nat → K} (h : EntryWiseOuterFormulas P n c o A L D reg) :
    UpLookingFormulas P n A L D reg := by
  intro i hi
  obtain ⟨w, h1, h2, h3⟩ := h i hi
  refine ⟨w, fun j hj => ?_, h2, ?_⟩
  · rw [h1 j hj]
    congr 1
    refine List.map_congr_left fun k hk => ?_
    have hk' : k < j ∧ P i k ∧ P j k := by simpa [commonEntriesOf] using hk
    split
    · rfl
    · obtain ⟨v, -, e2, -⟩ := h j ((hP i j hj).trans hi)
      by_cases hD : D k = 0
      · rw [h2 k hk'.2.1, e2 k hk'.2.2, hD]
        simp
      · rw [h2 k hk'.2.1]
        field_simp
  · rw [h3]
    congr 2
    refine List.map_congr_left fun k hk => ?_
    have hk' : k < i ∧ P i k := by simpa [rowEntriesOf] using hk
    split
    · rfl
    · rw [h2 k hk'.2]
      by_cases hD : D k = 0
      · rw [hD]
        simp
      · field_simp

section

variable [Zero K] [Sub K] [Mul K] [Div K] {Le : K → K → Prop} {S Dv : K → Prop}

private theorem single_signs (h : OrderRules Le S Dv) {s : Sparsity} {p : List Nat} (hv : ValidSparsity s p) {f : DiagFactor K}
    (hf : f.Declared s p) {m : MatIn K} (hm : m.Fits s p)
    (hoff : ∀ i < s.numRows, ∀ j < s.numRows, i ≠ j → Le (m.sym i j) 0) {reg : K → Nat → K} {method : Method}
    {g : DiagFactor K} (hg : f.factorize m reg method = .ok g) (hpiv : ∀ i < s.numRows, Dv (g.pivot i)) :
    (∀ i < s.numRows, ∀ j < s.numRows, Le (g.lower i j) 0) ∧
    (∀ b : List K, b.length = s.numRows → (∀ i < s.numRows, Le 0 (b.getD i 0)) →
      ∃ x, g.solveInPlace b = .ok x ∧ ∀ i < s.numRows, Le 0 (x.getD i 0)) ∧
    ∀ b b' : List K, b.length = s.numRows → b'.length = s.numRows → (∀ i < s.numRows, Le (b.getD i 0) (b'.getD i 0)) →
      ∃ x x', g.solveInPlace b = .ok x ∧ g.solveInPlace b' = .ok x' ∧ ∀ i < s.numRows, Le (x.getD i 0) (x'.getD i 0) := by
  obtain ⟨g0, h0, hF, hz⟩ := C73_factor s p hv f hf m hm reg method
  obtain rfl : g = g0 := Except.ok.inj (hg.symm.trans h0)
  obtain ⟨g0, h1, hgd⟩ := C25_factorize_total s p hv f hf m hm reg method
  obtain rfl : g = g0 := Except.ok.inj (hg.symm.trans h1)
  obtain ⟨c, o, hM⟩ := asMixed fillBelow hF
  have hp := hv.perm
  have hL := h.signs fillBelow hM (fun i hi j hij => hoff _ (hp.lt hi) _ (hp.lt (hij.lt.trans hi)) (permAt_ne hp hi hij.lt)) hpiv
  refine ⟨fun i hi j _ => ?_, fun b hb hn => ?_, fun b b' hb hb' hle => ?_⟩
  · by_cases hij : Fill (LowerPermuted s p) i j
    · exact hL i hi j hij
    · rw [hz i j hij]
      exact h.zeroRefl
  · obtain ⟨x, h2, -, hx⟩ := C73_solve s p hv g hgd b hb
    refine ⟨x, h2, fun i hi => ?_⟩
    obtain ⟨k, hk, rfl⟩ := hp.surj hi
    exact h.solve_signs fillBelow hx hL hpiv (fun i hi => hn _ (hp.lt hi)) k hk
  · obtain ⟨x, h2, -, hx⟩ := C73_solve s p hv g hgd b hb
    obtain ⟨x', h2', -, hx'⟩ := C73_solve s p hv g hgd b' hb'
    refine ⟨x, x', h2, h2', fun i hi => ?_⟩
    obtain ⟨k, hk, rfl⟩ := hp.surj hi
    exact h.solve_mono fillBelow hx hx' hL hpiv (fun i hi => hle _ (hp.lt hi)) k hk

private theorem single_comparison (h : OrderRules Le S Dv) {s : Sparsity} {p : List Nat} (hv : ValidSparsity s p)
    {f f' : DiagFactor K} (hf : f.Declared s p) (hf' : f'.Declared s p) {m m' : MatIn K} (hm : m.Fits s p) (hm' : m'.Fits s p)
    (hle : ∀ i < s.numRows, ∀ j < s.numRows, Le (m.sym i j) (m'.sym i j))
    (hoff : ∀ i < s.numRows, ∀ j < s.numRows, i ≠ j → Le (m.sym i j) 0 ∧ Le (m'.sym i j) 0) {reg reg' : K → Nat → K}
    (hreg : ∀ i < s.numRows, ∀ x x', Le x x' → Le (reg x i) (reg' x' i)) {method method' : Method}
    (hup : ∀ {method A L D reg}, FactorFormulas method (Fill (LowerPermuted s p)) s.numRows A L D reg →
      (method = Method.upLooking ∨ method = method') → UpLookingFormulas (K := K) (Fill (LowerPermuted s p)) s.numRows A L D reg)
    (hmethod : method = Method.upLooking ∨ method = method')
    {g g' : DiagFactor K} (hg : f.factorize m reg method = .ok g) (hg' : f'.factorize m' reg' method = .ok g')
    (hpiv : ∀ i < s.numRows, S (g.pivot i)) :
    (∀ i < s.numRows, ∀ j < s.numRows, Le (g.lower i j) (g'.lower i j)) ∧
    (∀ i < s.numRows, Le (g.pivot i) (g'.pivot i) ∧ Dv (g'.pivot i)) ∧
    ∀ b b' : List K, b.length = s.numRows → b'.length = s.numRows →
      (∀ i < s.numRows, Le 0 (b.getD i 0) ∧ Le 0 (b'.getD i 0) ∧ Le (b'.getD i 0) (b.getD i 0)) →
      ∃ x x', g.solveInPlace b = .ok x ∧ g'.solveInPlace b' = .ok x' ∧ ∀ i < s.numRows, Le (x'.getD i 0) (x.getD i 0) := by
  obtain ⟨g0, h0, hF, hz⟩ := C73_factor s p hv f hf m hm reg method
  obtain rfl : g = g0 := Except.ok.inj (hg.symm.trans h0)
  obtain ⟨g0, h1, hgd⟩ := C25_factorize_total s p hv f hf m hm reg method
  obtain rfl : g = g0 := Except.ok.inj (hg.symm.trans h1)
  obtain ⟨g0, h0', hF', hz'⟩ := C73_factor s p hv f' hf' m' hm' reg' method
  obtain rfl : g' = g0 := Except.ok.inj (hg'.symm.trans h0')
  obtain ⟨g0, h1', hgd'⟩ := C25_factorize_total s p hv f' hf' m' hm' reg' method
  obtain rfl : g' = g0 := Except.ok.inj (hg'.symm.trans h1')
  have hp := hv.perm
  have hoff' : ∀ i < s.numRows, ∀ j, Fill (LowerPermuted s p) i j → Le (m.sym (permAt p i) (permAt p j)) 0 ∧
      Le (m'.sym (permAt p i) (permAt p j)) 0 := fun i hi j hij =>
    hoff _ (hp.lt hi) _ (hp.lt (hij.lt.trans hi)) (permAt_ne hp hi hij.lt)
  have key := h.factor_mono fillBelow (hup hF hmethod) (hup hF' hmethod)
    (fun i hi j hij => hle _ (hp.lt hi) _ (hp.lt (hij.lt.trans hi))) (fun i hi => hle _ (hp.lt hi) _ (hp.lt hi))
    (fun i hi j hij => (hoff' i hi j hij).1) (fun i hi j hij => (hoff' i hi j hij).2) hreg hpiv
  refine ⟨fun i hi j _ => ?_, fun i hi => (key i hi).2, fun b b' hb hb' hbb => ?_⟩
  · by_cases hij : Fill (LowerPermuted s p) i j
    · exact ((key i hi).1 j hij).2.2
    · rw [hz i j hij, hz' i j hij]
      exact h.zeroRefl
  · obtain ⟨x, h2, -, hx⟩ := C73_solve s p hv g hgd b hb
    obtain ⟨x', h2', -, hx'⟩ := C73_solve s p hv g' hgd' b' hb'
    refine ⟨x, x', h2, h2', fun i hi => ?_⟩
    obtain ⟨k, hk, rfl⟩ := hp.surj hi
    exact (h.solve_anti fillBelow hx hx' (fun i hi j hij => (key i hi).1 j hij)
      (fun i hi => ⟨h.pos (hpiv i hi), (key i hi).2.2, (key i hi).2.1⟩) (fun i hi => hbb _ (hp.lt hi)) k hk).2.2

end

/-- C87: a matrix without positive entries off the diagonal, factorized by any method with positive pivots. The factor has no
positive entries; a right-hand side without negative elements has a solution without negative elements; increasing any elements
of the right-hand side decreases no element of the solution. -/
theorem C87_signs {fmt : Format} (s : Sparsity) (p : List Nat) (hv : ValidSparsity s p) (f : DiagFactor (Binary fmt))
    (hf : f.Declared s p) (m : MatIn (Binary fmt)) (hm : m.Fits s p)
    (hoff : ∀ i < s.numRows, ∀ j < s.numRows, i ≠ j → ¬ 0 < m.sym i j) (reg : Binary fmt → Nat → Binary fmt) (method : Method)
    (g : DiagFactor (Binary fmt)) (hg : f.factorize m reg method = .ok g) (hpiv : ∀ i < s.numRows, 0 < g.pivot i) :
    (∀ i < s.numRows, ∀ j < s.numRows, ¬ 0 < g.lower i j) ∧
    (∀ b : List (Binary fmt), b.length = s.numRows → (∀ i < s.numRows, ¬ b.getD i 0 < 0) →
      ∃ x, g.solveInPlace b = .ok x ∧ ∀ i < s.numRows, ¬ x.getD i 0 < 0) ∧
    ∀ b b' : List (Binary fmt), b.length = s.numRows → b'.length = s.numRows →
      (∀ i < s.numRows, ¬ b'.getD i 0 < b.getD i 0) →
      ∃ x x', g.solveInPlace b = .ok x ∧ g.solveInPlace b' = .ok x' ∧ ∀ i < s.numRows, ¬ x'.getD i 0 < x.getD i 0 :=
  single_signs .binary hv hf hm hoff hg fun i hi => Binary.notBelow_of_lt (hpiv i hi)

/-- C87: exact arithmetic. -/
theorem C87_signs_exact [Field K] [LinearOrder K] [IsStrictOrderedRing K] (s : Sparsity) (p : List Nat)
    (hv : ValidSparsity s p) (f : DiagFactor K) (hf : f.Declared s p) (m : MatIn K) (hm : m.Fits s p)
    (hoff : ∀ i < s.numRows, ∀ j < s.numRows, i ≠ j → m.sym i j ≤ 0) (reg : K → Nat → K) (method : Method)
    (g : DiagFactor K) (hg : f.factorize m reg method = .ok g) (hpiv : ∀ i < s.numRows, 0 < g.pivot i) :
    (∀ i < s.numRows, ∀ j < s.numRows, g.lower i j ≤ 0) ∧
    (∀ b : List K, b.length = s.numRows → (∀ i < s.numRows, 0 ≤ b.getD i 0) →
      ∃ x, g.solveInPlace b = .ok x ∧ ∀ i < s.numRows, 0 ≤ x.getD i 0) ∧
    ∀ b b' : List K, b.length = s.numRows → b'.length = s.numRows → (∀ i < s.numRows, b.getD i 0 ≤ b'.getD i 0) →
      ∃ x x', g.solveInPlace b = .ok x ∧ g.solveInPlace b' = .ok x' ∧ ∀ i < s.numRows, x.getD i 0 ≤ x'.getD i 0 :=
  single_signs .field hv hf hm hoff hg hpiv

/-- C87: two matrices of the same pattern without positive entries off the diagonal, both factorized up-looking, the
first one with positive pivots. If no entry of the second matrix is smaller, then no entry of its factor and no pivot is smaller.
If moreover no element of its right-hand side is negative or greater, then no element of its solution is greater. -/
theorem C87_comparison {fmt : Format} (s : Sparsity) (p : List Nat) (hv : ValidSparsity s p) (f f' : DiagFactor (Binary fmt))
    (hf : f.Declared s p) (hf' : f'.Declared s p) (m m' : MatIn (Binary fmt)) (hm : m.Fits s p) (hm' : m'.Fits s p)
    (hle : ∀ i < s.numRows, ∀ j < s.numRows, ¬ m'.sym i j < m.sym i j)
    (hoff : ∀ i < s.numRows, ∀ j < s.numRows, i ≠ j → ¬ 0 < m.sym i j ∧ ¬ 0 < m'.sym i j)
    (reg reg' : Binary fmt → Nat → Binary fmt) (hreg : ∀ i < s.numRows, ∀ x x', ¬ x' < x → ¬ reg' x' i < reg x i)
    (g g' : DiagFactor (Binary fmt)) (hg : f.factorize m reg .upLooking = .ok g)
    (hg' : f'.factorize m' reg' .upLooking = .ok g') (hpiv : ∀ i < s.numRows, 0 < g.pivot i) :
    (∀ i < s.numRows, ∀ j < s.numRows, ¬ g'.lower i j < g.lower i j) ∧
    (∀ i < s.numRows, ¬ g'.pivot i < g.pivot i ∧ (0 < g'.pivot i ∨ g'.pivot i = .nan)) ∧
    ∀ b b' : List (Binary fmt), b.length = s.numRows → b'.length = s.numRows →
      (∀ i < s.numRows, ¬ b.getD i 0 < 0 ∧ ¬ b'.getD i 0 < 0 ∧ ¬ b.getD i 0 < b'.getD i 0) →
      ∃ x x', g.solveInPlace b = .ok x ∧ g'.solveInPlace b' = .ok x' ∧ ∀ i < s.numRows, ¬ x.getD i 0 < x'.getD i 0 := by
  have := single_comparison .binary hv hf hf' hm hm' hle hoff hreg (method' := .upLooking)
    (fun {method A L D reg} h hm => by
      obtain rfl : method = .upLooking := hm.elim id id
      exact h) (.inl rfl) hg hg' hpiv
  exact ⟨this.1, fun i hi => ⟨(this.2.1 i hi).1, Binary.notBelow_iff.mp (this.2.1 i hi).2⟩, this.2.2⟩

/-- C87: exact arithmetic, any method. -/
theorem C87_comparison_exact [Field K] [LinearOrder K] [IsStrictOrderedRing K] (s : Sparsity) (p : List Nat)
    (hv : ValidSparsity s p) (f f' : DiagFactor K) (hf : f.Declared s p) (hf' : f'.Declared s p) (m m' : MatIn K)
    (hm : m.Fits s p) (hm' : m'.Fits s p) (hle : ∀ i < s.numRows, ∀ j < s.numRows, m.sym i j ≤ m'.sym i j)
    (hoff : ∀ i < s.numRows, ∀ j < s.numRows, i ≠ j → m.sym i j ≤ 0 ∧ m'.sym i j ≤ 0)
    (reg reg' : K → Nat → K) (hreg : ∀ i < s.numRows, ∀ x x', x ≤ x' → reg x i ≤ reg' x' i) (method : Method)
    (g g' : DiagFactor K) (hg : f.factorize m reg method = .ok g)
    (hg' : f'.factorize m' reg' method = .ok g') (hpiv : ∀ i < s.numRows, 0 < g.pivot i) :
    (∀ i < s.numRows, ∀ j < s.numRows, g.lower i j ≤ g'.lower i j) ∧
    (∀ i < s.numRows, g.pivot i ≤ g'.pivot i ∧ 0 < g'.pivot i) ∧
    ∀ b b' : List K, b.length = s.numRows → b'.length = s.numRows →
      (∀ i < s.numRows, 0 ≤ b.getD i 0 ∧ 0 ≤ b'.getD i 0 ∧ b'.getD i 0 ≤ b.getD i 0) →
      ∃ x x', g.solveInPlace b = .ok x ∧ g'.solveInPlace b' = .ok x' ∧ ∀ i < s.numRows, x'.getD i 0 ≤ x.getD i 0 :=
  single_comparison .field hv hf hf' hm hm' hle hoff hreg (method' := method)
    (fun {method A L D reg} h _ => by
      obtain ⟨c, o, h'⟩ := asMixed fillBelow h
      exact exact_upLooking fillBelow h') (.inr rfl) hg hg' hpiv

/-! ### Repeating block matrices -/

section

variable {s : ArrowheadSparsity} {d : Dims} {T : ArrowheadTypes} {N : Nat}

private theorem has_iff {k l : Σ _ : Blk, Nat} (hk : k ∈ positions d N) (hl : l ∈ positions d N) :
    wholePattern T d N (d.place N k) (d.place N l) ↔ T.Has N k.1 k.2 l.1 l.2 := by
  constructor
  · rintro ⟨k', hk', l', hl', h1, h2, h3⟩
    rwa [place_inj T hk hk' h1, place_inj T hl hl' h2]
  · exact fun h => ⟨k, hk, l, hl, rfl, rfl, h⟩

private theorem wholeBelow {S : Sparsity} {P : List Nat} (hA : S.Assembles P s T d N) {i j : Nat} (h : wholePattern T d N i j) :
    j < i := by
  obtain ⟨k, hk, l, hl, rfl, rfl, h⟩ := h
  exact ((hA.pattern k hk l hl).mpr h).lt

private theorem permOf (hs : s.Valid d) (a : Blk) : IsPerm (s.perm a) (d.of a) := by
  cases a with
  | start => exact hs.permStart
  | tridiag t => exact hs.permTridiag
  | link => exact hs.permLink
  | outer => exact hs.permOuter

private theorem moved (hs : s.Valid d) {k : Σ _ : Blk, Nat} (hk : k ∈ positions d N) :
    (⟨k.1, permAt (s.perm k.1) k.2⟩ : Σ _ : Blk, Nat) ∈ positions d N :=
  mem_positions.mpr ⟨(mem_positions.mp hk).1, (permOf hs k.1).lt (mem_positions.mp hk).2⟩

private theorem moved_surj (hs : s.Valid d) {k : Σ _ : Blk, Nat} (hk : k ∈ positions d N) :
    ∃ l ∈ positions d N, (⟨l.1, permAt (s.perm l.1) l.2⟩ : Σ _ : Blk, Nat) = k := by
  obtain ⟨a, i⟩ := k
  obtain ⟨ha, hi⟩ := mem_positions.mp hk
  obtain ⟨q, hq, rfl⟩ := (permOf hs a).surj hi
  exact ⟨⟨a, q⟩, mem_positions.mpr ⟨ha, hq⟩, rfl⟩

private theorem moved_ne (hs : s.Valid d) {k l : Σ _ : Blk, Nat} (hk : k ∈ positions d N) (hl : l ∈ positions d N) (h : k ≠ l) :
    (⟨k.1, permAt (s.perm k.1) k.2⟩ : Σ _ : Blk, Nat) ≠ ⟨l.1, permAt (s.perm l.1) l.2⟩ := by
  obtain ⟨a, i⟩ := k
  obtain ⟨b, j⟩ := l
  intro he
  simp only [Sigma.mk.injEq] at he
  obtain ⟨rfl, he⟩ := he
  obtain rfl : i = j := (permOf hs a).inj (mem_positions.mp hk).2 (mem_positions.mp hl).2 (eq_of_heq he)
  exact h rfl

variable [Zero K] [Sub K] [Mul K] [Div K]

/-- The equations of a factorization. -/
private theorem repeating_view (hs : s.Valid d) (hsmall : d.total N ≤ noParent) {f : ArrowheadFactor K}
    (hf : f.Declared s T d N) {m : ArrowheadMatrix K} (hm : m.Fits s T d N) {reg reg' : K → Nat → K}
    (hreg : ∀ k ∈ positions d N, ∀ x, reg' x (d.place N k) = reg x k.2) {method : Method} {g : ArrowheadFactor K}
    (hg : f.factorize d.tridiag d.link d.outer m reg method = .ok g) :
    ∃ (A L : Nat → Nat → K) (D : Nat → K) (c o : Nat),
      (∀ k ∈ positions d N, ∀ l ∈ positions d N, A (d.place N k) (d.place N l) =
        m.symElement N k.1 l.1 (permAt (s.perm k.1) k.2) (permAt (s.perm l.1) l.2)) ∧
      (∀ k ∈ positions d N, ∀ l ∈ positions d N, L (d.place N k) (d.place N l) = g.storedAt N k l) ∧
      (∀ k ∈ positions d N, D (d.place N k) = g.pivotAt k.1 k.2) ∧
      EntryWiseOuterFormulas (wholePattern T d N) (d.total N) c o A L D reg' ∧
      (method = .upLooking → UpLookingFormulas (wholePattern T d N) (d.total N) A L D reg') ∧
      g.Declared s T d N ∧ ∀ i j, wholePattern T d N i j → j < i := by
  obtain ⟨S, P, hv, hA, -⟩ := C71_assembled s d hs T hf.types N hsmall
  have hP : ∀ i j, wholePattern T d N i j → j < i := fun i j => wholeBelow hA
  obtain ⟨g0, q0, A, L, D, a1, a2, a3, a4⟩ := C73_repeating s d hs T N hsmall f hf m hm reg reg' hreg method
  obtain rfl : g = g0 := Except.ok.inj (hg.symm.trans q0)
  obtain ⟨g0, q0, hgd⟩ := C21_factorize_total s d hs T N f hf m hm reg method
  obtain rfl : g = g0 := Except.ok.inj (hg.symm.trans q0)
  cases method with
  | upLooking => exact ⟨A, L, D, _, _, a1, a2, a3, upLooking_mixed hP a4, fun _ => a4, hgd, hP⟩
  | entryWise => exact ⟨A, L, D, _, _, a1, a2, a3, a4, nofun, hgd, hP⟩

/-- Regularization by place. -/
private theorem exists_reg (T : ArrowheadTypes) (d : Dims) (N : Nat) :
    ∃ e : Nat → Σ _ : Blk, Nat, ∀ k ∈ positions d N, e (d.place N k) = k := by
  have hex : ∀ r, ∃ k, r < d.total N → k ∈ positions d N ∧ d.place N k = r := fun r => by
    by_cases hr : r < d.total N
    · obtain ⟨k, hk, h⟩ := exists_place hr T
      exact ⟨k, fun _ => ⟨hk, h⟩⟩
    · exact ⟨⟨.start, 0⟩, fun h => absurd h hr⟩
  choose e he using hex
  exact ⟨e, fun k hk => place_inj T (he _ (place_lt hk T)).1 hk (he _ (place_lt hk T)).2⟩

variable {Le : K → K → Prop} {S Dv : K → Prop}

private theorem repeating_signs (h : OrderRules Le S Dv) (hs : s.Valid d) (hsmall : d.total N ≤ noParent)
    {f : ArrowheadFactor K} (hf : f.Declared s T d N) {m : ArrowheadMatrix K} (hm : m.Fits s T d N)
    (hoff : ∀ k ∈ positions d N, ∀ l ∈ positions d N, k ≠ l → Le (m.symElement N k.1 l.1 k.2 l.2) 0) {reg : K → Nat → K}
    {method : Method} {g : ArrowheadFactor K} (hg : f.factorize d.tridiag d.link d.outer m reg method = .ok g)
    (hpiv : ∀ k ∈ positions d N, Dv (g.pivotAt k.1 k.2)) :
    (∀ k ∈ positions d N, ∀ l ∈ positions d N, T.Has N k.1 k.2 l.1 l.2 → Le (g.storedAt N k l) 0) ∧
    (∀ b : ArrowheadVector K, b.OfSize d N → (∀ k ∈ positions d N, Le 0 (b.at k.1 k.2)) →
      ∃ x, g.solveInPlace b = .ok x ∧ ∀ k ∈ positions d N, Le 0 (x.at k.1 k.2)) ∧
    ∀ b b' : ArrowheadVector K, b.OfSize d N → b'.OfSize d N → (∀ k ∈ positions d N, Le (b.at k.1 k.2) (b'.at k.1 k.2)) →
      ∃ x x', g.solveInPlace b = .ok x ∧ g.solveInPlace b' = .ok x' ∧
        ∀ k ∈ positions d N, Le (x.at k.1 k.2) (x'.at k.1 k.2) := by
  obtain ⟨e, he⟩ := exists_reg T d N
  obtain ⟨A, L, D, c, o, a1, a2, a3, a4, -, hgd, hP⟩ := repeating_view hs hsmall hf hm (reg' := fun x r => reg x (e r).2)
    (fun k hk x => by rw [he k hk]) hg
  have hD : ∀ i < d.total N, Dv (D i) := by
    intro i hi
    obtain ⟨k, hk, rfl⟩ := exists_place hi T
    rw [a3 k hk]
    exact hpiv k hk
  have hL := h.signs hP a4 (fun i hi j hij => by
    have hji := hP i j hij
    obtain ⟨k, hk, rfl⟩ := exists_place hi T
    obtain ⟨l, hl, rfl⟩ := exists_place (hji.trans hi) T
    rw [a1 k hk l hl]
    exact hoff _ (moved hs hk) _ (moved hs hl) (moved_ne hs hk hl (by rintro rfl; omega))) hD
  have hS : ∀ k ∈ positions d N, ∀ l ∈ positions d N, T.Has N k.1 k.2 l.1 l.2 → Le (g.storedAt N k l) 0 := by
    intro k hk l hl hkl
    rw [← a2 k hk l hl]
    exact hL _ (place_lt hk T) _ ((has_iff hk hl).mpr hkl)
  have hS' : ∀ {L' : Nat → Nat → K}, (∀ k ∈ positions d N, ∀ l ∈ positions d N, L' (d.place N k) (d.place N l) = g.storedAt N k l) →
      ∀ i < d.total N, ∀ j, wholePattern T d N i j → Le (L' i j) 0 := by
    intro L' hL' i hi j hij
    have hji := hP i j hij
    obtain ⟨k, hk, rfl⟩ := exists_place hi T
    obtain ⟨l, hl, rfl⟩ := exists_place (hji.trans hi) T
    rw [hL' k hk l hl]
    exact hS k hk l hl ((has_iff hk hl).mp hij)
  have hD' : ∀ {D' : Nat → K}, (∀ k ∈ positions d N, D' (d.place N k) = g.pivotAt k.1 k.2) → ∀ i < d.total N, Dv (D' i) := by
    intro D' hD' i hi
    obtain ⟨k, hk, rfl⟩ := exists_place hi T
    rw [hD' k hk]
    exact hpiv k hk
  refine ⟨hS, fun b hb hn => ?_, fun b b' hb hb' hle => ?_⟩
  · obtain ⟨x, h7, L1, D1, v, w, c1, c2, c3, c4, c5⟩ := C73_repeating_solve s d hs T N hsmall g hgd b hb
    refine ⟨x, h7, fun k hk => ?_⟩
    obtain ⟨l, hl, rfl⟩ := moved_surj hs hk
    have := h.solve_signs hP c5 (hS' c1) (hD' c2) (fun i hi => by
      obtain ⟨k, hk, rfl⟩ := exists_place hi T
      rw [c3 k hk]
      exact hn _ (moved hs hk)) _ (place_lt hl T)
    rwa [c4 l hl] at this
  · obtain ⟨x, h7, L1, D1, v, w, c1, c2, c3, c4, c5⟩ := C73_repeating_solve s d hs T N hsmall g hgd b hb
    obtain ⟨x', h7', L1', D1', v', w', c1', c2', c3', c4', c5'⟩ := C73_repeating_solve s d hs T N hsmall g hgd b' hb'
    refine ⟨x, x', h7, h7', fun k hk => ?_⟩
    obtain ⟨l, hl, rfl⟩ := moved_surj hs hk
    have hsame : SolveFormulas (wholePattern T d N) (d.total N) L1 D1 v' w' := by
      obtain ⟨y, y1, y2⟩ := c5'
      refine ⟨y, fun i hi => ?_, fun i hi => ?_⟩
      · rw [y1 i hi]
        congr 1
        refine List.map_congr_left fun j hj => ?_
        have hj' : j < i ∧ wholePattern T d N i j := by simpa [rowEntriesOf] using hj
        obtain ⟨k, hk, rfl⟩ := exists_place hi T
        obtain ⟨l, hl, rfl⟩ := exists_place (hj'.1.trans hi) T
        rw [c1 k hk l hl, c1' k hk l hl]
      · rw [y2 i hi]
        obtain ⟨k, hk, rfl⟩ := exists_place hi T
        rw [c2 k hk, c2' k hk]
        congr 1
        refine List.map_congr_left fun j hj => ?_
        have hj' : j < d.total N ∧ wholePattern T d N j (d.place N k) := by simpa [columnEntriesOf] using hj
        obtain ⟨l, hl, rfl⟩ := exists_place hj'.1 T
        rw [c1 l hl k hk, c1' l hl k hk]
    have := h.solve_mono hP c5 hsame (hS' c1) (hD' c2) (fun i hi => by
      obtain ⟨k, hk, rfl⟩ := exists_place hi T
      rw [c3 k hk, c3' k hk]
      exact hle _ (moved hs hk)) _ (place_lt hl T)
    rwa [c4 l hl, c4' l hl] at this

private theorem repeating_comparison (h : OrderRules Le S Dv) (hs : s.Valid d) (hsmall : d.total N ≤ noParent)
    {f f' : ArrowheadFactor K} (hf : f.Declared s T d N) (hf' : f'.Declared s T d N) {m m' : ArrowheadMatrix K}
    (hm : m.Fits s T d N) (hm' : m'.Fits s T d N)
    (hle : ∀ k ∈ positions d N, ∀ l ∈ positions d N,
      Le (m.symElement N k.1 l.1 k.2 l.2) (m'.symElement N k.1 l.1 k.2 l.2))
    (hoff : ∀ k ∈ positions d N, ∀ l ∈ positions d N, k ≠ l → Le (m.symElement N k.1 l.1 k.2 l.2) 0 ∧
      Le (m'.symElement N k.1 l.1 k.2 l.2) 0) {reg reg' : K → Nat → K}
    (hreg : ∀ k ∈ positions d N, ∀ x x', Le x x' → Le (reg x k.2) (reg' x' k.2)) {method : Method}
    (hup : ∀ {A L D reg c o}, (∀ i j, wholePattern T d N i j → j < i) →
      EntryWiseOuterFormulas (K := K) (wholePattern T d N) (d.total N) c o A L D reg →
      (method = .upLooking → UpLookingFormulas (wholePattern T d N) (d.total N) A L D reg) →
      UpLookingFormulas (wholePattern T d N) (d.total N) A L D reg)
    {g g' : ArrowheadFactor K} (hg : f.factorize d.tridiag d.link d.outer m reg method = .ok g)
    (hg' : f'.factorize d.tridiag d.link d.outer m' reg' method = .ok g')
    (hpiv : ∀ k ∈ positions d N, S (g.pivotAt k.1 k.2)) :
    (∀ k ∈ positions d N, ∀ l ∈ positions d N, T.Has N k.1 k.2 l.1 l.2 → Le (g.storedAt N k l) (g'.storedAt N k l)) ∧
    (∀ k ∈ positions d N, Le (g.pivotAt k.1 k.2) (g'.pivotAt k.1 k.2) ∧ Dv (g'.pivotAt k.1 k.2)) ∧
    ∀ b b' : ArrowheadVector K, b.OfSize d N → b'.OfSize d N →
      (∀ k ∈ positions d N, Le 0 (b.at k.1 k.2) ∧ Le 0 (b'.at k.1 k.2) ∧ Le (b'.at k.1 k.2) (b.at k.1 k.2)) →
      ∃ x x', g.solveInPlace b = .ok x ∧ g'.solveInPlace b' = .ok x' ∧
        ∀ k ∈ positions d N, Le (x'.at k.1 k.2) (x.at k.1 k.2) := by
  obtain ⟨e, he⟩ := exists_reg T d N
  obtain ⟨A, L, D, c, o, a1, a2, a3, a4, a5, hgd, hP⟩ := repeating_view hs hsmall hf hm (reg' := fun x r => reg x (e r).2)
    (fun k hk x => by rw [he k hk]) hg
  obtain ⟨A', L', D', c', o', a1', a2', a3', a4', a5', hgd', -⟩ := repeating_view hs hsmall hf' hm'
    (reg' := fun x r => reg' x (e r).2) (fun k hk x => by rw [he k hk]) hg'
  have hoff' : ∀ i < d.total N, ∀ j, wholePattern T d N i j → Le (A i j) 0 ∧ Le (A' i j) 0 ∧ Le (A i j) (A' i j) := by
    intro i hi j hij
    have hji := hP i j hij
    obtain ⟨k, hk, rfl⟩ := exists_place hi T
    obtain ⟨l, hl, rfl⟩ := exists_place (hji.trans hi) T
    rw [a1 k hk l hl, a1' k hk l hl]
    obtain ⟨q1, q2⟩ := hoff _ (moved hs hk) _ (moved hs hl) (moved_ne hs hk hl (by rintro rfl; omega))
    exact ⟨q1, q2, hle _ (moved hs hk) _ (moved hs hl)⟩
  have key := h.factor_mono hP (hup hP a4 a5) (hup hP a4' a5') (fun i hi j hij => (hoff' i hi j hij).2.2)
    (fun i hi => by
      obtain ⟨k, hk, rfl⟩ := exists_place hi T
      rw [a1 k hk k hk, a1' k hk k hk]
      exact hle _ (moved hs hk) _ (moved hs hk))
    (fun i hi j hij => (hoff' i hi j hij).1) (fun i hi j hij => (hoff' i hi j hij).2.1)
    (fun i hi => by
      obtain ⟨k, hk, rfl⟩ := exists_place hi T
      rw [he k hk]
      exact hreg k hk)
    (fun i hi => by
      obtain ⟨k, hk, rfl⟩ := exists_place hi T
      rw [a3 k hk]
      exact hpiv k hk)
  have keyL : ∀ k ∈ positions d N, ∀ l ∈ positions d N, T.Has N k.1 k.2 l.1 l.2 →
      Le (g.storedAt N k l) 0 ∧ Le (g'.storedAt N k l) 0 ∧ Le (g.storedAt N k l) (g'.storedAt N k l) := by
    intro k hk l hl hkl
    rw [← a2 k hk l hl, ← a2' k hk l hl]
    exact (key _ (place_lt hk T)).1 _ ((has_iff hk hl).mpr hkl)
  have keyD : ∀ k ∈ positions d N, Le (g.pivotAt k.1 k.2) (g'.pivotAt k.1 k.2) ∧ Dv (g'.pivotAt k.1 k.2) := by
    intro k hk
    rw [← a3 k hk, ← a3' k hk]
    exact (key _ (place_lt hk T)).2
  refine ⟨fun k hk l hl hkl => (keyL k hk l hl hkl).2.2, keyD, fun b b' hb hb' hbb => ?_⟩
  obtain ⟨x, h7, L1, D1, v, w, c1, c2, c3, c4, c5⟩ := C73_repeating_solve s d hs T N hsmall g hgd b hb
  obtain ⟨x', h7', L1', D1', v', w', c1', c2', c3', c4', c5'⟩ := C73_repeating_solve s d hs T N hsmall g' hgd' b' hb'
  refine ⟨x, x', h7, h7', fun k hk => ?_⟩
  obtain ⟨l, hl, rfl⟩ := moved_surj hs hk
  have := (h.solve_anti hP c5 c5' (fun i hi j hij => by
    have hji := hP i j hij
    obtain ⟨k, hk, rfl⟩ := exists_place hi T
    obtain ⟨l, hl, rfl⟩ := exists_place (hji.trans hi) T
    rw [c1 k hk l hl, c1' k hk l hl]
    exact keyL k hk l hl ((has_iff hk hl).mp hij)) (fun i hi => by
    obtain ⟨k, hk, rfl⟩ := exists_place hi T
    rw [c2 k hk, c2' k hk]
    exact ⟨h.pos (hpiv k hk), (keyD k hk).2, (keyD k hk).1⟩) (fun i hi => by
    obtain ⟨k, hk, rfl⟩ := exists_place hi T
    rw [c3 k hk, c3' k hk]
    exact hbb _ (moved hs hk)) _ (place_lt hl T)).2.2
  rwa [c4 l hl, c4' l hl] at this

end

/-- C87: repeating block matrices, any method. -/
theorem C87_repeating_signs {fmt : Format} (s : ArrowheadSparsity) (d : Dims) (hs : s.Valid d) (T : ArrowheadTypes) (N : Nat)
    (hsmall : d.total N ≤ noParent) (f : ArrowheadFactor (Binary fmt)) (hf : f.Declared s T d N)
    (m : ArrowheadMatrix (Binary fmt)) (hm : m.Fits s T d N)
    (hoff : ∀ k ∈ positions d N, ∀ l ∈ positions d N, k ≠ l → ¬ 0 < m.symElement N k.1 l.1 k.2 l.2)
    (reg : Binary fmt → Nat → Binary fmt) (method : Method) (g : ArrowheadFactor (Binary fmt))
    (hg : f.factorize d.tridiag d.link d.outer m reg method = .ok g)
    (hpiv : ∀ k ∈ positions d N, 0 < g.pivotAt k.1 k.2) :
    (∀ k ∈ positions d N, ∀ l ∈ positions d N, T.Has N k.1 k.2 l.1 l.2 → ¬ 0 < g.storedAt N k l) ∧
    (∀ b : ArrowheadVector (Binary fmt), b.OfSize d N → (∀ k ∈ positions d N, ¬ b.at k.1 k.2 < 0) →
      ∃ x, g.solveInPlace b = .ok x ∧ ∀ k ∈ positions d N, ¬ x.at k.1 k.2 < 0) ∧
    ∀ b b' : ArrowheadVector (Binary fmt), b.OfSize d N → b'.OfSize d N →
      (∀ k ∈ positions d N, ¬ b'.at k.1 k.2 < b.at k.1 k.2) →
      ∃ x x', g.solveInPlace b = .ok x ∧ g.solveInPlace b' = .ok x' ∧
        ∀ k ∈ positions d N, ¬ x'.at k.1 k.2 < x.at k.1 k.2 :=
  repeating_signs .binary hs hsmall hf hm hoff hg fun k hk => Binary.notBelow_of_lt (hpiv k hk)

/-- C87: repeating block matrices in exact arithmetic. -/
theorem C87_repeating_signs_exact [Field K] [LinearOrder K] [IsStrictOrderedRing K] (s : ArrowheadSparsity) (d : Dims)
    (hs : s.Valid d) (T : ArrowheadTypes) (N : Nat) (hsmall : d.total N ≤ noParent) (f : ArrowheadFactor K)
    (hf : f.Declared s T d N) (m : ArrowheadMatrix K) (hm : m.Fits s T d N)
    (hoff : ∀ k ∈ positions d N, ∀ l ∈ positions d N, k ≠ l → m.symElement N k.1 l.1 k.2 l.2 ≤ 0)
    (reg : K → Nat → K) (method : Method) (g : ArrowheadFactor K)
    (hg : f.factorize d.tridiag d.link d.outer m reg method = .ok g)
    (hpiv : ∀ k ∈ positions d N, 0 < g.pivotAt k.1 k.2) :
    (∀ k ∈ positions d N, ∀ l ∈ positions d N, T.Has N k.1 k.2 l.1 l.2 → g.storedAt N k l ≤ 0) ∧
    (∀ b : ArrowheadVector K, b.OfSize d N → (∀ k ∈ positions d N, 0 ≤ b.at k.1 k.2) →
      ∃ x, g.solveInPlace b = .ok x ∧ ∀ k ∈ positions d N, 0 ≤ x.at k.1 k.2) ∧
    ∀ b b' : ArrowheadVector K, b.OfSize d N → b'.OfSize d N → (∀ k ∈ positions d N, b.at k.1 k.2 ≤ b'.at k.1 k.2) →
      ∃ x x', g.solveInPlace b = .ok x ∧ g.solveInPlace b' = .ok x' ∧
        ∀ k ∈ positions d N, x.at k.1 k.2 ≤ x'.at k.1 k.2 :=
  repeating_signs .field hs hsmall hf hm hoff hg hpiv

/-- C87: comparison of two repeating block matrices, factorized up-looking. -/
theorem C87_repeating_comparison {fmt : Format} (s : ArrowheadSparsity) (d : Dims) (hs : s.Valid d) (T : ArrowheadTypes)
    (N : Nat) (hsmall : d.total N ≤ noParent) (f f' : ArrowheadFactor (Binary fmt)) (hf : f.Declared s T d N)
    (hf' : f'.Declared s T d N) (m m' : ArrowheadMatrix (Binary fmt)) (hm : m.Fits s T d N) (hm' : m'.Fits s T d N)
    (hle : ∀ k ∈ positions d N, ∀ l ∈ positions d N,
      ¬ m'.symElement N k.1 l.1 k.2 l.2 < m.symElement N k.1 l.1 k.2 l.2)
    (hoff : ∀ k ∈ positions d N, ∀ l ∈ positions d N, k ≠ l → ¬ 0 < m.symElement N k.1 l.1 k.2 l.2 ∧
      ¬ 0 < m'.symElement N k.1 l.1 k.2 l.2)
    (reg reg' : Binary fmt → Nat → Binary fmt)
    (hreg : ∀ k ∈ positions d N, ∀ x x', ¬ x' < x → ¬ reg' x' k.2 < reg x k.2)
    (g g' : ArrowheadFactor (Binary fmt)) (hg : f.factorize d.tridiag d.link d.outer m reg .upLooking = .ok g)
    (hg' : f'.factorize d.tridiag d.link d.outer m' reg' .upLooking = .ok g')
    (hpiv : ∀ k ∈ positions d N, 0 < g.pivotAt k.1 k.2) :
    (∀ k ∈ positions d N, ∀ l ∈ positions d N, T.Has N k.1 k.2 l.1 l.2 → ¬ g'.storedAt N k l < g.storedAt N k l) ∧
    (∀ k ∈ positions d N, ¬ g'.pivotAt k.1 k.2 < g.pivotAt k.1 k.2 ∧
      (0 < g'.pivotAt k.1 k.2 ∨ g'.pivotAt k.1 k.2 = .nan)) ∧
    ∀ b b' : ArrowheadVector (Binary fmt), b.OfSize d N → b'.OfSize d N →
      (∀ k ∈ positions d N, ¬ b.at k.1 k.2 < 0 ∧ ¬ b'.at k.1 k.2 < 0 ∧ ¬ b.at k.1 k.2 < b'.at k.1 k.2) →
      ∃ x x', g.solveInPlace b = .ok x ∧ g'.solveInPlace b' = .ok x' ∧
        ∀ k ∈ positions d N, ¬ x.at k.1 k.2 < x'.at k.1 k.2 := by
  have := repeating_comparison .binary hs hsmall hf hf' hm hm' hle hoff hreg (fun _ _ h => h rfl) hg hg' hpiv
  exact ⟨this.1, fun k hk => ⟨(this.2.1 k hk).1, Binary.notBelow_iff.mp (this.2.1 k hk).2⟩, this.2.2⟩

/-- C87: comparison of two repeating block matrices in exact arithmetic, any method. -/
theorem C87_repeating_comparison_exact [Field K] [LinearOrder K] [IsStrictOrderedRing K] (s : ArrowheadSparsity) (d : Dims)
    (hs : s.Valid d) (T : ArrowheadTypes) (N : Nat) (hsmall : d.total N ≤ noParent) (f f' : ArrowheadFactor K)
    (hf : f.Declared s T d N) (hf' : f'.Declared s T d N) (m m' : ArrowheadMatrix K) (hm : m.Fits s T d N)
    (hm' : m'.Fits s T d N)
    (hle : ∀ k ∈ positions d N, ∀ l ∈ positions d N,
      m.symElement N k.1 l.1 k.2 l.2 ≤ m'.symElement N k.1 l.1 k.2 l.2)
    (hoff : ∀ k ∈ positions d N, ∀ l ∈ positions d N, k ≠ l → m.symElement N k.1 l.1 k.2 l.2 ≤ 0 ∧
      m'.symElement N k.1 l.1 k.2 l.2 ≤ 0)
    (reg reg' : K → Nat → K) (hreg : ∀ k ∈ positions d N, ∀ x x', x ≤ x' → reg x k.2 ≤ reg' x' k.2) (method : Method)
    (g g' : ArrowheadFactor K) (hg : f.factorize d.tridiag d.link d.outer m reg method = .ok g)
    (hg' : f'.factorize d.tridiag d.link d.outer m' reg' method = .ok g')
    (hpiv : ∀ k ∈ positions d N, 0 < g.pivotAt k.1 k.2) :
    (∀ k ∈ positions d N, ∀ l ∈ positions d N, T.Has N k.1 k.2 l.1 l.2 → g.storedAt N k l ≤ g'.storedAt N k l) ∧
    (∀ k ∈ positions d N, g.pivotAt k.1 k.2 ≤ g'.pivotAt k.1 k.2 ∧ 0 < g'.pivotAt k.1 k.2) ∧
    ∀ b b' : ArrowheadVector K, b.OfSize d N → b'.OfSize d N →
      (∀ k ∈ positions d N, 0 ≤ b.at k.1 k.2 ∧ 0 ≤ b'.at k.1 k.2 ∧ b'.at k.1 k.2 ≤ b.at k.1 k.2) →
      ∃ x x', g.solveInPlace b = .ok x ∧ g'.solveInPlace b' = .ok x' ∧
        ∀ k ∈ positions d N, x'.at k.1 k.2 ≤ x.at k.1 k.2 :=
  repeating_comparison .field hs hsmall hf hf' hm hm' hle hoff hreg (fun hP h _ => exact_upLooking hP h) hg hg' hpiv

/-! ### Entry-wise factorization -/

/-- Witness: two rows which are coupled. -/
def twoS : Sparsity := ⟨2, 2, [⟨0, 0⟩, ⟨1, 0⟩, ⟨1, 1⟩]⟩

theorem twoS_valid : ValidSparsity twoS [0, 1] := ⟨by unfold Sparsity.InRange; decide, rfl, by unfold IsPerm; decide, by decide⟩

/-- Witness: a matrix with the given first entry. -/
def twoM (x : ℚ) : MatIn Double := ⟨twoS, [dbl x, dbl (-1), dbl 1]⟩

theorem twoM_fits (x : ℚ) : (twoM x).Fits twoS [0, 1] := ⟨rfl, twoS_valid.inRange, rfl, rfl, fun _ _ h => .base h h.1⟩

/-- Witness: a fresh factor. -/
def twoF : DiagFactor Double := ⟨⟨⟨2, 2, [⟨1, 0⟩]⟩, [0, 0, 1]⟩, [0, 1], [.nan], [.nan, .nan]⟩

theorem twoF_declared : twoF.Declared twoS [0, 1] := ⟨by decide +kernel, rfl, rfl, rfl⟩

/-- All pivots are positive. -/
def twoCheck (g g' : DiagFactor Double) : Bool := decide (∀ i ∈ List.range 2, 0 < g.pivot i ∧ 0 < g'.pivot i)

/-- C87: the entry-wise factorization does not keep the order. It multiplies the rounded quotient by the pivot again: increasing
the first entry of the matrix from 7 to the next greater number of double precision decreases the second pivot, although
all the other hypotheses of `C87_comparison` are met. -/
theorem C87_entryWise : ∃ (s : Sparsity) (p : List Nat) (f : DiagFactor Double) (m m' : MatIn Double) (g g' : DiagFactor Double),
    ValidSparsity s p ∧ f.Declared s p ∧ m.Fits s p ∧ m'.Fits s p ∧
    (∀ i < s.numRows, ∀ j < s.numRows, ¬ m'.sym i j < m.sym i j) ∧
    (∀ i < s.numRows, ∀ j < s.numRows, i ≠ j → ¬ 0 < m.sym i j ∧ ¬ 0 < m'.sym i j) ∧
    f.factorize m regularizationNone .entryWise = .ok g ∧ f.factorize m' regularizationNone .entryWise = .ok g' ∧
    (∀ i < s.numRows, 0 < g.pivot i ∧ 0 < g'.pivot i) ∧ ∃ i < s.numRows, g'.pivot i < g.pivot i := by
  have h : (do
      let g ← twoF.factorize (twoM 7) regularizationNone .entryWise
      let g' ← twoF.factorize (twoM (7 + 1 / 2 ^ 50)) regularizationNone .entryWise
      return twoCheck g g' && decide (g'.pivot 1 < g.pivot 1)) = (.ok true : Res Bool) := by
    decide +kernel
  obtain ⟨g, hg, h⟩ := bind_eq_ok.mp h
  obtain ⟨g', hg', h⟩ := bind_eq_ok.mp h
  obtain ⟨h1, h2⟩ := Bool.and_eq_true_iff.mp (Except.ok.inj h)
  exact ⟨twoS, [0, 1], twoF, twoM 7, twoM (7 + 1 / 2 ^ 50), g, g', twoS_valid, twoF_declared, twoM_fits _, twoM_fits _,
    by decide +kernel, by decide +kernel, hg, hg', fun i hi => of_decide_eq_true h1 i (List.mem_range.mpr hi), 1, by decide, of_decide_eq_true h2⟩

/-! ### Witnesses -/

/-- The hypotheses of `C87_signs` and `C87_comparison` are met. -/
example : ValidSparsity twoS [0, 1] ∧ twoF.Declared twoS [0, 1] ∧ (twoM 7).Fits twoS [0, 1] ∧ (twoM 8).Fits twoS [0, 1] ∧
    (∀ i < 2, ∀ j < 2, ¬ (twoM 8).sym i j < (twoM 7).sym i j) ∧
    (∀ i < 2, ∀ j < 2, i ≠ j → ¬ 0 < (twoM 7).sym i j ∧ ¬ 0 < (twoM 8).sym i j) ∧
    ∃ g g', twoF.factorize (twoM 7) regularizationNone .upLooking = .ok g ∧
      twoF.factorize (twoM 8) regularizationNone .upLooking = .ok g' ∧ (∀ i < 2, 0 < g.pivot i) ∧
      g.pivot 1 < g'.pivot 1 := by
  have h : (do
      let g ← twoF.factorize (twoM 7) regularizationNone .upLooking
      let g' ← twoF.factorize (twoM 8) regularizationNone .upLooking
      return twoCheck g g' && decide (g.pivot 1 < g'.pivot 1)) = (.ok true : Res Bool) := by
    decide +kernel
  obtain ⟨g, hg, h⟩ := bind_eq_ok.mp h
  obtain ⟨g', hg', h⟩ := bind_eq_ok.mp h
  obtain ⟨h1, h2⟩ := Bool.and_eq_true_iff.mp (Except.ok.inj h)
  exact ⟨twoS_valid, twoF_declared, twoM_fits _, twoM_fits _, by decide +kernel, by decide +kernel, g, g', hg, hg',
    fun i hi => (of_decide_eq_true h1 i (List.mem_range.mpr hi)).1, of_decide_eq_true h2⟩

/-- Witness: the matrix of C29 with negative entries off the diagonal. -/
def lesserM : ArrowheadMatrix Double := (arrowM.map fun x => if x = 1 then -1 else x).map dbl

/-- Witness: a greater matrix. -/
def greaterM : ArrowheadMatrix Double := (arrowM.map fun x => if x = 1 then -1 / 3 else if x = -1 then x else x + 1 / 10).map dbl

/-- The hypotheses of `C87_repeating_signs` and `C87_repeating_comparison` are met. -/
example : ∃ T g g', lesserM.Fits arrowS T arrowD 1 ∧ greaterM.Fits arrowS T arrowD 1 ∧
    (freshFactor arrowS T arrowD 1 (.nan : Double)).Declared arrowS T arrowD 1 ∧
    (∀ k ∈ positions arrowD 1, ∀ l ∈ positions arrowD 1,
      ¬ greaterM.symElement 1 k.1 l.1 k.2 l.2 < lesserM.symElement 1 k.1 l.1 k.2 l.2) ∧
    (∀ k ∈ positions arrowD 1, ∀ l ∈ positions arrowD 1, k ≠ l → ¬ 0 < lesserM.symElement 1 k.1 l.1 k.2 l.2 ∧
      ¬ 0 < greaterM.symElement 1 k.1 l.1 k.2 l.2) ∧
    (freshFactor arrowS T arrowD 1 (.nan : Double)).factorize 2 1 1 lesserM regularizationNone .upLooking = .ok g ∧
    (freshFactor arrowS T arrowD 1 (.nan : Double)).factorize 2 1 1 greaterM regularizationNone .upLooking = .ok g' ∧
    ∀ k ∈ positions arrowD 1, 0 < g.pivotAt k.1 k.2 ∧ g.pivotAt k.1 k.2 < g'.pivotAt k.1 k.2 := by
  have h : (do
      let T ← arrowheadTypes arrowS
      let g ← (freshFactor arrowS T arrowD 1 (.nan : Double)).factorize 2 1 1 lesserM regularizationNone .upLooking
      let g' ← (freshFactor arrowS T arrowD 1 (.nan : Double)).factorize 2 1 1 greaterM regularizationNone .upLooking
      return decide (∀ k ∈ positions arrowD 1, 0 < g.pivotAt k.1 k.2 ∧ g.pivotAt k.1 k.2 < g'.pivotAt k.1 k.2)) =
      (.ok true : Res Bool) := by
    decide +kernel
  obtain ⟨T, hT, h⟩ := bind_eq_ok.mp h
  obtain ⟨g, hg, h⟩ := bind_eq_ok.mp h
  obtain ⟨g', hg', h⟩ := bind_eq_ok.mp h
  exact ⟨T, g, g', ((arrowM_fits hT).map _).map _, ((arrowM_fits hT).map _).map _, C21_constructible arrowS arrowD T hT 1 _,
    by decide +kernel, by decide +kernel, hg, hg', of_decide_eq_true (Except.ok.inj h)⟩

/-- The solutions of the two systems are finite, have no negative elements and are ordered. -/
example : (do
    let T ← arrowheadTypes arrowS
    let g ← (freshFactor arrowS T arrowD 1 (.nan : Double)).factorize 2 1 1 lesserM regularizationNone .upLooking
    let g' ← (freshFactor arrowS T arrowD 1 (.nan : Double)).factorize 2 1 1 greaterM regularizationNone .upLooking
    let b : ArrowheadVector Double := ⟨[dbl 1], [[dbl 0, dbl 3], [dbl 0, dbl 5]], [dbl 0], [dbl 7]⟩
    let x ← g.solveInPlace b
    let x' ← g'.solveInPlace b
    return decide (∀ k ∈ positions arrowD 1, (Binary.number (x.at k.1 k.2)).isSome ∧ 0 < x'.at k.1 k.2 ∧
      x'.at k.1 k.2 < x.at k.1 k.2)) = (.ok true : Res Bool) := by
  decide +kernel

end Ctldl
