import Verif.Spec.Superset
import Verif.Lemmas.Superset
import Verif.Lemmas.Parts
import Verif.Props.Assembled
import Verif.Props.Textbook
import Verif.Props.Least
import Verif.Props.Lockstep

/-! # C85: declaring more entries than needed changes nothing

Factors may have more entries than the fill-in of the matrix: because more entries are declared than the matrix has, or
because all repetitions of a block have the pattern which the last ones need. The results are those of the factor with
fewer entries. -/

namespace Ctldl

variable {K : Type}

private theorem fill_below {s : Sparsity} {p : List Nat} : ∀ i j, Fill (LowerPermuted s p) i j → j < i := fun _ _ h => h.lt

/-- Entries outside of the factor are zeros. -/
private theorem sym_zero [Zero K] {s : Sparsity} {p : List Nat} {m : MatIn K} (hm : m.Fits s p) {i j : Nat}
    (hi : i < s.numRows) (hji : j < i) (h : ¬ Fill (LowerPermuted s p) i j) : m.sym (permAt p i) (permAt p j) = 0 := by
  unfold MatIn.sym MatIn.elem
  rw [if_neg]
  exact fun hh => h (hm.subset i j ⟨hji, by rw [hm.rows]; exact hi, hh⟩)

private theorem fill_mono {s s' : Sparsity} {p : List Nat} (hsize : s'.numRows = s.numRows)
    (hsub : ∀ i j, s.Coupled i j → s'.Coupled i j) (i j : Nat) (h : Fill (LowerPermuted s p) i j) :
    Fill (LowerPermuted s' p) i j :=
  fill_leading (r := i + 1) (fun a _ b hb hab => ⟨hb, by rw [hsize]; exact hab.2.1, hsub _ _ hab.2.2⟩) h (Nat.lt_succ_self i)

section

variable [Zero K] [Sub K] [Mul K] [Div K]

private theorem mixed {P : Nat → Nat → Prop} {n : Nat} (hP : ∀ i j, P i j → j < i) {A L : Nat → Nat → K} {D : Nat → K}
    {reg : K → Nat → K} {method : Method} (h : FactorFormulas method P n A L D reg) :
    EntryWiseOuterFormulas P n (if method = .upLooking then n else 0) (if method = .upLooking then 0 else n) A L D reg := by
  cases method with
  | upLooking => exact upLooking_mixed hP h
  | entryWise => exact entryWise_mixed h

private theorem single_rules {Q : K → K → Prop} {Z F : K → Prop} (hR : ZeroRules Q Z F) (h00 : Q 0 0) (hz0 : ∀ x, Z x → Q 0 x)
    (hz1 : Z 0)
    {s s' : Sparsity} {p : List Nat} (hv : ValidSparsity s p) (hv' : ValidSparsity s' p) (hsize : s'.numRows = s.numRows)
    (hsub : ∀ i j, Fill (LowerPermuted s p) i j → Fill (LowerPermuted s' p) i j)
    {f f' : DiagFactor K} (hf : f.Declared s p) (hf' : f'.Declared s' p)
    {m m' : MatIn K} (hm : m.Fits s p) (hm' : m'.Fits s' p)
    (hval : ∀ i < s.numRows, ∀ j < s.numRows, Q (m.sym i j) (m'.sym i j))
    {reg reg' : K → Nat → K} (hreg : ∀ i < s.numRows, ∀ x x', Q x x' → Q (reg x i) (reg' x' i)) {method : Method}
    {g g' : DiagFactor K} (h : f.factorize m reg method = .ok g) (h' : f'.factorize m' reg' method = .ok g')
    (hfin : (∀ i < s.numRows, F (g.pivot i) ∧ ¬ Z (g.pivot i) ∧ ∀ j, F (g.lower i j)) ∨
      ∀ i < s.numRows, F (g'.pivot i) ∧ ¬ Z (g'.pivot i) ∧ ∀ j, F (g'.lower i j))
    {b b' : List K} (hb : b.length = s.numRows) (hb' : b'.length = s.numRows)
    (hrhs : ∀ i < s.numRows, Q (b.getD i 0) (b'.getD i 0)) :
    ∃ x x', g.solveInPlace b = .ok x ∧ g'.solveInPlace b' = .ok x' ∧
      (∀ i < s.numRows, ∀ j, Q (g.lower i j) (g'.lower i j)) ∧ (∀ i < s.numRows, Q (g.pivot i) (g'.pivot i)) ∧
      ((∀ i < s.numRows, F (x.getD i 0)) ∨ (∀ i < s.numRows, F (x'.getD i 0)) →
        ∀ i < s.numRows, Q (x.getD i 0) (x'.getD i 0)) := by
  obtain ⟨g0, h0, hF, hz⟩ := C73_factor s p hv f hf m hm reg method
  obtain rfl : g = g0 := Except.ok.inj (h.symm.trans h0)
  obtain ⟨g0, h0', hF', hz'⟩ := C73_factor s' p hv' f' hf' m' hm' reg' method
  obtain rfl : g' = g0 := Except.ok.inj (h'.symm.trans h0')
  obtain ⟨g0, h1, hg⟩ := C25_factorize_total s p hv f hf m hm reg method
  obtain rfl : g = g0 := Except.ok.inj (h.symm.trans h1)
  obtain ⟨g0, h1', hg'⟩ := C25_factorize_total s' p hv' f' hf' m' hm' reg' method
  obtain rfl : g' = g0 := Except.ok.inj (h'.symm.trans h1')
  obtain ⟨x, h2, -, hx⟩ := C73_solve s p hv g hg b hb
  obtain ⟨x', h2', -, hx'⟩ := C73_solve s' p hv' g' hg' b' (hb'.trans hsize.symm)
  rw [hsize] at hF' hx'
  have hp := hv.perm
  have key := hR.factor (n := s.numRows) fill_below hsub (fun i j k h1 h2 h3 => .step h1 h2 h3) (mixed fill_below hF)
    (mixed fill_below hF') (fun i j hi hj => hval _ (hp.lt hi) _ (hp.lt hj))
    (fun i j hi hij hn => by
      have hji := hij.lt
      have := hval _ (hp.lt hi) _ (hp.lt (hji.trans hi))
      rw [sym_zero hm hi hji hn] at this
      exact hR.congrZero this hz1) hreg
    (hfin.imp (fun h i hi => ⟨(h i hi).1, (h i hi).2.1, fun j _ => (h i hi).2.2 j⟩)
      (fun h i hi => ⟨(h i hi).1, (h i hi).2.1, fun j _ => (h i hi).2.2 j⟩))
  refine ⟨x, x', h2, h2', fun i hi j => ?_, fun i hi => (key i hi).2.2, fun hxf i hi => ?_⟩
  · by_cases hij : Fill (LowerPermuted s p) i j
    · exact (key i hi).1 j hij
    · rw [hz i j hij]
      by_cases hij' : Fill (LowerPermuted s' p) i j
      · exact hz0 _ ((key i hi).2.1 j hij' hij)
      · rw [hz' i j hij']
        exact h00
  · obtain ⟨k, hk, rfl⟩ := hp.surj hi
    exact hR.solution fill_below hsub hx hx' key (fun i hi => hrhs _ (hp.lt hi))
      (hfin.imp (fun h i hi => ⟨(h i hi).1, (h i hi).2.1⟩) (fun h i hi => ⟨(h i hi).1, (h i hi).2.1⟩))
      (hxf.imp (fun h i hi => h _ (hp.lt hi)) (fun h i hi => h _ (hp.lt hi))) k hk

end

/-- C85: exact arithmetic. -/
theorem C85_exact [Field K] (s s' : Sparsity) (p : List Nat) (hv : ValidSparsity s p) (hv' : ValidSparsity s' p)
    (hsize : s'.numRows = s.numRows) (hsub : ∀ i j, s.Coupled i j → s'.Coupled i j)
    (f f' : DiagFactor K) (hf : f.Declared s p) (hf' : f'.Declared s' p)
    (m m' : MatIn K) (hm : m.Fits s p) (hm' : m'.Fits s' p)
    (hval : ∀ i < s.numRows, ∀ j < s.numRows, m.sym i j = m'.sym i j) (reg : K → Nat → K) (method : Method)
    (g g' : DiagFactor K) (h : f.factorize m reg method = .ok g) (h' : f'.factorize m' reg method = .ok g')
    (hpiv : (∀ i < s.numRows, g.pivot i ≠ 0) ∨ ∀ i < s.numRows, g'.pivot i ≠ 0) :
    (∀ i < s.numRows, ∀ j, g.lower i j = g'.lower i j) ∧ (∀ i < s.numRows, g.pivot i = g'.pivot i) ∧
      ∀ b, b.length = s.numRows → ∃ x x', g.solveInPlace b = .ok x ∧ g'.solveInPlace b = .ok x' ∧
        ∀ i < s.numRows, x.getD i 0 = x'.getD i 0 := by
  have key := fun b hb => single_rules ZeroRules.field rfl (fun _ h => h.symm) rfl hv hv' hsize (fill_mono hsize hsub) hf hf' hm
    hm' hval (fun _ _ _ _ h => by rw [h]) h h' (hpiv.imp (fun h i hi => ⟨trivial, h i hi, fun _ => trivial⟩)
      (fun h i hi => ⟨trivial, h i hi, fun _ => trivial⟩)) (b := b) (b' := b) hb hb (fun _ _ => rfl)
  obtain ⟨_, _, -, -, h1, h2, -⟩ := key (List.replicate s.numRows 0) List.length_replicate
  refine ⟨h1, h2, fun b hb => ?_⟩
  obtain ⟨x, x', h3, h4, -, -, h5⟩ := key b hb
  exact ⟨x, x', h3, h4, h5 (.inl fun _ _ => trivial)⟩

/-- C85: floating point arithmetic. If one of the two factors has finite entries, and finite pivots which are not zero, then
the other one is the same up to signs of zeros; if moreover one of the two solutions is finite, then the other one is
the same. -/
theorem C85_single {fmt : Format} (s s' : Sparsity) (p : List Nat) (hv : ValidSparsity s p) (hv' : ValidSparsity s' p)
    (hsize : s'.numRows = s.numRows) (hsub : ∀ i j, s.Coupled i j → s'.Coupled i j)
    (f f' : DiagFactor (Binary fmt)) (hf : f.Declared s p) (hf' : f'.Declared s' p)
    (m m' : MatIn (Binary fmt)) (hm : m.Fits s p) (hm' : m'.Fits s' p)
    (hval : ∀ i < s.numRows, ∀ j < s.numRows, SignChanged false (m.sym i j) (m'.sym i j))
    (reg reg' : Binary fmt → Nat → Binary fmt)
    (hreg : ∀ i < s.numRows, ∀ x x', SignChanged false x x' → SignChanged false (reg x i) (reg' x' i)) (method : Method)
    (g g' : DiagFactor (Binary fmt)) (h : f.factorize m reg method = .ok g) (h' : f'.factorize m' reg' method = .ok g')
    (hfin : (∀ i < s.numRows, (g.pivot i).Finite ∧ ¬ (g.pivot i).IsZero ∧ ∀ j, (g.lower i j).Finite) ∨
      ∀ i < s.numRows, (g'.pivot i).Finite ∧ ¬ (g'.pivot i).IsZero ∧ ∀ j, (g'.lower i j).Finite)
    (b b' : List (Binary fmt)) (hb : b.length = s.numRows) (hb' : b'.length = s.numRows)
    (hrhs : ∀ i < s.numRows, SignChanged false (b.getD i 0) (b'.getD i 0)) :
    ∃ x x', g.solveInPlace b = .ok x ∧ g'.solveInPlace b' = .ok x' ∧
      (∀ i < s.numRows, ∀ j, SignChanged false (g.lower i j) (g'.lower i j)) ∧
      (∀ i < s.numRows, SignChanged false (g.pivot i) (g'.pivot i)) ∧
      ((∀ i < s.numRows, (x.getD i 0).Finite) ∨ (∀ i < s.numRows, (x'.getD i 0).Finite) →
        ∀ i < s.numRows, SignChanged false (x.getD i 0) (x'.getD i 0)) :=
  single_rules ZeroRules.binary (.zero _ _) (fun x hx => by
    cases x with
    | zero t => exact .zero _ _
    | _ => exact hx.elim) trivial hv hv' hsize (fill_mono hsize hsub) hf hf' hm hm' hval hreg h h' hfin hb hb' hrhs

/-! ### Repeating block matrices -/

private theorem same_perm {S S' : Sparsity} {P P' : List Nat} {s : ArrowheadSparsity} {T : ArrowheadTypes} {d : Dims} {N : Nat}
    (hP : IsPerm P S.numRows) (hP' : IsPerm P' S'.numRows) (h : CoupledAsIn S P s T d N) (h' : S'.Assembles P' s T d N) :
    P = P' := by
  refine List.ext_getElem (by rw [hP.length, hP'.length, h.size, h'.size]) fun r h1 h2 => ?_
  have hr : r < d.total N := by rwa [hP.length, h.size] at h1
  obtain ⟨k, hk, rfl⟩ := exists_place hr T
  have := (h.order k hk).trans (h'.order k hk).symm
  rwa [permAt, permAt, List.getD_eq_getElem _ _ h1, List.getD_eq_getElem _ _ h2] at this

private theorem assembled_fill {S S' : Sparsity} {P : List Nat} {s : ArrowheadSparsity} {T : ArrowheadTypes} {d : Dims} {N : Nat}
    (h : CoupledAsIn S P s T d N) (h' : S'.Assembles P s T d N) (i j : Nat) (hF : Fill (LowerPermuted S P) i j) :
    Fill (LowerPermuted S' P) i j := by
  induction hF with
  | @base x y hG hlt =>
    have hx : x < d.total N := by rw [← h.size]; exact hG.2.1
    obtain ⟨k, hk, rfl⟩ := exists_place hx T
    obtain ⟨l, hl, rfl⟩ := exists_place (hlt.trans hx) T
    exact (h'.pattern k hk l hl).mpr (h.coupled k hk l hl hG)
  | step _ _ hlt ih1 ih2 => exact .step ih1 ih2 hlt

private theorem exists_declared {S : Sparsity} {P : List Nat} [Zero K] (hv : ValidSparsity S P) :
    ∃ q : DiagFactor K, q.Declared S P := by
  obtain ⟨c, hc, -⟩ := factorizationSparsity_sat hv.inRange hv.square hv.perm hv.small
  exact ⟨⟨c, P, List.replicate c.entries.length 0, List.replicate S.numRows 0⟩, hc, rfl, List.length_replicate,
    List.length_replicate⟩

section

variable {s : ArrowheadSparsity} {d : Dims} {T : ArrowheadTypes} {N : Nat}

private theorem assembled_rules [Zero K] [Sub K] [Mul K] [Div K] {Q : K → K → Prop} {Z F : K → Prop} (hR : ZeroRules Q Z F)
    (hrefl : ∀ x, Q x x) (hz0 : ∀ x, Z x → Q 0 x) (hz1 : Z 0) (hs : s.Valid d) {f : ArrowheadFactor K}
    (hf : f.Declared s T d N) {m : ArrowheadMatrix K} (hm : m.Fits s T d N)
    {S : Sparsity} {P : List Nat} (hv : ValidSparsity S P) (hS : CoupledAsIn S P s T d N)
    {g : DiagFactor K} (hg : g.Declared S P) {M : MatIn K} (hM : M.Fits S P) (hMA : M.Assembles m d N) {reg reg' : K → Nat → K}
    (hcongr : ∀ i < d.total N, ∀ x x', Q x x' → Q (reg' x i) (reg' x' i))
    (hreg : ∀ k ∈ positions d N, ∀ x, reg' x (d.place N k) = reg x k.2) {method : Method}
    (hmethod : method = .upLooking ∨ d.outer = 0)
    {f' : ArrowheadFactor K} (h : f.factorize d.tridiag d.link d.outer m reg method = .ok f')
    {g' : DiagFactor K} (h' : g.factorize M reg' method = .ok g')
    (hfin : (∀ i < d.total N, F (g'.pivot i) ∧ ¬ Z (g'.pivot i) ∧ ∀ j, F (g'.lower i j)) ∨
      ∀ k ∈ positions d N, F (f'.pivotAt k.1 k.2) ∧ ¬ Z (f'.pivotAt k.1 k.2) ∧ ∀ l ∈ positions d N, F (f'.storedAt N k l))
    {b : ArrowheadVector K} (hb : b.OfSize d N) :
    ∃ x y, f'.solveInPlace b = .ok x ∧ g'.solveInPlace b.flat = .ok y ∧
      (∀ k ∈ positions d N, ∀ l ∈ positions d N, Q (g'.lower (d.place N k) (d.place N l)) (f'.storedAt N k l)) ∧
      (∀ k ∈ positions d N, Q (g'.pivot (d.place N k)) (f'.pivotAt k.1 k.2)) ∧
      ((∀ i < d.total N, F (y.getD i 0)) ∨ (∀ i < d.total N, F (x.flat.getD i 0)) →
        ∀ i < d.total N, Q (y.getD i 0) (x.flat.getD i 0)) := by
  obtain ⟨S', P', hv', hA', hM'⟩ := C71_assembled s d hs T hf.types N (by rw [← hS.size]; exact hv.small)
  obtain rfl := same_perm hv.perm hv'.perm hS hA'
  obtain ⟨M', hM1, hM2⟩ := hM' K m hm
  obtain ⟨q, hq⟩ := exists_declared (K := K) hv'
  obtain ⟨f0, g2, e1, e2, e3, e4, e5⟩ := C71_same s d hs T N f hf m hm S' P hv' q hq M' hM1 hA' hM2 reg reg' hreg method hmethod
  obtain rfl : f' = f0 := Except.ok.inj (h.symm.trans e1)
  obtain ⟨g3, e6, -, e7⟩ := C73_factor S' P hv' q hq M' hM1 reg' method
  obtain rfl : g2 = g3 := Except.ok.inj (e2.symm.trans e6)
  obtain ⟨x, e8, e9⟩ := e5 b hb
  have hsize := hS.size
  have hlen : b.flat.length = S.numRows := (flat_length hb).trans hsize.symm
  obtain ⟨y, x', r1, r2, r3, r4, r5⟩ := single_rules hR (hrefl 0) hz0 hz1 hv hv' (hA'.size.trans hsize.symm)
    (assembled_fill hS hA') hg hq hM hM1 (fun i hi j hj => by
      rw [hsize] at hi hj
      obtain ⟨k, hk, rfl⟩ := exists_place hi T
      obtain ⟨l, hl, rfl⟩ := exists_place hj T
      rw [hMA k hk l hl, hM2 k hk l hl]
      exact hrefl _) (by rw [hsize]; exact hcongr) h' e2 (by
      rw [hsize]
      refine hfin.imp id fun hfin i hi => ?_
      obtain ⟨k, hk, rfl⟩ := exists_place hi T
      rw [e4 k hk]
      refine ⟨(hfin k hk).1, (hfin k hk).2.1, fun j => ?_⟩
      by_cases hj : j < d.total N
      · obtain ⟨l, hl, rfl⟩ := exists_place hj T
        rw [e3 k hk l hl]
        exact (hfin k hk).2.2 l hl
      · rw [e7 _ _ fun hF => hj (hF.lt.trans hi)]
        exact hR.finite hz1) (b := b.flat) (b' := b.flat) hlen hlen (fun _ _ => hrefl _)
  obtain rfl : x.flat = x' := Except.ok.inj (e9.symm.trans r2)
  rw [hsize] at r3 r4 r5
  refine ⟨x, y, e8, r1, fun k hk l hl => ?_, fun k hk => ?_, r5⟩
  · rw [← e3 k hk l hl]
    exact r3 _ (place_lt hk T) _
  · rw [← e4 k hk]
    exact r4 _ (place_lt hk T)

private theorem whole_iff {k l : Σ _ : Blk, Nat} (hk : k ∈ positions d N) (hl : l ∈ positions d N) :
    wholePattern T d N (d.place N k) (d.place N l) ↔ T.Has N k.1 k.2 l.1 l.2 := by
  constructor
  · rintro ⟨k', hk', l', hl', h1, h2, h3⟩
    rwa [place_inj T hk hk' h1, place_inj T hl hl' h2]
  · exact fun h => ⟨k, hk, l, hl, rfl, rfl, h⟩

/-- The pattern of the factor is that of an assembled matrix. -/
private theorem whole_fill {S : Sparsity} {P : List Nat} (hA : S.Assembles P s T d N) (i j : Nat) :
    wholePattern T d N i j ↔ Fill (LowerPermuted S P) i j := by
  constructor
  · rintro ⟨k, hk, l, hl, rfl, rfl, h⟩
    exact (hA.pattern k hk l hl).mpr h
  · intro h
    have hi : i < d.total N := by
      rw [← hA.size]
      exact h.row_bound fun a b hab => hab.2.1
    obtain ⟨k, hk, rfl⟩ := exists_place hi T
    obtain ⟨l, hl, rfl⟩ := exists_place (h.lt.trans hi) T
    exact ⟨k, hk, l, hl, rfl, rfl, (hA.pattern k hk l hl).mp h⟩

private theorem repeating_rules [Zero K] [Sub K] [Mul K] [Div K] {Q : K → K → Prop} {Z F : K → Prop} (hR : ZeroRules Q Z F)
    (hz1 : Z 0) (hs : s.Valid d) {s' : ArrowheadSparsity} {T' : ArrowheadTypes} (hs' : s'.Valid d)
    (hsmall : d.total N ≤ noParent) (hperm : ∀ a, s'.perm a = s.perm a)
    (hsub : ∀ k ∈ positions d N, ∀ l ∈ positions d N, T.Has N k.1 k.2 l.1 l.2 → T'.Has N k.1 k.2 l.1 l.2)
    {f f' : ArrowheadFactor K} (hf : f.Declared s T d N) (hf' : f'.Declared s' T' d N)
    {m m' : ArrowheadMatrix K} (hm : m.Fits s T d N) (hm' : m'.Fits s' T' d N)
    (hval : ∀ a₁ ∈ blocks N, ∀ a₂ ∈ blocks N, ∀ i < d.of a₁, ∀ j < d.of a₂,
      Q (m.symElement N a₁ a₂ i j) (m'.symElement N a₁ a₂ i j))
    {reg reg' : K → Nat → K} (hreg : ∀ k ∈ positions d N, ∀ x x', Q x x' → Q (reg x k.2) (reg' x' k.2)) {method : Method}
    {g g' : ArrowheadFactor K} (h : f.factorize d.tridiag d.link d.outer m reg method = .ok g)
    (h' : f'.factorize d.tridiag d.link d.outer m' reg' method = .ok g')
    (hfin : (∀ k ∈ positions d N, F (g.pivotAt k.1 k.2) ∧ ¬ Z (g.pivotAt k.1 k.2) ∧ ∀ l ∈ positions d N, F (g.storedAt N k l)) ∨
      ∀ k ∈ positions d N, F (g'.pivotAt k.1 k.2) ∧ ¬ Z (g'.pivotAt k.1 k.2) ∧ ∀ l ∈ positions d N, F (g'.storedAt N k l))
    {b b' : ArrowheadVector K} (hb : b.OfSize d N) (hb' : b'.OfSize d N)
    (hrhs : ∀ k ∈ positions d N, Q (b.at k.1 k.2) (b'.at k.1 k.2)) :
    ∃ x x', g.solveInPlace b = .ok x ∧ g'.solveInPlace b' = .ok x' ∧
      (∀ k ∈ positions d N, ∀ l ∈ positions d N, T.Has N k.1 k.2 l.1 l.2 → Q (g.storedAt N k l) (g'.storedAt N k l)) ∧
      (∀ k ∈ positions d N, ∀ l ∈ positions d N, T'.Has N k.1 k.2 l.1 l.2 → ¬ T.Has N k.1 k.2 l.1 l.2 →
        Z (g'.storedAt N k l)) ∧
      (∀ k ∈ positions d N, Q (g.pivotAt k.1 k.2) (g'.pivotAt k.1 k.2)) ∧
      ((∀ k ∈ positions d N, F (x.at k.1 k.2)) ∨ (∀ k ∈ positions d N, F (x'.at k.1 k.2)) →
        ∀ k ∈ positions d N, Q (x.at k.1 k.2) (x'.at k.1 k.2)) := by
  obtain ⟨S, P, hv, hA, hM⟩ := C71_assembled s d hs T hf.types N hsmall
  obtain ⟨S', P', hv', hA', -⟩ := C71_assembled s' d hs' T' hf'.types N hsmall
  obtain ⟨M, hM1, hM2⟩ := hM K m hm
  have hPerm : ∀ a, IsPerm (s.perm a) (d.of a) := fun a => by
    cases a with
    | start => exact hs.permStart
    | tridiag t => exact hs.permTridiag
    | link => exact hs.permLink
    | outer => exact hs.permOuter
  have hmoved : ∀ k ∈ positions d N, (⟨k.1, permAt (s.perm k.1) k.2⟩ : Σ _ : Blk, Nat) ∈ positions d N := fun k hk =>
    mem_positions.mpr ⟨(mem_positions.mp hk).1, (hPerm k.1).lt (mem_positions.mp hk).2⟩
  have hP' : ∀ i j, wholePattern T' d N i j → j < i := fun i j h => ((whole_fill hA' i j).mp h).lt
  have hP : ∀ i j, wholePattern T d N i j → j < i := fun i j h => ((whole_fill hA i j).mp h).lt
  have hsub' : ∀ i j, wholePattern T d N i j → wholePattern T' d N i j := by
    rintro _ _ ⟨k, hk, l, hl, rfl, rfl, h⟩
    exact ⟨k, hk, l, hl, rfl, rfl, hsub k hk l hl h⟩
  have hfill : ∀ i j k, wholePattern T d N i k → wholePattern T d N j k → j < i → wholePattern T d N i j := by
    intro i j k h1 h2 h3
    rw [whole_fill hA] at *
    exact .step h1 h2 h3
  obtain ⟨e, he⟩ : ∃ e : Nat → Σ _ : Blk, Nat, ∀ k ∈ positions d N, e (d.place N k) = k := by
    have hex : ∀ r, ∃ k, r < d.total N → k ∈ positions d N ∧ d.place N k = r := fun r => by
      by_cases hr : r < d.total N
      · obtain ⟨k, hk, h⟩ := exists_place hr T
        exact ⟨k, fun _ => ⟨hk, h⟩⟩
      · exact ⟨⟨.start, 0⟩, fun h => absurd h hr⟩
    choose e he using hex
    exact ⟨e, fun k hk => place_inj T (he _ (place_lt hk T)).1 hk (he _ (place_lt hk T)).2⟩
  obtain ⟨g0, q0, A, L, D, a1, a2, a3, a4⟩ := C73_repeating s d hs T N hsmall f hf m hm reg (fun x r => reg x (e r).2)
    (fun k hk x => by rw [he k hk]) method
  obtain rfl : g = g0 := Except.ok.inj (h.symm.trans q0)
  obtain ⟨g0, q0, A', L', D', b1, b2, b3, b4⟩ := C73_repeating s' d hs' T' N hsmall f' hf' m' hm' reg'
    (fun x r => reg' x (e r).2) (fun k hk x => by rw [he k hk]) method
  obtain rfl : g' = g0 := Except.ok.inj (h'.symm.trans q0)
  obtain ⟨g0, q0, hg⟩ := C21_factorize_total s d hs T N f hf m hm reg method
  obtain rfl : g = g0 := Except.ok.inj (h.symm.trans q0)
  obtain ⟨g0, q0, hg'⟩ := C21_factorize_total s' d hs' T' N f' hf' m' hm' reg' method
  obtain rfl : g' = g0 := Except.ok.inj (h'.symm.trans q0)
  have hAA : ∀ i j, i < d.total N → j < d.total N → Q (A i j) (A' i j) := by
    intro i j hi hj
    obtain ⟨k, hk, rfl⟩ := exists_place hi T
    obtain ⟨l, hl, rfl⟩ := exists_place hj T
    rw [a1 k hk l hl, b1 k hk l hl, hperm, hperm]
    obtain ⟨k1, k2⟩ := mem_positions.mp (hmoved k hk)
    obtain ⟨l1, l2⟩ := mem_positions.mp (hmoved l hl)
    exact hval _ k1 _ l1 _ k2 _ l2
  have hAz : ∀ i j, i < d.total N → wholePattern T' d N i j → ¬ wholePattern T d N i j → Z (A' i j) := by
    intro i j hi hij hn
    have hji := hP' i j hij
    refine hR.congrZero (hAA i j hi (hji.trans hi)) ?_
    obtain ⟨k, hk, rfl⟩ := exists_place hi T
    obtain ⟨l, hl, rfl⟩ := exists_place (hji.trans hi) T
    have := hM2 _ (hmoved k hk) _ (hmoved l hl)
    rw [a1 k hk l hl, ← this, ← hA.order k hk, ← hA.order l hl,
      sym_zero hM1 (by rw [hA.size]; exact hi) hji fun hF => hn ((whole_fill hA _ _).mpr hF)]
    exact hz1
  have hregs : ∀ i < d.total N, ∀ x x', Q x x' → Q (reg x (e i).2) (reg' x' (e i).2) := by
    intro i hi
    obtain ⟨k, hk, rfl⟩ := exists_place hi T
    rw [he k hk]
    exact hreg k hk
  have hfin' : (∀ i < d.total N, F (D i) ∧ ¬ Z (D i) ∧ ∀ j, wholePattern T d N i j → F (L i j)) ∨
      ∀ i < d.total N, F (D' i) ∧ ¬ Z (D' i) ∧ ∀ j, wholePattern T' d N i j → F (L' i j) := by
    refine hfin.imp (fun hfin i hi => ?_) fun hfin i hi => ?_
    · obtain ⟨k, hk, rfl⟩ := exists_place hi T
      rw [a3 k hk]
      refine ⟨(hfin k hk).1, (hfin k hk).2.1, fun j hj => ?_⟩
      obtain ⟨l, hl, rfl⟩ := exists_place ((hP _ _ hj).trans hi) T
      rw [a2 k hk l hl]
      exact (hfin k hk).2.2 l hl
    · obtain ⟨k, hk, rfl⟩ := exists_place hi T
      rw [b3 k hk]
      refine ⟨(hfin k hk).1, (hfin k hk).2.1, fun j hj => ?_⟩
      obtain ⟨l, hl, rfl⟩ := exists_place ((hP' _ _ hj).trans hi) T
      rw [b2 k hk l hl]
      exact (hfin k hk).2.2 l hl
  have key : ∀ i < d.total N, (∀ j, wholePattern T d N i j → Q (L i j) (L' i j)) ∧
      (∀ j, wholePattern T' d N i j → ¬ wholePattern T d N i j → Z (L' i j)) ∧ Q (D i) (D' i) := by
    cases method with
    | upLooking => exact hR.factor hP' hsub' hfill (upLooking_mixed hP a4) (upLooking_mixed hP' b4) hAA hAz hregs hfin'
    | entryWise => exact hR.factor hP' hsub' hfill a4 b4 hAA hAz hregs hfin'
  have keyL : ∀ k ∈ positions d N, ∀ l ∈ positions d N, T.Has N k.1 k.2 l.1 l.2 → Q (g.storedAt N k l) (g'.storedAt N k l) := by
    intro k hk l hl hkl
    rw [← a2 k hk l hl, ← b2 k hk l hl]
    exact (key _ (place_lt hk T)).1 _ ((whole_iff hk hl).mpr hkl)
  have keyZ : ∀ k ∈ positions d N, ∀ l ∈ positions d N, T'.Has N k.1 k.2 l.1 l.2 → ¬ T.Has N k.1 k.2 l.1 l.2 →
      Z (g'.storedAt N k l) := by
    intro k hk l hl hkl hn
    rw [← b2 k hk l hl]
    exact (key _ (place_lt hk T)).2.1 _ ((whole_iff hk hl).mpr hkl) fun h => hn ((whole_iff hk hl).mp h)
  have keyD : ∀ k ∈ positions d N, Q (g.pivotAt k.1 k.2) (g'.pivotAt k.1 k.2) := by
    intro k hk
    rw [← a3 k hk, ← b3 k hk]
    exact (key _ (place_lt hk T)).2.2
  obtain ⟨x, h7, L1, D1, v, w, c1, c2, c3, c4, c5⟩ := C73_repeating_solve s d hs T N hsmall g hg b hb
  obtain ⟨x', h9, L1', D1', v', w', d1, d2, d3, d4, d5⟩ := C73_repeating_solve s' d hs' T' N hsmall g' hg' b' hb'
  refine ⟨x, x', h7, h9, keyL, keyZ, keyD, fun hxf k hk => ?_⟩
  have hsol := hR.solution hP' hsub' c5 d5 (fun i hi => by
      obtain ⟨k, hk, rfl⟩ := exists_place hi T
      refine ⟨fun j hj => ?_, fun j hj hn => ?_, ?_⟩
      · obtain ⟨l, hl, rfl⟩ := exists_place ((hP _ _ hj).trans hi) T
        rw [c1 k hk l hl, d1 k hk l hl]
        exact keyL k hk l hl ((whole_iff hk hl).mp hj)
      · obtain ⟨l, hl, rfl⟩ := exists_place ((hP' _ _ hj).trans hi) T
        rw [d1 k hk l hl]
        exact keyZ k hk l hl ((whole_iff hk hl).mp hj) fun h => hn ((whole_iff hk hl).mpr h)
      · rw [c2 k hk, d2 k hk]
        exact keyD k hk) (fun i hi => by
      obtain ⟨k, hk, rfl⟩ := exists_place hi T
      rw [c3 k hk, d3 k hk, hperm]
      exact hrhs _ (hmoved k hk)) (by
      refine hfin.imp (fun hfin i hi => ?_) fun hfin i hi => ?_
      · obtain ⟨k, hk, rfl⟩ := exists_place hi T
        rw [c2 k hk]
        exact ⟨(hfin k hk).1, (hfin k hk).2.1⟩
      · obtain ⟨k, hk, rfl⟩ := exists_place hi T
        rw [d2 k hk]
        exact ⟨(hfin k hk).1, (hfin k hk).2.1⟩) (by
      refine hxf.imp (fun hxf i hi => ?_) fun hxf i hi => ?_
      · obtain ⟨k, hk, rfl⟩ := exists_place hi T
        rw [c4 k hk]
        exact hxf _ (hmoved k hk)
      · obtain ⟨k, hk, rfl⟩ := exists_place hi T
        rw [d4 k hk, hperm]
        exact hxf _ (hmoved k hk))
  obtain ⟨a, i⟩ := k
  obtain ⟨ha, hi⟩ := mem_positions.mp hk
  obtain ⟨q, hq, rfl⟩ := (hPerm a).surj hi
  have hk' : (⟨a, q⟩ : Σ _ : Blk, Nat) ∈ positions d N := mem_positions.mpr ⟨ha, hq⟩
  have := hsol _ (place_lt hk' T)
  rwa [c4 _ hk', d4 _ hk', hperm] at this

private theorem sameRefl {fmt : Format} (x : Binary fmt) : SignChanged false x x := by
  cases x with
  | zero t => exact .zero _ _
  | num x hx hr => exact .num hx hr hx hr rfl
  | inf t => simpa using SignChanged.inf (fmt := fmt) (s := false) t
  | nan => exact .nan

private theorem sameZero {fmt : Format} (x : Binary fmt) (hx : x.IsZero) : SignChanged false 0 x := by
  cases x with
  | zero t => exact .zero _ _
  | _ => exact hx.elim

/-- C85: a repeating block matrix, whose factor has the same pattern for all repetitions, and the same matrix as one matrix,
whose factor has no other entries than its own fill-in: exact arithmetic. -/
theorem C85_assembled_exact [Field K] (s : ArrowheadSparsity) (d : Dims) (hs : s.Valid d) (T : ArrowheadTypes) (N : Nat)
    (f : ArrowheadFactor K) (hf : f.Declared s T d N) (m : ArrowheadMatrix K) (hm : m.Fits s T d N)
    (S : Sparsity) (P : List Nat) (hv : ValidSparsity S P) (hS : CoupledAsIn S P s T d N)
    (g : DiagFactor K) (hg : g.Declared S P) (M : MatIn K) (hM : M.Fits S P) (hMA : M.Assembles m d N)
    (reg reg' : K → Nat → K) (hreg : ∀ k ∈ positions d N, ∀ x, reg' x (d.place N k) = reg x k.2)
    (method : Method) (hmethod : method = .upLooking ∨ d.outer = 0)
    (f' : ArrowheadFactor K) (h : f.factorize d.tridiag d.link d.outer m reg method = .ok f')
    (g' : DiagFactor K) (h' : g.factorize M reg' method = .ok g')
    (hpiv : (∀ i < d.total N, g'.pivot i ≠ 0) ∨ ∀ k ∈ positions d N, f'.pivotAt k.1 k.2 ≠ 0)
    (b : ArrowheadVector K) (hb : b.OfSize d N) :
    ∃ x y, f'.solveInPlace b = .ok x ∧ g'.solveInPlace b.flat = .ok y ∧
      (∀ k ∈ positions d N, ∀ l ∈ positions d N, g'.lower (d.place N k) (d.place N l) = f'.storedAt N k l) ∧
      (∀ k ∈ positions d N, g'.pivot (d.place N k) = f'.pivotAt k.1 k.2) ∧
      ∀ i < d.total N, y.getD i 0 = x.flat.getD i 0 := by
  obtain ⟨x, y, h1, h2, h3, h4, h5⟩ := assembled_rules ZeroRules.field (fun _ => rfl) (fun _ h => h.symm) rfl hs hf hm hv hS hg hM
    hMA (fun _ _ _ _ h => by rw [h]) hreg hmethod h h' (hpiv.imp (fun h i hi => ⟨trivial, h i hi, fun _ => trivial⟩)
      (fun h k hk => ⟨trivial, h k hk, fun _ _ => trivial⟩)) hb
  exact ⟨x, y, h1, h2, h3, h4, h5 (.inl fun _ _ => trivial)⟩

/-- C85: a repeating block matrix, whose factor has the same pattern for all repetitions, and the same matrix as one matrix,
whose factor has no other entries than its own fill-in: floating point arithmetic. -/
theorem C85_assembled {fmt : Format} (s : ArrowheadSparsity) (d : Dims) (hs : s.Valid d) (T : ArrowheadTypes) (N : Nat)
    (f : ArrowheadFactor (Binary fmt)) (hf : f.Declared s T d N) (m : ArrowheadMatrix (Binary fmt)) (hm : m.Fits s T d N)
    (S : Sparsity) (P : List Nat) (hv : ValidSparsity S P) (hS : CoupledAsIn S P s T d N)
    (g : DiagFactor (Binary fmt)) (hg : g.Declared S P) (M : MatIn (Binary fmt)) (hM : M.Fits S P) (hMA : M.Assembles m d N)
    (reg reg' : Binary fmt → Nat → Binary fmt)
    (hcongr : ∀ i < d.total N, ∀ x x', SignChanged false x x' → SignChanged false (reg' x i) (reg' x' i))
    (hreg : ∀ k ∈ positions d N, ∀ x, reg' x (d.place N k) = reg x k.2)
    (method : Method) (hmethod : method = .upLooking ∨ d.outer = 0)
    (f' : ArrowheadFactor (Binary fmt)) (h : f.factorize d.tridiag d.link d.outer m reg method = .ok f')
    (g' : DiagFactor (Binary fmt)) (h' : g.factorize M reg' method = .ok g')
    (hfin : (∀ i < d.total N, (g'.pivot i).Finite ∧ ¬ (g'.pivot i).IsZero ∧ ∀ j, (g'.lower i j).Finite) ∨
      ∀ k ∈ positions d N, (f'.pivotAt k.1 k.2).Finite ∧ ¬ (f'.pivotAt k.1 k.2).IsZero ∧
        ∀ l ∈ positions d N, (f'.storedAt N k l).Finite)
    (b : ArrowheadVector (Binary fmt)) (hb : b.OfSize d N) :
    ∃ x y, f'.solveInPlace b = .ok x ∧ g'.solveInPlace b.flat = .ok y ∧
      (∀ k ∈ positions d N, ∀ l ∈ positions d N,
        SignChanged false (g'.lower (d.place N k) (d.place N l)) (f'.storedAt N k l)) ∧
      (∀ k ∈ positions d N, SignChanged false (g'.pivot (d.place N k)) (f'.pivotAt k.1 k.2)) ∧
      ((∀ i < d.total N, (y.getD i 0).Finite) ∨ (∀ i < d.total N, (x.flat.getD i 0).Finite) →
        ∀ i < d.total N, SignChanged false (y.getD i 0) (x.flat.getD i 0)) :=
  assembled_rules ZeroRules.binary sameRefl sameZero trivial hs hf hm hv hS hg hM hMA hcongr hreg hmethod h h' hfin hb

/-- C85: two declarations of a repeating block matrix, one of which has more entries than the other: exact arithmetic. -/
theorem C85_repeating_exact [Field K] (s s' : ArrowheadSparsity) (d : Dims) (hs : s.Valid d) (hs' : s'.Valid d)
    (hw : s.Within s') (T T' : ArrowheadTypes) (N : Nat) (hsmall : d.total N ≤ noParent)
    (f f' : ArrowheadFactor K) (hf : f.Declared s T d N) (hf' : f'.Declared s' T' d N)
    (m m' : ArrowheadMatrix K) (hm : m.Fits s T d N) (hm' : m'.Fits s' T' d N)
    (hval : ∀ a₁ ∈ blocks N, ∀ a₂ ∈ blocks N, ∀ i < d.of a₁, ∀ j < d.of a₂,
      m.symElement N a₁ a₂ i j = m'.symElement N a₁ a₂ i j) (reg : K → Nat → K) (method : Method)
    (g g' : ArrowheadFactor K) (h : f.factorize d.tridiag d.link d.outer m reg method = .ok g)
    (h' : f'.factorize d.tridiag d.link d.outer m' reg method = .ok g')
    (hpiv : (∀ k ∈ positions d N, g.pivotAt k.1 k.2 ≠ 0) ∨ ∀ k ∈ positions d N, g'.pivotAt k.1 k.2 ≠ 0)
    (b : ArrowheadVector K) (hb : b.OfSize d N) :
    ∃ x x', g.solveInPlace b = .ok x ∧ g'.solveInPlace b = .ok x' ∧
      (∀ k ∈ positions d N, ∀ l ∈ positions d N, T.Has N k.1 k.2 l.1 l.2 → g.storedAt N k l = g'.storedAt N k l) ∧
      (∀ k ∈ positions d N, ∀ l ∈ positions d N, T'.Has N k.1 k.2 l.1 l.2 → ¬ T.Has N k.1 k.2 l.1 l.2 →
        g'.storedAt N k l = 0) ∧
      (∀ k ∈ positions d N, g.pivotAt k.1 k.2 = g'.pivotAt k.1 k.2) ∧
      ∀ k ∈ positions d N, x.at k.1 k.2 = x'.at k.1 k.2 := by
  obtain ⟨x, x', h1, h2, h3, h4, h5, h6⟩ := repeating_rules ZeroRules.field rfl hs hs' hsmall hw.perm
    (fun k _ l _ hh => C86_monotone s s' d hs hs' hw T T' hf.types hf'.types N _ _ _ _ hh) hf hf' hm hm' hval
    (fun _ _ _ _ h => by rw [h]) h h' (hpiv.imp (fun h k hk => ⟨trivial, h k hk, fun _ _ => trivial⟩)
      (fun h k hk => ⟨trivial, h k hk, fun _ _ => trivial⟩)) hb hb (fun _ _ => rfl)
  exact ⟨x, x', h1, h2, h3, h4, h5, h6 (.inl fun _ _ => trivial)⟩

/-- C85: two declarations of a repeating block matrix, one of which has more entries than the other: floating point
arithmetic. -/
theorem C85_repeating {fmt : Format} (s s' : ArrowheadSparsity) (d : Dims) (hs : s.Valid d) (hs' : s'.Valid d)
    (hw : s.Within s') (T T' : ArrowheadTypes) (N : Nat) (hsmall : d.total N ≤ noParent)
    (f f' : ArrowheadFactor (Binary fmt)) (hf : f.Declared s T d N) (hf' : f'.Declared s' T' d N)
    (m m' : ArrowheadMatrix (Binary fmt)) (hm : m.Fits s T d N) (hm' : m'.Fits s' T' d N)
    (hval : ∀ a₁ ∈ blocks N, ∀ a₂ ∈ blocks N, ∀ i < d.of a₁, ∀ j < d.of a₂,
      SignChanged false (m.symElement N a₁ a₂ i j) (m'.symElement N a₁ a₂ i j))
    (reg reg' : Binary fmt → Nat → Binary fmt)
    (hreg : ∀ k ∈ positions d N, ∀ x x', SignChanged false x x' → SignChanged false (reg x k.2) (reg' x' k.2))
    (method : Method) (g g' : ArrowheadFactor (Binary fmt))
    (h : f.factorize d.tridiag d.link d.outer m reg method = .ok g)
    (h' : f'.factorize d.tridiag d.link d.outer m' reg' method = .ok g')
    (hfin : (∀ k ∈ positions d N, (g.pivotAt k.1 k.2).Finite ∧ ¬ (g.pivotAt k.1 k.2).IsZero ∧
        ∀ l ∈ positions d N, (g.storedAt N k l).Finite) ∨
      ∀ k ∈ positions d N, (g'.pivotAt k.1 k.2).Finite ∧ ¬ (g'.pivotAt k.1 k.2).IsZero ∧
        ∀ l ∈ positions d N, (g'.storedAt N k l).Finite)
    (b b' : ArrowheadVector (Binary fmt)) (hb : b.OfSize d N) (hb' : b'.OfSize d N)
    (hrhs : ∀ k ∈ positions d N, SignChanged false (b.at k.1 k.2) (b'.at k.1 k.2)) :
    ∃ x x', g.solveInPlace b = .ok x ∧ g'.solveInPlace b' = .ok x' ∧
      (∀ k ∈ positions d N, ∀ l ∈ positions d N, T.Has N k.1 k.2 l.1 l.2 →
        SignChanged false (g.storedAt N k l) (g'.storedAt N k l)) ∧
      (∀ k ∈ positions d N, ∀ l ∈ positions d N, T'.Has N k.1 k.2 l.1 l.2 → ¬ T.Has N k.1 k.2 l.1 l.2 →
        (g'.storedAt N k l).IsZero) ∧
      (∀ k ∈ positions d N, SignChanged false (g.pivotAt k.1 k.2) (g'.pivotAt k.1 k.2)) ∧
      ((∀ k ∈ positions d N, (x.at k.1 k.2).Finite) ∨ (∀ k ∈ positions d N, (x'.at k.1 k.2).Finite) →
        ∀ k ∈ positions d N, SignChanged false (x.at k.1 k.2) (x'.at k.1 k.2)) :=
  repeating_rules ZeroRules.binary (show (.zero false : Binary fmt).IsZero from trivial) hs hs' hsmall hw.perm
    (fun k _ l _ hh => C86_monotone s s' d hs hs' hw T T' hf.types hf'.types N _ _ _ _ hh) hf hf' hm hm' hval hreg h h' hfin
    hb hb' hrhs

/-- C85: a matrix which may be handed over for a declared pattern may be handed over for every larger one. -/
theorem C85_fits (s s' : ArrowheadSparsity) (d : Dims) (hs : s.Valid d) (hs' : s'.Valid d) (hw : s.Within s')
    (T T' : ArrowheadTypes) (hT : arrowheadTypes s = .ok T) (hT' : arrowheadTypes s' = .ok T') (N : Nat)
    (m : ArrowheadMatrix K) (hm : m.Fits s T d N) : m.Fits s' T' d N := by
  have hmono := C86_monotone s s' d hs hs' hw T T' hT hT' N
  refine ⟨hm.numDiag, hm.numSubdiag, hm.numOuter, fun b hb => ?_, fun a b q c hq hc => ?_⟩
  · obtain ⟨h1, h2, h3⟩ := hm.diag b hb
    refine ⟨h1, h2, fun i j h => ?_⟩
    rw [hw.perm] at h
    rcases hmono b b i j (.inl ⟨rfl, h3 i j h⟩) with ⟨-, h⟩ | ⟨G, hG, -⟩
    · exact h
    · rcases b with _ | (_ | t) | _ | _ <;> simp [ArrowheadTypes.lowerBlock] at hG
  · have hne : a ≠ b := by
      rintro rfl
      rcases a with _ | (_ | t) | _ | _ <;> simp [ArrowheadTypes.lowerBlock] at hc
    obtain ⟨c0, hc0⟩ : ∃ c0, T.lowerBlock N a b = some c0 := by
      rcases a with _ | (_ | t) | _ | _ <;> rcases b with _ | u | _ | _ <;>
        simp only [ArrowheadTypes.lowerBlock, reduceCtorEq] at hc ⊢
      all_goals first
        | exact ⟨_, rfl⟩
        | (split at hc
           · rename_i hcond
             exact ⟨_, if_pos hcond⟩
           · cases hc)
    obtain ⟨h1, h2, h3⟩ := hm.lower a b q c0 hq hc0
    refine ⟨h1, h2, fun i j h => ?_⟩
    rw [hw.perm, hw.perm] at h
    rcases hmono a b i j (.inr ⟨_, by beta_reduce; rw [hc0]; rfl, h3 i j h⟩) with ⟨h, -⟩ | ⟨G, hG, h⟩
    · exact absurd h hne
    · beta_reduce at hG
      rw [hc] at hG
      cases hG
      exact h

end

/-! ### Witnesses -/

/-- Witness: a pattern with one entry below the diagonal, and one with all entries. -/
def thinS : Sparsity := ⟨3, 3, [⟨0, 0⟩, ⟨1, 1⟩, ⟨2, 0⟩, ⟨2, 2⟩]⟩

/-- Witness: a pattern with one entry below the diagonal, and one with all entries. -/
def thickS : Sparsity := ⟨3, 3, [⟨0, 0⟩, ⟨1, 0⟩, ⟨1, 1⟩, ⟨2, 0⟩, ⟨2, 1⟩, ⟨2, 2⟩]⟩

/-- Witness: the same matrix for the two patterns. -/
def thinM : MatIn ℚ := ⟨thinS, [3, -7, 2, 5]⟩

/-- Witness: the same matrix for the two patterns. -/
def thickM : MatIn ℚ := ⟨thickS, [3, 0, -7, 2, 0, 5]⟩

/-- The hypotheses of `C85_exact` and `C85_single` are met. -/
example : ValidSparsity thinS [1, 0, 2] ∧ ValidSparsity thickS [1, 0, 2] ∧ (∀ i j, thinS.Coupled i j → thickS.Coupled i j) ∧
    thinM.Fits thinS [1, 0, 2] ∧ thickM.Fits thickS [1, 0, 2] ∧
    (∀ i < 3, ∀ j < 3, thinM.sym i j = thickM.sym i j) ∧
    ∃ i j, thickS.Coupled i j ∧ ¬ thinS.Coupled i j := by
  have hv : ValidSparsity thinS [1, 0, 2] := ⟨by unfold Sparsity.InRange; decide, rfl, by unfold IsPerm; decide, by decide⟩
  have hv' : ValidSparsity thickS [1, 0, 2] := ⟨by unfold Sparsity.InRange; decide, rfl, by unfold IsPerm; decide, by decide⟩
  have hmem : ∀ e ∈ thinS.entries, e ∈ thickS.entries := by decide
  exact ⟨hv, hv', fun i j h => hmem _ h, ⟨rfl, hv.inRange, rfl, rfl, fun _ _ h => .base h h.1⟩,
    ⟨rfl, hv'.inRange, rfl, rfl, fun _ _ h => .base h h.1⟩, by decide +kernel, 1, 0, by unfold Sparsity.Coupled; decide,
    by unfold Sparsity.Coupled; decide⟩

/-- Solving with a fresh factor. -/
def thinSolve (s : Sparsity) (p : List Nat) (m : MatIn Double) (b : List Double) (method : Method) : Res (List Double) := do
  let c ← factorizationSparsity s p
  let f : DiagFactor Double := ⟨c, p, List.replicate c.entries.length .nan, List.replicate s.numRows .nan⟩
  let f ← f.factorize m regularizationNone method
  f.solveInPlace b

/-- The two solutions are finite and the same in double precision. -/
example : (do
    let x ← thinSolve thinS [1, 0, 2] (thinM.map dbl) ([5, 2, 1].map dbl) .upLooking
    let x' ← thinSolve thickS [1, 0, 2] (thickM.map dbl) ([5, 2, 1].map dbl) .upLooking
    return (x.map fun a => (Binary.number a).isSome, decide (x.map Binary.number = x'.map Binary.number))) =
      .ok ([true, true, true], true) := by
  decide +kernel

/-- Witness: the first repetition does not need all entries which the second one needs. -/
def repeatS : ArrowheadSparsity where
  start := ⟨⟨1, 1, [⟨0, 0⟩]⟩, ⟨2, 1, []⟩, ⟨1, 1, []⟩, [0]⟩
  tridiag := ⟨⟨2, 2, [⟨0, 0⟩, ⟨1, 1⟩]⟩, ⟨2, 2, [⟨0, 0⟩, ⟨1, 0⟩]⟩, [0, 1]⟩
  link := ⟨⟨1, 2, [⟨0, 0⟩]⟩, ⟨1, 1, [⟨0, 0⟩]⟩, ⟨1, 1, []⟩, [0]⟩
  outer := ⟨⟨1, 2, []⟩, ⟨1, 1, [⟨0, 0⟩]⟩, [0]⟩

theorem repeatS_valid : repeatS.Valid arrowD := by
  constructor <;> first
    | exact ⟨by unfold Sparsity.InRange; decide, rfl, rfl⟩
    | (unfold IsPerm; decide)
    | decide

/-- Witness: the same matrix as one matrix. -/
def repeatWholeS : Sparsity := ⟨7, 7, [⟨0, 0⟩, ⟨1, 1⟩, ⟨2, 2⟩, ⟨3, 1⟩, ⟨3, 3⟩, ⟨4, 1⟩, ⟨4, 4⟩, ⟨5, 3⟩, ⟨5, 5⟩, ⟨6, 6⟩]⟩

/-- The hypotheses of `C85_assembled` on the patterns are met; the pattern of the repeating block matrix has an entry in the
first repetition which the matrix does not need. -/
example : ∃ T, arrowheadTypes repeatS = .ok T ∧ ValidSparsity repeatWholeS [0, 1, 2, 3, 4, 5, 6] ∧
    CoupledAsIn repeatWholeS [0, 1, 2, 3, 4, 5, 6] repeatS T arrowD 1 ∧
    ¬ repeatWholeS.Assembles [0, 1, 2, 3, 4, 5, 6] repeatS T arrowD 1 := by
  have h : (do
      let T ← arrowheadTypes repeatS
      let c ← factorizationSparsity repeatWholeS [0, 1, 2, 3, 4, 5, 6]
      return decide ((∀ k ∈ positions arrowD 1,
        permAt [0, 1, 2, 3, 4, 5, 6] (arrowD.place 1 k) = arrowD.place 1 ⟨k.1, permAt (repeatS.perm k.1) k.2⟩ ∧
        ∀ l ∈ positions arrowD 1, c.Has (arrowD.place 1 k) (arrowD.place 1 l) → T.Has 1 k.1 k.2 l.1 l.2) ∧
        T.Has 1 (.tridiag 0) 1 (.tridiag 0) 0 ∧ ¬ c.Has 2 1)) =
      (.ok true : Res Bool) := by
    decide +kernel
  have hv : ValidSparsity repeatWholeS [0, 1, 2, 3, 4, 5, 6] :=
    ⟨by unfold Sparsity.InRange; decide, rfl, by unfold IsPerm; decide, by decide⟩
  obtain ⟨T, hT, h⟩ := bind_eq_ok.mp h
  obtain ⟨c, hc, h⟩ := bind_eq_ok.mp h
  obtain ⟨h1, h2, h3⟩ := of_decide_eq_true (Except.ok.inj h)
  obtain ⟨c', hc', hpat⟩ := factorizationSparsity_sat hv.inRange hv.square hv.perm hv.small
  obtain rfl : c = c' := Except.ok.inj (hc.symm.trans hc')
  refine ⟨T, hT, hv, ⟨rfl, fun k hk => (h1 k hk).1, fun k hk l hl hkl => (h1 k hk).2 l hl ?_⟩, fun hA => h3 ?_⟩
  · rw [Csr.Has, hpat.2.2.2.2]
    exact ⟨place_lt hk T, place_lt hl T, .base hkl hkl.1⟩
  · rw [Csr.Has, hpat.2.2.2.2]
    exact ⟨by decide, by decide, (hA.pattern ⟨.tridiag 0, 1⟩ (by decide) ⟨.tridiag 0, 0⟩ (by decide)).mpr h2⟩

/-- Witness: more entries than in `arrowS`. -/
def moreS : ArrowheadSparsity where
  start := ⟨⟨1, 1, [⟨0, 0⟩]⟩, ⟨2, 1, [⟨0, 0⟩, ⟨1, 0⟩]⟩, ⟨1, 1, [⟨0, 0⟩]⟩, [0]⟩
  tridiag := ⟨⟨2, 2, [⟨0, 0⟩, ⟨1, 0⟩, ⟨1, 1⟩]⟩, ⟨2, 2, [⟨0, 0⟩, ⟨0, 1⟩]⟩, [1, 0]⟩
  link := ⟨⟨1, 2, [⟨0, 1⟩, ⟨0, 0⟩]⟩, ⟨1, 1, [⟨0, 0⟩]⟩, ⟨1, 1, [⟨0, 0⟩]⟩, [0]⟩
  outer := ⟨⟨1, 2, [⟨0, 0⟩]⟩, ⟨1, 1, [⟨0, 0⟩]⟩, [0]⟩

theorem moreS_valid : moreS.Valid arrowD := by
  constructor <;> first
    | exact ⟨by unfold Sparsity.InRange; decide, rfl, rfl⟩
    | (unfold IsPerm; decide)
    | decide

theorem arrowS_within : arrowS.Within moreS := by
  have hmem : ∀ {p q : Sparsity}, (∀ e ∈ p.entries, e ∈ q.entries) → ∀ i j, p.Has i j → q.Has i j := fun h i j hh => h _ hh
  refine ⟨fun a => by cases a <;> rfl, fun a => ?_, hmem (by decide), hmem (by decide), hmem (by decide), hmem (by decide),
    hmem (by decide), hmem (by decide)⟩
  cases a with
  | tridiag t => exact hmem (p := arrowS.tridiag.diag) (q := moreS.tridiag.diag) (by decide)
  | _ => exact hmem (by decide)

/-- The hypotheses of `C85_repeating`, `C85_fits` and `C86_monotone` are met, and there are more entries in the factor. -/
example : ∃ T T', arrowheadTypes arrowS = .ok T ∧ arrowheadTypes moreS = .ok T' ∧ arrowM.Fits arrowS T arrowD 1 ∧
    arrowM.Fits moreS T' arrowD 1 ∧ (freshFactor moreS T' arrowD 1 (0 : ℚ)).Declared moreS T' arrowD 1 ∧
    T'.Has 1 (.tridiag 0) 0 .start 0 ∧ ¬ T.Has 1 (.tridiag 0) 0 .start 0 := by
  have h : (do
      let T ← arrowheadTypes arrowS
      let T' ← arrowheadTypes moreS
      return decide (T'.Has 1 (.tridiag 0) 0 .start 0 ∧ ¬ T.Has 1 (.tridiag 0) 0 .start 0)) =
      (.ok true : Res Bool) := by
    decide +kernel
  obtain ⟨T, hT, h⟩ := bind_eq_ok.mp h
  obtain ⟨T', hT', h⟩ := bind_eq_ok.mp h
  exact ⟨T, T', hT, hT', arrowM_fits hT, C85_fits arrowS moreS arrowD arrowS_valid moreS_valid arrowS_within T T' hT hT' 1 _
    (arrowM_fits hT), C21_constructible moreS arrowD T' hT' 1 0, of_decide_eq_true (Except.ok.inj h)⟩

/-- Solving with a fresh factor. -/
def moreSolve (s : ArrowheadSparsity) (b : ArrowheadVector Double) (method : Method) : Res (List Double) := do
  let T ← arrowheadTypes s
  let f ← (freshFactor s T arrowD 1 (.nan : Double)).factorize 2 1 1 doubleM regularizationNone method
  let x ← f.solveInPlace b
  return x.flat

/-- The two solutions are finite and the same in double precision. -/
example : (do
    let b : ArrowheadVector Double := ⟨[dbl 1], [[dbl 2, dbl 3], [dbl 4, dbl 5]], [dbl 6], [dbl 7]⟩
    let x ← moreSolve arrowS b .entryWise
    let x' ← moreSolve moreS b .entryWise
    return (x.all fun a => (Binary.number a).isSome, decide (x.map Binary.number = x'.map Binary.number))) =
      .ok (true, true) := by
  decide +kernel

end Ctldl
