import Verif.Lemmas.ScalingArrowhead
import Verif.Props.Factorize

/-! # Scaled matrices: the class for single matrices -/

namespace Ctldl

private theorem fits1 {K : Type} {f : DiagFactor K} {s : Sparsity} {p : List Nat} (hv : ValidSparsity s p)
    (hf : f.Declared s p) {m : MatIn K} (hm : m.Fits s p) : Fits1 m f s.numRows := by
  refine ⟨hm.sized, ⟨hm.inRange, hm.rows, hm.cols⟩, ?_⟩
  intro i j hij
  rw [hf.perm] at hij
  have h1 := hm.subset i j hij
  rw [Csr.Has, (hf.closed1 hv).2.2.2.2]
  have h2 := hij.1
  have h3 := hij.2.1
  rw [hm.rows] at h3
  exact ⟨h3, by omega, h1⟩

section

variable {K : Type} [Zero K] [Sub K] [Mul K] [Div K] {P : Int → K → Prop} {s : Sparsity} {p : List Nat}

private theorem of_eq {v w : Int} {a : K} (h : P v a) (e : v = w) : P w a := e ▸ h

/-- Entries and pivots have their weights. -/
structure SingleGraded (P : Int → K → Prop) (c : Int) (α : Nat → Int) (s : Sparsity) (p : List Nat) (f : DiagFactor K) :
    Prop where
  entry : ∀ i < s.numRows, ∀ j < s.numRows, P (α (permAt p i) - α (permAt p j)) (f.lower i j)
  pivot : ∀ i < s.numRows, P (c + α (permAt p i) + α (permAt p i)) (f.pivot i)

theorem singleFactorize_graded (hP : Grading P) (hv : ValidSparsity s p) {f : DiagFactor K} (hf : f.Declared s p)
    {m : MatIn K} (hm : m.Fits s p) {reg : K → Nat → K} (method : Method) {c : Int} {α : Nat → Int}
    (hA : ∀ i < s.numRows, ∀ j < s.numRows, P (c + α i + α j) (m.sym i j))
    (hreg : ∀ i < s.numRows, ∀ x, P (c + α (permAt p i) + α (permAt p i)) x →
      P (c + α (permAt p i) + α (permAt p i)) (reg x i)) :
    Sat (f.factorize m reg method) fun f' => f'.Declared s p ∧ SingleGraded P c α s p f' := by
  have hc := (hf.closed1 hv).1
  obtain ⟨f', h, L, D, rfl, hL, hD, hr⟩ := factorize_sat hc (fits1 hv hf hm) reg method
  have hlt : ∀ {i j}, f.sparsity.Has i j → i < s.numRows ∧ j < s.numRows :=
    fun hij => ⟨hc.ok.rows ▸ hc.ok.good.row_lt hij, hc.ok.cols ▸ hc.ok.good.col_lt hij⟩
  have hpl : ∀ i < s.numRows, permAt p i < s.numRows := fun i hi => hv.perm.lt hi
  have hsym : ∀ i j, a22Of (.matrix m) f i j = m.sym (permAt p i) (permAt p j) := by
    intro i j
    rw [← hf.perm]
    rfl
  obtain ⟨h1, h2⟩ := singleRow_graded hP (u := fun i => α (permAt p i)) hr hreg hc.ok.lower (fun i j hij => by
      rw [hsym]
      exact hA _ (hpl i (hlt hij).1) _ (hpl j (hlt hij).2))
    (fun i hi => by
      have : aDOf (.matrix m) f i = m.sym (permAt p i) (permAt p i) := by rw [← hf.perm]; rfl
      rw [this]
      exact hA _ (hpl i hi) _ (hpl i hi))
  refine ⟨_, h, ⟨hf.pattern, hf.perm, hL, hD⟩, fun i hi j hj => ?_, h2⟩
  by_cases hij : f.sparsity.Has i j
  · exact h1 i j hi hij
  · have : (⟨f.sparsity, f.permutation, L, D⟩ : DiagFactor K).lower i j = 0 := if_neg hij
    rw [this]
    exact hP.zero _

theorem singleSolve_graded (hP : Grading P) (hv : ValidSparsity s p) {f : DiagFactor K} (hf : f.Declared s p)
    {c e : Int} {α : Nat → Int} (hG : SingleGraded P c α s p f) {b : List K} (hb : b.length = s.numRows)
    (hw : ∀ i < s.numRows, P (e + α i) (b.getD i 0)) :
    Sat (f.solveInPlace b) fun x => ∀ i < s.numRows, P (e - c - α i) (x.getD i 0) := by
  have hc := (hf.closed1 hv).1
  obtain ⟨y, hy, hyd, hyv⟩ := forwardInPlace_sat hc.ok hc.perm hb
  obtain ⟨z, hz, hzd, hzv⟩ := diagonalSolve_sat hc.ok hc.perm hyd
  obtain ⟨x, hx, hxd, hxv⟩ := backwardInPlace_sat hc.ok hc.perm hzd
  rw [hf.perm] at hyv hzv hxv
  have hlt : ∀ {i j}, f.sparsity.Has i j → i < s.numRows ∧ j < s.numRows :=
    fun hij => ⟨hc.ok.rows ▸ hc.ok.good.row_lt hij, hc.ok.cols ▸ hc.ok.good.col_lt hij⟩
  have gy : ∀ i < s.numRows, P (e + α (permAt p i)) (atp p y i) := by
    intro i
    induction i using Nat.strong_induction_on with
    | _ i ih =>
      intro hi
      rw [hyv i hi]
      refine hP.subAll (hw _ (hv.perm.lt hi)) fun j hj => ?_
      have hij := Csr.mem_cols.mp hj
      exact of_eq (hP.mul (hG.entry i hi j (hlt hij).2) (ih j (hc.ok.lower _ _ hij) (hlt hij).2)) (by ring)
  have gz : ∀ i < s.numRows, P (e - c - α (permAt p i)) (atp p z i) := by
    intro i hi
    rw [hzv i hi]
    exact of_eq (hP.div (gy i hi) (hG.pivot i hi)) (by ring)
  have gx : ∀ n, ∀ i < s.numRows, s.numRows - i = n → P (e - c - α (permAt p i)) (atp p x i) := by
    intro n
    induction n using Nat.strong_induction_on with
    | _ n ih =>
      intro j hj hn
      rw [hxv j hj]
      refine hP.subAll (gz j hj) fun i hi => ?_
      have hij : f.sparsity.Has i j := by simpa using (List.mem_filter.mp hi).2
      have := hc.ok.lower _ _ hij
      exact of_eq (hP.mul (hG.entry i (hlt hij).1 j hj) (ih _ (by omega) i (hlt hij).1 rfl)) (by ring)
  refine ⟨x, ?_, fun i hi => ?_⟩
  · unfold DiagFactor.solveInPlace
    rw [hy, ok_bind, hz, ok_bind, hx]
  · obtain ⟨j, hj, rfl⟩ := hv.perm.surj hi
    exact gx _ j hj rfl

end

theorem DiagFactor.Declared.map' {K F : Type} {f : DiagFactor K} {s : Sparsity} {p : List Nat} (h : f.Declared s p)
    (g : K → F) : (f.map g).Declared s p :=
  ⟨h.pattern, h.perm, (List.length_map _).trans h.sizeL, (List.length_map _).trans h.sizeD⟩

theorem MatIn.Fits.map' {K F : Type} {m : MatIn K} {s : Sparsity} {p : List Nat} (h : m.Fits s p) (g : K → F) :
    (m.map g).Fits s p :=
  ⟨(List.length_map _).trans h.sized, h.inRange, h.rows, h.cols, h.subset⟩

theorem MatIn.Fits.of_map' {K F : Type} {m : MatIn K} {s : Sparsity} {p : List Nat} {g : K → F}
    (h : (m.map g).Fits s p) : m.Fits s p :=
  ⟨h.sized.of_map, h.inRange, h.rows, h.cols, h.subset⟩

variable {fmt : Format} {s : Sparsity} {p : List Nat}

/-- Factorizing two matrices at the same time. -/
theorem pair_factorize_single (hv : ValidSparsity s p) {f f' : DiagFactor (Binary fmt)}
    (hf : f.Declared s p) (hf' : f'.Declared s p) {m m' : MatIn (Binary fmt)} (hm : m.Fits s p)
    (hm' : m'.Fits s p) (hmm : m.sparsity = m'.sparsity) {reg reg' : Binary fmt → Nat → Binary fmt}
    (method : Method) {c : Int} {α : Nat → Int} (hA : ∀ i < s.numRows, ∀ j < s.numRows,
      Scaled (c + α i + α j) (m.sym i j) (m'.sym i j))
    (hreg : ∀ i < s.numRows, ∀ x x', Scaled (c + α (permAt p i) + α (permAt p i)) x x' →
      Scaled (c + α (permAt p i) + α (permAt p i)) (reg x i) (reg' x' i)) :
    ∃ z : DiagFactor (Tracked fmt × Tracked fmt), z.Declared s p ∧ SingleGraded TrackedScaled c α s p z ∧
      (f.map Tracked.given).factorize (m.map Tracked.given) (Tracked.lift reg) method = .ok (z.map Prod.fst) ∧
      (f'.map Tracked.given).factorize (m'.map Tracked.given) (Tracked.lift reg') method = .ok (z.map Prod.snd) := by
  have h1 := hm.sized
  have h2 := hm'.sized
  unfold MatIn.Sized at h1 h2
  obtain ⟨M, hM, hM'⟩ := numberingMat.zip (m.map Tracked.given) (m'.map Tracked.given) (by
    change (m.map Tracked.given).map _ = (m'.map Tracked.given).map _
    simp only [MatIn.map, List.map_const', List.length_map, hmm, h1, h2])
  change M.map Prod.fst = _ at hM
  change M.map Prod.snd = _ at hM'
  have hF : (f.map fun x => (Tracked.given x, (0 : Tracked fmt))).Declared s p := hf.map' _
  have fM : M.Fits s p := MatIn.Fits.of_map' (g := Prod.fst) (by rw [hM]; exact hm.map' _)
  obtain ⟨z, h1, h2, h3⟩ := singleFactorize_graded (P := TrackedScaled) trackedScaled_grading hv hF fM
    (reg := fun x i => (Tracked.lift reg x.1 i, Tracked.lift reg' x.2 i)) method (c := c) (α := α)
    (fun i hi j hj _ _ => by
      have e1 : (M.sym i j).1 = _ := (sym_map (g := Prod.fst) rfl M i j).symm
      have e2 : (M.sym i j).2 = _ := (sym_map (g := Prod.snd) rfl M i j).symm
      rw [hM, sym_map rfl] at e1
      rw [hM', sym_map rfl] at e2
      rw [e1, e2]
      exact hA i hi j hj)
    (fun i hi x hx r1 r2 => hreg i hi _ _ (hx r1 r2))
  have e1 := DiagFactor.factorize_hom (reg := fun x i => (Tracked.lift reg x.1 i, Tracked.lift reg' x.2 i))
    (reg' := Tracked.lift reg) fst_hom (fun _ _ => rfl) (f.map fun x => (Tracked.given x, (0 : Tracked fmt))) M method
  have e2 := DiagFactor.factorize_hom (reg := fun x i => (Tracked.lift reg x.1 i, Tracked.lift reg' x.2 i))
    (reg' := Tracked.lift reg') snd_hom (fun _ _ => rfl) (f.map fun x => (Tracked.given x, (0 : Tracked fmt))) M method
  rw [h1] at e1 e2
  rw [hM, DiagFactor.map_map] at e1
  rw [hM', DiagFactor.map_map] at e2
  refine ⟨z, h2, h3, e1, ?_⟩
  rw [C26_history_independent s p hv _ _ (hf'.map' _) (hf.map' _) _ (hm'.map' _)]
  exact e2

/-- Solving two systems at the same time. -/
theorem pair_solve_single (hv : ValidSparsity s p) {z : DiagFactor (Tracked fmt × Tracked fmt)}
    (hz : z.Declared s p) {c e : Int} {α : Nat → Int} (hG : SingleGraded TrackedScaled c α s p z)
    {b b' : List (Binary fmt)} (hb : b.length = s.numRows) (hb' : b'.length = s.numRows)
    (hw : ∀ i < s.numRows, Scaled (e + α i) (b.getD i 0) (b'.getD i 0)) :
    ∃ y : List (Tracked fmt × Tracked fmt),
      (∀ i < s.numRows, TrackedScaled (e - c - α i) (y.getD i 0)) ∧
      (z.map Prod.fst).solveInPlace (b.map Tracked.given) = .ok (y.map Prod.fst) ∧
      (z.map Prod.snd).solveInPlace (b'.map Tracked.given) = .ok (y.map Prod.snd) := by
  obtain ⟨v, hv1, hv2⟩ := numberingList.zip (b.map Tracked.given) (b'.map Tracked.given) (by
    change (b.map Tracked.given).map _ = (b'.map Tracked.given).map _
    simp only [List.map_const', List.length_map, hb, hb'])
  change v.map Prod.fst = _ at hv1
  change v.map Prod.snd = _ at hv2
  have key : ∀ {K F : Type} [Zero K] [Zero F] (g : K → F), g 0 = 0 → ∀ (l : List K) i, (l.map g).getD i 0 = g (l.getD i 0) :=
    fun g hg l i => by rw [← hg, List.getD_map]
  have dv : v.length = s.numRows := by
    have := congrArg List.length hv1
    simpa [hb] using this
  obtain ⟨y, h1, h2⟩ := singleSolve_graded (P := TrackedScaled) trackedScaled_grading hv hz hG dv (e := e)
    (fun i hi _ _ => by
      have e1 : (v.getD i 0).1 = _ := (key Prod.fst rfl v i).symm
      have e2 : (v.getD i 0).2 = _ := (key Prod.snd rfl v i).symm
      rw [hv1, key _ rfl] at e1
      rw [hv2, key _ rfl] at e2
      rw [e1, e2]
      exact hw i hi)
  have e1 := DiagFactor.solveInPlace_hom fst_hom z v
  have e2 := DiagFactor.solveInPlace_hom snd_hom z v
  rw [h1] at e1 e2
  rw [hv1] at e1
  rw [hv2] at e2
  exact ⟨y, h2, e1, e2⟩

theorem tracked_factorize_single {f : DiagFactor (Binary fmt)} {m : MatIn (Binary fmt)}
    {reg : Binary fmt → Nat → Binary fmt} {method : Method} {t : DiagFactor (Tracked fmt)}
    (h : (f.map Tracked.given).factorize (m.map Tracked.given) (Tracked.lift reg) method = .ok t) :
    f.factorize m reg method = .ok (t.map Tracked.value) := by
  have e := DiagFactor.factorize_hom (reg := Tracked.lift reg) (reg' := reg) value_hom (fun _ _ => rfl)
    (f.map Tracked.given) (m.map Tracked.given) method
  have hi : (Tracked.value ∘ Tracked.given : Binary fmt → Binary fmt) = id := rfl
  have h1 : (f.map Tracked.given).map Tracked.value = f := by
    simp [DiagFactor.map, hi]
  have h2 : (m.map Tracked.given).map Tracked.value = m := by
    simp [MatIn.map, hi]
  rw [h1, h2, h] at e
  exact e

theorem tracked_solve_single {t : DiagFactor (Tracked fmt)} {b : List (Binary fmt)} {y : List (Tracked fmt)}
    (h : t.solveInPlace (b.map Tracked.given) = .ok y) :
    (t.map Tracked.value).solveInPlace b = .ok (y.map Tracked.value) := by
  have e := DiagFactor.solveInPlace_hom value_hom t (b.map Tracked.given)
  rw [h, List.map_map] at e
  have hb : b.map (Tracked.value ∘ Tracked.given) = b := by
    have : (Tracked.value ∘ Tracked.given : Binary fmt → Binary fmt) = id := rfl
    rw [this, List.map_id]
  rw [hb] at e
  exact e

end Ctldl
