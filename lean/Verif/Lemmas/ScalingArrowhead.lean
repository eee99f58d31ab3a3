import Verif.Lemmas.GradedArrowhead
import Verif.Lemmas.Scaling
import Verif.Lemmas.Mixed
import Verif.Lemmas.MultiplyFour

/-! # Scaled matrices: two executions in one -/

namespace Ctldl

theorem MatIn.Sized.of_map {K F : Type} {m : MatIn K} {g : K → F} (h : (m.map g).Sized) : m.Sized := by
  simpa only [MatIn.Sized, MatIn.map, List.length_map] using h

/-- Replacing the stored numbers of a matrix does not change its pattern. -/
theorem ArrowheadMatrix.Fits.of_map {K F : Type} {m : ArrowheadMatrix K} {s : ArrowheadSparsity} {T : ArrowheadTypes}
    {d : Dims} {N : Nat} {g : K → F} (h : (m.map g).Fits s T d N) : m.Fits s T d N where
  numDiag := by simpa [ArrowheadMatrix.map] using h.numDiag
  numSubdiag := by simpa [ArrowheadMatrix.map] using h.numSubdiag
  numOuter := by simpa [ArrowheadMatrix.map] using h.numOuter
  diag := by
    intro b hb
    obtain ⟨h1, h2⟩ := h.diag b hb
    rw [ArrowheadMatrix.diagBlock_map] at h1 h2
    exact ⟨h1.of_map, h2⟩
  lower := by
    intro a b q c hq hc
    have e : (m.map g).lowerBlock N a b = (m.lowerBlock N a b).map (·.map g) := by
      rcases a with _ | (_ | t) | _ | _ <;> rcases b with _ | u | _ | _ <;>
        simp only [ArrowheadMatrix.lowerBlock, ArrowheadMatrix.map, Option.map_none, Option.map_some,
          apply_ite (Option.map _), List.getElem?_map]
    obtain ⟨h1, h2⟩ := h.lower a b (q.map g) c (by rw [e, hq]; rfl) hc
    exact ⟨h1.of_map, h2⟩

theorem storedAt_map {K F : Type} [Zero K] [Zero F] {g : K → F} (hg : g 0 = 0) (f : ArrowheadFactor K) (N : Nat)
    (k l : Σ _ : Blk, Nat) : (f.map g).storedAt N k l = g (f.storedAt N k l) := by
  obtain ⟨a, i⟩ := k
  obtain ⟨b, j⟩ := l
  have e : (f.map g).diagBlock a = (f.diagBlock a).map (·.map g) := by
    cases a <;> simp only [ArrowheadFactor.diagBlock, ArrowheadFactor.map, List.getElem?_map, Option.map_some]
  have e' : (f.map g).lowerBlock N a b = (f.lowerBlock N a b).map (·.map g) := by
    rcases a with _ | (_ | t) | _ | _ <;> rcases b with _ | u | _ | _ <;>
      simp only [ArrowheadFactor.lowerBlock, ArrowheadFactor.map, Option.map_none, Option.map_some,
        apply_ite (Option.map _), List.getElem?_map]
  unfold ArrowheadFactor.storedAt
  dsimp only
  rw [e, e']
  split
  · cases f.diagBlock a with
    | none => exact hg.symm
    | some x => exact elem_map hg (⟨x.sparsity.toSparsity, x.L⟩ : MatIn K) i j
  · cases f.lowerBlock N a b with
    | none => exact hg.symm
    | some x => exact elem_map hg (⟨x.sparsity.toSparsity, x.L⟩ : MatIn K) i j

theorem OfSize.shape {K K' : Type} {b : ArrowheadVector K} {b' : ArrowheadVector K'} {d : Dims} {N : Nat}
    (h : b.OfSize d N) (h' : b'.OfSize d N) : b.map (fun _ => ()) = b'.map (fun _ => ()) := by
  have one : ∀ {l : List K} {l' : List K'} {n : Nat}, l.length = n → l'.length = n →
      l.map (fun _ => ()) = l'.map (fun _ => ()) := by
    intro l l' n e e'
    rw [List.map_const', List.map_const', e, e']
  have two : b.tridiag.map (·.map fun _ => ()) = b'.tridiag.map (·.map fun _ => ()) := by
    refine List.ext_getElem (by simp [h.num, h'.num]) fun i h1 h2 => ?_
    rw [List.getElem_map, List.getElem_map]
    exact one (h.tridiag _ (List.getElem_mem _)) (h'.tridiag _ (List.getElem_mem _))
  simp only [ArrowheadVector.map, two, one h.start h'.start, one h.link h'.link, one h.outer h'.outer]

variable {fmt : Format} {s : ArrowheadSparsity} {T : ArrowheadTypes} {d : Dims} {N : Nat}

instance : Inhabited (Tracked fmt) := ⟨0⟩

theorem ArrowheadVector.map_map {K F G : Type} (x : ArrowheadVector K) (g : K → F) (g' : F → G) :
    (x.map g).map g' = x.map (fun y => g' (g y)) := by
  simp [ArrowheadVector.map, Function.comp_def]

theorem given_value_factor (f : ArrowheadFactor (Binary fmt)) : (f.map Tracked.given).map Tracked.value = f := by
  rw [ArrowheadFactor.map_map]
  simp [ArrowheadFactor.map, DiagFactor.map, SubFactor.map, Tracked.given]

theorem given_value_matrix (f : ArrowheadMatrix (Binary fmt)) : (f.map Tracked.given).map Tracked.value = f := by
  rw [ArrowheadMatrix.map_map]
  simp [ArrowheadMatrix.map, MatIn.map, Tracked.given]

theorem given_value_vector (f : ArrowheadVector (Binary fmt)) : (f.map Tracked.given).map Tracked.value = f := by
  rw [ArrowheadVector.map_map]
  simp [ArrowheadVector.map, Tracked.given]

/-- The execution with flags computes the same values. -/
theorem tracked_factorize {f : ArrowheadFactor (Binary fmt)} {m : ArrowheadMatrix (Binary fmt)}
    {reg : Binary fmt → Nat → Binary fmt} {method : Method} {t : ArrowheadFactor (Tracked fmt)}
    (h : (f.map Tracked.given).factorize d.tridiag d.link d.outer (m.map Tracked.given) (Tracked.lift reg) method = .ok t) :
    f.factorize d.tridiag d.link d.outer m reg method = .ok (t.map Tracked.value) := by
  have e := ArrowheadFactor.factorize_hom (reg := Tracked.lift reg) (reg' := reg) value_hom (fun _ _ => rfl) d.tridiag
    d.link d.outer (f.map Tracked.given) (m.map Tracked.given) method
  rw [given_value_factor, given_value_matrix, h] at e
  exact e

theorem tracked_solve {t : ArrowheadFactor (Tracked fmt)} {b : ArrowheadVector (Binary fmt)}
    {y : ArrowheadVector (Tracked fmt)} (h : t.solveInPlace (b.map Tracked.given) = .ok y) :
    (t.map Tracked.value).solveInPlace b = .ok (y.map Tracked.value) := by
  have e := ArrowheadFactor.solveInPlace_hom value_hom t (b.map Tracked.given)
  rw [given_value_vector, h] at e
  exact e

/-- Factorizing two matrices at the same time. -/
theorem pair_factorize (hs : s.Valid d) (hT : TypesOk s T d) {f f' : ArrowheadFactor (Binary fmt)}
    (hf : f.Declared s T d N) (hf' : f'.Declared s T d N) {m m' : ArrowheadMatrix (Binary fmt)} (hm : m.Fits s T d N)
    (hm' : m'.Fits s T d N) (hmm : m.map (fun _ => ()) = m'.map (fun _ => ())) {reg reg' : Binary fmt → Nat → Binary fmt}
    (method : Method) {c : Int} {α : Blk → Nat → Int} (hA : ∀ a ∈ blocks N, ∀ b ∈ blocks N, ∀ i < d.of a,
      ∀ j < d.of b, Scaled (c + α a i + α b j) (m.symElement N a b i j) (m'.symElement N a b i j))
    (hreg : ∀ k ∈ positions d N, ∀ x x',
      Scaled (c + α k.1 (permAt (s.perm k.1) k.2) + α k.1 (permAt (s.perm k.1) k.2)) x x' →
      Scaled (c + α k.1 (permAt (s.perm k.1) k.2) + α k.1 (permAt (s.perm k.1) k.2)) (reg x k.2) (reg' x' k.2)) :
    ∃ z : ArrowheadFactor (Tracked fmt × Tracked fmt), z.Declared s T d N ∧ FactorGraded TrackedScaled c α s d N z ∧
      (f.map Tracked.given).factorize d.tridiag d.link d.outer (m.map Tracked.given) (Tracked.lift reg) method =
        .ok (z.map Prod.fst) ∧
      (f'.map Tracked.given).factorize d.tridiag d.link d.outer (m'.map Tracked.given) (Tracked.lift reg') method =
        .ok (z.map Prod.snd) := by
  obtain ⟨M, hM, hM'⟩ := numberingArrowheadMatrix.zip (m.map Tracked.given) (m'.map Tracked.given) (by
    change (m.map Tracked.given).map _ = (m'.map Tracked.given).map _
    rw [ArrowheadMatrix.map_map, ArrowheadMatrix.map_map]
    exact hmm)
  change M.map Prod.fst = _ at hM
  change M.map Prod.snd = _ at hM'
  have hF : (f.map fun x => (Tracked.given x, (0 : Tracked fmt))).Declared s T d N := hf.map _
  have fM : M.Fits s T d N := ArrowheadMatrix.Fits.of_map (g := Prod.fst) (by rw [hM]; exact hm.map _)
  obtain ⟨z, h1, h2, h3⟩ := arrowheadFactorize_graded (P := TrackedScaled) trackedScaled_grading hs hT hF fM
    (reg := fun x i => (Tracked.lift reg x.1 i, Tracked.lift reg' x.2 i)) method (c := c) (α := α)
    (fun a ha b hb i hi j hj _ _ => by
      have e1 : (M.symElement N a b i j).1 = _ := (matrix_symElement_map (g := Prod.fst) rfl M N a b i j).symm
      have e2 : (M.symElement N a b i j).2 = _ := (matrix_symElement_map (g := Prod.snd) rfl M N a b i j).symm
      rw [hM, matrix_symElement_map rfl] at e1
      rw [hM', matrix_symElement_map rfl] at e2
      rw [e1, e2]
      exact hA a ha b hb i hi j hj)
    (fun k hk x hx r1 r2 => hreg k hk _ _ (hx r1 r2))
  have e1 := ArrowheadFactor.factorize_hom (reg := fun x i => (Tracked.lift reg x.1 i, Tracked.lift reg' x.2 i))
    (reg' := Tracked.lift reg) fst_hom (fun _ _ => rfl) d.tridiag d.link d.outer (f.map fun x => (Tracked.given x, (0 : Tracked fmt))) M
    method
  have e2 := ArrowheadFactor.factorize_hom (reg := fun x i => (Tracked.lift reg x.1 i, Tracked.lift reg' x.2 i))
    (reg' := Tracked.lift reg') snd_hom (fun _ _ => rfl) d.tridiag d.link d.outer (f.map fun x => (Tracked.given x, (0 : Tracked fmt))) M
    method
  rw [h1] at e1 e2
  rw [hM, ArrowheadFactor.map_map] at e1
  rw [hM', ArrowheadFactor.map_map] at e2
  refine ⟨z, h2, h3, e1, ?_⟩
  rw [factorize_unique hs hT (hf'.map _) (hf.map _) (hm'.map _).matrixOk (hm'.map _).matrixOk _ _
    ⟨fun _ _ _ _ _ => rfl, fun _ _ _ _ => rfl, fun _ _ _ _ _ => rfl, fun _ _ _ _ _ => rfl, fun _ _ _ => rfl,
      fun _ _ => rfl⟩]
  exact e2

/-- Solving two systems at the same time. -/
theorem pair_solve (hs : s.Valid d) (hT : TypesOk s T d) {z : ArrowheadFactor (Tracked fmt × Tracked fmt)}
    (hz : z.Declared s T d N) {c e : Int} {α : Blk → Nat → Int} (hG : FactorGraded TrackedScaled c α s d N z)
    {b b' : ArrowheadVector (Binary fmt)} (hb : b.OfSize d N) (hb' : b'.OfSize d N)
    (hw : ∀ a ∈ blocks N, ∀ i < d.of a, Scaled (e + α a i) (b.at a i) (b'.at a i)) :
    ∃ y : ArrowheadVector (Tracked fmt × Tracked fmt),
      (∀ a ∈ blocks N, ∀ i < d.of a, TrackedScaled (e - c - α a i) (y.at a i)) ∧
      (z.map Prod.fst).solveInPlace (b.map Tracked.given) = .ok (y.map Prod.fst) ∧
      (z.map Prod.snd).solveInPlace (b'.map Tracked.given) = .ok (y.map Prod.snd) := by
  obtain ⟨v, hv, hv'⟩ := numberingArrowheadVector.zip (b.map Tracked.given) (b'.map Tracked.given)
    (OfSize.shape (hb.map _) (hb'.map _))
  change v.map Prod.fst = _ at hv
  change v.map Prod.snd = _ at hv'
  have dv : v.OfSize d N := ArrowheadVector.OfSize.of_map (g := Prod.fst) (by rw [hv]; exact hb.map _)
  obtain ⟨y, h1, h2⟩ := arrowheadSolve_graded (P := TrackedScaled) trackedScaled_grading hs hT hz hG dv (e := e)
    (fun a ha i hi _ _ => by
      have e1 : (v.at a i).1 = _ := (ArrowheadVector.at_map (g := Prod.fst) rfl v a i).symm
      have e2 : (v.at a i).2 = _ := (ArrowheadVector.at_map (g := Prod.snd) rfl v a i).symm
      rw [hv, ArrowheadVector.at_map rfl] at e1
      rw [hv', ArrowheadVector.at_map rfl] at e2
      rw [e1, e2]
      exact hw a ha i hi)
  have e1 := ArrowheadFactor.solveInPlace_hom fst_hom z v
  have e2 := ArrowheadFactor.solveInPlace_hom snd_hom z v
  rw [h1] at e1 e2
  rw [hv] at e1
  rw [hv'] at e2
  exact ⟨y, h2, e1, e2⟩

end Ctldl
