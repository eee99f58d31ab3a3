import Verif.Model.Benchmark
import Verif.Props.Examples

/-! # C70: the benchmark programs -/

namespace Ctldl

variable {K : Type}

private theorem copyRightHandSide_eq {d : Dims} {N : Nat} {v w : ArrowheadVector K} (hv : v.OfSize d N)
    (hw : w.OfSize d N) : copyRightHandSide v w = .ok v := by
  unfold copyRightHandSide
  rw [if_pos (by rw [hv.num, hw.num]), List.drop_eq_nil_of_le (by rw [hv.num, hw.num]), List.append_nil]

private theorem benchmarkLoop_eq {σ : Type} {body : σ → Res σ} {P : σ → Prop} {y : σ}
    (h : ∀ x, P x → body x = .ok y) (hy : P y) : ∀ (n : Nat) (x : σ), P x → benchmarkLoop body n x = .ok (List.replicate n y)
  | 0, _, _ => rfl
  | n + 1, x, hx => by
    unfold benchmarkLoop
    rw [h x hx]
    simp only [ok_bind]
    rw [benchmarkLoop_eq h hy n y hy]
    rfl

/-- What a run of a benchmark should leave: the same factor and the same solution after each repetition. -/
def expectedRun (factor : ArrowheadFactor K) (solution : ArrowheadVector K) : BenchmarkName → Nat → BenchmarkRun K
  | .factorize, n => ⟨List.replicate n factor, []⟩
  | .solve, n => ⟨[], List.replicate n solution⟩
  | .combined, n => ⟨List.replicate n factor, List.replicate n solution⟩

private theorem runBenchmark_eq [Zero K] [One K] [Sub K] [Mul K] [Div K] {s : ArrowheadSparsity} {d : Dims}
    (hs : s.Valid d) {T : ArrowheadTypes} {N : Nat} {f f' : ArrowheadFactor K} (hf : f.Declared s T d N)
    {m : ArrowheadMatrix K} (hm : m.Fits s T d N) {reg : K → Nat → K}
    (h1 : f.factorize d.tridiag d.link d.outer m reg .upLooking = .ok f') (hf' : f'.Declared s T d N)
    {x : ArrowheadVector K} (h2 : f'.solveInPlace (exampleMtxRhs d.start d.tridiag d.link d.outer N) = .ok x)
    (hx : x.OfSize d N) {g : ArrowheadFactor K} (hg : g.Declared s T d N) (name : BenchmarkName) (n : Nat) :
    runBenchmark d.start d.tridiag d.link d.outer m N reg g name n = .ok (expectedRun f' x name n) := by
  have hr := rhs_ofSize (K := K) d N
  have hfac : ∀ g : ArrowheadFactor K, g.Declared s T d N →
      g.factorize d.tridiag d.link d.outer m reg .upLooking = .ok f' := fun g hg => by
    rw [C26_repeating_history_independent s d hs T N g f hg hf m hm reg .upLooking, h1]
  unfold runBenchmark
  cases name with
  | factorize =>
    simp only
    unfold benchmarkFactorize
    rw [benchmarkLoop_eq (P := fun g => g.Declared s T d N) hfac hf' n g hg]
    rfl
  | solve =>
    simp only
    unfold benchmarkSolve
    rw [hfac g hg]
    simp only [ok_bind]
    rw [benchmarkLoop_eq (P := fun v : ArrowheadVector K => v.OfSize d N) (y := x)
      (fun v hv => by rw [copyRightHandSide_eq hr hv]; exact h2) hx n _ hr]
    rfl
  | combined =>
    simp only
    have key : benchmarkCombined d.tridiag d.link d.outer m reg (exampleMtxRhs d.start d.tridiag d.link d.outer N) g n =
        .ok (List.replicate n (f', x)) := by
      refine benchmarkLoop_eq (P := fun st : ArrowheadFactor K × ArrowheadVector K =>
        st.1.Declared s T d N ∧ st.2.OfSize d N) (fun st hst => ?_) ⟨hf', hx⟩ n _ ⟨hg, hr⟩
      rw [copyRightHandSide_eq hr hst.2]
      simp only [ok_bind]
      rw [hfac _ hst.1]
      simp only [ok_bind]
      rw [h2]
      rfl
    rw [key]
    simp only [ok_bind, List.map_replicate]
    rfl

private theorem mapM_eq {α β : Type} {f : α → Res β} {g : α → β} : ∀ {l : List α}, (∀ a ∈ l, f a = .ok (g a)) →
    l.mapM f = .ok (l.map g)
  | [], _ => rfl
  | a :: l, h => by
    rw [List.mapM_cons, h a List.mem_cons_self]
    simp only [ok_bind]
    rw [mapM_eq fun b hb => h b (List.mem_cons_of_mem _ hb)]
    rfl

/-- C70: for any arithmetic, whatever is in the file as long as it has no integers of `2 ^ 64` and more, if it can be read
then there are a factor and a solution such that, however often the library of benchmarks makes which run with how many
repetitions, every repetition of every run leaves just these; and the solution is what the example program prints. If
the file cannot be read, nothing is run. -/
theorem C70_runs [Zero K] [One K] [Sub K] [Mul K] [Div K] (s : ArrowheadSparsity) (d : Dims) (hs : s.Valid d)
    (hd : 0 < d.tridiag) (T : ArrowheadTypes) (hT : arrowheadTypes s = .ok T) (convert : FloatLiteral → K)
    (reg : K → Nat → K) (text : List Char)
    (h : ∀ before t rest negative n, text = before ++ t ++ rest → SpellsInteger t negative n → n < 2 ^ 64) :
    (∀ m, mtxTextRead convert s text = .ok m → ∃ factor solution,
      (∀ construct : Nat → Nat → ArrowheadFactor K, (∀ i N, (construct i N).Declared s T d N) →
        ∀ runs, benchmarkMtx convert construct reg s text runs =
          .ok (runs.map fun run => expectedRun factor solution run.1 run.2)) ∧
      ∀ construct : Nat → ArrowheadFactor K, (∀ N, (construct N).Declared s T d N) → ∀ n, 0 < n →
        ∃ output, exampleMtx convert construct reg .upLooking s text n = .ok output ∧
          printedNumbers output = solution.flat) ∧
    ∀ e, mtxTextRead convert s text = .error e → ∀ construct runs,
      benchmarkMtx convert construct reg s text runs = .error e := by
  refine ⟨fun m hm => ?_, fun e he construct runs => ?_⟩
  · obtain ⟨N, dims, entries, -, -, -, h3, rfl⟩ := read_outcome hs hd hT (textScanner convert) _
      (C64_scans convert text h) m hm
    have hfresh := fun N => C21_constructible (K := K) s d T hT N 0
    obtain ⟨f', x, h4, h5, h6, -⟩ := exampleMtx_eq hs hm (construct := fun N => freshFactor s T d N 0) (hfresh _) h3 reg
      .upLooking 0
    refine ⟨f', x, fun construct hcon runs => ?_, fun construct hcon n hn => ?_⟩
    · obtain ⟨f'', h7, h8, -⟩ := C25_repeating_total s d hs T _ _ (hfresh _) m.toMatrix h3 reg .upLooking
      rw [h4] at h7
      cases h7
      unfold benchmarkMtx
      rw [hm]
      simp only [ok_bind]
      rw [valid_dimStart hs, valid_dimTridiag hs, valid_dimLink hs, valid_dimOuter hs]
      simp only [ok_bind]
      rw [mapM_eq (g := fun run : (BenchmarkName × Nat) × Nat => expectedRun f' x run.1.1 run.1.2) fun run _ =>
        runBenchmark_eq hs (hfresh _) h3 h4 h8 h5 h6 (hcon _ _) _ _]
      congr 1
      conv_rhs => rw [← List.zipIdx_map_fst 0 runs, List.map_map]
      rfl
    · obtain ⟨n, rfl⟩ := Nat.exists_eq_succ_of_ne_zero (by omega : n ≠ 0)
      obtain ⟨g', y, g4, g5, g6, g7⟩ := exampleMtx_eq hs hm (hcon _) h3 reg .upLooking n
      rw [C26_repeating_history_independent s d hs T _ _ _ (hcon _) (hfresh _) m.toMatrix h3 reg .upLooking, h4] at g4
      cases g4
      rw [h5] at g5
      cases g5
      exact ⟨_, g7, printed_output d _ h6⟩
  · unfold benchmarkMtx
    rw [he]
    rfl

/-- C70: the structures of the programs meet the hypotheses. -/
theorem C70_programs [Zero K] [One K] [Sub K] [Mul K] [Div K] (e : MtxExample) (convert : FloatLiteral → K)
    (reg : K → Nat → K) (text : List Char)
    (h : ∀ before t rest negative n, text = before ++ t ++ rest → SpellsInteger t negative n → n < 2 ^ 64) :
    ∃ s T, e.sparsity = .ok s ∧ arrowheadTypes s = .ok T ∧
      ((∃ factor solution, ∀ construct : Nat → Nat → ArrowheadFactor K,
        (∀ i N, (construct i N).Declared s T e.dims N) → ∀ runs, benchmarkMtx convert construct reg s text runs =
          .ok (runs.map fun run => expectedRun factor solution run.1 run.2)) ∨
      ∃ error, ∀ construct runs, benchmarkMtx convert construct reg s text runs = .error error) := by
  obtain ⟨s, h1, hs, hd, T, hT⟩ := C66_structures e
  obtain ⟨h2, h3⟩ := C70_runs s e.dims hs hd T hT convert reg text h
  refine ⟨s, T, h1, hT, ?_⟩
  cases hm : mtxTextRead convert s text with
  | ok m =>
    obtain ⟨f, x, h4, -⟩ := h2 m hm
    exact Or.inl ⟨f, x, h4⟩
  | error err => exact Or.inr ⟨err, h3 err hm⟩

/-- Four runs for the file of C66: the numbers of factors and the solutions after each repetition. -/
example : (do
    let T ← arrowheadTypes solveSparsity
    let runs ← benchmarkMtx exampleConvert (fun i N => freshFactor solveSparsity T ⟨0, 1, 0, 0⟩ N (17 * i))
      (regularizationSmallPositiveConstant abs 1 1) solveSparsity textExample
      [(.factorize, 2), (.solve, 1), (.solve, 3), (.combined, 2)]
    return runs.map fun r => (r.factors.length, r.solutions.map ArrowheadVector.flat) : Res _) =
    .ok [(2, []), (0, [[4 / 9, 1 / 9]]), (0, [[4 / 9, 1 / 9], [4 / 9, 1 / 9], [4 / 9, 1 / 9]]),
      (2, [[4 / 9, 1 / 9], [4 / 9, 1 / 9]])] := by decide +kernel

end Ctldl
