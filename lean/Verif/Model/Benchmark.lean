import Verif.Model.Examples

/-! # The benchmark programs, `examples/repeating/benchmark_mtx.cpp` -/

namespace Ctldl

variable {K : Type _}

/-- `copyRightHandSide`, `examples/repeating/benchmark_mtx.cpp:48-53`. Copying the blocks to a vector with fewer of them
is undefined. -/
def copyRightHandSide (input output : ArrowheadVector K) : Res (ArrowheadVector K) :=
  if input.tridiag.length ≤ output.tridiag.length then
    .ok ⟨input.start, input.tridiag ++ output.tridiag.drop input.tridiag.length, input.link, input.outer⟩
  else .error .ub

/-- The loop `for (auto _ : state)`, which the library of benchmarks repeats as often as it likes; the states after each
repetition. -/
def benchmarkLoop {σ : Type _} (body : σ → Res σ) : Nat → σ → Res (List σ)
  | 0, _ => .ok []
  | n + 1, x => do
    let y ← body x
    let ys ← benchmarkLoop body n y
    return y :: ys

/-- `benchmarkFactorize` with `runFactorize`, `examples/repeating/benchmark_mtx.cpp:55-79`. The object is the newly
constructed one; pointers which only keep the compiler from optimizing are left out here and below. -/
def benchmarkFactorize [Zero K] [Sub K] [Mul K] [Div K] (dimTridiag dimLink dimOuter : Nat)
    (matrix : ArrowheadMatrix K) (regularize : K → Nat → K) (constructed : ArrowheadFactor K) (n : Nat) :
    Res (List (ArrowheadFactor K)) :=
  benchmarkLoop (fun f => f.factorize dimTridiag dimLink dimOuter matrix regularize .upLooking) n constructed

/-- `benchmarkSolve` with `runSolve`, `examples/repeating/benchmark_mtx.cpp:81-112`. -/
def benchmarkSolve [Zero K] [Sub K] [Mul K] [Div K] (dimTridiag dimLink dimOuter : Nat)
    (matrix : ArrowheadMatrix K) (regularize : K → Nat → K) (rhs : ArrowheadVector K)
    (constructed : ArrowheadFactor K) (n : Nat) : Res (List (ArrowheadVector K)) := do
  let factorization ← constructed.factorize dimTridiag dimLink dimOuter matrix regularize .upLooking
  benchmarkLoop (fun v => do
    let rhsInSolutionOut ← copyRightHandSide rhs v
    factorization.solveInPlace rhsInSolutionOut) n rhs

/-- `benchmarkCombined` with `runCombined`, `examples/repeating/benchmark_mtx.cpp:114-149`. -/
def benchmarkCombined [Zero K] [Sub K] [Mul K] [Div K] (dimTridiag dimLink dimOuter : Nat)
    (matrix : ArrowheadMatrix K) (regularize : K → Nat → K) (rhs : ArrowheadVector K)
    (constructed : ArrowheadFactor K) (n : Nat) : Res (List (ArrowheadFactor K × ArrowheadVector K)) :=
  benchmarkLoop (fun state => do
    let rhsInSolutionOut ← copyRightHandSide rhs state.2
    let factorization ← state.1.factorize dimTridiag dimLink dimOuter matrix regularize .upLooking
    let rhsInSolutionOut ← factorization.solveInPlace rhsInSolutionOut
    return (factorization, rhsInSolutionOut)) n (constructed, rhs)

/-- The registered benchmarks, `examples/repeating/benchmark_mtx.cpp:165-171`. -/
inductive BenchmarkName where
  | factorize | solve | combined
  deriving DecidableEq

/-- What a run of a benchmark leaves after each repetition of its loop: factors and solutions. -/
structure BenchmarkRun (K : Type _) where
  factors : List (ArrowheadFactor K)
  solutions : List (ArrowheadVector K)

/-- A run of a benchmark with `n` repetitions of its loop. -/
def runBenchmark [Zero K] [One K] [Sub K] [Mul K] [Div K] (dimStart dimTridiag dimLink dimOuter : Nat)
    (matrix : ArrowheadMatrix K) (numRepetitions : Nat) (regularize : K → Nat → K) (constructed : ArrowheadFactor K)
    (name : BenchmarkName) (n : Nat) : Res (BenchmarkRun K) := do
  let rhs := exampleMtxRhs dimStart dimTridiag dimLink dimOuter numRepetitions
  match name with
  | .factorize => return ⟨← benchmarkFactorize dimTridiag dimLink dimOuter matrix regularize constructed n, []⟩
  | .solve => return ⟨[], ← benchmarkSolve dimTridiag dimLink dimOuter matrix regularize rhs constructed n⟩
  | .combined =>
    let states ← benchmarkCombined dimTridiag dimLink dimOuter matrix regularize rhs constructed n
    return ⟨states.map (·.1), states.map (·.2)⟩

/-- `main` with an argument, `examples/repeating/benchmark_mtx.cpp:154-175`. Arguments are the content of the file and the
runs which the library of benchmarks makes, with the numbers of repetitions which it chooses; the regularization and the
constructor, whose objects have indeterminate numbers which may differ in each run, are parameters. -/
def benchmarkMtx [Zero K] [One K] [Sub K] [Mul K] [Div K] (convert : FloatLiteral → K)
    (construct : Nat → Nat → ArrowheadFactor K) (regularize : K → Nat → K) (s : ArrowheadSparsity)
    (text : List Char) (runs : List (BenchmarkName × Nat)) : Res (List (BenchmarkRun K)) := do
  let matrix ← mtxTextRead convert s text
  let numRepetitions := matrix.tridiagSubdiag.length
  runs.zipIdx.mapM fun run => do
    runBenchmark (← s.dimStart) (← s.dimTridiag) (← s.dimLink) (← s.dimOuter) matrix.toMatrix numRepetitions
      regularize (construct run.2 numRepetitions) run.1.1 run.1.2

end Ctldl
