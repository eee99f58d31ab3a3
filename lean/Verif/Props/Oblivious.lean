import Verif.Lemmas.Oblivious
import Verif.Props.Factorize

/-! # C51: the operations performed do not depend on the numbers -/

namespace Ctldl

/-- C51, single matrix: whether factorizing succeeds, and every number of the factor as an expression in the numbers
of the matrix (and those stored before), are determined by patterns, sizes and method. -/
theorem C51_factorize (f₀ : DiagFactor Unit) (matrix₀ : MatIn Unit) (method : Method) :
    ∃ r : Res (DiagFactor Expr), ∀ (K : Type) [Zero K] [Sub K] [Mul K] [Div K] (regularize : K → Nat → K)
      (f : DiagFactor K) (matrix : MatIn K), f.shape = f₀ → matrix.shape = matrix₀ →
        f.factorize matrix regularize method =
          (do return (← r).map (Expr.eval regularize (f.numbers ++ matrix.numbers))) := by
  refine ⟨((numberingDiag.pair numberingMat).inputs (f₀, matrix₀)).1.factorize
    ((numberingDiag.pair numberingMat).inputs (f₀, matrix₀)).2 Expr.regularize method, ?_⟩
  rintro K _ _ _ _ regularize f matrix rfl rfl
  have h := (numberingDiag.pair numberingMat).inputs_eval regularize (f, matrix)
  rw [← DiagFactor.factorize_hom (reg' := regularize) (Expr.eval_hom ..) (fun _ _ => rfl)]
  exact (congrArg₂ (fun f m => DiagFactor.factorize f m regularize method) (congrArg Prod.fst h)
    (congrArg Prod.snd h)).symm

/-- C51, single matrix: the solution consists of expressions determined by patterns and sizes. -/
theorem C51_solve (f₀ : DiagFactor Unit) (b₀ : List Unit) :
    ∃ r : Res (List Expr), ∀ (K : Type) [Zero K] [Sub K] [Mul K] [Div K] (f : DiagFactor K) (b : List K),
      f.shape = f₀ → b.map (fun _ => ()) = b₀ →
        f.solveInPlace b = (do return (← r).map (Expr.eval regularizationNone (f.numbers ++ b))) := by
  refine ⟨((numberingDiag.pair numberingList).inputs (f₀, b₀)).1.solveInPlace
    ((numberingDiag.pair numberingList).inputs (f₀, b₀)).2, ?_⟩
  rintro K _ _ _ _ f b rfl rfl
  have h := (numberingDiag.pair numberingList).inputs_eval regularizationNone (f, b)
  rw [← DiagFactor.solveInPlace_hom (Expr.eval_hom ..)]
  exact (congrArg₂ DiagFactor.solveInPlace (congrArg Prod.fst h) (congrArg Prod.snd h)).symm

/-- C51, repeating class. -/
theorem C51_repeating_factorize (dimTridiag dimLink dimOuter : Nat) (f₀ : ArrowheadFactor Unit)
    (input₀ : ArrowheadMatrix Unit) (method : Method) :
    ∃ r : Res (ArrowheadFactor Expr), ∀ (K : Type) [Zero K] [Sub K] [Mul K] [Div K] (regularize : K → Nat → K)
      (f : ArrowheadFactor K) (input : ArrowheadMatrix K), f.shape = f₀ → input.shape = input₀ →
        f.factorize dimTridiag dimLink dimOuter input regularize method =
          (do return (← r).map (Expr.eval regularize (f.numbers ++ input.numbers))) := by
  refine ⟨((numberingArrowheadFactor.pair numberingArrowheadMatrix).inputs (f₀, input₀)).1.factorize dimTridiag dimLink
    dimOuter ((numberingArrowheadFactor.pair numberingArrowheadMatrix).inputs (f₀, input₀)).2 Expr.regularize method, ?_⟩
  rintro K _ _ _ _ regularize f input rfl rfl
  have h := (numberingArrowheadFactor.pair numberingArrowheadMatrix).inputs_eval regularize (f, input)
  rw [← ArrowheadFactor.factorize_hom (reg' := regularize) (Expr.eval_hom ..) (fun _ _ => rfl)]
  exact (congrArg₂ (fun f m => ArrowheadFactor.factorize dimTridiag dimLink dimOuter f m regularize method)
    (congrArg Prod.fst h) (congrArg Prod.snd h)).symm

/-- C51, repeating class: solving. -/
theorem C51_repeating_solve (f₀ : ArrowheadFactor Unit) (b₀ : ArrowheadVector Unit) :
    ∃ r : Res (ArrowheadVector Expr), ∀ (K : Type) [Zero K] [Sub K] [Mul K] [Div K] (f : ArrowheadFactor K)
      (b : ArrowheadVector K), f.shape = f₀ → b.shape = b₀ →
        f.solveInPlace b = (do return (← r).map (Expr.eval regularizationNone (f.numbers ++ b.numbers))) := by
  refine ⟨((numberingArrowheadFactor.pair numberingArrowheadVector).inputs (f₀, b₀)).1.solveInPlace
    ((numberingArrowheadFactor.pair numberingArrowheadVector).inputs (f₀, b₀)).2, ?_⟩
  rintro K _ _ _ _ f b rfl rfl
  have h := (numberingArrowheadFactor.pair numberingArrowheadVector).inputs_eval regularizationNone (f, b)
  rw [← ArrowheadFactor.solveInPlace_hom (Expr.eval_hom ..)]
  exact (congrArg₂ ArrowheadFactor.solveInPlace (congrArg Prod.fst h) (congrArg Prod.snd h)).symm

/-- C51, plain repeating block tridiagonal class. -/
theorem C51_tridiagonal (dim : Nat) (f₀ : ArrowheadFactor Unit) (A₀ B₀ : List (MatIn Unit)) (method : Method) :
    ∃ r : Res (ArrowheadFactor Expr), ∀ (K : Type) [Zero K] [Sub K] [Mul K] [Div K] (regularize : K → Nat → K)
      (f : ArrowheadFactor K) (A B : List (MatIn K)), f.shape = f₀ → A.map MatIn.shape = A₀ → B.map MatIn.shape = B₀ →
        tridiagonalFactorize dim f A B regularize method =
          (do return (← r).map (Expr.eval regularize
            (f.numbers ++ (A.flatMap MatIn.numbers ++ B.flatMap MatIn.numbers)))) := by
  let N := numberingArrowheadFactor.pair (numberingMat.list.pair numberingMat.list)
  refine ⟨tridiagonalFactorize dim (N.inputs (f₀, A₀, B₀)).1 (N.inputs (f₀, A₀, B₀)).2.1 (N.inputs (f₀, A₀, B₀)).2.2
    Expr.regularize method, ?_⟩
  rintro K _ _ _ _ regularize f A B rfl rfl rfl
  have h := N.inputs_eval regularize (f, A, B)
  rw [← tridiagonalFactorize_hom (reg' := regularize) (Expr.eval_hom ..) (fun _ _ => rfl)]
  have h1 := congrArg Prod.fst h
  have h2 := congrArg (fun p => p.2.1) h
  have h3 := congrArg (fun p => p.2.2) h
  exact (congr (congrArg₂ (fun f A B => tridiagonalFactorize dim f A B regularize method) h1 h2) h3).symm

/-- C51, plain repeating block tridiagonal class: solving. -/
theorem C51_tridiagonal_solve (f₀ : ArrowheadFactor Unit) (b₀ : List (List Unit)) :
    ∃ r : Res (List (List Expr)), ∀ (K : Type) [Zero K] [Sub K] [Mul K] [Div K] (f : ArrowheadFactor K)
      (b : List (List K)), f.shape = f₀ → b.map (List.map fun _ => ()) = b₀ →
        tridiagonalSolveInPlace f b =
          (do return (← r).map (List.map (Expr.eval regularizationNone (f.numbers ++ b.flatMap id)))) := by
  let N := numberingArrowheadFactor.pair numberingList.list
  refine ⟨tridiagonalSolveInPlace (N.inputs (f₀, b₀)).1 (N.inputs (f₀, b₀)).2, ?_⟩
  rintro K _ _ _ _ f b rfl rfl
  have h := N.inputs_eval regularizationNone (f, b)
  rw [← tridiagonalSolveInPlace_hom (Expr.eval_hom ..)]
  exact (congrArg₂ tridiagonalSolveInPlace (congrArg Prod.fst h) (congrArg Prod.snd h)).symm

/-- C51: therefore every function between number types which respects the operations can be applied before or after,
for example the embedding of one field into another. -/
theorem C51_homomorphism {K K' : Type} [Zero K] [Sub K] [Mul K] [Div K] [Zero K'] [Sub K'] [Mul K'] [Div K']
    (h : K → K') (h0 : h 0 = 0) (hsub : ∀ a b, h (a - b) = h a - h b) (hmul : ∀ a b, h (a * b) = h a * h b)
    (hdiv : ∀ a b, h (a / b) = h a / h b) (reg : K → Nat → K) (reg' : K' → Nat → K')
    (hreg : ∀ a i, h (reg a i) = reg' (h a) i) (dimTridiag dimLink dimOuter : Nat) (f : ArrowheadFactor K)
    (input : ArrowheadMatrix K) (b : ArrowheadVector K) (method : Method) :
    (f.map h).factorize dimTridiag dimLink dimOuter (input.map h) reg' method =
      (do return (← f.factorize dimTridiag dimLink dimOuter input reg method).map h) ∧
    (f.map h).solveInPlace (b.map h) = (do return (← f.solveInPlace b).map h) :=
  ⟨ArrowheadFactor.factorize_hom ⟨h0, hsub, hmul, hdiv⟩ hreg .., ArrowheadFactor.solveInPlace_hom ⟨h0, hsub, hmul, hdiv⟩ ..⟩

/-- C51, single matrix. -/
theorem C51_single_homomorphism {K K' : Type} [Zero K] [Sub K] [Mul K] [Div K] [Zero K'] [Sub K'] [Mul K'] [Div K']
    (h : K → K') (h0 : h 0 = 0) (hsub : ∀ a b, h (a - b) = h a - h b) (hmul : ∀ a b, h (a * b) = h a * h b)
    (hdiv : ∀ a b, h (a / b) = h a / h b) (reg : K → Nat → K) (reg' : K' → Nat → K')
    (hreg : ∀ a i, h (reg a i) = reg' (h a) i) (f : DiagFactor K) (matrix : MatIn K) (b : List K) (method : Method) :
    (f.map h).factorize (matrix.map h) reg' method = (do return (← f.factorize matrix reg method).map h) ∧
    (f.map h).solveInPlace (b.map h) = (do return (← f.solveInPlace b).map h) :=
  ⟨DiagFactor.factorize_hom ⟨h0, hsub, hmul, hdiv⟩ hreg .., DiagFactor.solveInPlace_hom ⟨h0, hsub, hmul, hdiv⟩ ..⟩

/-- The expressions for a symmetric matrix with all entries of the lower triangle of size two, in the order of
`Expr.input`: the stored `L[0]`, `D[0]`, `D[1]`, then the matrix entries `(0,0)`, `(1,0)`, `(1,1)`. -/
example : (do
      let f ← ((numberingDiag.pair numberingMat).inputs
        (⟨csrOf ⟨2, 2, [⟨1, 0⟩]⟩, [0, 1], [()], [(), ()]⟩, ⟨⟨2, 2, [⟨0, 0⟩, ⟨1, 0⟩, ⟨1, 1⟩]⟩, [(), (), ()]⟩)).1.factorize
        ⟨⟨2, 2, [⟨0, 0⟩, ⟨1, 0⟩, ⟨1, 1⟩]⟩, [.input 3, .input 4, .input 5]⟩ Expr.regularize .upLooking
      return (f.L, f.D) : Res _) =
    .ok ([.div (.input 4) (.regularize (.input 3) 0)],
      [.regularize (.input 3) 0,
        .regularize (.sub (.input 5) (.mul (.input 4) (.div (.input 4) (.regularize (.input 3) 0)))) 1]) := by
  decide +kernel

/-- Objects with given shapes exist. -/
example : witnessF.shape = ⟨witnessF.sparsity, witnessF.permutation, [(), (), ()], [(), (), ()]⟩ ∧
    witnessF.numbers.length = 6 := ⟨rfl, rfl⟩

end Ctldl
