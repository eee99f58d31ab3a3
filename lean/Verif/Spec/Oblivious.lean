import Verif.Model.Mixed

/-!
# Expressions in the numbers handed to the program
-/

namespace Ctldl

/-- An expression in given numbers, the operations of the number type and the regularization. -/
inductive Expr where
  /-- the constant zero -/
  | zero
  /-- the given number with this index -/
  | input (k : Nat)
  | sub (a b : Expr)
  | mul (a b : Expr)
  | div (a b : Expr)
  /-- regularization of a pivot with this index -/
  | regularize (a : Expr) (i : Nat)
  deriving DecidableEq, Repr

instance : Zero Expr := ⟨.zero⟩
instance : Sub Expr := ⟨.sub⟩
instance : Mul Expr := ⟨.mul⟩
instance : Div Expr := ⟨.div⟩

/-- The value of an expression for the given numbers `x`. -/
def Expr.eval {K : Type} [Zero K] [Sub K] [Mul K] [Div K] (regularize : K → Nat → K) (x : List K) : Expr → K
  | .zero => 0
  | .input k => x.getD k 0
  | .sub a b => a.eval regularize x - b.eval regularize x
  | .mul a b => a.eval regularize x * b.eval regularize x
  | .div a b => a.eval regularize x / b.eval regularize x
  | .regularize a i => regularize (a.eval regularize x) i

variable {K : Type}

/-! ## All numbers of an object, one after the other -/

/-- All numbers of a diagonal block. -/
def DiagFactor.numbers (f : DiagFactor K) : List K := f.L ++ f.D

/-- All numbers of an off-diagonal block. -/
def SubFactor.numbers (f : SubFactor K) : List K := f.L

/-- All numbers of a matrix. -/
def MatIn.numbers (m : MatIn K) : List K := m.values

/-- All numbers of an arrowhead factor. -/
def ArrowheadFactor.numbers (f : ArrowheadFactor K) : List K :=
  f.startDiag.numbers ++ (f.startNext.numbers ++ (f.startOuter.numbers ++ (f.tridiagDiag.flatMap DiagFactor.numbers ++
    (f.tridiagSubdiag.flatMap SubFactor.numbers ++ (f.linkPrev.numbers ++ (f.linkDiag.numbers ++ (f.linkNext.numbers ++
    (f.outerSubdiag.flatMap SubFactor.numbers ++ f.outerDiag.numbers))))))))

/-- All numbers of an arrowhead matrix. -/
def ArrowheadMatrix.numbers (m : ArrowheadMatrix K) : List K :=
  m.startDiag.numbers ++ (m.startNext.numbers ++ (m.startOuter.numbers ++ (m.tridiagDiag.flatMap MatIn.numbers ++
    (m.tridiagSubdiag.flatMap MatIn.numbers ++ (m.linkPrev.numbers ++ (m.linkDiag.numbers ++ (m.linkNext.numbers ++
    (m.outerSubdiag.flatMap MatIn.numbers ++ m.outerDiag.numbers))))))))

/-- All numbers of a blocked vector. -/
def ArrowheadVector.numbers (x : ArrowheadVector K) : List K :=
  x.start ++ (x.tridiag.flatMap id ++ (x.link ++ x.outer))

/-! ## Everything but the numbers

Patterns, permutations and sizes. -/

/-- The diagonal block without its numbers. -/
def DiagFactor.shape (f : DiagFactor K) : DiagFactor Unit := f.map fun _ => ()

/-- The off-diagonal block without its numbers. -/
def SubFactor.shape (f : SubFactor K) : SubFactor Unit := f.map fun _ => ()

/-- The matrix without its numbers. -/
def MatIn.shape (m : MatIn K) : MatIn Unit := m.map fun _ => ()

/-- The arrowhead factor without its numbers. -/
def ArrowheadFactor.shape (f : ArrowheadFactor K) : ArrowheadFactor Unit := f.map fun _ => ()

/-- The arrowhead matrix without its numbers. -/
def ArrowheadMatrix.shape (m : ArrowheadMatrix K) : ArrowheadMatrix Unit := m.map fun _ => ()

/-- The blocked vector without its numbers. -/
def ArrowheadVector.shape (x : ArrowheadVector K) : ArrowheadVector Unit := x.map fun _ => ()

end Ctldl
