import Verif.Model.TestSuite
import Verif.Spec.Tridiagonal
import Verif.Spec.Factor

/-! # What it means for a call of the test suite to be well-defined -/

namespace Ctldl

section

/-- Numbers of both types with their operations, the conversion of literals and the conversions between them. Nothing is
assumed about them except that zero is converted to zero. -/
structure Numbers where
  Num : ValueType → Type
  zero : ∀ v, Zero (Num v)
  one : ∀ v, One (Num v)
  add : ∀ v, Add (Num v)
  sub : ∀ v, Sub (Num v)
  mul : ∀ v, Mul (Num v)
  div : ∀ v, Div (Num v)
  literal : ∀ v, ℚ → Num v
  convert : ∀ v w, Num v → Num w
  convert_zero : ∀ v w, convert v w (zero v).zero = (zero w).zero

attribute [instance] Numbers.zero Numbers.one Numbers.add Numbers.sub Numbers.mul Numbers.div

/-- A value of a matrix: it knows its type. -/
def Numbers.Value (A : Numbers) : Type := (v : ValueType) × A.Num v

instance (A : Numbers) : Zero A.Value := ⟨⟨.double, 0⟩⟩

/-- The values of a matrix whose type of values is `v`. -/
def Numbers.values (A : Numbers) (v : ValueType) (m : MatIn ℚ) : MatIn A.Value :=
  m.map fun q => ⟨v, A.literal v q⟩

/-- Conversion of a value of a matrix. -/
def Numbers.fromValue (A : Numbers) (w : ValueType) (x : A.Value) : A.Num w := A.convert x.1 w x.2

end

/-- A call with these arguments compiles, and runs without undefined behaviour or violated contract for all numbers, all
contents of the factorization object before the call and all regularizations; it compares with the vector of the solution
generator. Single matrices. -/
def SingleCallDefined (c : List TemplateArgument × List FunctionArgument) : Prop :=
  ∃ m p v method g, c = ([.matrix m, .permutation p, .value v, .method method], [.solution g]) ∧
    ValidSparsity m.sparsity p ∧ ∀ (A : Numbers) (normal : Nat → Nat → A.Num .double),
      (∃ f : DiagFactor (A.Num v), f.Declared m.sparsity p) ∧
      ∃ q, m.generate 1 = [q] ∧ ∀ f : DiagFactor (A.Num v), f.Declared m.sparsity p → ∀ reg, ∃ y,
        testSingle (A.fromValue v) (A.fromValue .double) (A.convert v .double) m.sparsity.numRows p f
          (A.values m.value q) reg method (g.generate normal m.sparsity.numRows) =
          .ok (y, g.generate normal m.sparsity.numRows) ∧ y.length = m.sparsity.numRows

/-- The same for block tridiagonal matrices. -/
def RepeatingCallDefined (c : List TemplateArgument × List FunctionArgument) : Prop :=
  ∃ a b p v method g N, c =
      ([.matrix a, .matrix b, .permutation p, .value v, .method method], [.solution g, .repetitions N]) ∧
    ∃ n, 0 < n ∧ ValidTridiagonal a.sparsity b.sparsity p n ∧
      ∀ (A : Numbers) (normal : Nat → Nat → A.Num .double),
      (∃ (f : ArrowheadFactor (A.Num v)) (T : ArrowheadTypes), TridiagonalDeclared f a.sparsity b.sparsity p T n N) ∧
      ∀ (f : ArrowheadFactor (A.Num v)) (T : ArrowheadTypes), TridiagonalDeclared f a.sparsity b.sparsity p T n N →
      ∀ reg, ∃ y,
        testRepeating (A.fromValue v) (A.fromValue .double) (A.convert v .double) a.sparsity b.sparsity p f
          ((a.generate (N + 1)).map (A.values a.value)) ((b.generate N).map (A.values b.value)) reg method
          (g.generate normal ((N + 1) * n)) = .ok (y, g.generate normal ((N + 1) * n)) ∧ y.length = (N + 1) * n

end Ctldl
