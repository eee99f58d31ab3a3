import Verif.Spec.RoundingAdd
import Verif.Spec.Textbook

/-! # Specification vocabulary: sums in any order

A compiler which is allowed to treat the arithmetic of floating point numbers as associative (`-fassociative-math`, part
of `-ffast-math`) may evaluate the sums of the library in another order, for example with several partial sums which are
computed with vector instructions. -/

namespace Ctldl

variable {K : Type}

/-- A way of evaluating a sum of terms, some of which are added and some of which are subtracted. Partial sums may start
with zero. -/
inductive SumTree (ι : Type) where
  | zero
  | term (k : ι)
  | add (s t : SumTree ι)
  | sub (s t : SumTree ι)

namespace SumTree

variable {ι : Type}

/-- The result. -/
def value [Zero K] [Add K] [Sub K] (f : ι → K) : SumTree ι → K
  | zero => 0
  | term k => f k
  | add s t => s.value f + t.value f
  | sub s t => s.value f - t.value f

/-- The terms which are added (`true`) or subtracted (`false`). -/
def terms : Bool → SumTree ι → List ι
  | _, zero => []
  | sign, term k => if sign then [k] else []
  | sign, add s t => s.terms sign ++ t.terms sign
  | sign, sub s t => s.terms sign ++ t.terms !sign

/-- Number of operations. -/
def ops : SumTree ι → Nat
  | zero | term _ => 0
  | add s t | sub s t => s.ops + t.ops + 1

/-- Number of operations which depend on each other. -/
def height : SumTree ι → Nat
  | zero | term _ => 0
  | add s t | sub s t => max s.height t.height + 1

end SumTree

/-- The number `y` is what is left of `a` when the numbers `f k` with `k` from the list are subtracted, in any order and
grouping, with at most `q` operations. At most `h` is the number of operations, or twice the number of operations which
depend on each other. -/
def LeftOver [Zero K] [Add K] [Sub K] (h q : Nat) (a : K) (ks : List Nat) (f : Nat → K) (y : K) : Prop :=
  ∃ t : SumTree (Option Nat), t.terms true = [none] ∧ (t.terms false).Perm (ks.map some) ∧
    t.ops ≤ q ∧ (t.ops ≤ h ∨ 2 * t.height ≤ h) ∧ y = t.value fun k => k.elim a f

/-- The product of the three numbers, in some order. (The order of the two factors of a product does not matter for floating
point numbers, which is why not all twelve cases are listed.) -/
def TripleProduct [Mul K] (a b d r : K) : Prop :=
  r = a * b * d ∨ r = b * a * d ∨ r = a * d * b ∨ r = b * d * a ∨ r = a * (b * d) ∨ r = b * (a * d)

/-- The factors `L` and `D` of the matrix `A` with `n` rows are given by the formulas of the factorization, evaluated in any
order: `w` is row `i` of `L` before division by the pivots, and the pivot of row `i` before regularization. The terms of
each sum are those of the up-looking or those of the entry-wise method. `Quot a d y` tells that `y` is computed as the quotient
of `a` and `d`. -/
def FormulasWith [Zero K] [Add K] [Sub K] [Mul K] (Quot : K → K → K → Prop) (P : Nat → Nat → Prop) (n h q : Nat)
    (A L : Nat → Nat → K) (D : Nat → K) (reg : K → Nat → K) : Prop :=
  ∀ i < n, ∃ w : Nat → K,
    (∀ j, P i j ∨ j = i → ∃ f : Nat → K,
      (∀ k, P i k → P j k → f k = L j k * w k ∨ f k = w k * L j k ∨ TripleProduct (L i k) (L j k) (D k) (f k)) ∧
      LeftOver h q (A i j) (commonEntriesOf P i j) f (w j)) ∧
    (∀ j, P i j → Quot (w j) (D j) (L i j)) ∧
    D i = reg (w i) i

/-- The solution `x` for the right-hand side `b` is given by the formulas of forward substitution (`h`, `q`), division by
the pivots and backward substitution (`h'`, `q'`), evaluated in any order. -/
def SolveWith [Zero K] [Add K] [Sub K] [Mul K] (Quot : K → K → K → Prop) (P : Nat → Nat → Prop) (n h q h' q' : Nat)
    (L : Nat → Nat → K) (D b x : Nat → K) : Prop :=
  ∃ y z : Nat → K,
    (∀ i < n, LeftOver h q (b i) (rowEntriesOf P i) (fun j => L i j * y j) (y i)) ∧
    (∀ i < n, Quot (y i) (D i) (z i)) ∧
    ∀ i < n, LeftOver h' q' (z i) (columnEntriesOf P n i) (fun k => L k i * x k) (x i)

/-- The formulas of the factorization with divisions. -/
def ReorderedFormulas [Zero K] [Add K] [Sub K] [Mul K] [Div K] (P : Nat → Nat → Prop) (n h q : Nat) (A L : Nat → Nat → K)
    (D : Nat → K) (reg : K → Nat → K) : Prop :=
  FormulasWith (fun a d y => y = a / d) P n h q A L D reg

/-- The formulas of solving with divisions. -/
def ReorderedSolve [Zero K] [Add K] [Sub K] [Mul K] [Div K] (P : Nat → Nat → Prop) (n h q h' q' : Nat)
    (L : Nat → Nat → K) (D b x : Nat → K) : Prop :=
  SolveWith (fun a d y => y = a / d) P n h q h' q' L D b x

/-- The quotient of `a` and `d`, or the product of `a` and the reciprocal of `d`, where `one` is the number 1
(`-freciprocal-math`, part of `-ffast-math`). -/
def QuotientOrReciprocal [Mul K] [Div K] (one a d y : K) : Prop := y = a / d ∨ y = a * (one / d) ∨ y = one / d * a

/-- The reciprocal of `d` is rounded without underflow, or not finite. -/
def Rounding.AccurateReciprocal {F : Type} [Zero K] [Sub K] [Mul K] [Div K] [Field F] [LinearOrder F] [IsStrictOrderedRing F]
    (R : Rounding K F) (one d : K) : Prop :=
  R.fin (one / d) → ∃ δ, |δ| ≤ R.u ∧ R.v (one / d) * R.v d = 1 + δ

/-- The amount by which the diagonal element `a` of a matrix with `dim` rows has to be reducible without the matrix losing its
definiteness, for positive pivots: `γ` and `e` are relative and absolute errors of the factorization, `c` bounds the number of
entries in a column of the factor, with the diagonal. -/
def definiteMargin {F : Type} [Field F] (c dim : Nat) (γ e a : F) : F := c * γ / (1 - γ) * (a + e) + dim * e

end Ctldl
