import Verif.Model.Arrowhead
import Verif.Model.Basic
import Verif.Model.Benchmark
import Verif.Model.Examples
import Verif.Model.Factorize
import Verif.Model.FixedExamples
import Verif.Model.Mixed
import Verif.Model.Mtx
import Verif.Model.Multiply
import Verif.Model.Numeral
import Verif.Model.Permutation
import Verif.Model.Program
import Verif.Model.Scan
import Verif.Model.Solve
import Verif.Model.Sparsity
import Verif.Model.Symbolic
import Verif.Model.TestFunctor
import Verif.Model.TestMatrix
import Verif.Model.TestSuite
import Verif.Model.TestUtil
import Verif.Model.Text
import Verif.Model.Vector
import Verif.Model.Words
import Verif.Spec.AnyOrder
import Verif.Spec.AnyOrderRange
import Verif.Spec.Arrowhead
import Verif.Spec.Assembled
import Verif.Spec.Binary
import Verif.Spec.BinaryOrder
import Verif.Spec.Contracted
import Verif.Spec.Definite
import Verif.Spec.DoubleRounding
import Verif.Spec.EndToEnd
import Verif.Spec.Environment
import Verif.Spec.EnvironmentAdd
import Verif.Spec.Examples
import Verif.Spec.Extended
import Verif.Spec.ExtendedAdd
import Verif.Spec.Factor
import Verif.Spec.Fill
import Verif.Spec.FixedExamples
import Verif.Spec.ForwardError
import Verif.Spec.Inertia
import Verif.Spec.Least
import Verif.Spec.Lockstep
import Verif.Spec.Messages
import Verif.Spec.Mixed
import Verif.Spec.Mtx
import Verif.Spec.Multiply
import Verif.Spec.Nearby
import Verif.Spec.Nearest
import Verif.Spec.Oblivious
import Verif.Spec.Parts
import Verif.Spec.Permutation
import Verif.Spec.QuasiRange
import Verif.Spec.Range
import Verif.Spec.RangeAdd
import Verif.Spec.Rounding
import Verif.Spec.RoundingAdd
import Verif.Spec.Scaling
import Verif.Spec.Scan
import Verif.Spec.Shaped
import Verif.Spec.SignChange
import Verif.Spec.Sparsity
import Verif.Spec.Superset
import Verif.Spec.TestMatrix
import Verif.Spec.TestSuite
import Verif.Spec.Textbook
import Verif.Spec.Tridiagonal
import Verif.Spec.Words
import Verif.Lemmas.AnyAddition
import Verif.Lemmas.AnyOrder
import Verif.Lemmas.AnyOrderDefinite
import Verif.Lemmas.AnyOrderRange
import Verif.Lemmas.AnyOrderRows
import Verif.Lemmas.AnyOrderSolve
import Verif.Lemmas.ArrowheadBlocks
import Verif.Lemmas.ArrowheadClosed
import Verif.Lemmas.ArrowheadExact
import Verif.Lemmas.ArrowheadFactorize
import Verif.Lemmas.ArrowheadReject
import Verif.Lemmas.ArrowheadReproduce
import Verif.Lemmas.ArrowheadSolve
import Verif.Lemmas.ArrowheadSolveExact
import Verif.Lemmas.ArrowheadSteps
import Verif.Lemmas.ArrowheadSymbolic
import Verif.Lemmas.ArrowheadUnique
import Verif.Lemmas.AssembledExists
import Verif.Lemmas.AssembledFactor
import Verif.Lemmas.AssembledSolve
import Verif.Lemmas.Basic
import Verif.Lemmas.Binary
import Verif.Lemmas.Blocks
import Verif.Lemmas.BoolMatrix
import Verif.Lemmas.Cast
import Verif.Lemmas.Chain
import Verif.Lemmas.ChainExact
import Verif.Lemmas.ChainOperations
import Verif.Lemmas.Chordal
import Verif.Lemmas.ColumnCount
import Verif.Lemmas.Comparison
import Verif.Lemmas.ComparisonFactor
import Verif.Lemmas.Contracted
import Verif.Lemmas.Conversion
import Verif.Lemmas.Csr
import Verif.Lemmas.Definite
import Verif.Lemmas.DefiniteFactor
import Verif.Lemmas.DefiniteRounding
import Verif.Lemmas.Dominant
import Verif.Lemmas.DoubleRounding
import Verif.Lemmas.EliminationTree
import Verif.Lemmas.EliminationTreeBlocked
import Verif.Lemmas.EntryWise
import Verif.Lemmas.Environment
import Verif.Lemmas.EnvironmentAdd
import Verif.Lemmas.EnvironmentLift
import Verif.Lemmas.Exact
import Verif.Lemmas.Extended
import Verif.Lemmas.ExtendedAdd
import Verif.Lemmas.Fill
import Verif.Lemmas.FilledIn
import Verif.Lemmas.FilledInBlocked
import Verif.Lemmas.Forward
import Verif.Lemmas.ForwardArrowhead
import Verif.Lemmas.ForwardChain
import Verif.Lemmas.ForwardError
import Verif.Lemmas.ForwardFinite
import Verif.Lemmas.ForwardQuasi
import Verif.Lemmas.ForwardQuasiArrowhead
import Verif.Lemmas.ForwardRows
import Verif.Lemmas.ForwardSingle
import Verif.Lemmas.ForwardSolve
import Verif.Lemmas.Graded
import Verif.Lemmas.GradedArrowhead
import Verif.Lemmas.Hom
import Verif.Lemmas.Inactive
import Verif.Lemmas.Inertia
import Verif.Lemmas.Laplace
import Verif.Lemmas.Least
import Verif.Lemmas.Lockstep
import Verif.Lemmas.Lookup
import Verif.Lemmas.Mixed
import Verif.Lemmas.MixedOperations
import Verif.Lemmas.Mtx
import Verif.Lemmas.MtxFormat
import Verif.Lemmas.MtxMessages
import Verif.Lemmas.MtxMoved
import Verif.Lemmas.MtxPlace
import Verif.Lemmas.MtxRead
import Verif.Lemmas.MtxStep
import Verif.Lemmas.Multiply
import Verif.Lemmas.MultiplyArrowhead
import Verif.Lemmas.MultiplyFour
import Verif.Lemmas.MultiplyHom
import Verif.Lemmas.MultiplyRepeating
import Verif.Lemmas.Nearby
import Verif.Lemmas.Nearest
import Verif.Lemmas.NextPermutation
import Verif.Lemmas.Oblivious
import Verif.Lemmas.Partial
import Verif.Lemmas.PartialExact
import Verif.Lemmas.Parts
import Verif.Lemmas.Permutation
import Verif.Lemmas.Placed
import Verif.Lemmas.Printed
import Verif.Lemmas.QuasiDefUnique
import Verif.Lemmas.QuasiFinite
import Verif.Lemmas.QuasiRounding
import Verif.Lemmas.QuasiSolve
import Verif.Lemmas.Quotients
import Verif.Lemmas.Range
import Verif.Lemmas.RangeAdd
import Verif.Lemmas.Repeating
import Verif.Lemmas.RepeatingFill
import Verif.Lemmas.RepeatingTree
import Verif.Lemmas.Rounding
import Verif.Lemmas.RoundingAdd
import Verif.Lemmas.RoundingArrowhead
import Verif.Lemmas.RoundingBackward
import Verif.Lemmas.RoundingChain
import Verif.Lemmas.RoundingRows
import Verif.Lemmas.RoundingSingle
import Verif.Lemmas.RoundingSolve
import Verif.Lemmas.SameOperations
import Verif.Lemmas.Scaling
import Verif.Lemmas.ScalingArrowhead
import Verif.Lemmas.ScalingSingle
import Verif.Lemmas.Scan
import Verif.Lemmas.SignChange
import Verif.Lemmas.Single
import Verif.Lemmas.Solve
import Verif.Lemmas.SolveArrowhead
import Verif.Lemmas.SolveExact
import Verif.Lemmas.SolveLists
import Verif.Lemmas.SolveQuasi
import Verif.Lemmas.SolveSingle
import Verif.Lemmas.Sparsity
import Verif.Lemmas.Static
import Verif.Lemmas.Stored
import Verif.Lemmas.Superset
import Verif.Lemmas.Sweep
import Verif.Lemmas.TestDouble
import Verif.Lemmas.TestMatrix
import Verif.Lemmas.Triangular
import Verif.Lemmas.Tridiagonal
import Verif.Lemmas.TridiagonalPositions
import Verif.Lemmas.Unique
import Verif.Lemmas.UpLooking
import Verif.Lemmas.ValidDecidable
import Verif.Lemmas.Values
import Verif.Lemmas.Visit
import Verif.Lemmas.Words
import Verif.Props.Accuracy
import Verif.Props.AnyOrder
import Verif.Props.AnyOrderDefinite
import Verif.Props.AnyOrderRange
import Verif.Props.AnyOrderSolve
import Verif.Props.Arrowhead
import Verif.Props.ArrowheadSolve
import Verif.Props.Assembled
import Verif.Props.Benchmark
import Verif.Props.Comparison
import Verif.Props.Contracted
import Verif.Props.Definite
import Verif.Props.DefiniteRounding
import Verif.Props.Dimensions
import Verif.Props.DoubleRounding
import Verif.Props.EndToEnd
import Verif.Props.Environment
import Verif.Props.EnvironmentAnyOrder
import Verif.Props.Examples
import Verif.Props.Extended
import Verif.Props.ExtendedAnyOrder
import Verif.Props.Factorize
import Verif.Props.FixedExamples
import Verif.Props.ForwardError
import Verif.Props.Inactive
import Verif.Props.Inertia
import Verif.Props.Laplace
import Verif.Props.Least
import Verif.Props.Lockstep
import Verif.Props.Messages
import Verif.Props.Mixed
import Verif.Props.Mtx
import Verif.Props.MtxDescribed
import Verif.Props.Multiply
import Verif.Props.MultiplyRange
import Verif.Props.MultiplyRounding
import Verif.Props.Numeral
import Verif.Props.NumeralSolve
import Verif.Props.Oblivious
import Verif.Props.Parts
import Verif.Props.Permutation
import Verif.Props.Program
import Verif.Props.QuasiOther
import Verif.Props.QuasiRange
import Verif.Props.QuasiRangeSolve
import Verif.Props.Range
import Verif.Props.RangeSolve
import Verif.Props.Reciprocal
import Verif.Props.Reject
import Verif.Props.Repeating
import Verif.Props.RoundTrip
import Verif.Props.Rounding
import Verif.Props.RoundingRegularized
import Verif.Props.RoundingSolve
import Verif.Props.Scaling
import Verif.Props.Scan
import Verif.Props.SignChange
import Verif.Props.SingleResidual
import Verif.Props.Solve
import Verif.Props.Sparsity
import Verif.Props.Superset
import Verif.Props.Symbolic
import Verif.Props.TestDouble
import Verif.Props.TestExamples
import Verif.Props.TestFunctor
import Verif.Props.TestMatrix
import Verif.Props.TestSuite
import Verif.Props.TestUtil
import Verif.Props.Text
import Verif.Props.Textbook
import Verif.Props.Tridiagonal
import Verif.Props.TridiagonalRounding
import Verif.Props.Vector
import Verif.Props.Words
import Verif.Tests.Unit
