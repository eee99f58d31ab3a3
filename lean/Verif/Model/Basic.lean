/-!
# Outcomes and checked array access

The C++ code works on arrays, vectors and spans without bounds checks, uses contracts
(`ctldl/utility/contracts.hpp:11-34`), `assert`s and `static_assert`s. Every such possibility of not
delivering a result is an explicit outcome of the model.
-/

namespace Ctldl

/-- Reasons of the matrix file reader to throw `MtxReadException`
(`ctldl/fileio/mtx_check.cpp:13-17` throws with a message; one constructor per message). -/
inductive MtxErr where
  | header | notSquare | tooSmall | notMultiple | entryLine | rowZero | colZero | rowRange | colRange | entryCount
  | notCovered | upperTriangle
  deriving DecidableEq, Repr

/-- The text `what()` of the exception: the second argument of the call of `mtxCheck`
(`ctldl/fileio/mtx_check.cpp:5-11` hands it to `std::runtime_error`). -/
def MtxErr.message : MtxErr → String
  -- `ctldl/fileio/mtx_read_header.cpp:28`
  | .header => "Error reading matrix dimensions"
  -- `ctldl/fileio/mtx_file_read_repeating_block_tridiagonal_arrowhead_linked.hpp:97`
  | .notSquare => "Matrix must be square"
  -- `ctldl/fileio/mtx_file_read_repeating_block_tridiagonal_arrowhead_linked.hpp:101-102`
  | .tooSmall => "Matrix dimension must be greater than sum of dimensions of non-repeating blocks."
  -- `ctldl/fileio/mtx_file_read_repeating_block_tridiagonal_arrowhead_linked.hpp:105-106`
  | .notMultiple =>
    "Dimension of repeating part of matrix must be multiple of expected repeating block dimension"
  -- `ctldl/fileio/mtx_foreach_entry.cpp:29-33`
  | .entryLine => "Error reading matrix entry"
  | .rowZero => "Row index must be positive"
  | .colZero => "Column index must be positive"
  | .rowRange => "Row index is out of range"
  | .colRange => "Column index is out of range"
  -- `ctldl/fileio/mtx_foreach_entry.cpp:40`
  | .entryCount => "Number of nonzeros in header does not equal number of read entries"
  -- `ctldl/fileio/mtx_file_read_repeating_block_tridiagonal_arrowhead_linked.hpp:22, 174`
  | .notCovered => "Entry is not covered by compiled sparsity"
  -- `ctldl/fileio/mtx_file_read_repeating_block_tridiagonal_arrowhead_linked.hpp:137`
  | .upperTriangle => "Matrix entries must be in lower triangle"

/-- Ways in which a call does not return normally. -/
inductive Err where
  /-- undefined behaviour: access out of range, division by zero -/
  | ub
  /-- `pre(false)`, `ctldl/utility/contracts.hpp:11-17` -/
  | pre
  /-- `assert(false)` or `contract_assert_(false)`, `ctldl/utility/contracts.hpp:27-34` -/
  | assertion
  /-- a `static_assert` fails -/
  | staticAssert
  /-- the template instantiation is ill-formed for another reason -/
  | compile
  /-- an unsigned subtraction wraps around (not undefined, but never intended) -/
  | wrap
  /-- a `while` loop did not finish within the given fuel -/
  | fuel
  /-- `MtxReadException` -/
  | mtx (e : MtxErr)
  deriving DecidableEq, Repr

/-- A computation of the model: a value or one of the outcomes above. -/
abbrev Res (α : Type _) := Except Err α

/-- Checked element read `v[i]`. -/
def rd {α : Type _} (v : List α) (i : Nat) : Res α :=
  match v[i]? with
  | some a => .ok a
  | none => .error .ub

/-- Checked element write `v[i] = a`; the updated array is returned. -/
def wr {α : Type _} (v : List α) (i : Nat) (a : α) : Res (List α) :=
  if i < v.length then .ok (v.set i a) else .error .ub

/-- `pre(condition)`, `ctldl/utility/contracts.hpp:11-17`. -/
def pre (condition : Bool) : Res Unit :=
  if condition then .ok () else .error .pre

/-- `assert(condition)`; also `contract_assert_`, `ctldl/utility/contracts.hpp:27-34`. -/
def assert' (condition : Bool) : Res Unit :=
  if condition then .ok () else .error .assertion

/-- `static_assert(condition)`. -/
def staticAssert (condition : Bool) : Res Unit :=
  if condition then .ok () else .error .staticAssert

/-- Unsigned subtraction; a wrap-around is reported instead of computed. -/
def usub (a b : Nat) : Res Nat :=
  if b ≤ a then .ok (a - b) else .error .wrap

/-- Unsigned division `a / b`; division by zero is undefined. -/
def udiv (a b : Nat) : Res Nat :=
  if b = 0 then .error .ub else .ok (a / b)

/-- Unsigned remainder `a % b`; undefined for `b = 0`. -/
def umod (a b : Nat) : Res Nat :=
  if b = 0 then .error .ub else .ok (a % b)

end Ctldl
