import Verif.Model.Permutation
import Verif.Model.Basic

/-!
# Texts of diagnostics

What `operator<<` for streams and `std::format` write for a `std::size_t` is not part of the repository: in the default
state of a stream, and for `{}`, these are its decimal digits.
-/

namespace Ctldl

/-- `os << n` and `{}` for an unsigned integer. -/
def showSize (n : Nat) : List Char := Nat.toDigits 10 n

/-- `operator<<(std::ostream&, const Entry&)`, `ctldl/sparsity/entry_print.hpp:9-13`. -/
def showEntry (right : Entry) : List Char :=
  "Entry{.row_index=".toList ++ showSize right.row ++ ", .col_index=".toList ++ showSize right.col ++ ['}']

/-- `toTestInfo(PermutationView)`, `tests/utility/to_test_info.cpp:7-20`. -/
def toTestInfo (permutation : List Nat) : List Char :=
  match permutation with
  | [] => "[]".toList
  | first :: more =>
    more.foldl (fun sstream i => sstream ++ [' '] ++ showSize i) (['['] ++ showSize first) ++ [']']

/-- The members of `std::source_location` which are used. -/
structure SourceLocation where
  fileName : List Char
  line : Nat
  functionName : List Char

/-- The three functions which throw, `ctldl/utility/contracts.cpp:20-33`. -/
inductive ContractKind where
  | precondition | postcondition | assertion
  deriving DecidableEq, Repr

/-- The first argument of the constructor of the exception, `ctldl/utility/contracts.cpp:22, 27, 32`. -/
def ContractKind.text : ContractKind → List Char
  | .precondition => "precondition".toList
  | .postcondition => "postcondition".toList
  | .assertion => "assertion".toList

/-- `what()` of `ContractViolationException`, `ctldl/utility/contracts.cpp:11-17`. -/
def contractMessage (kind : ContractKind) (location : SourceLocation) : List Char :=
  "Contract ".toList ++ kind.text ++ " violation at ".toList ++ location.fileName ++ ":".toList ++
    showSize location.line ++ " in function ".toList ++ location.functionName

/-- `pre`, `post` and `contract_assert_` with their message, `ctldl/utility/contracts.hpp:11-34`. The default of the second
argument is the location `std::source_location{}`, here the parameter `empty`, and not that of the caller. -/
def contractCheck (empty : SourceLocation) (kind : ContractKind) (condition : Bool)
    (location : Option SourceLocation := none) : Except (List Char) Unit :=
  if condition then .ok () else .error (contractMessage kind (location.getD empty))

end Ctldl
