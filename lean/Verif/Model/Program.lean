import Verif.Model.Examples

/-! # The command line and the output of `examples/repeating/example_mtx.cpp` -/

namespace Ctldl

/-- What ends a run: the status returned by `main` and what was written, an exception thrown by `std::stoull` which is not
caught, or a failure of the library. -/
inductive Run where
  | exits (success : Bool) (written : List Char)
  | invalidArgument
  | outOfRange
  | fails (e : Err)
  deriving DecidableEq

/-- `std::stoull(argument)`, `examples/repeating/example_mtx.cpp:42`. This function is not part of the repository; it is
modelled by the C++ standard ([string.conversions]) and the C standard (C11 7.22.1.4 `strtoull` with base 10): white space
is skipped, then there is an optional sign and digits. What follows is not looked at. A minus negates in the unsigned type
of 64 bits. Failures are exceptions. -/
def stoull (argument : List Char) : Except Run Nat :=
  let (negative, s) := scanSign (argument.dropWhile isSpace)
  let digits := digitsOf decimalDigit s
  if digits.isEmpty then .error .invalidArgument
  else
    let value := digitsValue 10 digits
    if value < 2 ^ 64 then .ok (if negative then (2 ^ 64 - value) % 2 ^ 64 else value) else .error .outOfRange

/-- The lines as written by `std::printf`, `examples/repeating/example_mtx.cpp:75-98`. `print` is `%f`. -/
def writtenText {K : Type} (print : K → List Char) (output : List (OutputLine K)) : List Char :=
  (output.map fun line => match line with
    | .heading text => text.toList ++ ['\n']
    | .number value => print value ++ ['\n']).flatten

/-- The content of a file as read by `std::ifstream`. A file which cannot be opened reads like an empty one: every call of
`std::getline` fails, `ctldl/fileio/mtx_foreach_entry.cpp:18-19`, `ctldl/fileio/mtx_read_header.cpp:12-15`. -/
def fileContent (files : List Char → Option (List Char)) (path : List Char) : List Char := (files path).getD []

/-- `main`, `examples/repeating/example_mtx.cpp:35-99`. The arguments begin with the name of the program; `files` are the
files which can be opened. -/
def exampleMtxMain {K : Type} [Zero K] [One K] [Sub K] [Mul K] [Div K] (print : K → List Char)
    (convert : FloatLiteral → K) (construct : Nat → ArrowheadFactor K) (regularize : K → Nat → K) (method : Method)
    (s : ArrowheadSparsity) (files : List Char → Option (List Char)) (arguments : List (List Char)) : Run :=
  match arguments with
  | [_, path] => run path (.ok 1)
  | [_, path, numIterations] => run path (stoull numIterations)
  | _ => .exits false "Usage: example_* FILEPATH_MTX [NUM_ITERATIONS]\n\n".toList
where
  run (path : List Char) (numIterations : Except Run Nat) : Run :=
    match numIterations with
    | .error e => e
    | .ok numIterations =>
      match exampleMtx convert construct regularize method s (fileContent files path) numIterations with
      | .error e => .fails e
      | .ok output => .exits true (writtenText print output)

end Ctldl
