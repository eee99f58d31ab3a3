import Verif.Model.Mtx

/-!
# The text of matrix files

`std::getline` and the formats of the two calls of `std::sscanf` in `ctldl/fileio/mtx_read_header.cpp` and
`ctldl/fileio/mtx_foreach_entry.cpp`. These functions are not part of the repository; they are modelled by the C standard
(C11 7.21.6.2 `fscanf`, 7.22.1.3 `strtod`, 7.22.1.4 `strtoull`) in the "C" locale, with a `size_t` of 64 bits. How a numeral
is rounded to a `double` is a parameter.
-/

namespace Ctldl

/-- The lines delivered by the calls of `std::getline`, `ctldl/fileio/mtx_read_header.cpp:19` and
`ctldl/fileio/mtx_foreach_entry.cpp:23`: what comes before each newline, and what comes after the last one unless it is
empty. `current` are the characters of the current line read so far, the last one first. -/
def getLines (current : List Char) : List Char → List (List Char)
  | [] => if current.isEmpty then [] else [current.reverse]
  | c :: text => if c == '\n' then current.reverse :: getLines [] text else getLines (c :: current) text

/-- `line.c_str()`, `ctldl/fileio/mtx_read_header.cpp:27` and `ctldl/fileio/mtx_foreach_entry.cpp:27`, as read by
`std::sscanf`: up to the first null character. -/
def cString (line : String) : List Char := line.toList.takeWhile (· != '\x00')

/-- `isspace`. -/
def isSpace (c : Char) : Bool :=
  c == ' ' || c == '\t' || c == '\n' || c == '\x0b' || c == '\x0c' || c == '\r'

/-- An optional sign; whether it is a minus. -/
def scanSign : List Char → Bool × List Char
  | '+' :: s => (false, s)
  | '-' :: s => (true, s)
  | s => (false, s)

/-- The digits in front. -/
def digitsOf (digit : Char → Option Nat) (s : List Char) : List Nat := (s.takeWhile fun c => (digit c).isSome).filterMap digit

/-- What follows them. -/
def afterDigits (digit : Char → Option Nat) (s : List Char) : List Char := s.dropWhile fun c => (digit c).isSome

/-- The number with the given digits. -/
def digitsValue (base : Nat) (digits : List Nat) : Nat := digits.foldl (fun v d => base * v + d) 0

/-- A decimal digit. -/
def decimalDigit (c : Char) : Option Nat := if '0' ≤ c ∧ c ≤ '9' then some (c.toNat - '0'.toNat) else none

/-- A hexadecimal digit. -/
def hexadecimalDigit (c : Char) : Option Nat :=
  if '0' ≤ c ∧ c ≤ '9' then some (c.toNat - '0'.toNat)
  else if 'a' ≤ c ∧ c ≤ 'f' then some (c.toNat - 'a'.toNat + 10)
  else if 'A' ≤ c ∧ c ≤ 'F' then some (c.toNat - 'A'.toNat + 10)
  else none

/-- `%zu`: spaces are skipped, then there is an optional sign and digits. A minus negates in the unsigned type. The behavior
is undefined if the number cannot be represented. -/
def scanSize (s : List Char) : Res (Option (Nat × List Char)) :=
  let (negative, s) := scanSign (s.dropWhile isSpace)
  let digits := digitsOf decimalDigit s
  if digits.isEmpty then .ok none
  else
    let value := digitsValue 10 digits
    if value < 2 ^ 64 then .ok (some (if negative then (2 ^ 64 - value) % 2 ^ 64 else value, afterDigits decimalDigit s))
    else .error .ub

/-- The numerals of `%lf` without sign: `mantissa * 10 ^ exponent` and `mantissa * 2 ^ exponent`. -/
inductive Numeral where
  | decimal (mantissa : Nat) (exponent : Int)
  | hexadecimal (mantissa : Nat) (exponent : Int)
  | infinity
  | nan
  deriving DecidableEq, Repr

/-- A numeral with sign. -/
structure FloatLiteral where
  negative : Bool
  numeral : Numeral
  deriving DecidableEq, Repr

/-- An optional exponent; no match if there is an `e` without digits. -/
def scanExponent (marker marker' : Char) : List Char → Option Int
  | [] => some 0
  | c :: s =>
    if c == marker || c == marker' then
      let (negative, s) := scanSign s
      let digits := digitsOf decimalDigit s
      if digits.isEmpty then none
      else some (if negative then -(digitsValue 10 digits : Int) else (digitsValue 10 digits : Int))
    else some 0

/-- Digits with an optional point and an optional exponent. Each digit after the point counts as `weight` steps of the
exponent. -/
def scanPositional (digit : Char → Option Nat) (base weight : Nat) (marker marker' : Char) (s : List Char) :
    Option (Nat × Int) :=
  let whole := digitsOf digit s
  let (fraction, s) := match afterDigits digit s with
    | '.' :: s => (digitsOf digit s, afterDigits digit s)
    | s => ([], s)
  if whole.isEmpty && fraction.isEmpty then none
  else (scanExponent marker marker' s).map fun e =>
    (digitsValue base (whole ++ fraction), e - (weight * fraction.length : Nat))

/-- The characters are in front, in upper or lower case; what follows. -/
def scanWord (word s : List Char) : Option (List Char) :=
  if (s.take word.length).map Char.toLower == word then some (s.drop word.length) else none

/-- Characters which may be between the parentheses after `nan`. -/
def isNChar (c : Char) : Bool :=
  ('0' ≤ c && c ≤ '9') || ('a' ≤ c && c ≤ 'z') || ('A' ≤ c && c ≤ 'Z') || c == '_'

/-- A numeral without sign. As much as possible is read, so that there is no match if this is only the beginning of one, as
in `infi` or `nan(`. -/
def scanNumeral (s : List Char) : Option Numeral :=
  match scanWord ['i', 'n', 'f'] s with
  | some rest =>
    match scanWord ['i'] rest with
    | some rest => (scanWord ['n', 'i', 't', 'y'] rest).map fun _ => .infinity
    | none => some .infinity
  | none =>
    match scanWord ['n', 'a', 'n'] s with
    | some ('(' :: rest) => if (rest.dropWhile isNChar).head? == some ')' then some .nan else none
    | some _ => some .nan
    | none =>
      match scanWord ['0', 'x'] s with
      | some rest => (scanPositional hexadecimalDigit 16 4 'p' 'P' rest).map fun (m, e) => .hexadecimal m e
      | none => (scanPositional decimalDigit 10 1 'e' 'E' s).map fun (m, e) => .decimal m e

/-- `%lf`: spaces are skipped, then there is an optional sign and a numeral. -/
def scanFloat (s : List Char) : Option FloatLiteral :=
  let (negative, s) := scanSign (s.dropWhile isSpace)
  (scanNumeral s).map fun n => ⟨negative, n⟩

/-- `std::sscanf(line.c_str(), " %zu %zu %zu", …)`, `ctldl/fileio/mtx_read_header.cpp:26-27`. A space in the format skips
spaces, which `%zu` does anyway. -/
def scanHeader (line : String) : Res (Option (Nat × Nat × Nat)) := do
  match ← scanSize (cString line) with
  | none => return none
  | some (numRows, s) =>
    match ← scanSize s with
    | none => return none
    | some (numCols, s) =>
      match ← scanSize s with
      | none => return none
      | some (nnz, _) => return some (numRows, numCols, nnz)

/-- `std::sscanf(line.c_str(), " %zu %zu %lf", …)`, `ctldl/fileio/mtx_foreach_entry.cpp:27-28`. -/
def scanEntry (line : String) : Res (Option (Nat × Nat × FloatLiteral)) := do
  match ← scanSize (cString line) with
  | none => return none
  | some (rowIndex, s) =>
    match ← scanSize s with
    | none => return none
    | some (colIndex, s) => return (scanFloat s).map fun x => (rowIndex, colIndex, x)

/-- The two calls together, with the conversion of numerals to numbers. -/
def textScanner {K : Type _} (convert : FloatLiteral → K) : Scanner K where
  header := scanHeader
  entry line := do return (← scanEntry line).map fun (r, c, x) => (r, c, convert x)

/-- `mtxFileReadRepeatingBlockTridiagonalArrowheadLinked` for a file with the given characters. -/
def mtxTextRead {K : Type _} [Zero K] (convert : FloatLiteral → K) (s : ArrowheadSparsity) (text : List Char) :
    Res (MtxArrowhead K) :=
  mtxFileRead (textScanner convert) s ((getLines [] text).map String.ofList)

end Ctldl
