import Verif.Model.Scan
import Mathlib.Data.Nat.Digits.Defs
import Mathlib.Data.List.Forall2

/-! # Specification vocabulary: texts of matrix files -/

namespace Ctldl

/-- White space. -/
def Blank (s : List Char) : Prop := ∀ c ∈ s, c ∈ [' ', '\t', '\n', '\x0b', '\x0c', '\r']

/-- The text ends or goes on with white space. -/
def Separated (rest : List Char) : Prop := ∀ c r, rest = c :: r → Blank [c]

/-- The decimal digits, in the order of their values. -/
def decimalAlphabet : List (List Char) := [['0', '1', '2', '3', '4', '5', '6', '7', '8', '9']]

/-- The hexadecimal digits, in the order of their values. -/
def hexadecimalAlphabet : List (List Char) :=
  [['0', '1', '2', '3', '4', '5', '6', '7', '8', '9', 'a', 'b', 'c', 'd', 'e', 'f'],
    ['0', '1', '2', '3', '4', '5', '6', '7', '8', '9', 'A', 'B', 'C', 'D', 'E', 'F']]

/-- The character is the digit with the value `d`. -/
def HasValue (alphabet : List (List Char)) (c : Char) (d : Nat) : Prop := ∃ a ∈ alphabet, a[d]? = some c

/-- The characters are digits with the values `ds`. -/
def Spells (alphabet : List (List Char)) (s : List Char) (ds : List Nat) : Prop := List.Forall₂ (HasValue alphabet) s ds

/-- The text does not go on with a digit. -/
def NoDigit (alphabet : List (List Char)) (rest : List Char) : Prop := ∀ c r, rest = c :: r → ∀ d, ¬ HasValue alphabet c d

/-- An optional sign. -/
inductive Signed : List Char → Bool → Prop where
  | none : Signed [] false
  | plus : Signed ['+'] false
  | minus : Signed ['-'] true

/-- The characters are an optional sign and the decimal digits of `n`. -/
def SpellsInteger (s : List Char) (negative : Bool) (n : Nat) : Prop :=
  ∃ sign digits ds, s = sign ++ digits ∧ Signed sign negative ∧ ds ≠ [] ∧ Spells decimalAlphabet digits ds ∧
    n = Nat.ofDigits 10 ds.reverse

/-- The characters are an optional exponent. -/
def SpellsExponent (markers : List Char) (s : List Char) (e : Int) : Prop :=
  (s = [] ∧ e = 0) ∨ ∃ m ∈ markers, ∃ s' negative n, s = m :: s' ∧ SpellsInteger s' negative n ∧
    e = if negative then -(n : Int) else n

/-- The characters are digits with an optional point and an optional exponent, with value `mantissa` times the base of the
exponent to the power `exponent`. -/
def SpellsPositional (alphabet : List (List Char)) (base weight : Nat) (markers : List Char) (s : List Char) (mantissa : Nat)
    (exponent : Int) : Prop :=
  ∃ whole fraction point marked ds fs e, s = whole ++ (point ++ fraction ++ marked) ∧ Spells alphabet whole ds ∧
    Spells alphabet fraction fs ∧ (point = ['.'] ∨ point = [] ∧ fraction = []) ∧ (ds ≠ [] ∨ fs ≠ []) ∧
    SpellsExponent markers marked e ∧ mantissa = Nat.ofDigits base (ds ++ fs).reverse ∧
    exponent = e - (weight * fs.length : Nat)

/-- The characters are the word in upper or lower case. -/
def SpellsWord (word s : List Char) : Prop := s.map Char.toLower = word

/-- The characters are a numeral. -/
inductive SpellsNumeral : List Char → Numeral → Prop where
  | decimal {s m e} (h : SpellsPositional decimalAlphabet 10 1 ['e', 'E'] s m e) : SpellsNumeral s (.decimal m e)
  | hexadecimal {p s m e} (hp : SpellsWord ['0', 'x'] p)
      (h : SpellsPositional hexadecimalAlphabet 16 4 ['p', 'P'] s m e) : SpellsNumeral (p ++ s) (.hexadecimal m e)
  | inf {s} (h : SpellsWord ['i', 'n', 'f'] s) : SpellsNumeral s .infinity
  | infinity {s} (h : SpellsWord ['i', 'n', 'f', 'i', 'n', 'i', 't', 'y'] s) : SpellsNumeral s .infinity
  | nan {s} (h : SpellsWord ['n', 'a', 'n'] s) : SpellsNumeral s .nan
  | nanWith {s t} (h : SpellsWord ['n', 'a', 'n'] s) (ht : ∀ c ∈ t, c.isAlphanum ∨ c = '_') :
      SpellsNumeral (s ++ ('(' :: (t ++ [')']))) .nan

/-- The characters are a numeral with an optional sign. -/
def SpellsFloat (s : List Char) (x : FloatLiteral) : Prop :=
  ∃ sign s', s = sign ++ s' ∧ Signed sign x.negative ∧ SpellsNumeral s' x.numeral

/-- The characters are an index as accepted by the reader: a minus negates modulo `2 ^ 64`. -/
def SpellsIndex (s : List Char) (v : Nat) : Prop :=
  ∃ negative n, SpellsInteger s negative n ∧ n < 2 ^ 64 ∧ v = if negative then (2 ^ 64 - n) % 2 ^ 64 else n

/-- The value of a numeral, if it is finite. -/
def FloatLiteral.toRat (x : FloatLiteral) : Option ℚ :=
  match x.numeral with
  | .decimal m e => some ((if x.negative then -1 else 1) * m * 10 ^ e)
  | .hexadecimal m e => some ((if x.negative then -1 else 1) * m * 2 ^ e)
  | .infinity | .nan => none

/-- The line has neither a newline nor a null character. -/
def PlainLine (line : List Char) : Prop := '\n' ∉ line ∧ '\x00' ∉ line

/-- The line has the three sizes, separated by white space; what comes after them is not looked at. -/
def IsSizeLine (line : List Char) (dims : MtxDimensions) : Prop :=
  ∃ b t b' t' b'' t'' rest, line = b ++ t ++ (b' ++ t' ++ (b'' ++ t'' ++ rest)) ∧ Blank b ∧ Blank b' ∧ Blank b'' ∧ b' ≠ [] ∧
    b'' ≠ [] ∧ SpellsInteger t false dims.numRows ∧ SpellsInteger t' false dims.numCols ∧
    SpellsInteger t'' false dims.nnz ∧ Separated rest

/-- The line has two positive indices and a numeral, separated by white space; what comes after them is not looked at. -/
def IsEntryLine (line : List Char) (e : MtxEntry FloatLiteral) : Prop :=
  ∃ b t b' t' b'' t'' rest, line = b ++ t ++ (b' ++ t' ++ (b'' ++ t'' ++ rest)) ∧ Blank b ∧ Blank b' ∧ Blank b'' ∧ b' ≠ [] ∧
    b'' ≠ [] ∧ SpellsInteger t false (e.row + 1) ∧ SpellsInteger t' false (e.col + 1) ∧ SpellsFloat t'' e.value ∧
    Separated rest

/-- The lines as text, each with a newline at its end, except possibly the last one. -/
def IsText (text : List Char) (lines : List (List Char)) : Prop :=
  text = (lines.map (· ++ ['\n'])).flatten ∨
    ∃ before last, lines = before ++ [last] ∧ last ≠ [] ∧ text = (before.map (· ++ ['\n'])).flatten ++ last

/-- The text of a Matrix Market file as described by the format: lines with comments, a line with the sizes and a line for
each entry, as many as announced, with indices from one which are not beyond the sizes. -/
def IsMtxText (text : List Char) (dims : MtxDimensions) (entries : List (MtxEntry FloatLiteral)) : Prop :=
  ∃ (comments : List (List Char)) (header : List Char) (rest : List (List Char)),
    IsText text (comments.map ('%' :: ·) ++ header :: rest) ∧ (∀ line ∈ comments, '\n' ∉ line) ∧
    PlainLine header ∧ header.head? ≠ some '%' ∧ IsSizeLine header dims ∧ (∀ line ∈ rest, PlainLine line) ∧
    List.Forall₂ IsEntryLine rest entries ∧ (∀ e ∈ entries, e.row < dims.numRows ∧ e.col < dims.numCols) ∧
    entries.length = dims.nnz ∧ dims.numRows < 2 ^ 64 ∧ dims.numCols < 2 ^ 64 ∧ dims.nnz < 2 ^ 64

end Ctldl
