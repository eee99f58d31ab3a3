import Verif.Spec.Binary

/-! # Specification vocabulary: numbers written by `printf("%f")`

Six digits after the point, rounded to nearest with ties to even, as the GNU C library does. -/

namespace Ctldl

/-- The digits of a number of millionths. -/
def millionths (n : Nat) : List Char :=
  Nat.toDigits 10 (n / 10 ^ 6) ++ '.' :: (Nat.toDigits 10 (10 ^ 6 + n % 10 ^ 6)).tail

/-- The text written for a floating point number. -/
def Binary.printed {fmt : Format} : Binary fmt → List Char
  | .nan => "nan".toList
  | .inf s => (if s then "-" else "").toList ++ "inf".toList
  | x => (if x.negative then "-" else "").toList ++ millionths (roundEven (|x.toRat| * 10 ^ 6)).toNat

end Ctldl
