import Verif.Model.Scan
import Verif.Spec.Binary

/-! # Conversion of numerals to floating point numbers -/

namespace Ctldl

/-- The floating point number stored by `%lf` (`ctldl/fileio/mtx_foreach_entry.cpp:27-28`, where `value` is a `double`).
The C standard leaves the rounding to the implementation: here that of the GNU C library, which rounds the exact value of
the numeral to nearest, ties to even, with gradual underflow, an infinity for what is too large, and the sign of the text
also for zeros. The format is a parameter (`binary64` is that of `double`). -/
def FloatLiteral.toBinary (fmt : Format) (x : FloatLiteral) : Binary fmt :=
  match x.numeral with
  | .decimal m e => .ofRat fmt x.negative ((if x.negative then -1 else 1) * m * 10 ^ e)
  | .hexadecimal m e => .ofRat fmt x.negative ((if x.negative then -1 else 1) * m * 2 ^ e)
  | .infinity => .inf x.negative
  | .nan => .nan

end Ctldl
