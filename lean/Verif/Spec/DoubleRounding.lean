import Verif.Spec.Extended

/-! # Specification vocabulary: formats which are wide enough for intermediate results -/

namespace Ctldl

/-- The format `ext` has more than twice the precision of `fmt`, and enough range for the differences, products and
quotients of its numbers. -/
structure Format.TwiceAsWide (fmt ext : Format) : Prop where
  precision : 2 * fmt.precision + 2 ≤ ext.precision
  small : ext.minExp ≤ fmt.minExp - 1
  small_mul : ext.minExp ≤ 2 * fmt.minExp
  small_div : ext.minExp ≤ fmt.minExp - fmt.maxExp - ext.precision
  large : fmt.maxExp + 2 ≤ ext.maxExp
  large_mul : 2 * fmt.maxExp + 1 ≤ ext.maxExp
  large_div : fmt.maxExp - fmt.minExp + 1 ≤ ext.maxExp

/-- The compiler evaluates all operations in a wider format, and rounds all results to the type. -/
def Excess.none : Excess :=
  ⟨Unit, (), fun _ _ => (), fun _ _ => (), fun _ _ => (), fun _ _ => false, fun _ _ => false, fun _ _ => false⟩

/-- A number of the type in such a program. -/
def Extended.ofBinary {fmt : Format} (ext : Format) (x : Binary fmt) : Extended fmt ext .none := ⟨(), x.convert ext⟩

end Ctldl
