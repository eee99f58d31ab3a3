import Verif.Model.Examples
import Verif.Spec.Arrowhead

/-! # Specification vocabulary: the example programs -/

namespace Ctldl

/-- The numbers which are printed, in order. -/
def printedNumbers {K : Type} (output : List (OutputLine K)) : List K :=
  output.filterMap fun line => match line with
    | .heading _ => none
    | .number value => some value

/-- Sizes of the blocks of the structures. -/
def MtxExample.dims : MtxExample → Dims
  | .mhdb416 => ⟨0, 16, 0, 0⟩
  | .nos2 => ⟨0, 3, 0, 0⟩
  | .nos4 => ⟨0, 10, 0, 0⟩
  | .laufkatze => ⟨11, 20, 0, 1⟩
  | .opal => ⟨0, 22, 14, 2⟩
  | .spline => ⟨4, 7, 0, 0⟩

end Ctldl
