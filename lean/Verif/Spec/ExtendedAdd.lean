import Verif.Spec.Extended
import Verif.Spec.RoundingAdd

/-! # Specification vocabulary: sums with extended precision of intermediate results -/

namespace Ctldl

namespace Extended

variable {fmt ext : Format} {C : Excess}

/-- Addition. Sums have the same tags as differences, and are kept if differences are. -/
instance : Add (Extended fmt ext C) :=
  ⟨fun a b => ⟨C.sub a.tag b.tag, store fmt (C.keepSub a.tag b.tag) (a.value + b.value)⟩⟩

end Extended

end Ctldl
