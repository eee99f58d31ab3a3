import Verif.Spec.Environment
import Verif.Spec.RoundingAdd

/-! # Specification vocabulary: sums in floating point environments -/

namespace Ctldl

variable {fmt : Format} {e : Environment}

/-- Addition, and whether the result is too large. -/
def Environment.add (e : Environment) (a b : Binary fmt) : Binary fmt × Bool := e.sub a b.neg

instance : Add (Directed fmt e) := ⟨fun a b => ⟨(e.add a.value b.value).1⟩⟩

instance : Add (Flagged fmt e) :=
  ⟨fun a b => ⟨a.value + b.value, a.overflow || b.overflow || (e.add a.value.value b.value.value).2⟩⟩

end Ctldl
