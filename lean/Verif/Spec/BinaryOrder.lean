import Verif.Spec.Binary

/-! # Specification vocabulary: comparison of binary floating point numbers -/

namespace Ctldl

namespace Binary

variable {fmt : Format}

theorem represents_abs {x : ℚ} (h : fmt.Represents x) : fmt.Represents |x| := by
  obtain ⟨⟨k, e, h1, h2, h3⟩, h4⟩ := h
  refine ⟨⟨|k|, e, by rwa [abs_abs], h2, ?_⟩, by rwa [abs_abs]⟩
  rw [h3, abs_mul, abs_of_pos (zpow_pos (by norm_num : (0 : ℚ) < 2) e)]
  push_cast
  rfl

/-- The absolute value. -/
def abs : Binary fmt → Binary fmt
  | .zero _ => .zero false
  | .num x hx hr => .num |x| (abs_ne_zero.mpr hx) (represents_abs hr)
  | .inf _ => .inf false
  | .nan => .nan

instance : One (Binary fmt) := ⟨ofRat fmt false 1⟩

/-- Comparison; false if one of the values is not a number. -/
def lt : Binary fmt → Binary fmt → Bool
  | .nan, _ => false
  | _, .nan => false
  | .inf s, .inf t => s && !t
  | .inf s, _ => s
  | _, .inf t => !t
  | a, b => a.toRat < b.toRat

instance : LT (Binary fmt) := ⟨fun a b => lt a b = true⟩

instance : DecidableLT (Binary fmt) := fun a b => inferInstanceAs (Decidable (lt a b = true))

end Binary

end Ctldl
