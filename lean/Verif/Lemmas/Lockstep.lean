import Verif.Spec.Lockstep
import Verif.Spec.Rounding

/-! # Lockstep execution as an arithmetic without rounding errors -/

namespace Ctldl.Lockstep

variable {K F : Type} [Zero K] [Sub K] [Mul K] [Div K] [Field F] [LinearOrder F] [IsStrictOrderedRing F]
  {number : K → Option F}

omit [Zero K] [Sub K] [Mul K] [Div K] [Field F] [IsStrictOrderedRing F] in
private theorem operation_exact {f : F → F → F} {a b : Lockstep number} {c : K} {more : Bool}
    (h : (operation f a b c more).exact = true) : a.exact = true ∧ b.exact = true ∧ more = true := by
  simp only [operation, Bool.and_eq_true] at h
  exact ⟨h.1.1.1, h.1.1.2, h.1.2⟩

/-- Values obtained by exact operations have no rounding errors. -/
def rounding (number : K → Option F) (h0 : number 0 = some 0) : Rounding (Lockstep number) F where
  fin a := a.exact = true
  v a := a.reference
  u := 0
  η := 0
  μ := 0
  σ := 0
  stored _ := True
  u_nonneg := le_rfl
  u_lt_one := zero_lt_one
  η_nonneg := le_rfl
  σ_nonneg := le_rfl
  μ_add_σ := by rw [add_zero]
  fin_zero := decide_eq_true h0
  v_zero := rfl
  stored_div _ _ := trivial
  sub := fun {a b} h => ⟨(operation_exact h).1, (operation_exact h).2.1, 0, 0, by rw [abs_zero], by rw [abs_zero], by
    simp only [add_zero, mul_one]
    rfl⟩
  fin_mul := fun h => ⟨(operation_exact h).1, (operation_exact h).2.1⟩
  mul := fun {a b} _ _ => ⟨0, 0, by rw [abs_zero], by rw [abs_zero], by
    simp only [add_zero, mul_one]
    rfl⟩
  mul_mul := fun {a b c} _ _ => ⟨0, 0, 0, 0, by rw [abs_zero], by rw [abs_zero], by rw [abs_zero], by rw [abs_zero], by
    simp only [add_zero, mul_one]
    rfl⟩
  div := fun {a b} _ h => ⟨(operation_exact h).1, trivial, fun hb => of_decide_eq_true (operation_exact h).2.2
    (by rw [b.sound (operation_exact h).2.1, hb]), 0, 0, by rw [abs_zero],
    by rw [abs_zero], by
    simp only [add_zero, mul_one]
    rfl⟩

end Ctldl.Lockstep
