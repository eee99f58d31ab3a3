import Mathlib.Algebra.Group.Defs
import Mathlib.Tactic.SplitIfs
import Mathlib.Tactic.ByContra
import Mathlib.Tactic.Push

/-! # Every type with a zero has an addition

Statements about reading files mention sums of values at a position, although the files have at most one which counts.
So for statements without sums any addition will do. -/

namespace Ctldl

variable {K : Type}

/-- An addition for any type with a zero, only to speak about values of files. -/
@[instance_reducible] noncomputable def someAddition (K : Type) [Zero K] (w : K) (hw : w ≠ 0) : AddCommMonoid K := by
  classical
  letI : Add K := ⟨fun x y => if x = 0 then y else if y = 0 then x else w⟩
  exact
  { zero := 0
    add_assoc := by
      intro a b c
      show (if (if a = 0 then b else if b = 0 then a else w) = 0 then c
        else if c = 0 then (if a = 0 then b else if b = 0 then a else w) else w) =
        (if a = 0 then (if b = 0 then c else if c = 0 then b else w)
        else if (if b = 0 then c else if c = 0 then b else w) = 0 then a else w)
      by_cases ha : a = 0 <;> by_cases hb : b = 0 <;> by_cases hc : c = 0 <;> simp [ha, hb, hc, hw]
    zero_add := by
      intro a
      show (if (0 : K) = 0 then a else _) = a
      rw [if_pos rfl]
    add_zero := by
      intro a
      show (if a = 0 then 0 else if (0 : K) = 0 then a else w) = a
      split
      · rename_i h; rw [h]
      · rw [if_pos rfl]
    add_comm := by
      intro a b
      show (if a = 0 then b else if b = 0 then a else w) = (if b = 0 then a else if a = 0 then b else w)
      split_ifs <;> simp_all
    nsmul := nsmulRec }

/-- A type with a zero only. -/
@[instance_reducible] def trivialAddition (K : Type) [Zero K] (h : ∀ w : K, w = 0) : AddCommMonoid K :=
  letI : Add K := ⟨fun _ _ => 0⟩
  { zero := 0
    add_assoc := fun _ _ _ => rfl
    zero_add := fun a => (h a).symm
    add_zero := fun a => (h a).symm
    add_comm := fun _ _ => rfl
    nsmul := nsmulRec }

/-- To prove something about a type with a zero we can assume that there is an addition. -/
theorem with_addition [i : Zero K] {P : Prop} (h : ∀ j : AddCommMonoid K, j.toZero = i → P) : P := by
  by_cases hw : ∃ w : K, w ≠ 0
  · obtain ⟨w, hw⟩ := hw
    exact h (someAddition K w hw) rfl
  · push Not at hw
    exact h (trivialAddition K hw) rfl

end Ctldl
