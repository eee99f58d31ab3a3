import Mathlib.Algebra.Field.Defs

/-!
# Computing in two arithmetics in lockstep

`number a` is the number for which a value `a` of the number type of the program stands, if any (none for infinities and
NaN). The program is executed with pairs of a value and of the number which exact arithmetic has in its place. A flag tells
that all operations which contributed to the value were exact: operands and result stand for numbers, and the result is
the difference, product or quotient of the operands.
-/

namespace Ctldl

/-- A value, the number in its place in exact arithmetic, and whether all operations which contributed were exact. -/
structure Lockstep {K F : Type} (number : K → Option F) where
  value : K
  reference : F
  exact : Bool
  sound : exact = true → number value = some reference

/-- `c` stands for the number `f x y`, if `a` and `b` stand for `x` and `y`. -/
def ExactOperation {K F : Type} (number : K → Option F) (f : F → F → F) (a b c : K) : Prop :=
  ∃ x y, number a = some x ∧ number b = some y ∧ number c = some (f x y)

instance ExactOperation.decidable {K F : Type} [DecidableEq F] (number : K → Option F) (f : F → F → F) (a b c : K) :
    Decidable (ExactOperation number f a b c) :=
  match ha : number a, hb : number b with
  | some x, some y => decidable_of_iff (number c = some (f x y))
    ⟨fun h => ⟨x, y, ha, hb, h⟩, by
      rintro ⟨x', y', hx, hy, h⟩
      rw [ha] at hx
      rw [hb] at hy
      rw [h, Option.some.inj hx, Option.some.inj hy]⟩
  | none, _ => .isFalse (by rintro ⟨x, y, hx, -⟩; rw [ha] at hx; cases hx)
  | _, none => .isFalse (by rintro ⟨x, y, -, hy, -⟩; rw [hb] at hy; cases hy)

namespace Lockstep

variable {K F : Type} [DecidableEq F] {number : K → Option F}

/-- The results of an operation in both arithmetics. -/
def operation (f : F → F → F) (a b : Lockstep number) (c : K) (more : Bool) : Lockstep number where
  value := c
  reference := f a.reference b.reference
  exact := a.exact && b.exact && more && decide (ExactOperation number f a.value b.value c)
  sound := by
    intro h
    simp only [Bool.and_eq_true, decide_eq_true_eq] at h
    obtain ⟨⟨⟨ha, hb⟩, -⟩, x, y, hx, hy, h⟩ := h
    rw [a.sound ha] at hx
    rw [b.sound hb] at hy
    rw [h, ← Option.some.inj hx, ← Option.some.inj hy]

variable [Field F]

/-- A given value, and the number for which it stands. -/
def given (number : K → Option F) (a : K) : Lockstep number where
  value := a
  reference := (number a).getD 0
  exact := (number a).isSome
  sound h := by
    obtain ⟨x, hx⟩ := Option.isSome_iff_exists.mp h
    rw [hx]
    rfl

instance [Zero K] : Zero (Lockstep number) := ⟨⟨0, 0, decide (number 0 = some 0), of_decide_eq_true⟩⟩
instance [Sub K] : Sub (Lockstep number) := ⟨fun a b => operation (· - ·) a b (a.value - b.value) true⟩
instance [Mul K] : Mul (Lockstep number) := ⟨fun a b => operation (· * ·) a b (a.value * b.value) true⟩
instance [Div K] : Div (Lockstep number) :=
  ⟨fun a b => operation (· / ·) a b (a.value / b.value) (decide (number b.value ≠ some 0))⟩

/-- Regularization in both arithmetics. -/
def lift (reg : K → Nat → K) (reg' : F → Nat → F) (a : Lockstep number) (i : Nat) : Lockstep number where
  value := reg a.value i
  reference := reg' a.reference i
  exact := a.exact && decide (number (reg a.value i) = (number a.value).map (reg' · i))
  sound := by
    intro h
    simp only [Bool.and_eq_true, decide_eq_true_eq] at h
    rw [h.2, a.sound h.1]
    rfl

end Lockstep

end Ctldl
