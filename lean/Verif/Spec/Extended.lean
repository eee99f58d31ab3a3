import Verif.Spec.Binary
import Verif.Spec.Mixed

/-! # Specification vocabulary: binary floating point arithmetic with extended precision of intermediate results

Compilers may evaluate expressions with more precision and range than that of the type of the operands (`FLT_EVAL_METHOD`
of the C and C++ standards, for example on x87 processors), and round results to their type at some later point. At which
points they do can differ from place to place. Here each number carries a tag which tells how it was obtained, and the tags
of the operands of an operation decide if its result is rounded to the type, or kept as it is. -/

namespace Ctldl

/-- Decisions of a compiler about extended precision: how to tag results, and which results to keep unrounded. -/
structure Excess where
  Tag : Type
  zero : Tag
  sub : Tag → Tag → Tag
  mul : Tag → Tag → Tag
  div : Tag → Tag → Tag
  /-- The difference of numbers with these tags is kept. -/
  keepSub : Tag → Tag → Bool
  /-- The product of numbers with these tags is kept. -/
  keepMul : Tag → Tag → Bool
  /-- The quotient of numbers with these tags is kept. -/
  keepDiv : Tag → Tag → Bool

/-- Numbers of a program which uses `fmt` and evaluates expressions in `ext`. -/
structure Extended (fmt ext : Format) (C : Excess) where
  tag : C.Tag
  value : Binary ext

namespace Extended

variable {fmt ext : Format} {C : Excess}

/-- The number is finite. -/
def Finite (x : Extended fmt ext C) : Prop := x.value.Finite

/-- The number for which the value stands. -/
def toRat (x : Extended fmt ext C) : ℚ := x.value.toRat

/-- A number of the type with a tag. -/
def ofTagged (y : C.Tag × Binary fmt) : Extended fmt ext C := ⟨y.1, y.2.convert ext⟩

/-- A result is kept, or rounded to the type. -/
def store (fmt : Format) (keep : Bool) (x : Binary ext) : Binary ext :=
  if keep then x else (x.convert fmt).convert ext

instance : Zero (Extended fmt ext C) := ⟨⟨C.zero, 0⟩⟩

instance : Sub (Extended fmt ext C) :=
  ⟨fun a b => ⟨C.sub a.tag b.tag, store fmt (C.keepSub a.tag b.tag) (a.value - b.value)⟩⟩

instance : Mul (Extended fmt ext C) :=
  ⟨fun a b => ⟨C.mul a.tag b.tag, store fmt (C.keepMul a.tag b.tag) (a.value * b.value)⟩⟩

instance : Div (Extended fmt ext C) :=
  ⟨fun a b => ⟨C.div a.tag b.tag, store fmt (C.keepDiv a.tag b.tag) (a.value / b.value)⟩⟩

end Extended

end Ctldl
