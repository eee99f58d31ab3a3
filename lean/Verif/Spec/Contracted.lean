import Verif.Spec.Binary

/-! # Specification vocabulary: binary floating point arithmetic with contracted expressions

Compilers may evaluate `a - b * c` with a fused multiply-add, which does not round the product (GCC does by default, if
the processor has the instruction). Whether they do can differ from place to place. Here each number carries a tag which
tells how it was obtained, and the tags of the operands of a product decide if it is rounded or kept for a fused
multiply-add. -/

namespace Ctldl

/-- Decisions of a compiler about contraction: how to tag results, and which products to contract. -/
structure Contraction where
  Tag : Type
  zero : Tag
  sub : Tag → Tag → Tag
  mul : Tag → Tag → Tag
  div : Tag → Tag → Tag
  /-- The product of numbers with these tags is not rounded. -/
  fuse : Tag → Tag → Bool

namespace Binary

variable {fmt : Format}

/-- Fused multiply-add `a - b * c` with a single rounding. -/
def fusedSub (a b c : Binary fmt) : Binary fmt :=
  match b, c with
  | .inf _, _ => a - b * c
  | .nan, _ => a - b * c
  | _, .inf _ => a - b * c
  | _, .nan => a - b * c
  | _, _ =>
    match a with
    | .nan => .nan
    | .inf s => .inf s
    | .num x _ _ => ofRat fmt (x - b.toRat * c.toRat < 0) (x - b.toRat * c.toRat)
    | .zero s =>
      if b.toRat * c.toRat = 0 then .zero (s && !(b.negative ^^ c.negative))
      else ofRat fmt (0 - b.toRat * c.toRat < 0) (0 - b.toRat * c.toRat)

end Binary

/-- Numbers of a program with contracted expressions. -/
inductive Contracted (fmt : Format) (C : Contraction) where
  /-- A number of the format. -/
  | val (tag : C.Tag) (x : Binary fmt)
  /-- A product which was not rounded. -/
  | prod (tag : C.Tag) (x y : Binary fmt)

instance (C : Contraction) : Zero C.Tag := ⟨C.zero⟩

namespace Contracted

variable {fmt : Format} {C : Contraction}

/-- The number is finite. -/
def Finite : Contracted fmt C → Prop
  | .val _ x => x.Finite
  | .prod _ x y => x.Finite ∧ y.Finite

/-- The number for which the value stands. -/
def toRat : Contracted fmt C → ℚ
  | .val _ x => x.toRat
  | .prod _ x y => x.toRat * y.toRat

/-- The number has been rounded to the format. -/
def Stored : Contracted fmt C → Prop
  | .val _ _ => True
  | .prod _ _ _ => False

/-- A number of the format with a tag. -/
def ofTagged (y : C.Tag × Binary fmt) : Contracted fmt C := .val y.1 y.2

/-- The tag of a number. -/
def tag : Contracted fmt C → C.Tag
  | .val t _ => t
  | .prod t _ _ => t

instance : Zero (Contracted fmt C) := ⟨.val C.zero 0⟩

/-- Subtraction: of a product which was not rounded with a fused multiply-add. (No program of the model subtracts something
from such a product.) -/
instance : Sub (Contracted fmt C) where
  sub
  | .val t a, .val s b => .val (C.sub t s) (a - b)
  | .val t a, .prod s b c => .val (C.sub t s) (a.fusedSub b c)
  | .prod t _ _, b => .val (C.sub t b.tag) .nan

/-- Product of numbers which have been rounded. -/
def times (t s : C.Tag) (a b : Binary fmt) : Contracted fmt C :=
  if C.fuse t s then .prod (C.mul t s) a b else .val (C.mul t s) (a * b)

/-- Multiplication: a factor which is a product is rounded first. (No program of the model has one on the right.) -/
instance : Mul (Contracted fmt C) where
  mul
  | .val t a, .val s b => times t s a b
  | .prod t a b, .val s c => times t s (a * b) c
  | a, .prod s _ _ => .val (C.mul a.tag s) .nan

/-- Division. (No program of the model divides by or has the quotient of such a product.) -/
instance : Div (Contracted fmt C) where
  div
  | .val t a, .val s b => .val (C.div t s) (a / b)
  | a, b => .val (C.div a.tag b.tag) .nan

end Contracted

end Ctldl
