import Verif.Spec.Binary

/-! # Specification vocabulary: changes of sign

`SignChanged s a b` says that `b` is `a` with the other sign if `s` holds, and `a` otherwise; signs of zeros do not
matter. -/

namespace Ctldl

/-- The second value is the first one, with the other sign if `s` is true. Zeros of both signs are the same. -/
inductive SignChanged {fmt : Format} (s : Bool) : Binary fmt → Binary fmt → Prop where
  | zero (t t' : Bool) : SignChanged s (.zero t) (.zero t')
  | num {x y : ℚ} (hx : x ≠ 0) (hr : fmt.Represents x) (hy : y ≠ 0) (hs : fmt.Represents y)
    (h : y = if s then -x else x) : SignChanged s (.num x hx hr) (.num y hy hs)
  | inf (t : Bool) : SignChanged s (.inf t) (.inf (t ^^ s))
  | nan : SignChanged s .nan .nan

/-- The value is a zero of either sign. -/
def Binary.IsZero {fmt : Format} : Binary fmt → Prop
  | .zero _ => True
  | _ => False

instance {fmt : Format} (a : Binary fmt) : Decidable a.IsZero :=
  match a with
  | .zero _ => .isTrue trivial
  | .num .. => .isFalse id
  | .inf _ => .isFalse id
  | .nan => .isFalse id

/-- Whether the second value is the first one up to sign can be computed. -/
def SignChanged.decide {fmt : Format} (s : Bool) (a b : Binary fmt) : Decidable (SignChanged s a b) :=
  match a, b with
  | .zero t, .zero t' => .isTrue (.zero t t')
  | .num x hx hr, .num y hy hs =>
    if h : y = if s then -x else x then .isTrue (.num hx hr hy hs h)
    else .isFalse (by rintro ⟨⟩; next h' => exact h h')
  | .inf t, .inf t' => if h : t' = (t ^^ s) then .isTrue (h ▸ .inf t) else .isFalse (by rintro ⟨⟩; exact h rfl)
  | .nan, .nan => .isTrue .nan
  | .zero _, .num .. => .isFalse (by rintro ⟨⟩)
  | .zero _, .inf _ => .isFalse (by rintro ⟨⟩)
  | .zero _, .nan => .isFalse (by rintro ⟨⟩)
  | .num .., .zero _ => .isFalse (by rintro ⟨⟩)
  | .num .., .inf _ => .isFalse (by rintro ⟨⟩)
  | .num .., .nan => .isFalse (by rintro ⟨⟩)
  | .inf _, .zero _ => .isFalse (by rintro ⟨⟩)
  | .inf _, .num .. => .isFalse (by rintro ⟨⟩)
  | .inf _, .nan => .isFalse (by rintro ⟨⟩)
  | .nan, .zero _ => .isFalse (by rintro ⟨⟩)
  | .nan, .num .. => .isFalse (by rintro ⟨⟩)
  | .nan, .inf _ => .isFalse (by rintro ⟨⟩)

instance {fmt : Format} (s : Bool) (a b : Binary fmt) : Decidable (SignChanged s a b) := SignChanged.decide s a b

end Ctldl
