import Mathlib.Data.List.Perm.Basic

/-! # Specification vocabulary: permutations -/

namespace Ctldl

/-- `p` lists each of `0, ..., n-1` exactly once. -/
def IsPerm (p : List Nat) (n : Nat) : Prop := p.Perm (List.range n)

/-- The `i`-th element of a permutation as a total function (only used for `i` in range). -/
def permAt (p : List Nat) (i : Nat) : Nat := p.getD i 0

end Ctldl
