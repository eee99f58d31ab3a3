import Verif.Model.Basic

/-! # `ctldl/permutation/*` -/

namespace Ctldl

/-- `Entry`, `ctldl/sparsity/entry.hpp:7-17` (equality compares both indices). -/
structure Entry where
  row : Nat
  col : Nat
  deriving DecidableEq, Repr

/-- Default construction of a permutation by `std::iota`,
`ctldl/permutation/permutation.hpp:19-25` (static) and `:49-54` (dynamic). Permutations of all three
classes are the list of their indices; none of the constructors checks validity (`:45-47`, `:90-93`). -/
def identityPermutation (dim : Nat) : List Nat := List.range dim

/-- `operator==` on permutations, `ctldl/permutation/permutation.hpp:98-101`. -/
def permutationEq (lhs rhs : List Nat) : Bool := lhs == rhs

/-- `invertPermutation`, `ctldl/permutation/invert_permutation.hpp:11-17`. -/
def invertPermutation (permutation : List Nat) : Res (List Nat) :=
  (List.range permutation.length).foldlM
    (fun inverse i => do wr inverse (← rd permutation i) i)
    (List.replicate permutation.length 0)

/-- `permutedEntry`, `ctldl/permutation/permuted_entry.hpp:11-17`. -/
def permutedEntry (entry : Entry) (permutationRow permutationCol : List Nat) : Res Entry := do
  return ⟨← rd permutationRow entry.row, ← rd permutationCol entry.col⟩

/-- `permutedEntryLowerTriangle`, `ctldl/permutation/permuted_entry_lower_triangle.hpp:12-18`. -/
def permutedEntryLowerTriangle (entry : Entry) (permutation : List Nat) : Res Entry := do
  let a ← rd permutation entry.row
  let b ← rd permutation entry.col
  return ⟨max a b, min a b⟩

/-- `factorial`, `ctldl/permutation/factorial.hpp:7-13`: `i` runs from 2 to `n`; a `std::size_t` of 64 bits wraps
around. -/
def factorial (n : Nat) : Nat := (List.range' 2 (n - 1)).foldl (fun value i => value * i % 2 ^ 64) 1

/-- Leftwards scan of `std::next_permutation` (as in libstdc++): `rev` is the reversed front part, `suffix`
the non-increasing back part found so far with first element `x`. Returns front (still reversed), pivot and
suffix for the first place where the element before the suffix is smaller than its first element; `none` if
there is no such place. -/
def findPivot : List Nat → Nat → List Nat → Option (List Nat × Nat × List Nat)
  | [], _, _ => none
  | y :: rev, x, suffix =>
    if y < x then some (rev, y, x :: suffix) else findPivot rev y (x :: suffix)

/-- Exchange `pivot` with the last element of `suffix` that is greater than it. Returns the new pivot and the
new suffix. -/
def swapPivot (pivot : Nat) : List Nat → Nat × List Nat
  | [] => (pivot, [])
  | x :: xs =>
    if xs.any (pivot < ·) then
      let (q, ys) := swapPivot pivot xs
      (q, x :: ys)
    else if pivot < x then (x, pivot :: xs)
    else (pivot, x :: xs)

/-- `std::ranges::next_permutation` as implemented in the standard library: find the longest non-increasing
suffix, exchange the element before it with the last greater element of the suffix, reverse the suffix. If the
whole sequence is non-increasing it is reversed (wrap to the first arrangement). -/
def nextPermutation (current : List Nat) : List Nat :=
  match current.reverse with
  | [] => []
  | x :: rev =>
    match findPivot rev x [] with
    | none => current.reverse
    | some (front, pivot, suffix) =>
      let (q, s) := swapPivot pivot suffix
      front.reverse ++ q :: s.reverse

/-- `enumeratePermutationsStatic`, `ctldl/permutation/permutation_enumeration.hpp:14-23`. -/
def enumeratePermutations (dim : Nat) : List (List Nat) :=
  ((List.range (factorial dim)).foldl
    (fun (s : List (List Nat) × List Nat) _ => (s.1 ++ [s.2], nextPermutation s.2))
    ([], List.range dim)).1

end Ctldl
