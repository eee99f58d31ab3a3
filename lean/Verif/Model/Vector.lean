import Verif.Model.Basic

/-! # `ctldl/vector/*` -/

namespace Ctldl

/-- Inner loop of `block`, `ctldl/vector/block.hpp:17-20`: read `count` values at the iterator. Returns the values
of the block and the advanced iterator. -/
def readBlock {α : Type _} (valuesFlat : List α) (count it : Nat) : Res (List α × Nat) :=
  (List.range count).foldlM
    (fun (st : List α × Nat) _ => do return (st.1 ++ [← rd valuesFlat st.2], st.2 + 1)) ([], it)

/-- `block<block_dim>`, `ctldl/vector/block.hpp:10-23`. -/
def block {α : Type _} (blockDim : Nat) (valuesFlat : List α) : Res (List (List α)) := do
  let numBlocks ← udiv valuesFlat.length blockDim
  let (blocks, _) ← (List.range numBlocks).foldlM
    (fun (st : List (List α) × Nat) _ => do
      let (values, it) ← readBlock valuesFlat blockDim st.2
      return (st.1 ++ [values], it)) ([], 0)
  return blocks

/-- `flatten`, `ctldl/vector/flatten.hpp:12-20`. -/
def flatten {α : Type _} (valuesBlocked : List (List α)) : List α :=
  valuesBlocked.foldl (fun acc block => acc ++ block) []

end Ctldl
