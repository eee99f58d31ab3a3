import Verif.Model.Permutation

/-! # `tests/utility/random/*` -/

namespace Ctldl

/-- `LinearCongruenceGenerator::operator()`, `tests/utility/random/linear_congruence_generator.hpp:22-25`
(`size_t` of 64 bits): the new state is also the result. `min()` is 0 (`:14-16`). -/
def lcgNext (state : Nat) : Nat := (state * 6364136223846793005 + 1) % 2 ^ 64

/-- `UniformIntDistribution` with bounds `a`, `b` (here only non-negative ones) applied to the generator,
`tests/utility/random/uniform_int_distribution.hpp:11-26`: value and new generator state. -/
def uniformInt (a b state : Nat) : Res (Nat × Nat) := do
  assert' (b ≥ a)
  if b = a then return (a, state)
  let state := lcgNext state
  return ((← umod state (b - a)) + a, state)

/-- `std::iter_swap(first + i, first + j)`. -/
def swapAt {α : Type _} (v : List α) (i j : Nat) : Res (List α) := do
  let x ← rd v i
  let y ← rd v j
  wr (← wr v i y) j x

/-- `shuffle`, `tests/utility/random/shuffle.hpp:11-28`: shuffled values and generator state. -/
def shuffle {α : Type _} (v : List α) (state : Nat) : Res (List α × Nat) := do
  let (v, _, state) ← (List.range v.length).foldlM
    (fun (st : List α × Nat × Nat) it => do
      let numRemaining ← usub st.2.1 1
      let (i, state) ← uniformInt 0 numRemaining st.2.2
      let v ← if i ≠ 0 then swapAt st.1 it (it + i) else pure st.1
      return (v, numRemaining, state))
    (v, v.length, state)
  return (v, state)

/-- `PermutationDistribution::operator()` and `ProceduralTestPermutation`,
`tests/utility/random/procedural_test_permutation.hpp:18-36`. -/
def proceduralTestPermutation (seed dim : Nat) : Res (List Nat × Nat) :=
  shuffle (identityPermutation dim) seed

end Ctldl
