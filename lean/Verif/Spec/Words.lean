import Verif.Spec.Mtx

/-! # Specification vocabulary: sizes declared by a file, and the memory needed for them -/

namespace Ctldl

/-- The first line which is not a comment has the sizes of a matrix with the given number of repetitions. -/
def DeclaresSizes {K : Type} (scanner : Scanner K) (d : Dims) (lines : List String) (numRepetitions : Nat) : Prop :=
  ∃ comments header rest count, lines = comments ++ header :: rest ∧ (∀ line ∈ comments, CommentLine line) ∧
    ¬ CommentLine header ∧
    scanner.header header = .ok (some (d.total numRepetitions, d.total numRepetitions, count))

/-- After `k` allocations, those of the vectors of diagonal, subdiagonal and outer blocks succeed. -/
def MemorySuffices (allocate : Nat → Nat → Bool) (k numRepetitions : Nat) : Prop :=
  allocate k (numRepetitions + 1) = true ∧ allocate (k + 1) numRepetitions = true ∧
    allocate (k + 2) (numRepetitions + 1) = true

end Ctldl
