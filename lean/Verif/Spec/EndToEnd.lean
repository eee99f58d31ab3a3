import Verif.Spec.Mtx

/-! # Specification vocabulary: the system of equations given by a file -/

namespace Ctldl

variable {K : Type}

/-- The symmetric matrix whose lower triangle is in the file. -/
def fileSymmetric [Zero K] (entries : List (MtxEntry K)) (r c : Nat) : K := fileValue entries (max r c) (min r c)

/-- All elements of a vector of blocks, one after the other. -/
def ArrowheadVector.flat (v : ArrowheadVector K) : List K := v.start ++ v.tridiag.flatten ++ v.link ++ v.outer

end Ctldl
