import Verif.Spec.Mtx

/-! # Specification vocabulary: what is wrong with a matrix file, and the sentence which says so -/

namespace Ctldl

variable {K : Type}

/-- The line has an entry (with indices from one) of a matrix with the given structure: within the sizes, not in columns
of the start below the first repeated block, and, as moved by the reader, in the declared pattern. -/
def AcceptedLine (scanner : Scanner K) (s : ArrowheadSparsity) (d : Dims) (numRepetitions : Nat) (line : String) : Prop :=
  ∃ r c v, scanner.entry line = .ok (some (r + 1, c + 1, v)) ∧ r < d.total numRepetitions ∧ c < d.total numRepetitions ∧
    ¬ d.Overruns numRepetitions r c ∧ s.Covers d numRepetitions (d.movedRow numRepetitions r c) c

/-- What is wrong with the line of an entry: the first reason which applies. -/
inductive LineDefect (scanner : Scanner K) (s : ArrowheadSparsity) (d : Dims) (numRepetitions : Nat) (line : String) :
    String → Prop
  | numbers (h : scanner.entry line = .ok none) : LineDefect scanner s d numRepetitions line "Error reading matrix entry"
  | rowZero {c : Nat} {v : K} (h : scanner.entry line = .ok (some (0, c, v))) :
    LineDefect scanner s d numRepetitions line "Row index must be positive"
  | colZero {r : Nat} {v : K} (h : scanner.entry line = .ok (some (r + 1, 0, v))) :
    LineDefect scanner s d numRepetitions line "Column index must be positive"
  | rowLarge {r c : Nat} {v : K} (h : scanner.entry line = .ok (some (r + 1, c + 1, v)))
      (hr : d.total numRepetitions ≤ r) :
    LineDefect scanner s d numRepetitions line "Row index is out of range"
  | colLarge {r c : Nat} {v : K} (h : scanner.entry line = .ok (some (r + 1, c + 1, v)))
      (hr : r < d.total numRepetitions) (hc : d.total numRepetitions ≤ c) :
    LineDefect scanner s d numRepetitions line "Column index is out of range"
  | upper {r c : Nat} {v : K} (h : scanner.entry line = .ok (some (r + 1, c + 1, v))) (hr : r < d.total numRepetitions)
      (hc : c < d.total numRepetitions) (hrc : r < c) :
    LineDefect scanner s d numRepetitions line "Matrix entries must be in lower triangle"
  | pattern {r c : Nat} {v : K} (h : scanner.entry line = .ok (some (r + 1, c + 1, v))) (hr : r < d.total numRepetitions)
      (hc : c < d.total numRepetitions) (hrc : c ≤ r) (ho : ¬ d.Overruns numRepetitions r c)
      (hs : ¬ s.Covers d numRepetitions (d.movedRow numRepetitions r c) c) :
    LineDefect scanner s d numRepetitions line "Entry is not covered by compiled sparsity"

/-- What is wrong with the lines of a file: the first reason which applies, where the lines of entries are looked at one
after the other. -/
inductive FileDefect (scanner : Scanner K) (s : ArrowheadSparsity) (d : Dims) : List String → String → Prop
  | comments {lines : List String} (hc : ∀ line ∈ lines, CommentLine line) :
    FileDefect scanner s d lines "Error reading matrix dimensions"
  | header {comments rest : List String} {header : String} (hc : ∀ line ∈ comments, CommentLine line)
      (hh : ¬ CommentLine header) (h : scanner.header header = .ok none) :
    FileDefect scanner s d (comments ++ header :: rest) "Error reading matrix dimensions"
  | square {comments rest : List String} {header : String} {rows cols count : Nat}
      (hc : ∀ line ∈ comments, CommentLine line) (hh : ¬ CommentLine header)
      (h : scanner.header header = .ok (some (rows, cols, count))) (hne : rows ≠ cols) :
    FileDefect scanner s d (comments ++ header :: rest) "Matrix must be square"
  | small {comments rest : List String} {header : String} {size count : Nat}
      (hc : ∀ line ∈ comments, CommentLine line) (hh : ¬ CommentLine header)
      (h : scanner.header header = .ok (some (size, size, count))) (hle : size ≤ d.start + d.link + d.outer) :
    FileDefect scanner s d (comments ++ header :: rest)
      "Matrix dimension must be greater than sum of dimensions of non-repeating blocks."
  | multiple {comments rest : List String} {header : String} {size count : Nat}
      (hc : ∀ line ∈ comments, CommentLine line) (hh : ¬ CommentLine header)
      (h : scanner.header header = .ok (some (size, size, count))) (hlt : d.start + d.link + d.outer < size)
      (hne : ∀ numRepetitions, size ≠ d.total numRepetitions) :
    FileDefect scanner s d (comments ++ header :: rest)
      "Dimension of repeating part of matrix must be multiple of expected repeating block dimension"
  | line {comments good more : List String} {header bad message : String} {numRepetitions count : Nat}
      (hc : ∀ line ∈ comments, CommentLine line) (hh : ¬ CommentLine header)
      (h : scanner.header header = .ok (some (d.total numRepetitions, d.total numRepetitions, count)))
      (hg : ∀ line ∈ good, AcceptedLine scanner s d numRepetitions line)
      (hb : LineDefect scanner s d numRepetitions bad message) :
    FileDefect scanner s d (comments ++ header :: (good ++ bad :: more)) message
  | count {comments rest : List String} {header : String} {numRepetitions count : Nat}
      (hc : ∀ line ∈ comments, CommentLine line) (hh : ¬ CommentLine header)
      (h : scanner.header header = .ok (some (d.total numRepetitions, d.total numRepetitions, count)))
      (hg : ∀ line ∈ rest, AcceptedLine scanner s d numRepetitions line) (hne : rest.length ≠ count) :
    FileDefect scanner s d (comments ++ header :: rest)
      "Number of nonzeros in header does not equal number of read entries"

end Ctldl
