import Verif.Props.Numeral
import Verif.Props.EndToEnd
import Verif.Props.Mixed
import Verif.Lemmas.AnyAddition

/-! # C72: from the text of a file to a solution in floating point -/

namespace Ctldl

open Finset

variable {K : Type} {s : ArrowheadSparsity} {d : Dims} {N : Nat}

instance : Zero FloatLiteral := ⟨⟨false, .decimal 0 0⟩⟩

theorem fileValue_map {M : Type} [Zero M] [Zero K] {g : M → K} (hg : g 0 = 0) (entries : List (MtxEntry M)) (r c : Nat) :
    fileValue (entries.map fun e => ⟨e.row, e.col, g e.value⟩) r c = g (fileValue entries r c) := by
  unfold fileValue
  rw [← List.map_reverse, List.find?_map]
  change (match Option.map (fun e : MtxEntry M => (⟨e.row, e.col, g e.value⟩ : MtxEntry K))
    (entries.reverse.find? (fun e => e.row == r && e.col == c)) with | some e => e.value | none => 0) = _
  cases entries.reverse.find? (fun e => e.row == r && e.col == c) with
  | some e => rfl
  | none => exact hg.symm

/-- All elements of a block. -/
private theorem elem_all [AddCommMonoid K] {m : MatIn K} {p : Sparsity} {F : Nat → Nat → K} (hm : m.Stores p F)
    (hp : p.InRange) (i j : Nat) : m.elem i j = if i < p.numRows ∧ j < p.numCols then F i j else 0 := by
  split
  · rename_i h
    exact hm.elem i h.1 j h.2
  · rename_i h
    refine if_neg fun hmem => h ?_
    exact hp _ (hm.entries.mem_iff.mp hmem)

/-- C72: for any number type and conversion, what is read from a text. -/
theorem read_elements [Zero K] (convert : FloatLiteral → K) (hs : s.Valid d) (hd : 0 < d.tridiag) (text : List Char)
    (dims : MtxDimensions) (entries : List (MtxEntry FloatLiteral)) (hf : IsMtxText text dims entries)
    (hrows : dims.numRows = d.total N) (hcols : dims.numCols = d.total N)
    (hc : ∀ e ∈ entries, s.Covers d N e.row e.col) (hh : ∀ e ∈ entries, d.Handles N e.row e.col)
    (T : ArrowheadTypes) (hT : arrowheadTypes s = .ok T) :
    ∃ m, mtxTextRead convert s text = .ok m ∧ m.toMatrix.Fits s T d N ∧
      (∀ b ∈ blocks N, ∀ i j, (m.toMatrix.diagBlock b).elem i j = if i < d.of b ∧ j < d.of b then
        fileValue (entries.map fun e => ⟨e.row, e.col, convert e.value⟩) (d.before N b + i) (d.before N b + j) else 0) ∧
      (∀ a b q, m.toMatrix.lowerBlock N a b = some q → ∀ i j, q.elem i j = if i < d.of a ∧ j < d.of b then
        fileValue (entries.map fun e => ⟨e.row, e.col, convert e.value⟩) (d.before N a + i) (d.before N b + j) else 0) ∧
      ∀ r c a b i j, d.Locates N r a i → d.Locates N c b j → m.toMatrix.symElement N a b i j =
        fileSymmetric (entries.map fun e => ⟨e.row, e.col, convert e.value⟩) r c := by
  refine with_addition (K := K) fun j hj => ?_
  subst hj
  obtain ⟨m, h1, h2⟩ := C40_text_partial convert s d hs hd text dims entries hf N hrows hcols hc hh
  refine ⟨m, h1, isFile_fits hs hT h2, fun b hb i j => ?_, fun a b q hq i j => ?_, fun r c a b i j ha hb => ?_⟩
  · have hdim := Slot.pattern_dims hs N b.slot
    rw [Blk.slot_pattern, Blk.slot_row, Blk.slot_col] at hdim
    rw [elem_all (h2.diag b hb) hdim.1, hdim.2.1, hdim.2.2]
  · obtain ⟨p, hp⟩ : ∃ p, s.lowerBlock N a b = some p := by
      rcases a with _ | (_ | t) | _ | _ <;> rcases b with _ | u | _ | _ <;>
        simp only [ArrowheadMatrix.lowerBlock, ArrowheadSparsity.lowerBlock, reduceCtorEq] at hq ⊢
      all_goals first
        | exact ⟨_, rfl⟩
        | (split at hq
           · rename_i h; exact ⟨_, if_pos h⟩
           · cases hq)
    obtain ⟨q', hq', hst⟩ := h2.lower a b p hp
    rw [hq] at hq'
    cases hq'
    obtain ⟨σ, hok, rfl, rfl, -, rfl⟩ := lowerBlock_slot.mp hp
    have hdim := Slot.pattern_dims hs N σ
    rw [elem_all hst hdim.1, hdim.2.1, hdim.2.2]
  · refine symElement_file hs h2 (fun e he => ?_) ha hb
    obtain ⟨e', he', rfl⟩ := List.mem_map.mp he
    exact hc e' he'

/-- C72: for any number type and conversion, reading the text of a file gives a matrix which can be factorized and whose
elements are the converted numerals of the text. -/
theorem C72_read [Zero K] [Sub K] [Mul K] [Div K] (convert : FloatLiteral → K) (s : ArrowheadSparsity) (d : Dims)
    (hs : s.Valid d) (hd : 0 < d.tridiag) (text : List Char) (dims : MtxDimensions)
    (entries : List (MtxEntry FloatLiteral)) (hf : IsMtxText text dims entries) (N : Nat)
    (hrows : dims.numRows = d.total N) (hcols : dims.numCols = d.total N)
    (hc : ∀ e ∈ entries, s.Covers d N e.row e.col) (hh : ∀ e ∈ entries, d.Handles N e.row e.col)
    (T : ArrowheadTypes) (f : ArrowheadFactor K) (hD : f.Declared s T d N) (reg : K → Nat → K) (method : Method) :
    ∃ m f', mtxTextRead convert s text = .ok m ∧
      (∀ r c a b i j, d.Locates N r a i → d.Locates N c b j → m.toMatrix.symElement N a b i j =
        fileSymmetric (entries.map fun e => ⟨e.row, e.col, convert e.value⟩) r c) ∧
      f.factorize d.tridiag d.link d.outer m.toMatrix reg method = .ok f' := by
  obtain ⟨m, h1, h2, -, -, h3⟩ := read_elements convert hs hd text dims entries hf hrows hcols hc hh T hD.types
  obtain ⟨f', h4, -⟩ := C21_factorize_total s d hs T N f hD m.toMatrix h2 reg method
  exact ⟨m, f', h1, h3, h4⟩

/-- Reading numerals is a conversion in the sense of the specification. -/
private theorem numeral_conversion (fmt : Format) :
    Conversion (Binary.rounding fmt) (fun x : FloatLiteral => x.toRat.getD 0) (FloatLiteral.toBinary fmt) where
  zero := by
    change Binary.ofRat fmt false ((if false then -1 else 1) * (0 : Nat) * 10 ^ (0 : Int)) = .zero false
    rw [Nat.cast_zero, mul_zero, zero_mul]
    exact dif_pos fmt.round_zero
  v_zero := by
    change (some ((if false then (-1 : ℚ) else 1) * (0 : Nat) * 10 ^ (0 : Int))).getD 0 = 0
    rw [Nat.cast_zero, mul_zero, zero_mul]
    rfl
  err := by
    rintro ⟨n, m⟩ hx
    cases m with
    | decimal m e =>
      obtain ⟨δ, e', h1, h2, h3⟩ := fmt.round_rel ((if n then -1 else 1) * m * 10 ^ e)
      exact ⟨δ, e', h1, h2, (Binary.ofRat_finite hx).trans h3⟩
    | hexadecimal m e =>
      obtain ⟨δ, e', h1, h2, h3⟩ := fmt.round_rel ((if n then -1 else 1) * m * 2 ^ e)
      exact ⟨δ, e', h1, h2, (Binary.ofRat_finite hx).trans h3⟩
    | infinity => exact absurd hx id
    | nan => exact absurd hx id

private theorem factor_map_id (f : ArrowheadFactor K) : f.map id = f := by
  have h1 : ∀ g : DiagFactor K, g.map id = g := fun g => by simp [DiagFactor.map]
  have h2 : ∀ g : SubFactor K, g.map id = g := fun g => by simp [SubFactor.map]
  simp [ArrowheadFactor.map, h1, h2]

/-- The symmetric matrix with the exact values of the numerals of a file. -/
def exactMatrix (entries : List (MtxEntry FloatLiteral)) (r c : Nat) : ℚ :=
  fileSymmetric (entries.map fun e => ⟨e.row, e.col, e.value.toRat.getD 0⟩) r c

/-- C72: reading the text of a file, factorizing and solving in floating point, with any regularization, gives a vector
for which the residual of the matrix with the exact values of the numerals (whose diagonal is changed where the
regularization changed pivots) is small compared with the product of the absolute values of the factors. -/
theorem C72_solve (fmt : Format) (s : ArrowheadSparsity) (d : Dims) (hs : s.Valid d) (hd : 0 < d.tridiag)
    (text : List Char) (dims : MtxDimensions) (entries : List (MtxEntry FloatLiteral)) (hf : IsMtxText text dims entries)
    (N : Nat) (hrows : dims.numRows = d.total N) (hcols : dims.numCols = d.total N)
    (hc : ∀ e ∈ entries, s.Covers d N e.row e.col) (hh : ∀ e ∈ entries, d.Handles N e.row e.col)
    (hlit : ∀ e ∈ entries, (e.value.toBinary fmt).Finite)
    (T : ArrowheadTypes) (f : ArrowheadFactor (Binary fmt)) (hD : f.Declared s T d N)
    (reg : Binary fmt → Nat → Binary fmt) (method : Method)
    (input : MtxArrowhead (Binary fmt)) (hread : mtxTextRead (FloatLiteral.toBinary fmt) s text = .ok input)
    (f' : ArrowheadFactor (Binary fmt))
    (hfact : f.factorize d.tridiag d.link d.outer input.toMatrix reg method = .ok f')
    (hpiv : ∀ a ∈ blocks N, ∀ i < d.of a, (f'.pivotAt a i).Finite ∧ ∀ x, f'.pivotAt a i = reg x i → x.Finite)
    (ε : ℚ) (h0 : 0 ≤ ε)
    (hε : ∀ a ∈ blocks N, ∀ b ∈ blocks N, ∀ i j, T.Has N a i b j →
      (Binary.rounding fmt).η * (1 + |(f'.pivotAt b j).toRat| * (1 + |(f'.map Binary.toRat).lowerElement N a b i j|)) ≤ ε)
    (b : ArrowheadVector (Binary fmt)) (hb : b.OfSize d N) (x : ArrowheadVector (Binary fmt))
    (h : f'.solveInPlace b = .ok x) (hfin : ∀ a ∈ blocks N, ∀ i < d.of a, (x.at a i).Finite)
    (n : Nat) (hn : ∀ a ∈ blocks N, ∀ i < d.of a, T.rowEntries N a i ≤ n)
    (m : Nat) (hm : ∀ a ∈ blocks N, ∀ i < d.of a, T.colEntries N a i ≤ m) :
    ∃ w : Blk → Nat → Binary fmt, (∀ a ∈ blocks N, ∀ i < d.of a, f'.pivotAt a i = reg (w a i) i) ∧
      ∀ a ∈ blocks N, ∀ i < d.of a, ∀ r, d.Locates N r a (permAt (s.perm a) i) →
      |(b.flat.getD r 0).toRat - (∑ c ∈ range (d.total N), exactMatrix entries r c * (x.flat.getD c 0).toRat +
          ((f'.pivotAt a i).toRat - (w a i).toRat) * (x.flat.getD r 0).toRat)| ≤
        (Binary.rounding fmt).gamma (n + m + 3) * ∑ c ∈ blocks N, ∑ j ∈ range (d.of c),
            (f'.map (fun y => |y.toRat|)).ldlt d N a c i j * |(x.at c (permAt (s.perm c) j)).toRat| +
        (Binary.rounding fmt).gamma (n + 3) * ∑ c ∈ blocks N, ∑ j ∈ range (d.of c),
            ((f'.map (fun y => |y.toRat|)).ldlt d N a c i j +
              if a = c ∧ i = j then |(w a i).toRat| - |(f'.pivotAt a i).toRat| else 0) *
              |(x.at c (permAt (s.perm c) j)).toRat| +
        ((Binary.rounding fmt).growth (n + m + 3) * (n * (Binary.rounding fmt).η + ∑ c ∈ blocks N, ∑ j ∈ range (d.of c),
          (f'.map (fun y => |y.toRat|)).lowerElement N a c i j * (|(f'.pivotAt c j).toRat| * ((m + 1) * (Binary.rounding fmt).η))) +
        (Binary.rounding fmt).growth (n + 3) * ((n + 1) * ε + (Binary.rounding fmt).η) * ∑ c ∈ blocks N, ∑ j ∈ range (d.of c),
          |(x.at c (permAt (s.perm c) j)).toRat|) := by
  obtain ⟨A, -, hA, hAd, hAl, hAs⟩ := read_elements id hs hd text dims entries hf hrows hcols hc hh T hD.types
  obtain ⟨m', h1, hB, hBd, hBl, -⟩ := read_elements (FloatLiteral.toBinary fmt) hs hd text dims entries hf hrows hcols hc hh T hD.types
  rw [hread] at h1
  cases h1
  have hz : FloatLiteral.toBinary fmt 0 = 0 := (numeral_conversion fmt).zero
  have hid : (entries.map fun e => (⟨e.row, e.col, id e.value⟩ : MtxEntry FloatLiteral)) = entries := by simp
  rw [hid] at hAd hAl hAs
  have hsame : f.factorizeCast (FloatLiteral.toBinary fmt) d.tridiag d.link d.outer A.toMatrix reg method = .ok f' := by
    rw [ArrowheadFactor.factorizeCast_eq, ← hfact]
    refine C27_repeating_lower_triangle_only s d hs T N f hD _ _ (hA.map _) hB (fun a ha i j _ => ?_)
      (fun a b q q' hq hq' i j => ?_) reg method
    · have e : (A.toMatrix.map (FloatLiteral.toBinary fmt)).diagBlock a =
          (A.toMatrix.diagBlock a).map (FloatLiteral.toBinary fmt) := by
        cases a <;> simp only [ArrowheadMatrix.diagBlock, ArrowheadMatrix.map, getD_empty_map]
      rw [e, elem_map hz, hAd a ha, hBd a ha, fileValue_map hz]
      split
      · rfl
      · exact hz
    · have e' : (A.toMatrix.map (FloatLiteral.toBinary fmt)).lowerBlock N a b =
          (A.toMatrix.lowerBlock N a b).map (·.map (FloatLiteral.toBinary fmt)) := by
        rcases a with _ | (_ | t) | _ | _ <;> rcases b with _ | u | _ | _ <;>
          simp only [ArrowheadMatrix.lowerBlock, ArrowheadMatrix.map, Option.map_none, Option.map_some,
            apply_ite (Option.map _), List.getElem?_map]
      rw [e'] at hq
      obtain ⟨q0, hq0, rfl⟩ := Option.map_eq_some_iff.mp hq
      rw [elem_map hz, hAl a b q0 hq0, hBl a b q' hq', fileValue_map hz]
      split
      · rfl
      · exact hz
    all_goals exact hz
  have hcast : ∀ a ∈ blocks N, ∀ b ∈ blocks N, ∀ i < d.of a, ∀ j < d.of b,
      ((A.toMatrix.symElement N a b i j).toBinary fmt).Finite := by
    intro a ha b hb i hi j hj
    rw [hAs _ _ a b i j ⟨ha, hi, rfl⟩ ⟨hb, hj, rfl⟩]
    unfold fileSymmetric fileValue
    split
    · rename_i e he
      exact hlit e (List.mem_reverse.mp (List.mem_of_find?_eq_some he))
    · rw [hz]
      trivial
  have hid' : f'.solveInPlaceCast id b = .ok x := by
    rw [ArrowheadFactor.solveInPlaceCast_eq, factor_map_id]
    exact h
  obtain ⟨w, hw, hr⟩ := C49_residual (Binary.rounding fmt) (fun x : FloatLiteral => x.toRat.getD 0)
    (FloatLiteral.toBinary fmt) (numeral_conversion fmt) (Binary.rounding fmt) id rfl (fun _ => trivial) 0 le_rfl s d hs T N
    f hD A.toMatrix hA hcast reg method f' hsame hpiv ε h0 hε
    (fun y _ => ⟨0, by rw [abs_zero], by rw [add_zero, mul_one]; rfl⟩)
    (fun a ha i hi => (hpiv a ha i hi).1) b hb x hid' hfin n hn m hm
  refine ⟨w, hw, fun a ha i hi r hl => ?_⟩
  have hx : x.OfSize d N := by
    obtain ⟨f0, e1, -, hsol⟩ := C25_repeating_total s d hs T N f hD input.toMatrix hB reg method
    rw [hfact] at e1
    cases e1
    obtain ⟨x', e2, hx'⟩ := hsol b hb
    rw [h] at e2
    cases e2
    exact hx'
  have h1 := hr a ha i hi
  simp only [add_zero, one_pow, mul_one, one_mul] at h1
  refine le_trans (le_of_eq ?_) h1
  congr 1
  rw [flat_at hb hl, flat_at hx hl]
  congr 1
  simp only [add_mul, ite_mul, zero_mul, sum_add_distrib]
  congr 1
  · rw [sum_total]
    refine sum_congr rfl fun c hcb => ?_
    rw [← sum_perm (valid_perm hs c)]
    refine sum_congr rfl fun j hj => ?_
    have hlc : d.Locates N (d.before N c + permAt (s.perm c) j) c (permAt (s.perm c) j) :=
      ⟨hcb, IsPerm.lt (valid_perm hs c) (mem_range.mp hj), rfl⟩
    have hv : (fun x : FloatLiteral => x.toRat.getD 0) 0 = 0 := (numeral_conversion fmt).v_zero
    rw [flat_at hx hlc, matrix_symElement_map (g := fun x : FloatLiteral => x.toRat.getD 0) hv, hAs _ _ _ _ _ _ hl hlc]
    unfold exactMatrix fileSymmetric
    rw [fileValue_map (g := fun x : FloatLiteral => x.toRat.getD 0) hv]
    rfl
  · rw [sum_eq_single a, sum_eq_single i, if_pos ⟨rfl, rfl⟩]
    · rfl
    · exact fun j _ hne => if_neg fun h => hne h.2.symm
    · exact fun h => (h (mem_range.mpr hi)).elim
    · exact fun c _ hne => sum_eq_zero fun j _ => if_neg fun h => hne h.1.symm
    · exact fun h => (h ha).elim

/-- C72: the same without regularization. -/
theorem C72_solve_unregularized (fmt : Format) (s : ArrowheadSparsity) (d : Dims) (hs : s.Valid d) (hd : 0 < d.tridiag)
    (text : List Char) (dims : MtxDimensions) (entries : List (MtxEntry FloatLiteral)) (hf : IsMtxText text dims entries)
    (N : Nat) (hrows : dims.numRows = d.total N) (hcols : dims.numCols = d.total N)
    (hc : ∀ e ∈ entries, s.Covers d N e.row e.col) (hh : ∀ e ∈ entries, d.Handles N e.row e.col)
    (hlit : ∀ e ∈ entries, (e.value.toBinary fmt).Finite)
    (T : ArrowheadTypes) (f : ArrowheadFactor (Binary fmt)) (hD : f.Declared s T d N) (method : Method)
    (input : MtxArrowhead (Binary fmt)) (hread : mtxTextRead (FloatLiteral.toBinary fmt) s text = .ok input)
    (f' : ArrowheadFactor (Binary fmt))
    (hfact : f.factorize d.tridiag d.link d.outer input.toMatrix regularizationNone method = .ok f')
    (hpiv : ∀ a ∈ blocks N, ∀ i < d.of a, (f'.pivotAt a i).Finite)
    (ε : ℚ) (h0 : 0 ≤ ε)
    (hε : ∀ a ∈ blocks N, ∀ b ∈ blocks N, ∀ i j, T.Has N a i b j →
      (Binary.rounding fmt).η * (1 + |(f'.pivotAt b j).toRat| * (1 + |(f'.map Binary.toRat).lowerElement N a b i j|)) ≤ ε)
    (b : ArrowheadVector (Binary fmt)) (hb : b.OfSize d N) (x : ArrowheadVector (Binary fmt))
    (h : f'.solveInPlace b = .ok x) (hfin : ∀ a ∈ blocks N, ∀ i < d.of a, (x.at a i).Finite)
    (n : Nat) (hn : ∀ a ∈ blocks N, ∀ i < d.of a, T.rowEntries N a i ≤ n)
    (m : Nat) (hm : ∀ a ∈ blocks N, ∀ i < d.of a, T.colEntries N a i ≤ m) :
    ∀ a ∈ blocks N, ∀ i < d.of a, ∀ r, d.Locates N r a (permAt (s.perm a) i) →
      |(b.flat.getD r 0).toRat - ∑ c ∈ range (d.total N), exactMatrix entries r c * (x.flat.getD c 0).toRat| ≤
        ((Binary.rounding fmt).gamma (n + m + 3) + (Binary.rounding fmt).gamma (n + 3)) *
          ∑ c ∈ blocks N, ∑ j ∈ range (d.of c),
            (f'.map (fun y => |y.toRat|)).ldlt d N a c i j * |(x.at c (permAt (s.perm c) j)).toRat| +
        ((Binary.rounding fmt).growth (n + m + 3) * (n * (Binary.rounding fmt).η + ∑ c ∈ blocks N, ∑ j ∈ range (d.of c),
          (f'.map (fun y => |y.toRat|)).lowerElement N a c i j * (|(f'.pivotAt c j).toRat| * ((m + 1) * (Binary.rounding fmt).η))) +
        (Binary.rounding fmt).growth (n + 3) * ((n + 1) * ε + (Binary.rounding fmt).η) * ∑ c ∈ blocks N, ∑ j ∈ range (d.of c),
          |(x.at c (permAt (s.perm c) j)).toRat|) := by
  obtain ⟨w, hw, hr⟩ := C72_solve fmt s d hs hd text dims entries hf N hrows hcols hc hh hlit T f hD regularizationNone
    method input hread f' hfact
    (fun a ha i hi => ⟨hpiv a ha i hi, fun y hy => (show f'.pivotAt a i = y from hy) ▸ hpiv a ha i hi⟩) ε h0 hε b hb x h
    hfin n hn m hm
  intro a ha i hi r hl
  have h1 := hr a ha i hi r hl
  rw [← show f'.pivotAt a i = w a i from hw a ha i hi] at h1
  simp only [sub_self, ite_self, add_zero, zero_mul] at h1
  rw [add_mul]
  exact h1

/-! The matrix `[[0.3, 0.1], [0.1, 0.7]]`, with the right-hand side `(0.5, 1.5)`, in double precision: the computed
solution is even the exact one, although no number of the matrix is a number of the format. -/

example : mtxTextRead (FloatLiteral.toBinary .binary64) solveSparsity textExample |>.isOk := by decide +kernel

example : (do
    let m ← mtxTextRead (FloatLiteral.toBinary .binary64) solveSparsity
      "%%MatrixMarket\n2 2 3\n1 1 0.3\n2 1 1e-1\n2 2 .7".toList
    let T ← arrowheadTypes solveSparsity
    let f ← (freshFactor solveSparsity T ⟨0, 1, 0, 0⟩ 1 0).factorize 1 0 0 m.toMatrix regularizationNone .upLooking
    let x ← f.solveInPlace ⟨[], [[FloatLiteral.toBinary .binary64 ⟨false, .decimal 5 (-1)⟩],
      [FloatLiteral.toBinary .binary64 ⟨false, .decimal 15 (-1)⟩]], [], []⟩
    return x.flat.map Binary.toRat : Res _) = .ok [1, 2] := by decide +kernel

end Ctldl
