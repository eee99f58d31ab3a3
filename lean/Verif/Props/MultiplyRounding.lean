import Verif.Lemmas.MultiplyFour
import Verif.Props.RoundingSolve
import Mathlib.Algebra.Ring.PUnit

/-! # C52: rounding errors and conversions in multiplications -/

namespace Ctldl

open Finset

section

variable {M S K : Type} [Add K] [Mul K]

/-- C52: the multiplication with tridiagonal arrowhead linked matrices succeeds for any arithmetic. -/
theorem C52_total (m : ArrowheadMatrix K) (x rhs : ArrowheadVector K) (d : Dims) (N : Nat)
    (hm : m.OfSize d N) (hx : x.OfSize d N) (hr : rhs.OfSize d N) :
    ∃ v, multiplyArrowheadLinked m x rhs = .ok v ∧ v.OfSize d N := by
  have h := multiplyArrowheadLinked_hom (K' := Unit) (h := fun _ => ()) ⟨fun _ _ => rfl, fun _ _ => rfl⟩ m x rhs
  obtain ⟨v, h1, h2, -⟩ := C33_arrowhead (K := Unit) (m.map fun _ => ()) (x.map fun _ => ()) (rhs.map fun _ => ()) d N
    (hm.map _) (hx.map _) (hr.map _)
  rw [h1] at h
  cases hv : multiplyArrowheadLinked m x rhs with
  | error e => rw [hv] at h; cases h
  | ok w =>
    rw [hv] at h
    have : v = w.map fun _ => () := by injection h
    exact ⟨w, rfl, ArrowheadVector.OfSize.of_map (this ▸ h2)⟩

/-- C52: the multiplication with block tridiagonal matrices succeeds for any arithmetic. -/
theorem C52_total_tridiagonal (A B : List (MatIn K)) (x rhs : List (List K)) (n N : Nat)
    (hA : A.length = N + 1) (hB : B.length = N) (hx : x.length = N + 1) (hr : rhs.length = N + 1)
    (sA : ∀ b ∈ A, b.OfSize n n) (sB : ∀ b ∈ B, b.OfSize n n) (sx : ∀ v ∈ x, v.length = n)
    (sr : ∀ v ∈ rhs, v.length = n) :
    ∃ w, multiplyRepeatingBlockTridiagonal A B x rhs = .ok w ∧ w.length = N + 1 ∧ ∀ v ∈ w, v.length = n := by
  have h := multiplyRepeatingBlockTridiagonal_hom (K' := Unit) (h := fun _ => ()) ⟨fun _ _ => rfl, fun _ _ => rfl⟩ A B x
    rhs
  have mM : ∀ l : List (MatIn K), (∀ b ∈ l, b.OfSize n n) → ∀ b ∈ l.map (·.map fun _ => ()), b.OfSize n n := by
    intro l hl b hb
    obtain ⟨c, hc, rfl⟩ := List.mem_map.mp hb
    exact (hl c hc).map _
  have mV : ∀ l : List (List K), (∀ v ∈ l, v.length = n) → ∀ v ∈ l.map (List.map fun _ => ()), v.length = n := by
    intro l hl b hb
    obtain ⟨c, hc, rfl⟩ := List.mem_map.mp hb
    exact (List.length_map _).trans (hl c hc)
  obtain ⟨v, h1, h2, h3, -⟩ := C33_tridiagonal (K := Unit) (A.map (·.map fun _ => ())) (B.map (·.map fun _ => ()))
    (x.map (List.map fun _ => ())) (rhs.map (List.map fun _ => ())) n N
    (by rw [List.length_map, hA]) (by rw [List.length_map, hB]) (by rw [List.length_map, hx])
    (by rw [List.length_map, hr]) (mM A sA) (mM B sB) (mV x sx) (mV rhs sr)
  rw [h1] at h
  cases hv : multiplyRepeatingBlockTridiagonal A B x rhs with
  | error e => rw [hv] at h; cases h
  | ok w =>
    rw [hv] at h
    have : v = w.map (List.map fun _ => ()) := by injection h
    subst this
    exact ⟨w, rfl, (List.length_map _).symm.trans h2,
      fun b hb => (List.length_map _).symm.trans (h3 _ (List.mem_map.mpr ⟨b, hb, rfl⟩))⟩

/-- C52, different number types: the conversions made when numbers are used are the same as converting all numbers of
the matrix and of the vector to the number type of the right-hand side first. -/
theorem C52_convert_first (castMatrix : M → K) (castSolution : S → K) :
    (∀ (kind : MultiplyKind) (m : MatIn M) (x : List S) (rhs : List K),
      multiplyCast castMatrix castSolution kind m x rhs =
        multiply kind (m.map castMatrix) (x.map castSolution) rhs) ∧
    (∀ (A B : List (MatIn M)) (x : List (List S)) (rhs : List (List K)),
      multiplyRepeatingBlockTridiagonalCast castMatrix castSolution A B x rhs =
        multiplyRepeatingBlockTridiagonal (A.map (·.map castMatrix)) (B.map (·.map castMatrix))
          (x.map (·.map castSolution)) rhs) ∧
    (∀ (m : ArrowheadMatrix M) (x : ArrowheadVector S) (rhs : ArrowheadVector K),
      multiplyArrowheadLinkedCast castMatrix castSolution m x rhs =
        multiplyArrowheadLinked (m.map castMatrix) (x.map castSolution) rhs) :=
  ⟨multiplyCast_eq castMatrix castSolution, multiplyRepeatingBlockTridiagonalCast_eq castMatrix castSolution,
    multiplyArrowheadLinkedCast_eq castMatrix castSolution⟩

end

variable {K F : Type} [Zero K] [Add K] [Sub K] [Mul K] [Div K] [Field F] [LinearOrder F] [IsStrictOrderedRing F]

private theorem multiply_err {R : RoundingAdd K F} {kind : MultiplyKind} {m : MatIn K} {x rhs v : List K}
    (h : ∀ {K' : Type} (g : K → K'), kind.Fits (m.map g) rhs.length x.length)
    (hm : ∀ a ∈ m.numbers, R.stored a) (hv : multiply kind m x rhs = .ok v) (i : Nat) (hf : R.fin (v.getD i 0)) :
    let n := ∑ j ∈ range x.length, kind.element (m.map fun _ => 1) i j
    |R.v (v.getD i 0) - (R.v (rhs.getD i 0) +
        ∑ j ∈ range x.length, kind.element (m.map R.v) i j * R.v (x.getD j 0))| ≤
      R.gamma (n + 1) * (|R.v (rhs.getD i 0)| +
        ∑ j ∈ range x.length, kind.element (m.map fun a => |R.v a|) i j * |R.v (x.getD j 0)|) +
      R.growth (n + 1) * (n * R.η) := by
  have := multiply_four (P := R.Sum) (Q := R.Product) RoundingAdd.sum_add RoundingAdd.sum_zero h
    (fun a ha _ _ => RoundingAdd.product_lift (hm a ha)) (fun a _ => RoundingAdd.sum_liftRhs a) hv i
  exact (this hf).err

/-- C52, kind `Normal`: a finite element of the result differs from the exact one by at most
`gamma (n + 1) (|b| + |A| |x|)`, where `n` is the number of entries of the row, up to underflow errors. -/
theorem C52_normal (R : RoundingAdd K F) (m : MatIn K) (r c : Nat) (h : m.OfSize r c)
    (hm : ∀ a ∈ m.numbers, R.stored a) (x rhs v : List K) (hx : x.length = c) (hr : rhs.length = r)
    (hv : multiply .normal m x rhs = .ok v) (i : Nat) (hf : R.fin (v.getD i 0)) :
    let n := ∑ j ∈ range c, (m.map fun _ => 1).dense i j
    |R.v (v.getD i 0) - (R.v (rhs.getD i 0) + ∑ j ∈ range c, (m.map R.v).dense i j * R.v (x.getD j 0))| ≤
      R.gamma (n + 1) * (|R.v (rhs.getD i 0)| +
        ∑ j ∈ range c, (m.map fun a => |R.v a|).dense i j * |R.v (x.getD j 0)|) +
      R.growth (n + 1) * (n * R.η) := by
  subst hx hr
  exact multiply_err (kind := .normal) (fun g => (h.map g).fits_normal) hm hv i hf

/-- C52, kind `Transposed`; `n` is the number of entries of the column. -/
theorem C52_transposed (R : RoundingAdd K F) (m : MatIn K) (r c : Nat) (h : m.OfSize r c)
    (hm : ∀ a ∈ m.numbers, R.stored a) (x rhs v : List K) (hx : x.length = r) (hr : rhs.length = c)
    (hv : multiply .transposed m x rhs = .ok v) (i : Nat) (hf : R.fin (v.getD i 0)) :
    let n := ∑ j ∈ range r, (m.map fun _ => 1).dense j i
    |R.v (v.getD i 0) - (R.v (rhs.getD i 0) + ∑ j ∈ range r, (m.map R.v).dense j i * R.v (x.getD j 0))| ≤
      R.gamma (n + 1) * (|R.v (rhs.getD i 0)| +
        ∑ j ∈ range r, (m.map fun a => |R.v a|).dense j i * |R.v (x.getD j 0)|) +
      R.growth (n + 1) * (n * R.η) := by
  subst hx hr
  exact multiply_err (kind := .transposed) (fun g => (h.map g).fits_transposed) hm hv i hf

/-- C52, kind `Symmetric`; `n` is the number of entries of row and column, without counting those on the diagonal
twice. -/
theorem C52_symmetric (R : RoundingAdd K F) (m : MatIn K) (r : Nat) (h : m.OfSize r r)
    (hm : ∀ a ∈ m.numbers, R.stored a) (x rhs v : List K) (hx : x.length = r) (hr : rhs.length = r)
    (hv : multiply .symmetric m x rhs = .ok v) (i : Nat) (hf : R.fin (v.getD i 0)) :
    let n := ∑ j ∈ range r, (m.map fun _ => 1).symmetrized i j
    |R.v (v.getD i 0) - (R.v (rhs.getD i 0) + ∑ j ∈ range r, (m.map R.v).symmetrized i j * R.v (x.getD j 0))| ≤
      R.gamma (n + 1) * (|R.v (rhs.getD i 0)| +
        ∑ j ∈ range r, (m.map fun a => |R.v a|).symmetrized i j * |R.v (x.getD j 0)|) +
      R.growth (n + 1) * (n * R.η) := by
  subst hx
  exact multiply_err (kind := .symmetric) (fun g => by rw [hr]; exact (h.map g).fits_symmetric) hm hv i hf

/-- C52, block tridiagonal matrices; `n` is the number of entries of the row of the assembled matrix. -/
theorem C52_tridiagonal (R : RoundingAdd K F) (A B : List (MatIn K)) (x rhs v : List (List K)) (d N : Nat)
    (hA : A.length = N + 1) (hB : B.length = N) (hx : x.length = N + 1) (hr : rhs.length = N + 1)
    (sA : ∀ b ∈ A, b.OfSize d d) (sB : ∀ b ∈ B, b.OfSize d d) (sx : ∀ v ∈ x, v.length = d)
    (sr : ∀ v ∈ rhs, v.length = d) (stA : ∀ b ∈ A, ∀ a ∈ b.numbers, R.stored a)
    (stB : ∀ b ∈ B, ∀ a ∈ b.numbers, R.stored a) (hv : multiplyRepeatingBlockTridiagonal A B x rhs = .ok v) (t : Nat)
    (ht : t < N + 1) (i : Nat) (hi : i < d) (hf : R.fin (blockAt v t i)) :
    let A' {K' : Type} (g : K → K') (t : Nat) := (A.map (·.map g)).getD t (.empty K')
    let B' {K' : Type} (g : K → K') (t : Nat) := (B.map (·.map g)).getD t (.empty K')
    let n := ∑ u ∈ range (N + 1), ∑ j ∈ range d, tridiagonalElement (A' fun _ => 1) (B' fun _ => 1) t u i j
    |R.v (blockAt v t i) - (R.v (blockAt rhs t i) +
        ∑ u ∈ range (N + 1), ∑ j ∈ range d, tridiagonalElement (A' R.v) (B' R.v) t u i j * R.v (blockAt x u j))| ≤
      R.gamma (n + 1) * (|R.v (blockAt rhs t i)| +
        ∑ u ∈ range (N + 1), ∑ j ∈ range d,
          tridiagonalElement (A' fun a => |R.v a|) (B' fun a => |R.v a|) t u i j * |R.v (blockAt x u j)|) +
      R.growth (n + 1) * (n * R.η) := by
  intro A' B' n₀
  have := multiplyTridiagonal_four (P := R.Sum) (Q := R.Product) RoundingAdd.sum_add RoundingAdd.sum_zero hA hB hx hr sA sB sx
    sr (fun m hm a ha _ _ _ _ => RoundingAdd.product_lift (stA m hm a ha))
    (fun m hm a ha _ _ _ _ => RoundingAdd.product_lift (stB m hm a ha)) (fun _ _ a _ => RoundingAdd.sum_liftRhs a) hv ht hi
  exact (this hf).err

/-- C52, tridiagonal arrowhead linked matrices; `n` is the number of entries of the row of the assembled matrix. -/
theorem C52_arrowhead (R : RoundingAdd K F) (m : ArrowheadMatrix K) (x rhs v : ArrowheadVector K) (d : Dims) (N : Nat)
    (hm : m.OfSize d N) (hx : x.OfSize d N) (hr : rhs.OfSize d N) (hst : ∀ a ∈ m.numbers, R.stored a)
    (hv : multiplyArrowheadLinked m x rhs = .ok v) (a : Blk) (ha : a ∈ blocks N) (i : Nat) (hi : i < d.of a)
    (hf : R.fin (v.at a i)) :
    let n := ∑ b ∈ blocks N, ∑ j ∈ range (d.of b), (m.map fun _ => 1).denseElement N a b i j
    |R.v (v.at a i) - (R.v (rhs.at a i) +
        ∑ b ∈ blocks N, ∑ j ∈ range (d.of b), (m.map R.v).denseElement N a b i j * R.v (x.at b j))| ≤
      R.gamma (n + 1) * (|R.v (rhs.at a i)| +
        ∑ b ∈ blocks N, ∑ j ∈ range (d.of b), (m.map fun a => |R.v a|).denseElement N a b i j * |R.v (x.at b j)|) +
      R.growth (n + 1) * (n * R.η) := by
  intro n₀
  have := multiplyArrowhead_four (P := R.Sum) (Q := R.Product) RoundingAdd.sum_add RoundingAdd.sum_zero hm hx hr
    (fun a ha _ _ => RoundingAdd.product_lift (hst a ha)) (fun a _ => RoundingAdd.sum_liftRhs a) hv ha hi
  exact (this hf).err

omit [Zero K] [Add K] [Sub K] [Mul K] [Div K] in
private theorem dense_nonneg (m : MatIn K) (g : K → F) (i j : Nat) : 0 ≤ (m.map fun a => |g a|).dense i j := by
  refine sum_nonneg fun t _ => ?_
  split
  · change 0 ≤ (m.values.map fun a => |g a|).getD t 0
    rw [List.getD_eq_getElem?_getD, List.getElem?_map]
    cases m.values[t]? with
    | none => exact le_rfl
    | some a => exact abs_nonneg _
  · exact le_rfl

omit [Zero K] [Add K] [Sub K] [Mul K] [Div K] in
private theorem denseElement_nonneg (m : ArrowheadMatrix K) (g : K → F) (N : Nat) (a b : Blk) (i j : Nat) :
    0 ≤ (m.map fun a => |g a|).denseElement N a b i j := by
  unfold ArrowheadMatrix.denseElement assembledElement
  simp only [ArrowheadMatrix.diagBlock_map, ArrowheadMatrix.lowerBlock_map]
  split
  · exact add_nonneg (dense_nonneg ..) (by split; exacts [le_rfl, dense_nonneg ..])
  · cases m.lowerBlock N a b with
    | some q => exact dense_nonneg ..
    | none =>
      cases m.lowerBlock N b a with
      | some q => exact dense_nonneg ..
      | none => exact le_rfl

/-- C52: multiplying `x` with the matrix and solving, without regularization: if all numbers computed are finite, then
the residual `A (y - x)` of the returned `y` is at most the sum of the bounds of the multiplication and of factorizing and
solving. -/
theorem C52_round_trip (R : RoundingAdd K F) (s : ArrowheadSparsity) (d : Dims) (hs : s.Valid d) (T : ArrowheadTypes)
    (N : Nat) (f : ArrowheadFactor K) (hf : f.Declared s T d N) (A : ArrowheadMatrix K) (hA : A.Fits s T d N)
    (hnd : A.tridiagDiag.length = N + 1) (hns : A.tridiagSubdiag.length = N) (hno : A.outerSubdiag.length = N + 1)
    (hdiag : ∀ a ∈ blocks N, (A.diagBlock a).sparsity.entries.Nodup ∧
      ∀ e ∈ (A.diagBlock a).sparsity.entries, e.col ≤ e.row)
    (hlower : ∀ a b q, A.lowerBlock N a b = some q → q.sparsity.entries.Nodup)
    (hst : ∀ a ∈ A.numbers, R.stored a)
    (method : Method) (f' : ArrowheadFactor K)
    (hfact : f.factorize d.tridiag d.link d.outer A regularizationNone method = .ok f')
    (hpiv : ∀ a ∈ blocks N, ∀ i < d.of a, R.fin (f'.pivotAt a i)) (ε : F) (h0 : 0 ≤ ε)
    (hε : ∀ a ∈ blocks N, ∀ b ∈ blocks N, ∀ i j, T.Has N a i b j →
      R.η * (1 + |R.v (f'.pivotAt b j)| * (1 + |(f'.map R.v).lowerElement N a b i j|)) ≤ ε)
    (x z b y : ArrowheadVector K) (hx : x.OfSize d N) (hz : z.OfSize d N) (hz0 : ∀ a i, z.at a i = 0)
    (hmul : multiplyArrowheadLinked A x z = .ok b) (hsolve : f'.solveInPlace b = .ok y)
    (hb : ∀ a ∈ blocks N, ∀ i < d.of a, R.fin (b.at a i)) (hfin : ∀ a ∈ blocks N, ∀ i < d.of a, R.fin (y.at a i))
    (n : Nat) (hn : ∀ a ∈ blocks N, ∀ i < d.of a, T.rowEntries N a i ≤ n)
    (m : Nat) (hm : ∀ a ∈ blocks N, ∀ i < d.of a, T.colEntries N a i ≤ m)
    (k : Nat) (hk : ∀ a ∈ blocks N, ∀ i < d.of a,
      ∑ c ∈ blocks N, ∑ j ∈ range (d.of c), (A.map fun _ => 1).denseElement N a c i j ≤ k) :
    ∀ a ∈ blocks N, ∀ i < d.of a,
      |∑ c ∈ blocks N, ∑ j ∈ range (d.of c),
          (A.map R.v).symElement N a c (permAt (s.perm a) i) j * (R.v (y.at c j) - R.v (x.at c j))| ≤
        R.gamma (k + 1) * ∑ c ∈ blocks N, ∑ j ∈ range (d.of c),
          (A.map fun a => |R.v a|).symElement N a c (permAt (s.perm a) i) j * |R.v (x.at c j)| +
        R.growth (k + 1) * (k * R.η) +
        ((R.gamma (n + m + 3) + R.gamma (n + 2)) * ∑ c ∈ blocks N, ∑ j ∈ range (d.of c),
          (f'.map (fun y => |R.v y|)).ldlt d N a c i j * |R.v (y.at c (permAt (s.perm c) j))| +
        (R.growth (n + m + 3) * (n * R.η + ∑ c ∈ blocks N, ∑ j ∈ range (d.of c),
          (f'.map (fun y => |R.v y|)).lowerElement N a c i j * (|R.v (f'.pivotAt c j)| * ((m + 1) * R.η))) +
        R.growth (n + 2) * ((n + 1) * ε) * ∑ c ∈ blocks N, ∑ j ∈ range (d.of c),
          |R.v (y.at c (permAt (s.perm c) j))|)) := by
  have hsize := hA.ofSize hnd hns hno
  have hbs : b.OfSize d N := by
    obtain ⟨b', h1, h2⟩ := C52_total A x z d N hsize hx hz
    cases hmul.symm.trans h1
    exact h2
  obtain ⟨w, hw, hr⟩ := C47_residual R.toRounding s d hs T N f hf A hA _ method f' hfact
    (fun a ha i hi => ⟨hpiv a ha i hi, fun y hy => (show f'.pivotAt a i = y from hy) ▸ hpiv a ha i hi⟩) ε h0
    hε b hbs y hsolve hfin n hn m hm
  have sym : ∀ {F' : Type} [AddCommMonoid F'] (g : K → F') (a : Blk) (_ : a ∈ blocks N) (c : Blk) (i j : Nat),
      (A.map g).symElement N a c i j = (A.map g).denseElement N a c i j := by
    intro F' _ g a ha c i j
    refine denseElement_eq_symElement ?_ ?_ ha c i j
    · intro a ha
      rw [ArrowheadMatrix.diagBlock_map]
      exact hdiag a ha
    · intro a b q hq
      rw [ArrowheadMatrix.lowerBlock_map] at hq
      obtain ⟨q', hq', rfl⟩ := Option.map_eq_some_iff.mp hq
      exact hlower a b q' hq'
  intro a ha i hi
  have hi' : permAt (s.perm a) i < d.of a := (valid_perm hs a).lt hi
  have h1 := hr a ha i hi
  have h2 := C52_arrowhead R A x z b d N hsize hx hz hst hmul a ha (permAt (s.perm a) i) hi' (hb a ha _ hi')
  simp only at h2
  rw [← show f'.pivotAt a i = w a i from hw a ha i hi] at h1
  simp only [sub_self, ite_self, add_zero] at h1
  rw [sum_congr rfl fun c _ => sum_perm (valid_perm hs c)
    (fun j => (A.map R.v).symElement N a c (permAt (s.perm a) i) j * R.v (y.at c j))] at h1
  rw [hz0, R.v_zero, zero_add, abs_zero, zero_add] at h2
  have hkk := hk a ha _ hi'
  simp only [sym _ a ha] at h1 ⊢
  have hS : 0 ≤ ∑ c ∈ blocks N, ∑ j ∈ range (d.of c),
      (A.map fun a => |R.v a|).denseElement N a c (permAt (s.perm a) i) j * |R.v (x.at c j)| :=
    sum_nonneg fun c _ => sum_nonneg fun j _ => mul_nonneg (denseElement_nonneg ..) (abs_nonneg _)
  have h3 := h2.trans (add_le_add (mul_le_mul_of_nonneg_right (Rounding.gamma_mono (Nat.succ_le_succ hkk)) hS)
    (mul_le_mul (Rounding.growth_mono (Nat.succ_le_succ hkk))
      (mul_le_mul_of_nonneg_right (Nat.cast_le.mpr hkk) R.η_nonneg) (mul_nonneg (Nat.cast_nonneg _) R.η_nonneg)
      (Rounding.growth_pos _).le))
  have e : ∑ c ∈ blocks N, ∑ j ∈ range (d.of c), (A.map R.v).denseElement N a c (permAt (s.perm a) i) j *
      (R.v (y.at c j) - R.v (x.at c j)) =
      (R.v (b.at a (permAt (s.perm a) i)) - ∑ c ∈ blocks N, ∑ j ∈ range (d.of c),
        (A.map R.v).denseElement N a c (permAt (s.perm a) i) j * R.v (x.at c j)) -
      (R.v (b.at a (permAt (s.perm a) i)) - ∑ c ∈ blocks N, ∑ j ∈ range (d.of c),
        (A.map R.v).denseElement N a c (permAt (s.perm a) i) j * R.v (y.at c j)) := by
    simp only [mul_sub, sum_sub_distrib]
    ring
  rw [e]
  refine (abs_sub _ _).trans ((add_le_add h3 h1).trans_eq ?_)
  ring

/-- C52 for a binary format: unit roundoff `2 ^ -p` for the precision `p`, and errors by underflow of at most half of
the smallest number. -/
theorem C52_binary (fmt : Format) (m : ArrowheadMatrix (Binary fmt)) (x rhs : ArrowheadVector (Binary fmt)) (d : Dims)
    (N : Nat) (hm : m.OfSize d N) (hx : x.OfSize d N) (hr : rhs.OfSize d N) :
    ∃ v, multiplyArrowheadLinked m x rhs = .ok v ∧ ∀ a ∈ blocks N, ∀ i < d.of a, (v.at a i).Finite →
      let n : Nat := ∑ b ∈ blocks N, ∑ j ∈ range (d.of b), (m.map fun _ => (1 : Nat)).denseElement N a b i j
      let growth : ℚ := 1 / (1 - 2 ^ (-fmt.precision : Int)) ^ (n + 1)
      |(v.at a i).toRat - ((rhs.at a i).toRat +
          ∑ b ∈ blocks N, ∑ j ∈ range (d.of b), (m.map Binary.toRat).denseElement N a b i j * (x.at b j).toRat)| ≤
        (growth - 1) * (|(rhs.at a i).toRat| +
          ∑ b ∈ blocks N, ∑ j ∈ range (d.of b),
            (m.map fun a => |a.toRat|).denseElement N a b i j * |(x.at b j).toRat|) +
        growth * (n * 2 ^ (fmt.minExp - 1)) := by
  obtain ⟨v, hv, -⟩ := C52_total m x rhs d N hm hx hr
  exact ⟨v, hv, fun a ha i hi hf => C52_arrowhead (Binary.roundingAdd fmt) m x rhs v d N hm hx hr (fun _ _ => trivial) hv
    a ha i hi hf⟩

/-! ### A case meeting the hypotheses, with IEEE double precision arithmetic -/

/-- Witness: a vector. -/
def multiplyX : ArrowheadVector Double :=
  (⟨[1 / 3], [[-2 / 7, 1], [4 / 9, 7]], [3], [5 / 11]⟩ : ArrowheadVector ℚ).map (Binary.ofRat .binary64 false)

/-- Witness: zeros. -/
def multiplyZ : ArrowheadVector Double := ⟨[0], [[0, 0], [0, 0]], [0], [0]⟩

def multiplyCheck : Bool :=
  match multiplyArrowheadLinked doubleM multiplyX multiplyZ,
    multiplyArrowheadLinked (doubleM.map Binary.toRat) (multiplyX.map Binary.toRat) (multiplyZ.map Binary.toRat),
    (do
      let T ← arrowheadTypes arrowS
      let f ← (freshFactor arrowS T arrowD 1 (0 : Double)).factorize 2 1 1 doubleM regularizationNone .upLooking
      let b ← multiplyArrowheadLinked doubleM multiplyX multiplyZ
      f.solveInPlace b : Res _) with
  | .ok v, .ok w, .ok y => decide ((∀ a ∈ blocks 1, ∀ i < arrowD.of a, (v.at a i).Finite ∧ (y.at a i).Finite) ∧
      (v.at .outer 0).toRat ≠ w.at .outer 0 ∧ (y.at .outer 0).toRat ≠ (multiplyX.at .outer 0).toRat)
  | _, _, _ => false

/-- The results are finite, and rounding takes place in the multiplication and in the solve. -/
example : doubleM.OfSize arrowD 1 ∧ multiplyX.OfSize arrowD 1 ∧ multiplyZ.OfSize arrowD 1 ∧ multiplyCheck = true :=
  ⟨by
    refine ArrowheadMatrix.OfSize.map (m := arrowM) ?_ _
    constructor <;> first | rfl | exact ⟨rfl, by decide⟩ |
      (intro b hb; simp only [arrowM, List.mem_cons, List.not_mem_nil, or_false] at hb
       rcases hb with rfl | rfl <;> exact ⟨rfl, by decide⟩),
    by constructor <;> decide, by constructor <;> decide, by decide +kernel⟩

/-- Numbers of different types: a matrix of integers, a vector of double precision numbers and a right-hand side of
single precision. -/
example : (match multiplyCast (fun a : ℤ => Binary.ofRat .binary32 false a)
        (Binary.convert (fmt := .binary64) .binary32) .normal ⟨⟨1, 2, [⟨0, 0⟩, ⟨0, 1⟩]⟩, [3, -1]⟩
        [Binary.ofRat .binary64 false (1 / 3), 0] [Binary.ofRat .binary32 false 1] with
      | .ok [v] => decide (v.Finite ∧ v.toRat = 2)
      | _ => false) = true := by
  decide +kernel

end Ctldl
