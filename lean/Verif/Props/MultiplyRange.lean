import Verif.Lemmas.RangeAdd
import Verif.Props.MultiplyRounding

/-! # C61: multiplications without overflow -/

namespace Ctldl

open Finset

variable {K F : Type} [Zero K] [Add K] [Sub K] [Mul K] [Div K] [Field F] [LinearOrder F] [IsStrictOrderedRing F]

private theorem multiply_range {R : RoundingAdd K F} {Ω : F} (hR : R.Range Ω) {kind : MultiplyKind} {m : MatIn K}
    {x rhs v : List K} (h : ∀ {K' : Type} (g : K → K'), kind.Fits (m.map g) rhs.length x.length)
    (hm : ∀ a ∈ m.numbers, R.fin a ∧ R.stored a) (hx : ∀ a ∈ x, R.fin a ∧ R.stored a)
    (hr : ∀ a ∈ rhs, R.fin a ∧ R.stored a) (hv : multiply kind m x rhs = .ok v) (i : Nat) :
    let n := ∑ j ∈ range x.length, kind.element (m.map fun _ => 1) i j
    R.stored (v.getD i 0) ∧
    (R.growth (n + 1) * (|R.v (rhs.getD i 0)| +
        ∑ j ∈ range x.length, kind.element (m.map fun a => |R.v a|) i j * |R.v (x.getD j 0)| + n * R.η) ≤ Ω →
      R.fin (v.getD i 0)) := by
  have := multiply_four (P := R.SumIn Ω) (Q := R.ProductIn Ω) (RoundingAdd.sumIn_add hR) (RoundingAdd.sumIn_zero hR) h
    (fun a ha y hy => RoundingAdd.productIn_lift hR (hm a ha).2 (hm a ha).1 (hx y hy).2 (hx y hy).1)
    (fun a ha => RoundingAdd.sumIn_liftRhs (hr a ha).2 (hr a ha).1) hv i
  exact ⟨this.1, this.2.2.2⟩

/-- C61, kind `Normal`: if the numbers of the matrix, of the vector and of the right-hand side are finite, then an
element of the result is finite if `|b| + |A| |x|`, a bit enlarged, is in the range; `n` is the number of entries of the
row. -/
theorem C61_normal (R : RoundingAdd K F) (Ω : F) (hR : R.Range Ω) (m : MatIn K) (r c : Nat) (h : m.OfSize r c)
    (x rhs v : List K) (hx : x.length = c) (hr : rhs.length = r)
    (fm : ∀ a ∈ m.numbers, R.fin a ∧ R.stored a) (fx : ∀ a ∈ x, R.fin a ∧ R.stored a)
    (fr : ∀ a ∈ rhs, R.fin a ∧ R.stored a) (hv : multiply .normal m x rhs = .ok v) (i : Nat) :
    let n := ∑ j ∈ range c, (m.map fun _ => 1).dense i j
    R.stored (v.getD i 0) ∧
    (R.growth (n + 1) * (|R.v (rhs.getD i 0)| +
        ∑ j ∈ range c, (m.map fun a => |R.v a|).dense i j * |R.v (x.getD j 0)| + n * R.η) ≤ Ω → R.fin (v.getD i 0)) := by
  subst hx hr
  exact multiply_range hR (kind := .normal) (fun g => (h.map g).fits_normal) fm fx fr hv i

/-- C61, kind `Transposed`; `n` is the number of entries of the column. -/
theorem C61_transposed (R : RoundingAdd K F) (Ω : F) (hR : R.Range Ω) (m : MatIn K) (r c : Nat) (h : m.OfSize r c)
    (x rhs v : List K) (hx : x.length = r) (hr : rhs.length = c)
    (fm : ∀ a ∈ m.numbers, R.fin a ∧ R.stored a) (fx : ∀ a ∈ x, R.fin a ∧ R.stored a)
    (fr : ∀ a ∈ rhs, R.fin a ∧ R.stored a) (hv : multiply .transposed m x rhs = .ok v) (i : Nat) :
    let n := ∑ j ∈ range r, (m.map fun _ => 1).dense j i
    R.stored (v.getD i 0) ∧
    (R.growth (n + 1) * (|R.v (rhs.getD i 0)| +
        ∑ j ∈ range r, (m.map fun a => |R.v a|).dense j i * |R.v (x.getD j 0)| + n * R.η) ≤ Ω → R.fin (v.getD i 0)) := by
  subst hx hr
  exact multiply_range hR (kind := .transposed) (fun g => (h.map g).fits_transposed) fm fx fr hv i

/-- C61, kind `Symmetric`; `n` is the number of entries of row and column, without counting those on the diagonal
twice. -/
theorem C61_symmetric (R : RoundingAdd K F) (Ω : F) (hR : R.Range Ω) (m : MatIn K) (r : Nat) (h : m.OfSize r r)
    (x rhs v : List K) (hx : x.length = r) (hr : rhs.length = r)
    (fm : ∀ a ∈ m.numbers, R.fin a ∧ R.stored a) (fx : ∀ a ∈ x, R.fin a ∧ R.stored a)
    (fr : ∀ a ∈ rhs, R.fin a ∧ R.stored a) (hv : multiply .symmetric m x rhs = .ok v) (i : Nat) :
    let n := ∑ j ∈ range r, (m.map fun _ => 1).symmetrized i j
    R.stored (v.getD i 0) ∧
    (R.growth (n + 1) * (|R.v (rhs.getD i 0)| +
        ∑ j ∈ range r, (m.map fun a => |R.v a|).symmetrized i j * |R.v (x.getD j 0)| + n * R.η) ≤ Ω →
      R.fin (v.getD i 0)) := by
  subst hx
  exact multiply_range hR (kind := .symmetric) (fun g => by rw [hr]; exact (h.map g).fits_symmetric) fm fx fr hv i

/-- C61, block tridiagonal matrices; `n` is the number of entries of the row of the assembled matrix. -/
theorem C61_tridiagonal (R : RoundingAdd K F) (Ω : F) (hR : R.Range Ω) (A B : List (MatIn K)) (x rhs v : List (List K))
    (d N : Nat) (hA : A.length = N + 1) (hB : B.length = N) (hx : x.length = N + 1) (hr : rhs.length = N + 1)
    (sA : ∀ b ∈ A, b.OfSize d d) (sB : ∀ b ∈ B, b.OfSize d d) (sx : ∀ v ∈ x, v.length = d)
    (sr : ∀ v ∈ rhs, v.length = d) (fA : ∀ b ∈ A, ∀ a ∈ b.numbers, R.fin a ∧ R.stored a)
    (fB : ∀ b ∈ B, ∀ a ∈ b.numbers, R.fin a ∧ R.stored a) (fx : ∀ v ∈ x, ∀ a ∈ v, R.fin a ∧ R.stored a)
    (fr : ∀ v ∈ rhs, ∀ a ∈ v, R.fin a ∧ R.stored a) (hv : multiplyRepeatingBlockTridiagonal A B x rhs = .ok v) (t : Nat)
    (ht : t < N + 1) (i : Nat) (hi : i < d) :
    let A' {K' : Type} (g : K → K') (t : Nat) := (A.map (·.map g)).getD t (.empty K')
    let B' {K' : Type} (g : K → K') (t : Nat) := (B.map (·.map g)).getD t (.empty K')
    let n := ∑ u ∈ range (N + 1), ∑ j ∈ range d, tridiagonalElement (A' fun _ => 1) (B' fun _ => 1) t u i j
    R.stored (blockAt v t i) ∧
    (R.growth (n + 1) * (|R.v (blockAt rhs t i)| +
        ∑ u ∈ range (N + 1), ∑ j ∈ range d,
          tridiagonalElement (A' fun a => |R.v a|) (B' fun a => |R.v a|) t u i j * |R.v (blockAt x u j)| + n * R.η) ≤ Ω →
      R.fin (blockAt v t i)) := by
  intro A' B' n₀
  have mul : ∀ l : List (MatIn K), (∀ b ∈ l, ∀ a ∈ b.numbers, R.fin a ∧ R.stored a) → ∀ b ∈ l, ∀ a ∈ b.numbers,
      ∀ z ∈ x, ∀ y ∈ z, R.ProductIn Ω (R.lift a * R.lift y) := fun l hl b hb a ha z hz y hy =>
    RoundingAdd.productIn_lift hR (hl b hb a ha).2 (hl b hb a ha).1 (fx z hz y hy).2 (fx z hz y hy).1
  have := multiplyTridiagonal_four (P := R.SumIn Ω) (Q := R.ProductIn Ω) (RoundingAdd.sumIn_add hR)
    (RoundingAdd.sumIn_zero hR) hA hB hx hr sA sB sx sr (mul A fA) (mul B fB)
    (fun z hz a ha => RoundingAdd.sumIn_liftRhs (fr z hz a ha).2 (fr z hz a ha).1) hv ht hi
  exact ⟨this.1, this.2.2.2⟩

/-- C61, tridiagonal arrowhead linked matrices; `n` is the number of entries of the row of the assembled matrix. -/
theorem C61_arrowhead (R : RoundingAdd K F) (Ω : F) (hR : R.Range Ω) (m : ArrowheadMatrix K) (x rhs v : ArrowheadVector K)
    (d : Dims) (N : Nat) (hm : m.OfSize d N) (hx : x.OfSize d N) (hr : rhs.OfSize d N)
    (fm : ∀ a ∈ m.numbers, R.fin a ∧ R.stored a) (fx : ∀ a ∈ x.numbers, R.fin a ∧ R.stored a)
    (fr : ∀ a ∈ rhs.numbers, R.fin a ∧ R.stored a) (hv : multiplyArrowheadLinked m x rhs = .ok v) (a : Blk)
    (ha : a ∈ blocks N) (i : Nat) (hi : i < d.of a) :
    let n := ∑ b ∈ blocks N, ∑ j ∈ range (d.of b), (m.map fun _ => 1).denseElement N a b i j
    R.stored (v.at a i) ∧
    (R.growth (n + 1) * (|R.v (rhs.at a i)| +
        ∑ b ∈ blocks N, ∑ j ∈ range (d.of b), (m.map fun a => |R.v a|).denseElement N a b i j * |R.v (x.at b j)| +
        n * R.η) ≤ Ω → R.fin (v.at a i)) := by
  intro n₀
  have := multiplyArrowhead_four (P := R.SumIn Ω) (Q := R.ProductIn Ω) (RoundingAdd.sumIn_add hR)
    (RoundingAdd.sumIn_zero hR) hm hx hr
    (fun a ha y hy => RoundingAdd.productIn_lift hR (fm a ha).2 (fm a ha).1 (fx y hy).2 (fx y hy).1)
    (fun a ha => RoundingAdd.sumIn_liftRhs (fr a ha).2 (fr a ha).1) hv ha hi
  exact ⟨this.1, this.2.2.2⟩

/-- C61 for a binary format: half of the first power of two which is too large is in the range. -/
theorem C61_binary (fmt : Format) (hfmt : fmt.minExp < fmt.maxExp) (m : ArrowheadMatrix (Binary fmt))
    (x rhs : ArrowheadVector (Binary fmt)) (d : Dims) (N : Nat) (hm : m.OfSize d N) (hx : x.OfSize d N)
    (hr : rhs.OfSize d N) (fm : ∀ a ∈ m.numbers, a.Finite) (fx : ∀ a ∈ x.numbers, a.Finite)
    (fr : ∀ a ∈ rhs.numbers, a.Finite) :
    ∃ v, multiplyArrowheadLinked m x rhs = .ok v ∧ ∀ a ∈ blocks N, ∀ i < d.of a,
      let n : Nat := ∑ b ∈ blocks N, ∑ j ∈ range (d.of b), (m.map fun _ => (1 : Nat)).denseElement N a b i j
      |(rhs.at a i).toRat| + ∑ b ∈ blocks N, ∑ j ∈ range (d.of b),
          (m.map fun a => |a.toRat|).denseElement N a b i j * |(x.at b j).toRat| + n * 2 ^ (fmt.minExp - 1) ≤
        2 ^ (fmt.maxExp - 1) * (1 - 2 ^ (-fmt.precision : Int)) ^ (n + 1) → (v.at a i).Finite := by
  obtain ⟨v, hv, -⟩ := C52_total m x rhs d N hm hx hr
  refine ⟨v, hv, ?_⟩
  intro a ha i hi n hle
  refine (C61_arrowhead (Binary.roundingAdd fmt) _ (Binary.rangeAdd hfmt) m x rhs v d N hm hx hr
    (fun a ha => ⟨fm a ha, trivial⟩) (fun a ha => ⟨fx a ha, trivial⟩) (fun a ha => ⟨fr a ha, trivial⟩) hv a ha i hi).2 ?_
  have hp : (0 : ℚ) < (1 - 2 ^ (-fmt.precision : Int)) ^ (n + 1) :=
    pow_pos (by have := (Binary.roundingAdd fmt).u_lt_one; exact sub_pos.mpr this) _
  unfold Rounding.growth
  rw [one_div, ← div_eq_inv_mul]
  exact (div_le_iff₀ hp).mpr hle

/-! ### Cases meeting the hypotheses, with IEEE double precision arithmetic -/

/-- Witness: numbers close to the end of the range. -/
def multiplyHuge : ArrowheadVector Double :=
  (⟨[2 ^ 1000], [[-2 ^ 1001, 2 ^ 990], [2 ^ 1018 / 3, 2 ^ 800]], [2 ^ 1015], [5 / 11]⟩ : ArrowheadVector ℚ).map
    (Binary.ofRat .binary64 false)

def multiplyHugeCheck : Bool :=
  decide ((∀ a ∈ doubleM.numbers, a.Finite) ∧ (∀ a ∈ multiplyHuge.numbers, a.Finite) ∧
    (∀ a ∈ multiplyZ.numbers, a.Finite) ∧
    (∃ a ∈ doubleM.numbers, a.toRat ≠ 1) ∧
    ∀ a ∈ blocks 1, ∀ i < arrowD.of a,
      |(multiplyZ.at a i).toRat| + ∑ b ∈ blocks 1, ∑ j ∈ range (arrowD.of b),
        (doubleM.map fun a => |a.toRat|).denseElement 1 a b i j * |(multiplyHuge.at b j).toRat| +
        (∑ b ∈ blocks 1, ∑ j ∈ range (arrowD.of b), (doubleM.map fun _ => (1 : Nat)).denseElement 1 a b i j : Nat) *
          (1 / 2 ^ 1075) ≤ 2 ^ 1022)

/-- The hypotheses hold for numbers close to the end of the range. -/
example : multiplyHugeCheck = true := by decide +kernel

/-- The bound is needed: a sum of finite products overflows although the exact result is zero. -/
example : (match multiply .normal ((⟨⟨1, 4, [⟨0, 0⟩, ⟨0, 1⟩, ⟨0, 2⟩, ⟨0, 3⟩]⟩, ([1, 1, -1, -1] : List ℚ)⟩ : MatIn ℚ).map (Binary.ofRat .binary64 false))
      (([2 ^ 1023, 2 ^ 1023, 2 ^ 1023, 2 ^ 1023] : List ℚ).map (Binary.ofRat .binary64 false)) [0] with
    | .ok [v] => decide ¬v.Finite
    | _ => false) = true := by
  decide +kernel

end Ctldl
