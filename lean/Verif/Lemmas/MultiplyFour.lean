import Verif.Lemmas.RoundingAdd
import Verif.Props.Multiply

/-! # Properties of the results of multiplications, beside the exact ones -/

namespace Ctldl

open Finset

theorem MatIn.OfSize.map {K F : Type} {m : MatIn K} {r c : Nat} (h : m.OfSize r c) (g : K → F) :
    (m.map g).OfSize r c :=
  ⟨(List.length_map g).trans h.sized, h.inRange⟩

theorem ArrowheadMatrix.OfSize.map {K F : Type} {m : ArrowheadMatrix K} {d : Dims} {N : Nat} (h : m.OfSize d N)
    (g : K → F) : (m.map g).OfSize d N where
  numDiag := (List.length_map _).trans h.numDiag
  numSubdiag := (List.length_map _).trans h.numSubdiag
  numOuter := (List.length_map _).trans h.numOuter
  startDiag := h.startDiag.map g
  startNext := h.startNext.map g
  startOuter := h.startOuter.map g
  tridiagDiag := fun b hb => by obtain ⟨c, hc, rfl⟩ := List.mem_map.mp hb; exact (h.tridiagDiag c hc).map g
  tridiagSubdiag := fun b hb => by obtain ⟨c, hc, rfl⟩ := List.mem_map.mp hb; exact (h.tridiagSubdiag c hc).map g
  linkPrev := h.linkPrev.map g
  linkDiag := h.linkDiag.map g
  linkNext := h.linkNext.map g
  outerSubdiag := fun b hb => by obtain ⟨c, hc, rfl⟩ := List.mem_map.mp hb; exact (h.outerSubdiag c hc).map g
  outerDiag := h.outerDiag.map g

theorem ArrowheadVector.OfSize.map {K F : Type} {x : ArrowheadVector K} {d : Dims} {N : Nat} (h : x.OfSize d N)
    (g : K → F) : (x.map g).OfSize d N where
  num := (List.length_map _).trans h.num
  start := (List.length_map _).trans h.start
  tridiag := fun b hb => by
    obtain ⟨c, hc, rfl⟩ := List.mem_map.mp hb
    exact (List.length_map _).trans (h.tridiag c hc)
  link := (List.length_map _).trans h.link
  outer := (List.length_map _).trans h.outer

theorem ArrowheadVector.OfSize.of_map {K F : Type} {x : ArrowheadVector K} {d : Dims} {N : Nat} {g : K → F}
    (h : (x.map g).OfSize d N) : x.OfSize d N where
  num := (List.length_map _).symm.trans h.num
  start := (List.length_map _).symm.trans h.start
  tridiag := fun b hb => (List.length_map g).symm.trans (h.tridiag _ (List.mem_map.mpr ⟨b, hb, rfl⟩))
  link := (List.length_map _).symm.trans h.link
  outer := (List.length_map _).symm.trans h.outer

theorem ArrowheadMatrix.diagBlock_map {K F : Type} (m : ArrowheadMatrix K) (g : K → F) (a : Blk) :
    (m.map g).diagBlock a = (m.diagBlock a).map g := by
  cases a with
  | tridiag t =>
    change (m.tridiagDiag.map (·.map g)).getD t (MatIn.map (.empty K) g) = _
    rw [List.getD_map]
    rfl
  | _ => rfl

theorem ArrowheadMatrix.lowerBlock_map {K F : Type} (m : ArrowheadMatrix K) (g : K → F) (N : Nat) (a b : Blk) :
    (m.map g).lowerBlock N a b = (m.lowerBlock N a b).map (·.map g) := by
  unfold ArrowheadMatrix.lowerBlock
  split <;> first | rfl | (simp only [ArrowheadMatrix.map, List.getElem?_map]; split <;> rfl)

variable {K F : Type} [Zero K] [Add K] [Sub K] [Mul K] [Div K] [Field F] [LinearOrder F] [IsStrictOrderedRing F]

/-- A property of the computed result, the exact one, the one with absolute values and the number of products, which is
kept by adding products. -/
theorem multiply_four {R : RoundingAdd K F} {P Q : K × F × F × ℕ → Prop} (hadd : ∀ s t, P s → Q t → P (s + t)) (h0 : P 0)
    {kind : MultiplyKind} {m : MatIn K} {x rhs v : List K}
    (h : ∀ {K' : Type} (g : K → K'), kind.Fits (m.map g) rhs.length x.length)
    (hprod : ∀ a ∈ m.numbers, ∀ y ∈ x, Q (R.lift a * R.lift y)) (hrhs : ∀ a ∈ rhs, P (R.liftRhs a))
    (hv : multiply kind m x rhs = .ok v) (i : Nat) :
    P (v.getD i 0, R.v (rhs.getD i 0) + ∑ j ∈ range x.length, kind.element (m.map R.v) i j * R.v (x.getD j 0),
      |R.v (rhs.getD i 0)| + ∑ j ∈ range x.length, kind.element (m.map fun a => |R.v a|) i j * |R.v (x.getD j 0)|,
      ∑ j ∈ range x.length, kind.element (m.map fun _ => 1) i j) := by
  obtain ⟨s, A, n, e1, e2, e3, hapx⟩ := multiply_lift hadd h0 hprod hrhs hv
  obtain ⟨s', f1, -, g1⟩ := multiply_sat (kind := kind) (m := m.map R.v) (x := x.map R.v) (rhs := rhs.map R.v)
    (by rw [List.length_map, List.length_map]; exact h _)
  obtain ⟨A', f2, -, g2⟩ := multiply_sat (kind := kind) (m := m.map fun a => |R.v a|) (x := x.map fun a => |R.v a|)
    (rhs := rhs.map fun a => |R.v a|) (by rw [List.length_map, List.length_map]; exact h _)
  obtain ⟨n', f3, -, g3⟩ := multiply_sat (K := ℕ) (kind := kind) (m := m.map fun _ => 1) (x := x.map fun _ => 1)
    (rhs := rhs.map fun _ => 0) (by rw [List.length_map, List.length_map]; exact h _)
  cases e1.symm.trans f1
  cases e2.symm.trans f2
  cases e3.symm.trans f3
  have key : ∀ {K' : Type} [Zero K'] (g : K → K') (_ : g 0 = 0) (l : List K) (i : Nat),
      (l.map g).getD i 0 = g (l.getD i 0) := fun g g0 l i => by rw [← g0, List.getD_map]
  have a0 : |R.v 0| = 0 := by rw [R.v_zero, abs_zero]
  have hs : s.getD i 0 = R.v (rhs.getD i 0) + ∑ j ∈ range x.length, kind.element (m.map R.v) i j * R.v (x.getD j 0) := by
    rw [g1, List.length_map, key _ R.v_zero]
    exact congrArg _ (sum_congr rfl fun j _ => by rw [key _ R.v_zero])
  have hA : A.getD i 0 = |R.v (rhs.getD i 0)| +
      ∑ j ∈ range x.length, kind.element (m.map fun a => |R.v a|) i j * |R.v (x.getD j 0)| := by
    rw [g2, List.length_map, key (fun a => |R.v a|) a0]
    exact congrArg _ (sum_congr rfl fun j _ => by rw [key (fun a => |R.v a|) a0])
  have hn : n.getD i 0 = ∑ j ∈ range x.length, kind.element (m.map fun _ => 1) i j := by
    rw [g3, List.length_map, key (fun _ => (0 : ℕ)) rfl, zero_add]
    refine sum_congr rfl fun j hj => ?_
    rw [List.getD_eq_getElem?_getD, List.getElem?_map, List.getElem?_eq_getElem (mem_range.mp hj)]
    exact mul_one _
  have := hapx i
  rw [hs, hA, hn] at this
  exact this

/-- The same for block tridiagonal matrices. -/
theorem multiplyTridiagonal_four {R : RoundingAdd K F} {P Q : K × F × F × ℕ → Prop}
    (hadd : ∀ s t, P s → Q t → P (s + t)) (h0 : P 0) {A B : List (MatIn K)} {x rhs v : List (List K)} {d N : Nat}
    (hA : A.length = N + 1) (hB : B.length = N) (hx : x.length = N + 1) (hr : rhs.length = N + 1)
    (sA : ∀ b ∈ A, b.OfSize d d) (sB : ∀ b ∈ B, b.OfSize d d) (sx : ∀ v ∈ x, v.length = d)
    (sr : ∀ v ∈ rhs, v.length = d)
    (pA : ∀ m ∈ A, ∀ a ∈ m.numbers, ∀ z ∈ x, ∀ y ∈ z, Q (R.lift a * R.lift y))
    (pB : ∀ m ∈ B, ∀ a ∈ m.numbers, ∀ z ∈ x, ∀ y ∈ z, Q (R.lift a * R.lift y))
    (hrhs : ∀ z ∈ rhs, ∀ a ∈ z, P (R.liftRhs a)) (hv : multiplyRepeatingBlockTridiagonal A B x rhs = .ok v) {t : Nat}
    (ht : t < N + 1) {i : Nat} (hi : i < d) :
    let A' {K' : Type} (g : K → K') (t : Nat) := (A.map (·.map g)).getD t (.empty K')
    let B' {K' : Type} (g : K → K') (t : Nat) := (B.map (·.map g)).getD t (.empty K')
    P (blockAt v t i, R.v (blockAt rhs t i) +
        ∑ u ∈ range (N + 1), ∑ j ∈ range d, tridiagonalElement (A' R.v) (B' R.v) t u i j * R.v (blockAt x u j),
      |R.v (blockAt rhs t i)| + ∑ u ∈ range (N + 1), ∑ j ∈ range d,
          tridiagonalElement (A' fun a => |R.v a|) (B' fun a => |R.v a|) t u i j * |R.v (blockAt x u j)|,
      ∑ u ∈ range (N + 1), ∑ j ∈ range d, tridiagonalElement (A' fun _ => 1) (B' fun _ => 1) t u i j) := by
  intro A' B'
  obtain ⟨s, S, n, e1, e2, e3, hapx⟩ := multiplyTridiagonal_lift hadd h0 pA pB hrhs hv
  have mM : ∀ {K' : Type} (g : K → K') (l : List (MatIn K)), (∀ b ∈ l, b.OfSize d d) →
      ∀ b ∈ l.map (·.map g), b.OfSize d d := by
    intro K' g l hl b hb
    obtain ⟨c, hc, rfl⟩ := List.mem_map.mp hb
    exact (hl c hc).map g
  have mV : ∀ {K' : Type} (g : K → K') (l : List (List K)), (∀ v ∈ l, v.length = d) →
      ∀ v ∈ l.map (List.map g), v.length = d := by
    intro K' g l hl b hb
    obtain ⟨c, hc, rfl⟩ := List.mem_map.mp hb
    exact (List.length_map g).trans (hl c hc)
  have sat : ∀ {K' : Type} [Semiring K'] (g g' : K → K'), _ := fun g g' =>
    C33_tridiagonal (A.map (·.map g)) (B.map (·.map g)) (x.map (List.map g)) (rhs.map (List.map g')) d N
      (by rw [List.length_map, hA]) (by rw [List.length_map, hB]) (by rw [List.length_map, hx])
      (by rw [List.length_map, hr]) (mM g A sA) (mM g B sB) (mV g x sx) (mV g' rhs sr)
  obtain ⟨s', f1, -, -, g1⟩ := sat R.v R.v
  obtain ⟨S', f2, -, -, g2⟩ := sat (fun a => |R.v a|) (fun a => |R.v a|)
  obtain ⟨n', f3, -, -, g3⟩ := sat (K' := ℕ) (fun _ => 1) (fun _ => 0)
  cases e1.symm.trans f1
  cases e2.symm.trans f2
  cases e3.symm.trans f3
  have a0 : |R.v 0| = 0 := by rw [R.v_zero, abs_zero]
  have h1 := g1 t ht i hi
  have h2 := g2 t ht i hi
  have h3 := g3 t ht i hi
  simp only [blockAt_map R.v_zero] at h1
  simp only [blockAt_map (g := fun a => |R.v a|) a0] at h2
  rw [blockAt_map (g := fun _ : K => (0 : ℕ)) rfl, zero_add] at h3
  have h4 : blockAt n t i = ∑ u ∈ range (N + 1), ∑ j ∈ range d, tridiagonalElement (A' fun _ => 1) (B' fun _ => 1) t u i j := by
    rw [h3]
    refine sum_congr rfl fun u hu => sum_congr rfl fun j hj => ?_
    have hu' : u < x.length := by rw [hx]; exact mem_range.mp hu
    have hj' : j < x[u].length := by rw [sx _ (List.getElem_mem hu')]; exact mem_range.mp hj
    have : blockAt (x.map (List.map fun _ => 1)) u j = 1 := by
      simp only [blockAt, List.getD_eq_getElem?_getD, List.getElem?_map, List.getElem?_eq_getElem hu', Option.map_some,
        Option.getD_some, List.getElem?_eq_getElem hj']
    rw [this, mul_one]
  have := hapx t i
  rw [h1, h2, h4] at this
  exact this

/-- The same for tridiagonal arrowhead linked matrices. -/
theorem multiplyArrowhead_four {R : RoundingAdd K F} {P Q : K × F × F × ℕ → Prop}
    (hadd : ∀ s t, P s → Q t → P (s + t)) (h0 : P 0) {m : ArrowheadMatrix K} {x rhs v : ArrowheadVector K} {d : Dims}
    {N : Nat} (hm : m.OfSize d N) (hx : x.OfSize d N) (hr : rhs.OfSize d N)
    (hprod : ∀ a ∈ m.numbers, ∀ y ∈ x.numbers, Q (R.lift a * R.lift y)) (hrhs : ∀ a ∈ rhs.numbers, P (R.liftRhs a))
    (hv : multiplyArrowheadLinked m x rhs = .ok v) {a : Blk} (ha : a ∈ blocks N) {i : Nat} (hi : i < d.of a) :
    P (v.at a i, R.v (rhs.at a i) +
        ∑ b ∈ blocks N, ∑ j ∈ range (d.of b), (m.map R.v).denseElement N a b i j * R.v (x.at b j),
      |R.v (rhs.at a i)| +
        ∑ b ∈ blocks N, ∑ j ∈ range (d.of b), (m.map fun a => |R.v a|).denseElement N a b i j * |R.v (x.at b j)|,
      ∑ b ∈ blocks N, ∑ j ∈ range (d.of b), (m.map fun _ => 1).denseElement N a b i j) := by
  obtain ⟨s, S, n, e1, e2, e3, hapx⟩ := multiplyArrowhead_lift hadd h0 hprod hrhs hv
  obtain ⟨s', f1, -, g1⟩ := C33_arrowhead (m.map R.v) (x.map R.v) (rhs.map R.v) d N (hm.map _) (hx.map _) (hr.map _)
  obtain ⟨S', f2, -, g2⟩ := C33_arrowhead (m.map fun a => |R.v a|) (x.map fun a => |R.v a|) (rhs.map fun a => |R.v a|)
    d N (hm.map _) (hx.map _) (hr.map _)
  obtain ⟨n', f3, -, g3⟩ := C33_arrowhead (K := ℕ) (m.map fun _ => 1) (x.map fun _ => 1) (rhs.map fun _ => 0) d N
    (hm.map _) (hx.map _) (hr.map _)
  cases e1.symm.trans f1
  cases e2.symm.trans f2
  cases e3.symm.trans f3
  have a0 : |R.v 0| = 0 := by rw [R.v_zero, abs_zero]
  have h1 := g1 a ha i hi
  have h2 := g2 a ha i hi
  have h3 := g3 a ha i hi
  simp only [ArrowheadVector.at_map R.v_zero] at h1
  simp only [ArrowheadVector.at_map (g := fun a => |R.v a|) a0] at h2
  rw [ArrowheadVector.at_map (g := fun _ : K => (0 : ℕ)) rfl, zero_add] at h3
  have one : ∀ (l : List K) (j : Nat), j < l.length → (l.map fun _ => 1).getD j 0 = 1 := fun l j hj => by
    rw [List.getD_eq_getElem?_getD, List.getElem?_map, List.getElem?_eq_getElem hj]
    rfl
  have h4 : n.at a i = ∑ b ∈ blocks N, ∑ j ∈ range (d.of b), (m.map fun _ => 1).denseElement N a b i j := by
    rw [h3]
    refine sum_congr rfl fun b hb => sum_congr rfl fun j hj => ?_
    have hj := mem_range.mp hj
    have : (x.map fun _ => 1).at b j = 1 := by
      cases b with
      | start => exact one _ _ (by rw [hx.start]; exact hj)
      | link => exact one _ _ (by rw [hx.link]; exact hj)
      | outer => exact one _ _ (by rw [hx.outer]; exact hj)
      | tridiag t =>
        have ht : t < x.tridiag.length := by rw [hx.num]; exact mem_blocks.mp hb t rfl
        change ((x.tridiag.map (·.map fun _ => 1)).getD t []).getD j 0 = 1
        rw [List.getD_eq_getElem?_getD (l := x.tridiag.map _), List.getElem?_map, List.getElem?_eq_getElem ht]
        exact one _ _ (by rw [hx.tridiag _ (List.getElem_mem ht)]; exact hj)
    rw [this, mul_one]
  have := hapx a i
  rw [h1, h2, h4] at this
  exact this

end Ctldl
