import Verif.Lemmas.MultiplyArrowhead
import Mathlib.Algebra.Ring.Rat

/-! # C32 - C33: multiplication -/

namespace Ctldl

open Finset

variable {K : Type}

/-! ### C32 -/

/-- C32: `multiply` succeeds and keeps the size of the right-hand side, for any arithmetic. -/
theorem C32_total [Add K] [Mul K] (m : MatIn K) (r c : Nat) (h : m.OfSize r c) :
    (∀ x rhs : List K, x.length = c → rhs.length = r →
      ∃ v, multiply .normal m x rhs = .ok v ∧ v.length = r) ∧
    (∀ x rhs : List K, x.length = r → rhs.length = c →
      ∃ v, multiply .transposed m x rhs = .ok v ∧ v.length = c) ∧
    (r = c → ∀ x rhs : List K, x.length = r → rhs.length = r →
      ∃ v, multiply .symmetric m x rhs = .ok v ∧ v.length = r) := by
  refine ⟨fun x rhs hx hr => ?_, fun x rhs hx hr => ?_, fun hrc x rhs hx hr => ?_⟩
  · obtain ⟨v, h1, h2⟩ := multiply_total (kind := .normal) (m := m) (x := x) (rhs := rhs)
      (by rw [hx, hr]; exact h.fits_normal)
    exact ⟨v, h1, by omega⟩
  · obtain ⟨v, h1, h2⟩ := multiply_total (kind := .transposed) (m := m) (x := x) (rhs := rhs)
      (by rw [hx, hr]; exact h.fits_transposed)
    exact ⟨v, h1, by omega⟩
  · subst hrc
    obtain ⟨v, h1, h2⟩ := multiply_total (kind := .symmetric) (m := m) (x := x) (rhs := rhs)
      (by rw [hx, hr]; exact h.fits_symmetric)
    exact ⟨v, h1, by omega⟩

/-- C32: the kind `Normal` adds `A x`. -/
theorem C32_normal [Semiring K] (m : MatIn K) (r c : Nat) (h : m.OfSize r c) (x rhs : List K) (hx : x.length = c)
    (hr : rhs.length = r) :
    ∃ v, multiply .normal m x rhs = .ok v ∧ v.length = r ∧ ∀ i < r,
      v.getD i 0 = rhs.getD i 0 + ∑ j ∈ range c, m.dense i j * x.getD j 0 := by
  subst hx hr
  obtain ⟨v, h1, h2, h3⟩ := multiply_sat h.fits_normal
  exact ⟨v, h1, h2, fun i _ => h3 i⟩

/-- C32: the kind `Transposed` adds `Aᵀ x`. -/
theorem C32_transposed [Semiring K] (m : MatIn K) (r c : Nat) (h : m.OfSize r c) (x rhs : List K)
    (hx : x.length = r) (hr : rhs.length = c) :
    ∃ v, multiply .transposed m x rhs = .ok v ∧ v.length = c ∧ ∀ i < c,
      v.getD i 0 = rhs.getD i 0 + ∑ j ∈ range r, m.dense j i * x.getD j 0 := by
  subst hx hr
  obtain ⟨v, h1, h2, h3⟩ := multiply_sat h.fits_transposed
  exact ⟨v, h1, h2, fun i _ => h3 i⟩

/-- C32: the kind `Symmetric` adds the product with the symmetric matrix given by the lower triangle, if there are no
entries above the diagonal. -/
theorem C32_symmetric [Semiring K] (m : MatIn K) (n : Nat) (h : m.OfSize n n) (x rhs : List K)
    (hx : x.length = n) (hr : rhs.length = n) (hlow : ∀ e ∈ m.sparsity.entries, e.col ≤ e.row) :
    ∃ v, multiply .symmetric m x rhs = .ok v ∧ v.length = n ∧ ∀ i < n,
      v.getD i 0 = rhs.getD i 0 + ∑ j ∈ range n, m.dense (max i j) (min i j) * x.getD j 0 := by
  obtain ⟨v, h1, h2, h3⟩ := multiply_sat (kind := .symmetric) (x := x) (rhs := rhs)
    (by rw [hx, hr]; exact h.fits_symmetric)
  refine ⟨v, h1, by omega, fun i _ => ?_⟩
  rw [h3, hx]
  congr 1
  refine sum_congr rfl fun j _ => ?_
  congr 1
  have hz : ∀ i j, i < j → m.dense i j = 0 := by
    intro i j hij
    refine sum_eq_zero fun t _ => ?_
    rw [if_neg]
    intro he
    have := hlow _ (List.mem_of_getElem? he)
    simp only at this
    omega
  unfold MultiplyKind.element MatIn.symmetrized
  rcases lt_trichotomy i j with hij | hij | hij
  · rw [hz i j hij, if_neg (by omega), zero_add, max_eq_right (by omega), min_eq_left (by omega)]
  · subst hij; simp
  · rw [hz j i hij, ite_self, add_zero, max_eq_left (by omega), min_eq_right (by omega)]

/-- C32: in general the kind `Symmetric` also multiplies with the transposed of the entries above the diagonal. -/
theorem C32_symmetric_upper [Semiring K] (m : MatIn K) (n : Nat) (h : m.OfSize n n) (x rhs : List K)
    (hx : x.length = n) (hr : rhs.length = n) :
    ∃ v, multiply .symmetric m x rhs = .ok v ∧ v.length = n ∧ ∀ i < n,
      v.getD i 0 = rhs.getD i 0 +
        ∑ j ∈ range n, (m.dense i j + if i = j then 0 else m.dense j i) * x.getD j 0 := by
  obtain ⟨v, h1, h2, h3⟩ := multiply_sat (kind := .symmetric) (x := x) (rhs := rhs)
    (by rw [hx, hr]; exact h.fits_symmetric)
  refine ⟨v, h1, by omega, fun i _ => ?_⟩
  rw [h3, hx]
  rfl

/-- Witness: a matrix with entries in no order and one repeated entry. -/
def witnessMul : MatIn ℚ := ⟨⟨3, 3, [⟨2, 0⟩, ⟨0, 0⟩, ⟨2, 1⟩, ⟨2, 0⟩, ⟨1, 1⟩]⟩, [1, 2, 3, 4, 5]⟩

example : witnessMul.OfSize 3 3 ∧ (∀ e ∈ witnessMul.sparsity.entries, e.col ≤ e.row) ∧ witnessMul.dense 2 0 = 5 ∧
    multiply .symmetric witnessMul [1, 10, 100] [7, 7, 7] = .ok [509, 357, 42] ∧
    multiply .normal witnessMul [1, 10, 100] [7, 7, 7] = .ok [9, 57, 42] ∧
    multiply .transposed witnessMul [1, 10, 100] [7, 7, 7] = .ok [509, 357, 7] :=
  ⟨⟨by decide, by decide⟩, by decide, by decide +kernel, by decide +kernel, by decide +kernel, by decide +kernel⟩

/-! ### C33 -/

/-- C33: `multiplyRepeatingBlockTridiagonal` adds the product with the assembled block tridiagonal matrix. -/
theorem C33_tridiagonal [Semiring K] (A B : List (MatIn K)) (x rhs : List (List K)) (n N : Nat)
    (hA : A.length = N + 1) (hB : B.length = N) (hx : x.length = N + 1) (hr : rhs.length = N + 1)
    (sA : ∀ b ∈ A, b.OfSize n n) (sB : ∀ b ∈ B, b.OfSize n n) (sx : ∀ v ∈ x, v.length = n)
    (sr : ∀ v ∈ rhs, v.length = n) :
    ∃ w, multiplyRepeatingBlockTridiagonal A B x rhs = .ok w ∧ w.length = N + 1 ∧
      (∀ v ∈ w, v.length = n) ∧ ∀ t < N + 1, ∀ i < n,
        blockAt w t i = blockAt rhs t i + ∑ u ∈ range (N + 1), ∑ j ∈ range n,
          tridiagonalElement (A.getD · (.empty K)) (B.getD · (.empty K)) t u i j * blockAt x u j := by
  obtain ⟨w, h1, h2, h3, h4⟩ := multiplyTridiagonal_sat ⟨hA, hB, hx, sA, sB, sx⟩ hr
    (fun t ht => sr _ (getD_mem (by omega) []))
  refine ⟨w, h1, h2, fun b hb => ?_, fun t ht i _ => ?_⟩
  · obtain ⟨t, ht, rfl⟩ := List.mem_iff_getElem.mp hb
    have := h3 t (by omega)
    rwa [← getElem_eq_getD ht] at this
  · have hxt : ∀ t < N + 1, (x.getD t []).length = n := fun t ht => sx _ (getD_mem (by omega) [])
    rw [h4 t ht]
    congr 1
    have hterm : ∀ u ∈ range (N + 1), ∑ j ∈ range n,
        tridiagonalElement (A.getD · (.empty K)) (B.getD · (.empty K)) t u i j * blockAt x u j =
        (if u = t then blockProduct .symmetric (A.getD t (.empty K)) (x.getD t []) i else 0) +
        (if u + 1 = t then blockProduct .normal (B.getD u (.empty K)) (x.getD u []) i else 0) +
        (if u = t + 1 then blockProduct .transposed (B.getD t (.empty K)) (x.getD u []) i else 0) := by
      intro u hu
      have hu' : u < N + 1 := by simpa using hu
      simp only [tridiagonalElement, blockProduct, hxt t ht, hxt u hu', MultiplyKind.element, blockAt]
      by_cases e1 : t = u
      · subst e1
        simp
      · by_cases e2 : u + 1 = t
        · subst e2
          simp [show ¬ u = u + 1 + 1 by omega]
        · by_cases e3 : u = t + 1
          · subst e3
            simp [show ¬ t + 1 + 1 = t by omega, show ¬ t = t + 1 + 1 by omega]
          · simp [e1, e2, e3, show ¬ u = t by omega, show ¬ t = u + 1 by omega]
    rw [sum_congr rfl hterm, sum_add_distrib, sum_add_distrib, sum_ite_eq' (range (N + 1)) t,
      if_pos (mem_range.mpr ht), sum_ite_eq' (range (N + 1)) (t + 1)]
    have hprev : ∑ u ∈ range (N + 1),
        (if u + 1 = t then blockProduct .normal (B.getD u (.empty K)) (x.getD u []) i else 0) =
        if 0 < t then blockProduct .normal (B.getD (t - 1) (.empty K)) (x.getD (t - 1) []) i else 0 := by
      cases t with
      | zero => simp
      | succ t =>
        simp only [Nat.add_right_cancel_iff]
        rw [sum_ite_eq' (range (N + 1)) t, if_pos (by simp; omega), if_pos (by omega)]
        rfl
    rw [hprev]
    have hcond : (t + 1 ∈ range (N + 1)) ↔ t < N := by simp
    simp only [hcond]

/-- C33: inconsistent numbers of blocks are reported by the first thing which `multiplyRepeatingBlockTridiagonal`
does. -/
theorem C33_tridiagonal_rejects [Semiring K] (A B : List (MatIn K)) (x rhs : List (List K))
    (h : ¬ (A.length = B.length + 1 ∧ x.length = B.length + 1 ∧ rhs.length = B.length + 1)) :
    multiplyRepeatingBlockTridiagonal A B x rhs = .error .pre := by
  unfold multiplyRepeatingBlockTridiagonal pre
  by_cases h1 : A.length = B.length + 1
  · by_cases h2 : x.length = B.length + 1
    · have h3 : ¬ rhs.length = B.length + 1 := fun h3 => h ⟨h1, h2, h3⟩
      simp only [h1, h2, beq_self_eq_true, if_true, ok_bind]
      rw [if_neg (by simpa using h3), error_bind]
    · simp only [h1, beq_self_eq_true, if_true, ok_bind]
      rw [if_neg (by simpa using h2), error_bind]
  · simp only
    rw [if_neg (by simpa using h1), error_bind]

/-- C33: the multiplication with tridiagonal arrowhead linked matrices adds the product with the assembled matrix. -/
theorem C33_arrowhead [Semiring K] (m : ArrowheadMatrix K) (x rhs : ArrowheadVector K) (d : Dims) (N : Nat)
    (hm : m.OfSize d N) (hx : x.OfSize d N) (hr : rhs.OfSize d N) :
    ∃ v, multiplyArrowheadLinked m x rhs = .ok v ∧ v.OfSize d N ∧ ∀ a ∈ blocks N, ∀ i < d.of a,
      v.at a i = rhs.at a i + ∑ b ∈ blocks N, ∑ j ∈ range (d.of b), m.denseElement N a b i j * x.at b j := by
  obtain ⟨v, h1, h2, h3⟩ := multiplyArrowhead_sat hm hx hr
  exact ⟨v, h1, h2, fun a ha i _ => h3 a ha i⟩

/-- C33: inconsistent numbers of tridiagonal blocks never go unnoticed in the multiplication with tridiagonal
arrowhead linked matrices. -/
theorem C33_arrowhead_rejects [Semiring K] (m : ArrowheadMatrix K) (x rhs v : ArrowheadVector K)
    (h : multiplyArrowheadLinked m x rhs = .ok v) :
    m.tridiagDiag.length = m.tridiagSubdiag.length + 1 ∧ x.tridiag.length = m.tridiagSubdiag.length + 1 ∧
      rhs.tridiag.length = m.tridiagSubdiag.length + 1 := by
  unfold multiplyArrowheadLinked at h
  obtain ⟨s1, -, h⟩ := bind_eq_ok.mp h
  obtain ⟨x0, -, h⟩ := bind_eq_ok.mp h
  obtain ⟨s2, -, h⟩ := bind_eq_ok.mp h
  obtain ⟨s3, -, h⟩ := bind_eq_ok.mp h
  obtain ⟨t1, h1, h⟩ := bind_eq_ok.mp h
  obtain ⟨t2, h2, -⟩ := bind_eq_ok.mp h
  have hlen : t1.length = rhs.tridiag.length := by
    unfold multiplyInto at h1
    obtain ⟨r, -, h1⟩ := bind_eq_ok.mp h1
    obtain ⟨r', -, h1⟩ := bind_eq_ok.mp h1
    rw [(wr_eq_ok.mp h1).2, List.length_set]
  by_contra hn
  rw [← hlen] at hn
  rw [C33_tridiagonal_rejects _ _ _ _ hn] at h2
  cases h2

/-- Witness: a matrix with one repetition and blocks of size one. -/
def witnessArrow (outers : List (MatIn ℚ)) : ArrowheadMatrix ℚ :=
  let one (x : ℚ) : MatIn ℚ := ⟨⟨1, 1, [⟨0, 0⟩]⟩, [x]⟩
  ⟨one 2, one 3, one 4, [one 5, one 6], [one 7], one 8, one 9, one 10, outers, one 13⟩

/-- C33: the number of outer blocks is not checked by the multiplication: a missing block is an access out of range
and a superfluous one is ignored. -/
theorem C33_outer_count_unchecked :
    let one (x : ℚ) : MatIn ℚ := ⟨⟨1, 1, [⟨0, 0⟩]⟩, [x]⟩
    multiplyArrowheadLinked (witnessArrow [one 11]) ⟨[1], [[2], [3]], [4], [5]⟩ ⟨[0], [[0], [0]], [0], [0]⟩ =
      .error .ub ∧
    multiplyArrowheadLinked (witnessArrow [one 11, one 12, one 99]) ⟨[1], [[2], [3]], [4], [5]⟩
      ⟨[0], [[0], [0]], [0], [0]⟩ = .ok ⟨[28], [[89], [124]], [110], [167]⟩ := by
  decide +kernel

example : (witnessArrow [⟨⟨1, 1, [⟨0, 0⟩]⟩, [11]⟩, ⟨⟨1, 1, [⟨0, 0⟩]⟩, [12]⟩]).OfSize ⟨1, 1, 1, 1⟩ 1 := by
  constructor <;> simp only [witnessArrow, List.length_cons, List.length_nil, List.mem_cons, List.not_mem_nil, or_false,
    forall_eq_or_imp, forall_eq] <;> first | rfl | exact ⟨rfl, by decide⟩ | exact ⟨⟨rfl, by decide⟩, ⟨rfl, by decide⟩⟩

example : (⟨[1], [[2], [3]], [4], [5]⟩ : ArrowheadVector ℚ).OfSize ⟨1, 1, 1, 1⟩ 1 := by
  constructor <;> simp

end Ctldl
