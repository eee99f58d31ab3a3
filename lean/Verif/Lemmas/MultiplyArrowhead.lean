import Verif.Lemmas.MultiplyRepeating

/-! # Lemmas on the multiplication with tridiagonal arrowhead linked matrices -/

namespace Ctldl

open Finset

variable {K : Type}

theorem sum_blocks [AddCommMonoid K] (N : Nat) (F : Blk → K) :
    ∑ b ∈ blocks N, F b = F .start + ∑ t ∈ range (N + 1), F (.tridiag t) + F .link + F .outer := by
  unfold blocks
  rw [sum_union (by simp [disjoint_left]), sum_union (by simp [disjoint_left]), sum_union (by simp [disjoint_left]),
    sum_image (by intro a _ b _ h; exact Blk.tridiag.inj h)]
  simp

theorem mem_blocks {N : Nat} {b : Blk} : b ∈ blocks N ↔ ∀ t, b = .tridiag t → t < N + 1 := by
  unfold blocks
  cases b <;> simp [Nat.lt_succ_iff]

/-- The values computed by `multiplyArrowheadLinked`. -/
theorem multiplyArrowhead_values [Semiring K] {m : ArrowheadMatrix K} {x rhs : ArrowheadVector K} {d : Dims} {N : Nat}
    (hm : m.OfSize d N) (hx : x.OfSize d N) (hr : rhs.OfSize d N) :
    ∃ v, multiplyArrowheadLinked m x rhs = .ok v ∧ v.OfSize d N ∧
      (∀ i, v.start.getD i 0 = rhs.start.getD i 0 + (blockProduct .symmetric m.startDiag x.start i +
        blockProduct .transposed m.startNext (x.tridiag.getD 0 []) i +
        blockProduct .transposed m.startOuter x.outer i)) ∧
      (∀ t < N + 1, ∀ i, blockAt v.tridiag t i = blockAt rhs.tridiag t i +
        ((if t = 0 then blockProduct .normal m.startNext x.start i else 0) +
        blockProduct .symmetric (m.tridiagDiag.getD t (.empty K)) (x.tridiag.getD t []) i +
        (if 0 < t then blockProduct .normal (m.tridiagSubdiag.getD (t - 1) (.empty K)) (x.tridiag.getD (t - 1) []) i
          else 0) +
        (if t < N then blockProduct .transposed (m.tridiagSubdiag.getD t (.empty K)) (x.tridiag.getD (t + 1) []) i
          else 0) +
        blockProduct .transposed (m.outerSubdiag.getD t (.empty K)) x.outer i +
        (if t = N then blockProduct .transposed m.linkPrev x.link i else 0))) ∧
      (∀ i, v.link.getD i 0 = rhs.link.getD i 0 + (blockProduct .normal m.linkPrev (x.tridiag.getD N []) i +
        blockProduct .transposed m.linkNext x.outer i + blockProduct .symmetric m.linkDiag x.link i)) ∧
      (∀ i, v.outer.getD i 0 = rhs.outer.getD i 0 +
        (∑ t ∈ range (N + 1), blockProduct .normal (m.outerSubdiag.getD t (.empty K)) (x.tridiag.getD t []) i +
        blockProduct .normal m.startOuter x.start i + blockProduct .normal m.linkNext x.link i +
        blockProduct .symmetric m.outerDiag x.outer i)) := by
  have hxt : ∀ t < N + 1, (x.tridiag.getD t []).length = d.tridiag :=
    fun t ht => hx.tridiag _ (getD_mem (by rw [hx.num]; exact ht) _)
  have hrt : ∀ t < N + 1, (rhs.tridiag.getD t []).length = d.tridiag :=
    fun t ht => hr.tridiag _ (getD_mem (by rw [hr.num]; exact ht) _)
  have hO : ∀ t < N + 1, (m.outerSubdiag.getD t (.empty K)).OfSize d.outer d.tridiag :=
    fun t ht => hm.outerSubdiag _ (getD_mem (by rw [hm.numOuter]; exact ht) _)
  unfold multiplyArrowheadLinked
  -- start
  obtain ⟨s1, a1, a2, a3⟩ := multiply_sat (kind := .symmetric) (m := m.startDiag) (x := x.start) (rhs := rhs.start)
    (by rw [hr.start, hx.start]; exact hm.startDiag.fits_symmetric)
  rw [a1, ok_bind, rd_getD_of_lt (by rw [hx.num]; omega) [], ok_bind]
  obtain ⟨s2, b1, b2, b3⟩ := multiply_sat (kind := .transposed) (m := m.startNext) (x := x.tridiag.getD 0 [])
    (rhs := s1) (by rw [a2, hr.start, hxt 0 (by omega)]; exact hm.startNext.fits_transposed)
  rw [b1, ok_bind]
  obtain ⟨s3, c1, c2, c3⟩ := multiply_sat (kind := .transposed) (m := m.startOuter) (x := x.outer)
    (rhs := s2) (by rw [b2, a2, hr.start, hx.outer]; exact hm.startOuter.fits_transposed)
  rw [c1, ok_bind]
  -- tridiagonal
  obtain ⟨t1, d1, d2, d3, d4⟩ := multiplyInto_sat' (kind := .normal) (m := m.startNext) (x := x.start)
    (Nat.succ_pos N) hr.num hrt (by rw [hx.start]; exact hm.startNext.fits_normal)
  rw [d1, ok_bind]
  obtain ⟨t2, e1, e2, e3, e4⟩ := multiplyTridiagonal_sat (A := m.tridiagDiag) (B := m.tridiagSubdiag)
    (x := x.tridiag) ⟨hm.numDiag, hm.numSubdiag, hx.num, hm.tridiagDiag, hm.tridiagSubdiag, hx.tridiag⟩ d2 d3
  rw [e1, ok_bind]
  simp only [hm.numSubdiag]
  -- outer subdiagonal
  obtain ⟨⟨t3, o1⟩, f1, f2, f3, f4, f5, f6⟩ := foldlM_range_inv (n := N + 1) (init := (t2, rhs.outer))
    (f := (fun (st : List (List K) × List K) i => do
      let tridiag ← multiplyInto .transposed (← rd m.outerSubdiag i) x.outer st.1 i
      let outer ← multiply .normal (← rd m.outerSubdiag i) (← rd x.tridiag i) st.2
      return (tridiag, outer)))
    (fun k st => st.1.length = N + 1 ∧ (∀ t < N + 1, (st.1.getD t []).length = d.tridiag) ∧
      st.2.length = d.outer ∧
      (∀ t i, blockAt st.1 t i = blockAt t2 t i +
        (if t < k then blockProduct .transposed (m.outerSubdiag.getD t (.empty K)) x.outer i else 0)) ∧
      (∀ i, st.2.getD i 0 = rhs.outer.getD i 0 +
        ∑ t ∈ range k, blockProduct .normal (m.outerSubdiag.getD t (.empty K)) (x.tridiag.getD t []) i))
    ⟨e2, e3, hr.outer, by simp, by simp⟩
    (fun k st hk ⟨k1, k2, k3, k4, k5⟩ => by
      rw [rd_getD_of_lt (by rw [hm.numOuter]; omega) (.empty K), ok_bind]
      obtain ⟨v1, p1, p2, p3, p4⟩ := multiplyInto_sat' (kind := .transposed) (x := x.outer) hk k1 k2
        (by rw [hx.outer]; exact (hO k hk).fits_transposed)
      rw [p1, ok_bind, ok_bind, rd_getD_of_lt (by rw [hx.num]; omega) [], ok_bind]
      obtain ⟨v2, q1, q2, q3⟩ := multiply_sat (kind := .normal) (x := x.tridiag.getD k []) (rhs := st.2)
        (by rw [k3, hxt k hk]; exact (hO k hk).fits_normal)
      rw [q1, ok_bind]
      refine ⟨_, rfl, p2, p3, q2.trans k3, fun t i => ?_, fun i => ?_⟩
      · rw [p4, k4]
        rcases lt_trichotomy t k with hlt | heq | hgt
        · simp [hlt, show t ≠ k by omega, show t < k + 1 by omega]
        · subst heq; simp
        · simp [show ¬ t < k by omega, show ¬ t < k + 1 by omega, show t ≠ k by omega]
      · rw [q3, k5, sum_range_succ, add_assoc]
        rfl)
  rw [f1, ok_bind]
  -- link
  obtain ⟨t4, g1, g2, g3, g4⟩ := multiplyInto_sat' (kind := .transposed) (m := m.linkPrev) (x := x.link)
    (Nat.lt_succ_self N) f2 f3 (by rw [hx.link]; exact hm.linkPrev.fits_transposed)
  simp only
  rw [g1, ok_bind, rd_getD_of_lt (by rw [hx.num]; omega) [], ok_bind]
  obtain ⟨l1, h1, h2, h3⟩ := multiply_sat (kind := .normal) (m := m.linkPrev) (x := x.tridiag.getD N [])
    (rhs := rhs.link) (by rw [hr.link, hxt N (by omega)]; exact hm.linkPrev.fits_normal)
  rw [h1, ok_bind]
  obtain ⟨l2, i1, i2, i3⟩ := multiply_sat (kind := .transposed) (m := m.linkNext) (x := x.outer)
    (rhs := l1) (by rw [h2, hr.link, hx.outer]; exact hm.linkNext.fits_transposed)
  rw [i1, ok_bind]
  obtain ⟨l3, j1, j2, j3⟩ := multiply_sat (kind := .symmetric) (m := m.linkDiag) (x := x.link)
    (rhs := l2) (by rw [i2, h2, hr.link, hx.link]; exact hm.linkDiag.fits_symmetric)
  rw [j1, ok_bind]
  -- outer
  simp only at f4 f6
  obtain ⟨o2, k1, k2, k3⟩ := multiply_sat (kind := .normal) (m := m.startOuter) (x := x.start)
    (rhs := o1) (by rw [f4, hx.start]; exact hm.startOuter.fits_normal)
  rw [k1, ok_bind]
  obtain ⟨o3, p1, p2, p3⟩ := multiply_sat (kind := .normal) (m := m.linkNext) (x := x.link)
    (rhs := o2) (by rw [k2, f4, hx.link]; exact hm.linkNext.fits_normal)
  rw [p1, ok_bind]
  obtain ⟨o4, q1, q2, q3⟩ := multiply_sat (kind := .symmetric) (m := m.outerDiag) (x := x.outer)
    (rhs := o3) (by rw [p2, k2, f4, hx.outer]; exact hm.outerDiag.fits_symmetric)
  rw [q1, ok_bind]
  refine ⟨_, rfl, ⟨g2, c2.trans (b2.trans (a2.trans hr.start)), ?_,
    j2.trans (i2.trans (h2.trans hr.link)), q2.trans (p2.trans (k2.trans f4))⟩,
    fun i => ?_, fun t ht i => ?_, fun i => ?_, fun i => ?_⟩
  · intro b hb
    obtain ⟨t, ht, rfl⟩ := List.mem_iff_getElem.mp hb
    have := g3 t (by rw [← g2]; exact ht)
    rwa [← getElem_eq_getD ht] at this
  · simp only
    rw [c3, b3, a3, ← add_assoc, ← add_assoc]
    rfl
  · simp only
    rw [g4, f5, e4 t ht, d4, if_pos ht]
    abel
  · simp only
    rw [j3, i3, h3, ← add_assoc, ← add_assoc]
    rfl
  · simp only
    rw [q3, p3, k3, f6, ← add_assoc, ← add_assoc, ← add_assoc]
    rfl

/-- The multiplication adds the product with the assembled symmetric matrix. -/
theorem multiplyArrowhead_sat [Semiring K] {m : ArrowheadMatrix K} {x rhs : ArrowheadVector K} {d : Dims} {N : Nat}
    (hm : m.OfSize d N) (hx : x.OfSize d N) (hr : rhs.OfSize d N) :
    ∃ v, multiplyArrowheadLinked m x rhs = .ok v ∧ v.OfSize d N ∧ ∀ a ∈ blocks N, ∀ i,
      v.at a i = rhs.at a i + ∑ b ∈ blocks N, ∑ j ∈ range (d.of b), m.denseElement N a b i j * x.at b j := by
  obtain ⟨v, h1, h2, h3, h4, h5, h6⟩ := multiplyArrowhead_values hm hx hr
  refine ⟨v, h1, h2, fun a ha i => ?_⟩
  have hxt : ∀ t < N + 1, (x.tridiag.getD t []).length = d.tridiag :=
    fun t ht => hx.tridiag _ (getD_mem (by rw [hx.num]; exact ht) _)
  have hsub : ∀ t < N, m.tridiagSubdiag[t]? = some (m.tridiagSubdiag.getD t (.empty K)) := fun t ht => by
    rw [← getElem_eq_getD (by rw [hm.numSubdiag]; exact ht), List.getElem?_eq_getElem]
  have hout : ∀ t < N + 1, m.outerSubdiag[t]? = some (m.outerSubdiag.getD t (.empty K)) := fun t ht => by
    rw [← getElem_eq_getD (by rw [hm.numOuter]; exact ht), List.getElem?_eq_getElem]
  rw [sum_blocks]
  cases a with
  | start =>
    rw [show v.at .start i = v.start.getD i 0 from rfl, h3]
    have hs : ∑ t ∈ range (N + 1), ∑ j ∈ range (d.of (.tridiag t)),
        m.denseElement N .start (.tridiag t) i j * x.at (.tridiag t) j =
        ∑ j ∈ range (d.of (.tridiag 0)), m.denseElement N .start (.tridiag 0) i j * x.at (.tridiag 0) j := by
      refine sum_eq_single 0 (fun t _ ht => ?_) (by simp)
      obtain ⟨u, rfl⟩ := Nat.exists_eq_succ_of_ne_zero ht
      refine sum_eq_zero fun j _ => ?_
      simp [ArrowheadMatrix.denseElement, assembledElement, ArrowheadMatrix.lowerBlock]
    rw [hs]
    simp only [ArrowheadMatrix.denseElement, assembledElement, ArrowheadMatrix.lowerBlock, ArrowheadMatrix.diagBlock,
      Option.map_some, Option.map_none, reduceCtorEq, if_true, if_false, Dims.of, ArrowheadVector.at, blockProduct,
      hx.start, hx.outer, hxt 0 (by omega), MultiplyKind.element, zero_mul, sum_const_zero, add_zero, blockAt]
  | link =>
    rw [show v.at .link i = v.link.getD i 0 from rfl, h5]
    have hs : ∑ t ∈ range (N + 1), ∑ j ∈ range (d.of (.tridiag t)),
        m.denseElement N .link (.tridiag t) i j * x.at (.tridiag t) j =
        ∑ j ∈ range (d.of (.tridiag N)), m.denseElement N .link (.tridiag N) i j * x.at (.tridiag N) j := by
      refine sum_eq_single N (fun t _ ht => ?_) (by simp)
      refine sum_eq_zero fun j _ => ?_
      have h1 : m.lowerBlock N (.tridiag t) .link = none := by cases t <;> rfl
      simp [ArrowheadMatrix.denseElement, assembledElement, h1]
      simp [ArrowheadMatrix.lowerBlock, ht]
    rw [hs]
    simp only [ArrowheadMatrix.denseElement, assembledElement, ArrowheadMatrix.lowerBlock, ArrowheadMatrix.diagBlock,
      Option.map_some, Option.map_none, reduceCtorEq, if_true, if_false, Dims.of, ArrowheadVector.at, blockProduct,
      hx.link, hx.outer, hxt N (by omega), MultiplyKind.element, zero_mul, sum_const_zero, zero_add, blockAt]
    abel
  | outer =>
    rw [show v.at .outer i = v.outer.getD i 0 from rfl, h6]
    have : ∀ t ∈ range (N + 1), ∑ j ∈ range (d.of (.tridiag t)),
        m.denseElement N .outer (.tridiag t) i j * x.at (.tridiag t) j =
        blockProduct .normal (m.outerSubdiag.getD t (.empty K)) (x.tridiag.getD t []) i := by
      intro t ht
      have ht' : t < N + 1 := by simpa using ht
      simp only [ArrowheadMatrix.denseElement, assembledElement, ArrowheadMatrix.lowerBlock,
        reduceCtorEq, if_false, Dims.of, ArrowheadVector.at, blockProduct,
        hxt t ht', MultiplyKind.element, blockAt, show t ≤ N by omega, if_true, hout t ht', Option.map_some]
    rw [sum_congr rfl this]
    simp only [ArrowheadMatrix.denseElement, assembledElement, ArrowheadMatrix.lowerBlock, ArrowheadMatrix.diagBlock,
      Option.map_some, reduceCtorEq, if_true, if_false, Dims.of, ArrowheadVector.at, blockProduct,
      hx.link, hx.outer, hx.start, MultiplyKind.element]
    abel
  | tridiag t =>
    have ht : t < N + 1 := mem_blocks.mp ha t rfl
    rw [show v.at (.tridiag t) i = blockAt v.tridiag t i from rfl, h4 t ht]
    have hterm : ∀ u ∈ range (N + 1), ∑ j ∈ range (d.of (.tridiag u)),
        m.denseElement N (.tridiag t) (.tridiag u) i j * x.at (.tridiag u) j =
        (if u = t then blockProduct .symmetric (m.tridiagDiag.getD t (.empty K)) (x.tridiag.getD t []) i else 0) +
        (if u + 1 = t then blockProduct .normal (m.tridiagSubdiag.getD u (.empty K)) (x.tridiag.getD u []) i
          else 0) +
        (if u = t + 1 then blockProduct .transposed (m.tridiagSubdiag.getD t (.empty K)) (x.tridiag.getD u []) i
          else 0) := by
      intro u hu
      have hu' : u < N + 1 := by simpa using hu
      have hlow : ∀ p q, p < N + 1 → m.lowerBlock N (.tridiag p) (.tridiag q) =
          if q + 1 = p then some (m.tridiagSubdiag.getD q (.empty K)) else none := by
        intro p q hp
        cases p with
        | zero => simp [ArrowheadMatrix.lowerBlock]
        | succ p =>
          simp only [ArrowheadMatrix.lowerBlock]
          by_cases hq : q = p
          · subst hq
            rw [if_pos ⟨rfl, by omega⟩, hsub q (by omega), if_pos rfl]
          · rw [if_neg (by rintro ⟨h, -⟩; exact hq h), if_neg (by omega)]
      simp only [ArrowheadMatrix.denseElement, assembledElement, hlow t u ht, hlow u t hu',
        ArrowheadMatrix.diagBlock, Blk.tridiag.injEq, Dims.of, ArrowheadVector.at, blockProduct,
        hxt t ht, hxt u hu', MultiplyKind.element, blockAt]
      by_cases e1 : t = u
      · subst e1
        simp
      · by_cases e2 : u + 1 = t
        · subst e2
          simp [show ¬ u = u + 1 + 1 by omega]
        · by_cases e3 : u = t + 1
          · subst e3
            simp [show ¬ t + 1 + 1 = t by omega]
          · simp [e1, e2, e3, show ¬ u = t by omega, show ¬ t + 1 = u by omega]
    rw [sum_congr rfl hterm, sum_add_distrib, sum_add_distrib, sum_ite_eq' (range (N + 1)) t, if_pos (mem_range.mpr ht),
      sum_ite_eq' (range (N + 1)) (t + 1)]
    have hprev : ∑ u ∈ range (N + 1),
        (if u + 1 = t then blockProduct .normal (m.tridiagSubdiag.getD u (.empty K)) (x.tridiag.getD u []) i else 0) =
        if 0 < t then blockProduct .normal (m.tridiagSubdiag.getD (t - 1) (.empty K)) (x.tridiag.getD (t - 1) []) i
          else 0 := by
      cases t with
      | zero => simp
      | succ t =>
        simp only [Nat.add_right_cancel_iff]
        rw [sum_ite_eq' (range (N + 1)) t, if_pos (by simp; omega), if_pos (by omega)]
        rfl
    rw [hprev]
    have hcond : (t + 1 ∈ range (N + 1)) ↔ t < N := by simp
    simp only [hcond]
    have hstart : ∑ j ∈ range (d.of .start), m.denseElement N (.tridiag t) .start i j * x.at .start j =
        if t = 0 then blockProduct .normal m.startNext x.start i else 0 := by
      cases t with
      | zero =>
        simp only [ArrowheadMatrix.denseElement, assembledElement, ArrowheadMatrix.lowerBlock, Option.map_some,
          reduceCtorEq, if_true, if_false, Dims.of, ArrowheadVector.at, blockProduct, hx.start, MultiplyKind.element]
      | succ t =>
        simp [ArrowheadMatrix.denseElement, assembledElement, ArrowheadMatrix.lowerBlock]
    have hlink : ∑ j ∈ range (d.of .link), m.denseElement N (.tridiag t) .link i j * x.at .link j =
        if t = N then blockProduct .transposed m.linkPrev x.link i else 0 := by
      have hnone : m.lowerBlock N (.tridiag t) .link = none := by cases t <;> rfl
      simp only [ArrowheadMatrix.denseElement, assembledElement, hnone, Option.map_none]
      by_cases htN : t = N
      · simp only [ArrowheadMatrix.lowerBlock, htN, if_true, Option.map_some, reduceCtorEq, if_false, Dims.of,
          ArrowheadVector.at, blockProduct, hx.link, MultiplyKind.element]
      · simp [ArrowheadMatrix.lowerBlock, htN]
    have houter : ∑ j ∈ range (d.of .outer), m.denseElement N (.tridiag t) .outer i j * x.at .outer j =
        blockProduct .transposed (m.outerSubdiag.getD t (.empty K)) x.outer i := by
      have hnone : m.lowerBlock N (.tridiag t) .outer = none := by cases t <;> rfl
      simp only [ArrowheadMatrix.denseElement, assembledElement, hnone, Option.map_none,
        ArrowheadMatrix.lowerBlock, show t ≤ N by omega, if_true, hout t ht, Option.map_some, reduceCtorEq, if_false,
        Dims.of, ArrowheadVector.at, blockProduct, hx.outer, MultiplyKind.element]
    rw [hstart, hlink, houter]
    simp only [ArrowheadVector.at]
    abel

end Ctldl
