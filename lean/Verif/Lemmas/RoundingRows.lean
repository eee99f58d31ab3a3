import Verif.Lemmas.Rounding
import Verif.Lemmas.Chain

/-! # Rounding errors of the rows of a factorization -/

namespace Ctldl

open Finset

namespace Rounding

variable {K F : Type} [Zero K] [Sub K] [Mul K] [Div K] [Field F] [LinearOrder F] [IsStrictOrderedRing F]
variable {R : Rounding K F}

/-- Entries are stored numbers, and the underflow errors of a term with an entry are bounded. -/
def Small (R : Rounding K F) (ε : F) (c : Csr) (l : Nat → Nat → K) (d : Nat → K) : Prop :=
  ∀ j k, c.Has j k → R.stored (l j k) ∧ R.η * (1 + |R.v (d k)| * (1 + |R.v (l j k)|)) ≤ ε

theorem Small.pivot {ε : F} {c : Csr} {l : Nat → Nat → K} {d : Nat → K} (h : R.Small ε c l d) {j k : Nat}
    (hjk : c.Has j k) : R.η * |R.v (d k)| ≤ ε := by
  refine le_trans ?_ (h j k hjk).2
  have h1 := mul_nonneg R.η_nonneg (mul_nonneg (abs_nonneg (R.v (d k))) (abs_nonneg (R.v (l j k))))
  have h2 := R.η_nonneg
  linarith

/-- Errors of the input of row `i`, in terms of the stored numbers: list form, on the patterns. -/
structure ApxEntries (R : Rounding K F) (ε : F) (c11 c21 c22 : Csr) (l11 : Nat → Nat → K) (d1 : Nat → K)
    (a21 a22 : Nat → Nat → K) (aD : Nat → K) (l21 l22 : Nat → Nat → K) (d2 : Nat → K) (x : K) (i : Nat) : Prop where
  f21 : ∀ j, c21.Has i j → R.fin (a21 i j)
  f22 : ∀ j, c22.Has i j → R.fin (a22 i j)
  fD : R.fin (aD i)
  g21 : ∀ j, c21.Has i j → R.fin (l21 i j)
  g22 : ∀ j, c22.Has i j → R.fin (l22 i j)
  e21 : ∀ j, c21.Has i j → R.Apx (2 + ((c21.cols i).filter (c11.Has j ·)).length) (R.v (a21 i j))
    (R.v (l21 i j) * R.v (d1 j) +
      (((c21.cols i).filter (c11.Has j ·)).map fun k => R.v (l21 i k) * R.v (d1 k) * R.v (l11 j k)).sum)
    (|R.v (l21 i j)| * |R.v (d1 j)| +
      (((c21.cols i).filter (c11.Has j ·)).map fun k => |R.v (l21 i k)| * |R.v (d1 k)| * |R.v (l11 j k)|).sum)
    (ε + ((c21.cols i).filter (c11.Has j ·)).length * ε)
  e22 : ∀ j, c22.Has i j → R.Apx
    (2 + ((c22.cols i).filter (c22.Has j ·)).length + ((c21.cols i).filter (c21.Has j ·)).length) (R.v (a22 i j))
    (R.v (l22 i j) * R.v (d2 j) +
      (((c22.cols i).filter (c22.Has j ·)).map fun k => R.v (l22 i k) * R.v (d2 k) * R.v (l22 j k)).sum +
      (((c21.cols i).filter (c21.Has j ·)).map fun k => R.v (l21 i k) * R.v (d1 k) * R.v (l21 j k)).sum)
    (|R.v (l22 i j)| * |R.v (d2 j)| +
      (((c22.cols i).filter (c22.Has j ·)).map fun k => |R.v (l22 i k)| * |R.v (d2 k)| * |R.v (l22 j k)|).sum +
      (((c21.cols i).filter (c21.Has j ·)).map fun k => |R.v (l21 i k)| * |R.v (d1 k)| * |R.v (l21 j k)|).sum)
    (ε + ((c22.cols i).filter (c22.Has j ·)).length * ε + ((c21.cols i).filter (c21.Has j ·)).length * ε)
  eD : R.Apx (2 + (c22.cols i).length + (c21.cols i).length) (R.v (aD i))
    (R.v x + ((c22.cols i).map fun k => R.v (l22 i k) * R.v (d2 k) * R.v (l22 i k)).sum +
      ((c21.cols i).map fun k => R.v (l21 i k) * R.v (d1 k) * R.v (l21 i k)).sum)
    (|R.v x| + ((c22.cols i).map fun k => |R.v (l22 i k)| * |R.v (d2 k)| * |R.v (l22 i k)|).sum +
      ((c21.cols i).map fun k => |R.v (l21 i k)| * |R.v (d1 k)| * |R.v (l21 i k)|).sum)
    (0 + (c22.cols i).length * ε + (c21.cols i).length * ε)

theorem apxEntries_up {ε : F} {c11 c21 c22 : Csr} {l11 : Nat → Nat → K} {d1 : Nat → K} {a21 a22 : Nat → Nat → K}
    {aD : Nat → K} {reg : K → Nat → K} {l21 l22 : Nat → Nat → K} {d2 : Nat → K} {i : Nat}
    (h : UpRow c11 c21 c22 l11 d1 a21 a22 aD reg l21 l22 d2 i)
    (hd1 : ∀ j, c21.Has i j → R.fin (d1 j)) (hd2 : ∀ j, c22.Has i j → R.fin (d2 j))
    (s11 : R.Small ε c11 l11 d1) (s21 : R.Small ε c21 l21 d1) (s22 : R.Small ε c22 l22 d2) :
    ∃ x, d2 i = reg x i ∧ (R.fin x → R.ApxEntries ε c11 c21 c22 l11 d1 a21 a22 aD l21 l22 d2 x i) := by
  obtain ⟨w1, w2, h1, h2, h3, h4, h5⟩ := h
  refine ⟨_, h5, fun hx => ?_⟩
  obtain ⟨x, hxe⟩ : ∃ x, x = subAll (c22.cols i) (fun j => w2 j * (w2 j / d2 j))
      (subAll (c21.cols i) (fun j => w1 j * (w1 j / d1 j)) (aD i)) := ⟨_, rfl⟩
  rw [← hxe] at hx ⊢
  obtain ⟨y, hye⟩ : ∃ y, y = subAll (c21.cols i) (fun j => w1 j * (w1 j / d1 j)) (aD i) := ⟨_, rfl⟩
  rw [← hye] at hxe
  obtain ⟨p1, p2, p3⟩ := apx_subAll_const hxe hx
  obtain ⟨q1, q2, q3⟩ := apx_subAll_const hye p1
  have g21 : ∀ j, c21.Has i j → R.fin (w1 j / d1 j) := fun j hj => (R.fin_mul (q2 j (Csr.mem_cols.mpr hj))).2
  have g22 : ∀ j, c22.Has i j → R.fin (w2 j / d2 j) := fun j hj => (R.fin_mul (p2 j (Csr.mem_cols.mpr hj))).2
  have m1 : ∀ j, c21.Has i j → R.fin (w1 j) ∧
      R.Apx 1 (R.v (w1 j)) (R.v (l21 i j) * R.v (d1 j)) (|R.v (l21 i j)| * |R.v (d1 j)|) (R.η * |R.v (d1 j)|) := by
    intro j hj
    rw [h2 j hj]
    exact apx_div (hd1 j hj) (g21 j hj)
  have m2 : ∀ j, c22.Has i j → R.fin (w2 j) ∧
      R.Apx 1 (R.v (w2 j)) (R.v (l22 i j) * R.v (d2 j)) (|R.v (l22 i j)| * |R.v (d2 j)|) (R.η * |R.v (d2 j)|) := by
    intro j hj
    rw [h4 j hj]
    exact apx_div (hd2 j hj) (g22 j hj)
  have t1 : ∀ {c k}, c21.Has i k → R.fin (c * w1 k) → R.stored c ∧ R.η * (1 + |R.v (d1 k)| * (1 + |R.v c|)) ≤ ε →
      R.Apx 2 (R.v (c * w1 k)) (R.v (l21 i k) * R.v (d1 k) * R.v c) (|R.v (l21 i k)| * |R.v (d1 k)| * |R.v c|)
        (ε - R.σ) := by
    intro c k hk hf hε
    rw [h2 k hk]
    exact apx_mul_num hε.1 (hd1 k hk) (g21 k hk) hf hε.2
  have t2 : ∀ {c k}, c22.Has i k → R.fin (c * w2 k) → R.stored c ∧ R.η * (1 + |R.v (d2 k)| * (1 + |R.v c|)) ≤ ε →
      R.Apx 2 (R.v (c * w2 k)) (R.v (l22 i k) * R.v (d2 k) * R.v c) (|R.v (l22 i k)| * |R.v (d2 k)| * |R.v c|)
        (ε - R.σ) := by
    intro c k hk hf hε
    rw [h4 k hk]
    exact apx_mul_num hε.1 (hd2 k hk) (g22 k hk) hf hε.2
  have c1 := fun j hj => apx_subAll_const (h1 j hj) (m1 j hj).1
  obtain ⟨z, hz⟩ : ∃ z : Nat → K, ∀ j, z j = subAll ((c21.cols i).filter (c21.Has j ·)) (fun k => l21 j k * w1 k)
    (a22 i j) := ⟨_, fun _ => rfl⟩
  have c2 := fun j hj => apx_subAll_const (a := z j) (by rw [hz]; exact h3 j hj) (m2 j hj).1
  have c3 := fun j hj => apx_subAll_const (hz j) (c2 j hj).1
  refine ⟨fun j hj => (c1 j hj).1, fun j hj => (c3 j hj).1, q1, fun j hj => by rw [h2 j hj]; exact g21 j hj,
    fun j hj => by rw [h4 j hj]; exact g22 j hj, ?_, ?_, ?_⟩
  · intro j hj
    refine (c1 j hj).2.2 ((m1 j hj).2.mono (by omega) le_rfl (s21.pivot hj)) fun k hk => ?_
    have hk' := List.mem_filter.mp hk
    exact t1 (Csr.mem_cols.mp hk'.1) ((c1 j hj).2.1 k hk) (s11 j k (by simpa using hk'.2))
  · intro j hj
    refine (c3 j hj).2.2 ((c2 j hj).2.2 ((m2 j hj).2.mono (by omega) le_rfl (s22.pivot hj)) fun k hk => ?_)
      fun k hk => ?_
    · have hk' := List.mem_filter.mp hk
      exact t2 (Csr.mem_cols.mp hk'.1) ((c2 j hj).2.1 k hk) (s22 j k (by simpa using hk'.2))
    · have hk' := List.mem_filter.mp hk
      exact (t1 (Csr.mem_cols.mp hk'.1) ((c3 j hj).2.1 k hk) (s21 j k (by simpa using hk'.2))).le (by omega)
  · refine q3 (p3 (Apx.refl 2 _) fun k hk => ?_) fun k hk => ?_
    · have hh := Csr.mem_cols.mp hk
      have := s22 i k hh
      rw [h4 k hh] at this ⊢
      exact apx_num_mul (hd2 k hh) (g22 k hh) (p2 k hk) this.2
    · have hh := Csr.mem_cols.mp hk
      have := s21 i k hh
      rw [h2 k hh] at this ⊢
      exact (apx_num_mul (hd1 k hh) (g21 k hh) (q2 k hk) this.2).le (by omega)

theorem apxEntries_entry {ε : F} {c11 c21 c22 : Csr} {l11 : Nat → Nat → K} {d1 : Nat → K} {a21 a22 : Nat → Nat → K}
    {aD : Nat → K} {reg : K → Nat → K} {l21 l22 : Nat → Nat → K} {d2 : Nat → K} {i : Nat}
    (h : EntryRow c11 c21 c22 l11 d1 a21 a22 aD reg l21 l22 d2 i)
    (hd1 : ∀ j, c21.Has i j → R.fin (d1 j)) (hd2 : ∀ j, c22.Has i j → R.fin (d2 j))
    (s11 : R.Small ε c11 l11 d1) (s21 : R.Small ε c21 l21 d1) (s22 : R.Small ε c22 l22 d2) :
    ∃ x, d2 i = reg x i ∧ (R.fin x → R.ApxEntries ε c11 c21 c22 l11 d1 a21 a22 aD l21 l22 d2 x i) := by
  obtain ⟨h1, h3, h5⟩ := h
  refine ⟨_, h5, fun hx => ?_⟩
  obtain ⟨x, hxe⟩ : ∃ x, x = subAll (c22.cols i) (fun j => (l22 i j * l22 i j) * d2 j)
      (subAll (c21.cols i) (fun j => (l21 i j * l21 i j) * d1 j) (aD i)) := ⟨_, rfl⟩
  rw [← hxe] at hx ⊢
  obtain ⟨y, hye⟩ : ∃ y, y = subAll (c21.cols i) (fun j => (l21 i j * l21 i j) * d1 j) (aD i) := ⟨_, rfl⟩
  rw [← hye] at hxe
  obtain ⟨p1, p2, p3⟩ := apx_subAll_const hxe hx
  obtain ⟨q1, q2, q3⟩ := apx_subAll_const hye p1
  have t1 : ∀ j, c21.Has i j → _ := fun j hj => apx_mul_mul (s21 i j hj).1 (q2 j (Csr.mem_cols.mpr hj)) (s21 i j hj).2
  have t2 : ∀ j, c22.Has i j → _ := fun j hj => apx_mul_mul (s22 i j hj).1 (p2 j (Csr.mem_cols.mpr hj)) (s22 i j hj).2
  obtain ⟨w1, hw1⟩ : ∃ w1 : Nat → K, ∀ j, w1 j = subAll ((c21.cols i).filter (c11.Has j ·))
    (fun k => l21 i k * l11 j k * d1 k) (a21 i j) := ⟨_, fun _ => rfl⟩
  obtain ⟨z, hz⟩ : ∃ z : Nat → K, ∀ j, z j = subAll ((c21.cols i).filter (c21.Has j ·))
    (fun k => l21 i k * l21 j k * d1 k) (a22 i j) := ⟨_, fun _ => rfl⟩
  obtain ⟨w2, hw2⟩ : ∃ w2 : Nat → K, ∀ j, w2 j = subAll ((c22.cols i).filter (c22.Has j ·))
    (fun k => l22 i k * l22 j k * d2 k) (z j) := ⟨_, fun _ => rfl⟩
  have l1 : ∀ j, c21.Has i j → l21 i j = w1 j / d1 j := fun j hj => by
    rw [hw1]; exact h1 j hj
  have l2 : ∀ j, c22.Has i j → l22 i j = w2 j / d2 j := fun j hj => by
    rw [hw2, hz]; exact h3 j hj
  have m1 : ∀ j, c21.Has i j → R.fin (w1 j) ∧
      R.Apx 1 (R.v (w1 j)) (R.v (l21 i j) * R.v (d1 j)) (|R.v (l21 i j)| * |R.v (d1 j)|) (R.η * |R.v (d1 j)|) := by
    intro j hj
    have := (t1 j hj).1
    rw [l1 j hj] at this ⊢
    exact apx_div (hd1 j hj) this
  have m2 : ∀ j, c22.Has i j → R.fin (w2 j) ∧
      R.Apx 1 (R.v (w2 j)) (R.v (l22 i j) * R.v (d2 j)) (|R.v (l22 i j)| * |R.v (d2 j)|) (R.η * |R.v (d2 j)|) := by
    intro j hj
    have := (t2 j hj).1
    rw [l2 j hj] at this ⊢
    exact apx_div (hd2 j hj) this
  have c1 := fun j hj => apx_subAll_const (hw1 j) (m1 j hj).1
  have c2 := fun j hj => apx_subAll_const (hw2 j) (m2 j hj).1
  have c3 := fun j hj => apx_subAll_const (hz j) (c2 j hj).1
  refine ⟨fun j hj => (c1 j hj).1, fun j hj => (c3 j hj).1, q1, fun j hj => (t1 j hj).1,
    fun j hj => (t2 j hj).1, ?_, ?_, ?_⟩
  · intro j hj
    refine (c1 j hj).2.2 ((m1 j hj).2.mono (by omega) le_rfl (s21.pivot hj)) fun k hk => ?_
    have hk' := List.mem_filter.mp hk
    exact (apx_mul_mul (s21 i k (Csr.mem_cols.mp hk'.1)).1 ((c1 j hj).2.1 k hk) (s11 j k (by simpa using hk'.2)).2).2.2
  · intro j hj
    refine (c3 j hj).2.2 ((c2 j hj).2.2 ((m2 j hj).2.mono (by omega) le_rfl (s22.pivot hj)) fun k hk => ?_)
      fun k hk => ?_
    · have hk' := List.mem_filter.mp hk
      exact (apx_mul_mul (s22 i k (Csr.mem_cols.mp hk'.1)).1 ((c2 j hj).2.1 k hk) (s22 j k (by simpa using hk'.2)).2).2.2
    · have hk' := List.mem_filter.mp hk
      exact (apx_mul_mul (s21 i k (Csr.mem_cols.mp hk'.1)).1 ((c3 j hj).2.1 k hk)
        (s21 j k (by simpa using hk'.2)).2).2.2.le (by omega)
  · refine q3 (p3 (Apx.refl 2 _) fun k hk => ?_) fun k hk => ?_
    · exact (t2 k (Csr.mem_cols.mp hk)).2.2
    · exact (t1 k (Csr.mem_cols.mp hk)).2.2.le (by omega)

theorem apxEntries_method {ε : F} {method : Method} {c11 c21 c22 : Csr} {l11 : Nat → Nat → K} {d1 : Nat → K}
    {a21 a22 : Nat → Nat → K} {aD : Nat → K} {reg : K → Nat → K} {l21 l22 : Nat → Nat → K} {d2 : Nat → K} {i : Nat}
    (h : MethodRow method c11 c21 c22 l11 d1 a21 a22 aD reg l21 l22 d2 i)
    (hd1 : ∀ j, c21.Has i j → R.fin (d1 j)) (hd2 : ∀ j, c22.Has i j → R.fin (d2 j))
    (s11 : R.Small ε c11 l11 d1) (s21 : R.Small ε c21 l21 d1) (s22 : R.Small ε c22 l22 d2) :
    ∃ x, d2 i = reg x i ∧ (R.fin x → R.ApxEntries ε c11 c21 c22 l11 d1 a21 a22 aD l21 l22 d2 x i) := by
  cases method with
  | upLooking => exact apxEntries_up h hd1 hd2 s11 s21 s22
  | entryWise => exact apxEntries_entry h hd1 hd2 s11 s21 s22

/-- Errors of the input of row `i` of a partial factorization: list form, on the patterns. -/
structure ApxPartial (R : Rounding K F) (ε : F) (c11 c21 c31 c32 c33 : Csr) (l11 l21 : Nat → Nat → K) (d1 : Nat → K)
    (a31 a32 a33 : Nat → Nat → K) (aD : Nat → K) (l31 l32 l33 : Nat → Nat → K) (d3 : Nat → K) (i : Nat) : Prop where
  f31 : ∀ j, c31.Has i j → R.fin (a31 i j)
  f32 : ∀ j, c32.Has i j → R.fin (l32 i j) → R.fin (a32 i j)
  f33 : ∀ j, c33.Has i j → R.fin (l33 i j) → R.fin (a33 i j)
  fD : R.fin (aD i)
  g31 : ∀ j, c31.Has i j → R.fin (l31 i j)
  e31 : ∀ j, c31.Has i j → R.Apx (2 + ((c31.cols i).filter (c11.Has j ·)).length) (R.v (a31 i j))
    (R.v (l31 i j) * R.v (d1 j) +
      (((c31.cols i).filter (c11.Has j ·)).map fun k => R.v (l31 i k) * R.v (d1 k) * R.v (l11 j k)).sum)
    (|R.v (l31 i j)| * |R.v (d1 j)| +
      (((c31.cols i).filter (c11.Has j ·)).map fun k => |R.v (l31 i k)| * |R.v (d1 k)| * |R.v (l11 j k)|).sum)
    (ε + ((c31.cols i).filter (c11.Has j ·)).length * ε)
  e32 : ∀ j, c32.Has i j → R.fin (l32 i j) → ∀ {m Y A E}, 2 ≤ m → R.Apx m (R.v (l32 i j)) Y A E →
    R.Apx (m + ((c31.cols i).filter (c21.Has j ·)).length) (R.v (a32 i j))
    (Y + (((c31.cols i).filter (c21.Has j ·)).map fun k => R.v (l31 i k) * R.v (d1 k) * R.v (l21 j k)).sum)
    (A + (((c31.cols i).filter (c21.Has j ·)).map fun k => |R.v (l31 i k)| * |R.v (d1 k)| * |R.v (l21 j k)|).sum)
    (E + ((c31.cols i).filter (c21.Has j ·)).length * ε)
  e33 : ∀ j, c33.Has i j → R.fin (l33 i j) → ∀ {m Y A E}, 2 ≤ m → R.Apx m (R.v (l33 i j)) Y A E →
    R.Apx (m + ((c31.cols i).filter (c31.Has j ·)).length) (R.v (a33 i j))
    (Y + (((c31.cols i).filter (c31.Has j ·)).map fun k => R.v (l31 i k) * R.v (d1 k) * R.v (l31 j k)).sum)
    (A + (((c31.cols i).filter (c31.Has j ·)).map fun k => |R.v (l31 i k)| * |R.v (d1 k)| * |R.v (l31 j k)|).sum)
    (E + ((c31.cols i).filter (c31.Has j ·)).length * ε)
  eD : ∀ {m Y A E}, 2 ≤ m → R.Apx m (R.v (d3 i)) Y A E → R.Apx (m + (c31.cols i).length) (R.v (aD i))
    (Y + ((c31.cols i).map fun k => R.v (l31 i k) * R.v (d1 k) * R.v (l31 i k)).sum)
    (A + ((c31.cols i).map fun k => |R.v (l31 i k)| * |R.v (d1 k)| * |R.v (l31 i k)|).sum)
    (E + (c31.cols i).length * ε)

theorem apxPartial {ε : F} {c11 c21 c31 c32 c33 : Csr} {l11 l21 : Nat → Nat → K} {d1 : Nat → K}
    {a31 a32 a33 : Nat → Nat → K} {aD : Nat → K} {l31 l32 l33 : Nat → Nat → K} {d3 : Nat → K} {i : Nat}
    (h : PartialRow c11 c21 c31 c32 c33 l11 l21 d1 a31 a32 a33 aD l31 l32 l33 d3 i)
    (hd1 : ∀ j, c31.Has i j → R.fin (d1 j))
    (s11 : R.Small ε c11 l11 d1) (s21 : R.Small ε c21 l21 d1) (s31 : R.Small ε c31 l31 d1) (hd3 : R.fin (d3 i)) :
    R.ApxPartial ε c11 c21 c31 c32 c33 l11 l21 d1 a31 a32 a33 aD l31 l32 l33 d3 i := by
  obtain ⟨w, h1, h2, h3, h4, h5⟩ := h
  obtain ⟨q1, q2, q3⟩ := apx_subAll_const h5 hd3
  have g31 : ∀ j, c31.Has i j → R.fin (w j / d1 j) := fun j hj => (R.fin_mul (q2 j (Csr.mem_cols.mpr hj))).2
  have m1 : ∀ j, c31.Has i j → R.fin (w j) ∧
      R.Apx 1 (R.v (w j)) (R.v (l31 i j) * R.v (d1 j)) (|R.v (l31 i j)| * |R.v (d1 j)|) (R.η * |R.v (d1 j)|) := by
    intro j hj
    rw [h2 j hj]
    exact apx_div (hd1 j hj) (g31 j hj)
  have t1 : ∀ {c k}, c31.Has i k → R.fin (c * w k) → R.stored c ∧ R.η * (1 + |R.v (d1 k)| * (1 + |R.v c|)) ≤ ε →
      R.Apx 2 (R.v (c * w k)) (R.v (l31 i k) * R.v (d1 k) * R.v c) (|R.v (l31 i k)| * |R.v (d1 k)| * |R.v c|)
        (ε - R.σ) := by
    intro c k hk hf hε
    rw [h2 k hk]
    exact apx_mul_num hε.1 (hd1 k hk) (g31 k hk) hf hε.2
  have c1 := fun j hj => apx_subAll_const (h1 j hj) (m1 j hj).1
  have c2 := fun j hj => apx_subAll_const (R := R) (h3 j hj)
  have c3 := fun j hj => apx_subAll_const (R := R) (h4 j hj)
  refine ⟨fun j hj => (c1 j hj).1, fun j hj hf => (c2 j hj hf).1, fun j hj hf => (c3 j hj hf).1, q1,
    fun j hj => by rw [h2 j hj]; exact g31 j hj, ?_, ?_, ?_, ?_⟩
  · intro j hj
    refine (c1 j hj).2.2 ((m1 j hj).2.mono (by omega) le_rfl (s31.pivot hj)) fun k hk => ?_
    have hk' := List.mem_filter.mp hk
    exact t1 (Csr.mem_cols.mp hk'.1) ((c1 j hj).2.1 k hk) (s11 j k (by simpa using hk'.2))
  · intro j hj hf m Y A E hm hy
    refine (c2 j hj hf).2.2 hy fun k hk => ?_
    have hk' := List.mem_filter.mp hk
    exact (t1 (Csr.mem_cols.mp hk'.1) ((c2 j hj hf).2.1 k hk) (s21 j k (by simpa using hk'.2))).le hm
  · intro j hj hf m Y A E hm hy
    refine (c3 j hj hf).2.2 hy fun k hk => ?_
    have hk' := List.mem_filter.mp hk
    exact (t1 (Csr.mem_cols.mp hk'.1) ((c3 j hj hf).2.1 k hk) (s31 j k (by simpa using hk'.2))).le hm
  · intro m Y A E hm hy
    refine q3 hy fun k hk => ?_
    have hh := Csr.mem_cols.mp hk
    have := s31 i k hh
    rw [h2 k hh] at this ⊢
    exact (apx_num_mul (hd1 k hh) (g31 k hh) (q2 k hk) this.2).le hm

end Rounding

end Ctldl
