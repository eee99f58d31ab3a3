import Verif.Spec.Rounding
import Verif.Lemmas.Values
import Mathlib.Tactic.Linarith
import Mathlib.Tactic.Ring
import Mathlib.Tactic.Positivity
import Mathlib.Tactic.FieldSimp
import Mathlib.Algebra.Order.BigOperators.Group.Finset
import Mathlib.Algebra.BigOperators.Ring.Finset

/-! # Calculus of rounding errors -/

namespace Ctldl

open Finset

variable {K F : Type} [Zero K] [Sub K] [Mul K] [Div K] [Field F] [LinearOrder F] [IsStrictOrderedRing F]

namespace Rounding

variable {R : Rounding K F}

theorem one_sub_pos : 0 < 1 - R.u := by have := R.u_lt_one; linarith

theorem growth_pos (n : Nat) : 0 < R.growth n := by
  unfold growth
  have := R.one_sub_pos
  positivity

theorem growth_zero : R.growth 0 = 1 := by simp [growth]

theorem growth_succ (n : Nat) : R.growth (n + 1) = R.growth n / (1 - R.u) := by
  unfold growth
  rw [pow_succ, div_div]

theorem growth_add (m n : Nat) : R.growth (m + n) = R.growth m * R.growth n := by
  unfold growth
  rw [pow_add, div_mul_div_comm, one_mul]

theorem one_le_growth (n : Nat) : 1 ≤ R.growth n := by
  unfold growth
  have h := R.one_sub_pos
  rw [le_div_iff₀ (by positivity), one_mul]
  exact pow_le_one₀ h.le (by have := R.u_nonneg; linarith)

theorem growth_mono {m n : Nat} (h : m ≤ n) : R.growth m ≤ R.growth n := by
  obtain ⟨k, rfl⟩ := Nat.exists_eq_add_of_le h
  rw [growth_add]
  exact le_mul_of_one_le_right (R.growth_pos m).le (R.one_le_growth k)

theorem gamma_nonneg (n : Nat) : 0 ≤ R.gamma n := by
  unfold gamma
  have := R.one_le_growth n
  linarith

theorem gamma_mono {m n : Nat} (h : m ≤ n) : R.gamma m ≤ R.gamma n := by
  unfold gamma
  have := R.growth_mono h
  linarith

/-- `x` is `S` up to `n` rounding errors of terms whose absolute values add up to `A`, and underflow errors which add
up to `E`. -/
structure Apx (R : Rounding K F) (n : Nat) (x S A E : F) : Prop where
  abs_le : |S| ≤ A
  nonneg : 0 ≤ E
  err : |x - S| ≤ R.gamma n * A + R.growth n * E

namespace Apx

variable {n m : Nat} {x y S T A B E G e c : F}

theorem nonnegA (h : R.Apx n x S A E) : 0 ≤ A := (abs_nonneg _).trans h.abs_le

theorem refl (n : Nat) (x : F) : R.Apx n x x |x| 0 :=
  ⟨le_rfl, le_rfl, by
    rw [sub_self, abs_zero, mul_zero, add_zero]
    exact mul_nonneg (gamma_nonneg n) (abs_nonneg x)⟩

theorem mono (h : R.Apx n x S A E) (hn : n ≤ m) (hA : A ≤ B) (hE : E ≤ G) : R.Apx m x S B G :=
  ⟨h.abs_le.trans hA, h.nonneg.trans hE, h.err.trans (add_le_add
    (mul_le_mul (gamma_mono hn) hA h.nonnegA (gamma_nonneg m))
    (mul_le_mul (growth_mono hn) hE h.nonneg (growth_pos m).le))⟩

theorem le (h : R.Apx n x S A E) (hn : n ≤ m) : R.Apx m x S A E := h.mono hn le_rfl le_rfl

theorem congr (h : R.Apx n x S A E) (hS : S = T) : R.Apx n x T A E := hS ▸ h

theorem add (h : R.Apx n x S A E) (h' : R.Apx n y T B G) : R.Apx n (x + y) (S + T) (A + B) (E + G) := by
  refine ⟨(abs_add_le _ _).trans (add_le_add h.abs_le h'.abs_le), add_nonneg h.nonneg h'.nonneg, ?_⟩
  have e : x + y - (S + T) = (x - S) + (y - T) := by ring
  rw [e]
  refine (abs_add_le _ _).trans ((add_le_add h.err h'.err).trans_eq ?_)
  ring

theorem add_err (h : R.Apx n x S A E) (he : |e| ≤ G) : R.Apx n (x + e) S A (E + G) := by
  have hG : 0 ≤ G := (abs_nonneg _).trans he
  refine ⟨h.abs_le, add_nonneg h.nonneg hG, ?_⟩
  have e' : x + e - S = (x - S) + e := by ring
  rw [e']
  refine (abs_add_le _ _).trans ?_
  have h1 := h.err
  have h2 : G ≤ R.growth n * G := le_mul_of_one_le_left hG (one_le_growth n)
  rw [mul_add]
  linarith

theorem mul (h : R.Apx n x S A E) (c : F) : R.Apx n (x * c) (S * c) (A * |c|) (E * |c|) := by
  refine ⟨?_, mul_nonneg h.nonneg (abs_nonneg c), ?_⟩
  · rw [abs_mul]
    exact mul_le_mul_of_nonneg_right h.abs_le (abs_nonneg c)
  · rw [← sub_mul, abs_mul]
    refine (mul_le_mul_of_nonneg_right h.err (abs_nonneg c)).trans_eq ?_
    ring

private theorem step (h : R.Apx n x S A E) {q : F} (hq : |q| ≤ 1 / (1 - R.u)) (hq' : |q - 1| ≤ R.u / (1 - R.u)) :
    R.Apx (n + 1) (x * q) S A E := by
  have hp := R.one_sub_pos
  refine ⟨h.abs_le, h.nonneg, ?_⟩
  have e : x * q - S = (x - S) * q + S * (q - 1) := by ring
  rw [e]
  refine (abs_add_le _ _).trans ?_
  rw [abs_mul, abs_mul]
  have h1 : |x - S| * |q| ≤ (R.gamma n * A + R.growth n * E) * (1 / (1 - R.u)) :=
    mul_le_mul h.err hq (abs_nonneg _) ((abs_nonneg _).trans h.err)
  have h2 : |S| * |q - 1| ≤ A * (R.u / (1 - R.u)) := mul_le_mul h.abs_le hq' (abs_nonneg _) h.nonnegA
  refine (add_le_add h1 h2).trans_eq ?_
  unfold gamma
  rw [growth_succ]
  field_simp
  ring

theorem mul_round (h : R.Apx n x S A E) {δ : F} (hδ : |δ| ≤ R.u) : R.Apx (n + 1) (x * (1 + δ)) S A E := by
  have hp := R.one_sub_pos
  have hu := R.u_nonneg
  refine h.step ?_ ?_
  · rw [le_div_iff₀ hp]
    have h1 : |1 + δ| ≤ 1 + R.u := (abs_add_le _ _).trans (by rw [abs_one]; linarith)
    have h2 : |1 + δ| * (1 - R.u) ≤ (1 + R.u) * (1 - R.u) := mul_le_mul_of_nonneg_right h1 hp.le
    nlinarith [mul_nonneg hu hu]
  · rw [add_sub_cancel_left, le_div_iff₀ hp]
    have h2 : |δ| * (1 - R.u) ≤ R.u * (1 - R.u) := mul_le_mul_of_nonneg_right hδ hp.le
    nlinarith [mul_nonneg hu hu]

theorem one_add_pos {δ : F} (hδ : |δ| ≤ R.u) : 0 < 1 + δ := by
  have := R.u_lt_one
  have := (_root_.abs_le.mp hδ).1
  linarith

theorem div_round (h : R.Apx n x S A E) {δ : F} (hδ : |δ| ≤ R.u) : R.Apx (n + 1) (x / (1 + δ)) S A E := by
  have hp := R.one_sub_pos
  have hd := one_add_pos hδ
  have hu := R.u_nonneg
  have hge : 1 - R.u ≤ 1 + δ := by have := (_root_.abs_le.mp hδ).1; linarith
  rw [div_eq_mul_one_div]
  refine h.step ?_ ?_
  · rw [abs_of_pos (by positivity)]
    exact one_div_le_one_div_of_le hp hge
  · have e : 1 / (1 + δ) - 1 = -δ / (1 + δ) := by field_simp; ring
    rw [e, abs_div, abs_neg, abs_of_pos hd]
    exact div_le_div₀ hu hδ hp hge

/-- Replace the terms of a sum. -/
theorem subst {ι : Type*} {s : Finset ι} {c y S A E' : ι → F} (h : R.Apx n x (∑ k ∈ s, c k * y k) (∑ k ∈ s, |c k| * |y k|) E)
    (h' : ∀ k ∈ s, R.Apx m (y k) (S k) (A k) (E' k)) :
    R.Apx (n + m) x (∑ k ∈ s, c k * S k) (∑ k ∈ s, |c k| * A k) (E + ∑ k ∈ s, |c k| * E' k) := by
  refine ⟨?_, ?_, ?_⟩
  · refine (abs_sum_le_sum_abs _ _).trans (sum_le_sum fun k hk => ?_)
    rw [abs_mul]
    exact mul_le_mul_of_nonneg_left (h' k hk).abs_le (abs_nonneg _)
  · exact add_nonneg h.nonneg (sum_nonneg fun k hk => mul_nonneg (abs_nonneg _) (h' k hk).nonneg)
  · have e : x - ∑ k ∈ s, c k * S k = (x - ∑ k ∈ s, c k * y k) + ∑ k ∈ s, c k * (y k - S k) := by
      rw [sum_congr rfl fun k _ => mul_sub (c k) (y k) (S k), sum_sub_distrib]
      ring
    rw [e]
    refine (abs_add_le _ _).trans ?_
    have hy : ∀ k ∈ s, |y k| ≤ R.growth m * A k + R.growth m * E' k := by
      intro k hk
      have h1 := (h' k hk).err
      have h2 := (h' k hk).abs_le
      have h3 : |y k| ≤ |y k - S k| + |S k| := by
        have := abs_add_le (y k - S k) (S k)
        rwa [sub_add_cancel] at this
      unfold gamma at h1
      linarith
    have hA : ∀ k ∈ s, 0 ≤ A k := fun k hk => (h' k hk).nonnegA
    have hE : ∀ k ∈ s, 0 ≤ E' k := fun k hk => (h' k hk).nonneg
    have b1 : ∑ k ∈ s, |c k| * |y k| ≤ R.growth m * ∑ k ∈ s, |c k| * A k + R.growth m * ∑ k ∈ s, |c k| * E' k := by
      rw [mul_sum, mul_sum, ← sum_add_distrib]
      refine sum_le_sum fun k hk => ?_
      refine (mul_le_mul_of_nonneg_left (hy k hk) (abs_nonneg (c k))).trans_eq ?_
      ring
    have b2 : |∑ k ∈ s, c k * (y k - S k)| ≤
        R.gamma m * ∑ k ∈ s, |c k| * A k + R.growth m * ∑ k ∈ s, |c k| * E' k := by
      refine (abs_sum_le_sum_abs _ _).trans ?_
      rw [mul_sum, mul_sum, ← sum_add_distrib]
      refine sum_le_sum fun k hk => ?_
      rw [abs_mul]
      refine (mul_le_mul_of_nonneg_left (h' k hk).err (abs_nonneg (c k))).trans_eq ?_
      ring
    have b3 := h.err
    have b4 : R.gamma n * ∑ k ∈ s, |c k| * |y k| ≤ R.gamma n *
        (R.growth m * ∑ k ∈ s, |c k| * A k + R.growth m * ∑ k ∈ s, |c k| * E' k) :=
      mul_le_mul_of_nonneg_left b1 (gamma_nonneg n)
    have b5 : R.growth n * E ≤ R.growth (n + m) * E := mul_le_mul_of_nonneg_right (growth_mono (by omega)) h.nonneg
    have e1 : R.gamma (n + m) = R.gamma n * R.growth m + R.gamma m := by
      unfold gamma; rw [growth_add]; ring
    have e2 : R.growth (n + m) = R.gamma n * R.growth m + R.growth m := by
      unfold gamma; rw [growth_add]; ring
    have e3 : R.gamma (n + m) * ∑ k ∈ s, |c k| * A k + R.growth (n + m) * (E + ∑ k ∈ s, |c k| * E' k) =
        R.gamma n * (R.growth m * ∑ k ∈ s, |c k| * A k + R.growth m * ∑ k ∈ s, |c k| * E' k) +
        (R.gamma m * ∑ k ∈ s, |c k| * A k + R.growth m * ∑ k ∈ s, |c k| * E' k) + R.growth (n + m) * E := by
      rw [mul_add, e1, e2]
      ring
    rw [e3]
    linarith

end Apx

/-- A chain of subtractions, seen from its result: the first operand is the result plus the terms. -/
theorem apx_subAll {ι : Type} {ks : List ι} {f : ι → K} {a : K} (hf : R.fin (subAll ks f a)) :
    R.fin a ∧ (∀ k ∈ ks, R.fin (f k)) ∧ ∀ {m : Nat} {Y AY EY : F} {T AT ET : ι → F},
      R.Apx m (R.v (subAll ks f a)) Y AY EY → (∀ k ∈ ks, R.Apx m (R.v (f k)) (T k) (AT k) (ET k)) →
      R.Apx (m + ks.length) (R.v a) (Y + (ks.map T).sum) (AY + (ks.map AT).sum)
        (EY + (ks.map fun k => ET k + R.σ).sum) := by
  induction ks generalizing a with
  | nil =>
    refine ⟨hf, by simp, fun h _ => ?_⟩
    simpa [subAll] using h
  | cons k ks ih =>
    obtain ⟨h1, h2, h3⟩ := ih (a := a - f k) hf
    obtain ⟨g1, g2, δ, e', hδ, he', e⟩ := R.sub h1
    refine ⟨g1, fun k' hk' => ?_, fun {m Y AY EY T AT ET} hy ht => ?_⟩
    · rcases List.mem_cons.mp hk' with rfl | h
      · exact g2
      · exact h2 k' h
    · have hx := h3 hy fun k' hk' => ht k' (List.mem_cons_of_mem _ hk')
      have hd := Apx.one_add_pos (R := R) hδ
      have ea : R.v a = (R.v (a - f k) + -e') / (1 + δ) + R.v (f k) := by
        rw [e]; field_simp; ring
      rw [ea]
      have := ((hx.add_err (e := -e') (G := R.σ) (by rwa [abs_neg])).div_round hδ).add ((ht k List.mem_cons_self).le (m := m + ks.length + 1) (by omega))
      simp only [List.map_cons, List.sum_cons, List.length_cons]
      have e1 : Y + (T k + (ks.map T).sum) = Y + (ks.map T).sum + T k := by ring
      have e2 : AY + (AT k + (ks.map AT).sum) = AY + (ks.map AT).sum + AT k := by ring
      have e3 : EY + (ET k + R.σ + (ks.map fun k => ET k + R.σ).sum) =
          EY + (ks.map fun k => ET k + R.σ).sum + R.σ + ET k := by ring
      rw [e1, e2, e3, ← add_assoc m]
      exact this

/-- The case of equal underflow bounds. -/
theorem apx_subAll_const {ι : Type} {ks : List ι} {f : ι → K} {a y : K} (hy : y = subAll ks f a) (hf : R.fin y) :
    R.fin a ∧ (∀ k ∈ ks, R.fin (f k)) ∧ ∀ {m : Nat} {Y AY EY ε : F} {T AT : ι → F},
      R.Apx m (R.v y) Y AY EY → (∀ k ∈ ks, R.Apx m (R.v (f k)) (T k) (AT k) (ε - R.σ)) →
      R.Apx (m + ks.length) (R.v a) (Y + (ks.map T).sum) (AY + (ks.map AT).sum) (EY + ks.length * ε) := by
  subst hy
  obtain ⟨h1, h2, h3⟩ := apx_subAll hf
  refine ⟨h1, h2, fun {m Y AY EY ε T AT} hy ht => ?_⟩
  have := h3 hy ht
  simp only [sub_add_cancel] at this
  rwa [List.map_const', List.sum_replicate, nsmul_eq_mul] at this

/-- Numerator of a quotient. -/
theorem apx_div {w d : K} (hd : R.fin d) (hl : R.fin (w / d)) :
    R.fin w ∧ R.Apx 1 (R.v w) (R.v (w / d) * R.v d) (|R.v (w / d)| * |R.v d|) (R.η * |R.v d|) := by
  obtain ⟨h1, -, h2, δ, e, hδ, he, h3⟩ := R.div hd hl
  refine ⟨h1, ?_⟩
  have hp := Apx.one_add_pos hδ
  have ew : R.v w = (R.v (w / d) * R.v d + -e * R.v d) / (1 + δ) := by
    rw [h3]; field_simp; ring
  have h := (Apx.refl (R := R) 0 (R.v (w / d) * R.v d)).add_err (e := -e * R.v d) (G := R.η * |R.v d|) (by
    rw [abs_mul, abs_neg]
    exact mul_le_mul_of_nonneg_right he (abs_nonneg _))
  have := h.div_round hδ
  rwa [← ew, abs_mul, zero_add, zero_add] at this

/-- A product with a numerator. -/
theorem apx_mul_num {c w d : K} (hs : R.stored c) (hd : R.fin d) (hl : R.fin (w / d)) (hc : R.fin (c * w)) {ε : F}
    (hε : R.η * (1 + |R.v d| * (1 + |R.v c|)) ≤ ε) :
    R.Apx 2 (R.v (c * w)) (R.v (w / d) * R.v d * R.v c) (|R.v (w / d)| * |R.v d| * |R.v c|) (ε - R.σ) := by
  obtain ⟨δ, e, hδ, he, h3⟩ := R.mul hs hc
  have h := ((((apx_div hd hl).2).mul (R.v c)).mul_round hδ).add_err he
  rw [h3, mul_comm (R.v c)]
  refine h.mono le_rfl le_rfl (le_sub_iff_add_le.mpr (le_trans ?_ hε))
  have := mul_nonneg R.η_nonneg (abs_nonneg (R.v d))
  have := R.μ_add_σ
  linarith

theorem apx_num_mul {w d : K} (hd : R.fin d) (hl : R.fin (w / d)) (hc : R.fin (w * (w / d))) {ε : F}
    (hε : R.η * (1 + |R.v d| * (1 + |R.v (w / d)|)) ≤ ε) :
    R.Apx 2 (R.v (w * (w / d))) (R.v (w / d) * R.v d * R.v (w / d)) (|R.v (w / d)| * |R.v d| * |R.v (w / d)|)
      (ε - R.σ) := by
  obtain ⟨δ, e, hδ, he, h3⟩ := R.mul (R.div hd hl).2.1 hc
  have h := ((((apx_div hd hl).2).mul (R.v (w / d))).mul_round hδ).add_err he
  rw [h3]
  refine h.mono le_rfl le_rfl (le_sub_iff_add_le.mpr (le_trans ?_ hε))
  have := mul_nonneg R.η_nonneg (abs_nonneg (R.v d))
  have := R.μ_add_σ
  linarith

/-- A product of three numbers. -/
theorem apx_mul_mul {a b d : K} (hs : R.stored a) (hf : R.fin (a * b * d)) {ε : F}
    (hε : R.η * (1 + |R.v d| * (1 + |R.v b|)) ≤ ε) :
    R.fin a ∧ R.fin b ∧
      R.Apx 2 (R.v (a * b * d)) (R.v a * R.v d * R.v b) (|R.v a| * |R.v d| * |R.v b|) (ε - R.σ) := by
  obtain ⟨δ, e, δ', e', hδ, he, hδ', he', h3⟩ := R.mul_mul hs hf
  refine ⟨(R.fin_mul (R.fin_mul hf).1).1, (R.fin_mul (R.fin_mul hf).1).2, ?_⟩
  have h := ((((Apx.refl (R := R) 0 (R.v a * R.v b)).mul_round hδ').add_err he').mul (R.v d)).mul_round hδ |>.add_err he
  rw [h3]
  have e1 : R.v a * R.v d * R.v b = R.v a * R.v b * R.v d := by ring
  have e2 : |R.v a| * |R.v d| * |R.v b| = |R.v a * R.v b| * |R.v d| := by rw [abs_mul]; ring
  rw [e1, e2]
  refine h.mono le_rfl le_rfl (le_sub_iff_add_le.mpr (le_trans ?_ hε))
  have := mul_nonneg R.η_nonneg (mul_nonneg (abs_nonneg (R.v d)) (abs_nonneg (R.v b)))
  have := R.μ_add_σ
  linarith

end Rounding

end Ctldl
