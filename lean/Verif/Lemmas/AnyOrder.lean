import Verif.Spec.AnyOrder
import Verif.Spec.RoundingAdd
import Verif.Lemmas.Rounding

/-! # Rounding errors of sums in any order -/

namespace Ctldl

open Finset

variable {K F : Type} [Zero K] [Add K] [Sub K] [Mul K] [Div K] [Field F] [LinearOrder F] [IsStrictOrderedRing F]

theorem SumTree.height_le_ops {ι : Type} (t : SumTree ι) : t.height ≤ t.ops := by
  induction t with
  | zero | term k => exact le_rfl
  | add s t hs ht | sub s t hs ht =>
    unfold height ops
    have := max_le_add_of_nonneg (Nat.zero_le s.height) (Nat.zero_le t.height)
    omega

namespace Rounding

variable {R : Rounding K F}

theorem Apx.neg {n : Nat} {x S A E : F} (h : R.Apx n x S A E) : R.Apx n (-x) (-S) A E := by
  have := h.mul (-1)
  rwa [abs_neg, abs_one, mul_one, mul_one, mul_neg_one, mul_neg_one] at this

theorem Apx.sub {n : Nat} {x y S T A B E G : F} (h : R.Apx n x S A E) (h' : R.Apx n y T B G) :
    R.Apx n (x - y) (S - T) (A + B) (E + G) := by
  rw [sub_eq_add_neg, sub_eq_add_neg]
  exact h.add h'.neg

end Rounding

namespace SumTree

variable {ι : Type}

theorem ops_add (s t : SumTree ι) : (s.add t).ops = s.ops + t.ops + 1 := rfl

theorem ops_sub (s t : SumTree ι) : (s.sub t).ops = s.ops + t.ops + 1 := rfl

theorem height_add (s t : SumTree ι) : (s.add t).height = max s.height t.height + 1 := rfl

theorem height_sub (s t : SumTree ι) : (s.sub t).height = max s.height t.height + 1 := rfl

/-- All terms. -/
def all (t : SumTree ι) : List ι := t.terms true ++ t.terms false

/-- The exact sum. -/
def exact (T : ι → F) (t : SumTree ι) : F := ((t.terms true).map T).sum - ((t.terms false).map T).sum

/-- The sum over all terms. -/
def total (T : ι → F) (t : SumTree ι) : F := (t.all.map T).sum

theorem total_eq (T : ι → F) (t : SumTree ι) : t.total T = ((t.terms true).map T).sum + ((t.terms false).map T).sum := by
  unfold total all
  rw [List.map_append, List.sum_append]

theorem exact_add (T : ι → F) (s t : SumTree ι) : (s.add t).exact T = s.exact T + t.exact T := by
  simp only [exact, terms, List.map_append, List.sum_append]
  ring

theorem exact_sub (T : ι → F) (s t : SumTree ι) : (s.sub t).exact T = s.exact T - t.exact T := by
  simp only [exact, terms, List.map_append, List.sum_append, Bool.not_true, Bool.not_false]
  ring

theorem total_add (T : ι → F) (s t : SumTree ι) : (s.add t).total T = s.total T + t.total T := by
  simp only [total_eq, terms, List.map_append, List.sum_append]
  ring

theorem total_sub (T : ι → F) (s t : SumTree ι) : (s.sub t).total T = s.total T + t.total T := by
  simp only [total_eq, terms, List.map_append, List.sum_append, Bool.not_true, Bool.not_false]
  ring

theorem mem_all_add {s t : SumTree ι} {k : ι} : k ∈ (s.add t).all ↔ k ∈ s.all ∨ k ∈ t.all := by
  simp only [all, terms, List.mem_append]
  tauto

theorem mem_all_sub {s t : SumTree ι} {k : ι} : k ∈ (s.sub t).all ↔ k ∈ s.all ∨ k ∈ t.all := by
  simp only [all, terms, List.mem_append, Bool.not_true, Bool.not_false]
  tauto

theorem mem_all_term {k k' : ι} : k' ∈ (term k : SumTree ι).all ↔ k' = k := by
  simp [all, terms]

theorem fin_terms (R : RoundingAdd K F) {f : ι → K} {t : SumTree ι} (h : R.fin (t.value f)) : ∀ k ∈ t.all, R.fin (f k) := by
  induction t with
  | zero => simp [all, terms]
  | term k =>
    intro k' hk'
    rw [mem_all_term.mp hk']
    exact h
  | add s t hs ht =>
    obtain ⟨h1, h2, -⟩ := R.add h
    intro k hk
    exact (mem_all_add.mp hk).elim (hs h1 k) (ht h2 k)
  | sub s t hs ht =>
    obtain ⟨h1, h2, -⟩ := R.sub h
    intro k hk
    exact (mem_all_sub.mp hk).elim (hs h1 k) (ht h2 k)

/-- The result, seen from the terms. -/
theorem forward (R : RoundingAdd K F) {f : ι → K} {m : Nat} {T AT ET : ι → F} {t : SumTree ι} (h : R.fin (t.value f))
    (ht : ∀ k ∈ t.all, R.Apx m (R.v (f k)) (T k) (AT k) (ET k)) :
    R.Apx (m + t.height) (R.v (t.value f)) (t.exact T) (t.total AT) (t.total ET + t.ops * R.σ) := by
  induction t with
  | zero =>
    have := Rounding.Apx.refl (R := R.toRounding) m 0
    simpa [value, exact, total, all, terms, ops, height, R.v_zero] using this
  | term k =>
    have := ht k (mem_all_term.mpr rfl)
    simpa [value, exact, total, all, terms, ops, height] using this
  | add s t ihs iht =>
    obtain ⟨h1, h2, δ, e, hδ, he, h3⟩ := R.add h
    have hs := (ihs h1 fun k hk => ht k (mem_all_add.mpr (Or.inl hk))).le
      (show m + s.height ≤ m + max s.height t.height by omega)
    have ht := (iht h2 fun k hk => ht k (mem_all_add.mpr (Or.inr hk))).le
      (show m + t.height ≤ m + max s.height t.height by omega)
    have := ((hs.add ht).mul_round hδ).add_err he
    rw [← h3] at this
    rw [exact_add, total_add, total_add]
    refine this.mono le_rfl le_rfl (le_of_eq ?_)
    rw [ops_add]
    push_cast
    ring
  | sub s t ihs iht =>
    obtain ⟨h1, h2, δ, e, hδ, he, h3⟩ := R.sub h
    have hs := (ihs h1 fun k hk => ht k (mem_all_sub.mpr (Or.inl hk))).le
      (show m + s.height ≤ m + max s.height t.height by omega)
    have ht := (iht h2 fun k hk => ht k (mem_all_sub.mpr (Or.inr hk))).le
      (show m + t.height ≤ m + max s.height t.height by omega)
    have := ((hs.sub ht).mul_round hδ).add_err he
    rw [← h3] at this
    rw [exact_sub, total_sub, total_sub]
    refine this.mono le_rfl le_rfl (le_of_eq ?_)
    rw [ops_sub]
    push_cast
    ring

/-- The result of an operation gives the first operand. -/
theorem undo {R : RoundingAdd K F} {x y z δ e : F} (hδ : |δ| ≤ R.u) (he : |e| ≤ R.σ) (h : x = (y + z) * (1 + δ) + e)
    {p m r : Nat} {S A E T B G : F} (hx : R.Apx p x S A E) (hz : R.Apx m z T B G) (hp : p + 1 ≤ r) (hm : m ≤ r) :
    R.Apx r y (S - T) (A + B) (E + R.σ + G) := by
  have hd := Rounding.Apx.one_add_pos (R := R.toRounding) hδ
  have e1 : y = (x + -e) / (1 + δ) - z := by
    rw [h]
    field_simp
    ring
  rw [e1]
  exact (((hx.add_err (e := -e) (G := R.σ) (by rwa [abs_neg])).div_round hδ).le hp).sub (hz.le hm)

/-- The sign of a term. -/
def sgn (sign : Bool) (x : F) : F := if sign then x else -x

theorem apx_sgn {R : Rounding K F} (sign : Bool) {n : Nat} {x S A E : F} (h : R.Apx n x S A E) :
    R.Apx n (sgn sign x) (sgn sign S) A E := by
  cases sign
  · exact h.neg
  · exact h

theorem sgn_not (sign : Bool) (x : F) : sgn (!sign) x = sgn sign (-x) := by
  cases sign <;> simp [sgn]

theorem none_not_mem {t : SumTree (Option ι)} [DecidableEq ι] {sign : Bool} (h1 : (t.terms sign).count none = 0)
    (h0 : (t.terms !sign).count none = 0) : none ∉ t.all := by
  have h1 := List.count_eq_zero.mp h1
  have h0 := List.count_eq_zero.mp h0
  unfold all
  cases sign <;> simp_all

/-- A term which occurs only once, seen from the result and the other terms. -/
theorem backward (R : RoundingAdd K F) [DecidableEq ι] {f : Option ι → K} {m : Nat} {T AT ET : Option ι → F}
    (hT : T none = 0) (hA : AT none = 0) (hE : ET none = 0) {t : SumTree (Option ι)} {sign : Bool}
    (h : R.fin (t.value f)) (h1 : (t.terms sign).count none = 1) (h0 : (t.terms !sign).count none = 0)
    (ht : ∀ k ∈ t.all, k ≠ none → R.Apx m (R.v (f k)) (T k) (AT k) (ET k))
    {p r : Nat} {Y AY EY : F} (hy : R.Apx p (R.v (t.value f)) Y AY EY)
    (hr : (t.ops + p ≤ r ∧ t.ops + m ≤ r) ∨ (p + t.height ≤ r ∧ m + 2 * t.height ≤ r)) :
    R.Apx r (R.v (f none)) (sgn sign (Y - t.exact T)) (AY + t.total AT) (EY + t.total ET + t.ops * R.σ) := by
  induction t generalizing sign p Y AY EY with
  | zero => simp [terms] at h1
  | term k =>
    cases sign with
    | false => simp [terms] at h1
    | true =>
      obtain rfl : k = none := by
        by_contra hk
        simp [terms, hk] at h1
      have h2 := hy.le (show p ≤ r by unfold ops height at hr; omega)
      simpa [value, exact, total, all, terms, ops, sgn, hT, hA, hE] using h2
  | add s t ihs iht =>
    obtain ⟨g1, g2, δ, e, hδ, he, h3⟩ := R.add h
    rw [terms, List.count_append] at h1 h0
    rw [ops_add, height_add] at hr
    have hs' : ∀ k ∈ s.all, k ≠ none → R.Apx m (R.v (f k)) (T k) (AT k) (ET k) := fun k hk =>
      ht k (mem_all_add.mpr (Or.inl hk))
    have ht' : ∀ k ∈ t.all, k ≠ none → R.Apx m (R.v (f k)) (T k) (AT k) (ET k) := fun k hk =>
      ht k (mem_all_add.mpr (Or.inr hk))
    have ls := s.height_le_ops
    have lt := t.height_le_ops
    rw [exact_add, total_add, total_add, ops_add]
    by_cases hc : (s.terms sign).count none = 1
    · have hn := none_not_mem (t := t) (sign := sign) (by omega) (by omega)
      have hz := forward R g2 fun k hk => ht' k hk fun hk' => hn (hk' ▸ hk)
      have := ihs (sign := sign) g1 hc (by omega) hs' (undo hδ he h3 hy hz (le_max_left _ _) (le_max_right _ _)) (by omega)
      rw [sub_sub, add_comm (t.exact T)] at this
      refine this.mono le_rfl (le_of_eq (by ring)) (le_of_eq (by push_cast; ring))
    · have hn := none_not_mem (t := s) (sign := sign) (by omega) (by omega)
      have hz := forward R g1 fun k hk => hs' k hk fun hk' => hn (hk' ▸ hk)
      rw [add_comm (R.v _)] at h3
      have := iht (sign := sign) g2 (by omega) (by omega) ht' (undo hδ he h3 hy hz (le_max_left _ _) (le_max_right _ _)) (by omega)
      rw [sub_sub] at this
      refine this.mono le_rfl (le_of_eq (by ring)) (le_of_eq (by push_cast; ring))
  | sub s t ihs iht =>
    obtain ⟨g1, g2, δ, e, hδ, he, h3⟩ := R.sub h
    rw [terms, List.count_append] at h1 h0
    rw [ops_sub, height_sub] at hr
    have hs' : ∀ k ∈ s.all, k ≠ none → R.Apx m (R.v (f k)) (T k) (AT k) (ET k) := fun k hk =>
      ht k (mem_all_sub.mpr (Or.inl hk))
    have ht' : ∀ k ∈ t.all, k ≠ none → R.Apx m (R.v (f k)) (T k) (AT k) (ET k) := fun k hk =>
      ht k (mem_all_sub.mpr (Or.inr hk))
    have ls := s.height_le_ops
    have lt := t.height_le_ops
    rw [exact_sub, total_sub, total_sub, ops_sub]
    by_cases hc : (s.terms sign).count none = 1
    · have hn := none_not_mem (t := t) (sign := !sign) (by omega) (by omega)
      have hz := (forward R g2 fun k hk => ht' k hk fun hk' => hn (hk' ▸ hk)).neg
      rw [sub_eq_add_neg (R.v _)] at h3
      have := ihs (sign := sign) g1 hc (by omega) hs' (undo hδ he h3 hy hz (le_max_left _ _) (le_max_right _ _)) (by omega)
      rw [show Y - -t.exact T - s.exact T = Y - (s.exact T - t.exact T) by ring] at this
      refine this.mono le_rfl (le_of_eq (by ring)) (le_of_eq (by push_cast; ring))
    · have hn := none_not_mem (t := s) (sign := sign) (by omega) (by omega)
      have hz := forward R g1 fun k hk => hs' k hk fun hk' => hn (hk' ▸ hk)
      rw [sub_eq_add_neg (R.v _), add_comm (R.v _)] at h3
      have h4 := (undo hδ he h3 hy hz (le_max_left _ _) (le_max_right _ _)).neg
      rw [neg_neg] at h4
      have := iht (sign := !sign) g2 (by omega) (by rw [Bool.not_not] at h0 ⊢; omega) ht' h4 (by omega)
      rw [sgn_not, show -(-(Y - s.exact T) - t.exact T) = Y - (s.exact T - t.exact T) by ring] at this
      refine this.mono le_rfl (le_of_eq (by ring)) (le_of_eq (by push_cast; ring))

theorem ops_ge (t : SumTree ι) : t.all.length ≤ t.ops + 1 := by
  induction t with
  | zero => simp [all, terms, ops]
  | term k => simp [all, terms, ops]
  | add s t hs ht =>
    rw [ops_add]
    simp only [all, terms, List.length_append] at *
    omega
  | sub s t hs ht =>
    rw [ops_sub]
    simp only [all, terms, List.length_append, Bool.not_true, Bool.not_false] at *
    omega

end SumTree

/-- What is subtracted from, seen from what is left. -/
theorem LeftOver.apx (R : RoundingAdd K F) {h q : Nat} {a : K} {ks : List Nat} {f : Nat → K} {y : K}
    (hy : LeftOver h q a ks f y) (hf : R.fin y) :
    R.fin a ∧ (∀ k ∈ ks, R.fin (f k)) ∧ ∀ {m : Nat} {Y AY EY ε : F} {T AT : Nat → F}, 0 ≤ ε - R.σ →
      R.Apx m (R.v y) Y AY EY → (∀ k ∈ ks, R.Apx m (R.v (f k)) (T k) (AT k) (ε - R.σ)) →
      R.Apx (m + h) (R.v a) (Y + (ks.map T).sum) (AY + (ks.map AT).sum) (EY + q * ε) := by
  obtain ⟨t, h1, h2, h3, h4, rfl⟩ := hy
  have hall : ∀ k, k ∈ t.all ↔ k = none ∨ ∃ k' ∈ ks, some k' = k := by
    intro k
    unfold SumTree.all
    rw [h1, List.mem_append, h2.mem_iff, List.mem_map, List.mem_singleton]
  have hfin := SumTree.fin_terms R hf
  refine ⟨hfin none ((hall _).mpr (Or.inl rfl)), fun k hk => hfin (some k) ((hall _).mpr (Or.inr ⟨k, hk, rfl⟩)), ?_⟩
  intro m Y AY EY ε T AT h0 hY ht
  have hsum : ∀ g : Nat → F, ((t.terms false).map fun k => k.elim 0 g).sum = (ks.map g).sum := by
    intro g
    rw [(h2.map _).sum_eq, List.map_map]
    rfl
  have := SumTree.backward R (f := fun k => k.elim a f) (m := m) (T := fun k => k.elim 0 T) (AT := fun k => k.elim 0 AT)
    (ET := fun k => k.elim 0 fun _ => ε - R.σ) rfl rfl rfl (t := t) (sign := true) hf (by rw [h1]; rfl)
    (by
      rw [List.count_eq_zero]
      intro hn
      obtain ⟨k, -, hk⟩ := List.mem_map.mp (h2.mem_iff.mp hn)
      cases hk)
    (by
      intro k hk hk'
      obtain rfl | ⟨k', hk1, rfl⟩ := (hall k).mp hk
      · exact absurd rfl hk'
      · exact ht k' hk1) (r := m + h) hY (by omega)
  rw [SumTree.total_eq, SumTree.total_eq, SumTree.exact, hsum, hsum, hsum, h1] at this
  simp only [SumTree.sgn, if_true, List.map_cons, List.map_nil, List.sum_cons, List.sum_nil, Option.elim_none, zero_add,
    add_zero, zero_sub, sub_neg_eq_add, List.map_const', List.sum_replicate, nsmul_eq_mul] at this
  refine this.mono le_rfl le_rfl ?_
  have hlen : ks.length ≤ t.ops := by
    have := t.ops_ge
    unfold SumTree.all at this
    rw [h1, List.length_append, h2.length_eq, List.length_map, List.length_singleton] at this
    omega
  have e1 : (ks.length : F) * (ε - R.σ) ≤ t.ops * (ε - R.σ) := mul_le_mul_of_nonneg_right (by exact_mod_cast hlen) h0
  have e2 : (t.ops : F) * ε ≤ q * ε :=
    mul_le_mul_of_nonneg_right (by exact_mod_cast h3) (by have := R.σ_nonneg; linarith)
  linarith

end Ctldl
