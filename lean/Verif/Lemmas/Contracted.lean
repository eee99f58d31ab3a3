import Verif.Spec.Contracted
import Verif.Lemmas.Binary

/-! # Binary floating point arithmetic with contracted expressions is arithmetic with rounding -/

namespace Ctldl

variable {fmt : Format} {C : Contraction}

theorem Binary.fusedSub_rel {a b c : Binary fmt} (h : (a.fusedSub b c).Finite) : a.Finite ∧ b.Finite ∧ c.Finite ∧
    ∃ δ e : ℚ, |δ| ≤ 2 ^ (-fmt.precision : Int) ∧ |e| ≤ 2 ^ (fmt.minExp - 1) ∧
      (a.fusedSub b c).toRat = (a.toRat - b.toRat * c.toRat) * (1 + δ) + e := by
  have special : ∀ {b c : Binary fmt}, ¬ b.Finite ∨ ¬ c.Finite → (a - b * c).Finite → False := by
    intro b c hbc h'
    have h1 := (finite_mul (finite_sub h').2.1)
    exact hbc.elim (fun h2 => h2 h1.1) (fun h2 => h2 h1.2.1)
  have key : ∀ (s : Bool) (q : ℚ), (ofRat fmt s q).Finite → ∃ δ e : ℚ, |δ| ≤ 2 ^ (-fmt.precision : Int) ∧
      |e| ≤ 2 ^ (fmt.minExp - 1) ∧ (ofRat fmt s q).toRat = q * (1 + δ) + e := by
    intro s q hq
    rw [ofRat_finite hq]
    exact fmt.round_rel q
  have main : b.Finite → c.Finite → (a.fusedSub b c).Finite → a.Finite ∧ ∃ δ e : ℚ, |δ| ≤ 2 ^ (-fmt.precision : Int) ∧
      |e| ≤ 2 ^ (fmt.minExp - 1) ∧ (a.fusedSub b c).toRat = (a.toRat - b.toRat * c.toRat) * (1 + δ) + e := by
    intro hb hc h
    have e : a.fusedSub b c = match (motive := Binary fmt → Binary fmt) a with
        | .nan => .nan
        | .inf s => .inf s
        | .num x _ _ => ofRat fmt (x - b.toRat * c.toRat < 0) (x - b.toRat * c.toRat)
        | .zero s =>
          if b.toRat * c.toRat = 0 then .zero (s && !(b.negative ^^ c.negative))
          else ofRat fmt (0 - b.toRat * c.toRat < 0) (0 - b.toRat * c.toRat) := by
      cases b <;> cases c <;> first | exact hb.elim | exact hc.elim | (cases a <;> rfl)
    rw [e] at h ⊢
    cases a with
    | nan => exact h.elim
    | inf s => exact h.elim
    | num x hx hr => exact ⟨trivial, key _ _ h⟩
    | zero s =>
      refine ⟨trivial, ?_⟩
      simp only at h ⊢
      split
      · next h0 =>
        refine ⟨0, 0, by rw [abs_zero]; exact (two_zpow_pos _).le, by rw [abs_zero]; exact (two_zpow_pos _).le, ?_⟩
        rw [h0]
        simp [toRat]
      · next h0 =>
        rw [if_neg h0] at h
        exact key _ _ h
  by_cases hb : b.Finite
  · by_cases hc : c.Finite
    · obtain ⟨h1, h2⟩ := main hb hc h
      exact ⟨h1, hb, hc, h2⟩
    · refine (special (Or.inr hc) (?_ : (a - b * c).Finite)).elim
      have e : a.fusedSub b c = a - b * c := by
        cases b <;> cases c <;> first | rfl | exact (hc trivial).elim
      rwa [← e]
  · refine (special (Or.inl hb) (?_ : (a - b * c).Finite)).elim
    have e : a.fusedSub b c = a - b * c := by
      cases b <;> cases c <;> first | rfl | exact (hb trivial).elim
    rwa [← e]

namespace Contracted

theorem times_rel {t s : C.Tag} {a b : Binary fmt} (h : (times t s a b).Finite) : a.Finite ∧ b.Finite ∧
    ∃ δ e : ℚ, |δ| ≤ 2 ^ (-fmt.precision : Int) ∧ |e| ≤ 2 ^ (fmt.minExp - 1) ∧
      (times t s a b).toRat = a.toRat * b.toRat * (1 + δ) + e := by
  unfold times at h ⊢
  split
  · next hf =>
    rw [if_pos hf] at h
    exact ⟨h.1, h.2, 0, 0, by rw [abs_zero]; exact (two_zpow_pos _).le, by rw [abs_zero]; exact (two_zpow_pos _).le,
      by simp [toRat]⟩
  · next hf =>
    rw [if_neg hf] at h
    obtain ⟨h1, h2, -⟩ := Binary.finite_mul h
    exact ⟨h1, h2, Binary.mul_rel h⟩

/-- Arithmetic with rounding. The bound of errors in case of underflow is twice that of the format, as a product and its
subtraction can have such errors. -/
def rounding (fmt : Format) (C : Contraction) : Rounding (Contracted fmt C) ℚ where
  fin := Finite
  v := toRat
  u := 2 ^ (-fmt.precision : Int)
  η := 2 ^ fmt.minExp
  μ := 2 ^ (fmt.minExp - 1)
  σ := 2 ^ (fmt.minExp - 1)
  stored := Stored
  u_nonneg := (two_zpow_pos _).le
  u_lt_one := (Binary.rounding fmt).u_lt_one
  η_nonneg := (two_zpow_pos _).le
  σ_nonneg := (two_zpow_pos _).le
  μ_add_σ := by
    rw [zpow_sub_one₀ (by norm_num)]
    linarith
  fin_zero := trivial
  v_zero := rfl
  stored_div := by
    intro a b
    cases a <;> cases b <;> trivial
  sub := by
    intro a b h
    cases a with
    | prod t x y => cases b <;> exact h.elim
    | val t a =>
      cases b with
      | val s b =>
        obtain ⟨h1, h2, δ, hδ, h3⟩ := Binary.sub_rel (a := a) (b := b) h
        exact ⟨h1, h2, δ, 0, hδ, by rw [abs_zero]; exact (two_zpow_pos _).le, by rw [add_zero]; exact h3⟩
      | prod s b c =>
        obtain ⟨h1, h2, h3, h4⟩ := Binary.fusedSub_rel (a := a) (b := b) (c := c) h
        exact ⟨h1, ⟨h2, h3⟩, h4⟩
  fin_mul := by
    intro a b h
    cases b with
    | prod s b c => cases a <;> exact h.elim
    | val s b =>
      cases a with
      | val t a => exact ⟨(times_rel h).1, (times_rel h).2.1⟩
      | prod t a c =>
        obtain ⟨h1, h2, -⟩ := times_rel h
        obtain ⟨h3, h4, -⟩ := Binary.finite_mul h1
        exact ⟨⟨h3, h4⟩, h2⟩
  mul := by
    intro a b ha h
    cases a with
    | prod t a c => exact ha.elim
    | val t a =>
      cases b with
      | prod s b c => exact h.elim
      | val s b => exact (times_rel h).2.2
  mul_mul := by
    intro a b c ha h
    have hη : (2 : ℚ) ^ (fmt.minExp - 1) ≤ 2 ^ fmt.minExp := zpow_le_zpow_right₀ (by norm_num) (by omega)
    cases a with
    | prod t a c => exact ha.elim
    | val t a =>
      cases b with
      | prod s b d =>
        cases c with
        | prod r c e => exact h.elim
        | val r c =>
          change (times (C.mul t s) r .nan c).Finite at h
          exact (times_rel h).1.elim
      | val s b =>
        cases c with
        | prod r c d =>
          change ((times t s a b) * prod r c d).Finite at h
          generalize times t s a b = x at h
          cases x <;> exact h.elim
        | val r c =>
          change ((times t s a b) * val r c).Finite at h
          change ∃ δ e δ' e', _ ∧ _ ∧ _ ∧ _ ∧ ((times t s a b) * val r c).toRat = _
          have e : (times t s a b) * val r c = times (C.mul t s) r (a * b) c := by
            unfold times
            split <;> rfl
          rw [e] at h ⊢
          obtain ⟨h1, -, δ, e, hδ, he, h2⟩ := times_rel h
          obtain ⟨δ', e', hδ', he', h3⟩ := Binary.mul_rel h1
          exact ⟨δ, e, δ', e', hδ, he, hδ', he'.trans hη, by rw [h2, h3]; rfl⟩
  div := by
    intro a b hb h
    have hη : (2 : ℚ) ^ (fmt.minExp - 1) ≤ 2 ^ fmt.minExp := zpow_le_zpow_right₀ (by norm_num) (by omega)
    cases a with
    | prod t a c => cases b <;> exact h.elim
    | val t a =>
      cases b with
      | prod s b c => exact h.elim
      | val s b =>
        obtain ⟨h1, h2, h3⟩ := Binary.finite_div (a := a) (b := b) hb h
        obtain ⟨δ, e, hδ, he, h4⟩ := fmt.round_rel (a.toRat / b.toRat)
        exact ⟨h1, trivial, h2, δ, e, hδ, he.trans hη, h3.trans h4⟩

end Contracted

end Ctldl
