import Verif.Lemmas.Basic
import Verif.Spec.TestMatrix
import Mathlib.Tactic.Ring
import Mathlib.Algebra.BigOperators.Ring.Finset
import Mathlib.Data.Nat.ModEq

/-! # Random patterns of the tests -/

namespace Ctldl

open Finset

/-! ### The generator -/

private theorem step_mod (a c k x S m : Nat) (h : S * a + 1 = c) :
    (a ^ (k + 1) * x + c) % m = ((a ^ k * x + S) % m * a + 1) % m := by
  rw [Nat.add_mod ((a ^ k * x + S) % m * a), Nat.mod_mul_mod, ← Nat.add_mod, ← h]
  congr 1
  ring

theorem lcgNext_eq (x : Nat) : lcgNext x = (x * multiplier + 1) % 2 ^ 64 := rfl

theorem multiplier_eq : ∃ b, multiplier = b + 1 ∧ b % 4 = 0 := ⟨6364136223846793004, rfl, rfl⟩

theorem generatorState_succ (seed k : Nat) : generatorState seed (k + 1) = lcgNext (generatorState seed k) := by
  rw [lcgNext_eq]
  by_cases hk : k = 0
  · subst hk
    unfold generatorState
    rw [if_neg (by omega), if_pos rfl, sum_range_one, Nat.zero_add, pow_one, pow_zero, Nat.mul_comm]
  · unfold generatorState
    rw [if_neg hk, if_neg (Nat.succ_ne_zero k)]
    refine step_mod _ _ _ _ _ _ ?_
    rw [sum_range_succ', pow_zero, sum_mul]
    simp only [pow_succ]

theorem generatorState_zero (seed : Nat) : generatorState seed 0 = seed := if_pos rfl

theorem generatorState_add (seed k l : Nat) :
    generatorState seed (k + l) = generatorState (generatorState seed k) l := by
  induction l with
  | zero => rw [generatorState_zero, Nat.add_zero]
  | succ l ih => rw [← Nat.add_assoc, generatorState_succ, ih, generatorState_succ]

theorem generatorState_lt (seed k : Nat) (hk : 0 < k) : generatorState seed k < 2 ^ 64 := by
  unfold generatorState
  rw [if_neg (by omega)]
  exact Nat.mod_lt _ (by decide)

private theorem geom_odd {a d : Nat} (ha : a % 4 = 1) : (∑ i ∈ range d, a ^ i) % 2 = d % 2 := by
  induction d with
  | zero => simp
  | succ d ih =>
    have : a ^ d % 2 = 1 := by
      rw [Nat.pow_mod, show a % 2 = 1 by omega, one_pow]; rfl
    rw [sum_range_succ, Nat.add_mod, ih, this]
    omega

private theorem geom_double (a e : Nat) : ∑ i ∈ range (2 * e), a ^ i = (∑ i ∈ range e, a ^ i) * (1 + a ^ e) := by
  rw [two_mul, sum_range_add, mul_add, mul_one, sum_mul]
  congr 1
  refine sum_congr rfl fun i _ => ?_
  rw [pow_add, mul_comm]

private theorem coprime_dvd {k n m : Nat} (h : Nat.Coprime k n) : k ∣ m * n ↔ k ∣ m :=
  ⟨h.dvd_of_dvd_mul_right, fun h' => Dvd.dvd.mul_right h' n⟩

private theorem coprime_odd (m q : Nat) : Nat.Coprime (2 ^ m) (2 * q + 1) := by
  refine Nat.Coprime.pow_left _ ?_
  rw [Nat.coprime_mul_left_add_right]
  exact Nat.coprime_one_right 2

/-- A geometric sum with a ratio of one modulo four is divisible by the same powers of two as the number of its
terms. -/
theorem geom_dvd {a : Nat} (ha : a % 4 = 1) (m : Nat) : ∀ d, 2 ^ m ∣ ∑ i ∈ range d, a ^ i ↔ 2 ^ m ∣ d := by
  induction m with
  | zero => intro d; simp
  | succ m ih =>
    intro d
    have h2 : (2 : Nat) ∣ 2 ^ (m + 1) := dvd_pow_self 2 (by omega)
    have hodd := geom_odd (d := d) ha
    by_cases hd : d % 2 = 0
    · obtain ⟨e, rfl⟩ : ∃ e, d = 2 * e := ⟨d / 2, by omega⟩
      have h4 : a ^ e % 4 = 1 := by
        rw [Nat.pow_mod, ha, one_pow]; rfl
      obtain ⟨q, hq⟩ : ∃ q, 1 + a ^ e = 2 * (2 * q + 1) := ⟨(1 + a ^ e) / 4, by omega⟩
      rw [geom_double, hq, mul_left_comm, pow_succ', Nat.mul_dvd_mul_iff_left (by decide),
        Nat.mul_dvd_mul_iff_left (by decide), ← ih e]
      exact coprime_dvd (coprime_odd m q)
    · constructor
      · intro h
        have := (Nat.dvd_trans h2 h)
        omega
      · intro h
        have := (Nat.dvd_trans h2 h)
        omega

private theorem geom_closed (b d : Nat) : (∑ i ∈ range d, (b + 1) ^ i) * b + 1 = (b + 1) ^ d := by
  induction d with
  | zero => simp
  | succ d ih => rw [sum_range_succ, add_mul, add_right_comm, ih]; ring

private theorem returns (b x d m : Nat) (hb : b % 4 = 0) (hx : x < 2 ^ m) :
    ((b + 1) ^ d * x + ∑ i ∈ range d, (b + 1) ^ i) % 2 ^ m = x ↔ 2 ^ m ∣ d := by
  rw [← geom_dvd (a := b + 1) (by omega) m d]
  generalize hS : ∑ i ∈ range d, (b + 1) ^ i = S
  obtain ⟨q, rfl⟩ : ∃ q, b = 2 * q := ⟨b / 2, by omega⟩
  have hgeo : (2 * q + 1) ^ d * x + S = x + S * (2 * (q * x) + 1) := by
    rw [← geom_closed, hS]
    ring
  rw [hgeo, ← coprime_dvd (coprime_odd m (q * x)) (m := S)]
  generalize S * (2 * (q * x) + 1) = y
  generalize 2 ^ m = M at *
  constructor
  · intro h
    have h1 : (x + y) % M = (x + 0) % M := by rw [h, add_zero, Nat.mod_eq_of_lt hx]
    exact Nat.modEq_zero_iff_dvd.mp (Nat.ModEq.add_left_cancel' x h1)
  · rintro ⟨z, rfl⟩
    rw [Nat.add_mul_mod_self_left, Nat.mod_eq_of_lt hx]

/-- The generator returns to a state exactly after multiples of the largest possible period. -/
theorem generatorState_eq_iff (x d : Nat) (hx : x < 2 ^ 64) : generatorState x d = x ↔ 2 ^ 64 ∣ d := by
  by_cases hd : d = 0
  · subst hd
    rw [generatorState_zero]
    exact ⟨fun _ => Dvd.intro_left 0 (Nat.zero_mul _), fun _ => rfl⟩
  unfold generatorState
  rw [if_neg hd]
  obtain ⟨b, h1, h2⟩ := multiplier_eq
  rw [h1]
  exact returns b x d 64 h2 hx

/-! ### Matrices of booleans -/

/-- A cell of a matrix given by its rows. -/
def cell (values : List (List Bool)) (i j : Nat) : Option Bool := values[i]?.bind (·[j]?)

/-- `values` are `r` rows of length `c`. -/
def RowsOf (values : List (List Bool)) (r c : Nat) : Prop := values.length = r ∧ ∀ row ∈ values, row.length = c

theorem setCell_sat {values : List (List Bool)} {r c i j : Nat} (h : RowsOf values r c) (hi : i < r) (hj : j < c)
    (b : Bool) :
    Sat (setCell values i j b) (fun w => RowsOf w r c ∧
      ∀ a e, cell w a e = if a = i ∧ e = j then some b else cell values a e) := by
  unfold setCell
  have hi' : i < values.length := by rw [h.1]; exact hi
  have hl : values[i].length = c := h.2 _ (List.getElem_mem hi')
  rw [rd_ok hi', ok_bind, wr_ok (by omega), ok_bind, wr_ok hi']
  refine Sat.ok ⟨⟨by simp [h.1], fun row hrow => ?_⟩, fun a e => ?_⟩
  · rcases List.mem_or_eq_of_mem_set hrow with h1 | h1
    · exact h.2 _ h1
    · rw [h1, List.length_set, hl]
  · unfold cell
    rw [List.getElem?_set]
    by_cases ha : a = i
    · subst ha
      rw [if_pos rfl, if_pos hi', Option.bind_some, List.getElem?_set, List.getElem?_eq_getElem hi', Option.bind_some]
      by_cases he : e = j
      · rw [if_pos he.symm, if_pos (by rw [hl]; exact hj), if_pos ⟨rfl, he⟩]
      · rw [if_neg (Ne.symm he), if_neg (by simp [he])]
    · rw [if_neg (Ne.symm ha), if_neg (by simp [ha])]

theorem boolMatrixDistribution_sat {r c : Nat} {init : List (List Bool)} (h : RowsOf init r c) (seed : Nat) :
    Sat (boolMatrixDistribution r c init seed) (fun st => RowsOf st.1 r c ∧ st.2 = generatorState seed (r * c) ∧
      ∀ a < r, ∀ e < c, cell st.1 a e = some (decide (generatorState seed (a * c + e + 1) < 2 ^ 63))) := by
  unfold boolMatrixDistribution
  refine (foldlM_range_inv (fun i (st : List (List Bool) × Nat) => RowsOf st.1 r c ∧
    st.2 = generatorState seed (i * c) ∧
    ∀ a < i, ∀ e < c, cell st.1 a e = some (decide (generatorState seed (a * c + e + 1) < 2 ^ 63)))
    ⟨h, by rw [Nat.zero_mul, generatorState_zero], fun a ha => absurd ha (by omega)⟩ ?_)
  rintro i st hi ⟨h1, h2, h3⟩
  refine (foldlM_range_inv (fun j (st : List (List Bool) × Nat) => RowsOf st.1 r c ∧
    st.2 = generatorState seed (i * c + j) ∧
    ∀ a e, (a < i ∨ a = i ∧ e < j) → e < c → cell st.1 a e = some (decide (generatorState seed (a * c + e + 1) < 2 ^ 63)))
    ⟨h1, h2, fun a e hae he => h3 a (by omega) e he⟩ ?_).mono ?_
  · rintro j st' hj ⟨h4, h5, h6⟩
    refine Sat.bind (setCell_sat h4 hi hj (decide (lcgNext st'.2 < 2 ^ 63))) ?_
    rintro w ⟨h7, h8⟩
    refine Sat.ok ⟨h7, ?_, fun a e hae he => ?_⟩
    · simp only
      rw [h5, ← Nat.add_assoc, generatorState_succ]
    · simp only
      rw [h8]
      by_cases hc : a = i ∧ e = j
      · rw [if_pos hc, h5, ← generatorState_succ, hc.1, hc.2]
      · rw [if_neg hc]
        exact h6 a e (by omega) he
  · rintro w ⟨h4, h5, h6⟩
    refine ⟨h4, by rw [h5, Nat.succ_mul], fun a ha e he => h6 a e ?_ he⟩
    omega

theorem applyRandomMatrixSparsityKind_sat {n : Nat} {values : List (List Bool)} (h : RowsOf values n n) :
    Sat (applyRandomMatrixSparsityKind .symmetric n n values) (fun w => RowsOf w n n ∧
      ∀ a < n, ∀ e < n, cell w a e = if a = e then some true else if e < a then cell values a e else some false) := by
  unfold applyRandomMatrixSparsityKind
  simp only
  rw [staticAssert_true (by simp), ok_bind]
  refine Sat.bind (foldlM_range_inv (fun i (w : List (List Bool)) => RowsOf w n n ∧
    ∀ a < n, ∀ e < n, cell w a e = if a < i ∧ a < e then some false else cell values a e)
    ⟨h, fun a ha e he => by rw [if_neg (by omega)]⟩ ?_) ?_
  · rintro i w hi ⟨h1, h2⟩
    have := foldlM_range'_inv (f := fun isNonzero j => setCell isNonzero i j false) (b := i + 1) (n := n - (i + 1))
      (init := w) (fun j (w' : List (List Bool)) => RowsOf w' n n ∧
        ∀ a < n, ∀ e < n, cell w' a e = if a < i ∧ a < e ∨ a = i ∧ a < e ∧ e < j then some false else cell values a e)
      ⟨h1, fun a ha e he => by
        rw [h2 a ha e he]
        by_cases hc : a < i ∧ a < e
        · rw [if_pos hc, if_pos (Or.inl hc)]
        · rw [if_neg hc, if_neg (by omega)]⟩
      (by
        rintro j w' hj1 hj2 ⟨h3, h4⟩
        refine (setCell_sat h3 hi (by omega) false).mono ?_
        rintro w'' ⟨h5, h6⟩
        refine ⟨h5, fun a ha e he => ?_⟩
        rw [h6, h4 a ha e he]
        by_cases hc : a = i ∧ e = j
        · rw [if_pos hc, if_pos (by omega)]
        · rw [if_neg hc]
          refine if_congr ?_ rfl rfl
          omega)
    refine this.mono ?_
    rintro w' ⟨h3, h4⟩
    refine ⟨h3, fun a ha e he => ?_⟩
    rw [h4 a ha e he]
    refine if_congr ?_ rfl rfl
    omega
  · rintro w ⟨h1, h2⟩
    refine (foldlM_range_inv (fun i (w' : List (List Bool)) => RowsOf w' n n ∧
      ∀ a < n, ∀ e < n, cell w' a e = if a = e ∧ a < i then some true else
        if a < n ∧ a < e then some false else cell values a e)
      ⟨h1, fun a ha e he => by rw [if_neg (by omega), h2 a ha e he]⟩ ?_).mono ?_
    · rintro i w' hi ⟨h3, h4⟩
      refine (setCell_sat h3 hi hi true).mono ?_
      rintro w'' ⟨h5, h6⟩
      refine ⟨h5, fun a ha e he => ?_⟩
      rw [h6, h4 a ha e he]
      by_cases hc : a = i ∧ e = i
      · rw [if_pos hc, if_pos (by omega)]
      · rw [if_neg hc]
        refine if_congr ?_ rfl rfl
        omega
    · rintro w' ⟨h3, h4⟩
      refine ⟨h3, fun a ha e he => ?_⟩
      rw [h4 a ha e he]
      by_cases h5 : a = e
      · rw [if_pos ⟨h5, ha⟩, if_pos h5]
      · rw [if_neg (by omega), if_neg h5]
        by_cases h6 : e < a
        · rw [if_pos h6, if_neg (by omega)]
        · rw [if_neg h6, if_pos (by omega)]

end Ctldl
