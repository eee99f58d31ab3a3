import Verif.Spec.RoundingAdd
import Verif.Lemmas.Contracted
import Verif.Lemmas.Mixed
import Verif.Lemmas.Rounding
import Verif.Lemmas.MultiplyHom
import Verif.Lemmas.MultiplyArrowhead
import Verif.Lemmas.Oblivious
import Mathlib.Data.List.GetD
import Mathlib.Algebra.Group.Prod

/-! # Rounding errors of multiplications -/

namespace Ctldl

open Finset

/-! ## Sums of binary floating point numbers -/

namespace Binary

variable {fmt : Format}

theorem finite_neg {a : Binary fmt} : a.neg.Finite ↔ a.Finite := by cases a <;> rfl

theorem toRat_neg (a : Binary fmt) : a.neg.toRat = -a.toRat := by
  cases a <;> simp [neg, toRat]

theorem add_rel {a b : Binary fmt} (h : (a + b).Finite) : a.Finite ∧ b.Finite ∧
    ∃ δ : ℚ, |δ| ≤ 2 ^ (-fmt.precision : Int) ∧ (a + b).toRat = (a.toRat + b.toRat) * (1 + δ) := by
  obtain ⟨h1, h2, δ, hδ, h3⟩ := sub_rel (a := a) (b := b.neg) h
  refine ⟨h1, finite_neg.mp h2, δ, hδ, ?_⟩
  rw [toRat_neg, sub_neg_eq_add] at h3
  exact h3

/-- Binary formats satisfy the standard model. -/
def roundingAdd (fmt : Format) : RoundingAdd (Binary fmt) ℚ where
  __ := rounding fmt
  add := by
    intro a b h
    obtain ⟨h1, h2, δ, hδ, h3⟩ := add_rel h
    exact ⟨h1, h2, δ, 0, hδ, by rw [abs_zero]; exact le_rfl, h3.trans (add_zero _).symm⟩

end Binary

namespace Contracted

variable {fmt : Format} {C : Contraction}

/-- Binary formats with contracted expressions satisfy the standard model. -/
def roundingAdd (fmt : Format) (C : Contraction) : RoundingAdd (Contracted fmt C) ℚ where
  __ := rounding fmt C
  add := by
    intro a b h
    cases a with
    | prod t x y => cases b <;> exact h.elim
    | val t a =>
      cases b with
      | val s b =>
        obtain ⟨h1, h2, δ, hδ, h3⟩ := Binary.add_rel (a := a) (b := b) h
        exact ⟨h1, h2, δ, 0, hδ, by rw [abs_zero]; exact (two_zpow_pos _).le, h3.trans (add_zero _).symm⟩
      | prod s b c =>
        obtain ⟨h1, h2, h3, δ, e, hδ, he, h4⟩ := Binary.fusedSub_rel (a := a) (b := b.neg) (c := c) h
        rw [Binary.toRat_neg, neg_mul, sub_neg_eq_add] at h4
        exact ⟨h1, ⟨Binary.finite_neg.mp h2, h3⟩, δ, e, hδ, he, h4⟩

end Contracted

/-! ## Four multiplications at once

The computed one, the exact one, the one of the absolute values, and the one which counts products. -/

section

variable {K F : Type} [Zero K] [Add K] [Sub K] [Mul K] [Div K] [Field F] [LinearOrder F] [IsStrictOrderedRing F]

namespace RoundingAdd

variable (R : RoundingAdd K F)

/-- A number of the matrix or of the vector to multiply with. -/
def lift (a : K) : K × F × F × ℕ := (a, R.v a, |R.v a|, 1)

/-- A number of the right-hand side. -/
def liftRhs (a : K) : K × F × F × ℕ := (a, R.v a, |R.v a|, 0)

/-- The relation of partial sums. -/
def Sum (s : K × F × F × ℕ) : Prop := R.fin s.1 → R.Apx (s.2.2.2 + 1) (R.v s.1) s.2.1 s.2.2.1 (s.2.2.2 * R.η)

/-- The relation of products. -/
def Product (t : K × F × F × ℕ) : Prop := t.2.2.2 = 1 ∧ (R.fin t.1 → R.Apx 1 (R.v t.1) t.2.1 t.2.2.1 R.μ)

variable {R}

theorem product_lift {a y : K} (ha : R.stored a) : R.Product (R.lift a * R.lift y) := by
  refine ⟨rfl, fun h => ?_⟩
  obtain ⟨δ, e, hδ, he, hv⟩ := R.mul (a := a) (b := y) ha h
  change R.Apx 1 (R.v (a * y)) (R.v a * R.v y) (|R.v a| * |R.v y|) R.μ
  rw [hv, ← abs_mul]
  have h1 := ((Rounding.Apx.refl (R := R.toRounding) 0 (R.v a * R.v y)).mul_round hδ).add_err he
  rwa [zero_add R.μ] at h1

theorem sum_liftRhs (a : K) : R.Sum (R.liftRhs a) := by
  intro _
  change R.Apx 1 (R.v a) (R.v a) |R.v a| (((0 : ℕ) : F) * R.η)
  rw [Nat.cast_zero, zero_mul]
  exact Rounding.Apx.refl 1 _

theorem sum_add (s t : K × F × F × ℕ) (hs : R.Sum s) (ht : R.Product t) : R.Sum (s + t) := by
  intro h
  obtain ⟨ht1, ht⟩ := ht
  obtain ⟨h1, h2, δ, e, hδ, he, hv⟩ := R.add (a := s.1) (b := t.1) h
  have hs := hs h1
  have ht := (ht h2).le (m := s.2.2.2 + 1) (by omega)
  have h3 := ((hs.add ht).mul_round hδ).add_err he
  rw [← hv] at h3
  change R.Apx (s.2.2.2 + t.2.2.2 + 1) (R.v (s.1 + t.1)) (s.2.1 + t.2.1) (s.2.2.1 + t.2.2.1) _
  rw [ht1]
  refine h3.mono le_rfl le_rfl ?_
  change _ ≤ ((s.2.2.2 + t.2.2.2 : ℕ) : F) * R.η
  rw [ht1]
  have := R.μ_add_σ
  push_cast
  linarith

end RoundingAdd

theorem hom_fst {A B : Type} [Add A] [Mul A] [Add B] [Mul B] : MulHom' (Prod.fst : A × B → A) :=
  ⟨fun _ _ => rfl, fun _ _ => rfl⟩

omit [Zero K] [Sub K] [Div K] [LinearOrder F] [IsStrictOrderedRing F] in
theorem hom_exact : MulHom' (fun s : K × F × F × ℕ => s.2.1) := ⟨fun _ _ => rfl, fun _ _ => rfl⟩

omit [Zero K] [Sub K] [Div K] [LinearOrder F] [IsStrictOrderedRing F] in
theorem hom_abs : MulHom' (fun s : K × F × F × ℕ => s.2.2.1) := ⟨fun _ _ => rfl, fun _ _ => rfl⟩

omit [Zero K] [Sub K] [Div K] [LinearOrder F] [IsStrictOrderedRing F] in
theorem hom_count : MulHom' (fun s : K × F × F × ℕ => s.2.2.2) := ⟨fun _ _ => rfl, fun _ _ => rfl⟩

theorem RoundingAdd.sum_zero {R : RoundingAdd K F} : R.Sum 0 := by
  intro _
  change R.Apx 1 (R.v 0) 0 0 (((0 : ℕ) : F) * R.η)
  rw [Nat.cast_zero, zero_mul, R.v_zero]
  have := Rounding.Apx.refl (R := R.toRounding) 1 0
  rwa [abs_zero] at this

omit [Add K] [Sub K] [Mul K] [Div K] in
theorem getD_keeps {P : K → Prop} (h0 : P 0) {l : List K} (h : ∀ a ∈ l, P a) (i : Nat) : P (l.getD i 0) := by
  rw [List.getD_eq_getElem?_getD]
  cases h' : l[i]? with
  | none => exact h0
  | some a => exact h a (List.mem_of_getElem? h')

omit [Add K] [Sub K] [Mul K] [Div K] in
theorem blockAt_keeps {P : K → Prop} (h0 : P 0) {l : List (List K)} (h : ∀ a ∈ l.flatMap id, P a) (t i : Nat) :
    P (blockAt l t i) := by
  refine getD_keeps h0 ?_ i
  rw [List.getD_eq_getElem?_getD]
  cases h' : l[t]? with
  | none => exact fun a ha => (List.not_mem_nil ha).elim
  | some b => exact fun a ha => h a (List.mem_flatMap.mpr ⟨b, List.mem_of_getElem? h', ha⟩)

omit [Add K] [Sub K] [Mul K] [Div K] in
theorem at_keeps {P : K → Prop} (h0 : P 0) {x : ArrowheadVector K} (h : ∀ a ∈ x.numbers, P a) (b : Blk) (i : Nat) :
    P (x.at b i) := by
  simp only [ArrowheadVector.numbers, List.mem_append, or_imp, forall_and] at h
  obtain ⟨h1, h2, h3, h4⟩ := h
  cases b with
  | start => exact getD_keeps h0 h1 i
  | tridiag t => exact blockAt_keeps h0 h2 t i
  | link => exact getD_keeps h0 h3 i
  | outer => exact getD_keeps h0 h4 i

omit [Add K] [Sub K] [Mul K] [Div K] [Field F] [LinearOrder F] [IsStrictOrderedRing F] in
theorem blockAt_map [Zero F] {g : K → F} (g0 : g 0 = 0) (l : List (List K)) (t i : Nat) :
    blockAt (l.map (List.map g)) t i = g (blockAt l t i) := by
  unfold blockAt
  simp only [List.getD_eq_getElem?_getD, List.getElem?_map]
  cases l[t]? with
  | none => exact g0.symm
  | some b =>
    simp only [Option.map_some, Option.getD_some, List.getElem?_map]
    cases b[i]? with
    | none => exact g0.symm
    | some a => rfl

/-- A property of the four numbers which is kept by adding products holds for the results of the four multiplications. -/
theorem multiply_lift {R : RoundingAdd K F} {P Q : K × F × F × ℕ → Prop} (hadd : ∀ s t, P s → Q t → P (s + t)) (h0 : P 0)
    {kind : MultiplyKind} {m : MatIn K} {x rhs v : List K}
    (hprod : ∀ a ∈ m.numbers, ∀ y ∈ x, Q (R.lift a * R.lift y)) (hrhs : ∀ a ∈ rhs, P (R.liftRhs a))
    (hv : multiply kind m x rhs = .ok v) :
    ∃ s A n, multiply kind (m.map R.v) (x.map R.v) (rhs.map R.v) = .ok s ∧
      multiply kind (m.map fun a => |R.v a|) (x.map fun a => |R.v a|) (rhs.map fun a => |R.v a|) = .ok A ∧
      multiply kind (m.map fun _ => 1) (x.map fun _ => 1) (rhs.map fun _ => 0) = .ok n ∧
      ∀ i, P (v.getD i 0, s.getD i 0, A.getD i 0, n.getD i 0) := by
  have e : ∀ {K' : Type} [Add K'] [Mul K'] (h : K × F × F × ℕ → K') (_ : MulHom' h) ,
      multiply kind (m.map fun a => h (R.lift a)) (x.map fun a => h (R.lift a)) (rhs.map fun a => h (R.liftRhs a)) =
        (do return (← multiply kind (m.map R.lift) (x.map R.lift) (rhs.map R.liftRhs)).map h) := by
    intro K' _ _ h hh
    rw [← multiply_hom hh]
    simp only [MatIn.map, List.map_map]
    rfl
  have e1 := e _ hom_fst
  have id1 : (m.map fun a => (R.lift a).1) = m := by
    change (⟨m.sparsity, m.values.map id⟩ : MatIn K) = m
    rw [List.map_id]
  have id2 : (x.map fun a => (R.lift a).1) = x := List.map_id x
  have id3 : (rhs.map fun a => (R.liftRhs a).1) = rhs := List.map_id rhs
  rw [id1, id2, id3, hv] at e1
  cases hw : multiply kind (m.map R.lift) (x.map R.lift) (rhs.map R.liftRhs) with
  | error e => rw [hw] at e1; cases e1
  | ok w =>
    rw [hw] at e1
    have hvw : v = w.map Prod.fst := by injection e1
    refine ⟨_, _, _, (e _ hom_exact).trans (by rw [hw]; rfl), (e _ hom_abs).trans (by rw [hw]; rfl),
      (e _ hom_count).trans (by rw [hw]; rfl), fun i => ?_⟩
    have inv := multiply_inv (P := P) (Q := Q) hadd (m := m.map R.lift) (x := x.map R.lift)
      (rhs := rhs.map R.liftRhs) (by
        intro a ha y hy
        obtain ⟨b, hb, rfl⟩ := List.mem_map.mp ha
        obtain ⟨z, hz, rfl⟩ := List.mem_map.mp hy
        exact hprod b hb z hz) (by
        intro a ha
        obtain ⟨b, hb, rfl⟩ := List.mem_map.mp ha
        exact hrhs b hb) hw
    have h0 := getD_keeps h0 inv i
    subst hvw
    have key : ∀ {K' : Type} [Zero K'] (g : K × F × F × ℕ → K'), g 0 = 0 → (w.map g).getD i 0 = g (w.getD i 0) :=
      fun g g0 => by rw [← g0, List.getD_map]
    rw [key Prod.fst rfl, key (fun s => s.2.1) rfl, key (fun s => s.2.2.1) rfl, key (fun s => s.2.2.2) rfl]
    exact h0

/-- The same for block tridiagonal matrices. -/
theorem multiplyTridiagonal_lift {R : RoundingAdd K F} {P Q : K × F × F × ℕ → Prop}
    (hadd : ∀ s t, P s → Q t → P (s + t)) (h0 : P 0) {A B : List (MatIn K)} {x rhs v : List (List K)}
    (hA : ∀ m ∈ A, ∀ a ∈ m.numbers, ∀ z ∈ x, ∀ y ∈ z, Q (R.lift a * R.lift y))
    (hB : ∀ m ∈ B, ∀ a ∈ m.numbers, ∀ z ∈ x, ∀ y ∈ z, Q (R.lift a * R.lift y))
    (hrhs : ∀ z ∈ rhs, ∀ a ∈ z, P (R.liftRhs a)) (hv : multiplyRepeatingBlockTridiagonal A B x rhs = .ok v) :
    ∃ s S n, multiplyRepeatingBlockTridiagonal (A.map (·.map R.v)) (B.map (·.map R.v)) (x.map (List.map R.v))
        (rhs.map (List.map R.v)) = .ok s ∧
      multiplyRepeatingBlockTridiagonal (A.map (·.map fun a => |R.v a|)) (B.map (·.map fun a => |R.v a|))
        (x.map (List.map fun a => |R.v a|)) (rhs.map (List.map fun a => |R.v a|)) = .ok S ∧
      multiplyRepeatingBlockTridiagonal (A.map (·.map fun _ => 1)) (B.map (·.map fun _ => 1))
        (x.map (List.map fun _ => 1)) (rhs.map (List.map fun _ => 0)) = .ok n ∧
      ∀ t i, P (blockAt v t i, blockAt s t i, blockAt S t i, blockAt n t i) := by
  have e : ∀ {K' : Type} [Add K'] [Mul K'] (h : K × F × F × ℕ → K') (_ : MulHom' h) ,
      multiplyRepeatingBlockTridiagonal (A.map (·.map fun a => h (R.lift a))) (B.map (·.map fun a => h (R.lift a)))
        (x.map (List.map fun a => h (R.lift a))) (rhs.map (List.map fun a => h (R.liftRhs a))) =
        (do return (← multiplyRepeatingBlockTridiagonal (A.map (·.map R.lift)) (B.map (·.map R.lift))
          (x.map (List.map R.lift)) (rhs.map (List.map R.liftRhs))).map (List.map h)) := by
    intro K' _ _ h hh
    rw [← multiplyRepeatingBlockTridiagonal_hom hh]
    simp only [MatIn.map, List.map_map, Function.comp_def]
  have e1 := e _ hom_fst
  have idM : ∀ l : List (MatIn K), (l.map (·.map fun a => (R.lift a).1)) = l := by
    intro l
    have : (fun m : MatIn K => m.map fun a => (R.lift a).1) = id := by
      funext m
      change (⟨m.sparsity, m.values.map id⟩ : MatIn K) = m
      rw [List.map_id]
    rw [this, List.map_id]
  have id2 : (x.map (List.map fun a => (R.lift a).1)) = x := by
    have : (List.map fun a => (R.lift a).1) = id := by funext l; exact List.map_id l
    rw [this, List.map_id]
  have id3 : (rhs.map (List.map fun a => (R.liftRhs a).1)) = rhs := by
    have : (List.map fun a => (R.liftRhs a).1) = id := by funext l; exact List.map_id l
    rw [this, List.map_id]
  rw [idM, idM, id2, id3, hv] at e1
  cases hw : multiplyRepeatingBlockTridiagonal (A.map (·.map R.lift)) (B.map (·.map R.lift))
          (x.map (List.map R.lift)) (rhs.map (List.map R.liftRhs)) with
  | error e => rw [hw] at e1; cases e1
  | ok w =>
    rw [hw] at e1
    have hvw : v = w.map (List.map Prod.fst) := by injection e1
    refine ⟨_, _, _, (e _ hom_exact).trans (by rw [hw]; rfl), (e _ hom_abs).trans (by rw [hw]; rfl),
      (e _ hom_count).trans (by rw [hw]; rfl), fun t i => ?_⟩
    have hst : ∀ l : List (MatIn K), (∀ m ∈ l, ∀ a ∈ m.numbers, ∀ z ∈ x, ∀ y ∈ z, Q (R.lift a * R.lift y)) →
        ∀ m ∈ l.map (·.map R.lift), ∀ a ∈ m.numbers, ∀ z ∈ x.map (List.map R.lift), ∀ y ∈ z, Q (a * y) := by
      intro l hl m hm a ha z hz y hy
      obtain ⟨m', hm', rfl⟩ := List.mem_map.mp hm
      obtain ⟨b, hb, rfl⟩ := List.mem_map.mp ha
      obtain ⟨z', hz', rfl⟩ := List.mem_map.mp hz
      obtain ⟨z, hz, rfl⟩ := List.mem_map.mp hy
      exact hl m' hm' b hb z' hz' z hz
    have inv := multiplyRepeatingBlockTridiagonal_inv (P := P) (Q := Q) hadd
      (hst A hA) (hst B hB) (by
        intro a ha
        obtain ⟨l, hl, ha⟩ := List.mem_flatMap.mp ha
        obtain ⟨l', hl', rfl⟩ := List.mem_map.mp hl
        obtain ⟨b, hb, rfl⟩ := List.mem_map.mp ha
        exact hrhs l' hl' b hb) hw
    have h0 := blockAt_keeps h0 inv t i
    subst hvw
    rw [blockAt_map (g := Prod.fst) rfl, blockAt_map (g := fun s : K × F × F × ℕ => s.2.1) rfl,
      blockAt_map (g := fun s : K × F × F × ℕ => s.2.2.1) rfl, blockAt_map (g := fun s : K × F × F × ℕ => s.2.2.2) rfl]
    exact h0

/-- The same for tridiagonal arrowhead linked matrices. -/
theorem multiplyArrowhead_lift {R : RoundingAdd K F} {P Q : K × F × F × ℕ → Prop}
    (hadd : ∀ s t, P s → Q t → P (s + t)) (h0 : P 0) {m : ArrowheadMatrix K} {x rhs v : ArrowheadVector K}
    (hprod : ∀ a ∈ m.numbers, ∀ y ∈ x.numbers, Q (R.lift a * R.lift y)) (hrhs : ∀ a ∈ rhs.numbers, P (R.liftRhs a))
    (hv : multiplyArrowheadLinked m x rhs = .ok v) :
    ∃ s S n, multiplyArrowheadLinked (m.map R.v) (x.map R.v) (rhs.map R.v) = .ok s ∧
      multiplyArrowheadLinked (m.map fun a => |R.v a|) (x.map fun a => |R.v a|) (rhs.map fun a => |R.v a|) = .ok S ∧
      multiplyArrowheadLinked (m.map fun _ => 1) (x.map fun _ => 1) (rhs.map fun _ => 0) = .ok n ∧
      ∀ b i, P (v.at b i, s.at b i, S.at b i, n.at b i) := by
  have e : ∀ {K' : Type} [Add K'] [Mul K'] (h : K × F × F × ℕ → K') (_ : MulHom' h) ,
      multiplyArrowheadLinked (m.map fun a => h (R.lift a)) (x.map fun a => h (R.lift a))
        (rhs.map fun a => h (R.liftRhs a)) =
        (do return (← multiplyArrowheadLinked (m.map R.lift) (x.map R.lift) (rhs.map R.liftRhs)).map h) := by
    intro K' _ _ h hh
    rw [← multiplyArrowheadLinked_hom hh]
    simp only [ArrowheadMatrix.map, ArrowheadVector.map, MatIn.map, List.map_map, Function.comp_def]
  have e1 := e _ hom_fst
  have id1 : (m.map fun a => (R.lift a).1) = m := by
    simp only [ArrowheadMatrix.map, MatIn.map, RoundingAdd.lift, List.map_id']
  have id2 : (x.map fun a => (R.lift a).1) = x := by
    simp only [ArrowheadVector.map, RoundingAdd.lift, List.map_id']
  have id3 : (rhs.map fun a => (R.liftRhs a).1) = rhs := by
    simp only [ArrowheadVector.map, RoundingAdd.liftRhs, List.map_id']
  rw [id1, id2, id3, hv] at e1
  cases hw : multiplyArrowheadLinked (m.map R.lift) (x.map R.lift) (rhs.map R.liftRhs) with
  | error e => rw [hw] at e1; cases e1
  | ok w =>
    rw [hw] at e1
    have hvw : v = w.map Prod.fst := by injection e1
    refine ⟨_, _, _, (e _ hom_exact).trans (by rw [hw]; rfl), (e _ hom_abs).trans (by rw [hw]; rfl),
      (e _ hom_count).trans (by rw [hw]; rfl), fun b i => ?_⟩
    have inv := multiplyArrowheadLinked_inv (P := P) (Q := Q) hadd (m := m.map R.lift)
      (x := x.map R.lift) (rhs := rhs.map R.liftRhs) (by
        intro a ha y hy
        rw [show (m.map R.lift).numbers = m.numbers.map R.lift from numberingArrowheadMatrix.numbers_map _ _] at ha
        rw [show (x.map R.lift).numbers = x.numbers.map R.lift from numberingArrowheadVector.numbers_map _ _] at hy
        obtain ⟨b, hb, rfl⟩ := List.mem_map.mp ha
        obtain ⟨z, hz, rfl⟩ := List.mem_map.mp hy
        exact hprod b hb z hz) (by
        intro a ha
        rw [show (rhs.map R.liftRhs).numbers = rhs.numbers.map R.liftRhs from
          numberingArrowheadVector.numbers_map _ _] at ha
        obtain ⟨b, hb, rfl⟩ := List.mem_map.mp ha
        exact hrhs b hb) hw
    have h0 := at_keeps h0 inv b i
    subst hvw
    rw [ArrowheadVector.at_map (g := Prod.fst) rfl, ArrowheadVector.at_map (g := fun s : K × F × F × ℕ => s.2.1) rfl,
      ArrowheadVector.at_map (g := fun s : K × F × F × ℕ => s.2.2.1) rfl,
      ArrowheadVector.at_map (g := fun s : K × F × F × ℕ => s.2.2.2) rfl]
    exact h0

end

end Ctldl
