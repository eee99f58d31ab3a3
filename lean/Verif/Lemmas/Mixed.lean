import Verif.Lemmas.RoundingArrowhead
import Verif.Lemmas.RoundingSolve
import Verif.Spec.Mixed

/-! # Converted matrices and factors -/

namespace Ctldl

open Finset

section

variable {K F : Type}

theorem matrix_symElement_map [Zero K] [Zero F] {g : K → F} (hg : g 0 = 0) (m : ArrowheadMatrix K) (N : Nat) (a b : Blk)
    (i j : Nat) : (m.map g).symElement N a b i j = g (m.symElement N a b i j) := by
  have e : ∀ b, (m.map g).diagBlock b = (m.diagBlock b).map g := by
    intro b
    cases b <;> simp only [ArrowheadMatrix.diagBlock, ArrowheadMatrix.map, getD_empty_map]
  have e' : ∀ a b, (m.map g).lowerBlock N a b = (m.lowerBlock N a b).map (·.map g) := by
    intro a b
    rcases a with _ | (_ | t) | _ | _ <;> rcases b with _ | u | _ | _ <;>
      simp only [ArrowheadMatrix.lowerBlock, ArrowheadMatrix.map, Option.map_none, Option.map_some,
        apply_ite (Option.map _), List.getElem?_map]
  unfold ArrowheadMatrix.symElement assembledElement
  beta_reduce
  rw [e, e', e']
  split
  · exact sym_map hg _ _ _
  · cases h1 : m.lowerBlock N a b with
    | some l => exact elem_map hg l i j
    | none =>
      cases h2 : m.lowerBlock N b a with
      | some l => exact elem_map hg l j i
      | none => exact hg.symm

theorem DiagFactor.map_congr {f : DiagFactor K} {g g' : K → F} (h : ∀ y, f.Stores y → g y = g' y) :
    f.map g = f.map g' := by
  unfold DiagFactor.map
  rw [List.map_congr_left fun y hy => h y (Or.inl hy), List.map_congr_left fun y hy => h y (Or.inr hy)]

theorem SubFactor.map_congr {f : SubFactor K} {g g' : K → F} (h : ∀ y ∈ f.L, g y = g' y) :
    f.map g = f.map g' := by
  unfold SubFactor.map
  rw [List.map_congr_left h]

theorem ArrowheadFactor.map_congr {f : ArrowheadFactor K} {g g' : K → F} (h : ∀ y, f.Stores y → g y = g' y) :
    f.map g = f.map g' := by
  unfold ArrowheadFactor.map ArrowheadFactor.Stores at *
  congr 1
  · exact DiagFactor.map_congr fun y hy => h y (by tauto)
  · exact SubFactor.map_congr fun y hy => h y (by tauto)
  · exact SubFactor.map_congr fun y hy => h y (by tauto)
  · exact List.map_congr_left fun x hx => DiagFactor.map_congr fun y hy => h y (Or.inr (Or.inr (Or.inr (Or.inl ⟨x, hx, hy⟩))))
  · exact List.map_congr_left fun x hx => SubFactor.map_congr fun y hy => h y (Or.inr (Or.inr (Or.inr (Or.inr (Or.inl ⟨x, hx, hy⟩)))))
  · exact SubFactor.map_congr fun y hy => h y (by tauto)
  · exact DiagFactor.map_congr fun y hy => h y (by tauto)
  · exact SubFactor.map_congr fun y hy => h y (by tauto)
  · exact List.map_congr_left fun x hx => SubFactor.map_congr fun y hy => h y (Or.inr (Or.inr (Or.inr (Or.inr (Or.inr (Or.inr (Or.inr (Or.inr (Or.inl ⟨x, hx, hy⟩)))))))))
  · exact DiagFactor.map_congr fun y hy => h y (by tauto)

theorem DiagFactor.map_map {G : Type} (f : DiagFactor K) (g : K → F) (g' : F → G) :
    (f.map g).map g' = f.map (fun y => g' (g y)) := by
  simp [DiagFactor.map, Function.comp_def]

theorem SubFactor.map_map {G : Type} (f : SubFactor K) (g : K → F) (g' : F → G) :
    (f.map g).map g' = f.map (fun y => g' (g y)) := by
  simp [SubFactor.map, Function.comp_def]

theorem ArrowheadFactor.map_map {G : Type} (f : ArrowheadFactor K) (g : K → F) (g' : F → G) :
    (f.map g).map g' = f.map (fun y => g' (g y)) := by
  simp [ArrowheadFactor.map, DiagFactor.map_map, SubFactor.map_map, Function.comp_def]

theorem ArrowheadMatrix.map_map {G : Type} (m : ArrowheadMatrix K) (g : K → F) (g' : F → G) :
    (m.map g).map g' = m.map (fun y => g' (g y)) := by
  simp [ArrowheadMatrix.map, MatIn.map, Function.comp_def]

theorem ArrowheadVector.at_map {K F : Type} [Zero K] [Zero F] {g : K → F} (g0 : g 0 = 0) (x : ArrowheadVector K) (a : Blk)
    (i : Nat) : (x.map g).at a i = g (x.at a i) := by
  have key : ∀ l : List K, (l.map g).getD i 0 = g (l.getD i 0) := fun l => by rw [← g0, List.getD_map]
  cases a with
  | start => exact key _
  | link => exact key _
  | outer => exact key _
  | tridiag t =>
    change ((x.tridiag.map (·.map g)).getD t []).getD i 0 = g ((x.tridiag.getD t []).getD i 0)
    rw [← key, ← List.getD_map (f := fun l : List K => l.map g)]
    rfl

/-- Elements of the factor are ones or come from stored numbers. -/
theorem factor_lowerElement_map [Zero K] [Field F] (f : ArrowheadFactor K) (N : Nat) (a b : Blk) (i j : Nat) :
    (∀ g : K → F, g 0 = 0 → (f.map g).lowerElement N a b i j = 1) ∨
      ∃ y, ∀ g : K → F, g 0 = 0 → (f.map g).lowerElement N a b i j = g y := by
  have e : ∀ g : K → F, ∀ b, (f.map g).diagBlock b = (f.diagBlock b).map (·.map g) := by
    intro g b
    cases b <;> simp only [ArrowheadFactor.diagBlock, ArrowheadFactor.map, List.getElem?_map, Option.map_some]
  have e' : ∀ g : K → F, ∀ a b, (f.map g).lowerBlock N a b = (f.lowerBlock N a b).map (·.map g) := by
    intro g a b
    rcases a with _ | (_ | t) | _ | _ <;> rcases b with _ | u | _ | _ <;>
      simp only [ArrowheadFactor.lowerBlock, ArrowheadFactor.map, Option.map_none, Option.map_some,
        apply_ite (Option.map _), List.getElem?_map]
  unfold ArrowheadFactor.lowerElement
  simp only [e, e']
  by_cases hab : a = b
  · simp only [if_pos hab]
    cases f.diagBlock a with
    | none => exact Or.inr ⟨0, fun g hg => hg.symm⟩
    | some x =>
      simp only [Option.map_some, unitLower]
      by_cases hij : i = j
      · exact Or.inl fun g _ => if_pos hij
      · exact Or.inr ⟨x.lower i j, fun g hg => by
          rw [if_neg hij]
          exact elem_map hg (⟨x.sparsity.toSparsity, x.L⟩ : MatIn K) i j⟩
  · simp only [if_neg hab]
    cases f.lowerBlock N a b with
    | none => exact Or.inr ⟨0, fun g hg => hg.symm⟩
    | some x => exact Or.inr ⟨x.entry i j, fun g hg => elem_map hg (⟨x.sparsity.toSparsity, x.L⟩ : MatIn K) i j⟩

end

section

variable {K F : Type} [Zero K] [Field F] [LinearOrder F] [IsStrictOrderedRing F]

theorem abs_one_add_le {δ τ : F} (h : |δ| ≤ τ) : |1 + δ| ≤ 1 + τ := by
  refine (abs_add_le _ _).trans ?_
  rw [abs_one]
  linarith

theorem three_rel {δ₁ δ₂ δ₃ τ : F} (h₁ : |δ₁| ≤ τ) (h₂ : |δ₂| ≤ τ) (h₃ : |δ₃| ≤ τ) :
    |(1 + δ₁) * (1 + δ₂) * (1 + δ₃) - 1| ≤ (1 + τ) ^ 3 - 1 ∧ |(1 + δ₁) * (1 + δ₂) * (1 + δ₃)| ≤ (1 + τ) ^ 3 := by
  have h0 : 0 ≤ τ := (abs_nonneg _).trans h₁
  have a₁ := abs_one_add_le h₁
  have a₂ := abs_one_add_le h₂
  have a₃ := abs_one_add_le h₃
  have e : (1 + δ₁) * (1 + δ₂) * (1 + δ₃) - 1 = δ₁ + (1 + δ₁) * δ₂ + (1 + δ₁) * (1 + δ₂) * δ₃ := by ring
  constructor
  · rw [e]
    refine (abs_add_le _ _).trans ?_
    have t1 : |δ₁ + (1 + δ₁) * δ₂| ≤ τ + (1 + τ) * τ := by
      refine (abs_add_le _ _).trans (add_le_add h₁ ?_)
      rw [abs_mul]
      exact mul_le_mul a₁ h₂ (abs_nonneg _) (by linarith)
    have t2 : |(1 + δ₁) * (1 + δ₂) * δ₃| ≤ (1 + τ) * (1 + τ) * τ := by
      rw [abs_mul, abs_mul]
      exact mul_le_mul (mul_le_mul a₁ a₂ (abs_nonneg _) (by linarith)) h₃ (abs_nonneg _)
        (mul_nonneg (by linarith) (by linarith))
    calc _ ≤ τ + (1 + τ) * τ + (1 + τ) * (1 + τ) * τ := add_le_add t1 t2
      _ = (1 + τ) ^ 3 - 1 := by ring
  · rw [abs_mul, abs_mul, pow_succ, pow_two]
    exact mul_le_mul (mul_le_mul a₁ a₂ (abs_nonneg _) (by linarith)) a₃ (abs_nonneg _)
      (mul_nonneg (by linarith) (by linarith))

variable {g g' : K → F} {τ : F} (hg : g 0 = 0) (hg' : g' 0 = 0) (h : ∀ y, ∃ δ, |δ| ≤ τ ∧ g' y = g y * (1 + δ))
  (h0 : 0 ≤ τ)

include hg hg' h h0

theorem lowerElement_rel (f : ArrowheadFactor K) (N : Nat) (a b : Blk) (i j : Nat) :
    ∃ δ, |δ| ≤ τ ∧ (f.map g').lowerElement N a b i j = (f.map g).lowerElement N a b i j * (1 + δ) := by
  rcases factor_lowerElement_map (F := F) f N a b i j with h1 | ⟨y, h1⟩
  · exact ⟨0, by rwa [abs_zero], by rw [h1 g hg, h1 g' hg', add_zero, one_mul]⟩
  · obtain ⟨δ, h2, h3⟩ := h y
    exact ⟨δ, h2, by rw [h1 g hg, h1 g' hg', h3]⟩

theorem term_rel (f : ArrowheadFactor K) (N : Nat) (a b c : Blk) (i j k : Nat) :
    ∃ q, |q - 1| ≤ (1 + τ) ^ 3 - 1 ∧ |q| ≤ (1 + τ) ^ 3 ∧
      (f.map g').lowerElement N a c i k * (f.map g').pivotAt c k * (f.map g').lowerElement N b c j k =
      (f.map g).lowerElement N a c i k * (f.map g).pivotAt c k * (f.map g).lowerElement N b c j k * q := by
  obtain ⟨δ₁, h1, e1⟩ := lowerElement_rel hg hg' h h0 f N a c i k
  obtain ⟨δ₃, h3, e3⟩ := lowerElement_rel hg hg' h h0 f N b c j k
  obtain ⟨δ₂, h2, e2⟩ := h (f.pivotAt c k)
  obtain ⟨q1, q2⟩ := three_rel h1 h2 h3
  refine ⟨_, q1, q2, ?_⟩
  rw [e1, e3, pivotAt_map hg, pivotAt_map hg', e2]
  ring

omit hg' h h0 in
theorem lowerElement_abs (f : ArrowheadFactor K) (N : Nat) (a b : Blk) (i j : Nat) :
    (f.map (fun y => |g y|)).lowerElement N a b i j = |(f.map g).lowerElement N a b i j| := by
  have hz : (fun y => |g y|) 0 = 0 := by simp [hg]
  rcases factor_lowerElement_map (F := F) f N a b i j with h1 | ⟨y, h1⟩
  · rw [h1 g hg, h1 _ hz, abs_one]
  · rw [h1 g hg, h1 _ hz]

omit hg' h h0 in
theorem ldlt_abs (f : ArrowheadFactor K) (d : Dims) (N : Nat) (a b : Blk) (i j : Nat) :
    (f.map (fun y => |g y|)).ldlt d N a b i j = ∑ c ∈ blocks N, ∑ k ∈ range (d.of c),
      |(f.map g).lowerElement N a c i k * (f.map g).pivotAt c k * (f.map g).lowerElement N b c j k| := by
  have hz : (fun y => |g y|) 0 = 0 := by simp [hg]
  unfold ArrowheadFactor.ldlt
  refine sum_congr rfl fun c _ => sum_congr rfl fun k _ => ?_
  rw [lowerElement_abs hg, lowerElement_abs hg, pivotAt_map hz, abs_mul, abs_mul, pivotAt_map hg]

/-- Relative changes of the stored numbers change the product of the factors only relative to absolute values. -/
theorem ldlt_rel (f : ArrowheadFactor K) (d : Dims) (N : Nat) (a b : Blk) (i j : Nat) :
    |(f.map g').ldlt d N a b i j - (f.map g).ldlt d N a b i j| ≤
      ((1 + τ) ^ 3 - 1) * (f.map (fun y => |g y|)).ldlt d N a b i j ∧
    (f.map (fun y => |g' y|)).ldlt d N a b i j ≤ (1 + τ) ^ 3 * (f.map (fun y => |g y|)).ldlt d N a b i j := by
  rw [ldlt_abs hg, ldlt_abs hg', mul_sum, mul_sum]
  constructor
  · unfold ArrowheadFactor.ldlt
    rw [← sum_sub_distrib]
    refine (abs_sum_le_sum_abs _ _).trans (sum_le_sum fun c _ => ?_)
    rw [← sum_sub_distrib, mul_sum]
    refine (abs_sum_le_sum_abs _ _).trans (sum_le_sum fun k _ => ?_)
    obtain ⟨q, h1, -, h3⟩ := term_rel hg hg' h h0 f N a b c i j k
    rw [h3, ← mul_sub_one, abs_mul, mul_comm]
    exact mul_le_mul_of_nonneg_right h1 (abs_nonneg _)
  · refine sum_le_sum fun c _ => ?_
    rw [mul_sum]
    refine sum_le_sum fun k _ => ?_
    obtain ⟨q, -, h2, h3⟩ := term_rel hg hg' h h0 f N a b c i j k
    rw [h3, abs_mul, mul_comm]
    exact mul_le_mul_of_nonneg_right h2 (abs_nonneg _)

end

end Ctldl
