import Verif.Lemmas.RoundingChain
import Verif.Lemmas.Single

/-! # Rounding errors of the factorization of a single matrix -/

namespace Ctldl

open Finset

variable {K F : Type} [Zero K] [Sub K] [Mul K] [Div K] [Field F] [LinearOrder F] [IsStrictOrderedRing F]

namespace Rounding

variable {R : Rounding K F}

theorem singleRow {ε : F} (hε : 0 ≤ ε) {method : Method} {f : DiagFactor K} {n r : Nat} (h : Closed1 f n) {m : MatIn K}
    (hm : Fits1 m f n) {reg : K → Nat → K} {L D : List K} {i : Nat} (hi : i < n)
    (hd : ∀ j < n, R.fin (D.getD j 0)) (hx : ∀ x, D.getD i 0 = reg x i → R.fin x)
    (hs : R.Small ε f.sparsity (val f.sparsity L) (fun a => D.getD a 0)) (hlen : (f.sparsity.cols i).length ≤ r)
    (hr : SingleRow method f.sparsity (a22Of (.matrix m) f) (aDOf (.matrix m) f) reg (val f.sparsity L)
        (fun a => D.getD a 0) i) :
    (∀ j < i, R.Apx (r + 2) (R.v (m.sym (permAt f.permutation i) (permAt f.permutation j)))
      (ldlt n (fun a b => R.v (val f.sparsity L a b)) (fun a => R.v (D.getD a 0)) i j)
      (ldlt n (fun a b => R.av (val f.sparsity L a b)) (fun a => R.av (D.getD a 0)) i j) ((r + 1) * ε)) ∧
    ∃ x, D.getD i 0 = reg x i ∧ R.Apx (r + 2) (R.v (m.sym (permAt f.permutation i) (permAt f.permutation i)))
      (ldlt n (fun a b => R.v (val f.sparsity L a b)) (fun a => R.v (D.getD a 0)) i i + (R.v x - R.v (D.getD i 0)))
      (ldlt n (fun a b => R.av (val f.sparsity L a b)) (fun a => R.av (D.getD a 0)) i i +
        (R.av x - R.av (D.getD i 0))) ((r + 1) * ε) := by
  obtain ⟨c11, c21, z11, z21, g21, hc21, L11, L21, d1, a21, hrow⟩ := hr
  obtain ⟨x, e1, e2⟩ := apxEntries_method (R := R) (ε := ε) hrow (fun j h => absurd h (z21 i j))
    (fun j hj => hd j (h.ok.cols ▸ h.ok.good.col_lt hj)) (fun j k h => absurd h (z11 j k))
    (fun j k h => absurd h (z21 j k)) hs
  have hr := (e2 (hx x e1)).row hε g21 h.ok.good hc21 h.ok.cols (fun i j _ h => absurd h (z21 i j))
    (fun i j _ h => absurd h (z21 i j)) h.closed (by omega)
    (fun j hj hn => a22Of_zero hm.dims hm.subset hi hj hn)
  rw [cols_empty z21] at hr
  have hl : ∀ g : K → F, g 0 = 0 → ∀ i j, i ≤ j → g (val f.sparsity L i j) = 0 := by
    intro g hg a b hab
    rw [val_off fun hh => by
      have := h.ok.lower a b hh
      omega, hg]
  have hlen' : (1 + ((f.sparsity.cols i).length : F)) * ε ≤ (r + 1) * ε := by
    have : ((f.sparsity.cols i).length : F) ≤ r := by exact_mod_cast hlen
    exact mul_le_mul_of_nonneg_right (by linarith) hε
  refine ⟨fun j hj => ?_, x, e1, ?_⟩
  · rw [ldlt_lt (hl _ R.v_zero) hi hj, ldlt_lt (hl _ R.av_zero) hi hj]
    have := hr.e22 j hj
    simp only [tri, sum_range_zero, zero_add, Nat.cast_zero, add_zero, List.length_nil] at this
    exact this.mono (by omega) le_rfl hlen'
  · rw [ldlt_self (hl _ R.v_zero) hi, ldlt_self (hl _ R.av_zero) hi]
    have := hr.eD
    simp only [tri, sum_range_zero, zero_add, Nat.cast_zero, add_zero, List.length_nil] at this
    rw [show ∀ a b c : F, a + b + (c - b) = a + c from fun a b c => by ring,
      show ∀ a b c : F, a + b + (c - b) = a + c from fun a b c => by ring]
    exact this.mono (by omega) le_rfl hlen'

end Rounding

end Ctldl
