import Verif.Lemmas.ForwardChain
import Verif.Lemmas.Single

/-! # The factorization of a single matrix as a sequence of eliminations -/

namespace Ctldl

variable {K : Type} [Zero K] [Sub K] [Mul K] [Div K]

theorem single_elim {method : Method} {f : DiagFactor K} {n r : Nat} (h : Closed1 f n) {m : MatIn K} (hm : Fits1 m f n)
    {L D : List K} (hlen : ∀ i < n, (f.sparsity.cols i).length ≤ r)
    (hr : ∀ i < n, SingleRow method f.sparsity (a22Of (.matrix m) f) (aDOf (.matrix m) f) (fun x _ => x)
      (val f.sparsity L) (fun a => D.getD a 0) i) :
    ∃ w, Elim (Finset.range n) (fun i => i) f.sparsity.Has
      (fun i j => m.sym (permAt f.permutation i) (permAt f.permutation j)) (val f.sparsity L) w (fun a => D.getD a 0) r := by
  have hrow : ∀ {i j}, f.sparsity.Has i j → i < n := fun hh => h.ok.rows ▸ h.ok.good.row_lt hh
  refine Elim.of_rows (fun x _ y _ h => h) ?_ ?_ ?_ ?_ ?_ ?_
  · intro i j hij
    have := h.ok.lower i j hij
    have := hrow hij
    exact ⟨Finset.mem_range.mpr this, Finset.mem_range.mpr (by omega), by omega⟩
  · intro i j k h1 h2 h3
    exact h.closed i k j h1 h2 h3
  · intro i j hi hj hji hn
    exact a22Of_zero hm.dims hm.subset (Finset.mem_range.mp hi) hji hn
  · intro i j hn
    exact val_off hn
  · intro i j
    simp only [MatIn.sym, Nat.max_comm, Nat.min_comm]
  · intro i hi
    rw [Finset.mem_range] at hi
    obtain ⟨c11, c21, z11, z21, g21, hc21, L11, L21, d1, a21, hrow⟩ := hr i hi
    obtain ⟨w1, w2, -, h2, t1, t2, -, h3, h4⟩ := hrow.block
    refine ⟨w2, fun {j} hj => (h2 j hj).1, fun {j} hj => ?_, ?_⟩
    · obtain ⟨-, s1, s2, -, k2, k3⟩ := h2 j hj
      rw [cols_empty z21, List.filter_nil, subAll_nil] at k3
      refine ⟨_, (h.ok.good.cols_nodup i).filter _, fun k => ?_, s2, fun k hk => ?_, k3⟩
      · rw [List.mem_filter, Csr.mem_cols, decide_eq_true_eq]
      · exact k2 k (Csr.mem_cols.mp (List.mem_filter.mp hk).1)
    · rw [cols_empty z21, subAll_nil] at h4
      exact ⟨_, h.ok.good.cols_nodup i, fun k => Csr.mem_cols, hlen i hi, t2, fun k hk => h3 k (Csr.mem_cols.mp hk), h4⟩

end Ctldl
