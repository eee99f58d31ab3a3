import Verif.Lemmas.Chain
import Verif.Lemmas.MultiplyRepeating

/-! # Steps of the arrowhead factorization on values -/

namespace Ctldl

section

variable {K : Type}

/-- Block of a chain: one first, `M` in the middle, one last. -/
def sel {α : Type _} (M : Nat) (first : α) (mid : Nat → α) (last : α) (p : Nat) : α :=
  match p with
  | 0 => first
  | t + 1 => if t < M then mid t else last

variable {α β γ : Type _}

theorem sel_zero (M : Nat) (a : α) (b : Nat → α) (c : α) : sel M a b c 0 = a := rfl

theorem sel_succ {M t : Nat} (h : t < M) (a : α) (b : Nat → α) (c : α) : sel M a b c (t + 1) = b t := by
  simp [sel, h]

theorem sel_last {M t : Nat} (h : M ≤ t) (a : α) (b : Nat → α) (c : α) : sel M a b c (t + 1) = c := by
  simp [sel, Nat.not_lt.mpr h]

theorem sel_map (M : Nat) (a : α) (b : Nat → α) (c : α) (f : α → β) (p : Nat) :
    f (sel M a b c p) = sel M (f a) (fun t => f (b t)) (f c) p := by
  unfold sel
  cases p with
  | zero => rfl
  | succ t => simp only; split <;> rfl

theorem sel_map₂ (M : Nat) (a : α) (b : Nat → α) (c : α) (a' : β) (b' : Nat → β) (c' : β) (f : α → β → γ) (p : Nat) :
    f (sel M a b c p) (sel M a' b' c' p) = sel M (f a a') (fun t => f (b t) (b' t)) (f c c') p := by
  unfold sel
  cases p with
  | zero => rfl
  | succ t => simp only; split <;> rfl

theorem sel_congr {M : Nat} {a a' : α} {b b' : Nat → α} {c c' : α} {p : Nat} (h1 : p = 0 → a = a')
    (h2 : ∀ t, p = t + 1 → t < M → b t = b' t) (h3 : M < p → c = c') : sel M a b c p = sel M a' b' c' p := by
  unfold sel
  cases p with
  | zero => exact h1 rfl
  | succ t =>
    simp only
    split
    · exact h2 t rfl (by omega)
    · exact h3 (by omega)

/-- Positions in a chain of `N + 3` blocks. -/
theorem pos_cases {N p : Nat} (h : p ≤ N + 2) : p = 0 ∨ (∃ t, t < N + 1 ∧ p = t + 1) ∨ p = N + 1 + 1 := by
  rcases p with _ | t
  · exact Or.inl rfl
  · by_cases ht : t < N + 1
    · exact Or.inr (Or.inl ⟨t, ht, rfl⟩)
    · exact Or.inr (Or.inr (by omega))

/-- Positions of couplings in a chain of `N + 3` blocks. -/
theorem pos_cases' {N p : Nat} (h : p < N + 2) : p = 0 ∨ (∃ t, t < N ∧ p = t + 1) ∨ p = N + 1 := by
  rcases p with _ | t
  · exact Or.inl rfl
  · by_cases ht : t < N
    · exact Or.inr (Or.inl ⟨t, ht, rfl⟩)
    · exact Or.inr (Or.inr (by omega))

theorem getD_set_if {v : List α} {i : Nat} (h : i < v.length) (x : α) (a : Nat) (y : α) :
    (v.set i x).getD a y = if a = i then x else v.getD a y := by
  rw [List.getD_eq_getElem?_getD, List.getElem?_set, List.getD_eq_getElem?_getD]
  by_cases ha : a = i
  · subst ha
    simp [h]
  · rw [if_neg (fun h => ha h.symm), if_neg ha]

theorem DiagFactor.OfType.diagOk {f : DiagFactor K} {c : Csr} {p : List Nat} {n : Nat} (h : f.OfType c p n)
    (hc : CsrOk c n n) (low : ∀ i j, c.Has i j → j < i) (hp : IsPerm p n) : DiagOk f n := by
  obtain ⟨c', p', L, D⟩ := f
  obtain ⟨h1, h2, h3, h4⟩ := h
  subst h1 h2
  exact ⟨hc.good, hc.rows, hc.cols, low, hp.length, h3, h4⟩

theorem SubFactor.OfType.subOk {f : SubFactor K} {c : Csr} {pr pc : List Nat} {r k : Nat} (h : f.OfType c pr pc)
    (hc : CsrOk c r k) (hr : IsPerm pr r) (hk : IsPerm pc k) : SubOk f r k := by
  obtain ⟨c', pr', pc', L⟩ := f
  obtain ⟨h1, h2, h3, h4⟩ := h
  subst h1 h2 h3
  exact ⟨hc.good, hc.rows, hc.cols, hr.length, hk.length, h4⟩

/-- A matrix which can be given for a diagonal block. -/
structure DiagFits (m : MatIn K) (c : Csr) (p : List Nat) (n : Nat) : Prop where
  sized : m.Sized
  dims : m.sparsity.OfDims n n
  subset : ∀ i j, LowerPermuted m.sparsity p i j → c.Has i j

/-- A matrix which can be given for an off-diagonal block. -/
structure SubFits (m : MatIn K) (c : Csr) (pr pc : List Nat) (r k : Nat) : Prop where
  sized : m.Sized
  dims : m.sparsity.OfDims r k
  subset : ∀ i j, RectPermuted m.sparsity pr pc i j → c.Has i j

variable [Zero K]

/-- Permuted symmetric matrix. -/
abbrev inA (m : MatIn K) (p : List Nat) (i j : Nat) : K := m.sym (permAt p i) (permAt p j)

/-- Diagonal of a permuted matrix. -/
abbrev inD (m : MatIn K) (p : List Nat) (i : Nat) : K := m.sym (permAt p i) (permAt p i)

/-- Permuted matrix. -/
abbrev inB (m : MatIn K) (pr pc : List Nat) (i j : Nat) : K := m.elem (permAt pr i) (permAt pc j)

theorem DiagFits.zero {m : MatIn K} {c : Csr} {p : List Nat} {n : Nat} (h : DiagFits m c p n) {i j : Nat}
    (hi : i < n) (hj : j < i) (hn : ¬ c.Has i j) : inA m p i j = 0 := by
  unfold inA MatIn.sym MatIn.elem
  rw [if_neg]
  intro hh
  exact hn (h.subset i j ⟨hj, by rw [h.dims.2.1]; exact hi, hh⟩)

theorem SubFits.zero {m : MatIn K} {c : Csr} {pr pc : List Nat} {r k : Nat} (h : SubFits m c pr pc r k) {i j : Nat}
    (hi : i < r) (hj : j < k) (hn : ¬ c.Has i j) : inB m pr pc i j = 0 := by
  unfold inB MatIn.elem
  rw [if_neg]
  intro hh
  exact hn (h.subset i j ⟨by rw [h.dims.2.1]; exact hi, by rw [h.dims.2.2]; exact hj, hh⟩)

/-- `fillWithOriginalMatrixValuesIncludingDiagonal` on values. -/
theorem fillIncludingDiagonal_sat {f : DiagFactor K} {c : Csr} {p : List Nat} {n : Nat} (h : f.OfType c p n)
    (hc : CsrOk c n n) (low : ∀ i j, c.Has i j → j < i) (hp : IsPerm p n) {m : MatIn K} (hm : m.Sized) :
    Sat (fillWithOriginalMatrixValuesIncludingDiagonal m f) (fun f' => f'.OfType c p n ∧
      (∀ i j, c.Has i j → val c f'.L i j = inA m p i j) ∧ ∀ i < n, f'.D.getD i 0 = inD m p i) := by
  have hf := h.diagOk hc low hp
  unfold fillWithOriginalMatrixValuesIncludingDiagonal
  rw [hf.rows]
  refine Sat.mono (foldlM_range_inv (fun k (f' : DiagFactor K) => f'.OfType c p n ∧
      (∀ i j, i < k → c.Has i j → val c f'.L i j = inA m p i j) ∧ ∀ i < k, f'.D.getD i 0 = inD m p i)
    ⟨h, fun _ _ h => by omega, fun _ h => by omega⟩ ?_) ?_
  · rintro k f' hk ⟨h1, h2, h3⟩
    have hf' := h1.diagOk hc low hp
    obtain ⟨c', p', L, D⟩ := f'
    obtain ⟨q1, q2, q3, q4⟩ := h1
    simp only at q1 q2 q3 q4
    subst q1 q2
    refine Sat.bind (initializeFactorRow_sat (init := .matrix m) (orig := origDiag p') hc.good hm q3
      (by rw [hc.rows]; exact hk) ?_) ?_
    · intro j hj
      exact hf'.origEntry (i := k) (j := j) hk (by have := low k j hj; omega)
    · rintro L' ⟨r1, r2⟩
      unfold fillDiagonalWithOriginalMatrixValue DiagFactor.origRowIndex
      simp only
      rw [rd_permAt (by rw [hp.length]; exact hk), ok_bind, getMatrixValueAt_eq hm, ok_bind,
        wr_ok (by rw [q4]; exact hk), ok_bind]
      refine Sat.ok ⟨⟨rfl, rfl, r1, by simp [q4]⟩, ?_, ?_⟩
      · intro i j hi hij
        simp only at h2 ⊢
        rw [r2]
        by_cases hik : i = k
        · subst hik
          rw [if_pos ⟨rfl, hij⟩]
          rfl
        · rw [if_neg (fun h => hik h.1)]
          exact h2 i j (by omega) hij
      · intro i hi
        simp only at h3 ⊢
        rw [getD_set (by rw [q4]; exact hk)]
        by_cases hik : i = k
        · subst hik
          rw [if_pos rfl]
          simp [MatIn.sym]
        · rw [if_neg hik]
          exact h3 i (by omega)
  · rintro f' ⟨h1, h2, h3⟩
    exact ⟨h1, fun i j hij => h2 i j (hc.rows ▸ hc.good.row_lt hij) hij, h3⟩

variable [Sub K] [Mul K] [Div K]

/-- Factorization of the first block. -/
theorem firstStep_sat {c : Csr} {p : List Nat} {n : Nat} (hc : CsrOk c n n) (low : ∀ i j, c.Has i j → j < i)
    (hp : IsPerm p n) (small : n ≤ noParent)
    (closed : ∀ i j k, c.Has i j → c.Has k j → k < i → c.Has i k) {f : DiagFactor K} (h : f.OfType c p n)
    {m : MatIn K} (hm : DiagFits m c p n) (reg : K → Nat → K) (method : Method) :
    Sat (f.factorize m reg method) (fun f' => f'.OfType c p n ∧
      ∀ i < n, SingleRow method c (inA m p) (inD m p) reg (val c f'.L) (fun a => f'.D.getD a 0) i) := by
  have hf := h.diagOk hc low hp
  obtain ⟨c', p', L, D⟩ := f
  obtain ⟨h1, h2, h3, h4⟩ := h
  simp only at h1 h2 h3 h4
  subst h1 h2
  refine Sat.mono (factorize_sat (n := n) ⟨hf, hp, small, closed⟩ ⟨hm.sized, hm.dims, hm.subset⟩ reg method) ?_
  rintro f' ⟨L', D', rfl, q1, q2, q3⟩
  exact ⟨⟨rfl, rfl, q1, q2⟩, q3⟩

/-- Factorization of two blocks. -/
theorem blockStep_sat {c11 c21 c22 : Csr} {p1 p2 : List Nat} {n1 n2 : Nat} (k11 : CsrOk c11 n1 n1)
    (k21 : CsrOk c21 n2 n1) (k22 : CsrOk c22 n2 n2) (low11 : ∀ i j, c11.Has i j → j < i)
    (low22 : ∀ i j, c22.Has i j → j < i) (hp1 : IsPerm p1 n1) (hp2 : IsPerm p2 n2) (small : n1 + n2 ≤ noParent)
    (hcl : Closed2 c11.Has c21.Has c22.Has) {f11 : DiagFactor K} {f21 : SubFactor K} {f22 : DiagFactor K}
    (h11 : f11.OfType c11 p1 n1) (h21 : f21.OfType c21 p2 p1) (h22 : f22.OfType c22 p2 n2) {m21 m22 : MatIn K}
    (hm21 : SubFits m21 c21 p2 p1 n2 n1) (hm22 : DiagFits m22 c22 p2 n2) (reg : K → Nat → K) (method : Method) :
    Sat (factorizeBlocks f11 (.matrix m21) (.matrix m22) f21 f22 reg method) (fun st =>
      st.1.OfType c21 p2 p1 ∧ st.2.OfType c22 p2 n2 ∧
      ∀ i < n2, MethodRow method c11 c21 c22 (val c11 f11.L) (fun a => f11.D.getD a 0) (inB m21 p2 p1) (inA m22 p2)
        (inD m22 p2) reg (val c21 st.1.L) (val c22 st.2.L) (fun a => st.2.D.getD a 0) i) := by
  have g11 := h11.diagOk k11 low11 hp1
  have g21 := h21.subOk k21 hp2 hp1
  have g22 := h22.diagOk k22 low22 hp2
  obtain ⟨_, _, L11, D11⟩ := f11
  obtain ⟨_, _, _, L21⟩ := f21
  obtain ⟨_, _, L22, D22⟩ := f22
  obtain ⟨rfl, rfl, a3, a4⟩ := h11
  obtain ⟨rfl, rfl, e3, b4⟩ := h21
  obtain ⟨rfl, e4, d3, d4⟩ := h22
  simp only at e3 e4
  subst e3 e4
  refine Sat.mono (factorizeBlocks_sat (init21 := .matrix m21) (init22 := .matrix m22) g11 g21 g22
    ⟨hp2, hp2, hp1, small⟩ hm21.dims hm22.dims hm21.sized hm22.sized
    hcl ⟨hm22.subset, hm21.subset⟩ reg method) ?_
  rintro st ⟨M21, M22, E, rfl, q1, q2, q3, q4⟩
  exact ⟨⟨rfl, rfl, rfl, q1⟩, ⟨rfl, rfl, q2, q3⟩, q4⟩

/-- Factorization of two blocks which already contain their initial values. -/
theorem blockStepNone_sat {c11 c21 c22 : Csr} {p1 p2 : List Nat} {n1 n2 : Nat} (k11 : CsrOk c11 n1 n1)
    (k21 : CsrOk c21 n2 n1) (k22 : CsrOk c22 n2 n2) (low11 : ∀ i j, c11.Has i j → j < i)
    (low22 : ∀ i j, c22.Has i j → j < i) (hp1 : IsPerm p1 n1) (hp2 : IsPerm p2 n2) (small : n1 + n2 ≤ noParent)
    (hcl : Closed2 c11.Has c21.Has c22.Has) {f11 : DiagFactor K} {f21 : SubFactor K} {f22 : DiagFactor K}
    (h11 : f11.OfType c11 p1 n1) (h21 : f21.OfType c21 p2 p1) (h22 : f22.OfType c22 p2 n2) (reg : K → Nat → K)
    (method : Method) :
    Sat (factorizeBlocks f11 (.none n2 n1) (.none n2 n2) f21 f22 reg method) (fun st =>
      st.1.OfType c21 p2 p1 ∧ st.2.OfType c22 p2 n2 ∧
      ∀ i < n2, MethodRow method c11 c21 c22 (val c11 f11.L) (fun a => f11.D.getD a 0) (val c21 f21.L)
        (val c22 f22.L) (fun a => f22.D.getD a 0) reg (val c21 st.1.L) (val c22 st.2.L)
        (fun a => st.2.D.getD a 0) i) := by
  have g11 := h11.diagOk k11 low11 hp1
  have g21 := h21.subOk k21 hp2 hp1
  have g22 := h22.diagOk k22 low22 hp2
  obtain ⟨_, _, L11, D11⟩ := f11
  obtain ⟨_, _, _, L21⟩ := f21
  obtain ⟨_, _, L22, D22⟩ := f22
  obtain ⟨rfl, rfl, a3, a4⟩ := h11
  obtain ⟨rfl, rfl, e3, b4⟩ := h21
  obtain ⟨rfl, e4, d3, d4⟩ := h22
  simp only at e3 e4
  subst e3 e4
  have hsub : ∀ r k, ∀ i j, ¬ (Init.none r k : Init K).sparsity.Has i j := by
    intro r k i j h
    simp [Init.sparsity, emptySparsity, Sparsity.Has] at h
  have hdim : ∀ r k, InitDims (Init.none r k : Init K) r k := by
    intro r k
    refine ⟨fun e he => ?_, rfl, rfl⟩
    simp [Init.sparsity, emptySparsity] at he
  refine Sat.mono (factorizeBlocks_sat (init21 := .none n2 n1) (init22 := .none n2 n2) g11 g21 g22
    ⟨hp2, hp2, hp1, small⟩ (hdim _ _) (hdim _ _)
    ⟨k21.rows.symm, k21.cols.symm⟩ ⟨k22.rows.symm, k22.cols.symm⟩ hcl
    ⟨fun i j h => absurd h.2.2 (hsub _ _ _ _), fun i j h => absurd h.2.2 (hsub _ _ _ _)⟩ reg method) ?_
  rintro st ⟨M21, M22, E, rfl, q1, q2, q3, q4⟩
  exact ⟨⟨rfl, rfl, rfl, q1⟩, ⟨rfl, rfl, q2, q3⟩, q4⟩

/-- Initial values for the partial factorization. -/
def partialInit (init : Init K) (c : Csr) (pr pc : List Nat) (L : List K) : Nat → Nat → K :=
  match init with
  | .none _ _ => val c L
  | .matrix m => inB m pr pc

/-- Partial factorization. -/
theorem partialStep_sat {c11 c21 c31 c32 c33 : Csr} {p1 p2 p3 : List Nat} {n1 n2 n3 : Nat} (k11 : CsrOk c11 n1 n1)
    (k21 : CsrOk c21 n2 n1) (k31 : CsrOk c31 n3 n1) (k32 : CsrOk c32 n3 n2) (k33 : CsrOk c33 n3 n3)
    (low11 : ∀ i j, c11.Has i j → j < i) (low33 : ∀ i j, c33.Has i j → j < i) (hp1 : IsPerm p1 n1)
    (hp2 : IsPerm p2 n2) (hp3 : IsPerm p3 n3)
    (o1 : ∀ i j k, c31.Has i j → c11.Has k j → c31.Has i k) (o2 : ∀ i j k, c31.Has i j → c21.Has k j → c32.Has i k)
    (o3 : ∀ i j k, c31.Has i j → c31.Has k j → k < i → c33.Has i k)
    {f11 : DiagFactor K} {f21 f31 f32 : SubFactor K} {f33 : DiagFactor K}
    (h11 : f11.OfType c11 p1 n1) (h21 : f21.OfType c21 p2 p1) (h31 : f31.OfType c31 p3 p1)
    (h32 : f32.OfType c32 p3 p2) (h33 : f33.OfType c33 p3 n3) {init31 : Init K} {m32 : MatIn K}
    (hi31 : InitOk init31 c31) (hm32 : m32.Sized) :
    Sat (factorizePartialUpLooking f11 f21 init31 (.matrix m32) (.none n3 n3) f31 f32 f33) (fun st =>
      st.1.OfType c31 p3 p1 ∧ st.2.1.OfType c32 p3 p2 ∧ st.2.2.OfType c33 p3 n3 ∧
      ∀ i < n3, PartialRow c11 c21 c31 c32 c33 (val c11 f11.L) (val c21 f21.L) (fun a => f11.D.getD a 0)
        (partialInit init31 c31 p3 p1 f31.L) (inB m32 p3 p2) (val c33 f33.L) (fun a => f33.D.getD a 0)
        (val c31 st.1.L) (val c32 st.2.1.L) (val c33 st.2.2.L) (fun a => st.2.2.D.getD a 0) i) := by
  have g11 := h11.diagOk k11 low11 hp1
  have g21 := h21.subOk k21 hp2 hp1
  have g31 := h31.subOk k31 hp3 hp1
  have g32 := h32.subOk k32 hp3 hp2
  have g33 := h33.diagOk k33 low33 hp3
  obtain ⟨s11, r11, L11, D11⟩ := f11
  obtain ⟨s21, r21, t21, L21⟩ := f21
  obtain ⟨s31, r31, t31, L31⟩ := f31
  obtain ⟨s32, r32, t32, L32⟩ := f32
  obtain ⟨s33, r33, L33, D33⟩ := f33
  obtain ⟨e1, e2, a3, a4⟩ := h11
  obtain ⟨e3, e4, e5, b4⟩ := h21
  obtain ⟨e6, e7, e8, c4⟩ := h31
  obtain ⟨e9, e10, e11, d4⟩ := h32
  obtain ⟨e12, e13, f3, f4⟩ := h33
  simp only at e1 e2 e3 e4 e5 e6 e7 e8 e9 e10 e11 e12 e13
  subst e1 e2 e3 e4 e5 e6 e7 e8 e9 e10 e11 e12 e13
  refine Sat.mono (factorizePartial_sat (init33 := .none n3 n3) ⟨g11, g21, g31, g32, g33, o1, o2, o3⟩ hi31 hm32
    ⟨k33.rows.symm, k33.cols.symm⟩) ?_
  rintro st ⟨M31, M32, M33, E, rfl, q1, q2, q3, q4, q5⟩
  refine ⟨⟨rfl, rfl, rfl, q1⟩, ⟨rfl, rfl, rfl, q2⟩, ⟨rfl, rfl, q3, q4⟩, ?_⟩
  cases init31 with
  | none _ _ => exact q5
  | matrix m => exact q5

end

end Ctldl
